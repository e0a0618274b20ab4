import Verif.Fem.PoissonDemo
import Mathlib.Analysis.Calculus.IteratedDeriv.Defs
import Mathlib.Analysis.Convex.Deriv

/-!
# One-dimensional estimates for C148

Interpolation error, second difference and the mean of the two-point Gauss rule with the hat function.
-/
namespace Verif.Fem.Conv
open Finset Set

theorem hasD {p : ℝ → ℝ} {n : ℕ} (hp : ContDiff ℝ n p) (k : ℕ) (hk : k < n) (t : ℝ) : HasDerivAt (iteratedDeriv k p) (iteratedDeriv (k + 1) p t) t := by
  rw [iteratedDeriv_succ]
  exact (hp.differentiable_iteratedDeriv k (by exact_mod_cast hk) t).hasDerivAt

/-- One-sided interpolation estimate. -/
theorem interp_le {f f1 f2 : ℝ → ℝ} (h1 : ∀ t, HasDerivAt f (f1 t) t) (h2 : ∀ t, HasDerivAt f1 (f2 t) t) {a h M ξ : ℝ} (hh : 0 ≤ h) (hM : ∀ t ∈ Icc a (a + h), -M ≤ f2 t)
    (h0 : 0 ≤ ξ) (hξ : ξ ≤ 1) : f (a + ξ * h) - ((1 - ξ) * f a + ξ * f (a + h)) ≤ M * (ξ * (1 - ξ)) * h ^ 2 / 2 := by
  have e1 : ∀ t, HasDerivAt (fun t => f t + M / 2 * t ^ 2) (f1 t + M * t) t := fun t => by
    refine ((h1 t).add (((hasDerivAt_id t).pow 2).const_mul (M / 2))).congr_deriv ?_
    simp only [id]
    ring
  have e2 : ∀ t, HasDerivAt (fun t => f1 t + M * t) (f2 t + M) t := fun t => by
    refine ((h2 t).add ((hasDerivAt_id t).const_mul M)).congr_deriv ?_
    ring
  have d1 : deriv (fun t => f t + M / 2 * t ^ 2) = fun t => f1 t + M * t := funext fun t => (e1 t).deriv
  have hc : ConvexOn ℝ (Icc a (a + h)) (fun t => f t + M / 2 * t ^ 2) := by
    refine convexOn_of_deriv2_nonneg' (convex_Icc _ _) (fun t _ => (e1 t).differentiableAt.differentiableWithinAt) (fun t _ => ?_) fun t ht => ?_
    · rw [d1]
      exact (e2 t).differentiableAt.differentiableWithinAt
    · rw [show (deriv^[2] fun t => f t + M / 2 * t ^ 2) = deriv (deriv fun t => f t + M / 2 * t ^ 2) from rfl, d1, (e2 t).deriv]
      have := hM t ht
      linarith
  have := hc.2 (left_mem_Icc.mpr (by linarith)) (right_mem_Icc.mpr (by linarith)) (show 0 ≤ 1 - ξ by linarith) h0 (by ring)
  simp only [smul_eq_mul] at this
  rw [show (1 - ξ) * a + ξ * (a + h) = a + ξ * h by ring] at this
  linarith [show M * (ξ * (1 - ξ)) * h ^ 2 / 2 = (1 - ξ) * (M / 2 * a ^ 2) + ξ * (M / 2 * (a + h) ^ 2) - M / 2 * (a + ξ * h) ^ 2 by ring]

/-- Error of linear interpolation. -/
theorem interp_abs {f f1 f2 : ℝ → ℝ} (h1 : ∀ t, HasDerivAt f (f1 t) t) (h2 : ∀ t, HasDerivAt f1 (f2 t) t) {a h M ξ : ℝ} (hh : 0 ≤ h) (hM : ∀ t ∈ Icc a (a + h), |f2 t| ≤ M)
    (h0 : 0 ≤ ξ) (hξ : ξ ≤ 1) : |(1 - ξ) * f a + ξ * f (a + h) - f (a + ξ * h)| ≤ M * (ξ * (1 - ξ)) * h ^ 2 / 2 := by
  have k1 := interp_le h1 h2 hh (fun t ht => (abs_le.mp (hM t ht)).1) h0 hξ
  have k2 := interp_le (f := fun t => -f t) (f1 := fun t => -f1 t) (f2 := fun t => -f2 t) (fun t => (h1 t).neg) (fun t => (h2 t).neg) hh (fun t ht => by have := (abs_le.mp (hM t ht)).2; linarith) h0 hξ
  rw [abs_le]
  constructor <;> linarith

/-- Symmetric second difference. -/
theorem second_abs {f f1 f2 : ℝ → ℝ} (h1 : ∀ t, HasDerivAt f (f1 t) t) (h2 : ∀ t, HasDerivAt f1 (f2 t) t) {x s M : ℝ} (hs : 0 ≤ s) (hM : ∀ t ∈ Icc (x - s) (x + s), |f2 t| ≤ M) :
    |f (x + s) + f (x - s) - 2 * f x| ≤ M * s ^ 2 := by
  have k := interp_abs (a := x - s) (h := 2 * s) (M := M) (ξ := 1 / 2) h1 h2 (by linarith) (fun t ht => hM t (by rwa [show x - s + 2 * s = x + s by ring] at ht)) (by norm_num) (by norm_num)
  rw [show x - s + 2 * s = x + s by ring, show x - s + 1 / 2 * (2 * s) = x by ring] at k
  rw [abs_le] at k ⊢
  constructor <;> linarith [k.1, k.2]

/-- Twice integrated bound. -/
theorem twice_le {φ φ1 φ2 : ℝ → ℝ} (h1 : ∀ t, HasDerivAt φ (φ1 t) t) (h2 : ∀ t, HasDerivAt φ1 (φ2 t) t) {h M : ℝ} (hh : 0 ≤ h) (z0 : φ 0 = 0) (z1 : φ1 0 = 0)
    (hM : ∀ t ∈ Icc 0 h, φ2 t ≤ M * t ^ 2) : φ h ≤ M * h ^ 4 / 12 := by
  have e1 : ∀ t, HasDerivAt (fun t => M * t ^ 3 / 3 - φ1 t) (M * t ^ 2 - φ2 t) t := fun t => by
    refine (((((hasDerivAt_id t).pow 3).const_mul M).div_const 3).sub (h2 t)).congr_deriv ?_
    simp only [id]
    ring
  have e0 : ∀ t, HasDerivAt (fun t => M * t ^ 4 / 12 - φ t) (M * t ^ 3 / 3 - φ1 t) t := fun t => by
    refine (((((hasDerivAt_id t).pow 4).const_mul M).div_const 12).sub (h1 t)).congr_deriv ?_
    simp only [id]
    ring
  have m1 : MonotoneOn (fun t => M * t ^ 3 / 3 - φ1 t) (Icc 0 h) := by
    refine monotoneOn_of_deriv_nonneg (convex_Icc _ _) (fun t _ => (e1 t).continuousAt.continuousWithinAt) (fun t _ => (e1 t).differentiableAt.differentiableWithinAt) fun t ht => ?_
    rw [(e1 t).deriv]
    have := hM t (interior_subset ht)
    linarith
  have m0 : MonotoneOn (fun t => M * t ^ 4 / 12 - φ t) (Icc 0 h) := by
    refine monotoneOn_of_deriv_nonneg (convex_Icc _ _) (fun t _ => (e0 t).continuousAt.continuousWithinAt) (fun t _ => (e0 t).differentiableAt.differentiableWithinAt) fun t ht => ?_
    rw [(e0 t).deriv]
    have ht' := interior_subset ht
    have := m1 (left_mem_Icc.mpr hh) ht' ht'.1
    simp only [z1] at this
    linarith
  have := m0 (left_mem_Icc.mpr hh) (right_mem_Icc.mpr hh) hh
  simp only [z0] at this
  linarith

/-- The second difference and the second derivative. -/
theorem fourth_abs {p : ℝ → ℝ} (hp : ContDiff ℝ 4 p) {x h M : ℝ} (hh : 0 ≤ h) (hM : ∀ t ∈ Icc (x - h) (x + h), |iteratedDeriv 4 p t| ≤ M) :
    |p (x + h) + p (x - h) - 2 * p x - h ^ 2 * iteratedDeriv 2 p x| ≤ M * h ^ 4 / 12 := by
  have d := fun k hk t => hasD (n := 4) (by exact_mod_cast hp) k hk t
  have d0 : ∀ t, HasDerivAt p (iteratedDeriv 1 p t) t := fun t => by
    have := d 0 (by norm_num) t
    rwa [iteratedDeriv_zero] at this
  have sh : ∀ (f : ℝ → ℝ) (f' : ℝ → ℝ), (∀ t, HasDerivAt f (f' t) t) → ∀ t, HasDerivAt (fun t => f (x + t)) (f' (x + t)) t := fun f f' hf t => (hf (x + t)).comp_const_add x t
  have sm : ∀ (f : ℝ → ℝ) (f' : ℝ → ℝ), (∀ t, HasDerivAt f (f' t) t) → ∀ t, HasDerivAt (fun t => f (x - t)) (-f' (x - t)) t := fun f f' hf t => (hf (x - t)).comp_const_sub x t
  set A := iteratedDeriv 2 p x with hA
  have g1 : ∀ t, HasDerivAt (fun t => p (x + t) + p (x - t) - 2 * p x - t ^ 2 * A) (iteratedDeriv 1 p (x + t) - iteratedDeriv 1 p (x - t) - 2 * t * A) t := fun t => by
    refine ((((sh _ _ d0 t).add (sm _ _ d0 t)).sub_const (2 * p x)).sub (((hasDerivAt_id t).pow 2).mul_const A)).congr_deriv ?_
    simp only [id]
    ring
  have g2 : ∀ t, HasDerivAt (fun t => iteratedDeriv 1 p (x + t) - iteratedDeriv 1 p (x - t) - 2 * t * A) (iteratedDeriv 2 p (x + t) + iteratedDeriv 2 p (x - t) - 2 * A) t := fun t => by
    refine (((sh _ _ (d 1 (by norm_num)) t).sub (sm _ _ (d 1 (by norm_num)) t)).sub ((((hasDerivAt_id t).const_mul 2)).mul_const A)).congr_deriv ?_
    ring
  have key : ∀ t ∈ Icc 0 h, |iteratedDeriv 2 p (x + t) + iteratedDeriv 2 p (x - t) - 2 * A| ≤ M * t ^ 2 := fun t ht =>
    second_abs (d 2 (by norm_num)) (d 3 (by norm_num)) ht.1 fun s hs => hM s ⟨by linarith [hs.1, ht.2], by linarith [hs.2, ht.2]⟩
  rw [abs_le]
  constructor
  · have := twice_le (fun t => (g1 t).neg) (fun t => (g2 t).neg) hh (by simp; ring) (by simp) fun t ht => by have := (abs_le.mp (key t ht)).1; linarith
    simp only [Pi.neg_apply] at this
    linarith
  · exact twice_le g1 g2 hh (by simp; ring) (by simp) fun t ht => (abs_le.mp (key t ht)).2

/-- Specification: mean of `f` against the hat function with nodes `x - h, x, x + h` by the two-point rule on both sides. -/
noncomputable def hatMean (f : ℝ → ℝ) (x h : ℝ) : ℝ := (1 / 2) * ∑ b : Bool, (1 - gaussPoint b) * (f (x + gaussPoint b * h) + f (x - gaussPoint b * h))

theorem gauss_facts : gaussPoint true + gaussPoint false = 1 ∧ gaussPoint true * gaussPoint false = 1 / 6 ∧ ∀ b, 0 ≤ gaussPoint b ∧ gaussPoint b ≤ 1 ∧ gaussPoint b * (1 - gaussPoint b) = 1 / 6 := by
  have h := gauss_moments
  refine ⟨by linarith [h.1], by linarith [h.2], fun b => ⟨(gaussPoint_nonneg b).1, (gaussPoint_nonneg b).2, ?_⟩⟩
  cases b
  · rw [show 1 - gaussPoint false = gaussPoint true by linarith [h.1]]
    exact h.2
  · rw [show 1 - gaussPoint true = gaussPoint false by linarith [h.1], mul_comm]
    exact h.2

theorem hatMean_abs {f f1 f2 : ℝ → ℝ} (h1 : ∀ t, HasDerivAt f (f1 t) t) (h2 : ∀ t, HasDerivAt f1 (f2 t) t) {x h M : ℝ} (hh : 0 ≤ h) (hM : ∀ t ∈ Icc (x - h) (x + h), |f2 t| ≤ M) :
    |hatMean f x h - f x| ≤ M * h ^ 2 / 12 := by
  obtain ⟨g1, g2, g3⟩ := gauss_facts
  have k : ∀ b, |f (x + gaussPoint b * h) + f (x - gaussPoint b * h) - 2 * f x| ≤ M * (gaussPoint b * h) ^ 2 := fun b => by
    refine second_abs h1 h2 (mul_nonneg (g3 b).1 hh) fun t ht => hM t ?_
    have : gaussPoint b * h ≤ h := mul_le_of_le_one_left hh (g3 b).2.1
    exact ⟨by linarith [ht.1], by linarith [ht.2]⟩
  have e : hatMean f x h - f x = (1 / 2) * ((1 - gaussPoint true) * (f (x + gaussPoint true * h) + f (x - gaussPoint true * h) - 2 * f x)
      + (1 - gaussPoint false) * (f (x + gaussPoint false * h) + f (x - gaussPoint false * h) - 2 * f x)) := by
    unfold hatMean
    rw [Fintype.sum_bool]
    linear_combination -f x * g1
  have b1 := mul_le_mul_of_nonneg_left (k true) (sub_nonneg.mpr (g3 true).2.1)
  have b2 := mul_le_mul_of_nonneg_left (k false) (sub_nonneg.mpr (g3 false).2.1)
  rw [← abs_of_nonneg (sub_nonneg.mpr (g3 true).2.1), ← abs_mul, abs_of_nonneg (sub_nonneg.mpr (g3 true).2.1)] at b1
  rw [← abs_of_nonneg (sub_nonneg.mpr (g3 false).2.1), ← abs_mul, abs_of_nonneg (sub_nonneg.mpr (g3 false).2.1)] at b2
  have s : (1 - gaussPoint true) * (M * (gaussPoint true * h) ^ 2) + (1 - gaussPoint false) * (M * (gaussPoint false * h) ^ 2) = M * h ^ 2 / 6 := by
    linear_combination (M * h ^ 2 * gaussPoint true) * (g3 true).2.2 + (M * h ^ 2 * gaussPoint false) * (g3 false).2.2 + M * h ^ 2 / 6 * g1
  rw [e, abs_mul, abs_of_pos (by norm_num : (0 : ℝ) < 1 / 2)]
  have := abs_add_le ((1 - gaussPoint true) * (f (x + gaussPoint true * h) + f (x - gaussPoint true * h) - 2 * f x)) ((1 - gaussPoint false) * (f (x + gaussPoint false * h) + f (x - gaussPoint false * h) - 2 * f x))
  linarith

/-- Specification: consistency error of the scheme at `x`. -/
noncomputable def defect (p : ℝ → ℝ) (x h : ℝ) : ℝ := hatMean (iteratedDeriv 2 p) x h - (p (x + h) + p (x - h) - 2 * p x) / h ^ 2

theorem defect_abs {p : ℝ → ℝ} (hp : ContDiff ℝ 4 p) {x h M : ℝ} (hh : 0 < h) (hM : ∀ t ∈ Icc (x - h) (x + h), |iteratedDeriv 4 p t| ≤ M) : |defect p x h| ≤ M * h ^ 2 / 6 := by
  have d := fun k hk t => hasD (n := 4) (by exact_mod_cast hp) k hk t
  have k1 := hatMean_abs (d 2 (by norm_num)) (d 3 (by norm_num)) hh.le hM
  have k2 := fourth_abs hp hh.le hM
  have k3 : |(p (x + h) + p (x - h) - 2 * p x) / h ^ 2 - iteratedDeriv 2 p x| ≤ M * h ^ 2 / 12 := by
    rw [show (p (x + h) + p (x - h) - 2 * p x) / h ^ 2 - iteratedDeriv 2 p x = (p (x + h) + p (x - h) - 2 * p x - h ^ 2 * iteratedDeriv 2 p x) / h ^ 2 by field_simp, abs_div, abs_of_pos (show (0 : ℝ) < h ^ 2 by positivity),
      div_le_iff₀ (by positivity)]
    linarith [show M * h ^ 2 / 12 * h ^ 2 = M * h ^ 4 / 12 by ring]
  unfold defect
  rw [abs_le] at *
  constructor <;> linarith [k1.1, k1.2, k3.1, k3.2]

/-- Mean slope and derivative. -/
theorem slope_abs {p : ℝ → ℝ} (hp : ContDiff ℝ 4 p) {a h M x : ℝ} (hh : 0 < h) (hx : x ∈ Icc a (a + h)) (hM : ∀ t ∈ Icc a (a + h), |iteratedDeriv 2 p t| ≤ M) :
    |(p (a + h) - p a) / h - iteratedDeriv 1 p x| ≤ M * h := by
  have d := fun k hk t => hasD (n := 4) (by exact_mod_cast hp) k hk t
  have d0 : ∀ t, HasDerivAt p (iteratedDeriv 1 p t) t := fun t => by
    have := d 0 (by norm_num) t
    rwa [iteratedDeriv_zero] at this
  obtain ⟨c, hc, e⟩ := exists_hasDerivAt_eq_slope p (iteratedDeriv 1 p) (show a < a + h by linarith) (fun t _ => (d0 t).continuousAt.continuousWithinAt) fun t _ => d0 t
  rw [show a + h - a = h by ring] at e
  rw [← e]
  have := Convex.norm_image_sub_le_of_norm_hasDerivWithin_le (f := iteratedDeriv 1 p) (f' := iteratedDeriv 2 p) (C := M) (fun t _ => (d 1 (by norm_num) t).hasDerivWithinAt) (fun t ht => by rw [Real.norm_eq_abs]; exact hM t ht)
    (convex_Icc a (a + h)) hx ⟨hc.1.le, hc.2.le⟩
  rw [Real.norm_eq_abs, Real.norm_eq_abs] at this
  refine this.trans (mul_le_mul_of_nonneg_left ?_ ((abs_nonneg _).trans (hM x hx)))
  rw [abs_le]
  exact ⟨by linarith [hc.1, hx.2], by linarith [hc.2, hx.1]⟩

end Verif.Fem.Conv
