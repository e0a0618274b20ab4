import Verif.Fem.ConvErrors
import Mathlib.Analysis.Calculus.ContDiff.FTaylorSeries
import Mathlib.Analysis.Calculus.MeanValue

/-!
# C148: error bounds for every smooth solution
-/
namespace Verif.Fem.Conv
open Finset Verif.SourceId Verif.Mesh

/-- Points and directions of space. -/
abbrev Pt := Fin 3 → ℝ

/-! ## Derivatives along lines -/

theorem line_deriv {u : Pt → ℝ} (hu : ContDiff ℝ 4 u) (k : ℕ) (hk : k < 4) (w : Fin k → Pt) (y v : Pt) (t : ℝ) :
    HasDerivAt (fun t : ℝ => iteratedFDeriv ℝ k u (y + t • v) w) (iteratedFDeriv ℝ (k + 1) u (y + t • v) (Fin.cons v w)) t := by
  have h1 : HasDerivAt (fun t : ℝ => y + t • v) v t := by
    have := ((hasDerivAt_id t).smul_const v).const_add y
    simpa using this
  have h2 : HasFDerivAt (iteratedFDeriv ℝ k u) (fderiv ℝ (iteratedFDeriv ℝ k u) (y + t • v)) (y + t • v) :=
    (hu.differentiable_iteratedFDeriv (by exact_mod_cast hk) _).hasFDerivAt
  have h3 := (h2.continuousMultilinear_apply_const w).comp_hasDerivAt t h1
  rw [iteratedFDeriv_succ_apply_left, Fin.cons_zero, Fin.tail_cons]
  exact h3

theorem line_iter {u : Pt → ℝ} (hu : ContDiff ℝ 4 u) (y v : Pt) (k : ℕ) (hk : k ≤ 4) : iteratedDeriv k (fun t : ℝ => u (y + t • v)) = fun t => iteratedFDeriv ℝ k u (y + t • v) fun _ => v := by
  induction k with
  | zero => rw [iteratedDeriv_zero]; funext t; rw [iteratedFDeriv_zero_apply]
  | succ k ih =>
    rw [iteratedDeriv_succ, ih (by omega)]
    funext t
    rw [(line_deriv hu k (by omega) (fun _ => v) y v t).deriv]
    refine congrArg _ (funext fun i => ?_)
    refine Fin.cases ?_ (fun j => ?_) i <;> simp

theorem line_smooth {u : Pt → ℝ} (hu : ContDiff ℝ 4 u) (y v : Pt) : ContDiff ℝ 4 fun t : ℝ => u (y + t • v) := hu.comp (by fun_prop)

theorem apply_le {u : Pt → ℝ} {k : ℕ} {y : Pt} {M : ℝ} (hM : ‖iteratedFDeriv ℝ k u y‖ ≤ M) (w : Fin k → Pt) : |iteratedFDeriv ℝ k u y w| ≤ M * ∏ i, ‖w i‖ :=
  ((iteratedFDeriv ℝ k u y).le_opNorm w).trans (mul_le_mul_of_nonneg_right hM (prod_nonneg fun _ _ => norm_nonneg _))

theorem single_norm (d : Fin 3) : ‖(Pi.single d 1 : Pt)‖ = 1 := by rw [Pi.norm_single, norm_one]

theorem force_eq {u : Pt → ℝ} (hu : ContDiff ℝ 4 u) (x : Pt) : bodyForce u x = -∑ d, iteratedFDeriv ℝ 2 u x fun _ => Pi.single d 1 := by
  unfold bodyForce
  refine congrArg _ (sum_congr rfl fun d _ => ?_)
  rw [line_iter hu x (Pi.single d 1) 2 (by norm_num)]
  simp

/-- Second difference of the body force. -/
theorem force_second {u : Pt → ℝ} (hu : ContDiff ℝ 4 u) {x v : Pt} {M h : ℝ} (hv : ‖v‖ ≤ h) (hM : ∀ t ∈ Set.Icc (-1 : ℝ) 1, ‖iteratedFDeriv ℝ 4 u (x + t • v)‖ ≤ M) :
    |bodyForce u (x + v) + bodyForce u (x - v) - 2 * bodyForce u x| ≤ 3 * M * h ^ 2 := by
  have hM0 : 0 ≤ M := (norm_nonneg _).trans (hM 0 ⟨by norm_num, by norm_num⟩)
  have d1 : ∀ t, HasDerivAt (fun t : ℝ => -∑ d : Fin 3, iteratedFDeriv ℝ 2 u (x + t • v) fun _ => Pi.single d 1) (-∑ d : Fin 3, iteratedFDeriv ℝ 3 u (x + t • v) (Fin.cons v fun _ => Pi.single d 1)) t := fun t =>
    (HasDerivAt.fun_sum fun d _ => line_deriv hu 2 (by norm_num) _ x v t).neg
  have d2 : ∀ t, HasDerivAt (fun t : ℝ => -∑ d : Fin 3, iteratedFDeriv ℝ 3 u (x + t • v) (Fin.cons v fun _ => Pi.single d 1)) (-∑ d : Fin 3, iteratedFDeriv ℝ 4 u (x + t • v) (Fin.cons v (Fin.cons v fun _ => Pi.single d 1))) t := fun t =>
    (HasDerivAt.fun_sum fun d _ => line_deriv hu 3 (by norm_num) _ x v t).neg
  have k := second_abs d1 d2 (x := 0) (s := 1) (M := 3 * M * h ^ 2) zero_le_one fun t ht => by
    rw [abs_neg]
    refine (abs_sum_le_sum_abs _ _).trans ?_
    have hb : ∀ d : Fin 3, |iteratedFDeriv ℝ 4 u (x + t • v) (Fin.cons v (Fin.cons v fun _ => Pi.single d 1))| ≤ M * h ^ 2 := fun d => by
      refine (apply_le (hM t (by simpa using ht)) _).trans ?_
      refine mul_le_mul_of_nonneg_left ?_ hM0
      rw [Fin.prod_univ_succ, Fin.prod_univ_succ]
      simp only [Fin.cons_zero, Fin.cons_succ, single_norm, prod_const_one, mul_one]
      nlinarith [norm_nonneg v]
    refine (sum_le_sum fun d _ => hb d).trans (le_of_eq ?_)
    simp
    ring
  simp only [← force_eq hu] at k
  simpa [sub_eq_add_neg] using k

/-- Fourth order expansion of the second difference. -/
theorem value_fourth {u : Pt → ℝ} (hu : ContDiff ℝ 4 u) {x v : Pt} {M h : ℝ} (hv : ‖v‖ ≤ h) (hM : ∀ t ∈ Set.Icc (-1 : ℝ) 1, ‖iteratedFDeriv ℝ 4 u (x + t • v)‖ ≤ M) :
    |u (x + v) + u (x - v) - 2 * u x - iteratedFDeriv ℝ 2 u x fun _ => v| ≤ M * h ^ 4 / 12 := by
  have hM0 : 0 ≤ M := (norm_nonneg _).trans (hM 0 ⟨by norm_num, by norm_num⟩)
  have k := fourth_abs (line_smooth hu x v) (x := 0) (h := 1) (M := M * h ^ 4) zero_le_one fun t ht => by
    rw [line_iter hu x v 4 le_rfl]
    refine (apply_le (hM t (by simpa using ht)) _).trans (mul_le_mul_of_nonneg_left ?_ hM0)
    rw [prod_const, card_univ, Fintype.card_fin]
    exact pow_le_pow_left₀ (norm_nonneg v) hv 4
  rw [line_iter hu x v 2 (by norm_num)] at k
  simpa [sub_eq_add_neg] using k

theorem once_le {φ φ1 φ2 : ℝ → ℝ} (h1 : ∀ t, HasDerivAt φ (φ1 t) t) (h2 : ∀ t, HasDerivAt φ1 (φ2 t) t) {M : ℝ} (hM : ∀ t ∈ Set.Icc (0 : ℝ) 1, φ2 t ≤ M) : φ 1 - φ 0 - φ1 0 ≤ M / 2 := by
  have m1 : MonotoneOn (fun t => M * t - φ1 t) (Set.Icc 0 1) := monotoneOn_of_deriv_nonneg (convex_Icc 0 1) (fun t _ => (((hasDerivAt_id t).const_mul M).sub (h2 t)).continuousAt.continuousWithinAt)
    (fun t _ => (((hasDerivAt_id t).const_mul M).sub (h2 t)).differentiableAt.differentiableWithinAt) fun t ht => by
      rw [interior_Icc] at ht
      have : deriv (fun t => M * t - φ1 t) t = M * 1 - φ2 t := (((hasDerivAt_id t).const_mul M).sub (h2 t)).deriv
      rw [this]
      have := hM t ⟨ht.1.le, ht.2.le⟩
      linarith
  have e : ∀ t, HasDerivAt (fun t => M / 2 * t ^ 2 + φ1 0 * t - φ t) (M * t + φ1 0 - φ1 t) t := fun t => by
    refine ((((((hasDerivAt_id t).pow 2).const_mul (M / 2)).add ((hasDerivAt_id t).const_mul (φ1 0))).sub (h1 t))).congr_deriv ?_
    simp only [id]
    ring
  have m2 : MonotoneOn (fun t => M / 2 * t ^ 2 + φ1 0 * t - φ t) (Set.Icc 0 1) := monotoneOn_of_deriv_nonneg (convex_Icc 0 1) (fun t _ => (e t).continuousAt.continuousWithinAt)
    (fun t _ => (e t).differentiableAt.differentiableWithinAt) fun t ht => by
      rw [interior_Icc] at ht
      rw [(e t).deriv]
      have := m1 ⟨le_rfl, zero_le_one⟩ ⟨ht.1.le, ht.2.le⟩ ht.1.le
      simp only at this
      linarith
  have := m2 ⟨le_rfl, zero_le_one⟩ ⟨zero_le_one, le_rfl⟩ zero_le_one
  simp only at this
  linarith

/-- First order expansion. -/
theorem value_first {u : Pt → ℝ} (hu : ContDiff ℝ 4 u) {x v : Pt} {M h : ℝ} (hv : ‖v‖ ≤ h) (hM : ∀ t ∈ Set.Icc (0 : ℝ) 1, ‖iteratedFDeriv ℝ 2 u (x + t • v)‖ ≤ M) :
    |u (x + v) - u x - iteratedFDeriv ℝ 1 u x fun _ => v| ≤ M * h ^ 2 / 2 := by
  have hM0 : 0 ≤ M := (norm_nonneg _).trans (hM 0 ⟨le_rfl, zero_le_one⟩)
  have d0 : ∀ t, HasDerivAt (fun t : ℝ => u (x + t • v)) (iteratedFDeriv ℝ 1 u (x + t • v) fun _ => v) t := fun t => by
    have := line_deriv hu 0 (by norm_num) (fun _ => v) x v t
    simp only [iteratedFDeriv_zero_apply] at this
    refine this.congr_deriv (congrArg _ (funext fun i => ?_))
    refine Fin.cases ?_ (fun j => ?_) i <;> simp
  have d1 : ∀ t, HasDerivAt (fun t : ℝ => iteratedFDeriv ℝ 1 u (x + t • v) fun _ => v) (iteratedFDeriv ℝ 2 u (x + t • v) fun _ => v) t := fun t => by
    refine (line_deriv hu 1 (by norm_num) (fun _ => v) x v t).congr_deriv (congrArg _ (funext fun i => ?_))
    refine Fin.cases ?_ (fun j => ?_) i <;> simp
  have hb : ∀ t ∈ Set.Icc (0 : ℝ) 1, |iteratedFDeriv ℝ 2 u (x + t • v) fun _ => v| ≤ M * h ^ 2 := fun t ht => by
    refine (apply_le (hM t ht) _).trans (mul_le_mul_of_nonneg_left ?_ hM0)
    rw [prod_const, card_univ, Fintype.card_fin]
    exact pow_le_pow_left₀ (norm_nonneg v) hv 2
  have k1 := once_le d0 d1 fun t ht => (abs_le.mp (hb t ht)).2
  have k2 := once_le (fun t => (d0 t).neg) (fun t => (d1 t).neg) (M := M * h ^ 2) fun t ht => by have := (abs_le.mp (hb t ht)).1; linarith
  simp only [zero_smul, one_smul, add_zero, Pi.neg_apply] at k1 k2
  rw [abs_le]
  constructor <;> linarith

/-! ## The stencil -/

/-- Entry of the cell matrix on a cube of unit size, times eight. -/
noncomputable def weight (p p' : Fin 8) : ℝ := ∑ d : Fin 3, ∏ a : Fin 3, if a = d then 2 * (Verif.Fem.slope (hexCorner p' a) * Verif.Fem.slope (hexCorner p a)) else if hexCorner p a = hexCorner p' a then 2 / 3 else 1 / 3

/-- Offset of corner `p'` from corner `p`. -/
def off (p p' : Fin 8) : Pt := fun a => (hexCorner p' a : ℝ) - hexCorner p a

theorem weight_comm (p p' : Fin 8) : weight p p' = weight p' p := by
  unfold weight
  refine sum_congr rfl fun d _ => prod_congr rfl fun a _ => ?_
  rw [mul_comm (Verif.Fem.slope (hexCorner p' a))]
  simp only [eq_comm]

theorem off_comm (p p' : Fin 8) : off p' p = -off p p' := by
  funext a
  simp [off]

theorem off_abs (p p' : Fin 8) (a : Fin 3) : |off p p' a| ≤ 1 := by
  have h1 := hexCorner_le p a
  have h2 := hexCorner_le p' a
  unfold off
  interval_cases hexCorner p a <;> interval_cases hexCorner p' a <;> norm_num

/-- Sums over pairs of corners factorize. -/
theorem pair_sum (k : Fin 3 → ℕ → ℕ → ℝ) : ∑ p : Fin 8, ∑ p' : Fin 8, ∏ a, k a (hexCorner p a) (hexCorner p' a) = ∏ a, (k a 0 0 + k a 0 1 + k a 1 0 + k a 1 1) := by
  simp only [Fin.sum_univ_eight, Fin.prod_univ_three]
  simp [hexCorner]
  ring

theorem weight_abs : ∑ p, ∑ p', |weight p p'| ≤ 96 := by
  have h : ∀ p p', |weight p p'| ≤ ∑ d : Fin 3, ∏ a : Fin 3, (fun (a : Fin 3) (t t' : ℕ) => if a = d then (2 : ℝ) else if t = t' then 2 / 3 else 1 / 3) a (hexCorner p a) (hexCorner p' a) := fun p p' => by
    unfold weight
    refine (abs_sum_le_sum_abs _ _).trans (sum_le_sum fun d _ => ?_)
    rw [abs_prod]
    refine prod_le_prod (fun _ _ => abs_nonneg _) fun a _ => ?_
    have h1 := hexCorner_le p a
    have h2 := hexCorner_le p' a
    by_cases ha : a = d
    · simp only [if_pos ha]
      interval_cases hexCorner p a <;> interval_cases hexCorner p' a <;> simp [Verif.Fem.slope]
    · simp only [if_neg ha]
      split_ifs <;> norm_num
  refine (sum_le_sum fun p _ => sum_le_sum fun p' _ => h p p').trans (le_of_eq ?_)
  rw [sum_congr rfl fun p _ => sum_comm, sum_comm]
  simp only [fun d : Fin 3 => pair_sum fun (a : Fin 3) (t t' : ℕ) => if a = d then (2 : ℝ) else if t = t' then 2 / 3 else 1 / 3]
  simp only [Fin.sum_univ_three, Fin.prod_univ_three]
  simp
  norm_num

/-- Second moments of the stencil. -/
theorem weight_second (i j : Fin 3) : ∑ p, ∑ p', weight p p' * (off p p' i * off p p' j) = if i = j then -16 else 0 := by
  have h : ∀ p p', weight p p' * (off p p' i * off p p' j) = ∑ d : Fin 3, ∏ a : Fin 3, (fun (a : Fin 3) (t t' : ℕ) => (if a = d then 2 * (Verif.Fem.slope t' * Verif.Fem.slope t) else if t = t' then 2 / 3 else 1 / 3) * ((if a = i then ((t' : ℝ) - t) else 1) * (if a = j then ((t' : ℝ) - t) else 1))) a (hexCorner p a) (hexCorner p' a) := fun p p' => by
    unfold weight off
    rw [sum_mul]
    refine sum_congr rfl fun d _ => ?_
    simp only [prod_mul_distrib, prod_ite_eq' univ i, prod_ite_eq' univ j, mem_univ, if_true]
  rw [sum_congr rfl fun p _ => sum_congr rfl fun p' _ => h p p']
  rw [sum_congr rfl fun p _ => sum_comm, sum_comm]
  simp only [fun d : Fin 3 => pair_sum fun (a : Fin 3) (t t' : ℕ) => (if a = d then 2 * (Verif.Fem.slope t' * Verif.Fem.slope t) else if t = t' then 2 / 3 else 1 / 3) * ((if a = i then ((t' : ℝ) - t) else 1) * (if a = j then ((t' : ℝ) - t) else 1))]
  simp only [Fin.sum_univ_three, Fin.prod_univ_three]
  fin_cases i <;> fin_cases j <;> simp [Verif.Fem.slope] <;> norm_num

theorem weight_row (p : Fin 8) : ∑ p', weight p p' = 0 := by
  unfold weight
  simp only [Fin.sum_univ_eight, Fin.sum_univ_three, Fin.prod_univ_three]
  fin_cases p <;> simp [hexCorner, Verif.Fem.slope] <;> norm_num

/-- Second derivatives as a quadratic form. -/
theorem second_form (u : Pt → ℝ) (x v : Pt) : (iteratedFDeriv ℝ 2 u x fun _ => v) = ∑ i, ∑ j, v i * v j * iteratedFDeriv ℝ 2 u x ![Pi.single i 1, Pi.single j 1] := by
  have e : v = ∑ i, v i • (Pi.single i 1 : Pt) := by
    funext a
    simp [Finset.sum_apply, Pi.single_apply]
  have h0 : (fun _ : Fin 2 => v) = fun _ : Fin 2 => ∑ i, v i • (Pi.single i 1 : Pt) := funext fun _ => e
  rw [h0, ContinuousMultilinearMap.map_sum]
  have h1 : ∀ r : Fin 2 → Fin 3, (iteratedFDeriv ℝ 2 u x fun i => v (r i) • (Pi.single (r i) 1 : Pt)) = v (r 0) * v (r 1) * iteratedFDeriv ℝ 2 u x ![Pi.single (r 0) 1, Pi.single (r 1) 1] := fun r => by
    rw [ContinuousMultilinearMap.map_smul_univ (iteratedFDeriv ℝ 2 u x) (fun i => v (r i)) fun i => (Pi.single (r i) 1 : Pt), Fin.prod_univ_two, smul_eq_mul]
    refine congrArg _ (congrArg _ (funext fun i => ?_))
    fin_cases i <;> rfl
  rw [sum_congr rfl fun r _ => h1 r, ← Fintype.sum_prod_type', ← (finTwoArrowEquiv (Fin 3)).sum_comp]
  rfl

variable {nf nfq : ℕ} {F : Fem 8 (2 ^ 3) nf nfq 3 1} {N : Fin 3 → ℕ} {L : Fin 3 → ℝ}

/-- Place of a grid node. -/
def place (h : ℝ) (m : Fin 3 → ℕ) : Pt := fun a => m a * h

theorem place_corner (G : Grid F N L) {h : ℝ} (hc : Cubes N L h) {m : Fin 3 → ℕ} (hm : Inner N m) (p p' : Fin 8) : F.points (boxCell N (cellOf m p) p') = place h m + h • off p p' := by
  funext a
  have hle : hexCorner p a ≤ m a := by
    have := hm a
    have := hexCorner_le p a
    omega
  unfold boxCell
  rw [G.box.point _ (fun a => corner_le (hm.cell p) p' a) a, hc a]
  show ((m a - hexCorner p a + hexCorner p' a : ℕ) : ℝ) * h = m a * h + h * ((hexCorner p' a : ℝ) - hexCorner p a)
  push_cast [Nat.cast_sub hle]
  ring

theorem near (G : Grid F N L) {h : ℝ} (hc : Cubes N L h) {m : Fin 3 → ℕ} (hm : Inner N m) {v : Pt} (hv : ‖v‖ ≤ h) {t : ℝ} (ht : t ∈ Set.Icc (-1 : ℝ) 1) : place h m + t • v ∈ Set.Icc 0 L := by
  have k : ∀ a, |t * v a| ≤ h := fun a => by
    rw [abs_mul]
    have h1 : |v a| ≤ h := (norm_le_pi_norm v a).trans hv
    have h2 : |t| ≤ 1 := abs_le.mpr ht
    nlinarith [abs_nonneg t, abs_nonneg (v a)]
  refine ⟨fun a => ?_, fun a => ?_⟩
  · have hi := grid_Icc G.posN G.posL hm a
    rw [hc a] at hi
    have := (abs_le.mp (k a)).1
    show 0 ≤ m a * h + t * v a
    linarith
  · have hi := grid_Icc G.posN G.posL hm a
    rw [hc a] at hi
    have := (abs_le.mp (k a)).2
    show m a * h + t * v a ≤ L a
    linarith

theorem lap_smooth (G : Grid F N L) {h : ℝ} (hc : Cubes N L h) {u : Pt → ℝ} (hu : ContDiff ℝ 4 u) {M : ℝ} (hM : ∀ y ∈ Set.Icc 0 L, ‖iteratedFDeriv ℝ 4 u y‖ ≤ M) (m : Fin 3 → ℕ) (hm : Inner N m) :
    |lap F N (fun n => u (F.points n)) m - h ^ 3 * bodyForce u (place h m)| ≤ h ^ 3 * (M * h ^ 2 / 2) := by
  have h0 : 0 < h := by rw [← hc 0]; exact G.h_pos 0
  set x := place h m with hx
  have e1 : lap F N (fun n => u (F.points n)) m = h / 8 * ∑ p, ∑ p', weight p p' * u (x + h • off p p') := by
    rw [lap_entry, mul_sum]
    refine sum_congr rfl fun p _ => ?_
    rw [mul_sum]
    refine sum_congr rfl fun p' _ => ?_
    rw [entry_eq G.box G.tables G.posN G.posL hc _ (hm.cell p), place_corner G hc hm]
    show u (x + h • off p p') * (h ^ 3 / (8 * h ^ 2) * weight p p') = _
    field_simp
  have e2 : ∑ p, ∑ p', weight p p' * u (x + h • off p p') = ∑ p, ∑ p', weight p p' * u (x - h • off p p') := by
    rw [sum_comm]
    refine sum_congr rfl fun p _ => sum_congr rfl fun p' _ => ?_
    rw [weight_comm, off_comm, smul_neg, sub_eq_add_neg]
  have e3 : ∑ p, ∑ p', weight p p' * u x = 0 := sum_eq_zero fun p _ => by rw [← sum_mul, weight_row, zero_mul]
  have e4 : ∑ p, ∑ p', weight p p' * (iteratedFDeriv ℝ 2 u x fun _ => h • off p p') = 16 * h ^ 2 * bodyForce u x := by
    have k : ∀ p p', weight p p' * (iteratedFDeriv ℝ 2 u x fun _ => h • off p p') = ∑ i, ∑ j, h ^ 2 * iteratedFDeriv ℝ 2 u x ![Pi.single i 1, Pi.single j 1] * (weight p p' * (off p p' i * off p p' j)) := fun p p' => by
      rw [second_form, mul_sum]
      refine sum_congr rfl fun i _ => ?_
      rw [mul_sum]
      refine sum_congr rfl fun j _ => ?_
      simp only [Pi.smul_apply, smul_eq_mul]
      ring
    rw [sum_congr rfl fun p _ => sum_congr rfl fun p' _ => k p p', sum_congr rfl fun p _ => sum_comm, sum_comm]
    rw [force_eq hu, mul_neg, mul_sum, ← sum_neg_distrib]
    refine sum_congr rfl fun i _ => ?_
    rw [sum_congr rfl fun p _ => sum_comm, sum_comm, sum_eq_single i]
    · simp only [← mul_sum]
      rw [weight_second, if_pos rfl]
      have : (![Pi.single i 1, Pi.single i 1] : Fin 2 → Pt) = fun _ => Pi.single i 1 := by
        funext r
        fin_cases r <;> rfl
      rw [this]
      ring
    · intro j _ hj
      simp only [← mul_sum]
      rw [weight_second, if_neg (Ne.symm hj), mul_zero]
    · exact fun hh => absurd (mem_univ i) hh
  have hv : ∀ p p', ‖h • off p p'‖ ≤ h := fun p p' => by
    rw [norm_smul, Real.norm_of_nonneg h0.le]
    have : ‖off p p'‖ ≤ 1 := (pi_norm_le_iff_of_nonneg zero_le_one).mpr fun a => off_abs p p' a
    nlinarith
  have e5 : lap F N (fun n => u (F.points n)) m - h ^ 3 * bodyForce u x
      = h / 16 * ∑ p, ∑ p', weight p p' * (u (x + h • off p p') + u (x - h • off p p') - 2 * u x - iteratedFDeriv ℝ 2 u x fun _ => h • off p p') := by
    simp only [mul_sub, mul_add, sum_sub_distrib, sum_add_distrib]
    rw [e4, ← e2, e1]
    have e6 : ∑ p, ∑ p', weight p p' * (2 * u x) = 0 := by
      rw [← mul_zero (2 : ℝ), ← e3, mul_sum]
      refine sum_congr rfl fun p _ => ?_
      rw [mul_sum]
      exact sum_congr rfl fun p' _ => by ring
    rw [e6]
    ring
  rw [e5, abs_mul, abs_of_pos (by positivity : 0 < h / 16)]
  have hb : |∑ p, ∑ p', weight p p' * (u (x + h • off p p') + u (x - h • off p p') - 2 * u x - iteratedFDeriv ℝ 2 u x fun _ => h • off p p')| ≤ 96 * (M * h ^ 4 / 12) := by
    have hM0 : 0 ≤ M := (norm_nonneg _).trans (hM 0 ⟨le_rfl, fun a => (G.posL a).le⟩)
    refine le_trans ?_ (mul_le_mul_of_nonneg_right weight_abs (by positivity))
    rw [sum_mul]
    refine (abs_sum_le_sum_abs _ _).trans (sum_le_sum fun p _ => ?_)
    rw [sum_mul]
    refine (abs_sum_le_sum_abs _ _).trans (sum_le_sum fun p' _ => ?_)
    rw [abs_mul]
    exact mul_le_mul_of_nonneg_left (value_fourth hu (hv p p') fun t ht => hM _ (near G hc hm (hv p p') ht)) (abs_nonneg _)
  have := mul_le_mul_of_nonneg_left hb (by positivity : 0 ≤ h / 16)
  linarith [show h / 16 * (96 * (M * h ^ 4 / 12)) = h ^ 3 * (M * h ^ 2 / 2) by ring]

/-! ## The load -/

/-- The opposite corner. -/
def opp : Fin 8 → Fin 8 := ![6, 7, 4, 5, 2, 3, 0, 1]

theorem opp_inv : Function.Involutive opp := by unfold Function.Involutive; decide

theorem opp_corner : ∀ (p : Fin 8) (a : Fin 3), hexCorner (opp p) a = 1 - hexCorner p a := by decide

theorem rev_bit : ∀ (q : Fin (2 ^ 3)) (a : Fin 3), ((Fin.rev q : Fin (2 ^ 3)) : ℕ).testBit (3 - 1 - a) = !((q : ℕ).testBit (3 - 1 - a)) := by decide

theorem pt_rev (q : Fin (2 ^ 3)) (a : Fin 3) : (gaussRule 3).pt (Fin.rev q) a = 1 - (gaussRule 3).pt q a := by
  show gaussPoint (((Fin.rev q : Fin (2 ^ 3)) : ℕ).testBit (3 - 1 - a)) = 1 - gaussPoint ((q : ℕ).testBit (3 - 1 - a))
  rw [rev_bit]
  obtain ⟨g1, -, -⟩ := gauss_facts
  cases (q : ℕ).testBit (3 - 1 - a)
  · simp only [Bool.not_false]; linarith
  · simp only [Bool.not_true]; linarith

/-- Place of a Gauss point relative to a node. -/
noncomputable def goff (p : Fin 8) (q : Fin (2 ^ 3)) : Pt := fun a => (gaussRule 3).pt q a - hexCorner p a

theorem goff_opp (p : Fin 8) (q : Fin (2 ^ 3)) : goff (opp p) (Fin.rev q) = -goff p q := by
  funext a
  show (gaussRule 3).pt (Fin.rev q) a - (hexCorner (opp p) a : ℝ) = -((gaussRule 3).pt q a - hexCorner p a)
  rw [pt_rev, opp_corner]
  have := hexCorner_le p a
  push_cast [Nat.cast_sub this]
  ring

theorem shape_opp (p : Fin 8) (q : Fin (2 ^ 3)) : shapeVal hex8 (opp p) ((gaussRule 3).pt (Fin.rev q)) = shapeVal hex8 p ((gaussRule 3).pt q) := by
  rw [shapeVal_hex8, shapeVal_hex8]
  refine prod_congr rfl fun a _ => ?_
  rw [pt_rev, opp_corner]
  have := hexCorner_le p a
  interval_cases hexCorner p a <;> simp [lin]

theorem goff_norm (p : Fin 8) (q : Fin (2 ^ 3)) : ‖goff p q‖ ≤ 1 := (pi_norm_le_iff_of_nonneg zero_le_one).mpr fun a => by
  obtain ⟨-, k2, k3⟩ := pt_gauss q a
  show |(gaussRule 3).pt q a - hexCorner p a| ≤ 1
  have := hexCorner_le p a
  interval_cases hexCorner p a
  · rw [abs_le]; push_cast; constructor <;> linarith
  · rw [abs_le]; push_cast; constructor <;> linarith

theorem load_smooth (G : Grid F N L) {h : ℝ} (hc : Cubes N L h) {u : Pt → ℝ} (hu : ContDiff ℝ 4 u) {M : ℝ} (hM : ∀ y ∈ Set.Icc 0 L, ‖iteratedFDeriv ℝ 4 u y‖ ≤ M) (m : Fin 3 → ℕ) (hm : Inner N m) :
    |loadOf F N (bodyForce u) m - h ^ 3 * bodyForce u (place h m)| ≤ h ^ 3 * (3 * M * h ^ 2 / 2) := by
  have h0 : 0 < h := by rw [← hc 0]; exact G.h_pos 0
  set x := place h m with hx
  have hpr : ∏ a, L a / (N a : ℝ) = h ^ 3 := by
    rw [prod_congr rfl fun a _ => hc a]
    simp
  have hw : ∀ q, (gaussRule 3).w q = 1 / 8 := fun q => by
    simp only [gaussRule]
    norm_num
  have e1 : loadOf F N (bodyForce u) m = h ^ 3 / 8 * ∑ p : Fin 8, ∑ q, shapeVal hex8 p ((gaussRule 3).pt q) * bodyForce u (x + h • goff p q) := by
    unfold loadOf
    rw [mul_sum]
    refine sum_congr rfl fun p _ => ?_
    rw [mul_sum]
    refine sum_congr rfl fun q _ => ?_
    have hxx : F.xAt (boxCell N (cellOf m p)) q = x + h • goff p q := by
      funext a
      rw [xAt_box G.box G.tables _ (hm.cell p), hc a]
      have hle : hexCorner p a ≤ m a := by
        have := hm a
        have := hexCorner_le p a
        omega
      show (((m a - hexCorner p a : ℕ) : ℝ) + (gaussRule 3).pt q a) * h = m a * h + h * ((gaussRule 3).pt q a - hexCorner p a)
      push_cast [Nat.cast_sub hle]
      ring
    rw [hxx, G.box.JxW _ G.tables _ (hm.cell p), hpr, G.tables.vals, hw]
    ring
  have e2 : ∑ p : Fin 8, ∑ q, shapeVal hex8 p ((gaussRule 3).pt q) * bodyForce u (x + h • goff p q) = ∑ p : Fin 8, ∑ q, shapeVal hex8 p ((gaussRule 3).pt q) * bodyForce u (x - h • goff p q) := by
    rw [← Equiv.sum_comp opp_inv.toPerm]
    refine sum_congr rfl fun p _ => ?_
    rw [← Equiv.sum_comp Fin.revPerm]
    refine sum_congr rfl fun q _ => ?_
    show shapeVal hex8 (opp p) ((gaussRule 3).pt (Fin.rev q)) * bodyForce u (x + h • goff (opp p) (Fin.rev q)) = _
    rw [shape_opp, goff_opp, smul_neg, sub_eq_add_neg]
  have hone : ∀ q, ∑ p : Fin 8, shapeVal hex8 p ((gaussRule 3).pt q) = 1 := fun q => by
    rw [← G.mesh.unity q]
    exact sum_congr rfl fun p _ => (G.tables.vals q p).symm
  have e3 : ∑ p : Fin 8, ∑ q, shapeVal hex8 p ((gaussRule 3).pt q) = 8 := by
    rw [sum_comm, sum_congr rfl fun q _ => hone q]
    simp
  have hs0 : ∀ (p : Fin 8) q, 0 ≤ shapeVal hex8 p ((gaussRule 3).pt q) := fun p q => (hex8_pos q p).le
  have e4 : loadOf F N (bodyForce u) m - h ^ 3 * bodyForce u x = h ^ 3 / 16 * ∑ p : Fin 8, ∑ q, shapeVal hex8 p ((gaussRule 3).pt q) * (bodyForce u (x + h • goff p q) + bodyForce u (x - h • goff p q) - 2 * bodyForce u x) := by
    simp only [mul_sub, mul_add, sum_sub_distrib, sum_add_distrib, ← sum_mul]
    rw [e3, ← e2, e1]
    ring
  have hv : ∀ p q, ‖h • goff p q‖ ≤ h := fun p q => by
    rw [norm_smul, Real.norm_of_nonneg h0.le]
    have := goff_norm p q
    nlinarith
  rw [e4, abs_mul, abs_of_pos (by positivity : 0 < h ^ 3 / 16)]
  have hb : |∑ p : Fin 8, ∑ q, shapeVal hex8 p ((gaussRule 3).pt q) * (bodyForce u (x + h • goff p q) + bodyForce u (x - h • goff p q) - 2 * bodyForce u x)| ≤ 8 * (3 * M * h ^ 2) := by
    rw [← e3, sum_mul]
    refine (abs_sum_le_sum_abs _ _).trans (sum_le_sum fun p _ => ?_)
    rw [sum_mul]
    refine (abs_sum_le_sum_abs _ _).trans (sum_le_sum fun q _ => ?_)
    rw [abs_mul, abs_of_nonneg (hs0 p q)]
    exact mul_le_mul_of_nonneg_left (force_second hu (hv p q) fun t ht => hM _ (near G hc hm (hv p q) ht)) (hs0 p q)
  have := mul_le_mul_of_nonneg_left hb (by positivity : 0 ≤ h ^ 3 / 16)
  linarith [show h ^ 3 / 16 * (8 * (3 * M * h ^ 2)) = h ^ 3 * (3 * M * h ^ 2 / 2) by ring]

/-! ## Interpolation -/

theorem mem_box (G : Grid F N L) {h : ℝ} (hc : Cubes N L h) {g : Fin 3 → ℕ} (hg : g ∈ boxGrid N) {z : Pt} (hz : ∀ a, 0 ≤ z a ∧ z a ≤ 1) : (fun a => (g a + z a) * h) ∈ Set.Icc 0 L := by
  have h0 : 0 < h := by rw [← hc 0]; exact G.h_pos 0
  refine ⟨fun a => ?_, fun a => ?_⟩
  · have := (hz a).1
    show 0 ≤ (g a + z a) * h
    positivity
  · have := cell_Icc G hg a
    rw [hc a] at this
    have := mul_le_mul_of_nonneg_right (hz a).2 h0.le
    show (g a + z a) * h ≤ L a
    linarith [add_mul (g a : ℝ) (z a) h]

theorem xAt_place (G : Grid F N L) {h : ℝ} (hc : Cubes N L h) {g : Fin 3 → ℕ} (hg : g ∈ boxGrid N) (q : Fin (2 ^ 3)) : F.xAt (boxCell N g) q = fun a => (g a + (gaussRule 3).pt q a) * h := by
  funext a
  rw [xAt_box G.box G.tables g hg, hc a]

theorem corner_place (G : Grid F N L) {h : ℝ} (hc : Cubes N L h) {g : Fin 3 → ℕ} (hg : g ∈ boxGrid N) (p : Fin 8) : F.points (boxCell N g p) = fun a => (g a + (hexCorner p a : ℝ)) * h := by
  funext a
  unfold boxCell
  rw [G.box.point _ (fun a => corner_le hg p a) a, hc a]
  push_cast
  rfl

theorem jac_smooth {u : Pt → ℝ} (hu : ContDiff ℝ 4 u) (x : Pt) (d : Fin 3) : jacRev (fun x (_ : Fin 1) => u x) x 0 d = iteratedFDeriv ℝ 1 u x fun _ => Pi.single d 1 := by
  unfold jacRev
  have := congrFun (line_iter hu x (Pi.single d 1) 1 (by norm_num)) 0
  rw [iteratedDeriv_one] at this
  rw [this, zero_smul, add_zero]

theorem coord_slope (G : Grid F N L) {g : Fin 3 → ℕ} (hg : g ∈ boxGrid N) (q : Fin (2 ^ 3)) (a d : Fin 3) : SourceId.slope F (fun n => F.points n a) (boxCell N g) q d = if a = d then 1 else 0 := by
  have hs : Additive N (fun e i => if e = a then (i : ℝ) * (L a / N a) else 0) fun n => F.points n a := fun m hm => by
    show F.points (gridNode N m) a = _
    rw [G.box.point m hm a, sum_eq_single a (fun b _ hb => if_neg hb) (fun h => absurd (mem_univ a) h), if_pos rfl]
  rw [slope_add G.box G.tables G.posN G.posL hs g hg q d]
  by_cases had : a = d
  · subst had
    have := (G.h_pos a).ne'
    simp only [if_true]
    rw [← sub_mul, mul_div_cancel_right₀ _ this]
    push_cast
    ring
  · simp only [if_neg had, if_neg (Ne.symm had)]
    simp

/-- Values and gradients of the nodal interpolation. -/
theorem interp_smooth (G : Grid F N L) {h : ℝ} (hc : Cubes N L h) {u : Pt → ℝ} (hu : ContDiff ℝ 4 u) {M : ℝ} (hM : ∀ y ∈ Set.Icc 0 L, ‖iteratedFDeriv ℝ 2 u y‖ ≤ M) (g : Fin 3 → ℕ) (hg : g ∈ boxGrid N) (q : Fin (2 ^ 3)) :
    |SourceId.val F (fun n => u (F.points n)) (boxCell N g) q - u (F.xAt (boxCell N g) q)| ≤ M * h ^ 2 / 2 ∧
    ∀ d, |SourceId.slope F (fun n => u (F.points n)) (boxCell N g) q d - jacRev (fun x (_ : Fin 1) => u x) (F.xAt (boxCell N g) q) 0 d| ≤ M * h := by
  have h0 : 0 < h := by rw [← hc 0]; exact G.h_pos 0
  set x := F.xAt (boxCell N g) q with hx
  have hxI : x ∈ Set.Icc 0 L := by
    rw [hx, xAt_place G hc hg]
    exact mem_box G hc hg fun a => ⟨(pt_gauss q a).2.1, (pt_gauss q a).2.2⟩
  have hbit : ∀ p a, (0 : ℝ) ≤ hexCorner p a ∧ (hexCorner p a : ℝ) ≤ 1 := fun p a => ⟨by positivity, by exact_mod_cast hexCorner_le p a⟩
  have hpI : ∀ p, F.points (boxCell N g p) ∈ Set.Icc 0 L := fun p => by
    rw [corner_place G hc hg]
    exact mem_box G hc hg fun a => hbit p a
  have hv : ∀ p, ‖F.points (boxCell N g p) - x‖ ≤ h := fun p => (pi_norm_le_iff_of_nonneg h0.le).mpr fun a => by
    rw [hx, xAt_place G hc hg, corner_place G hc hg]
    show |(g a + (hexCorner p a : ℝ)) * h - (g a + (gaussRule 3).pt q a) * h| ≤ h
    rw [← sub_mul, abs_mul, abs_of_pos h0]
    have : |(g a : ℝ) + (hexCorner p a : ℝ) - (g a + (gaussRule 3).pt q a)| ≤ 1 := by
      have h1 := hbit p a
      have h2 := (pt_gauss q a).2
      rw [abs_le]
      constructor <;> linarith
    nlinarith
  set A : Pt →L[ℝ] ℝ := fderiv ℝ u x with hA
  have hA1 : ∀ v : Pt, (iteratedFDeriv ℝ 1 u x fun _ => v) = A v := fun v => by rw [iteratedFDeriv_one_apply]
  have he : ∀ p, |(fun n => u (F.points n) - (u x + A (F.points n - x))) (boxCell N g p)| ≤ M * h ^ 2 / 2 := fun p => by
    have := value_first hu (x := x) (hv p) (M := M) fun t ht => hM _ ((convex_Icc (0 : Pt) L).add_smul_sub_mem hxI (hpI p) ht)
    rw [hA1, add_sub_cancel] at this
    show |u (F.points (boxCell N g p)) - (u x + A (F.points (boxCell N g p) - x))| ≤ _
    rwa [← sub_sub]
  constructor
  · have k := val_bound G (e := fun n => u (F.points n) - (u x + A (F.points n - x))) (boxCell N g) he q
    rw [val_sub (fun n => u (F.points n)) (fun n => u x + A (F.points n - x))] at k
    have e : SourceId.val F (fun n => u x + A (F.points n - x)) (boxCell N g) q = u x := by
      unfold SourceId.val
      have e1 : ∀ a, (u x + A (F.points (boxCell N g a) - x)) * F.shapeVals q a = (u x - A x) * F.shapeVals q a + A (F.shapeVals q a • F.points (boxCell N g a)) := fun a => by
        rw [map_sub, map_smul, smul_eq_mul]
        ring
      rw [sum_congr rfl fun a _ => e1 a, sum_add_distrib, ← mul_sum, G.mesh.unity, ← map_sum]
      have e2 : ∑ a, F.shapeVals q a • F.points (boxCell N g a) = x := by
        funext d
        rw [Finset.sum_apply]
        rfl
      rw [e2]
      ring
    rwa [e] at k
  · intro d
    have k := slope_bound G (e := fun n => u (F.points n) - (u x + A (F.points n - x))) g hg he q d
    rw [slope_sub (fun n => u (F.points n)) (fun n => u x + A (F.points n - x)), hc d] at k
    have e : SourceId.slope F (fun n => u x + A (F.points n - x)) (boxCell N g) q d = A (Pi.single d 1) := by
      have hone : ∑ a, F.shapeGrad (boxCell N g) q a d = 0 := by
        have h1 : Additive N (fun _ _ => (1 / 3 : ℝ)) fun _ => (1 : ℝ) := fun m _ => by rw [Fin.sum_univ_three]; norm_num
        have h := slope_add G.box G.tables G.posN G.posL h1 g hg q d
        unfold SourceId.slope at h
        simpa only [one_mul, sub_self, zero_div] using h
      unfold SourceId.slope
      have e1 : ∀ a, (u x + A (F.points (boxCell N g a) - x)) * F.shapeGrad (boxCell N g) q a d = (u x - A x) * F.shapeGrad (boxCell N g) q a d + A (F.shapeGrad (boxCell N g) q a d • F.points (boxCell N g a)) := fun a => by
        rw [map_sub, map_smul, smul_eq_mul]
        ring
      rw [sum_congr rfl fun a _ => e1 a, sum_add_distrib, ← mul_sum, hone, ← map_sum, mul_zero, zero_add]
      refine congrArg _ (funext fun b => ?_)
      have := coord_slope G hg q b d
      unfold SourceId.slope at this
      rw [Finset.sum_apply, Pi.single_apply, ← this]
      exact sum_congr rfl fun a _ => by rw [Pi.smul_apply, smul_eq_mul, mul_comm]
    rw [e] at k
    rw [jac_smooth hu, hA1]
    refine k.trans (le_of_eq ?_)
    field_simp

/-! ## Error bounds -/

/-- **C148 (nodal values, any smooth solution).** `M` bounds the fourth derivative (as a multilinear map, with the largest-coordinate norm). -/
theorem C148_smooth_nodes (G : Grid F N L) {h : ℝ} (hc : Cubes N L h) {u : Pt → ℝ} (hu : ContDiff ℝ 4 u) {M : ℝ} (hM : ∀ y ∈ Set.Icc 0 L, ‖iteratedFDeriv ℝ 4 u y‖ ≤ M) (s : ℕ → ℝ) (hs : Computed F L u s)
    (a : Fin 3) (n : ℕ) (hn : n < F.numTotal) : |s n - u (F.points n)| ≤ L a ^ 2 / 4 * M * h ^ 2 := by
  obtain ⟨⟨R, hR, hs⟩, -⟩ := hs.solves G
  have h0 : 0 < h := by rw [← hc 0]; exact G.h_pos 0
  have hM0 : 0 ≤ M := (norm_nonneg _).trans (hM 0 ⟨le_rfl, fun a => (G.posL a).le⟩)
  rw [G.num] at hn
  obtain ⟨m, hm, rfl⟩ := gridNode_surj N n hn
  have hlt : ∀ m : Fin 3 → ℕ, (∀ a, m a ≤ N a) → gridNode N m < F.numTotal := fun m hm => by rw [G.num]; exact gridNode_lt N m hm
  have hpr : ∏ a, L a / (N a : ℝ) = h ^ 3 := by
    rw [prod_congr rfl fun a _ => hc a]
    simp
  rw [show L a ^ 2 / 4 * M * h ^ 2 = L a ^ 2 / 8 * (2 * M * h ^ 2) by ring]
  refine bound_abs G.box G.tables G.posN G.posL h0 hc (fun m => (∀ a, m a ≤ N a) ∧ ¬ OnFace L (F.points (gridNode N m))) (fun n => s n - u (F.points n)) _
    (by positivity) (fun k hk hf => ?_) (fun k hk => onFace_outer G.box G.posN k hk.1 hk.2) (fun k hk => ?_) a m hm
  · have hface : OnFace L (F.points (gridNode N k)) := by
      by_contra hne
      exact hf ⟨hk, hne⟩
    have hp := true_prescribed F L u (gridNode N k) (hlt k hk)
    rcases free_or_last (convProb F L u).prescriptions (1 * gridNode N k + 0) with hfr | ⟨v, hv⟩
    · exact absurd hface (hp.1.mp hfr)
    · have e1 : s (gridNode N k) = v := (hs (gridNode N k) (hlt k hk) 0).1 v hv
      show s (gridNode N k) - u (F.points (gridNode N k)) = 0
      rw [e1, hp.2 v hv, sub_self]
  · have hin := onFace_outer G.box G.posN k hk.1 hk.2
    have hfree := (hs (gridNode N k) (hlt k hk.1) 0).2 ((true_prescribed F L u (gridNode N k) (hlt k hk.1)).1.mpr hk.2)
    rw [residual_inner G.box (bodyForce u) s R hR k hin] at hfree
    rw [lap_sub s (fun n => u (F.points n)), hpr]
    have e1 := abs_le.mp (lap_smooth G hc hu hM k hin)
    have e2 := abs_le.mp (load_smooth G hc hu hM k hin)
    rw [abs_le]
    constructor <;> nlinarith

theorem split_error (G : Grid F N L) {h : ℝ} (hc : Cubes N L h) {u : Pt → ℝ} (hu : ContDiff ℝ 4 u) {M E : ℝ} (hM : ∀ y ∈ Set.Icc 0 L, ‖iteratedFDeriv ℝ 2 u y‖ ≤ M) {s : ℕ → ℝ} (he : ∀ n < F.numTotal, |s n - u (F.points n)| ≤ E)
    (g : Fin 3 → ℕ) (hg : g ∈ boxGrid N) (q : Fin (2 ^ 3)) : |SourceId.val F s (boxCell N g) q - u (F.xAt (boxCell N g) q)| ≤ E + M * h ^ 2 / 2 ∧
    ∀ d, |SourceId.slope F s (boxCell N g) q d - jacRev (fun x (_ : Fin 1) => u x) (F.xAt (boxCell N g) q) 0 d| ≤ 2 * E / h + M * h := by
  have hn : ∀ a, |(fun n => s n - u (F.points n)) (boxCell N g a)| ≤ E := fun a => he _ (G.mesh.nodes _ ((G.box.mem_cells _).mpr ⟨g, hg, rfl⟩) a)
  obtain ⟨i1, i2⟩ := interp_smooth G hc hu hM g hg q
  constructor
  · have h1 := val_bound G (e := fun n => s n - u (F.points n)) (boxCell N g) hn q
    rw [val_sub s (fun n => u (F.points n))] at h1
    have := abs_add_le (SourceId.val F s (boxCell N g) q - SourceId.val F (fun n => u (F.points n)) (boxCell N g) q) (SourceId.val F (fun n => u (F.points n)) (boxCell N g) q - u (F.xAt (boxCell N g) q))
    rw [sub_add_sub_cancel] at this
    linarith
  · intro d
    have h1 := slope_bound G (e := fun n => s n - u (F.points n)) g hg hn q d
    rw [slope_sub s (fun n => u (F.points n)), hc d] at h1
    have := abs_add_le (SourceId.slope F s (boxCell N g) q d - SourceId.slope F (fun n => u (F.points n)) (boxCell N g) q d)
      (SourceId.slope F (fun n => u (F.points n)) (boxCell N g) q d - jacRev (fun x (_ : Fin 1) => u x) (F.xAt (boxCell N g) q) 0 d)
    rw [sub_add_sub_cancel] at this
    have := i2 d
    linarith

/-- **C148 (orders, any smooth solution).** `M2` and `M4` bound the second and fourth derivatives. -/
theorem C148_smooth (G : Grid F N L) {h : ℝ} (hc : Cubes N L h) {u : Pt → ℝ} (hu : ContDiff ℝ 4 u) {M2 M4 : ℝ} (hM2 : ∀ y ∈ Set.Icc 0 L, ‖iteratedFDeriv ℝ 2 u y‖ ≤ M2) (hM4 : ∀ y ∈ Set.Icc 0 L, ‖iteratedFDeriv ℝ 4 u y‖ ≤ M4)
    (s : ℕ → ℝ) (hs : Computed F L u s) (a : Fin 3) :
    l2 F u s ≤ (L a ^ 2 / 4 * M4 + M2 / 2) * Real.sqrt (∏ a, L a) * h ^ 2 ∧
    h1 F u s ≤ (L a ^ 2 / 4 * M4 + M2 / 2) * Real.sqrt (∏ a, L a) * h ^ 2 + (L a ^ 2 / 2 * M4 + M2) * Real.sqrt (3 * ∏ a, L a) * h := by
  have he := C148_smooth_nodes G hc hu hM4 s hs a
  have h0 : 0 < h := by rw [← hc 0]; exact G.h_pos 0
  have hM20 : 0 ≤ M2 := (norm_nonneg _).trans (hM2 0 ⟨le_rfl, fun a => (G.posL a).le⟩)
  have hM40 : 0 ≤ M4 := (norm_nonneg _).trans (hM4 0 ⟨le_rfl, fun a => (G.posL a).le⟩)
  have hpt := fun g hg q => split_error G hc hu hM2 he g hg q
  have hl : l2 F u s ≤ (L a ^ 2 / 4 * M4 + M2 / 2) * Real.sqrt (∏ a, L a) * h ^ 2 := by
    set B := (L a ^ 2 / 4 * M4 + M2 / 2) * h ^ 2 with hB
    have hB0 : 0 ≤ B := by positivity
    rw [l2_eq G, show (L a ^ 2 / 4 * M4 + M2 / 2) * Real.sqrt (∏ a, L a) * h ^ 2 = B * Real.sqrt (∏ a, L a) by rw [hB]; ring]
    refine (Real.sqrt_le_sqrt (sum_bound G (K := B ^ 2) fun g hg q => ?_)).trans ?_
    · rw [← sq_abs]
      exact pow_le_pow_left₀ (abs_nonneg _) ((hpt g hg q).1.trans (le_of_eq (by rw [hB]; ring))) 2
    · rw [Real.sqrt_mul (sq_nonneg B), Real.sqrt_sq hB0]
  refine ⟨hl, ?_⟩
  rw [h1_eq G]
  refine add_le_add hl ?_
  set B := (L a ^ 2 / 2 * M4 + M2) * h with hB
  have hB0 : 0 ≤ B := by positivity
  rw [show (L a ^ 2 / 2 * M4 + M2) * Real.sqrt (3 * ∏ a, L a) * h = B * Real.sqrt (3 * ∏ a, L a) by rw [hB]; ring]
  refine (Real.sqrt_le_sqrt (sum_bound G (K := 3 * B ^ 2) fun g hg q => ?_)).trans ?_
  · have : ∀ d, (SourceId.slope F s (boxCell N g) q d - jacRev (fun x (_ : Fin 1) => u x) (F.xAt (boxCell N g) q) 0 d) ^ 2 ≤ B ^ 2 := fun d => by
      rw [← sq_abs]
      refine pow_le_pow_left₀ (abs_nonneg _) (((hpt g hg q).2 d).trans (le_of_eq ?_)) 2
      rw [hB]
      field_simp
      ring
    refine (sum_le_sum fun d _ => this d).trans (le_of_eq ?_)
    simp
  · rw [show 3 * B ^ 2 * ∏ a, L a = B ^ 2 * (3 * ∏ a, L a) by ring, Real.sqrt_mul (sq_nonneg B), Real.sqrt_sq hB0]

/-- **C148 (rate for every smooth problem).** For every true solution with four continuous derivatives there is a constant such that on every mesh of the unit cube with `n` cells in each direction the errors are at most `C/n²` and `C/n`. -/
theorem C148_rate (u : Pt → ℝ) (hu : ContDiff ℝ 4 u) : ∃ C : ℝ, ∀ (nf nfq : ℕ) (F : Fem 8 (2 ^ 3) nf nfq 3 1) (n : ℕ), Grid F (fun _ => n) (fun _ => 1) → ∀ s, Computed F (fun _ => 1) u s →
    (∀ m < F.numTotal, |s m - u (F.points m)| ≤ C / (n : ℝ) ^ 2) ∧ l2 F u s ≤ C / (n : ℝ) ^ 2 ∧ h1 F u s ≤ C / n := by
  have hb : ∀ k : ℕ, k ≤ 4 → ∃ M, ∀ y ∈ Set.Icc (0 : Pt) (fun _ => 1), ‖iteratedFDeriv ℝ k u y‖ ≤ M := fun k hk => by
    have hcont : Continuous fun y => ‖iteratedFDeriv ℝ k u y‖ := (hu.continuous_iteratedFDeriv (by exact_mod_cast hk)).norm
    obtain ⟨M, hM⟩ := (isCompact_Icc (a := (0 : Pt)) (b := fun _ => 1)).bddAbove_image hcont.continuousOn
    exact ⟨M, fun y hy => hM ⟨y, hy, rfl⟩⟩
  obtain ⟨M2, hM2⟩ := hb 2 (by norm_num)
  obtain ⟨M4, hM4⟩ := hb 4 le_rfl
  have hM20 : 0 ≤ M2 := (norm_nonneg _).trans (hM2 0 ⟨le_rfl, fun a => zero_le_one⟩)
  have hM40 : 0 ≤ M4 := (norm_nonneg _).trans (hM4 0 ⟨le_rfl, fun a => zero_le_one⟩)
  refine ⟨3 * M4 + 3 * M2, fun nf nfq F n G s hs => ?_⟩
  have hn : (0 : ℝ) < n := by exact_mod_cast G.posN 0
  have hn1 : (1 : ℝ) ≤ n := by exact_mod_cast G.posN 0
  have hc : Cubes (fun _ => n) (fun _ => 1) (1 / (n : ℝ)) := fun _ => rfl
  obtain ⟨k1, k2⟩ := C148_smooth G hc hu hM2 hM4 s hs 0
  rw [prod_const_one, Real.sqrt_one] at k1 k2
  have hsq : (1 / (n : ℝ)) ^ 2 = 1 / (n : ℝ) ^ 2 := by rw [div_pow, one_pow]
  have h3 : Real.sqrt (3 * 1) ≤ 2 := by
    rw [Real.sqrt_le_iff]
    norm_num
  have hle : 1 / (n : ℝ) ^ 2 ≤ 1 / n := one_div_le_one_div_of_le hn (by nlinarith)
  have hp1 : 0 < 1 / (n : ℝ) ^ 2 := by positivity
  have hp2 : 0 < 1 / (n : ℝ) := by positivity
  rw [hsq] at k1 k2
  rw [div_eq_mul_one_div _ ((n : ℝ) ^ 2), div_eq_mul_one_div _ (n : ℝ)]
  refine ⟨fun m hm => ?_, ?_, ?_⟩
  · have := C148_smooth_nodes G hc hu hM4 s hs 0 m hm
    rw [hsq] at this
    refine this.trans (mul_le_mul_of_nonneg_right ?_ hp1.le)
    nlinarith
  · refine k1.trans (mul_le_mul_of_nonneg_right ?_ hp1.le)
    nlinarith
  · refine k2.trans ?_
    have e1 : ((1 : ℝ) ^ 2 / 4 * M4 + M2 / 2) * 1 * (1 / (n : ℝ) ^ 2) ≤ (M4 + M2) * (1 / n) := mul_le_mul (by nlinarith) hle hp1.le (by positivity)
    have e2 : ((1 : ℝ) ^ 2 / 2 * M4 + M2) * Real.sqrt (3 * 1) * (1 / (n : ℝ)) ≤ (2 * M4 + 2 * M2) * (1 / n) := by
      refine mul_le_mul_of_nonneg_right ?_ hp2.le
      have := mul_le_mul_of_nonneg_left h3 (show 0 ≤ (1 : ℝ) ^ 2 / 2 * M4 + M2 by positivity)
      linarith
    linarith

/-- `example`: the rate applies to the smooth, not additive solution `sin(x y z)`, and there are runs on every mesh. -/
example : ∃ C : ℝ, ∀ n : ℕ, 0 < n → ∃ s, Computed (SourceId.obj (fun _ => n) fun _ => 1) (fun _ => 1) (fun x : Pt => Real.sin (x 0 * x 1 * x 2)) s ∧ l2 (SourceId.obj (fun _ => n) fun _ => 1) (fun x : Pt => Real.sin (x 0 * x 1 * x 2)) s ≤ C / (n : ℝ) ^ 2 := by
  obtain ⟨C, hC⟩ := C148_rate (fun x : Pt => Real.sin (x 0 * x 1 * x 2)) (by fun_prop)
  refine ⟨C, fun n hn => ?_⟩
  have G := grid_obj (fun _ => n) (fun _ => 1) (fun _ => hn) (fun _ => by norm_num)
  obtain ⟨⟨lin, hlin⟩, h⟩ := C148_returns G (fun x : Pt => Real.sin (x 0 * x 1 * x 2)) false
  obtain ⟨s, -, hs⟩ := h lin hlin true none 0
  exact ⟨s, hs, (hC _ _ _ n G s hs).2.1⟩

end Verif.Fem.Conv
