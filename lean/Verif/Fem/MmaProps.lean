import Verif.Fem.Mma
import Mathlib.Analysis.Convex.Function
import Mathlib.Analysis.Calculus.Deriv.Inv
import Mathlib.Analysis.Calculus.Deriv.Mul
import Mathlib.Analysis.Calculus.Deriv.Add
import Mathlib.LinearAlgebra.Matrix.NonsingularInverse
import Mathlib.LinearAlgebra.Matrix.ToLinearEquiv

/-!
# Properties of the method of moving asymptotes (C33, C34, C36)
-/
namespace Verif.Fem.Mma
open Finset

variable {ι κ : Type} [Fintype ι] [Fintype κ]

/-! ## C33 -/

theorem asymptotes_strict (A : Params ι κ) (iter : ℕ) (xval xold1 xold2 low upp : ι → ℝ) (j : ι) (hb : A.xmin j < A.xmax j) :
    (asymptotes A iter xval xold1 xold2 low upp).1 j ≤ xval j - 0.01 * (A.xmax j - A.xmin j) ∧ xval j + 0.01 * (A.xmax j - A.xmin j) ≤ (asymptotes A iter xval xold1 xold2 low upp).2 j := by
  unfold asymptotes
  split
  · constructor <;> dsimp only <;> linarith
  · exact ⟨min_le_right _ _, le_max_right _ _⟩

/-- **C33.** For every iteration number, every history of designs and asymptotes and every design within its bounds, the new asymptotes enclose the design strictly, the trust interval lies strictly between them, contains the design, is
non-degenerate and respects both the design bounds and the move limit. -/
theorem C33_bounds (A : Params ι κ) (iter : ℕ) (xval xold1 xold2 low0 upp0 : ι → ℝ) (j : ι) (hb : A.xmin j < A.xmax j) (hm : 0 < A.move) (hlo : A.xmin j ≤ xval j) (hup : xval j ≤ A.xmax j)
    (low upp : ι → ℝ) (h : asymptotes A iter xval xold1 xold2 low0 upp0 = (low, upp)) :
    low j < xval j ∧ xval j < upp j ∧ low j < alfaOf A xval low j ∧ betaOf A xval upp j < upp j ∧
    A.xmin j ≤ alfaOf A xval low j ∧ alfaOf A xval low j ≤ xval j ∧ xval j ≤ betaOf A xval upp j ∧ betaOf A xval upp j ≤ A.xmax j ∧ alfaOf A xval low j < betaOf A xval upp j ∧
    |alfaOf A xval low j - xval j| ≤ A.move * (A.xmax j - A.xmin j) ∧ |betaOf A xval upp j - xval j| ≤ A.move * (A.xmax j - A.xmin j) := by
  have hs := asymptotes_strict A iter xval xold1 xold2 low0 upp0 j hb
  rw [h] at hs
  obtain ⟨h1, h2⟩ := hs
  dsimp only at h1 h2
  have hw : 0 < A.xmax j - A.xmin j := by linarith
  have hmw : 0 < A.move * (A.xmax j - A.xmin j) := mul_pos hm hw
  have a1 : low j < xval j := by linarith
  have a2 : xval j < upp j := by linarith
  have a3 : low j < alfaOf A xval low j := lt_of_lt_of_le (by linarith) (le_trans (le_max_left _ _) (le_max_left _ _))
  have a4 : betaOf A xval upp j < upp j := lt_of_le_of_lt (le_trans (min_le_left _ _) (min_le_left _ _)) (by linarith)
  have a5 : alfaOf A xval low j ≤ xval j := max_le (max_le (by linarith) (by linarith)) hlo
  have a6 : xval j ≤ betaOf A xval upp j := le_min (le_min (by linarith) (by linarith)) hup
  have a7 : xval j - A.move * (A.xmax j - A.xmin j) ≤ alfaOf A xval low j := le_trans (le_max_right _ _) (le_max_left _ _)
  have a8 : betaOf A xval upp j ≤ xval j + A.move * (A.xmax j - A.xmin j) := le_trans (min_le_left _ _) (min_le_right _ _)
  refine ⟨a1, a2, a3, a4, le_max_right _ _, a5, a6, min_le_right _ _, ?_, ?_, ?_⟩
  · rcases hlo.lt_or_eq with hl | hl
    · refine lt_of_lt_of_le ?_ a6
      exact max_lt (max_lt (by linarith) (by linarith)) hl
    · refine lt_of_le_of_lt a5 ?_
      exact lt_min (lt_min (by linarith) (by linarith)) (by linarith)
  · rw [abs_of_nonpos (by linarith)]; linarith
  · rw [abs_of_nonneg (by linarith)]; linarith

/-- A design at its lower bound in a third iteration that reverses direction. -/
example : ∃ low upp, asymptotes ({ xmin := fun _ => 0, xmax := fun _ => 1, a0 := 1, a := fun _ => 0, c := fun _ => 10000, d := fun _ => 0, move := 0.2 } : Params Unit Unit) 3
      (fun _ => 0) (fun _ => 0.2) (fun _ => 0.1) (fun _ => -0.3) (fun _ => 0.7) = (low, upp) ∧ low () = -0.35 ∧ upp () = 0.35 := by
  refine ⟨_, _, rfl, ?_, ?_⟩
  · have hz : ((0 : ℝ) - 0.2) * (0.2 - 0.1) < 0 := by norm_num
    simp only [asymptotes]
    norm_num
  · simp only [asymptotes]
    norm_num

/-! ## C36 -/

/-- A separable function with poles at the asymptotes: the form of the approximations. -/
noncomputable def sep (p q low upp : ι → ℝ) (r : ℝ) (x : ι → ℝ) : ℝ := ∑ j, (p j / (upp j - x j) + q j / (x j - low j)) + r

theorem raa_pos (A : Params ι κ) (j : ι) : 0 < raa A j := by
  unfold raa
  have : (0 : ℝ) < max (A.xmax j - A.xmin j) 0.00001 := lt_of_lt_of_le (by norm_num) (le_max_right _ _)
  positivity

theorem coef_pos (A : Params ι κ) (xval low upp g : ι → ℝ) (j : ι) (h1 : low j < xval j) (h2 : xval j < upp j) : 0 < coefP A xval upp g j ∧ 0 < coefQ A xval low g j := by
  have hr := raa_pos A j
  have m1 : (0 : ℝ) ≤ max (g j) 0 := le_max_right _ _
  have m2 : (0 : ℝ) ≤ max (-g j) 0 := le_max_right _ _
  have u : 0 < upp j - xval j := by linarith
  have l : 0 < xval j - low j := by linarith
  unfold coefP coefQ
  constructor
  · have : 0 < max (g j) 0 + (0.001 * (max (g j) 0 + max (-g j) 0) + raa A j) := by linarith
    positivity
  · have : 0 < max (-g j) 0 + (0.001 * (max (g j) 0 + max (-g j) 0) + raa A j) := by linarith
    positivity

/-- Directional derivative of a separable function between the asymptotes. -/
theorem sep_deriv (p q low upp : ι → ℝ) (r : ℝ) (x v : ι → ℝ) (h : ∀ j, low j < x j ∧ x j < upp j) :
    HasDerivAt (fun t : ℝ => sep p q low upp r (x + t • v)) (∑ j, (p j / (upp j - x j) ^ 2 - q j / (x j - low j) ^ 2) * v j) 0 := by
  unfold sep
  refine HasDerivAt.add_const _ (HasDerivAt.fun_sum fun j _ => ?_)
  have hx : HasDerivAt (fun t : ℝ => (x + t • v) j) (v j) 0 := by
    simpa using ((hasDerivAt_id (0 : ℝ)).mul_const (v j)).const_add (x j)
  have e0 : (x + (0 : ℝ) • v) j = x j := by simp
  have u : upp j - (x + (0 : ℝ) • v) j ≠ 0 := by rw [e0]; linarith [(h j).2]
  have l : (x + (0 : ℝ) • v) j - low j ≠ 0 := by rw [e0]; linarith [(h j).1]
  have h1 := ((hx.const_sub (upp j)).fun_inv u).const_mul (p j)
  have h2 := ((hx.sub_const (low j)).fun_inv l).const_mul (q j)
  have h3 := h1.fun_add h2
  rw [e0] at h3
  refine (h3.congr_deriv ?_).congr_of_eventuallyEq (Filter.Eventually.of_forall fun t => ?_)
  · simp only [div_eq_mul_inv]; ring
  · simp only [div_eq_mul_inv]

theorem inv_strict_convex {a b s t : ℝ} (ha : 0 < a) (hb : 0 < b) (hab : a ≠ b) (hs : 0 < s) (ht : 0 < t) (hst : s + t = 1) : 1 / (s * a + t * b) < s * (1 / a) + t * (1 / b) := by
  have h0 : 0 < s * a + t * b := by positivity
  rw [div_lt_iff₀ h0]
  have : (s * (1 / a) + t * (1 / b)) * (s * a + t * b) = 1 + s * t * ((a - b) ^ 2 / (a * b)) := by
    have hs' : s = 1 - t := by linarith
    subst hs'
    field_simp
    ring
  rw [this]
  have : 0 < (a - b) ^ 2 / (a * b) := div_pos (by positivity [sub_ne_zero.mpr hab]) (by positivity)
  have := mul_pos (mul_pos hs ht) this
  linarith

theorem inv_convex {a b s t : ℝ} (ha : 0 < a) (hb : 0 < b) (hs : 0 < s) (ht : 0 < t) (hst : s + t = 1) : 1 / (s * a + t * b) ≤ s * (1 / a) + t * (1 / b) := by
  by_cases hab : a = b
  · subst hab
    have : s * a + t * a = a := by rw [← add_mul, hst, one_mul]
    rw [this, ← add_mul, hst, one_mul]
  · exact (inv_strict_convex ha hb hab hs ht hst).le

/-- A separable function with positive coefficients is strictly convex between the asymptotes. -/
theorem sep_strictConvex (p q low upp : ι → ℝ) (r : ℝ) (hp : ∀ j, 0 < p j) (hq : ∀ j, 0 < q j) : StrictConvexOn ℝ {x : ι → ℝ | ∀ j, low j < x j ∧ x j < upp j} (sep p q low upp r) := by
  refine ⟨?_, ?_⟩
  · intro x hx y hy s t hs ht hst j
    have h1 := hx j
    have h2 := hy j
    simp only [Pi.add_apply, Pi.smul_apply, smul_eq_mul]
    rcases hs.lt_or_eq with hs | hs
    · have e1 : low j = s * low j + t * low j := by rw [← add_mul, hst, one_mul]
      have e2 : upp j = s * upp j + t * upp j := by rw [← add_mul, hst, one_mul]
      rw [e1, e2]
      exact ⟨add_lt_add_of_lt_of_le (mul_lt_mul_of_pos_left h1.1 hs) (mul_le_mul_of_nonneg_left h2.1.le ht), add_lt_add_of_lt_of_le (mul_lt_mul_of_pos_left h1.2 hs) (mul_le_mul_of_nonneg_left h2.2.le ht)⟩
    · have : t = 1 := by linarith
      subst this
      rw [← hs]
      simpa using h2
  · intro x hx y hy hxy s t hs ht hst
    obtain ⟨j0, hj0⟩ := Function.ne_iff.mp hxy
    unfold sep
    have e : s • (∑ j, (p j / (upp j - x j) + q j / (x j - low j)) + r) + t • (∑ j, (p j / (upp j - y j) + q j / (y j - low j)) + r)
        = ∑ j, (p j * (s * (1 / (upp j - x j)) + t * (1 / (upp j - y j))) + q j * (s * (1 / (x j - low j)) + t * (1 / (y j - low j)))) + r := by
      simp only [smul_eq_mul, mul_add, mul_sum, sum_add_distrib]
      have hr : s * r + t * r = r := by rw [← add_mul, hst, one_mul]
      have e1 : ∀ (a b : ι → ℝ) (w : ℝ), ∑ j, w * (a j / b j) = ∑ j, a j * (w * (1 / b j)) := fun a b w => sum_congr rfl fun j _ => by ring
      simp only [e1]
      linarith
    rw [e]
    refine add_lt_add_left (sum_lt_sum (fun j _ => ?_) ⟨j0, mem_univ _, ?_⟩) r
    all_goals
      simp only [Pi.add_apply, Pi.smul_apply, smul_eq_mul]
    · have u := inv_convex (sub_pos.mpr (hx j).2) (sub_pos.mpr (hy j).2) hs ht hst
      have l := inv_convex (sub_pos.mpr (hx j).1) (sub_pos.mpr (hy j).1) hs ht hst
      have eu : s * (upp j - x j) + t * (upp j - y j) = upp j - (s * x j + t * y j) := by linear_combination upp j * hst
      have el : s * (x j - low j) + t * (y j - low j) = (s * x j + t * y j) - low j := by linear_combination -low j * hst
      rw [eu] at u
      rw [el] at l
      rw [div_eq_mul_one_div (p j), div_eq_mul_one_div (q j)]
      exact add_le_add (mul_le_mul_of_nonneg_left u (hp j).le) (mul_le_mul_of_nonneg_left l (hq j).le)
    · have u := inv_strict_convex (sub_pos.mpr (hx j0).2) (sub_pos.mpr (hy j0).2) (fun h => hj0 (by linarith)) hs ht hst
      have l := inv_strict_convex (sub_pos.mpr (hx j0).1) (sub_pos.mpr (hy j0).1) (fun h => hj0 (by linarith)) hs ht hst
      have eu : s * (upp j0 - x j0) + t * (upp j0 - y j0) = upp j0 - (s * x j0 + t * y j0) := by linear_combination upp j0 * hst
      have el : s * (x j0 - low j0) + t * (y j0 - low j0) = (s * x j0 + t * y j0) - low j0 := by linear_combination -low j0 * hst
      rw [eu] at u
      rw [el] at l
      rw [div_eq_mul_one_div (p j0), div_eq_mul_one_div (q j0)]
      exact add_lt_add (mul_lt_mul_of_pos_left u (hp j0)) (mul_lt_mul_of_pos_left l (hq j0))

theorem coef_grad (A : Params ι κ) (xval low upp g : ι → ℝ) (j : ι) (h1 : low j < xval j) (h2 : xval j < upp j) :
    coefP A xval upp g j / (upp j - xval j) ^ 2 - coefQ A xval low g j / (xval j - low j) ^ 2 = g j := by
  have u : upp j - xval j ≠ 0 := by linarith
  have l : xval j - low j ≠ 0 := by linarith
  unfold coefP coefQ
  rw [← sq, ← sq, mul_div_assoc, mul_div_assoc, div_self (pow_ne_zero 2 u), div_self (pow_ne_zero 2 l)]
  have : max (g j) 0 - max (-g j) 0 = g j := by
    rcases le_total 0 (g j) with h | h
    · rw [max_eq_left h, max_eq_right (by linarith)]; ring
    · rw [max_eq_right h, max_eq_left (by linarith)]; ring
  linarith

/-- **C36.** The objective and constraint approximations of the subproblem have at the current design the gradients handed to `mmasub`, the constraint approximations also have the given values, and all are strictly convex between the
asymptotes. -/
theorem C36_approximation (A : Params ι κ) (xval low upp df0dx : ι → ℝ) (fval : κ → ℝ) (dfdx : κ → ι → ℝ) (h : ∀ j, low j < xval j ∧ xval j < upp j) :
    let S := subproblem A xval low upp df0dx fval dfdx
    (∀ r v, HasDerivAt (fun t : ℝ => sep S.p0 S.q0 S.low S.upp r (xval + t • v)) (∑ j, df0dx j * v j) 0) ∧
    (∀ i v, HasDerivAt (fun t : ℝ => sep (S.P i) (S.Q i) S.low S.upp (-S.b i) (xval + t • v)) (∑ j, dfdx i j * v j) 0) ∧
    (∀ i, sep (S.P i) (S.Q i) S.low S.upp (-S.b i) xval = fval i) ∧
    (∀ r, StrictConvexOn ℝ {x : ι → ℝ | ∀ j, low j < x j ∧ x j < upp j} (sep S.p0 S.q0 S.low S.upp r)) ∧
    (∀ i, StrictConvexOn ℝ {x : ι → ℝ | ∀ j, low j < x j ∧ x j < upp j} (sep (S.P i) (S.Q i) S.low S.upp (-S.b i))) := by
  intro S
  refine ⟨fun r v => ?_, fun i v => ?_, fun i => ?_, fun r => ?_, fun i => ?_⟩
  · refine (sep_deriv S.p0 S.q0 S.low S.upp r xval v h).congr_deriv (sum_congr rfl fun j _ => ?_)
    rw [show S.p0 j / (S.upp j - xval j) ^ 2 - S.q0 j / (xval j - S.low j) ^ 2 = df0dx j from coef_grad A xval low upp df0dx j (h j).1 (h j).2]
  · refine (sep_deriv (S.P i) (S.Q i) S.low S.upp (-S.b i) xval v h).congr_deriv (sum_congr rfl fun j _ => ?_)
    rw [show S.P i j / (S.upp j - xval j) ^ 2 - S.Q i j / (xval j - S.low j) ^ 2 = dfdx i j from coef_grad A xval low upp (dfdx i) j (h j).1 (h j).2]
  · have hb : S.b i = ∑ j, S.P i j * (1 / (S.upp j - xval j)) + ∑ j, S.Q i j * (1 / (xval j - S.low j)) - fval i := rfl
    unfold sep
    rw [hb, sum_add_distrib]
    simp only [mul_one_div]
    ring
  · exact sep_strictConvex _ _ _ _ _ (fun j => (coef_pos A xval low upp df0dx j (h j).1 (h j).2).1) fun j => (coef_pos A xval low upp df0dx j (h j).1 (h j).2).2
  · exact sep_strictConvex _ _ _ _ _ (fun j => (coef_pos A xval low upp (dfdx i) j (h j).1 (h j).2).1) fun j => (coef_pos A xval low upp (dfdx i) j (h j).1 (h j).2).2

/-- A concrete subproblem of two variables and one constraint meets the hypothesis. -/
example : ∀ j : Fin 2, (![0, 0] : Fin 2 → ℝ) j < (![0.5, 0.25] : Fin 2 → ℝ) j ∧ (![0.5, 0.25] : Fin 2 → ℝ) j < (![1, 1] : Fin 2 → ℝ) j := by
  intro j
  fin_cases j <;> norm_num

/-! ## C34 -/

/-- Strict interior of the primal-dual region. -/
def Interior (S : Sub ι κ) (p : Pt ι κ) : Prop :=
  (∀ j, S.alfa j < p.x j ∧ p.x j < S.beta j) ∧ (∀ i, 0 < p.y i) ∧ 0 < p.z ∧ (∀ i, 0 < p.lam i) ∧ (∀ j, 0 < p.xsi j) ∧ (∀ j, 0 < p.eta j) ∧ (∀ i, 0 < p.mu i) ∧ 0 < p.zet ∧ ∀ i, 0 < p.s i

theorem start_interior (S : Sub ι κ) (hab : ∀ j, S.alfa j < S.beta j) : Interior S (start S) := by
  refine ⟨fun j => ?_, fun _ => one_pos, one_pos, fun _ => one_pos, fun j => lt_of_lt_of_le one_pos (le_max_right _ _), fun j => lt_of_lt_of_le one_pos (le_max_right _ _),
    fun i => lt_of_lt_of_le one_pos (le_max_left _ _), one_pos, fun _ => one_pos⟩
  have := hab j
  constructor <;> simp only [start] <;> linarith

theorem npMax_ok {α : Type} [Fintype α] {f : α → ℝ} {M : ℝ} (h : npMax f = .ok M) (a : α) : f a ≤ M := by
  unfold npMax at h
  split at h
  · injection h with h
    rw [← h]
    exact le_sup' f (mem_univ a)
  · cases h

theorem npMax_error {α : Type} [Fintype α] {f : α → ℝ} {e : MmaErr} : npMax f = .error e ↔ e = .empty ∧ IsEmpty α := by
  unfold npMax
  split
  · rename_i h
    constructor
    · intro h'; cases h'
    · rintro ⟨-, h'⟩
      exact absurd h (by simp [univ_eq_empty])
  · rename_i h
    constructor
    · intro h'
      injection h' with h'
      refine ⟨h'.symm, ?_⟩
      rw [not_nonempty_iff_eq_empty, univ_eq_empty_iff] at h
      exact h
    · rintro ⟨rfl, -⟩; rfl

/-- A component that stays positive under the step rule. -/
theorem step_pos {u d M t : ℝ} (hu : 0 < u) (hM : 1 ≤ M) (h : -1.01 * d / u ≤ M) (ht0 : 0 ≤ t) (ht : t ≤ 1 / M) : 0 < u + t * d := by
  have hM0 : 0 < M := by linarith
  rw [div_le_iff₀ hu] at h
  rcases le_or_gt 0 d with hd | hd
  · have := mul_nonneg ht0 hd
    linarith
  · have h1 : t * d ≥ 1 / M * d := by nlinarith
    have h2 : 1 / M * (1.01 * -d) ≤ u := by
      rw [one_div, inv_mul_le_iff₀ hM0]
      linarith
    have h3 : 1 / M * d ≥ -(u / 1.01) := by
      rw [ge_iff_le, neg_le, le_div_iff₀ (by norm_num)]
      linarith
    have h4 : u / 1.01 < u := by
      rw [div_lt_iff₀ (by norm_num)]
      linarith
    linarith

/-- The step length keeps every point of the segment inside, whatever the direction. -/
theorem step_interior (S : Sub ι κ) (p d : Pt ι κ) (hp : Interior S p) (steg : ℝ) (h : stepLength S p d = .ok steg) : 0 < steg ∧ ∀ t, 0 ≤ t → t ≤ steg → Interior S (p.move t d) := by
  unfold stepLength at h
  cases h1 : npMax (fun k => -1.01 * stack d k / stack p k) with
  | error e => rw [h1] at h; cases h
  | ok m1 =>
  cases h2 : npMax (fun j => -1.01 * d.x j / (p.x j - S.alfa j)) with
  | error e => rw [h1, h2] at h; cases h
  | ok m2 =>
  cases h3 : npMax (fun j => 1.01 * d.x j / (S.beta j - p.x j)) with
  | error e => rw [h1, h2, h3] at h; cases h
  | ok m3 =>
  rw [h1, h2, h3] at h
  have h : (1 : ℝ) / max (max (max m2 m3) m1) 1 = steg := by injection h
  set M := max (max (max m2 m3) m1) 1 with hM
  have hM1 : 1 ≤ M := le_max_right _ _
  have b1 : m1 ≤ M := le_trans (le_max_right _ _) (le_max_left _ _)
  have b2 : m2 ≤ M := le_trans (le_max_left _ _) (le_trans (le_max_left _ _) (le_max_left _ _))
  have b3 : m3 ≤ M := le_trans (le_max_right _ _) (le_trans (le_max_left _ _) (le_max_left _ _))
  have hxx : ∀ k, -1.01 * stack d k / stack p k ≤ M := fun k => (npMax_ok h1 k).trans b1
  obtain ⟨ix, iy, iz, il, ixs, iet, imu, ize, is⟩ := hp
  rw [← h]
  refine ⟨by positivity, fun t ht0 ht => ⟨fun j => ⟨?_, ?_⟩, fun i => ?_, ?_, fun i => ?_, fun j => ?_, fun j => ?_, fun i => ?_, ?_, fun i => ?_⟩⟩
  · have := step_pos (sub_pos.mpr (ix j).1) hM1 ((npMax_ok h2 j).trans b2) ht0 ht
    simp only [Pt.move]
    linarith
  · have := step_pos (d := -d.x j) (sub_pos.mpr (ix j).2) hM1 (by have := (npMax_ok h3 j).trans b3; rwa [neg_mul_neg]) ht0 ht
    simp only [Pt.move]
    linarith
  · exact step_pos (iy i) hM1 (hxx (Sum.inl i)) ht0 ht
  · exact step_pos iz hM1 (hxx (Sum.inr (Sum.inl ()))) ht0 ht
  · exact step_pos (il i) hM1 (hxx (Sum.inr (Sum.inr (Sum.inl i)))) ht0 ht
  · exact step_pos (ixs j) hM1 (hxx (Sum.inr (Sum.inr (Sum.inr (Sum.inl j))))) ht0 ht
  · exact step_pos (iet j) hM1 (hxx (Sum.inr (Sum.inr (Sum.inr (Sum.inr (Sum.inl j)))))) ht0 ht
  · exact step_pos (imu i) hM1 (hxx (Sum.inr (Sum.inr (Sum.inr (Sum.inr (Sum.inr (Sum.inl i))))))) ht0 ht
  · exact step_pos ize hM1 (hxx (Sum.inr (Sum.inr (Sum.inr (Sum.inr (Sum.inr (Sum.inr (Sum.inl ())))))))) ht0 ht
  · exact step_pos (is i) hM1 (hxx (Sum.inr (Sum.inr (Sum.inr (Sum.inr (Sum.inr (Sum.inr (Sum.inr i)))))))) ht0 ht

/-! ### While loops -/

variable {σ : Type}

theorem whileE_inv {c : σ → Prop} {b : σ → Except MmaErr σ} (I : σ → Prop) (hI : ∀ s, I s → c s → ∀ s', b s = .ok s' → I s') :
    ∀ (k : ℕ) (s s' : σ), I s → whileE c b k s = .ok s' → I s' ∧ ¬ c s' := by
  intro k
  induction k with
  | zero =>
    intro s s' hs h
    unfold whileE at h
    split at h
    · cases h
    · rename_i hc
      injection h with h
      exact h ▸ ⟨hs, hc⟩
  | succ k ih =>
    intro s s' hs h
    unfold whileE at h
    split at h
    · rename_i hc
      cases hb : b s with
      | error e => rw [hb] at h; cases h
      | ok s1 =>
        rw [hb] at h
        exact ih s1 s' (hI s hs hc s1 hb) h
    · rename_i hc
      injection h with h
      exact h ▸ ⟨hs, hc⟩

/-- `R k s`: at most `k` more passes from `s`. -/
theorem whileE_fuel {c : σ → Prop} {b : σ → Except MmaErr σ} (R : ℕ → σ → Prop) (h0 : ∀ s, R 0 s → ¬ c s) (hR : ∀ k s, R (k + 1) s → c s → b s ≠ .error .fuel ∧ ∀ s', b s = .ok s' → R k s') :
    ∀ (k : ℕ) (s : σ), R k s → whileE c b k s ≠ .error .fuel := by
  intro k
  induction k with
  | zero =>
    intro s hs
    unfold whileE
    rw [if_neg (h0 s hs)]
    exact fun h => by cases h
  | succ k ih =>
    intro s hs
    unfold whileE
    split
    · rename_i hc
      obtain ⟨h1, h2⟩ := hR k s hs hc
      cases hb : b s with
      | error e =>
        rw [hb] at h1
        exact fun h => h1 (by injection h with h; rw [h])
      | ok s1 => exact ih s1 (h2 s1 hb)
    · exact fun h => by cases h

/-- Every error of a loop is an exhausted bound or an error of its body. -/
theorem whileE_error {c : σ → Prop} {b : σ → Except MmaErr σ} (I : σ → Prop) (hI : ∀ s, I s → c s → ∀ s', b s = .ok s' → I s') (e : MmaErr) (he : e ≠ .fuel) (hb : ∀ s, I s → c s → b s ≠ .error e) :
    ∀ (k : ℕ) (s : σ), I s → whileE c b k s ≠ .error e := by
  intro k
  induction k with
  | zero =>
    intro s hs
    unfold whileE
    split
    · exact fun h => he (by injection h with h; exact h.symm)
    · exact fun h => by cases h
  | succ k ih =>
    intro s hs
    unfold whileE
    split
    · rename_i hc
      cases hbs : b s with
      | error e' =>
        intro h
        have h : e' = e := by injection h
        exact hb s hs hc (h ▸ hbs)
      | ok s1 => exact ih s1 (hI s hs hc s1 hbs)
    · exact fun h => by cases h

/-- More passes allowed: same result. -/
theorem whileE_mono {c : σ → Prop} {b : σ → Except MmaErr σ} : ∀ (k : ℕ) (s : σ), whileE c b k s ≠ .error .fuel → whileE c b (k + 1) s = whileE c b k s := by
  intro k
  induction k with
  | zero =>
    intro s h
    unfold whileE at h ⊢
    split
    · rename_i hc
      rw [if_pos hc] at h
      exact absurd rfl h
    · rename_i hc
      rfl
  | succ k ih =>
    intro s h
    rw [whileE] at h
    rw [whileE, whileE]
    by_cases hc : c s
    · rw [if_pos hc] at h
      rw [if_pos hc, if_pos hc]
      cases hb : b s with
      | error e => rfl
      | ok s1 =>
        rw [hb] at h
        exact ih s1 h
    · rw [if_neg hc, if_neg hc]

section
variable [DecidableEq ι] [DecidableEq κ]

theorem halving_interior (fuel : ℕ) (S : Sub ι κ) (epsi : ℝ) (p d : Pt ι κ) (hp : Interior S p) (steg : ℝ) (hs : stepLength S p d = .ok steg) (rn : ℝ) (r : ResIx ι κ → ℝ) (h : Halving ι κ)
    (hh : halvingLoop fuel S epsi p d rn { p := p, residu := r, resinew := 2 * rn, steg := steg, itto := 0 } = .ok h) : Interior S h.p := by
  obtain ⟨h0, hseg⟩ := step_interior S p d hp steg hs
  have := whileE_inv (fun st : Halving ι κ => Interior S st.p ∧ 0 < st.steg ∧ st.steg ≤ steg) (fun s hI _ s' hb => by
    injection hb with hb
    subst hb
    exact ⟨hseg _ hI.2.1.le hI.2.2, half_pos hI.2.1, (half_le_self hI.2.1.le).trans hI.2.2⟩) fuel _ h ⟨hp, h0, le_rfl⟩ hh
  exact this.1.1

theorem newtonPass_interior (fuel : ℕ) (solve : LinSolve) (S : Sub ι κ) (epsi : ℝ) (st st' : Newton ι κ) (hp : Interior S st.p) (h : newtonPass fuel solve S epsi st = .ok st') : Interior S st'.p := by
  unfold newtonPass at h
  cases h1 : reduced solve S epsi st.p with
  | error e => rw [h1] at h; cases h
  | ok r =>
  obtain ⟨dx, dz, dlam⟩ := r
  rw [h1] at h
  dsimp only [bind, Except.bind] at h
  cases h2 : stepLength S st.p (extend S epsi st.p dx dz dlam) with
  | error e => rw [h2] at h; cases h
  | ok steg =>
  rw [h2] at h
  dsimp only at h
  cases h3 : halvingLoop fuel S epsi st.p (extend S epsi st.p dx dz dlam) st.residunorm { p := st.p, residu := st.residu, resinew := 2 * st.residunorm, steg := steg, itto := 0 } with
  | error e => rw [h3] at h; cases h
  | ok hv =>
  rw [h3] at h
  dsimp only at h
  cases h4 : npMax (fun k => |hv.residu k|) with
  | error e => rw [h4] at h; cases h
  | ok rm =>
  rw [h4] at h
  injection h with h
  subst h
  exact halving_interior fuel S epsi st.p _ hp steg h2 st.residunorm st.residu hv h3

theorem barrierPass_interior (f1 f2 : ℕ) (solve : LinSolve) (S : Sub ι κ) (st st' : Pt ι κ × ℝ) (hp : Interior S st.1) (h : barrierPass f1 f2 solve S st = .ok st') : Interior S st'.1 ∧ st'.2 = 0.1 * st.2 := by
  unfold barrierPass at h
  dsimp only [bind, Except.bind] at h
  cases h1 : npMax (fun k => |residu S st.2 st.1 k|) with
  | error e => rw [h1] at h; cases h
  | ok rm =>
  rw [h1] at h
  dsimp only at h
  cases h2 : newtonLoop f1 f2 solve S st.2 { p := st.1, residu := residu S st.2 st.1, residunorm := resNorm (residu S st.2 st.1), residumax := rm, ittt := 0 } with
  | error e => rw [h2] at h; cases h
  | ok nw =>
  rw [h2] at h
  injection h with h
  subst h
  exact ⟨(whileE_inv (fun st : Newton ι κ => Interior S st.p) (fun s hI _ s' hb => newtonPass_interior f2 solve S st.2 s s' hI hb) f1 _ nw hp h2).1, rfl⟩

/-- **C34 (strict feasibility).** Whatever the linear solver returns: whenever `subsolv` returns, the returned point satisfies `alfa < x < beta` and all slack and dual variables are positive. -/
theorem C34_interior (fuel : ℕ × ℕ × ℕ) (solve : LinSolve) (epsimin : ℝ) (S : Sub ι κ) (hab : ∀ j, S.alfa j < S.beta j) (p : Pt ι κ) (h : subsolv fuel solve epsimin S = .ok p) : Interior S p := by
  unfold subsolv at h
  dsimp only [bind, Except.bind] at h
  cases h1 : whileE (fun st : Pt ι κ × ℝ => st.2 > epsimin) (barrierPass fuel.2.1 fuel.2.2 solve S) fuel.1 (start S, 1) with
  | error e => rw [h1] at h; cases h
  | ok st =>
  rw [h1] at h
  injection h with h
  subst h
  exact (whileE_inv (fun st : Pt ι κ × ℝ => Interior S st.1) (fun s hI _ s' hb => (barrierPass_interior _ _ solve S s s' hI hb).1) fuel.1 _ st (start_interior S hab) h1).1

/-- **C34 (every iterate).** From an interior point and for every direction at all, all trial points of the step halving are interior; so is the point after every Newton pass and after every barrier pass, whatever the linear solver returns. -/
theorem C34_iterates (S : Sub ι κ) (p : Pt ι κ) (hp : Interior S p) :
    (∀ d steg, stepLength S p d = .ok steg → ∀ k : ℕ, Interior S (p.move (steg / 2 ^ k) d)) ∧
    (∀ fuel solve epsi (st st' : Newton ι κ), st.p = p → newtonPass fuel solve S epsi st = .ok st' → Interior S st'.p) ∧
    (∀ f1 f2 solve epsi st', barrierPass f1 f2 solve S (p, epsi) = .ok st' → Interior S st'.1) := by
  refine ⟨fun d steg h k => ?_, fun fuel solve epsi st st' hst h => newtonPass_interior fuel solve S epsi st st' (hst ▸ hp) h, fun f1 f2 solve epsi st' h => (barrierPass_interior f1 f2 solve S (p, epsi) st' hp h).1⟩
  obtain ⟨h0, hseg⟩ := step_interior S p d hp steg h
  exact hseg _ (by positivity) (div_le_self h0.le (one_le_pow₀ (by norm_num)))

/-- **C34 (no division by zero).** At an interior point of a subproblem with non-negative coefficients every denominator used by `subsolv` is positive. -/
theorem C34_denominators (S : Sub ι κ) (p : Pt ι κ) (hp : Interior S p) (hlow : ∀ j, S.low j < S.alfa j) (hupp : ∀ j, S.beta j < S.upp j) (h0 : ∀ j, 0 ≤ S.p0 j ∧ 0 ≤ S.q0 j) (hPQ : ∀ i j, 0 ≤ S.P i j ∧ 0 ≤ S.Q i j)
    (hd : ∀ i, 0 ≤ S.d i) :
    (∀ j, 0 < S.upp j - p.x j ∧ 0 < p.x j - S.low j ∧ 0 < p.x j - S.alfa j ∧ 0 < S.beta j - p.x j ∧ 0 < diagx S p j) ∧
    (∀ i, 0 < p.y i ∧ 0 < p.lam i ∧ 0 < diagy S p i ∧ 0 < diaglamyi S p i) ∧ 0 < p.z := by
  obtain ⟨ix, iy, iz, il, ixs, iet, imu, ize, is⟩ := hp
  refine ⟨fun j => ?_, fun i => ?_, iz⟩
  · have a1 : 0 < p.x j - S.alfa j := by linarith [(ix j).1]
    have a2 : 0 < S.beta j - p.x j := by linarith [(ix j).2]
    have a3 : 0 < S.upp j - p.x j := by linarith [hupp j]
    have a4 : 0 < p.x j - S.low j := by linarith [hlow j]
    have hpl : 0 ≤ plam S p j := add_nonneg (h0 j).1 (sum_nonneg fun i _ => mul_nonneg (hPQ i j).1 (il i).le)
    have hql : 0 ≤ qlam S p j := add_nonneg (h0 j).2 (sum_nonneg fun i _ => mul_nonneg (hPQ i j).2 (il i).le)
    have := ixs j
    have := iet j
    refine ⟨a3, a4, a1, a2, ?_⟩
    unfold diagx
    positivity
  · have b1 := iy i
    have b2 := il i
    have b3 := imu i
    have b4 := is i
    have b5 := hd i
    have hy : 0 < diagy S p i := by unfold diagy; positivity
    exact ⟨b1, b2, hy, by unfold diaglamyi; positivity⟩

theorem halving_fuel (S : Sub ι κ) (epsi : ℝ) (p d : Pt ι κ) (rn : ℝ) (st : Halving ι κ) (f : ℕ) (hf : 50 ≤ f + st.itto) : halvingLoop f S epsi p d rn st ≠ .error .fuel := by
  refine whileE_fuel (fun k (s : Halving ι κ) => 50 ≤ k + s.itto) (fun s h0 hc => ?_) (fun k s hk hc => ⟨?_, fun s' hb => ?_⟩) f st hf
  · have := hc.2
    omega
  · intro h; cases h
  · injection hb with hb
    subst hb
    show 50 ≤ k + (s.itto + 1)
    omega

/-- An error of a Newton pass other than an exhausted halving bound comes from the linear solver or an empty design. -/
theorem newtonPass_error (f : ℕ) (hf : 50 ≤ f) (solve : LinSolve) (S : Sub ι κ) (epsi : ℝ) (st : Newton ι κ) (e : MmaErr) (h : newtonPass f solve S epsi st = .error e) :
    reduced solve S epsi st.p = .error e ∨ (e = .empty ∧ IsEmpty ι) := by
  unfold newtonPass at h
  cases h1 : reduced solve S epsi st.p with
  | error e' =>
    rw [h1] at h
    injection h with h
    exact Or.inl (by rw [h])
  | ok r =>
  obtain ⟨dx, dz, dlam⟩ := r
  rw [h1] at h
  dsimp only [bind, Except.bind] at h
  right
  cases h2 : stepLength S st.p (extend S epsi st.p dx dz dlam) with
  | error e' =>
    rw [h2] at h
    have h : e' = e := by injection h
    subst h
    unfold stepLength at h2
    dsimp only [bind, Except.bind] at h2
    cases g1 : npMax (fun k => -1.01 * stack (extend S epsi st.p dx dz dlam) k / stack st.p k) with
    | error e1 =>
      exact absurd (npMax_error.mp g1).2 (not_isEmpty_of_nonempty _)
    | ok m1 =>
    rw [g1] at h2
    dsimp only at h2
    cases g2 : npMax (fun j => -1.01 * (extend S epsi st.p dx dz dlam).x j / (st.p.x j - S.alfa j)) with
    | error e1 =>
      rw [g2] at h2
      injection h2 with h2
      exact h2 ▸ npMax_error.mp g2
    | ok m2 =>
    rw [g2] at h2
    dsimp only at h2
    cases g3 : npMax (fun j => 1.01 * (extend S epsi st.p dx dz dlam).x j / (S.beta j - st.p.x j)) with
    | error e1 =>
      rw [g3] at h2
      injection h2 with h2
      exact h2 ▸ npMax_error.mp g3
    | ok m3 => rw [g3] at h2; cases h2
  | ok steg =>
  rw [h2] at h
  dsimp only at h
  cases h3 : halvingLoop f S epsi st.p (extend S epsi st.p dx dz dlam) st.residunorm { p := st.p, residu := st.residu, resinew := 2 * st.residunorm, steg := steg, itto := 0 } with
  | error e' =>
    exfalso
    have hne : e' = .fuel := by
      by_contra hne
      exact whileE_error (fun _ => True) (fun _ _ _ _ _ => trivial) e' hne (fun s _ _ hb => by cases hb) f _ trivial h3
    exact halving_fuel S epsi st.p _ st.residunorm _ f (by simpa using hf) (hne ▸ h3)
  | ok hv =>
  rw [h3] at h
  dsimp only at h
  cases h4 : npMax (fun k => |hv.residu k|) with
  | error e1 => exact absurd (npMax_error.mp h4).2 (not_isEmpty_of_nonempty _)
  | ok rm => rw [h4] at h; cases h

theorem reduced_error (solve : LinSolve) (S : Sub ι κ) (epsi : ℝ) (p : Pt ι κ) (e : MmaErr) (h : reduced solve S epsi p = .error e) :
    (Fintype.card κ < Fintype.card ι ∧ solve.run (κ ⊕ Unit) (matLam S p) (rhsLam S epsi p) = .error e) ∨
    (¬ Fintype.card κ < Fintype.card ι ∧ solve.run (ι ⊕ Unit) (matX S p) (rhsX S epsi p) = .error e) := by
  unfold reduced at h
  split at h
  · rename_i hc
    left
    refine ⟨hc, ?_⟩
    cases h1 : solve.run (κ ⊕ Unit) (matLam S p) (rhsLam S epsi p) with
    | error e' => rw [h1] at h; injection h with h; rw [h]
    | ok r => rw [h1] at h; cases h
  · rename_i hc
    right
    refine ⟨hc, ?_⟩
    cases h1 : solve.run (ι ⊕ Unit) (matX S p) (rhsX S epsi p) with
    | error e' => rw [h1] at h; injection h with h; rw [h]
    | ok r => rw [h1] at h; cases h

/-- A linear solver does not raise the model's own loop bound error. -/
def LinSolve.Proper (solve : LinSolve) : Prop := ∀ (ω : Type) [Fintype ω] [DecidableEq ω] (M : Matrix ω ω ℝ) (v : ω → ℝ), solve.run ω M v ≠ .error .fuel

theorem newtonPass_fuel (f : ℕ) (hf : 50 ≤ f) (solve : LinSolve) (hsv : solve.Proper) (S : Sub ι κ) (epsi : ℝ) (st : Newton ι κ) : newtonPass f solve S epsi st ≠ .error .fuel := by
  intro h
  rcases newtonPass_error f hf solve S epsi st .fuel h with h | ⟨h, -⟩
  · rcases reduced_error solve S epsi st.p .fuel h with ⟨-, h⟩ | ⟨-, h⟩
    · exact hsv _ _ _ h
    · exact hsv _ _ _ h
  · cases h

theorem newtonPass_ittt (f : ℕ) (solve : LinSolve) (S : Sub ι κ) (epsi : ℝ) (st st' : Newton ι κ) (h : newtonPass f solve S epsi st = .ok st') : st'.ittt = st.ittt + 1 := by
  unfold newtonPass at h
  cases h1 : reduced solve S epsi st.p with
  | error e => rw [h1] at h; cases h
  | ok r =>
  obtain ⟨dx, dz, dlam⟩ := r
  rw [h1] at h
  dsimp only [bind, Except.bind] at h
  cases h2 : stepLength S st.p (extend S epsi st.p dx dz dlam) with
  | error e => rw [h2] at h; cases h
  | ok steg =>
  rw [h2] at h
  dsimp only at h
  cases h3 : halvingLoop f S epsi st.p (extend S epsi st.p dx dz dlam) st.residunorm { p := st.p, residu := st.residu, resinew := 2 * st.residunorm, steg := steg, itto := 0 } with
  | error e => rw [h3] at h; cases h
  | ok hv =>
  rw [h3] at h
  dsimp only at h
  cases h4 : npMax (fun k => |hv.residu k|) with
  | error e => rw [h4] at h; cases h
  | ok rm =>
  rw [h4] at h
  injection h with h
  subst h
  rfl

theorem newtonLoop_fuel (f1 f2 : ℕ) (hf2 : 50 ≤ f2) (solve : LinSolve) (hsv : solve.Proper) (S : Sub ι κ) (epsi : ℝ) (st : Newton ι κ) (hf1 : 200 ≤ f1 + st.ittt) :
    newtonLoop f1 f2 solve S epsi st ≠ .error .fuel := by
  refine whileE_fuel (fun k (s : Newton ι κ) => 200 ≤ k + s.ittt) (fun s h0 hc => ?_) (fun k s hk hc => ⟨newtonPass_fuel f2 hf2 solve hsv S epsi s, fun s' hb => ?_⟩) f1 st hf1
  · have := hc.2
    omega
  · rw [newtonPass_ittt f2 solve S epsi s s' hb]
    omega

theorem barrierPass_fuel (f1 f2 : ℕ) (hf1 : 200 ≤ f1) (hf2 : 50 ≤ f2) (solve : LinSolve) (hsv : solve.Proper) (S : Sub ι κ) (st : Pt ι κ × ℝ) : barrierPass f1 f2 solve S st ≠ .error .fuel := by
  intro h
  unfold barrierPass at h
  dsimp only [bind, Except.bind] at h
  cases h1 : npMax (fun k => |residu S st.2 st.1 k|) with
  | error e => exact absurd (npMax_error.mp h1).2 (not_isEmpty_of_nonempty _)
  | ok rm =>
  rw [h1] at h
  dsimp only at h
  cases h2 : newtonLoop f1 f2 solve S st.2 { p := st.1, residu := residu S st.2 st.1, residunorm := resNorm (residu S st.2 st.1), residumax := rm, ittt := 0 } with
  | error e =>
    rw [h2] at h
    injection h with h
    exact newtonLoop_fuel f1 f2 hf2 solve hsv S st.2 _ (by simpa using hf1) (h ▸ h2)
  | ok nw => rw [h2] at h; cases h

theorem barrierPass_eps (f1 f2 : ℕ) (solve : LinSolve) (S : Sub ι κ) (st st' : Pt ι κ × ℝ) (h : barrierPass f1 f2 solve S st = .ok st') : st'.2 = 0.1 * st.2 := by
  unfold barrierPass at h
  dsimp only [bind, Except.bind] at h
  cases h1 : npMax (fun k => |residu S st.2 st.1 k|) with
  | error e => rw [h1] at h; cases h
  | ok rm =>
  rw [h1] at h
  dsimp only at h
  cases h2 : newtonLoop f1 f2 solve S st.2 { p := st.1, residu := residu S st.2 st.1, residunorm := resNorm (residu S st.2 st.1), residumax := rm, ittt := 0 } with
  | error e => rw [h2] at h; cases h
  | ok nw =>
  rw [h2] at h
  injection h with h
  subst h
  rfl

/-- **C34 (termination).** All three nested loops end for every problem and every linear solver: `n` passes of the barrier loop suffice as soon as `10⁻ⁿ ≤ epsimin`, 200 of the Newton loop and 50 of the halving loop. -/
theorem C34_terminates (n f1 f2 : ℕ) (solve : LinSolve) (hsv : solve.Proper) (epsimin : ℝ) (hn : 0.1 ^ n ≤ epsimin) (hf1 : 200 ≤ f1) (hf2 : 50 ≤ f2) (S : Sub ι κ) :
    subsolv (n, f1, f2) solve epsimin S ≠ .error .fuel := by
  intro h
  unfold subsolv at h
  dsimp only [bind, Except.bind] at h
  cases h1 : whileE (fun st : Pt ι κ × ℝ => st.2 > epsimin) (barrierPass f1 f2 solve S) n (start S, 1) with
  | ok st => rw [h1] at h; cases h
  | error e =>
    rw [h1] at h
    injection h with h
    subst h
    refine whileE_fuel (fun k (s : Pt ι κ × ℝ) => 0.1 ^ k * s.2 ≤ epsimin) (fun s h0 hc => ?_) (fun k s hk hc => ⟨barrierPass_fuel f1 f2 hf1 hf2 solve hsv S s, fun s' hb => ?_⟩) n (start S, 1) (by simpa using hn) h1
    · rw [pow_zero, one_mul] at h0
      exact absurd hc (not_lt.mpr h0)
    · rw [barrierPass_eps f1 f2 solve S s s' hb, ← mul_assoc, ← pow_succ]
      exact hk

/-- Hence for every positive `epsimin` some bounds suffice. -/
theorem C34_terminates_pos (solve : LinSolve) (hsv : solve.Proper) (epsimin : ℝ) (hpos : 0 < epsimin) (S : Sub ι κ) : ∃ fuel, subsolv fuel solve epsimin S ≠ .error .fuel := by
  obtain ⟨n, hn⟩ := exists_pow_lt_of_lt_one hpos (by norm_num : (0.1 : ℝ) < 1)
  exact ⟨(n, 200, 50), C34_terminates n 200 50 solve hsv epsimin hn.le le_rfl le_rfl S⟩

/-- Seven passes suffice for the tolerance used by `mmasub`. -/
theorem C34_terminates_mma (solve : LinSolve) (hsv : solve.Proper) (S : Sub ι κ) : subsolv (7, 200, 50) solve 0.0000001 S ≠ .error .fuel :=
  C34_terminates 7 200 50 solve hsv _ (by norm_num) le_rfl le_rfl S

end

end Verif.Fem.Mma
