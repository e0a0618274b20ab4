import Verif.PhaseField.Output
import Mathlib.Analysis.Matrix.PosDef
import Mathlib.Algebra.BigOperators.Fin
import Mathlib.Algebra.Order.BigOperators.Ring.Finset
import Mathlib.Tactic.LinearCombination
import Mathlib.Tactic.FieldSimp

/-!
# C90: aspect ratios of grains
-/
namespace Verif.PhaseField
open Verif

/-! ## Eigenvalues in decreasing order -/

theorem ev_antitone (X : List (Fin 3 → ℝ)) :
    explainedVariance X 1 ≤ explainedVariance X 0 ∧ explainedVariance X 2 ≤ explainedVariance X 1 :=
  ⟨(cov_herm X).eigenvalues₀_antitone (by simp), (cov_herm X).eigenvalues₀_antitone (by simp [Fin.le_def])⟩

theorem ev_charpoly (X : List (Fin 3 → ℝ)) (t : ℝ) :
    (Matrix.scalar (Fin 3) t - cov X).det =
      (t - explainedVariance X 0) * (t - explainedVariance X 1) * (t - explainedVariance X 2) := by
  rw [← Matrix.eval_charpoly, (cov_herm X).charpoly_eq, Polynomial.eval_prod]
  simp only [Polynomial.eval_sub, Polynomial.eval_X, Polynomial.eval_C, RCLike.ofReal_real_eq_id, id]
  rw [← Fin.prod_univ_three fun i => t - explainedVariance X i]
  unfold Matrix.IsHermitian.eigenvalues explainedVariance
  rw [(Fintype.equivOfCardEq (Fintype.card_fin (Fintype.card (Fin 3)))).symm.prod_comp
    fun k => t - (cov_herm X).eigenvalues₀ k]
  exact ((finCongr (show 3 = Fintype.card (Fin 3) by simp)).prod_comp fun k => t - (cov_herm X).eigenvalues₀ k).symm

theorem sorted3_unique {a b : Fin 3 → ℝ} (ha1 : a 1 ≤ a 0) (ha2 : a 2 ≤ a 1) (hb1 : b 1 ≤ b 0) (hb2 : b 2 ≤ b 1)
    (h : ∀ t, (t - a 0) * (t - a 1) * (t - a 2) = (t - b 0) * (t - b 1) * (t - b 2)) : a = b := by
  have key : ∀ {x y : Fin 3 → ℝ}, (∀ t, (t - x 0) * (t - x 1) * (t - x 2) = (t - y 0) * (t - y 1) * (t - y 2)) →
      ∀ i, x i = y 0 ∨ x i = y 1 ∨ x i = y 2 := by
    intro x y h i
    have := h (x i)
    have h0 : (x i - x 0) * (x i - x 1) * (x i - x 2) = 0 := by fin_cases i <;> simp
    rw [h0] at this
    rcases mul_eq_zero.mp this.symm with h1 | h1
    · rcases mul_eq_zero.mp h1 with h2 | h2
      · exact Or.inl (by linarith)
      · exact Or.inr (Or.inl (by linarith))
    · exact Or.inr (Or.inr (by linarith))
  have h0 : a 0 = b 0 := by
    apply le_antisymm
    · rcases key h 0 with h | h | h <;> linarith
    · rcases key (fun t => (h t).symm) 0 with h | h | h <;> linarith
  have h2 : a 2 = b 2 := by
    apply le_antisymm
    · rcases key (fun t => (h t).symm) 2 with h | h | h <;> linarith
    · rcases key h 2 with h | h | h <;> linarith
  have h1 : a 1 = b 1 := by
    have e1 := h 1; have e2 := h (-1); have e3 := h 0
    rw [h0, h2] at e1 e2 e3
    linarith
  funext i
  fin_cases i
  · exact h0
  · exact h1
  · exact h2

/-- The explained variances are determined by the characteristic polynomial and the order. -/
theorem ev_unique (X : List (Fin 3 → ℝ)) (b : Fin 3 → ℝ) (hb1 : b 1 ≤ b 0) (hb2 : b 2 ≤ b 1)
    (h : ∀ t, (Matrix.scalar (Fin 3) t - cov X).det = (t - b 0) * (t - b 1) * (t - b 2)) :
    explainedVariance X = b :=
  sorted3_unique (ev_antitone X).1 (ev_antitone X).2 hb1 hb2 fun t => by rw [← ev_charpoly, h]

theorem cov_posSemidef (X : List (Fin 3 → ℝ)) : (cov X).PosSemidef := by
  refine Matrix.PosSemidef.of_dotProduct_mulVec_nonneg (cov_herm X) fun y => ?_
  have h : star y ⬝ᵥ (cov X).mulVec y = (X.map fun x => (∑ i, y i * (x i - colMean X i)) ^ 2).sum / ((X.length : ℝ) - 1) := by
    simp only [dotProduct, Matrix.mulVec, cov, Matrix.of_apply, Pi.star_apply, star_trivial]
    simp only [← Fin.sum_univ_fun_getElem, Fin.sum_univ_three, Finset.sum_div, Finset.sum_mul]
    simp only [mul_add, Finset.mul_sum, ← Finset.sum_add_distrib]
    exact Finset.sum_congr rfl fun i _ => by ring
  rw [h]
  rcases X with _ | ⟨x, X⟩
  · simp
  · refine div_nonneg (List.sum_nonneg ?_) ?_
    · intro z hz
      obtain ⟨w, -, rfl⟩ := List.mem_map.mp hz
      positivity
    · push_cast [List.length_cons]; linarith [Nat.cast_nonneg (α := ℝ) X.length]

theorem ev_nonneg (X : List (Fin 3 → ℝ)) (i : Fin 3) : 0 ≤ explainedVariance X i := by
  have h := (cov_posSemidef X).eigenvalues_nonneg
    ((Fintype.equivOfCardEq (Fintype.card_fin (Fintype.card (Fin 3)))) (Fin.cast (by simp) i))
  unfold Matrix.IsHermitian.eigenvalues at h
  rw [Equiv.symm_apply_apply] at h
  exact h

/-! ## Collinear points -/

/-- All points of the list lie on one line. -/
def OnLine (X : List (Fin 3 → ℝ)) : Prop := ∃ p u : Fin 3 → ℝ, ∀ x ∈ X, ∃ s : ℝ, ∀ i, x i = p i + s * u i

/-- Sum of the principal minors = second elementary symmetric function of the eigenvalues. -/
theorem ev_e2 (X : List (Fin 3 → ℝ)) :
    explainedVariance X 0 * explainedVariance X 1 + explainedVariance X 0 * explainedVariance X 2
      + explainedVariance X 1 * explainedVariance X 2 =
    (cov X 0 0 * cov X 1 1 - cov X 0 1 ^ 2) + (cov X 0 0 * cov X 2 2 - cov X 0 2 ^ 2) + (cov X 1 1 * cov X 2 2 - cov X 1 2 ^ 2) := by
  have h1 := ev_charpoly X 1
  have h2 := ev_charpoly X (-1)
  have hs : ∀ i j, cov X i j = cov X j i := fun i j => by
    have := (cov_herm X).apply i j; simpa using this.symm
  rw [Matrix.det_fin_three] at h1 h2
  simp [Matrix.scalar_apply, hs 1 0, hs 2 0, hs 2 1] at h1 h2
  linarith

theorem list_sum_sq_zero {α : Type*} (X : List α) (f : α → ℝ) (h : (X.map fun x => f x ^ 2).sum = 0) : ∀ x ∈ X, f x = 0 := by
  induction X with
  | nil => simp
  | cons a l ih =>
    rw [List.map_cons, List.sum_cons] at h
    have h1 : 0 ≤ (l.map fun x => f x ^ 2).sum := List.sum_nonneg fun z hz => by
      obtain ⟨w, -, rfl⟩ := List.mem_map.mp hz; positivity
    have h2 := sq_nonneg (f a)
    intro x hx
    rcases List.mem_cons.mp hx with rfl | hx
    · exact pow_eq_zero_iff (two_ne_zero) |>.mp (by linarith)
    · exact ih (by linarith) x hx

/-- `(n - 1) (A_ii - 2 c A_ik + c² A_kk) = Σ ((x_i - m_i) - c (x_k - m_k))²`. -/
theorem cov_combo (X : List (Fin 3 → ℝ)) (hX : 2 ≤ X.length) (i k : Fin 3) (c : ℝ) :
    (X.map fun x => ((x i - colMean X i) - c * (x k - colMean X k)) ^ 2).sum =
      ((X.length : ℝ) - 1) * (cov X i i - 2 * c * cov X i k + c ^ 2 * cov X k k) := by
  have hn : ((X.length : ℝ) - 1) ≠ 0 := by
    have : (2 : ℝ) ≤ X.length := by exact_mod_cast hX
    linarith
  simp only [cov, Matrix.of_apply, ← Fin.sum_univ_fun_getElem]
  field_simp
  simp only [Finset.mul_sum, ← Finset.sum_add_distrib, ← Finset.sum_sub_distrib]
  exact Finset.sum_congr rfl fun q _ => by ring

theorem minor_nonneg (X : List (Fin 3 → ℝ)) (hX : 2 ≤ X.length) (i k : Fin 3) : 0 ≤ cov X i i * cov X k k - cov X i k ^ 2 := by
  have hn : (0 : ℝ) < (X.length : ℝ) - 1 := by
    have : (2 : ℝ) ≤ X.length := by exact_mod_cast hX
    linarith
  have hq : ∀ c, 0 ≤ cov X i i - 2 * c * cov X i k + c ^ 2 * cov X k k := by
    intro c
    have h := cov_combo X hX i k c
    have h0 : 0 ≤ (X.map fun x => ((x i - colMean X i) - c * (x k - colMean X k)) ^ 2).sum := List.sum_nonneg fun z hz => by
      obtain ⟨w, -, rfl⟩ := List.mem_map.mp hz; positivity
    rw [h] at h0
    exact (mul_nonneg_iff_of_pos_left hn).mp h0
  by_cases hk : cov X k k = 0
  · have e : cov X i k = 0 := by
      by_contra hne
      have h1 := hq ((cov X i i + 1) / (2 * cov X i k))
      rw [hk] at h1
      have : 2 * ((cov X i i + 1) / (2 * cov X i k)) * cov X i k = cov X i i + 1 := by field_simp
      rw [this] at h1
      linarith
    rw [hk, e]; simp
  · have hkk : 0 < cov X k k := by
      rcases lt_or_gt_of_ne hk with h | h
      · exfalso
        have hd := (cov_posSemidef X).diag_nonneg (i := k)
        linarith
      · exact h
    have h1 := hq (cov X i k / cov X k k)
    have : cov X i i * cov X k k - cov X i k ^ 2
        = (cov X i i - 2 * (cov X i k / cov X k k) * cov X i k + (cov X i k / cov X k k) ^ 2 * cov X k k) * cov X k k := by
      field_simp; ring
    rw [this]
    exact mul_nonneg h1 hkk.le

theorem onLine_of_minors (X : List (Fin 3 → ℝ)) (hX : 2 ≤ X.length) (h : ∀ i k, cov X i i * cov X k k = cov X i k ^ 2) :
    OnLine X := by
  have hn : (0 : ℝ) < (X.length : ℝ) - 1 := by
    have : (2 : ℝ) ≤ X.length := by exact_mod_cast hX
    linarith
  by_cases hz : ∀ k, cov X k k = 0
  · refine ⟨colMean X, 0, fun x hx => ⟨0, fun i => ?_⟩⟩
    have h1 := cov_combo X hX i i 0
    rw [hz i] at h1
    simp only [zero_mul, sub_zero, mul_zero, zero_pow two_ne_zero, add_zero] at h1
    have := list_sum_sq_zero X (fun x => x i - colMean X i) h1 x hx
    simp; linarith
  · push Not at hz
    obtain ⟨k, hk⟩ := hz
    refine ⟨colMean X, fun i => cov X i k / cov X k k, fun x hx => ⟨x k - colMean X k, fun i => ?_⟩⟩
    have h1 := cov_combo X hX i k (cov X i k / cov X k k)
    have h2 : cov X i i - 2 * (cov X i k / cov X k k) * cov X i k + (cov X i k / cov X k k) ^ 2 * cov X k k = 0 := by
      have := h i k
      field_simp
      linarith
    rw [h2, mul_zero] at h1
    have : (x i - colMean X i) - cov X i k / cov X k k * (x k - colMean X k) = 0 :=
      list_sum_sq_zero X (fun x => (x i - colMean X i) - cov X i k / cov X k k * (x k - colMean X k)) h1 x hx
    linarith

theorem minors_of_onLine (X : List (Fin 3 → ℝ)) (hX : 2 ≤ X.length) (h : OnLine X) (i k : Fin 3) :
    cov X i i * cov X k k = cov X i k ^ 2 := by
  obtain ⟨p, u, h⟩ := h
  choose! s hs using h
  have hn : (X.length : ℝ) ≠ 0 := by
    have : (2 : ℝ) ≤ X.length := by exact_mod_cast hX
    linarith
  set S := (X.map s).sum / X.length with hS
  have hm : ∀ i, colMean X i = p i + S * u i := by
    intro i
    unfold colMean
    have : (X.map fun x => x i) = X.map fun x => p i + s x * u i := List.map_congr_left fun x hx => hs x hx i
    rw [this, hS]
    simp only [← Fin.sum_univ_fun_getElem, Finset.sum_add_distrib, ← Finset.sum_mul, Finset.sum_const, Finset.card_univ,
      Fintype.card_fin, nsmul_eq_mul]
    field_simp
  have hc : ∀ i j, cov X i j = u i * u j * ((X.map fun x => (s x - S) ^ 2).sum / ((X.length : ℝ) - 1)) := by
    intro i j
    simp only [cov, Matrix.of_apply]
    rw [← mul_div_assoc, ← List.sum_map_mul_left]
    congr 2
    refine List.map_congr_left fun x hx => ?_
    rw [hm, hm, hs x hx i, hs x hx j]
    ring
  rw [hc, hc, hc]
  ring

theorem ev12_zero_iff (X : List (Fin 3 → ℝ)) (hX : 2 ≤ X.length) :
    (explainedVariance X 1 = 0 ∧ explainedVariance X 2 = 0) ↔ OnLine X := by
  have e2 := ev_e2 X
  have hs : ∀ i j, cov X i j = cov X j i := fun i j => by
    have := (cov_herm X).apply i j; simpa using this.symm
  constructor
  · rintro ⟨h1, h2⟩
    rw [h1, h2] at e2
    have m01 := minor_nonneg X hX 0 1
    have m02 := minor_nonneg X hX 0 2
    have m12 := minor_nonneg X hX 1 2
    have z01 : cov X 0 0 * cov X 1 1 = cov X 0 1 ^ 2 := by linarith
    have z02 : cov X 0 0 * cov X 2 2 = cov X 0 2 ^ 2 := by linarith
    have z12 : cov X 1 1 * cov X 2 2 = cov X 1 2 ^ 2 := by linarith
    refine onLine_of_minors X hX fun i k => ?_
    fin_cases i <;> fin_cases k <;> simp only [Fin.zero_eta, Fin.mk_one, Fin.reduceFinMk]
    · ring
    · exact z01
    · exact z02
    · rw [hs 1 0, mul_comm]; exact z01
    · ring
    · exact z12
    · rw [hs 2 0, mul_comm]; exact z02
    · rw [hs 2 1, mul_comm]; exact z12
    · ring
  · intro h
    have z := minors_of_onLine X hX h
    rw [z 0 1, z 0 2, z 1 2] at e2
    have n0 := ev_nonneg X 0
    have n1 := ev_nonneg X 1
    have n2 := ev_nonneg X 2
    obtain ⟨a1, a2⟩ := ev_antitone X
    have p01 := mul_nonneg n0 n1
    have p02 := mul_nonneg n0 n2
    have p12 := mul_nonneg n1 n2
    have h1 : explainedVariance X 1 = 0 := by
      have : explainedVariance X 0 * explainedVariance X 1 = 0 := by linarith
      rcases mul_eq_zero.mp this with h | h <;> linarith
    exact ⟨h1, by linarith⟩

/-! ## Similarity transforms -/

/-- `x ↦ s Q x + t`. -/
def similarity (s : ℝ) (Q : Matrix (Fin 3) (Fin 3) ℝ) (t : Fin 3 → ℝ) (x : Fin 3 → ℝ) : Fin 3 → ℝ :=
  fun i => s * (Q.mulVec x) i + t i

theorem colMean_similarity (X : List (Fin 3 → ℝ)) (hX : X ≠ []) (s : ℝ) (Q : Matrix (Fin 3) (Fin 3) ℝ) (t : Fin 3 → ℝ) (i : Fin 3) :
    colMean (X.map (similarity s Q t)) i = s * Q.mulVec (colMean X) i + t i := by
  have hn : (X.length : ℝ) ≠ 0 := by simpa using hX
  unfold colMean similarity
  rw [List.map_map, List.length_map]
  simp only [Function.comp_def, Matrix.mulVec, dotProduct, Fin.sum_univ_three, ← Fin.sum_univ_fun_getElem]
  have : ∑ k : Fin X.length, (s * (Q i 0 * X[k.1] 0 + Q i 1 * X[k.1] 1 + Q i 2 * X[k.1] 2) + t i)
      = s * (Q i 0 * ∑ k : Fin X.length, X[k.1] 0 + Q i 1 * ∑ k : Fin X.length, X[k.1] 1 + Q i 2 * ∑ k : Fin X.length, X[k.1] 2)
        + X.length * t i := by
    simp only [Finset.sum_add_distrib, Finset.mul_sum, mul_add, Finset.sum_const, Finset.card_univ, Fintype.card_fin, nsmul_eq_mul]
  rw [this]
  field_simp

theorem cov_similarity (X : List (Fin 3 → ℝ)) (hX : X ≠ []) (s : ℝ) (Q : Matrix (Fin 3) (Fin 3) ℝ) (t : Fin 3 → ℝ) :
    cov (X.map (similarity s Q t)) = s ^ 2 • (Q * cov X * Q.transpose) := by
  ext i j
  simp only [cov, Matrix.of_apply, Matrix.smul_apply, Matrix.mul_apply, Matrix.transpose_apply, smul_eq_mul]
  simp only [colMean_similarity X hX, List.map_map, List.length_map, Function.comp_def, similarity, Matrix.mulVec, dotProduct,
    Fin.sum_univ_three, ← Fin.sum_univ_fun_getElem, Finset.sum_div, Finset.mul_sum, Finset.sum_mul, mul_add, add_mul,
    ← Finset.sum_add_distrib]
  exact Finset.sum_congr rfl fun k _ => by ring

/-- Explained variances scale with the square of the length and do not depend on position or direction. -/
theorem ev_similarity (X : List (Fin 3 → ℝ)) (hX : X ≠ []) (s : ℝ) (hs : s ≠ 0) (Q : Matrix (Fin 3) (Fin 3) ℝ)
    (hQ : Q * Q.transpose = 1) (t : Fin 3 → ℝ) :
    explainedVariance (X.map (similarity s Q t)) = fun i => s ^ 2 * explainedVariance X i := by
  have hs2 : (0 : ℝ) < s ^ 2 := by positivity
  refine ev_unique _ _ (mul_le_mul_of_nonneg_left (ev_antitone X).1 hs2.le)
    (mul_le_mul_of_nonneg_left (ev_antitone X).2 hs2.le) fun r => ?_
  have hd : Q.det * Q.det = 1 := by
    have := congrArg Matrix.det hQ
    rwa [Matrix.det_mul, Matrix.det_transpose, Matrix.det_one] at this
  have e : Matrix.scalar (Fin 3) r - cov (X.map (similarity s Q t))
      = s ^ 2 • (Q * (Matrix.scalar (Fin 3) (r / s ^ 2) - cov X) * Q.transpose) := by
    rw [cov_similarity X hX, mul_sub, sub_mul, smul_sub]
    congr 1
    have : Q * Matrix.scalar (Fin 3) (r / s ^ 2) * Q.transpose = (r / s ^ 2) • (1 : Matrix (Fin 3) (Fin 3) ℝ) := by
      rw [← hQ]
      ext i j
      simp [Matrix.mul_apply, Fin.sum_univ_three, Matrix.scalar_apply, Matrix.diagonal_apply]
      ring
    rw [this, smul_smul]
    ext i j
    simp [Matrix.scalar_apply, Matrix.diagonal_apply, Matrix.one_apply]
    rw [mul_div_cancel₀ _ hs2.ne']
  rw [e, Matrix.det_smul, Matrix.det_mul, Matrix.det_mul, Matrix.det_transpose, ev_charpoly]
  simp only [Fintype.card_fin]
  have : (s ^ 2) ^ 3 * (Q.det * ((r / s ^ 2 - explainedVariance X 0) * (r / s ^ 2 - explainedVariance X 1) * (r / s ^ 2 - explainedVariance X 2)) * Q.det)
     = (Q.det * Q.det) * ((s ^ 2 * (r / s ^ 2) - s ^ 2 * explainedVariance X 0) * (s ^ 2 * (r / s ^ 2) - s ^ 2 * explainedVariance X 1)
        * (s ^ 2 * (r / s ^ 2) - s ^ 2 * explainedVariance X 2)) := by ring
  rw [this, hd, mul_div_cancel₀ _ hs2.ne', one_mul]

/-! ## Permutations and uniform weights -/

theorem cov_perm {X Y : List (Fin 3 → ℝ)} (h : X.Perm Y) : cov X = cov Y := by
  have hm : ∀ i, colMean X i = colMean Y i := fun i => by
    unfold colMean; rw [(h.map fun x => x i).sum_eq, h.length_eq]
  ext i j
  simp only [cov, Matrix.of_apply, hm]
  rw [(h.map fun x : Fin 3 → ℝ => (x i - colMean Y i) * (x j - colMean Y j)).sum_eq, h.length_eq]

theorem ev_perm {X Y : List (Fin 3 → ℝ)} (h : X.Perm Y) : explainedVariance X = explainedVariance Y :=
  ev_unique X _ (ev_antitone Y).1 (ev_antitone Y).2 fun t => by rw [cov_perm h, ev_charpoly]

theorem weighted_uniform (dirs : List (Fin 3 → ℝ)) (w : ℝ) :
    weightedDirections dirs (List.replicate dirs.length w) = dirs.map (similarity w 1 0) := by
  induction dirs with
  | nil => rfl
  | cons a l ih =>
    unfold weightedDirections at ih ⊢
    rw [List.length_cons, List.replicate_succ, List.zipWith_cons_cons, ih, List.map_cons]
    congr 1
    funext i
    simp [similarity, mul_comm]

/-- The quotient of lengths, `none` for a zero denominator. -/
noncomputable def lengthRatio (l : Fin 3 → ℝ) : Option ℝ := if l 1 + l 2 = 0 then none else some (2 * l 0 / (l 1 + l 2))

theorem lengthRatio_scale (l : Fin 3 → ℝ) (c : ℝ) (hc : c ≠ 0) : lengthRatio (fun i => c * l i) = lengthRatio l := by
  unfold lengthRatio
  have h : c * l 1 + c * l 2 = 0 ↔ l 1 + l 2 = 0 := by
    rw [← mul_add, mul_eq_zero, or_iff_right hc]
  simp only [h]
  split_ifs with h0
  · rfl
  · congr 1
    rw [← mul_add, mul_left_comm, mul_div_mul_left _ _ hc]

theorem aspectRatio_eq (vols : List ℝ) (dirs : List (Fin 3 → ℝ)) (h5 : 5 ≤ vols.length) :
    aspectRatio vols dirs = lengthRatio fun i => Real.sqrt (explainedVariance (weightedDirections dirs vols) i) := by
  unfold aspectRatio
  rw [if_neg (by omega)]
  rfl

theorem aspectRatio_uniform (dirs : List (Fin 3 → ℝ)) (w : ℝ) (hw : w ≠ 0) (h5 : 5 ≤ dirs.length) :
    aspectRatio (List.replicate dirs.length w) dirs = lengthRatio fun i => Real.sqrt (explainedVariance dirs i) := by
  rw [aspectRatio_eq _ _ (by simpa using h5), weighted_uniform,
    ev_similarity dirs (by rintro rfl; simp at h5) w hw 1 (by simp) 0]
  rw [← lengthRatio_scale (fun i => Real.sqrt (explainedVariance dirs i)) |w| (abs_ne_zero.mpr hw)]
  congr 1
  funext i
  rw [Real.sqrt_mul (sq_nonneg w), Real.sqrt_sq_eq_abs]

/-! ## Boxes -/

theorem sum_fin_id (a : ℕ) : ∑ i : Fin a, (i.1 : ℝ) = a * ((a : ℝ) - 1) / 2 := by
  rw [Fin.sum_univ_eq_sum_range fun i => (i : ℝ)]
  induction a with
  | zero => simp
  | succ n ih => rw [Finset.sum_range_succ, ih]; push_cast; ring

theorem sum_fin_sq (a : ℕ) : ∑ i : Fin a, (i.1 : ℝ) ^ 2 = a * ((a : ℝ) - 1) * (2 * a - 1) / 6 := by
  rw [Fin.sum_univ_eq_sum_range fun i => (i : ℝ) ^ 2]
  induction a with
  | zero => simp
  | succ n ih => rw [Finset.sum_range_succ, ih]; push_cast; ring

theorem sum_dev (a : ℕ) : ∑ i : Fin a, ((i.1 : ℝ) - ((a : ℝ) - 1) / 2) = 0 := by
  rw [Finset.sum_sub_distrib, sum_fin_id]; simp; ring

theorem sum_dev_sq (a : ℕ) : ∑ i : Fin a, ((i.1 : ℝ) - ((a : ℝ) - 1) / 2) ^ 2 = a * ((a : ℝ) ^ 2 - 1) / 12 := by
  have : ∀ i : Fin a, ((i.1 : ℝ) - ((a : ℝ) - 1) / 2) ^ 2 = (i.1 : ℝ) ^ 2 - ((a : ℝ) - 1) * i.1 + ((a : ℝ) - 1) ^ 2 / 4 :=
    fun i => by ring
  simp only [this, Finset.sum_add_distrib, Finset.sum_sub_distrib, ← Finset.mul_sum, sum_fin_id, sum_fin_sq]
  simp; ring

/-- The cell centres of a box of `a × b × c` cells of size `hx × hy × hz`, first centre at `o`. -/
noncomputable def boxCentres (a b c : ℕ) (h o : Fin 3 → ℝ) : List (Fin 3 → ℝ) :=
  (Finset.univ : Finset (Fin a × Fin b × Fin c)).toList.map fun q =>
    ![o 0 + h 0 * (q.1.1 : ℝ), o 1 + h 1 * (q.2.1.1 : ℝ), o 2 + h 2 * (q.2.2.1 : ℝ)]

theorem boxCentres_length (a b c : ℕ) (h o : Fin 3 → ℝ) : (boxCentres a b c h o).length = a * (b * c) := by
  simp [boxCentres]

theorem boxCentres_sum (a b c : ℕ) (h o : Fin 3 → ℝ) (f : (Fin 3 → ℝ) → ℝ) :
    ((boxCentres a b c h o).map f).sum = ∑ i : Fin a, ∑ j : Fin b, ∑ k : Fin c,
      f ![o 0 + h 0 * (i.1 : ℝ), o 1 + h 1 * (j.1 : ℝ), o 2 + h 2 * (k.1 : ℝ)] := by
  unfold boxCentres
  rw [List.map_map, Finset.sum_map_toList, Fintype.sum_prod_type]
  simp only [Fintype.sum_prod_type, Function.comp_def]

theorem boxCentres_mean (a b c : ℕ) (h o : Fin 3 → ℝ) (ha : 0 < a) (hb : 0 < b) (hc : 0 < c) :
    colMean (boxCentres a b c h o) = ![o 0 + h 0 * (((a : ℝ) - 1) / 2), o 1 + h 1 * (((b : ℝ) - 1) / 2), o 2 + h 2 * (((c : ℝ) - 1) / 2)] := by
  have ha' : (a : ℝ) ≠ 0 := by positivity
  have hb' : (b : ℝ) ≠ 0 := by positivity
  have hc' : (c : ℝ) ≠ 0 := by positivity
  funext i
  unfold colMean
  rw [boxCentres_sum, boxCentres_length]
  fin_cases i <;>
    simp only [Fin.zero_eta, Fin.mk_one, Fin.reduceFinMk, Matrix.cons_val, Matrix.cons_val_zero, Matrix.cons_val_one, Finset.sum_add_distrib,
      ← Finset.mul_sum, sum_fin_id, Finset.sum_const, Finset.card_univ, Fintype.card_fin, nsmul_eq_mul, Nat.cast_mul] <;>
    field_simp

theorem boxCentres_cov (a b c : ℕ) (h o : Fin 3 → ℝ) (ha : 0 < a) (hb : 0 < b) (hc : 0 < c) :
    cov (boxCentres a b c h o) = Matrix.diagonal ![
      (a * (b * c) : ℝ) / (12 * (((a * (b * c) : ℕ) : ℝ) - 1)) * (h 0 ^ 2 * ((a : ℝ) ^ 2 - 1)),
      (a * (b * c) : ℝ) / (12 * (((a * (b * c) : ℕ) : ℝ) - 1)) * (h 1 ^ 2 * ((b : ℝ) ^ 2 - 1)),
      (a * (b * c) : ℝ) / (12 * (((a * (b * c) : ℕ) : ℝ) - 1)) * (h 2 ^ 2 * ((c : ℝ) ^ 2 - 1))] := by
  have dx : ∀ i : Fin a, o 0 + h 0 * (i.1 : ℝ) - (o 0 + h 0 * (((a : ℝ) - 1) / 2)) = h 0 * ((i.1 : ℝ) - ((a : ℝ) - 1) / 2) := fun i => by ring
  have dy : ∀ i : Fin b, o 1 + h 1 * (i.1 : ℝ) - (o 1 + h 1 * (((b : ℝ) - 1) / 2)) = h 1 * ((i.1 : ℝ) - ((b : ℝ) - 1) / 2) := fun i => by ring
  have dz : ∀ i : Fin c, o 2 + h 2 * (i.1 : ℝ) - (o 2 + h 2 * (((c : ℝ) - 1) / 2)) = h 2 * ((i.1 : ℝ) - ((c : ℝ) - 1) / 2) := fun i => by ring
  ext i j
  simp only [cov, Matrix.of_apply]
  rw [boxCentres_sum, boxCentres_length, boxCentres_mean a b c h o ha hb hc]
  generalize (((a * (b * c) : ℕ) : ℝ) - 1) = y
  fin_cases i <;> fin_cases j <;>
    simp only [Fin.zero_eta, Fin.mk_one, Fin.reduceFinMk, Matrix.cons_val, Matrix.cons_val_zero, Matrix.cons_val_one, Matrix.diagonal_apply,
      Fin.isValue, Fin.reduceEq, if_true, if_false, dx, dy, dz, ← sq, mul_pow, ← Finset.mul_sum, ← Finset.sum_mul, sum_dev, sum_dev_sq,
      Finset.sum_const, Finset.card_univ, Fintype.card_fin, nsmul_eq_mul, mul_zero, zero_mul, zero_div] <;>
    ring

/-! ## C90 -/

/-- **C90 (lower bound).** Whatever the grain, an aspect ratio that is reported is at least 1. -/
theorem C90_at_least_one (vols : List ℝ) (dirs : List (Fin 3 → ℝ)) (r : ℝ) (h : aspectRatio vols dirs = some r) : 1 ≤ r := by
  unfold aspectRatio at h
  by_cases h5 : vols.length < 5
  · rw [if_pos h5] at h
    simp only [Option.some.injEq] at h; exact h.le
  · rw [if_neg h5] at h
    dsimp only at h
    split_ifs at h with h0
    simp only [Option.some.injEq] at h
    subst h
    set X := weightedDirections dirs vols
    have l1 := Real.sqrt_le_sqrt (ev_antitone X).1
    have l2 := Real.sqrt_le_sqrt (ev_antitone X).2
    have q1 := Real.sqrt_nonneg (explainedVariance X 1)
    have q2 := Real.sqrt_nonneg (explainedVariance X 2)
    have hp : 0 < Real.sqrt (explainedVariance X 1) + Real.sqrt (explainedVariance X 2) :=
      lt_of_le_of_ne (add_nonneg q1 q2) (Ne.symm h0)
    rw [le_div_iff₀ hp]
    linarith

/-- **C90 (when it is undefined).** For a grain of at least five cells the division by zero happens exactly when the weighted centroids lie on one line. -/
theorem C90_undefined (vols : List ℝ) (dirs : List (Fin 3 → ℝ)) (hlen : dirs.length = vols.length) :
    aspectRatio vols dirs = none ↔ 5 ≤ vols.length ∧ OnLine (weightedDirections dirs vols) := by
  by_cases h5 : 5 ≤ vols.length
  · rw [aspectRatio_eq vols dirs h5]
    have hl : 2 ≤ (weightedDirections dirs vols).length := by
      unfold weightedDirections; rw [List.length_zipWith]; omega
    rw [← ev12_zero_iff _ hl]
    unfold lengthRatio
    have q1 := Real.sqrt_nonneg (explainedVariance (weightedDirections dirs vols) 1)
    have q2 := Real.sqrt_nonneg (explainedVariance (weightedDirections dirs vols) 2)
    rw [← Real.sqrt_eq_zero (ev_nonneg _ 1), ← Real.sqrt_eq_zero (ev_nonneg _ 2), ← add_eq_zero_iff_of_nonneg q1 q2]
    simp only [h5, true_and]
    split_ifs with h <;> simp [h]
  · unfold aspectRatio
    rw [if_pos (by omega)]
    simp [h5]

/-- **C90 (cell size, position and direction do not matter).** If all cells of a grain have the same volume, moving, turning, reflecting or
scaling the grain (and its cells) does not change the result. -/
theorem C90_similar (dirs : List (Fin 3 → ℝ)) (w w' s : ℝ) (hw : w ≠ 0) (hw' : w' ≠ 0) (hs : s ≠ 0)
    (Q : Matrix (Fin 3) (Fin 3) ℝ) (hQ : Q * Q.transpose = 1) (t : Fin 3 → ℝ) :
    aspectRatio (List.replicate dirs.length w') (dirs.map (similarity s Q t)) = aspectRatio (List.replicate dirs.length w) dirs := by
  by_cases h5 : 5 ≤ dirs.length
  · have hm := aspectRatio_uniform (dirs.map (similarity s Q t)) w' hw' (by simpa using h5)
    rw [List.length_map] at hm
    rw [hm, aspectRatio_uniform dirs w hw h5, ev_similarity dirs (by rintro rfl; simp at h5) s hs Q hQ t]
    rw [← lengthRatio_scale (fun i => Real.sqrt (explainedVariance dirs i)) |s| (abs_ne_zero.mpr hs)]
    congr 1
    funext i
    rw [Real.sqrt_mul (sq_nonneg s), Real.sqrt_sq_eq_abs]
  · unfold aspectRatio
    rw [if_pos (by simp; omega), if_pos (by simp; omega)]

/-- **C90 (brick-shaped grains).** A grain that fills a box of `a × b × c` equal cells, listed in any order, longest direction first, has aspect ratio
`2 hx √(a²-1) / (hy √(b²-1) + hz √(c²-1))`. -/
theorem C90_box (a b c : ℕ) (h o : Fin 3 → ℝ) (hh : ∀ i, 0 < h i) (hc : 0 < c) (hb : 2 ≤ b)
    (h5 : 5 ≤ a * (b * c)) (w : ℝ) (hw : w ≠ 0) (dirs : List (Fin 3 → ℝ)) (hd : dirs.Perm (boxCentres a b c h o))
    (o1 : h 1 ^ 2 * ((b : ℝ) ^ 2 - 1) ≤ h 0 ^ 2 * ((a : ℝ) ^ 2 - 1)) (o2 : h 2 ^ 2 * ((c : ℝ) ^ 2 - 1) ≤ h 1 ^ 2 * ((b : ℝ) ^ 2 - 1)) :
    aspectRatio (List.replicate (a * (b * c)) w) dirs =
      some (2 * (h 0 * Real.sqrt ((a : ℝ) ^ 2 - 1)) / (h 1 * Real.sqrt ((b : ℝ) ^ 2 - 1) + h 2 * Real.sqrt ((c : ℝ) ^ 2 - 1))) := by
  have ha : 0 < a := by rcases Nat.eq_zero_or_pos a with rfl | h; · simp at h5
                        · exact h
  have hlen : dirs.length = a * (b * c) := by rw [hd.length_eq, boxCentres_length]
  rw [← hlen, aspectRatio_uniform dirs w hw (by omega), ev_perm hd]
  set D : ℝ := (a * (b * c) : ℝ) / (12 * (((a * (b * c) : ℕ) : ℝ) - 1)) with hD
  have hDpos : 0 < D := by
    have h1 : (5 : ℝ) ≤ ((a * (b * c) : ℕ) : ℝ) := by exact_mod_cast h5
    have h2 : (0 : ℝ) < a * (b * c) := by
      have := h1; push_cast at this; linarith
    exact div_pos h2 (by linarith)
  have hev : explainedVariance (boxCentres a b c h o) =
      ![D * (h 0 ^ 2 * ((a : ℝ) ^ 2 - 1)), D * (h 1 ^ 2 * ((b : ℝ) ^ 2 - 1)), D * (h 2 ^ 2 * ((c : ℝ) ^ 2 - 1))] := by
    refine ev_unique _ _ (mul_le_mul_of_nonneg_left o1 hDpos.le) (mul_le_mul_of_nonneg_left o2 hDpos.le) fun t => ?_
    rw [boxCentres_cov a b c h o ha (by omega) hc, ← hD, Matrix.scalar_apply, Matrix.diagonal_sub, Matrix.det_diagonal,
      Fin.prod_univ_three]
  rw [hev]
  have hsq : ∀ (n : ℕ) (x : ℝ), 0 < x → Real.sqrt (D * (x ^ 2 * ((n : ℝ) ^ 2 - 1))) = Real.sqrt D * (x * Real.sqrt ((n : ℝ) ^ 2 - 1)) := by
    intro n x hx
    rw [Real.sqrt_mul hDpos.le, Real.sqrt_mul (sq_nonneg x), Real.sqrt_sq hx.le]
  have e : (fun i => Real.sqrt ((![D * (h 0 ^ 2 * ((a : ℝ) ^ 2 - 1)), D * (h 1 ^ 2 * ((b : ℝ) ^ 2 - 1)), D * (h 2 ^ 2 * ((c : ℝ) ^ 2 - 1))] : Fin 3 → ℝ) i))
      = fun i => Real.sqrt D * (![h 0 * Real.sqrt ((a : ℝ) ^ 2 - 1), h 1 * Real.sqrt ((b : ℝ) ^ 2 - 1), h 2 * Real.sqrt ((c : ℝ) ^ 2 - 1)] : Fin 3 → ℝ) i := by
    funext i
    fin_cases i
    · exact hsq a (h 0) (hh 0)
    · exact hsq b (h 1) (hh 1)
    · exact hsq c (h 2) (hh 2)
  rw [e, lengthRatio_scale _ _ (Real.sqrt_ne_zero'.mpr hDpos)]
  unfold lengthRatio
  rw [if_neg]
  · rfl
  · have hb' : (2 : ℝ) ≤ b := by exact_mod_cast hb
    have h1 : 0 < h 1 * Real.sqrt ((b : ℝ) ^ 2 - 1) := mul_pos (hh 1) (Real.sqrt_pos.mpr (by nlinarith))
    have h2 : 0 ≤ h 2 * Real.sqrt ((c : ℝ) ^ 2 - 1) := mul_nonneg (hh 2).le (Real.sqrt_nonneg _)
    exact (add_pos_of_pos_of_nonneg h1 h2).ne'

/-- Instance: a cube of `n³` cells (`n ≥ 2`) has aspect ratio exactly 1. -/
example (n : ℕ) (hn : 2 ≤ n) (dx w : ℝ) (hdx : 0 < dx) (hw : w ≠ 0) (o : Fin 3 → ℝ) :
    aspectRatio (List.replicate (n * (n * n)) w) (boxCentres n n n (fun _ => dx) o) = some 1 := by
  have h5 : 5 ≤ n * (n * n) := le_trans (by norm_num) (Nat.mul_le_mul hn (Nat.mul_le_mul hn hn))
  rw [C90_box n n n (fun _ => dx) o (fun _ => hdx) (by omega) hn h5 w hw _ (List.Perm.refl _) le_rfl le_rfl]
  have hn' : (2 : ℝ) ≤ n := by exact_mod_cast hn
  have : 0 < dx * Real.sqrt ((n : ℝ) ^ 2 - 1) := mul_pos hdx (Real.sqrt_pos.mpr (by nlinarith))
  congr 1
  rw [← two_mul, div_self (by positivity)]

/-- Instance: `7 × 5 × 1` unit cells: `2 √48 / √24 = 2 √2`, not `7 / 5`-like geometric ratios. -/
example (o : Fin 3 → ℝ) : aspectRatio (List.replicate (7 * (5 * 1)) 1) (boxCentres 7 5 1 (fun _ => 1) o) = some (2 * Real.sqrt 2) := by
  rw [C90_box 7 5 1 (fun _ => 1) o (fun _ => one_pos) (by norm_num) (by norm_num) (by norm_num) 1 one_ne_zero _ (List.Perm.refl _)
    (by norm_num) (by norm_num)]
  congr 1
  have h1 : Real.sqrt 48 = Real.sqrt 2 * Real.sqrt 24 := by
    rw [← Real.sqrt_mul (by norm_num)]; norm_num
  have h2 : Real.sqrt 24 ≠ 0 := by rw [Real.sqrt_ne_zero']; norm_num
  norm_num
  rw [h1]
  field_simp

/-- **C90 (unequal volumes).** Weighting before centring makes the result depend on the position of the grain when volumes differ: a row of five cells (last one
twice as large) on the x axis has no aspect ratio, the same row one unit above has one. -/
theorem C90_unequal_volumes :
    aspectRatio [1, 1, 1, 1, 2] ([0, 1, 2, 3, 4].map fun s : ℝ => ![s, 0, 0]) = none ∧
    aspectRatio [1, 1, 1, 1, 2] ([0, 1, 2, 3, 4].map fun s : ℝ => ![s, 1, 0]) ≠ none := by
  constructor
  · rw [C90_undefined _ _ rfl]
    refine ⟨by simp, 0, ![1, 0, 0], fun x hx => ⟨x 0, fun i => ?_⟩⟩
    simp only [weightedDirections, List.map_cons, List.map_nil, List.zipWith_cons_cons, List.zipWith_nil_left, List.mem_cons,
      List.not_mem_nil, or_false] at hx
    rcases hx with rfl | rfl | rfl | rfl | rfl <;> fin_cases i <;> simp
  · rw [Ne, C90_undefined _ _ rfl]
    rintro ⟨-, p, u, h⟩
    obtain ⟨s0, h0⟩ := h (fun i => (![0, 1, 0] : Fin 3 → ℝ) i * 1) (by simp [weightedDirections])
    obtain ⟨s1, h1⟩ := h (fun i => (![1, 1, 0] : Fin 3 → ℝ) i * 1) (by simp [weightedDirections])
    obtain ⟨s4, h4⟩ := h (fun i => (![4, 1, 0] : Fin 3 → ℝ) i * 2) (by simp [weightedDirections])
    have a0 := h0 0; have b0 := h0 1; have a1 := h1 0; have b1 := h1 1; have a4 := h4 0; have b4 := h4 1
    simp at a0 b0 a1 b1 a4 b4
    have hu : (s1 - s0) * u 0 = 1 := by linarith
    have hv : (s1 - s0) * u 1 = 0 := by linarith
    have hne : s1 - s0 ≠ 0 := by intro h; rw [h] at hu; simp at hu
    have hu1 : u 1 = 0 := by rcases mul_eq_zero.mp hv with h | h; · exact absurd h hne
                             · exact h
    rw [hu1] at b0 b4
    linarith

theorem aspect_fold (L : List (List ℝ × List (Fin 3 → ℝ))) : ∀ acc : List ℝ × List (Option ℝ),
    L.foldl aspectStep acc = (acc.1 ++ L.map fun g => g.1.sum, acc.2 ++ L.map fun g => aspectRatio g.1 g.2) := by
  induction L with
  | nil => intro acc; simp
  | cons a l ih => intro acc; rw [List.foldl_cons, ih]; simp [aspectStep]

end Verif.PhaseField
