import Verif.Fem.Spectral
import Mathlib.LinearAlgebra.Matrix.Polynomial
import Mathlib.Analysis.Calculus.FDeriv.Pi
import Mathlib.Analysis.Calculus.Deriv.Abs

/-!
# Properties of functions of symmetric matrices (C96)
-/
namespace Verif.Fem
open Finset
open scoped Matrix

variable {n : ℕ}

namespace IsEigh
variable {x y : Fin n → Fin n → ℝ} {e e' : Eigh n}

/-- Every eigenvalue of `y` is close to an eigenvalue of `x`. -/
theorem near (h : IsEigh x e) (h' : IsEigh y e') (b : Fin n) : ∃ a, (e'.vals b - e.vals a) ^ 2 ≤ frob2 (symM y - symM x) := by
  by_contra hc
  push Not at hc
  have h1 := h.col_one h' b
  have h2 : ∑ a, ((e'.vals b - e.vals a) * (e.U * e'.Uᵀ) a b) ^ 2 ≤ frob2 (symM y - symM x) := by
    rw [h.frob2_sym h', sum_comm]
    exact single_le_sum (f := fun b => ∑ a, ((e'.vals b - e.vals a) * (e.U * e'.Uᵀ) a b) ^ 2) (fun _ _ => sum_nonneg fun _ _ => sq_nonneg _) (mem_univ b)
  have h3 : frob2 (symM y - symM x) = ∑ a, frob2 (symM y - symM x) * (e.U * e'.Uᵀ) a b ^ 2 := by rw [← mul_sum, h1, mul_one]
  obtain ⟨a, -, ha⟩ : ∃ a ∈ univ, (e.U * e'.Uᵀ) a b ^ 2 ≠ 0 := by
    by_contra hz
    push Not at hz
    rw [sum_eq_zero hz] at h1
    exact zero_ne_one h1
  have h4 : ∑ a, frob2 (symM y - symM x) * (e.U * e'.Uᵀ) a b ^ 2 < ∑ a, ((e'.vals b - e.vals a) * (e.U * e'.Uᵀ) a b) ^ 2 := by
    refine sum_lt_sum (fun a _ => ?_) ⟨a, mem_univ a, ?_⟩
    · rw [mul_pow]; exact mul_le_mul_of_nonneg_right (hc a).le (sq_nonneg _)
    · rw [mul_pow]; exact mul_lt_mul_of_pos_right (hc a) (lt_of_le_of_ne (sq_nonneg _) (Ne.symm ha))
  linarith

/-- Continuity: a function continuous at the eigenvalues of `x` is continuous at `x`. -/
theorem continuity (h : IsEigh x e) (g : ℝ → ℝ) (hg : ∀ a, ContinuousAt g (e.vals a)) {ε : ℝ} (hε : 0 < ε) :
    ∃ δ > 0, ∀ (y : Fin n → Fin n → ℝ) (e' : Eigh n), IsEigh y e' → frob2 (symM y - symM x) < δ →
      frob2 (Matrix.of (e'.apply g) - Matrix.of (e.apply g)) ≤ ε := by
  obtain ⟨s, hs, hsε⟩ : ∃ s > 0, s ^ 2 * n ≤ ε / 2 := by
    refine ⟨Real.sqrt (ε / 2 / (n + 1)), Real.sqrt_pos.mpr (by positivity), ?_⟩
    rw [Real.sq_sqrt (by positivity), div_mul_eq_mul_div, div_le_iff₀ (by positivity)]
    nlinarith
  obtain ⟨η, hη, hclose⟩ : ∃ η > 0, ∀ a t, |t - e.vals a| < η → |g t - g (e.vals a)| < s := by
    have : ∀ a, ∃ η > 0, ∀ t, |t - e.vals a| < η → |g t - g (e.vals a)| < s := fun a => by
      obtain ⟨η, h1, h2⟩ := Metric.continuousAt_iff.mp (hg a) s hs
      exact ⟨η, h1, fun t ht => by simpa [Real.dist_eq] using h2 (by simpa [Real.dist_eq] using ht)⟩
    choose η h1 h2 using this
    rcases isEmpty_or_nonempty (Fin n) with hn | hn
    · exact ⟨1, one_pos, fun a => hn.elim a⟩
    · refine ⟨univ.inf' univ_nonempty η, by rw [gt_iff_lt, lt_inf'_iff]; exact fun a _ => h1 a, fun a t ht => h2 a t (lt_of_lt_of_le ht (inf'_le _ (mem_univ a)))⟩
  set B : ℝ := 2 * (∑ a, |g (e.vals a)|) + s with hB
  have hBpos : 0 < B := by have : 0 ≤ ∑ a, |g (e.vals a)| := sum_nonneg fun _ _ => abs_nonneg _; linarith
  have hle : ∀ a, |g (e.vals a)| ≤ ∑ a, |g (e.vals a)| := fun a => single_le_sum (f := fun a => |g (e.vals a)|) (fun _ _ => abs_nonneg _) (mem_univ a)
  refine ⟨min (η ^ 2) (ε / 2 * η ^ 2 / B ^ 2), lt_min (by positivity) (by positivity), fun y e' h' hy => ?_⟩
  rw [h.frob2_sub h']
  have hy1 := lt_of_lt_of_le hy (min_le_left _ _)
  have hy2 := lt_of_lt_of_le hy (min_le_right _ _)
  have hbd : ∀ b a, |g (e'.vals b) - g (e.vals a)| ≤ B := by
    intro b a
    obtain ⟨a0, ha0⟩ := h.near h' b
    have : |e'.vals b - e.vals a0| < η := abs_lt_of_sq_lt_sq (lt_of_le_of_lt ha0 hy1) hη.le
    have h1 := hclose a0 _ this
    calc |g (e'.vals b) - g (e.vals a)| = |(g (e'.vals b) - g (e.vals a0)) + (g (e.vals a0) - g (e.vals a))| := by congr 1; ring
      _ ≤ |g (e'.vals b) - g (e.vals a0)| + |g (e.vals a0) - g (e.vals a)| := abs_add_le _ _
      _ ≤ s + (|g (e.vals a0)| + |g (e.vals a)|) := add_le_add h1.le (abs_sub _ _)
      _ ≤ B := by have := hle a0; have := hle a; linarith
  have hterm : ∀ a b, ((g (e'.vals b) - g (e.vals a)) * (e.U * e'.Uᵀ) a b) ^ 2 ≤
      s ^ 2 * (e.U * e'.Uᵀ) a b ^ 2 + B ^ 2 / η ^ 2 * ((e'.vals b - e.vals a) * (e.U * e'.Uᵀ) a b) ^ 2 := by
    intro a b
    rw [mul_pow, mul_pow]
    by_cases hc : |e'.vals b - e.vals a| < η
    · have h1 : (g (e'.vals b) - g (e.vals a)) ^ 2 ≤ s ^ 2 := sq_le_sq' (by linarith [(abs_lt.mp (hclose a _ hc)).1]) (abs_lt.mp (hclose a _ hc)).2.le
      have h2 := mul_le_mul_of_nonneg_right h1 (sq_nonneg ((e.U * e'.Uᵀ) a b))
      have h3 : 0 ≤ B ^ 2 / η ^ 2 * ((e'.vals b - e.vals a) ^ 2 * (e.U * e'.Uᵀ) a b ^ 2) := by positivity
      linarith
    · push Not at hc
      have h1 : (g (e'.vals b) - g (e.vals a)) ^ 2 ≤ B ^ 2 := by rw [← sq_abs]; exact pow_le_pow_left₀ (abs_nonneg _) (hbd b a) 2
      have h2 : η ^ 2 ≤ (e'.vals b - e.vals a) ^ 2 := by rw [← sq_abs (e'.vals b - e.vals a)]; exact pow_le_pow_left₀ hη.le hc 2
      have h3 : B ^ 2 ≤ B ^ 2 / η ^ 2 * (e'.vals b - e.vals a) ^ 2 := by
        rw [div_mul_eq_mul_div, le_div_iff₀ (by positivity)]
        exact mul_le_mul_of_nonneg_left h2 (sq_nonneg _)
      have h4 := mul_le_mul_of_nonneg_right (h1.trans h3) (sq_nonneg ((e.U * e'.Uᵀ) a b))
      have h5 : 0 ≤ s ^ 2 * (e.U * e'.Uᵀ) a b ^ 2 := by positivity
      linarith
  have hn : ∑ a, ∑ b, (e.U * e'.Uᵀ) a b ^ 2 = n := by
    rw [sum_comm, sum_congr rfl fun b _ => h.col_one h' b]
    simp
  calc ∑ a, ∑ b, ((g (e'.vals b) - g (e.vals a)) * (e.U * e'.Uᵀ) a b) ^ 2
      ≤ ∑ a, ∑ b, (s ^ 2 * (e.U * e'.Uᵀ) a b ^ 2 + B ^ 2 / η ^ 2 * ((e'.vals b - e.vals a) * (e.U * e'.Uᵀ) a b) ^ 2) :=
        sum_le_sum fun a _ => sum_le_sum fun b _ => hterm a b
    _ = s ^ 2 * n + B ^ 2 / η ^ 2 * frob2 (symM y - symM x) := by
        rw [h.frob2_sym h', ← hn]
        simp only [sum_add_distrib, mul_sum]
    _ ≤ ε / 2 + ε / 2 := by
        refine add_le_add hsε ?_
        rw [div_mul_eq_mul_div, div_le_iff₀ (by positivity)]
        rw [lt_div_iff₀ (by positivity)] at hy2
        linarith
    _ = ε := by ring

/-- The derivative (Daleckii–Krein): `∑ θ_ab M_a H M_b` in the eigenvector frame. -/
noncomputable def dk (e : Eigh n) (fn : ℝ → ℝ) (H : Matrix (Fin n) (Fin n) ℝ) : Matrix (Fin n) (Fin n) ℝ :=
  e.Uᵀ * Matrix.of (fun a b => dslope fn (e.vals a) (e.vals b) * (e.U * H * e.Uᵀ) a b) * e.U

theorem dk_frame (h : IsEigh x e) (fn : ℝ → ℝ) (H B : Matrix (Fin n) (Fin n) ℝ) (a b : Fin n) :
    (e.U * dk e fn H * B) a b = ∑ c, dslope fn (e.vals a) (e.vals c) * (e.U * H * e.Uᵀ) a c * (e.U * B) c b := by
  unfold dk
  rw [Matrix.mul_assoc e.Uᵀ, ← Matrix.mul_assoc e.U, h.UUt, Matrix.one_mul, Matrix.mul_assoc, Matrix.mul_apply]
  rfl

/-- First-order expansion with remainder. -/
theorem remainder (h : IsEigh x e) (h' : IsEigh y e') (fn : ℝ → ℝ) {ε : ℝ}
    (hg : ∀ a, frob2 (Matrix.of (e'.apply (dslope fn (e.vals a))) - Matrix.of (e.apply (dslope fn (e.vals a)))) ≤ ε) :
    frob2 (Matrix.of (e'.apply fn) - Matrix.of (e.apply fn) - dk e fn (symM y - symM x)) ≤ ε * frob2 (symM y - symM x) := by
  set H := symM y - symM x with hH
  set C := e.U * e'.Uᵀ with hC
  have key : ∀ a b, (e.U * (Matrix.of (e'.apply fn) - Matrix.of (e.apply fn) - dk e fn H) * e'.Uᵀ) a b =
      ∑ c, (e.U * H * e.Uᵀ) a c * ((dslope fn (e.vals a) (e'.vals b) - dslope fn (e.vals a) (e.vals c)) * C c b) := by
    intro a b
    rw [Matrix.mul_sub, Matrix.sub_mul, Matrix.sub_apply, h.frame_sub h', dk_frame h]
    have h1 : fn (e'.vals b) - fn (e.vals a) = (e'.vals b - e.vals a) * dslope fn (e.vals a) (e'.vals b) := by
      have := sub_smul_dslope fn (e.vals a) (e'.vals b)
      rw [smul_eq_mul] at this
      exact this.symm
    have h2 : (e'.vals b - e.vals a) * C a b = ∑ c, (e.U * H * e.Uᵀ) a c * C c b := by
      have h3 := h.frame_sub h' id a b
      rw [← h.sym, ← h'.sym, ← hH] at h3
      rw [show (e'.vals b - e.vals a) * C a b = (e.U * H * e'.Uᵀ) a b from h3.symm]
      rw [← Matrix.mul_apply, hC, ← Matrix.mul_assoc, Matrix.mul_assoc (e.U * H), h.UtU, Matrix.mul_one]
    rw [h1, mul_right_comm, h2, sum_mul, ← sum_sub_distrib]
    exact sum_congr rfl fun c _ => by ring
  rw [← h.frob2_frame h']
  calc frob2 (e.U * (Matrix.of (e'.apply fn) - Matrix.of (e.apply fn) - dk e fn H) * e'.Uᵀ)
      = ∑ a, ∑ b, (∑ c, (e.U * H * e.Uᵀ) a c * ((dslope fn (e.vals a) (e'.vals b) - dslope fn (e.vals a) (e.vals c)) * C c b)) ^ 2 :=
        sum_congr rfl fun a _ => sum_congr rfl fun b _ => by rw [key]
    _ ≤ ∑ a, ∑ b, (∑ c, (e.U * H * e.Uᵀ) a c ^ 2) * ∑ c, ((dslope fn (e.vals a) (e'.vals b) - dslope fn (e.vals a) (e.vals c)) * C c b) ^ 2 :=
        sum_le_sum fun a _ => sum_le_sum fun b _ => sum_mul_sq_le_sq_mul_sq _ _ _
    _ = ∑ a, (∑ c, (e.U * H * e.Uᵀ) a c ^ 2) * frob2 (Matrix.of (e'.apply (dslope fn (e.vals a))) - Matrix.of (e.apply (dslope fn (e.vals a)))) := by
        refine sum_congr rfl fun a _ => ?_
        rw [h.frob2_sub h', ← mul_sum]
        congr 1
        rw [sum_comm]
    _ ≤ ∑ a, (∑ c, (e.U * H * e.Uᵀ) a c ^ 2) * ε := sum_le_sum fun a _ => mul_le_mul_of_nonneg_left (hg a) (sum_nonneg fun _ _ => sq_nonneg _)
    _ = ε * frob2 H := by
        rw [← sum_mul, mul_comm]
        congr 1
        exact h.frob2_frame h H

end IsEigh

/-! ## The rule of the code -/

theorem Eigh.theta_self (e : Eigh n) (fn grad : ℝ → ℝ) (a : Fin n) : e.theta fn grad a a = grad (e.vals a) := by simp [Eigh.theta]

theorem Eigh.theta_eq (e : Eigh n) (fn : ℝ → ℝ) (a b : Fin n) : e.theta fn (deriv fn) a b = dslope fn (e.vals a) (e.vals b) := by
  unfold Eigh.theta
  by_cases h : e.vals a = e.vals b
  · rw [if_pos (by linarith), ← h, dslope_same]
  · rw [if_neg (sub_ne_zero.mpr h), dslope_of_ne _ (Ne.symm h), slope_comm, slope_def_field]

theorem Eigh.tangent_eq (e : Eigh n) (fn grad : ℝ → ℝ) (i j k l : Fin n) :
    e.tangent fn grad i j k l = ∑ a, ∑ b, e.theta fn grad a b * (e.vecs a i * e.vecs b j * ((e.vecs a k * e.vecs b l + e.vecs a l * e.vecs b k) / 2)) := by
  unfold Eigh.tangent
  dsimp only
  have h : ∑ a, (e.M a i k * e.M a j l + e.M a i l * e.M a j k) * e.theta fn grad a a = 2 * ∑ b, e.M b i j * e.M b k l * grad (e.vals b) := by
    rw [mul_sum]
    exact sum_congr rfl fun a _ => by rw [e.theta_self]; unfold Eigh.M; ring
  rw [h]
  have h2 : ∀ s t : ℝ, s + 0.5 * (t - 2 * s) = 0.5 * t := fun s t => by ring
  rw [h2, mul_sum]
  refine sum_congr rfl fun a _ => ?_
  rw [mul_sum]
  exact sum_congr rfl fun b _ => by unfold Eigh.M; ring

theorem eigenJvp_eq (eigh : (Fin n → Fin n → ℝ) → Eigh n) (fn : ℝ → ℝ) (x v : Fin n → Fin n → ℝ) :
    (Matrix.of (eigenJvp eigh fn (deriv fn) x v) : Matrix (Fin n) (Fin n) ℝ) = IsEigh.dk (eigh x) fn (symM v) := by
  set e := eigh x with he
  have hs : ∀ a b, (e.U * symM v * e.Uᵀ) a b = ∑ k, ∑ l, (e.vecs a k * e.vecs b l + e.vecs a l * e.vecs b k) / 2 * v k l := by
    intro a b
    have h1 : (e.U * symM v * e.Uᵀ) a b = ∑ l, ∑ k, e.vecs a k * ((v k l + v l k) / 2) * e.vecs b l := by
      rw [Matrix.mul_apply]
      refine sum_congr rfl fun l _ => ?_
      rw [Matrix.mul_apply, sum_mul]
      rfl
    have h2 : ∑ l, ∑ k, e.vecs a k * ((v k l + v l k) / 2) * e.vecs b l =
        (∑ l, ∑ k, e.vecs a k * e.vecs b l / 2 * v k l) + ∑ l, ∑ k, e.vecs a k * e.vecs b l / 2 * v l k := by
      rw [← sum_add_distrib]
      refine sum_congr rfl fun l _ => ?_
      rw [← sum_add_distrib]
      exact sum_congr rfl fun k _ => by ring
    rw [h1, h2, sum_comm, ← sum_add_distrib]
    refine sum_congr rfl fun k _ => ?_
    rw [← sum_add_distrib]
    exact sum_congr rfl fun l _ => by ring
  ext i j
  unfold IsEigh.dk
  rw [Matrix.mul_apply]
  simp only [Matrix.mul_apply (M := e.Uᵀ), Matrix.transpose_apply, Matrix.of_apply, hs]
  simp only [eigenJvp, ← he, e.tangent_eq, e.theta_eq, Eigh.U, Matrix.of_apply, sum_mul, mul_sum]
  rw [sum_congr rfl fun k _ => sum_comm]
  rw [sum_comm]
  rw [sum_congr rfl fun a _ => sum_congr rfl fun k _ => sum_comm]
  rw [sum_congr rfl fun a _ => sum_comm]
  rw [sum_comm]
  refine sum_congr rfl fun b _ => sum_congr rfl fun a _ => sum_congr rfl fun k _ => sum_congr rfl fun l _ => by ring

/-- The rule as a linear map. -/
noncomputable def eigenJvpL (eigh : (Fin n → Fin n → ℝ) → Eigh n) (fn grad : ℝ → ℝ) (x : Fin n → Fin n → ℝ) :
    (Fin n → Fin n → ℝ) →L[ℝ] (Fin n → Fin n → ℝ) :=
  LinearMap.toContinuousLinearMap
    { toFun := eigenJvp eigh fn grad x
      map_add' := fun v w => by
        funext i j
        simp only [eigenJvp, Pi.add_apply, mul_add, sum_add_distrib]
      map_smul' := fun c v => by
        funext i j
        simp only [eigenJvp, Pi.smul_apply, smul_eq_mul, RingHom.id_apply, mul_sum]
        exact sum_congr rfl fun k _ => sum_congr rfl fun l _ => by ring }

theorem symM_sub (x y : Fin n → Fin n → ℝ) : symM y - symM x = symM (y - x) := by
  ext i j
  simp only [symM, Matrix.sub_apply, Matrix.of_apply, Pi.sub_apply]
  ring

theorem frob2_symM_le (v : Fin n → Fin n → ℝ) : frob2 (symM v) ≤ (n * ‖v‖) ^ 2 := by
  have h1 : ∀ i j, |v i j| ≤ ‖v‖ := fun i j => (norm_le_pi_norm (v i) j).trans (norm_le_pi_norm v i)
  have h2 : ∀ i j, (symM v i j) ^ 2 ≤ ‖v‖ ^ 2 := by
    intro i j
    have a := abs_le.mp (h1 i j)
    have b := abs_le.mp (h1 j i)
    have hsym : symM v i j = (v i j + v j i) / 2 := rfl
    exact sq_le_sq' (by rw [hsym]; linarith) (by rw [hsym]; linarith)
  calc frob2 (symM v) ≤ ∑ _i : Fin n, ∑ _j : Fin n, ‖v‖ ^ 2 := sum_le_sum fun i _ => sum_le_sum fun j _ => h2 i j
    _ = (n * ‖v‖) ^ 2 := by simp; ring

/-- **C96 (derivative).** Let `fn` be differentiable at the eigenvalues of the symmetric part of `x`. Then the matrix function `eigen_f` has a Fréchet derivative at `x`, and the rule `f_jvp` returns exactly this derivative in
every direction: repeated eigenvalues, and eigenvectors chosen arbitrarily and discontinuously by `eigh`, do no harm. -/
theorem C96_derivative (eigh : (Fin n → Fin n → ℝ) → Eigh n) (heigh : ∀ x, IsEigh x (eigh x)) (fn : ℝ → ℝ) (x : Fin n → Fin n → ℝ)
    (hd : ∀ a, DifferentiableAt ℝ fn ((eigh x).vals a)) :
    ∃ L : (Fin n → Fin n → ℝ) →L[ℝ] (Fin n → Fin n → ℝ), HasFDerivAt (eigenF eigh fn) L x ∧ ∀ v, L v = eigenJvp eigh fn (deriv fn) x v := by
  refine ⟨eigenJvpL eigh fn (deriv fn) x, ?_, fun v => rfl⟩
  rw [hasFDerivAt_iff_isLittleO, Asymptotics.isLittleO_iff]
  intro c hc
  set ε : ℝ := (c / (n + 1)) ^ 2 with hε
  have hεpos : 0 < ε := by positivity
  have hcont : ∀ a, ∃ δ > 0, ∀ (y : Fin n → Fin n → ℝ) (e' : Eigh n), IsEigh y e' → frob2 (symM y - symM x) < δ →
      frob2 (Matrix.of (e'.apply (dslope fn ((eigh x).vals a))) - Matrix.of ((eigh x).apply (dslope fn ((eigh x).vals a)))) ≤ ε := by
    intro a
    refine (heigh x).continuity _ (fun b => ?_) hεpos
    by_cases hab : (eigh x).vals b = (eigh x).vals a
    · rw [hab]
      exact continuousAt_dslope_same.mpr (hd a)
    · exact (continuousAt_dslope_of_ne hab).mpr (hd b).continuousAt
  choose δ hδ hδ2 using hcont
  obtain ⟨δ0, hδ0, hδ0le⟩ : ∃ δ0 > 0, ∀ a, δ0 ≤ δ a := by
    rcases isEmpty_or_nonempty (Fin n) with hn | hn
    · exact ⟨1, one_pos, fun a => hn.elim a⟩
    · exact ⟨univ.inf' univ_nonempty δ, by rw [gt_iff_lt, lt_inf'_iff]; exact fun a _ => hδ a, fun a => inf'_le _ (mem_univ a)⟩
  have hball : ∀ᶠ y in nhds x, ‖y - x‖ < Real.sqrt δ0 / (n + 1) := by
    have : Metric.ball x (Real.sqrt δ0 / (n + 1)) ∈ nhds x := Metric.ball_mem_nhds x (by positivity)
    filter_upwards [this] with y hy
    rwa [Metric.mem_ball, dist_eq_norm] at hy
  filter_upwards [hball] with y hy
  have hsmall : frob2 (symM y - symM x) < δ0 := by
    rw [symM_sub]
    refine lt_of_le_of_lt (frob2_symM_le _) ?_
    rw [lt_div_iff₀ (by positivity)] at hy
    have h1 : (n : ℝ) * ‖y - x‖ < Real.sqrt δ0 := by nlinarith [norm_nonneg (y - x)]
    calc ((n : ℝ) * ‖y - x‖) ^ 2 < Real.sqrt δ0 ^ 2 := pow_lt_pow_left₀ h1 (by positivity) (by norm_num)
      _ = δ0 := Real.sq_sqrt hδ0.le
  have hrem := (heigh x).remainder (heigh y) fn (ε := ε) fun a => hδ2 a y (eigh y) (heigh y) (lt_of_lt_of_le hsmall (hδ0le a))
  rw [symM_sub, ← eigenJvp_eq] at hrem
  have hfin : frob2 (Matrix.of (eigenF eigh fn y - eigenF eigh fn x - eigenJvp eigh fn (deriv fn) x (y - x))) ≤ (c * ‖y - x‖) ^ 2 := by
    refine hrem.trans ((mul_le_mul_of_nonneg_left (frob2_symM_le _) hεpos.le).trans ?_)
    rw [hε, ← mul_pow]
    refine pow_le_pow_left₀ (by positivity) ?_ 2
    rw [div_mul_eq_mul_div, div_le_iff₀ (by positivity)]
    have : 0 ≤ c * ‖y - x‖ := by positivity
    nlinarith
  have hnn : 0 ≤ c * ‖y - x‖ := by positivity
  rw [pi_norm_le_iff_of_nonneg hnn]
  intro i
  rw [pi_norm_le_iff_of_nonneg hnn]
  intro j
  rw [Real.norm_eq_abs]
  refine abs_le_of_sq_le_sq ?_ hnn
  refine le_trans ?_ hfin
  refine le_trans ?_ (single_le_sum (f := fun i => ∑ j, (Matrix.of (eigenF eigh fn y - eigenF eigh fn x - eigenJvp eigh fn (deriv fn) x (y - x)) : Matrix (Fin n) (Fin n) ℝ) i j ^ 2)
    (fun _ _ => sum_nonneg fun _ _ => sq_nonneg _) (mem_univ i))
  exact single_le_sum (f := fun j => (Matrix.of (eigenF eigh fn y - eigenF eigh fn x - eigenJvp eigh fn (deriv fn) x (y - x)) : Matrix (Fin n) (Fin n) ℝ) i j ^ 2)
    (fun _ _ => sq_nonneg _) (mem_univ j)

/-- **C96 (value).** The result is symmetric, and it has the eigenvectors of the symmetric part of `x`, with `fn` applied to the eigenvalues. Since the eigenvectors span the space this determines it: in particular it does not
depend on the choice of eigenvectors (`C96_unique`). -/
theorem C96_value (eigh : (Fin n → Fin n → ℝ) → Eigh n) (x : Fin n → Fin n → ℝ) (heigh : IsEigh x (eigh x)) (fn : ℝ → ℝ) :
    (∀ i j, eigenF eigh fn x i j = eigenF eigh fn x j i) ∧
    ∀ (v : Fin n → ℝ) (t : ℝ), (∀ i, ∑ j, (x i j + x j i) / 2 * v j = t * v i) → ∀ i, ∑ j, eigenF eigh fn x i j * v j = fn t * v i := by
  refine ⟨fun i j => by simp only [eigenF, Eigh.apply, Eigh.M]; exact sum_congr rfl fun b _ => by ring, fun v t hv i => ?_⟩
  set e := eigh x with he
  have h1 : symM x *ᵥ v = t • v := funext fun i => hv i
  have h2 : ∀ a, fn (e.vals a) * (e.U *ᵥ v) a = fn t * (e.U *ᵥ v) a := by
    intro a
    have h3 : (e.U *ᵥ (symM x *ᵥ v)) a = e.vals a * (e.U *ᵥ v) a := by
      rw [heigh.sym, e.apply_eq, Matrix.mulVec_mulVec, ← Matrix.mul_assoc, ← Matrix.mul_assoc, heigh.UUt, Matrix.one_mul, ← Matrix.mulVec_mulVec, Matrix.mulVec_diagonal]
      rfl
    rw [h1, Matrix.mulVec_smul, Pi.smul_apply, smul_eq_mul] at h3
    by_cases h0 : (e.U *ᵥ v) a = 0
    · rw [h0, mul_zero, mul_zero]
    · rw [mul_right_cancel₀ h0 h3]
  have h4 : (Matrix.of (e.apply fn) : Matrix (Fin n) (Fin n) ℝ) *ᵥ v = fn t • v := by
    rw [e.apply_eq, ← Matrix.mulVec_mulVec, ← Matrix.mulVec_mulVec]
    have h5 : Matrix.diagonal (fun a => fn (e.vals a)) *ᵥ (e.U *ᵥ v) = fn t • (e.U *ᵥ v) := by
      funext a
      rw [Matrix.mulVec_diagonal, h2, Pi.smul_apply, smul_eq_mul]
    rw [h5, Matrix.mulVec_smul, Matrix.mulVec_mulVec, heigh.UtU, Matrix.one_mulVec]
  exact congrFun h4 i

/-- **C96 (independence of the decomposition).** Any two eigendecompositions of the same matrix give the same value and the same derivative, whatever order and basis they use inside the eigenspaces. -/
theorem C96_unique (eigh eigh' : (Fin n → Fin n → ℝ) → Eigh n) (x : Fin n → Fin n → ℝ) (h : IsEigh x (eigh x)) (h' : IsEigh x (eigh' x)) (fn : ℝ → ℝ) :
    eigenF eigh fn x = eigenF eigh' fn x ∧ eigenJvp eigh fn (deriv fn) x = eigenJvp eigh' fn (deriv fn) x := by
  have zero : ∀ A : Matrix (Fin n) (Fin n) ℝ, frob2 A ≤ 0 → A = 0 := by
    intro A hA
    ext i j
    have h1 := sum_eq_zero_iff_of_nonneg (s := univ) (f := fun i => ∑ j, A i j ^ 2) (fun _ _ => sum_nonneg fun _ _ => sq_nonneg _)
    have h2 := h1.mp (le_antisymm hA (frob2_nonneg A)) i (mem_univ i)
    have h3 := (sum_eq_zero_iff_of_nonneg (s := univ) (f := fun j => A i j ^ 2) (fun _ _ => sq_nonneg _)).mp h2 j (mem_univ j)
    simpa using h3
  have hc : ∀ a b, ((eigh' x).vals b - (eigh x).vals a) * ((eigh x).U * (eigh' x).Uᵀ) a b = 0 := by
    intro a b
    have h1 := h.frob2_sym h'
    rw [sub_self] at h1
    have h2 := (sum_eq_zero_iff_of_nonneg (s := univ) (fun _ _ => sum_nonneg fun _ _ => sq_nonneg _)).mp (h1.symm.trans (by simp [frob2])) a (mem_univ a)
    have h3 := (sum_eq_zero_iff_of_nonneg (s := univ) (fun _ _ => sq_nonneg _)).mp h2 b (mem_univ b)
    simpa using h3
  have hval : ∀ g : ℝ → ℝ, (Matrix.of ((eigh x).apply g) : Matrix (Fin n) (Fin n) ℝ) = Matrix.of ((eigh' x).apply g) := by
    intro g
    have : frob2 (Matrix.of ((eigh' x).apply g) - Matrix.of ((eigh x).apply g)) ≤ 0 := by
      rw [h.frob2_sub h']
      refine (sum_eq_zero fun a _ => sum_eq_zero fun b _ => ?_).le
      rcases mul_eq_zero.mp (hc a b) with h0 | h0
      · rw [show (eigh' x).vals b = (eigh x).vals a by linarith, sub_self, zero_mul, zero_pow two_ne_zero]
      · rw [h0, mul_zero, zero_pow two_ne_zero]
    exact (sub_eq_zero.mp (zero _ this)).symm
  refine ⟨congrArg (fun A : Matrix (Fin n) (Fin n) ℝ => (A : Fin n → Fin n → ℝ)) (hval fn), ?_⟩
  funext v
  have hdk : IsEigh.dk (eigh x) fn (symM v) = IsEigh.dk (eigh' x) fn (symM v) := by
    set C := (eigh x).U * (eigh' x).Uᵀ with hC
    have hU : C * (eigh' x).U = (eigh x).U := by rw [hC, Matrix.mul_assoc, h'.UtU, Matrix.mul_one]
    have hUt : (eigh x).Uᵀ * C = (eigh' x).Uᵀ := by rw [hC, ← Matrix.mul_assoc, h.UtU, Matrix.one_mul]
    have hD : ∀ a c, C a c ≠ 0 → (eigh x).vals a = (eigh' x).vals c := by
      intro a c h0
      rcases mul_eq_zero.mp (hc a c) with h1 | h1
      · linarith
      · exact absurd h1 h0
    set S := (eigh' x).U * symM v * (eigh' x).Uᵀ with hS
    have hSx : (eigh x).U * symM v * (eigh x).Uᵀ = C * S * Cᵀ := by
      rw [hS, ← hU, Matrix.transpose_mul]
      simp only [Matrix.mul_assoc]
    have hmid : Matrix.of (fun a b => dslope fn ((eigh x).vals a) ((eigh x).vals b) * (C * S * Cᵀ) a b) =
        C * Matrix.of (fun a b => dslope fn ((eigh' x).vals a) ((eigh' x).vals b) * S a b) * Cᵀ := by
      ext a b
      rw [Matrix.of_apply, Matrix.mul_apply, Matrix.mul_apply, mul_sum]
      refine sum_congr rfl fun d _ => ?_
      rw [Matrix.mul_apply, Matrix.mul_apply, sum_mul, mul_sum, sum_mul]
      refine sum_congr rfl fun c _ => ?_
      rw [Matrix.transpose_apply, Matrix.of_apply]
      by_cases h1 : C a c = 0
      · rw [h1]; ring
      · by_cases h2 : C b d = 0
        · rw [h2]; ring
        · rw [hD a c h1, hD b d h2]; ring
    unfold IsEigh.dk
    rw [hSx, hmid]
    rw [show (eigh x).Uᵀ * (C * Matrix.of (fun a b => dslope fn ((eigh' x).vals a) ((eigh' x).vals b) * S a b) * Cᵀ) * (eigh x).U
      = ((eigh x).Uᵀ * C) * Matrix.of (fun a b => dslope fn ((eigh' x).vals a) ((eigh' x).vals b) * S a b) * (Cᵀ * (eigh x).U) by simp only [Matrix.mul_assoc]]
    rw [hUt, show Cᵀ * (eigh x).U = (eigh' x).U by
      rw [← Matrix.transpose_transpose (eigh x).U, ← Matrix.transpose_mul, hUt, Matrix.transpose_transpose]]
  have := (eigenJvp_eq eigh fn x v).trans (hdk.trans (eigenJvp_eq eigh' fn x v).symm)
  exact congrArg (fun A : Matrix (Fin n) (Fin n) ℝ => (A : Fin n → Fin n → ℝ)) this

/-- **C96 (polynomials).** For a polynomial the result is the polynomial of the symmetric part in the matrix algebra. -/
theorem C96_polynomial (eigh : (Fin n → Fin n → ℝ) → Eigh n) (x : Fin n → Fin n → ℝ) (h : IsEigh x (eigh x)) (p : Polynomial ℝ) :
    (Matrix.of (eigenF eigh (fun t => p.eval t) x) : Matrix (Fin n) (Fin n) ℝ) = Polynomial.aeval (symM x) p := by
  have hval : ∀ g : ℝ → ℝ, (Matrix.of (eigenF eigh g x) : Matrix (Fin n) (Fin n) ℝ) = (eigh x).Uᵀ * Matrix.diagonal (fun a => g ((eigh x).vals a)) * (eigh x).U := (eigh x).apply_eq
  induction p using Polynomial.induction_on' with
  | add p q hp hq =>
    rw [map_add, ← hp, ← hq]
    ext i j
    simp only [Matrix.add_apply, Matrix.of_apply, eigenF, Eigh.apply, Polynomial.eval_add, mul_add, sum_add_distrib]
  | monomial k c =>
    have hpow : ∀ k : ℕ, (symM x) ^ k = (eigh x).Uᵀ * Matrix.diagonal (fun a => (eigh x).vals a ^ k) * (eigh x).U := by
      intro k
      induction k with
      | zero => simp [h.UtU]
      | succ k ih =>
        rw [pow_succ, ih]
        conv_lhs => rw [h.sym, (eigh x).apply_eq]
        rw [Matrix.mul_assoc ((eigh x).Uᵀ * _), Matrix.mul_assoc (eigh x).Uᵀ (Matrix.diagonal _) (eigh x).U, ← Matrix.mul_assoc (eigh x).U, h.UUt, Matrix.one_mul, ← Matrix.mul_assoc,
          Matrix.mul_assoc (eigh x).Uᵀ, Matrix.diagonal_mul_diagonal]
        simp only [id, pow_succ]
    rw [hval, Polynomial.aeval_monomial, hpow]
    simp only [Polynomial.eval_monomial]
    rw [Algebra.algebraMap_eq_smul_one, smul_mul_assoc, one_mul, show (fun a => c * (eigh x).vals a ^ k) = c • fun a => (eigh x).vals a ^ k from rfl,
      Matrix.diagonal_smul, Matrix.mul_smul, Matrix.smul_mul]

/-- **C96 (kinks).** The matrix function is differentiable at `x` only if `fn` is differentiable at every eigenvalue: with `C96_derivative` this is an equivalence. Where it fails (for instance `np.abs` at a zero eigenvalue)
`f_jvp` still returns a number, which is then no derivative. -/
theorem C96_kink (eigh : (Fin n → Fin n → ℝ) → Eigh n) (heigh : ∀ x, IsEigh x (eigh x)) (fn : ℝ → ℝ) (x : Fin n → Fin n → ℝ) :
    DifferentiableAt ℝ (eigenF eigh fn) x ↔ ∀ a, DifferentiableAt ℝ fn ((eigh x).vals a) := by
  constructor
  swap
  · intro hd
    obtain ⟨L, hL, -⟩ := C96_derivative eigh heigh fn x hd
    exact hL.differentiableAt
  intro hd a
  set e := eigh x with he
  set dir : Fin n → Fin n → ℝ := fun i j => e.vecs a i * e.vecs a j with hdir
  -- a decomposition along the line
  let et : ℝ → Eigh n := fun t => ⟨fun b => e.vals b + if b = a then t else 0, e.vecs⟩
  have het : ∀ t, IsEigh (x + t • dir) (et t) := by
    intro t
    refine ⟨(heigh x).orth, fun i j => ?_⟩
    have h1 := (heigh x).decomp i j
    rw [← he] at h1
    simp only [et, add_mul, sum_add_distrib, ite_mul, zero_mul, sum_ite_eq', mem_univ, if_true, h1, Pi.add_apply, Pi.smul_apply, smul_eq_mul, hdir]
    ring
  have hval : ∀ t, ∑ i, ∑ j, e.vecs a i * eigenF eigh fn (x + t • dir) i j * e.vecs a j = fn (e.vals a + t) := by
    intro t
    have h1 : eigenF eigh fn (x + t • dir) = (et t).apply fn := (C96_unique eigh (fun _ => et t) (x + t • dir) (heigh _) (het t) fn).1
    rw [h1]
    have h2 := (het t).frameL fn (et t).Uᵀ a a
    rw [(het t).UUt, Matrix.one_apply_eq, mul_one] at h2
    simp only [et, if_true] at h2
    rw [← h2, sum_comm]
    rw [Matrix.mul_apply]
    refine sum_congr rfl fun j _ => ?_
    rw [Matrix.mul_apply, sum_mul]
    rfl
  have h3 : DifferentiableAt ℝ (fun t : ℝ => ∑ i, ∑ j, e.vecs a i * eigenF eigh fn (x + t • dir) i j * e.vecs a j) 0 := by
    have hline : DifferentiableAt ℝ (fun t : ℝ => x + t • dir) 0 := (differentiableAt_const _).add (differentiableAt_id.smul_const dir)
    have hcomp : DifferentiableAt ℝ (fun t : ℝ => eigenF eigh fn (x + t • dir)) 0 := by
      have hd' : DifferentiableAt ℝ (eigenF eigh fn) ((fun t : ℝ => x + t • dir) 0) := by simpa using hd
      exact hd'.comp 0 hline
    refine DifferentiableAt.fun_sum fun i _ => DifferentiableAt.fun_sum fun j _ => ?_
    have hij : DifferentiableAt ℝ (fun t : ℝ => eigenF eigh fn (x + t • dir) i j) 0 := differentiableAt_pi.mp (differentiableAt_pi.mp hcomp i) j
    exact (hij.const_mul _).mul_const _
  simp only [hval] at h3
  have h4 : DifferentiableAt ℝ (fun s : ℝ => fn (e.vals a + (s - e.vals a))) (e.vals a) := by
    have h5 : DifferentiableAt ℝ (fun t : ℝ => fn (e.vals a + t)) ((fun s : ℝ => s - e.vals a) (e.vals a)) := by simpa using h3
    exact DifferentiableAt.comp (e.vals a) (f := fun s : ℝ => s - e.vals a) h5 (differentiableAt_id.sub_const _)
  simpa using h4

/-- Eigendecompositions exist: the spectral theorem. -/
theorem exists_eigh (x : Fin n → Fin n → ℝ) : ∃ e, IsEigh x e := by
  have hA : (symM x).IsHermitian := by
    ext i j
    simp only [symM, Matrix.conjTranspose_apply, Matrix.of_apply, star_trivial]
    ring
  let W : Matrix (Fin n) (Fin n) ℝ := (hA.eigenvectorUnitary : Matrix (Fin n) (Fin n) ℝ)
  have hW : Wᵀ * W = 1 := by
    have := (Matrix.mem_unitaryGroup_iff' (A := W)).mp hA.eigenvectorUnitary.2
    rwa [Matrix.star_eq_conjTranspose, Matrix.conjTranspose_eq_transpose_of_trivial] at this
  refine ⟨⟨hA.eigenvalues, fun a i => W i a⟩, fun a b => ?_, fun i j => ?_⟩
  · have := congrFun (congrFun hW a) b
    rw [Matrix.mul_apply, Matrix.one_apply] at this
    exact this
  · have := congrFun (congrFun hA.spectral_theorem i) j
    rw [Unitary.conjStarAlgAut_apply, Matrix.mul_apply] at this
    rw [show (x i j + x j i) / 2 = symM x i j from rfl, this]
    refine sum_congr rfl fun a _ => ?_
    rw [Matrix.mul_diagonal]
    simp only [Matrix.star_eq_conjTranspose, Matrix.conjTranspose_apply, star_trivial, Function.comp_apply, W]
    simp
    ring

/-- An oracle satisfying the specification. -/
noncomputable def someEigh (x : Fin n → Fin n → ℝ) : Eigh n := Classical.choose (exists_eigh x)
theorem someEigh_spec (x : Fin n → Fin n → ℝ) : IsEigh x (someEigh x) := Classical.choose_spec (exists_eigh x)

/-- Concrete case of `C96_derivative` with threefold eigenvalue 0 (the matrix `c` of `test_eigen_f`, where plain automatic differentiation fails): the derivative of `x ↦ (x + xᵀ)/2`. -/
example (v : Fin 3 → Fin 3 → ℝ) (i j : Fin 3) : eigenJvp someEigh (fun t => t) (deriv fun t => t) 0 v i j = (v i j + v j i) / 2 := by
  have h0 : IsEigh (0 : Fin 3 → Fin 3 → ℝ) ⟨0, fun a i => if a = i then 1 else 0⟩ := ⟨fun a b => by fin_cases a <;> fin_cases b <;> simp, fun i j => by simp⟩
  rw [(C96_unique someEigh (fun _ => ⟨0, fun a i => if a = i then 1 else 0⟩) 0 (someEigh_spec 0) h0 fun t => t).2]
  simp only [eigenJvp, Eigh.tangent_eq, Eigh.theta, Pi.zero_apply, sub_self, if_true, deriv_id'']
  fin_cases i <;> fin_cases j <;> simp [Fin.sum_univ_three] <;> ring

/-- Concrete case of `C96_kink`: the positive part has no derivative at the zero matrix. -/
example : ¬ DifferentiableAt ℝ (eigenF (someEigh (n := 2)) fun t => |t|) 0 := by
  have h0 : IsEigh (0 : Fin 2 → Fin 2 → ℝ) ⟨0, fun a i => if a = i then 1 else 0⟩ := ⟨fun a b => by fin_cases a <;> fin_cases b <;> simp, fun i j => by simp⟩
  let eigh : (Fin 2 → Fin 2 → ℝ) → Eigh 2 := fun x => if x = 0 then ⟨0, fun a i => if a = i then 1 else 0⟩ else someEigh x
  have hspec : ∀ x, IsEigh x (eigh x) := by
    intro x
    by_cases hx : x = 0
    · simp only [eigh, if_pos hx]; rw [hx]; exact h0
    · simp only [eigh, if_neg hx]; exact someEigh_spec x
  have heq : eigenF (someEigh (n := 2)) (fun t => |t|) = eigenF eigh fun t => |t| := by
    funext x
    exact (C96_unique someEigh eigh x (someEigh_spec x) (hspec x) _).1
  rw [heq, C96_kink eigh hspec]
  intro h
  have h1 := h 0
  simp only [eigh, if_true, Pi.zero_apply] at h1
  exact not_differentiableAt_abs_zero h1

end Verif.Fem
