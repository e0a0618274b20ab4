import Verif.Fem.Models
import Verif.Fem.SpectralProps
import Mathlib.Analysis.Calculus.LineDeriv.Basic
import Mathlib.Analysis.Calculus.Deriv.Pow

/-!
# Phase-field fracture (demos/fem/phase_field_fracture/example.py)
-/
namespace Verif.Fem
open Finset

/-- `safe_plus` (example.py 25). -/
noncomputable def safePlus (x : ℝ) : ℝ := 0.5 * (x + |x|)

/-- `safe_minus` (example.py 26). -/
noncomputable def safeMinus (x : ℝ) : ℝ := 0.5 * (x - |x|)

/-- Constants (example.py 163-168): `G_c`, `l`, `mu`, `lmbda`. -/
noncomputable def fracGc : ℝ := 2.7e-3
noncomputable def fracL : ℝ := 0.02
noncomputable def fracMu : ℝ := 210 / (2 * (1 + 0.3))
noncomputable def fracLmbda : ℝ := 210 * 0.3 / ((1 + 0.3) * (1 - 2 * 0.3))

variable {n : ℕ}

/-- `np.trace`. -/
def traceF (x : Fin n → Fin n → ℝ) : ℝ := ∑ i, x i i

/-- `strain` (example.py 58-60). -/
noncomputable def fracStrain (u_grad : Fin n → Fin n → ℝ) : Fin n → Fin n → ℝ := fun i j => 0.5 * (u_grad i j + u_grad j i)

/-- `psi_plus` (example.py 62-65). -/
noncomputable def psiPlus (eigh : (Fin n → Fin n → ℝ) → Eigh n) (epsilon : Fin n → Fin n → ℝ) : ℝ :=
  let eigen_vals := (eigh epsilon).vals
  let tr_epsilon_plus := safePlus (traceF epsilon)
  fracLmbda / 2 * tr_epsilon_plus ^ 2 + fracMu * ∑ a, safePlus (eigen_vals a) ^ 2

/-- `psi_minus` (example.py 67-70). -/
noncomputable def psiMinus (eigh : (Fin n → Fin n → ℝ) → Eigh n) (epsilon : Fin n → Fin n → ℝ) : ℝ :=
  let eigen_vals := (eigh epsilon).vals
  let tr_epsilon_minus := safeMinus (traceF epsilon)
  fracLmbda / 2 * tr_epsilon_minus ^ 2 + fracMu * ∑ a, safeMinus (eigen_vals a) ^ 2

/-- `g` (example.py 72-73); `d` is `d[0]`. -/
noncomputable def degrade (d : ℝ) : ℝ := (1 - d) ^ 2 + 1e-3

/-- `jax.grad` of a function of a matrix: partial derivatives with respect to the entries. -/
noncomputable def gradM (ψ : (Fin n → Fin n → ℝ) → ℝ) (x : Fin n → Fin n → ℝ) : Fin n → Fin n → ℝ :=
  fun i j => deriv (fun t : ℝ => ψ (x + t • (Pi.single i (Pi.single j 1) : Fin n → Fin n → ℝ))) 0

/-- `stress_fn_opt1` (example.py 79-83), the one used (102). -/
noncomputable def stressOpt1 (eigh : (Fin n → Fin n → ℝ) → Eigh n) (noise u_grad : Fin n → Fin n → ℝ) (d : ℝ) : Fin n → Fin n → ℝ :=
  let epsilon := fracStrain u_grad + noise
  degrade d • gradM (psiPlus eigh) epsilon + gradM (psiMinus eigh) epsilon

/-- `fn` of `stress_fn_opt2` (example.py 88-89). -/
noncomputable def fracFn (d x : ℝ) : ℝ := 2 * fracMu * (degrade d * safePlus x + safeMinus x)

/-- `sigma` of `stress_fn_opt2` as a function of the strain (example.py 90-97). -/
noncomputable def sigmaSplit (eigh : (Fin n → Fin n → ℝ) → Eigh n) (epsilon : Fin n → Fin n → ℝ) (d : ℝ) : Fin n → Fin n → ℝ :=
  let tr_epsilon_plus := safePlus (traceF epsilon)
  let tr_epsilon_minus := safeMinus (traceF epsilon)
  let sigma1 : Fin n → Fin n → ℝ := fun i j => fracLmbda * (degrade d * tr_epsilon_plus + tr_epsilon_minus) * if i = j then 1 else 0
  let sigma2 := eigenF eigh (fracFn d) epsilon
  sigma1 + sigma2

/-- `stress_fn_opt2` (example.py 85-99). -/
noncomputable def stressOpt2 (eigh : (Fin n → Fin n → ℝ) → Eigh n) (u_grad : Fin n → Fin n → ℝ) (d : ℝ) : Fin n → Fin n → ℝ := sigmaSplit eigh (fracStrain u_grad) d

/-- `psi_plus_fn` (example.py 104-106). -/
noncomputable def psiPlusFn (eigh : (Fin n → Fin n → ℝ) → Eigh n) (u_grad : Fin n → Fin n → ℝ) : ℝ := psiPlus eigh (fracStrain u_grad)

/-! ## Derivatives of the split energies -/

/-- Linear elasticity with the constants of the demo (specification): energy and stress. -/
noncomputable def hookeEnergy (eps : Fin n → Fin n → ℝ) : ℝ := fracLmbda / 2 * (∑ i, eps i i) ^ 2 + fracMu * ∑ i, ∑ j, eps i j ^ 2
noncomputable def hookeStress (eps : Fin n → Fin n → ℝ) : Fin n → Fin n → ℝ := fun i j => fracLmbda * (∑ k, eps k k) * (if i = j then 1 else 0) + 2 * fracMu * eps i j

theorem safePlus_eq (x : ℝ) : safePlus x = max x 0 := by
  unfold safePlus
  rcases le_total 0 x with h | h
  · rw [abs_of_nonneg h, max_eq_left h]; ring
  · rw [abs_of_nonpos h, max_eq_right h]; ring

theorem safeMinus_eq (x : ℝ) : safeMinus x = min x 0 := by
  unfold safeMinus
  rcases le_total 0 x with h | h
  · rw [abs_of_nonneg h, min_eq_right h]; ring
  · rw [abs_of_nonpos h, min_eq_left h]; ring

theorem safe_add (x : ℝ) : safePlus x + safeMinus x = x := by unfold safePlus safeMinus; ring

theorem safe_mul (x : ℝ) : safePlus x * safeMinus x = 0 := by
  unfold safePlus safeMinus
  have := abs_mul_abs_self x
  linear_combination -(0.25 : ℝ) * this

theorem safe_sq (x : ℝ) : safePlus x ^ 2 + safeMinus x ^ 2 = x ^ 2 := by
  have h1 := safe_mul x
  have h2 := safe_add x
  have : x ^ 2 = (safePlus x + safeMinus x) ^ 2 := by rw [h2]
  rw [this]
  linear_combination -2 * h1

theorem hasDerivAt_safePlus_sq (x : ℝ) : HasDerivAt (fun t => safePlus t ^ 2) (2 * safePlus x) x := by
  have h1 : (fun t => safePlus t ^ 2) = fun t => 0.5 * (t ^ 2 + t * |t|) := by
    funext t
    unfold safePlus
    have := abs_mul_abs_self t
    linear_combination (0.25 : ℝ) * this
  rw [h1]
  have h2 : HasDerivAt (fun t : ℝ => t * |t|) (2 * |x|) x := by
    rcases lt_trichotomy x 0 with h | h | h
    · have : HasDerivAt (fun t : ℝ => -(t ^ 2)) (2 * |x|) x := by
        have := ((hasDerivAt_id x).pow 2).neg
        rw [abs_of_neg h]
        refine this.congr_deriv ?_
        simp
      refine this.congr_of_eventuallyEq ?_
      filter_upwards [Iio_mem_nhds h] with t ht
      rw [abs_of_neg ht]; ring
    · subst h
      rw [hasDerivAt_iff_isLittleO, Asymptotics.isLittleO_iff]
      intro c hc
      filter_upwards [Metric.ball_mem_nhds (0 : ℝ) hc] with t ht
      rw [Metric.mem_ball, dist_zero_right, Real.norm_eq_abs] at ht
      simp only [abs_zero, mul_zero, sub_zero, smul_zero, norm_mul, Real.norm_eq_abs, abs_abs]
      exact mul_le_mul_of_nonneg_right ht.le (abs_nonneg t)
    · have : HasDerivAt (fun t : ℝ => t ^ 2) (2 * |x|) x := by
        have := ((hasDerivAt_id x).pow 2)
        rw [abs_of_pos h]
        refine this.congr_deriv ?_
        simp
      refine this.congr_of_eventuallyEq ?_
      filter_upwards [Ioi_mem_nhds h] with t ht
      rw [abs_of_pos ht]; ring
  refine ((((hasDerivAt_id x).pow 2).add h2).const_mul 0.5).congr_deriv ?_
  simp [safePlus]
  ring

theorem hasDerivAt_safeMinus_sq (x : ℝ) : HasDerivAt (fun t => safeMinus t ^ 2) (2 * safeMinus x) x := by
  have h1 : (fun t => safeMinus t ^ 2) = fun t => t ^ 2 - safePlus t ^ 2 := by
    funext t
    linarith [safe_sq t]
  rw [h1]
  refine (((hasDerivAt_id x).pow 2).sub (hasDerivAt_safePlus_sq x)).congr_deriv ?_
  have := safe_add x
  simp
  linarith

/-- `H ↦ ∑ S_ij H_ij`. -/
noncomputable def innerL (S : Fin n → Fin n → ℝ) : (Fin n → Fin n → ℝ) →L[ℝ] ℝ :=
  LinearMap.toContinuousLinearMap
    { toFun := fun H => ∑ i, ∑ j, S i j * H i j
      map_add' := fun v w => by simp only [Pi.add_apply, mul_add, sum_add_distrib]
      map_smul' := fun c v => by
        simp only [Pi.smul_apply, smul_eq_mul, RingHom.id_apply, mul_sum]
        exact sum_congr rfl fun i _ => sum_congr rfl fun j _ => by ring }

theorem innerL_apply (S H : Fin n → Fin n → ℝ) : innerL S H = ∑ i, ∑ j, S i j * H i j := rfl

theorem innerL_single (S : Fin n → Fin n → ℝ) (i j : Fin n) : innerL S (Pi.single i (Pi.single j 1)) = S i j := by
  rw [innerL_apply, sum_eq_single i, sum_eq_single j]
  · simp
  · intro b _ hb; simp [hb]
  · simp
  · intro b _ hb
    refine sum_eq_zero fun k _ => ?_
    rw [Pi.single_eq_of_ne hb]; simp
  · simp

theorem gradM_eq {ψ : (Fin n → Fin n → ℝ) → ℝ} {S x : Fin n → Fin n → ℝ} (h : HasFDerivAt ψ (innerL S) x) : gradM ψ x = S := by
  funext i j
  have h1 := h.hasLineDerivAt (Pi.single i (Pi.single j 1) : Fin n → Fin n → ℝ)
  have h2 := h1.lineDeriv
  rw [innerL_single] at h2
  exact h2

open scoped Matrix in
theorem sum_vals_eq (eigh : (Fin n → Fin n → ℝ) → Eigh n) (x : Fin n → Fin n → ℝ) (h : IsEigh x (eigh x)) (F : ℝ → ℝ) : ∑ a, F ((eigh x).vals a) = ∑ i, eigenF eigh F x i i := by
  unfold eigenF Eigh.apply Eigh.M
  rw [sum_comm]
  refine sum_congr rfl fun a _ => ?_
  rw [← sum_mul, h.orth a a, if_pos rfl, one_mul]

open scoped Matrix in
/-- Derivative of a sum over the eigenvalues. -/
theorem hasFDerivAt_sum_vals (eigh : (Fin n → Fin n → ℝ) → Eigh n) (heigh : ∀ x, IsEigh x (eigh x)) (F F' : ℝ → ℝ) (hF : ∀ t, HasDerivAt F (F' t) t) (x : Fin n → Fin n → ℝ) :
    HasFDerivAt (fun x => ∑ a, F ((eigh x).vals a)) (innerL (eigenF eigh F' x)) x := by
  obtain ⟨L, hL, hL2⟩ := C96_derivative eigh heigh F x fun a => (hF _).differentiableAt
  have h1 : (fun x => ∑ a, F ((eigh x).vals a)) = fun x => ∑ i, eigenF eigh F x i i := funext fun x => sum_vals_eq eigh x (heigh x) F
  rw [h1]
  have h2 : HasFDerivAt (fun x => innerL (fun i j => if i = j then 1 else 0) (eigenF eigh F x)) ((innerL fun i j => if i = j then 1 else 0).comp L) x :=
    (innerL fun i j => if i = j then 1 else 0).hasFDerivAt.comp x hL
  have h3 : (fun x => innerL (fun i j => if i = j then 1 else 0) (eigenF eigh F x)) = fun x => ∑ i, eigenF eigh F x i i := by
    funext x
    simp [innerL_apply]
  rw [h3] at h2
  refine h2.congr_fderiv ?_
  ext H
  rw [ContinuousLinearMap.comp_apply, hL2, innerL_apply, innerL_apply]
  simp only [ite_mul, one_mul, zero_mul, sum_ite_eq, mem_univ, if_true]
  set e := eigh x with he
  have hF' : deriv F = F' := funext fun t => (hF t).deriv
  have h4 : ∑ i, eigenJvp eigh F (deriv F) x H i i = (IsEigh.dk e F (symM H)).trace := by
    rw [← eigenJvp_eq]
    rfl
  rw [h4]
  unfold IsEigh.dk
  rw [Matrix.mul_assoc, Matrix.trace_mul_comm, Matrix.mul_assoc, (heigh x).UUt, Matrix.mul_one]
  have h5 : ∀ a, (e.U * symM H * e.Uᵀ) a a = ∑ k, ∑ l, e.vecs a k * e.vecs a l * H k l := by
    intro a
    have h6 : (e.U * symM H * e.Uᵀ) a a = ∑ l, ∑ k, e.vecs a k * ((H k l + H l k) / 2) * e.vecs a l := by
      rw [Matrix.mul_apply]
      refine sum_congr rfl fun l _ => ?_
      rw [Matrix.mul_apply, sum_mul]
      rfl
    have h7 : ∑ l, ∑ k, e.vecs a k * ((H k l + H l k) / 2) * e.vecs a l = (∑ l, ∑ k, e.vecs a k * e.vecs a l * H k l / 2) + ∑ l, ∑ k, e.vecs a l * e.vecs a k * H l k / 2 := by
      rw [← sum_add_distrib]
      refine sum_congr rfl fun l _ => ?_
      rw [← sum_add_distrib]
      exact sum_congr rfl fun k _ => by ring
    rw [h6, h7, sum_comm, ← sum_add_distrib]
    refine sum_congr rfl fun k _ => ?_
    rw [← sum_add_distrib]
    exact sum_congr rfl fun l _ => by ring
  rw [Matrix.trace]
  simp only [Matrix.diag_apply, Matrix.of_apply, dslope_same, hF', h5, mul_sum, eigenF, Eigh.apply, Eigh.M, sum_mul, ← he]
  rw [sum_comm]
  refine sum_congr rfl fun k _ => ?_
  rw [sum_comm]
  exact sum_congr rfl fun l _ => sum_congr rfl fun a _ => by ring

theorem hasFDerivAt_trace (x : Fin n → Fin n → ℝ) (F F' : ℝ → ℝ) (hF : ∀ t, HasDerivAt F (F' t) t) :
    HasFDerivAt (fun x => F (traceF x)) (innerL fun i j => F' (traceF x) * if i = j then 1 else 0) x := by
  have h1 : HasFDerivAt (fun x : Fin n → Fin n → ℝ => traceF x) (innerL fun i j => if i = j then 1 else 0) x := by
    have : (fun x : Fin n → Fin n → ℝ => traceF x) = fun x => innerL (fun i j => if i = j then 1 else 0) x := by
      funext x
      simp [innerL_apply, traceF]
    rw [this]
    exact (innerL _).hasFDerivAt
  refine ((hF (traceF x)).comp_hasFDerivAt x h1).congr_fderiv ?_
  ext H
  simp only [ContinuousLinearMap.smul_apply, smul_eq_mul, innerL_apply, mul_sum]
  exact sum_congr rfl fun i _ => sum_congr rfl fun j _ => by ring

/-- The two parts of the stress. -/
noncomputable def sigmaPlus (eigh : (Fin n → Fin n → ℝ) → Eigh n) (x : Fin n → Fin n → ℝ) : Fin n → Fin n → ℝ :=
  fun i j => fracLmbda * safePlus (traceF x) * (if i = j then 1 else 0) + 2 * fracMu * eigenF eigh safePlus x i j
noncomputable def sigmaMinus (eigh : (Fin n → Fin n → ℝ) → Eigh n) (x : Fin n → Fin n → ℝ) : Fin n → Fin n → ℝ :=
  fun i j => fracLmbda * safeMinus (traceF x) * (if i = j then 1 else 0) + 2 * fracMu * eigenF eigh safeMinus x i j

theorem eigenF_mul (eigh : (Fin n → Fin n → ℝ) → Eigh n) (f : ℝ → ℝ) (c : ℝ) (x : Fin n → Fin n → ℝ) (i j : Fin n) : eigenF eigh (fun t => c * f t) x i j = c * eigenF eigh f x i j := by
  simp only [eigenF, Eigh.apply, mul_sum]
  exact sum_congr rfl fun b _ => by ring

theorem eigenF_add (eigh : (Fin n → Fin n → ℝ) → Eigh n) (f g : ℝ → ℝ) (x : Fin n → Fin n → ℝ) (i j : Fin n) :
    eigenF eigh (fun t => f t + g t) x i j = eigenF eigh f x i j + eigenF eigh g x i j := by
  simp only [eigenF, Eigh.apply, mul_add, sum_add_distrib]

theorem sigmaSplit_eq (eigh : (Fin n → Fin n → ℝ) → Eigh n) (x : Fin n → Fin n → ℝ) (d : ℝ) (i j : Fin n) :
    sigmaSplit eigh x d i j = degrade d * sigmaPlus eigh x i j + sigmaMinus eigh x i j := by
  have h : eigenF eigh (fracFn d) x i j = 2 * fracMu * (degrade d * eigenF eigh safePlus x i j + eigenF eigh safeMinus x i j) := by
    rw [← eigenF_mul, ← eigenF_add, ← eigenF_mul]
    rfl
  simp only [sigmaSplit, Pi.add_apply, h, sigmaPlus, sigmaMinus]
  ring

theorem hasFDerivAt_part (eigh : (Fin n → Fin n → ℝ) → Eigh n) (heigh : ∀ x, IsEigh x (eigh x)) (F : ℝ → ℝ) (hF : ∀ t, HasDerivAt (fun t => F t ^ 2) (2 * F t) t) (x : Fin n → Fin n → ℝ) :
    HasFDerivAt (fun x => fracLmbda / 2 * F (traceF x) ^ 2 + fracMu * ∑ a, F ((eigh x).vals a) ^ 2)
      (innerL fun i j => fracLmbda * F (traceF x) * (if i = j then 1 else 0) + 2 * fracMu * eigenF eigh F x i j) x := by
  have h1 := (hasFDerivAt_trace x (fun t => F t ^ 2) (fun t => 2 * F t) hF).const_mul (fracLmbda / 2)
  have h2 := (hasFDerivAt_sum_vals eigh heigh (fun t => F t ^ 2) (fun t => 2 * F t) hF x).const_mul fracMu
  refine (h1.add h2).congr_fderiv ?_
  ext H
  simp only [ContinuousLinearMap.add_apply, ContinuousLinearMap.smul_apply, smul_eq_mul, innerL_apply, eigenF_mul, mul_sum, ← sum_add_distrib]
  exact sum_congr rfl fun i _ => sum_congr rfl fun j _ => by ring

/-- **C97 (the stress is the gradient of the energy).** At every strain, also where eigenvalues coincide or vanish, the degraded energy `g(d) ψ⁺ + ψ⁻` has a Fréchet derivative, and `stress_fn_opt2` is its gradient. -/
theorem C97_gradient (eigh : (Fin n → Fin n → ℝ) → Eigh n) (heigh : ∀ x, IsEigh x (eigh x)) (x : Fin n → Fin n → ℝ) (d : ℝ) :
    ∃ L : (Fin n → Fin n → ℝ) →L[ℝ] ℝ, HasFDerivAt (fun x => degrade d * psiPlus eigh x + psiMinus eigh x) L x ∧
      ∀ H, L H = ∑ i, ∑ j, sigmaSplit eigh x d i j * H i j := by
  refine ⟨innerL (sigmaSplit eigh x d), ?_, fun H => rfl⟩
  have h1 := (hasFDerivAt_part eigh heigh safePlus hasDerivAt_safePlus_sq x).const_mul (degrade d)
  have h2 := hasFDerivAt_part eigh heigh safeMinus hasDerivAt_safeMinus_sq x
  refine (h1.add h2).congr_fderiv ?_
  ext H
  simp only [ContinuousLinearMap.add_apply, ContinuousLinearMap.smul_apply, smul_eq_mul, innerL_apply, sigmaSplit_eq, sigmaPlus, sigmaMinus, mul_sum, ← sum_add_distrib]
  exact sum_congr rfl fun i _ => sum_congr rfl fun j _ => by ring

/-- **C97 (both options agree).** The two implementations of the stress compute the same function: `stress_fn_opt1` at a displacement gradient is `stress_fn_opt2`'s formula at the strain plus the noise, and without noise they
are equal. -/
theorem C97_options (eigh : (Fin n → Fin n → ℝ) → Eigh n) (heigh : ∀ x, IsEigh x (eigh x)) (noise u_grad : Fin n → Fin n → ℝ) (d : ℝ) :
    stressOpt1 eigh noise u_grad d = sigmaSplit eigh (fracStrain u_grad + noise) d ∧ stressOpt1 eigh 0 u_grad d = stressOpt2 eigh u_grad d := by
  have h : ∀ noise, stressOpt1 eigh noise u_grad d = sigmaSplit eigh (fracStrain u_grad + noise) d := by
    intro noise
    unfold stressOpt1
    have h1 : gradM (psiPlus eigh) (fracStrain u_grad + noise) = sigmaPlus eigh (fracStrain u_grad + noise) := gradM_eq (hasFDerivAt_part eigh heigh safePlus hasDerivAt_safePlus_sq _)
    have h2 : gradM (psiMinus eigh) (fracStrain u_grad + noise) = sigmaMinus eigh (fracStrain u_grad + noise) := gradM_eq (hasFDerivAt_part eigh heigh safeMinus hasDerivAt_safeMinus_sq _)
    dsimp only
    rw [h1, h2]
    funext i j
    rw [sigmaSplit_eq]
    rfl
  exact ⟨h noise, by rw [h 0, add_zero]; rfl⟩

end Verif.Fem
