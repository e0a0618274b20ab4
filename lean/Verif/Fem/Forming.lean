import Verif.Fem.ModelsProps
import Mathlib.LinearAlgebra.Matrix.NonsingularInverse

/-!
# C135: the finite-strain plasticity of the forming application

Model of the material point of applications/fem/forming/example_disp.py (the class `Plasticity`; example_force.py and single.py carry the same class). Not modelled: `f_bar` and `F_inv`, which the program computes and never
uses, `vmap`, `jit`, mesh generator, logging and VTK output. Reals instead of floats.
-/
namespace Verif.Forming
open Finset Matrix

abbrev T3 := Matrix (Fin 3) (Fin 3) ℝ

/-- applications/fem/forming/example_disp.py:33 `K = 164.e3`. -/
def bulkK : ℝ := 164000
/-- applications/fem/forming/example_disp.py:34 `G = 80.e3`. -/
def shearG : ℝ := 80000
/-- applications/fem/forming/example_disp.py:35 `H1 = 18.`. -/
def hardH : ℝ := 18
/-- applications/fem/forming/example_disp.py:36 `sig0 = 400.`. -/
def sig0 : ℝ := 400

/-- applications/fem/forming/example_disp.py:62-63 `deviatoric`, with `self.dim = 3`. -/
noncomputable def deviatoric (A : T3) : T3 := A - (1 / 3 * A.trace) • 1

/-- `np.linalg.norm` of a matrix: the Frobenius norm (applications/fem/forming/example_disp.py:73 and 85). -/
noncomputable def fnorm (A : T3) : ℝ := Real.sqrt (∑ i, ∑ j, A i j ^ 2)

/-- applications/fem/forming/example_disp.py:57-60 `get_tau`. -/
noncomputable def getTau (F be : T3) : T3 := (0.5 * bulkK * (F.det ^ 2 - 1)) • (1 : T3) + shearG • deviatoric be

/-- The internal variables of a quadrature point: `F_old`, `be_bar_old`, `alpha_old` (applications/fem/forming/example_disp.py:22-26 and 38). -/
structure Pt where
  F : T3
  be : T3
  alpha : ℝ

/-- applications/fem/forming/example_disp.py:22-26 `custom_init`: identity, identity, zero. -/
def Pt.init : Pt := ⟨1, 1, 0⟩

/-- applications/fem/forming/example_disp.py:66-71 `be_bar_trial = f @ be_bar_old @ f.T` with `f = F @ F_old_inv`. -/
noncomputable def trial (p : Pt) (g : T3) : T3 := ((g + 1) * p.F⁻¹) * p.be * ((g + 1) * p.F⁻¹)ᵀ

/-- applications/fem/forming/example_disp.py:73 `yield_f_trial`, for given `s_trial` and `alpha_old`. -/
noncomputable def yieldF (s : T3) (alpha : ℝ) : ℝ := fnorm s - Real.sqrt (2 / 3) * (sig0 + hardH * alpha)

/-- applications/fem/forming/example_disp.py:65-92 `return_map`: `(be_bar, alpha, tau)`. -/
noncomputable def returnMap (p : Pt) (g : T3) : T3 × ℝ × T3 :=
  if yieldF (shearG • deviatoric (trial p g)) p.alpha < 0 then (trial p g, p.alpha, getTau (g + 1) (trial p g))
  else
    let s_trial := shearG • deviatoric (trial p g)
    let y := yieldF s_trial p.alpha
    let Ie := 1 / 3 * (trial p g).trace
    let Gb := Ie * shearG
    let dγ := (y / (2 * Gb)) / (1 + hardH / (3 * Gb))
    let direction := (fnorm s_trial)⁻¹ • s_trial
    let s := s_trial - (2 * Gb * dγ) • direction
    let be := shearG⁻¹ • s + Ie • (1 : T3)
    (be, p.alpha + Real.sqrt (2 / 3) * dγ, getTau (g + 1) be)

/-- applications/fem/forming/example_disp.py:39-43 `first_PK_stress`. -/
noncomputable def firstPK (p : Pt) (g : T3) : T3 := (returnMap p g).2.2 * ((g + 1)⁻¹)ᵀ

/-- applications/fem/forming/example_disp.py:45-48 `update_int_vars`. -/
noncomputable def update (p : Pt) (g : T3) : Pt := ⟨g + 1, (returnMap p g).1, (returnMap p g).2.1⟩

/-- applications/fem/forming/example_disp.py:50-55 `compute_cauchy_stress`. -/
noncomputable def cauchy (p : Pt) (g : T3) : T3 := (1 / (g + 1).det) • firstPK p g * (g + 1)ᵀ

/-- applications/fem/forming/example_disp.py:185-192: the internal variables of a point after the load steps with displacement gradients `gs`. -/
noncomputable def run (gs : List T3) : Pt := gs.foldl update Pt.init

/-! ## Specification -/

/-- Specification: symmetric and positive definite. -/
structure Spd (A : T3) : Prop where
  symm : Aᵀ = A
  pos : ∀ x : Fin 3 → ℝ, x ≠ 0 → 0 < x ⬝ᵥ A.mulVec x

/-- Specification: the radius of the von Mises cylinder for the equivalent plastic strain `alpha`, linear hardening. -/
noncomputable def radius (alpha : ℝ) : ℝ := Real.sqrt (2 / 3) * (400 + 18 * alpha)

/-- Specification: an admissible state: invertible deformation, elastic strain symmetric and positive definite, shear stress `80000 dev be` in the von Mises cylinder, nonnegative plastic strain. -/
structure Admissible (p : Pt) : Prop where
  det : p.F.det ≠ 0
  spd : Spd p.be
  alpha : 0 ≤ p.alpha
  yield : 80000 * fnorm (deviatoric p.be) ≤ radius p.alpha

/-- Specification: the implicit (backward Euler) form of associative J2 flow with linear hardening from the trial strain `b` and the hardening variable `a`. The multiplier `m ≥ 0` moves the shear stress `s = 80000 dev be` from
its trial value along its own direction `N`, the trace of the elastic strain is kept, and the Kuhn-Tucker conditions hold at the end of the step. -/
def Flow (b : T3) (a : ℝ) (be : T3) (alpha m : ℝ) : Prop :=
  0 ≤ m ∧ be.trace = b.trace ∧ alpha = a + Real.sqrt (2 / 3) * m
    ∧ (∃ N : T3, fnorm ((80000 : ℝ) • deviatoric be) • N = (80000 : ℝ) • deviatoric be ∧ (80000 : ℝ) • deviatoric be = (80000 : ℝ) • deviatoric b - (2 * (b.trace / 3 * 80000) * m) • N)
    ∧ fnorm ((80000 : ℝ) • deviatoric be) ≤ radius alpha ∧ m * (fnorm ((80000 : ℝ) • deviatoric be) - radius alpha) = 0

/-- Specification: a rotation or reflection. -/
def Orth (Q : T3) : Prop := Qᵀ * Q = 1

/-! ## Algebra -/

theorem fnorm_nonneg (A : T3) : 0 ≤ fnorm A := Real.sqrt_nonneg _

theorem fnorm_sq (A : T3) : fnorm A ^ 2 = ∑ i, ∑ j, A i j ^ 2 := Real.sq_sqrt (sum_nonneg fun i _ => sum_nonneg fun j _ => sq_nonneg _)

theorem fnorm_smul (c : ℝ) (A : T3) : fnorm (c • A) = |c| * fnorm A := by
  rw [fnorm, fnorm, ← Real.sqrt_sq_eq_abs, ← Real.sqrt_mul (sq_nonneg c)]
  congr 1
  simp only [Matrix.smul_apply, smul_eq_mul, mul_pow, mul_sum]

theorem fnorm_zero_iff {A : T3} : fnorm A = 0 ↔ A = 0 := by
  constructor
  · intro h
    have h2 := fnorm_sq A
    rw [h, zero_pow two_ne_zero] at h2
    have h3 := (sum_eq_zero_iff_of_nonneg fun i _ => sum_nonneg fun j _ => sq_nonneg (A i j)).mp h2.symm
    ext i j
    have h4 := (sum_eq_zero_iff_of_nonneg fun j _ => sq_nonneg (A i j)).mp (h3 i (mem_univ i)) j (mem_univ j)
    simpa using h4
  · rintro rfl
    simp [fnorm]

theorem fnorm_sq_trace (A : T3) : fnorm A ^ 2 = (Aᵀ * A).trace := by
  rw [fnorm_sq, Matrix.trace, sum_comm]
  exact sum_congr rfl fun i _ => by simp [Matrix.mul_apply, sq]

theorem trace_one3 : (1 : T3).trace = 3 := by simp [Matrix.trace_one]

theorem deviatoric_smul (c : ℝ) (A : T3) : deviatoric (c • A) = c • deviatoric A := by
  rw [deviatoric, deviatoric, Matrix.trace_smul, smul_sub, smul_smul, smul_eq_mul]
  congr 2
  ring

theorem deviatoric_add (A B : T3) : deviatoric (A + B) = deviatoric A + deviatoric B := by
  rw [deviatoric, deviatoric, deviatoric, Matrix.trace_add, mul_add, add_smul]
  abel

theorem deviatoric_scalar (c : ℝ) : deviatoric (c • (1 : T3)) = 0 := by
  rw [deviatoric, Matrix.trace_smul, trace_one3, smul_eq_mul, show 1 / 3 * (c * 3) = c by ring, sub_self]

theorem trace_deviatoric (A : T3) : (deviatoric A).trace = 0 := by
  rw [deviatoric, Matrix.trace_sub, Matrix.trace_smul, trace_one3, smul_eq_mul]
  ring

theorem split (A : T3) : deviatoric A + (A.trace / 3) • 1 = A := by
  rw [deviatoric, show 1 / 3 * A.trace = A.trace / 3 by ring, sub_add_cancel]

theorem sub_smul_one (c : ℝ) (A : T3) : (1 - c) • A = A - c • A := by rw [sub_smul, one_smul]

theorem sqrt23_pos : 0 < Real.sqrt (2 / 3) := Real.sqrt_pos.mpr (by norm_num)

theorem sqrt23_sq : Real.sqrt (2 / 3) * Real.sqrt (2 / 3) = 2 / 3 := Real.mul_self_sqrt (by norm_num)

theorem radius_pos {a : ℝ} (h : 0 ≤ a) : 0 < radius a := mul_pos sqrt23_pos (by linarith)

theorem yieldF_eq (s : T3) (a : ℝ) : yieldF s a = fnorm s - radius a := rfl

theorem Spd.one : Spd 1 where
  symm := transpose_one
  pos x hx := by
    rw [one_mulVec]
    have : 0 ≤ x ⬝ᵥ x := by simpa [dotProduct] using sum_nonneg fun i _ => mul_self_nonneg (x i)
    refine lt_of_le_of_ne this fun h => hx (funext fun i => ?_)
    exact mul_self_eq_zero.mp ((sum_eq_zero_iff_of_nonneg fun i _ => mul_self_nonneg (x i)).mp h.symm i (mem_univ i))

theorem Spd.trace_pos {A : T3} (h : Spd A) : 0 < A.trace := by
  have hi : ∀ i, 0 < A i i := fun i => by
    have := h.pos (Pi.single i 1) (by intro h0; simpa using congrFun h0 i)
    simpa using this
  exact sum_pos (fun i _ => hi i) univ_nonempty

theorem Spd.congr {A B : T3} (h : Spd A) (hB : B.det ≠ 0) : Spd (B * A * Bᵀ) where
  symm := by rw [transpose_mul, transpose_mul, transpose_transpose, h.symm, Matrix.mul_assoc]
  pos x hx := by
    have hne : Bᵀ.mulVec x ≠ 0 := fun h0 => hx (by
      have h1 := congrArg ((Bᵀ)⁻¹.mulVec) h0
      rw [mulVec_mulVec, Matrix.nonsing_inv_mul _ (by rw [det_transpose]; exact isUnit_iff_ne_zero.mpr hB), one_mulVec, mulVec_zero] at h1
      exact h1)
    have := h.pos _ hne
    rwa [← mulVec_mulVec, ← mulVec_mulVec, dotProduct_mulVec, ← mulVec_transpose]

theorem Spd.mix {A : T3} (h : Spd A) {t c : ℝ} (ht : 0 < t) (hc : 0 ≤ c) : Spd (t • A + c • 1) where
  symm := by rw [transpose_add, transpose_smul, transpose_smul, h.symm, transpose_one]
  pos x hx := by
    rw [add_mulVec, smul_mulVec, smul_mulVec, dotProduct_add, dotProduct_smul, dotProduct_smul]
    have h1 := mul_pos ht (h.pos x hx)
    have h2 := mul_nonneg hc (Spd.one.pos x hx).le
    simp only [smul_eq_mul]
    linarith

/-! ## The return map -/

/-- The factor by which the trial shear stress is scaled. -/
noncomputable def shrink (b : T3) (a : ℝ) : ℝ :=
  1 - (fnorm ((80000 : ℝ) • deviatoric b) - radius a) / (1 + 18 / (3 * (b.trace / 3 * 80000))) / fnorm ((80000 : ℝ) • deviatoric b)

/-- The increment of the multiplier. -/
noncomputable def multiplier (b : T3) (a : ℝ) : ℝ :=
  (fnorm ((80000 : ℝ) • deviatoric b) - radius a) / (2 * (b.trace / 3 * 80000)) / (1 + 18 / (3 * (b.trace / 3 * 80000)))

theorem returnMap_elastic (p : Pt) (g : T3) (h : fnorm ((80000 : ℝ) • deviatoric (trial p g)) < radius p.alpha) :
    returnMap p g = (trial p g, p.alpha, getTau (g + 1) (trial p g)) := by
  rw [returnMap, if_pos (by rw [yieldF_eq]; exact sub_neg.mpr h)]

theorem returnMap_plastic (p : Pt) (g : T3) (hb : 0 < (trial p g).trace) (h : radius p.alpha ≤ fnorm ((80000 : ℝ) • deviatoric (trial p g))) :
    (returnMap p g).1 = shrink (trial p g) p.alpha • deviatoric (trial p g) + ((trial p g).trace / 3) • 1
      ∧ (returnMap p g).2.1 = p.alpha + Real.sqrt (2 / 3) * multiplier (trial p g) p.alpha
      ∧ (returnMap p g).2.2 = getTau (g + 1) (returnMap p g).1 := by
  rw [returnMap, if_neg (by rw [yieldF_eq]; exact not_lt.mpr (sub_nonneg.mpr h))]
  generalize trial p g = b at *
  refine ⟨?_, ?_, rfl⟩
  · simp only [yieldF_eq, shearG, hardH]
    rw [show (1 : ℝ) / 3 * b.trace = b.trace / 3 by ring]
    congr 1
    rw [shrink, smul_smul, ← sub_smul_one, smul_smul, smul_smul]
    congr 1
    have hG : b.trace / 3 * 80000 ≠ 0 := by positivity
    have hD : 1 + 18 / (3 * (b.trace / 3 * 80000)) ≠ 0 := by positivity
    generalize fnorm ((80000 : ℝ) • deviatoric b) = n
    generalize 1 + 18 / (3 * (b.trace / 3 * 80000)) = D at *
    generalize b.trace / 3 * 80000 = G at *
    rw [div_div (n - _) D n]
    by_cases hn : n = 0
    · simp [hn]
    · field_simp
  · simp only [yieldF_eq, shearG, hardH]
    rw [show (1 : ℝ) / 3 * b.trace = b.trace / 3 by ring, multiplier]

/-- What the return map does, in both branches. -/
theorem returnMap_form (p : Pt) (g : T3) (ha : 0 ≤ p.alpha) (hb : 0 < (trial p g).trace) :
    ∃ t m : ℝ, 0 < t ∧ t ≤ 1 ∧ 0 ≤ m ∧ (returnMap p g).1 = t • deviatoric (trial p g) + ((trial p g).trace / 3) • 1
      ∧ (returnMap p g).2.1 = p.alpha + Real.sqrt (2 / 3) * m ∧ (returnMap p g).2.2 = getTau (g + 1) (returnMap p g).1
      ∧ t * fnorm ((80000 : ℝ) • deviatoric (trial p g)) = fnorm ((80000 : ℝ) • deviatoric (trial p g)) - 2 * ((trial p g).trace / 3 * 80000) * m
      ∧ (fnorm ((80000 : ℝ) • deviatoric (trial p g)) < radius p.alpha ∧ m = 0 ∧ t = 1
        ∨ radius p.alpha ≤ fnorm ((80000 : ℝ) • deviatoric (trial p g)) ∧ t * fnorm ((80000 : ℝ) • deviatoric (trial p g)) = radius (returnMap p g).2.1) := by
  by_cases h : fnorm ((80000 : ℝ) • deviatoric (trial p g)) < radius p.alpha
  · refine ⟨1, 0, one_pos, le_rfl, le_rfl, ?_, ?_, ?_, by ring, .inl ⟨h, rfl, rfl⟩⟩ <;> rw [returnMap_elastic p g h]
    · rw [one_smul, split]
    · simp
  · obtain ⟨h1, h2, h3⟩ := returnMap_plastic p g hb (not_lt.mp h)
    refine ⟨shrink (trial p g) p.alpha, multiplier (trial p g) p.alpha, ?_, ?_, ?_, h1, h2, h3, ?_, .inr ⟨not_lt.mp h, ?_⟩⟩
    all_goals
      have hr := radius_pos ha
      have hle := not_lt.mp h
    · rw [shrink]
      generalize trial p g = b at *
      have hn : 0 < fnorm ((80000 : ℝ) • deviatoric b) := hr.trans_le hle
      have hD : 1 ≤ 1 + 18 / (3 * (b.trace / 3 * 80000)) := by
        have : 0 ≤ 18 / (3 * (b.trace / 3 * 80000)) := by positivity
        linarith
      generalize fnorm ((80000 : ℝ) • deviatoric b) = n at *
      generalize 1 + 18 / (3 * (b.trace / 3 * 80000)) = D at *
      rw [div_div, sub_pos, div_lt_one (by positivity)]
      nlinarith
    · rw [shrink, sub_le_self_iff]
      exact div_nonneg (div_nonneg (sub_nonneg.mpr hle) (by positivity)) (fnorm_nonneg _)
    · rw [multiplier]
      exact div_nonneg (div_nonneg (sub_nonneg.mpr hle) (by positivity)) (by positivity)
    · rw [shrink, multiplier]
      generalize trial p g = b at *
      have hn : fnorm ((80000 : ℝ) • deviatoric b) ≠ 0 := (hr.trans_le hle).ne'
      have hG : b.trace / 3 * 80000 ≠ 0 := by positivity
      have hD : 1 + 18 / (3 * (b.trace / 3 * 80000)) ≠ 0 := by positivity
      generalize fnorm ((80000 : ℝ) • deviatoric b) = n at *
      generalize 1 + 18 / (3 * (b.trace / 3 * 80000)) = D at *
      generalize b.trace / 3 * 80000 = G at *
      field_simp
    · rw [h2, shrink, multiplier, radius, radius]
      generalize trial p g = b at *
      have hn : fnorm ((80000 : ℝ) • deviatoric b) ≠ 0 := (hr.trans_le hle).ne'
      have hs := sqrt23_sq
      generalize fnorm ((80000 : ℝ) • deviatoric b) = n at *
      generalize Real.sqrt (2 / 3) = w at *
      have hG : 0 < b.trace / 3 * 80000 := by positivity
      generalize b.trace / 3 * 80000 = G at *
      have e : ∀ y : ℝ, (1 - y / (1 + 18 / (3 * G)) / n) * n = n - y / (1 + 18 / (3 * G)) := fun y => by field_simp
      rw [e, mul_add 18, ← add_assoc, mul_add w (400 + _), show w * (18 * (w * ((n - w * (400 + 18 * p.alpha)) / (2 * G) / (1 + 18 / (3 * G))))) = (w * w) * 18 * ((n - w * (400 + 18 * p.alpha)) / (2 * G) / (1 + 18 / (3 * G))) by ring, hs]
      generalize w * (400 + 18 * p.alpha) = r
      have hD : 1 + 18 / (3 * G) = (G + 6) / G := by field_simp; ring
      rw [hD]
      have : G + 6 ≠ 0 := by positivity
      field_simp
      ring

theorem dev_form (t c : ℝ) (b : T3) : deviatoric (t • deviatoric b + c • 1) = t • deviatoric b := by
  rw [deviatoric_add, deviatoric_scalar, add_zero, deviatoric_smul]
  congr 1
  conv_lhs => rw [deviatoric, trace_deviatoric, mul_zero, zero_smul, sub_zero]

theorem trace_form (t c : ℝ) (b : T3) : (t • deviatoric b + c • 1).trace = 3 * c := by
  rw [Matrix.trace_add, Matrix.trace_smul, Matrix.trace_smul, trace_deviatoric, trace_one3, smul_eq_mul, smul_eq_mul]
  ring

theorem trial_spd {p : Pt} (hp : Admissible p) (g : T3) (hg : (g + 1).det ≠ 0) : Spd (trial p g) := by
  refine hp.spd.congr ?_
  rw [det_mul]
  refine mul_ne_zero hg ?_
  rw [det_nonsing_inv]
  simpa using hp.det

/-- **C135 (the step is the implicit flow rule).** From every admissible state, for every invertible deformation, the program's return map satisfies the implicit equations of associative J2 flow with linear hardening, with the Kuhn-Tucker conditions at the end of the step. -/
theorem C135_flow {p : Pt} (hp : Admissible p) (g : T3) (hg : (g + 1).det ≠ 0) : ∃ m, Flow (trial p g) p.alpha (update p g).be (update p g).alpha m := by
  have hb := (trial_spd hp g hg).trace_pos
  obtain ⟨t, m, ht, ht1, hm, h1, h2, -, hs, hc⟩ := returnMap_form p g hp.alpha hb
  refine ⟨m, hm, ?_, h2, ⟨(fnorm ((80000 : ℝ) • deviatoric (trial p g)))⁻¹ • (80000 : ℝ) • deviatoric (trial p g), ?_⟩, ?_⟩
  · show (returnMap p g).1.trace = _
    rw [h1, trace_form]
    ring
  · rw [show (update p g).be = (returnMap p g).1 from rfl, h1, dev_form]
    rw [smul_comm (80000 : ℝ) t, fnorm_smul, abs_of_pos ht]
    generalize trial p g = b at *
    by_cases hn : fnorm ((80000 : ℝ) • deviatoric b) = 0
    · have h0 := fnorm_zero_iff.mp hn
      rw [h0]
      simp
    · generalize fnorm ((80000 : ℝ) • deviatoric b) = n at *
      generalize (80000 : ℝ) • deviatoric b = s
      refine ⟨?_, ?_⟩
      · rw [smul_smul, mul_assoc, mul_inv_cancel₀ hn, mul_one]
      · rw [smul_smul, show s - (2 * (b.trace / 3 * 80000) * m * n⁻¹) • s = (1 - 2 * (b.trace / 3 * 80000) * m * n⁻¹) • s by rw [sub_smul, one_smul]]
        congr 1
        have : 2 * (b.trace / 3 * 80000) * m = n - t * n := by linarith
        rw [this]
        field_simp
        ring
  · show fnorm ((80000 : ℝ) • deviatoric (returnMap p g).1) ≤ radius (returnMap p g).2.1 ∧ m * (fnorm ((80000 : ℝ) • deviatoric (returnMap p g).1) - radius (returnMap p g).2.1) = 0
    rw [h1, dev_form, smul_comm (80000 : ℝ) t, fnorm_smul, abs_of_pos ht]
    rcases hc with ⟨hlt, rfl, rfl⟩ | ⟨-, he⟩
    · rw [h2]
      simp only [mul_zero, add_zero, one_mul, zero_mul, and_true]
      exact hlt.le
    · rw [he]
      simp

end Verif.Forming
