import Verif.Fem.FormingProps
import Mathlib.Analysis.SpecialFunctions.Log.Deriv
import Mathlib.Analysis.SpecialFunctions.Pow.Real
import Mathlib.Analysis.Calculus.MeanValue

/-!
# C135, continued: what follows from using `f` instead of `f_bar` in the trial strain

Line 71 of example_disp.py has `be_bar_trial = f @ be_bar_old @ f.T`; single.py:69 notes that `f_bar` should stand there.
-/
namespace Verif.Forming
open Finset Matrix

/-- **C135 (when a step yields).** The plastic strain grows in a step exactly if the trial shear stress is outside of the von Mises cylinder. -/
theorem C135_yields {p : Pt} (hp : Admissible p) (g : T3) (hg : (g + 1).det ≠ 0) : p.alpha < (update p g).alpha ↔ radius p.alpha < 80000 * fnorm (deviatoric (trial p g)) := by
  have hb := (trial_spd hp g hg).trace_pos
  obtain ⟨m, hf⟩ := C135_flow hp g hg
  have hal := hf.2.2.1
  have hy := hf.2.2.2.2.1
  have e : fnorm ((80000 : ℝ) • deviatoric (trial p g)) = 80000 * fnorm (deviatoric (trial p g)) := by rw [fnorm_smul, abs_of_pos (by norm_num)]
  rw [← e]
  rcases hf.length hp.alpha hb with ⟨h1, h2⟩ | ⟨hm, -, h2, -, -⟩
  · rw [h2, mul_zero, add_zero] at hal
    rw [h1, hal] at hy
    rw [hal]
    exact ⟨fun h => absurd h (lt_irrefl _), fun h => absurd h (not_lt.mpr hy)⟩
  · rw [h2, hal]
    refine ⟨fun _ => ?_, fun _ => ?_⟩
    · have : 0 < 2 * ((trial p g).trace / 3 * 80000) * m := by positivity
      linarith
    · have := mul_pos sqrt23_pos hm
      linarith

/-- In a step without plastic strain the trial strain is kept. -/
theorem update_elastic {p : Pt} (hp : Admissible p) (g : T3) (hg : (g + 1).det ≠ 0) (h : (update p g).alpha = p.alpha) : (update p g).be = trial p g := by
  have hb := (trial_spd hp g hg).trace_pos
  obtain ⟨m, hf⟩ := C135_flow hp g hg
  have hal := hf.2.2.1
  have hm : m = 0 := by
    rw [h] at hal
    have : Real.sqrt (2 / 3) * m = 0 := by linarith
    exact (mul_eq_zero.mp this).resolve_left sqrt23_pos.ne'
  rcases hf.length hp.alpha hb with ⟨h1, -⟩ | ⟨h1, -⟩
  · have hd : deviatoric (update p g).be = deviatoric (trial p g) := by
      have := congrArg (fun X : T3 => (80000 : ℝ)⁻¹ • X) h1
      simpa [smul_smul] using this
    rw [← split (update p g).be, hd, hf.2.1, split]
  · exact absurd hm h1.ne'

/-- **C135 (elastic paths; the volume is not split off).** As long as no plastic strain has occurred, the stored elastic strain is the full left Cauchy-Green tensor `F Fᵀ` of the last deformation, whatever the path; its determinant is `(det F)²`, not one. -/
theorem C135_elastic (gs : List T3) (h : ∀ g ∈ gs, (g + 1).det ≠ 0) (ha : (run gs).alpha = 0) : (run gs).be = (run gs).F * (run gs).Fᵀ ∧ (run gs).be.det = (run gs).F.det ^ 2 := by
  have key : (run gs).be = (run gs).F * (run gs).Fᵀ := by
    induction gs using List.reverseRecOn with
    | nil => simp [run, Pt.init]
    | append_singleton gs g ih =>
      obtain ⟨h1, h2, h3⟩ := C135_path gs [g] h
      have e : run (gs ++ [g]) = update (run gs) g := by simp [run]
      have h0 : (run gs).alpha = 0 := le_antisymm (ha ▸ h3) h1.alpha
      have hg := h g (by simp)
      have ih' := ih (fun g' hg' => h g' (List.mem_append_left _ hg')) h0
      rw [e] at ha ⊢
      rw [update_elastic h1 g hg (ha.trans h0.symm), trial, ih']
      show _ = (g + 1) * (g + 1)ᵀ
      have hi : (run gs).F⁻¹ * (run gs).F = 1 := Matrix.nonsing_inv_mul _ (isUnit_iff_ne_zero.mpr h1.det)
      generalize (run gs).F = A at *
      rw [transpose_mul]
      calc (g + 1) * A⁻¹ * (A * Aᵀ) * ((A⁻¹)ᵀ * (g + 1)ᵀ) = (g + 1) * (A⁻¹ * A) * ((A⁻¹ * A)ᵀ) * (g + 1)ᵀ := by simp only [transpose_mul, Matrix.mul_assoc]
        _ = _ := by rw [hi]; simp
  refine ⟨key, ?_⟩
  rw [key, det_mul, det_transpose, sq]

theorem trial_dilate {p : Pt} (hp : Admissible p) (g : T3) (c : ℝ) (hg : g + 1 = c • p.F) : trial p g = c ^ 2 • p.be := by
  rw [trial, hg, Matrix.smul_mul, Matrix.mul_nonsing_inv _ (isUnit_iff_ne_zero.mpr hp.det), transpose_smul, transpose_one]
  simp [Matrix.smul_mul, Matrix.mul_smul, smul_smul, sq]

/-- **C135 (pure changes of volume).** A step which only scales the deformation by `c` multiplies the trial shear stress by `c²`: below the yield limit the shear stress itself is scaled, and the step yields exactly if `c²` times the shear stress exceeds the limit. With the volume split off the shear stress would not change and no dilation could yield (`C135_repaired`). -/
theorem C135_dilate {p : Pt} (hp : Admissible p) (g : T3) (c : ℝ) (hc : c ≠ 0) (hg : g + 1 = c • p.F) :
    (p.alpha < (update p g).alpha ↔ radius p.alpha < c ^ 2 * (80000 * fnorm (deviatoric p.be))) ∧ ((update p g).alpha = p.alpha → deviatoric (update p g).be = c ^ 2 • deviatoric p.be) := by
  have hdet : (g + 1).det ≠ 0 := by rw [hg, det_smul]; exact mul_ne_zero (pow_ne_zero _ hc) hp.det
  have ht := trial_dilate hp g c hg
  refine ⟨?_, fun h => ?_⟩
  · rw [C135_yields hp g hdet, ht, deviatoric_smul, fnorm_smul, abs_of_nonneg (sq_nonneg c)]
    rw [mul_left_comm]
  · rw [update_elastic hp g hdet h, ht, deviatoric_smul]

/-- The trial strain with `f_bar` of line 70 in place of `f` (the correction noted in applications/fem/forming/single.py:69). -/
noncomputable def trialBar (p : Pt) (g : T3) : T3 :=
  let f := (g + 1) * p.F⁻¹
  let f_bar := (f.det ^ (-(1 : ℝ) / 3)) • f
  f_bar * p.be * f_barᵀ

/-- **C135 (the correction).** With `f_bar` the trial strain keeps its determinant in every step with positive volume ratio, and a pure dilation leaves it unchanged. -/
theorem C135_repaired {p : Pt} (hp : Admissible p) (g : T3) :
    (0 < ((g + 1) * p.F⁻¹).det → (trialBar p g).det = p.be.det) ∧ ∀ c : ℝ, 0 < c → g + 1 = c • p.F → trialBar p g = p.be := by
  constructor
  · intro h
    simp only [trialBar]
    generalize (g + 1) * p.F⁻¹ = f at *
    rw [det_mul, det_mul, det_transpose, det_smul, Fintype.card_fin]
    have h3 : (f.det ^ (-(1 : ℝ) / 3)) ^ 3 = f.det⁻¹ := by
      rw [← Real.rpow_natCast, ← Real.rpow_mul h.le]
      norm_num
      exact Real.rpow_neg_one _
    rw [h3]
    field_simp
  · intro c hc hg
    have hf : (g + 1) * p.F⁻¹ = c • (1 : T3) := by rw [hg, Matrix.smul_mul, Matrix.mul_nonsing_inv _ (isUnit_iff_ne_zero.mpr hp.det)]
    simp only [trialBar]
    rw [hf, det_smul, det_one, mul_one, Fintype.card_fin]
    have h3 : (c ^ 3 : ℝ) ^ (-(1 : ℝ) / 3) = c⁻¹ := by
      rw [← Real.rpow_natCast, ← Real.rpow_mul hc.le]
      norm_num
      exact Real.rpow_neg_one _
    rw [h3, smul_smul, inv_mul_cancel₀ hc.ne', one_smul, transpose_one, Matrix.one_mul, Matrix.mul_one]

/-! ## Diagonal deformations -/

/-- `diag(a, b, 1)`. -/
def dg (a b : ℝ) : T3 := Matrix.diagonal ![a, b, 1]

theorem dg_mul (a b a' b' : ℝ) : dg a b * dg a' b' = dg (a * a') (b * b') := by
  rw [dg, dg, dg, Matrix.diagonal_mul_diagonal]
  congr 1
  ext i
  fin_cases i <;> simp

theorem dg_transpose (a b : ℝ) : (dg a b)ᵀ = dg a b := Matrix.diagonal_transpose _

theorem dg_one : dg 1 1 = 1 := by
  rw [dg, ← Matrix.diagonal_one]
  congr 1
  ext i
  fin_cases i <;> simp

theorem dg_inv {a b : ℝ} (ha : a ≠ 0) (hb : b ≠ 0) : (dg a b)⁻¹ = dg a⁻¹ b⁻¹ := Matrix.inv_eq_left_inv (by rw [dg_mul, inv_mul_cancel₀ ha, inv_mul_cancel₀ hb, dg_one])

theorem dg_det (a b : ℝ) : (dg a b).det = a * b := by simp [dg, Matrix.det_diagonal, Fin.prod_univ_three]

theorem dg_dev (a b : ℝ) : deviatoric (dg a b) = Matrix.diagonal ![(2 * a - b - 1) / 3, (2 * b - a - 1) / 3, (2 - a - b) / 3] := by
  ext i j
  rw [deviatoric, dg]
  fin_cases i <;> fin_cases j <;> simp [Matrix.trace, Fin.sum_univ_three, Matrix.diagonal, Matrix.one_apply] <;> ring

theorem dg_norm (a b : ℝ) : fnorm (deviatoric (dg a b)) = Real.sqrt (2 / 3) * Real.sqrt ((a - 1) ^ 2 + (b - 1) ^ 2 - (a - 1) * (b - 1)) := by
  rw [dg_dev, fnorm, ← Real.sqrt_mul (by norm_num)]
  congr 1
  simp [Fin.sum_univ_three, Matrix.diagonal]
  ring

theorem trial_init (g : T3) : trial Pt.init g = (g + 1) * (g + 1)ᵀ := by simp [trial, Pt.init]

theorem dg_elastic {a b : ℝ} (h : (a ^ 2 - 1) ^ 2 + (b ^ 2 - 1) ^ 2 - (a ^ 2 - 1) * (b ^ 2 - 1) < (1 / 200) ^ 2) : 80000 * fnorm (deviatoric (dg a b * (dg a b)ᵀ)) < radius 0 := by
  rw [dg_transpose, dg_mul, dg_norm, ← sq, ← sq, radius]
  have : Real.sqrt ((a ^ 2 - 1) ^ 2 + (b ^ 2 - 1) ^ 2 - (a ^ 2 - 1) * (b ^ 2 - 1)) < 1 / 200 := (Real.sqrt_lt' (by norm_num)).mpr h
  nlinarith [sqrt23_pos]

/-- **C135 (a dilation yields).** The sheet is stretched elastically by 0.2 % in one direction, then the whole deformation is scaled by 1.2, which changes the volume only: the program's second step is plastic. -/
theorem C135_spurious : (run [dg 1.002 1 - 1]).alpha = 0 ∧ 0 < (run [dg 1.002 1 - 1, (1.2 : ℝ) • dg 1.002 1 - 1]).alpha := by
  have hd1 : (dg 1.002 1 - 1 + 1 : T3).det ≠ 0 := by rw [sub_add_cancel, dg_det]; norm_num
  have e1 : run [dg 1.002 1 - 1] = update Pt.init (dg 1.002 1 - 1) := rfl
  have e2 : run [dg 1.002 1 - 1, (1.2 : ℝ) • dg 1.002 1 - 1] = update (run [dg 1.002 1 - 1]) ((1.2 : ℝ) • dg 1.002 1 - 1) := rfl
  have hlt : 80000 * fnorm (deviatoric (dg 1.002 1 * (dg 1.002 1)ᵀ)) < radius 0 := dg_elastic (by norm_num)
  have ha : (run [dg 1.002 1 - 1]).alpha = 0 := by
    have hst := C135_step Admissible.init _ hd1
    have := (C135_yields Admissible.init _ hd1).not.mpr (by rw [trial_init, sub_add_cancel]; exact not_lt.mpr hlt.le)
    rw [e1]
    exact le_antisymm (not_lt.mp this) hst.2
  refine ⟨ha, ?_⟩
  have hadm := (C135_path [dg 1.002 1 - 1] [] (by simpa using hd1)).1
  have hF : (run [dg 1.002 1 - 1]).F = dg 1.002 1 := by rw [e1]; exact sub_add_cancel _ _
  have hbe := (C135_elastic [dg 1.002 1 - 1] (by simpa using hd1) ha).1
  have := (C135_dilate hadm ((1.2 : ℝ) • dg 1.002 1 - 1) 1.2 (by norm_num) (by rw [sub_add_cancel, hF])).1
  rw [ha, ← e2, hbe, hF] at this
  refine this.mpr ?_
  rw [dg_transpose, dg_mul, dg_norm, radius, show ((1.002 * 1.002 : ℝ) - 1) ^ 2 + (1 * 1 - 1) ^ 2 - (1.002 * 1.002 - 1) * (1 * 1 - 1) = (1.002 * 1.002 - 1) ^ 2 by ring, Real.sqrt_sq (by norm_num)]
  nlinarith [sqrt23_pos]

/-- With the correction the same dilation leaves the trial stress where it was. -/
example : trialBar (run [dg 1.002 1 - 1]) ((1.2 : ℝ) • dg 1.002 1 - 1) = (run [dg 1.002 1 - 1]).be := by
  have hd1 : (dg 1.002 1 - 1 + 1 : T3).det ≠ 0 := by rw [sub_add_cancel, dg_det]; norm_num
  have hF : (run [dg 1.002 1 - 1]).F = dg 1.002 1 := sub_add_cancel _ _
  exact (C135_repaired (C135_path [dg 1.002 1 - 1] [] (by simpa using hd1)).1 _).2 1.2 (by norm_num) (by rw [sub_add_cancel, hF])

/-- A path with plastic flow: a stretch by 1 %. -/
example : 0 < (run [dg 1.01 1 - 1]).alpha := by
  have hd1 : (dg 1.01 1 - 1 + 1 : T3).det ≠ 0 := by rw [sub_add_cancel, dg_det]; norm_num
  refine (C135_yields Admissible.init _ hd1).mpr ?_
  rw [trial_init, sub_add_cancel, dg_transpose, dg_mul, dg_norm, show Pt.init.alpha = 0 from rfl, radius,
    show ((1.01 * 1.01 : ℝ) - 1) ^ 2 + (1 * 1 - 1) ^ 2 - (1.01 * 1.01 - 1) * (1 * 1 - 1) = (1.01 * 1.01 - 1) ^ 2 by ring, Real.sqrt_sq (by norm_num)]
  nlinarith [sqrt23_pos]

/-! ## No stored energy -/

/-- Specification: `W` is a stored energy for the elastic range: below the yield limit and for positive volume, the first Piola stress from the initial state is the derivative of `W` in every direction. -/
def StoredEnergy (W : T3 → ℝ) : Prop :=
  ∀ F H : T3, 0 < F.det → 80000 * fnorm (deviatoric (F * Fᵀ)) < radius 0 → HasDerivAt (fun t : ℝ => W (F + t • H)) (∑ i, ∑ j, firstPK Pt.init (F - 1) i j * H i j) 0

theorem firstPK_dg {a b : ℝ} (ha : 0 < a) (hb : 0 < b) (h : 80000 * fnorm (deviatoric (dg a b * (dg a b)ᵀ)) < radius 0) :
    firstPK Pt.init (dg a b - 1) = Matrix.diagonal ![(82000 * (a ^ 2 * b ^ 2 - 1) + 80000 * ((2 * a ^ 2 - b ^ 2 - 1) / 3)) / a, (82000 * (a ^ 2 * b ^ 2 - 1) + 80000 * ((2 * b ^ 2 - a ^ 2 - 1) / 3)) / b,
      82000 * (a ^ 2 * b ^ 2 - 1) + 80000 * ((2 - a ^ 2 - b ^ 2) / 3)] := by
  rw [firstPK, returnMap_elastic _ _ (by rw [trial_init, sub_add_cancel, fnorm_smul, abs_of_pos (by norm_num)]; exact h)]
  show getTau (dg a b - 1 + 1) (trial Pt.init (dg a b - 1)) * ((dg a b - 1 + 1)⁻¹)ᵀ = _
  rw [trial_init, sub_add_cancel, dg_inv ha.ne' hb.ne', dg_transpose, dg_transpose, dg_mul, getTau, dg_det, dg_dev, shearG, bulkK, ← Matrix.diagonal_one, ← Matrix.diagonal_smul, ← Matrix.diagonal_smul, Matrix.diagonal_add, dg,
    Matrix.diagonal_mul_diagonal]
  congr 1
  ext i
  fin_cases i <;> simp <;> ring

/-- **C135 (no stored energy).** Even below the yield limit the stress is not the derivative of any energy: the work around a closed path of deformations need not vanish. The cause is the missing split: `dev (F Fᵀ)` without the factor `J^(-2/3)` is not a gradient. -/
theorem C135_noEnergy : ¬ ∃ W, StoredEnergy W := by
  rintro ⟨W, hW⟩
  have hda : ∀ a b : ℝ, 1 ≤ a → a ≤ 1.0005 → 1 ≤ b → b ≤ 1.00100025 →
      HasDerivAt (fun x => W (dg x b)) ((82000 * (a ^ 2 * b ^ 2 - 1) + 80000 * ((2 * a ^ 2 - b ^ 2 - 1) / 3)) / a) a ∧
      HasDerivAt (fun y => W (dg a y)) ((82000 * (a ^ 2 * b ^ 2 - 1) + 80000 * ((2 * b ^ 2 - a ^ 2 - 1) / 3)) / b) b := by
    intro a b ha ha' hb hb'
    have hel : 80000 * fnorm (deviatoric (dg a b * (dg a b)ᵀ)) < radius 0 := by
      refine dg_elastic ?_
      have h1 : 0 ≤ a ^ 2 - 1 := by nlinarith
      have h2 : 0 ≤ b ^ 2 - 1 := by nlinarith
      have h3 : a ^ 2 - 1 ≤ 0.0011 := by nlinarith
      have h4 : b ^ 2 - 1 ≤ 0.0021 := by nlinarith
      nlinarith
    have hdet : 0 < (dg a b).det := by rw [dg_det]; positivity
    have hP := firstPK_dg (by linarith) (by linarith) hel
    constructor
    · have h := hW (dg a b) (Matrix.diagonal ![1, 0, 0]) hdet hel
      rw [hP] at h
      have h2 : HasDerivAt (fun x : ℝ => x - a) 1 a := (hasDerivAt_id a).sub_const a
      have hfun : (fun x => W (dg x b)) = (fun t : ℝ => W (dg a b + t • Matrix.diagonal ![1, 0, 0])) ∘ fun x => x - a := by
        funext x
        show W _ = W _
        congr 1
        rw [dg, dg, ← Matrix.diagonal_smul, Matrix.diagonal_add]
        congr 1
        ext i
        fin_cases i <;> simp
      rw [hfun]
      exact (HasDerivAt.comp a (by rw [sub_self]; exact h) h2).congr_deriv (by simp [Fin.sum_univ_three, Matrix.diagonal])
    · have h := hW (dg a b) (Matrix.diagonal ![0, 1, 0]) hdet hel
      rw [hP] at h
      have h2 : HasDerivAt (fun x : ℝ => x - b) 1 b := (hasDerivAt_id b).sub_const b
      have hfun : (fun x => W (dg a x)) = (fun t : ℝ => W (dg a b + t • Matrix.diagonal ![0, 1, 0])) ∘ fun x => x - b := by
        funext x
        show W _ = W _
        congr 1
        rw [dg, dg, ← Matrix.diagonal_smul, Matrix.diagonal_add]
        congr 1
        ext i
        fin_cases i <;> simp
      rw [hfun]
      exact (HasDerivAt.comp b (by rw [sub_self]; exact h) h2).congr_deriv (by simp [Fin.sum_univ_three, Matrix.diagonal])
  have hΦ : ∀ c x : ℝ, 0 < x → HasDerivAt (fun x => 82000 * (x ^ 2 * c ^ 2 / 2 - Real.log x) + 80000 / 3 * (x ^ 2 - (c ^ 2 + 1) * Real.log x)) ((82000 * (x ^ 2 * c ^ 2 - 1) + 80000 * ((2 * x ^ 2 - c ^ 2 - 1) / 3)) / x) x := by
    intro c x hx
    have h1 := (hasDerivAt_pow 2 x)
    have h2 := Real.hasDerivAt_log hx.ne'
    have := ((((h1.mul_const (c ^ 2)).div_const 2).sub h2).const_mul 82000).add ((h1.sub (h2.const_mul (c ^ 2 + 1))).const_mul (80000 / 3))
    refine this.congr_deriv ?_
    field_simp
    ring
  have hconst : ∀ (f g g' : ℝ → ℝ) (p : ℝ), 1 ≤ p → (∀ x, 1 ≤ x → x ≤ p → HasDerivAt f (g' x) x) → (∀ x, 1 ≤ x → x ≤ p → HasDerivAt g (g' x) x) → f p - f 1 = g p - g 1 := by
    intro f g g' p hp hf hg
    have := constant_of_has_deriv_right_zero (f := fun x => f x - g x) (a := 1) (b := p) (fun x hx => ((hf x hx.1 hx.2).sub (hg x hx.1 hx.2)).continuousAt.continuousWithinAt)
      (fun x hx => ((hf x hx.1 hx.2.le).sub (hg x hx.1 hx.2.le)).hasDerivWithinAt.congr_deriv (sub_self _)) p ⟨hp, le_rfl⟩
    linarith
  have hA : ∀ b : ℝ, 1 ≤ b → b ≤ 1.00100025 → _ := fun b h1 h2 => hconst (fun x => W (dg x b)) _ _ 1.0005 (by norm_num) (fun a ha ha' => (hda a b ha ha' h1 h2).1) (fun x hx _ => hΦ b x (by linarith))
  have hB : ∀ a : ℝ, 1 ≤ a → a ≤ 1.0005 → _ := fun a h1 h2 => hconst (fun y => W (dg a y)) _ _ 1.00100025 (by norm_num)
    (fun b hb hb' => by have := (hda a b h1 h2 hb hb').2; rwa [mul_comm (a ^ 2)] at this) (fun x hx _ => hΦ a x (by linarith))
  have a1 := hA 1 le_rfl (by norm_num)
  have a2 := hA 1.00100025 (by norm_num) le_rfl
  have b1 := hB 1 le_rfl (by norm_num)
  have b2 := hB 1.0005 (by norm_num) le_rfl
  have hq : Real.log 1.00100025 = 2 * Real.log 1.0005 := by
    rw [show (1.00100025 : ℝ) = 1.0005 ^ 2 by norm_num, Real.log_pow]
    norm_num
  simp only [hq, Real.log_one] at a1 a2 b1 b2
  have hl : 0 < Real.log 1.0005 := Real.log_pos (by norm_num)
  generalize Real.log 1.0005 = l at *
  generalize W (dg 1 1) = w11 at *
  generalize W (dg 1.0005 1) = w21 at *
  generalize W (dg 1 1.00100025) = w12 at *
  generalize W (dg 1.0005 1.00100025) = w22 at *
  norm_num at a1 a2 b1 b2
  linarith

end Verif.Forming
