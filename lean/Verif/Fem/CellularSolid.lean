import Verif.Fem.HyperSmall

/-!
# C158: the plane law of the cellular solid (applications/fem/buckling/cellular_solid.py)
-/
namespace Verif.Fem.CellularSolid
open Finset Verif.Fem Matrix

/-! ## Model -/

/-- `mu` (cellular_solid.py 20-22). -/
noncomputable def csMu : ℝ := 70e3 / (2 * (1 + 0.3))

/-- `kappa` (cellular_solid.py 20-23). -/
noncomputable def csKappa : ℝ := 70e3 / (3 * (1 - 2 * 0.3))

/-- `psi` (cellular_solid.py 16-28). For `J < 0` the code's `J**(-2./3.)` is NaN; the theorems assume `J > 0`. -/
noncomputable def csPsi (F_2d : Matrix (Fin 2) (Fin 2) ℝ) : ℝ :=
  let F : Matrix (Fin 3) (Fin 3) ℝ := !![F_2d 0 0, F_2d 0 1, 0; F_2d 1 0, F_2d 1 1, 0; 0, 0, 1]
  let J := F.det
  let I1 := (Fᵀ * F).trace
  let Jinv := J ^ (-2 / 3 : ℝ)
  csMu / 2 * (Jinv * I1 - 3) + csKappa / 2 * (J - 1) ^ 2

/-- `P_fn = jax.grad(psi)` (cellular_solid.py 30). -/
noncomputable def csPk (F : Matrix (Fin 2) (Fin 2) ℝ) : Matrix (Fin 2) (Fin 2) ℝ := Matrix.of fun i j => deriv (fun t : ℝ => csPsi (F + t • Matrix.single i j 1)) 0

/-- `first_PK_stress` (cellular_solid.py 32-36). -/
noncomputable def csStress (u_grad : Matrix (Fin 2) (Fin 2) ℝ) : Matrix (Fin 2) (Fin 2) ℝ := csPk (u_grad + 1)

/-! ## Specification -/

/-- The deformation gradient of a body in space that is deformed in the plane and keeps its thickness. -/
def Flat (F : Matrix (Fin 2) (Fin 2) ℝ) (G : Matrix (Fin 3) (Fin 3) ℝ) : Prop :=
  (∀ i j : Fin 2, G i.castSucc j.castSucc = F i j) ∧ (∀ i : Fin 2, G i.castSucc 2 = 0 ∧ G 2 i.castSucc = 0) ∧ G 2 2 = 1

/-! ## Facts -/

def emb (F : Matrix (Fin 2) (Fin 2) ℝ) : Matrix (Fin 3) (Fin 3) ℝ := !![F 0 0, F 0 1, 0; F 1 0, F 1 1, 0; 0, 0, 1]

theorem flat_iff (F : Matrix (Fin 2) (Fin 2) ℝ) (G : Matrix (Fin 3) (Fin 3) ℝ) : Flat F G ↔ G = emb F := by
  constructor
  · rintro ⟨h1, h2, h3⟩
    ext i j
    have a := h1 0 0
    have b := h1 0 1
    have c := h1 1 0
    have d := h1 1 1
    have e := h2 0
    have f := h2 1
    fin_cases i <;> fin_cases j <;> simp [emb] at a b c d e f h3 ⊢ <;> first | assumption | exact e.1 | exact e.2 | exact f.1 | exact f.2
  · rintro rfl
    refine ⟨fun i j => ?_, fun i => ?_, rfl⟩
    · fin_cases i <;> fin_cases j <;> rfl
    · fin_cases i <;> exact ⟨rfl, rfl⟩

theorem det_emb (F : Matrix (Fin 2) (Fin 2) ℝ) : (emb F).det = F.det := by
  rw [Matrix.det_fin_three, Matrix.det_fin_two]
  simp [emb]

theorem csPsi_eq (F : Matrix (Fin 2) (Fin 2) ℝ) : csPsi F = 70 * psi (emb F) := by
  unfold csPsi psi
  have h1 : csMu = 70 * hyperMu := by norm_num [csMu, hyperMu]
  have h2 : csKappa = 70 * hyperKappa := by norm_num [csKappa, hyperKappa]
  rw [h1, h2]
  show 70 * hyperMu / 2 * ((emb F).det ^ (-2 / 3 : ℝ) * ((emb F)ᵀ * emb F).trace - 3) + 70 * hyperKappa / 2 * ((emb F).det - 1) ^ 2 = _
  ring

theorem emb_line (F : Matrix (Fin 2) (Fin 2) ℝ) (i j : Fin 2) (t : ℝ) : emb (F + t • Matrix.single i j 1) = emb F + t • Matrix.single i.castSucc j.castSucc 1 := by
  ext a b
  fin_cases i <;> fin_cases j <;> fin_cases a <;> fin_cases b <;> simp [emb, Matrix.single_apply]

theorem csPk_eq (F : Matrix (Fin 2) (Fin 2) ℝ) (i j : Fin 2) : csPk F i j = 70 * pkOf (emb F) i.castSucc j.castSucc := by
  show deriv (fun t : ℝ => csPsi (F + t • Matrix.single i j 1)) 0 = 70 * deriv (fun t : ℝ => psi (emb F + t • Matrix.single i.castSucc j.castSucc 1)) 0
  simp only [csPsi_eq, emb_line]
  rw [deriv_const_mul_field]

theorem emb_inv (F : Matrix (Fin 2) (Fin 2) ℝ) (hJ : F.det ≠ 0) : (emb F)⁻¹ = emb F⁻¹ := by
  refine Matrix.inv_eq_right_inv ?_
  have h := Matrix.mul_nonsing_inv F (isUnit_iff_ne_zero.mpr hJ)
  have e := fun i j => congrFun (congrFun h i) j
  simp only [Matrix.mul_apply, Fin.sum_univ_two] at e
  have e00 := e 0 0
  have e01 := e 0 1
  have e10 := e 1 0
  have e11 := e 1 1
  simp at e00 e01 e10 e11
  ext a b
  fin_cases a <;> fin_cases b <;> simp [emb, Matrix.mul_apply, Fin.sum_univ_three] <;> assumption

/-! ## Properties -/

/-- **C158 (plane strain).** The stress of the plane law is the part in the plane of the stress that `HyperElasticity` (with seventy times its moduli) gives the flat body in space, and that stress has no shear out of the plane: a plane state of the
file is a state of the body in space that needs no tangential forces on its faces. -/
theorem C158_section (F : Matrix (Fin 2) (Fin 2) ℝ) (G : Matrix (Fin 3) (Fin 3) ℝ) (hG : Flat F G) (hJ : 0 < F.det) :
    (∀ i j : Fin 2, csPk F i j = 70 * pkOf G i.castSucc j.castSucc) ∧ ∀ i : Fin 2, pkOf G i.castSucc 2 = 0 ∧ pkOf G 2 i.castSucc = 0 := by
  obtain rfl := (flat_iff F G).mp hG
  refine ⟨csPk_eq F, fun i => ?_⟩
  rw [C31_stress _ (by rw [det_emb]; exact hJ), emb_inv F hJ.ne']
  fin_cases i <;> simp [emb]

/-- **C158 (energy).** The stored energy is never negative, and zero exactly for rotations. -/
theorem C158_energy (F : Matrix (Fin 2) (Fin 2) ℝ) (hJ : 0 < F.det) : 0 ≤ csPsi F ∧ (csPsi F = 0 ↔ Fᵀ * F = 1) := by
  obtain ⟨h1, h2⟩ := C31_energy (emb F) (by rw [det_emb]; exact hJ)
  rw [csPsi_eq]
  refine ⟨by linarith, ?_⟩
  rw [mul_eq_zero_iff_left (by norm_num), h2]
  constructor
  · intro h
    have e := fun i j : Fin 2 => congrFun (congrFun h i.castSucc) j.castSucc
    ext i j
    have := e i j
    simp only [Matrix.mul_apply, Fin.sum_univ_two, Fin.sum_univ_three, Matrix.transpose_apply] at this ⊢
    fin_cases i <;> fin_cases j <;> simpa [emb] using this
  · intro h
    have e := fun i j : Fin 2 => congrFun (congrFun h i) j
    have e00 := e 0 0
    have e01 := e 0 1
    have e10 := e 1 0
    have e11 := e 1 1
    simp [Matrix.mul_apply, Fin.sum_univ_two] at e00 e01 e10 e11
    ext a b
    fin_cases a <;> fin_cases b <;> simp [emb, Matrix.mul_apply, Fin.sum_univ_three] <;> assumption

theorem emb_mul (Q F : Matrix (Fin 2) (Fin 2) ℝ) : emb (Q * F) = emb Q * emb F := by
  ext a b
  fin_cases a <;> fin_cases b <;> simp [emb, Matrix.mul_apply, Fin.sum_univ_three, Fin.sum_univ_two]

theorem emb_rot (Q : Matrix (Fin 2) (Fin 2) ℝ) (hQ : Qᵀ * Q = 1) : (emb Q)ᵀ * emb Q = 1 := by
  have e := fun i j : Fin 2 => congrFun (congrFun hQ i) j
  have e00 := e 0 0
  have e01 := e 0 1
  have e10 := e 1 0
  have e11 := e 1 1
  simp [Matrix.mul_apply, Fin.sum_univ_two] at e00 e01 e10 e11
  ext a b
  fin_cases a <;> fin_cases b <;> simp [emb, Matrix.mul_apply, Fin.sum_univ_three] <;> assumption

/-- **C158 (frame indifference).** A rotation of the deformed body does not change the energy and turns the stress. -/
theorem C158_objective (F Q : Matrix (Fin 2) (Fin 2) ℝ) (hJ : 0 < F.det) (hQ : Qᵀ * Q = 1) (hdet : Q.det = 1) : csPsi (Q * F) = csPsi F ∧ csPk (Q * F) = Q * csPk F := by
  have h1 := emb_rot Q hQ
  have h2 : (emb Q).det = 1 := by rw [det_emb]; exact hdet
  constructor
  · rw [csPsi_eq, csPsi_eq, emb_mul, (C31_objective (emb F) (emb Q) h1 h2).1]
  · ext i j
    rw [csPk_eq, emb_mul, (C31_stress_objective (emb F) (emb Q) (by rw [det_emb]; exact hJ) h1 h2).1, Matrix.mul_apply, Matrix.mul_apply, Fin.sum_univ_three, Fin.sum_univ_two, csPk_eq, csPk_eq]
    fin_cases i <;> fin_cases j <;> simp [emb] <;> ring

theorem emb_one : emb 1 = 1 := by
  ext a b
  fin_cases a <;> fin_cases b <;> simp [emb]

/-- The reference configuration is free of stress (unlike that of `HyperElasticity` with `dim = 2`, see C31). -/
theorem C158_rest : csStress 0 = 0 := by
  ext i j
  unfold csStress
  rw [zero_add, csPk_eq, emb_one]
  have h := C31_rest
  unfold firstPK at h
  rw [zero_add] at h
  rw [h]
  simp

/-- **C158 (small strains).** The tangent at rest is Hooke's law of plane strain with the modulus and the Poisson number of lines 20-21. -/
theorem C158_linearised (H : Matrix (Fin 2) (Fin 2) ℝ) (i j : Fin 2) :
    HasDerivAt (fun t : ℝ => csStress (t • H) i j) ((if i = j then 70e3 * 0.3 / ((1 + 0.3) * (1 - 2 * 0.3)) * H.trace else 0) + 70e3 / (2 * (1 + 0.3)) * (H i j + H j i)) 0 := by
  let pad : Fin 3 → Fin 3 → ℝ := fun a b => (!![H 0 0, H 0 1, 0; H 1 0, H 1 1, 0; 0, 0, 0] : Matrix (Fin 3) (Fin 3) ℝ) a b
  have h1 : HasDerivAt (fun t : ℝ => SmallLoads.pk (0 + t • pad)) (fderiv ℝ SmallLoads.pk 0 pad) 0 := (SmallLoads.pk_smooth.differentiableAt one_ne_zero).hasFDerivAt.hasLineDerivAt pad
  rw [SmallLoads.C152_linearised] at h1
  have h2 := ((hasDerivAt_pi.mp (hasDerivAt_pi.mp h1 i.castSucc)) j.castSucc).const_mul 70
  have hfun : (fun t : ℝ => csStress (t • H) i j) = fun t => 70 * SmallLoads.pk (0 + t • pad) i.castSucc j.castSucc := by
    funext t
    unfold csStress
    rw [csPk_eq]
    have : emb (t • H + 1) = Matrix.of (0 + t • pad) + 1 := by
      ext a b
      fin_cases a <;> fin_cases b <;> simp [emb, pad]
    rw [this]
    rfl
  rw [hfun]
  refine h2.congr_deriv ?_
  unfold SmallLoads.hooke
  rw [SmallLoads.hyper_lame.1, SmallLoads.hyper_lame.2, Fin.sum_univ_three]
  fin_cases i <;> fin_cases j <;> simp [pad, Matrix.trace_fin_two] <;> ring

/-- A simple shear of the plane by one half: the determinant is one, the energy positive. -/
example : 0 < csPsi !![1, 1 / 2; 0, 1] := by
  have hJ : (0 : ℝ) < (!![1, 1 / 2; 0, 1] : Matrix (Fin 2) (Fin 2) ℝ).det := by simp [Matrix.det_fin_two]
  obtain ⟨h1, h2⟩ := C158_energy _ hJ
  refine lt_of_le_of_ne h1 fun h => ?_
  have := congrFun (congrFun (h2.mp h.symm) 0) 1
  simp [Matrix.mul_apply, Fin.sum_univ_two] at this

end Verif.Fem.CellularSolid
