import Verif.Fem.Models
import Verif.Fem.PropsTangent

/-!
# C93: assembly by explicit loops

`jax_am/fem/experiments/numba_assembly.py`: the stiffness matrix of linear elasticity by five nested loops, and the residual computed with that matrix.
The theorems compare it with `newton_update` and `compute_residual` of `FEM` (core.py), which differentiate the cell kernel.

The script imports the module `jax_am.fem.jax_fem`, which the package does not contain any more, and calls the old names `Neuman_boundary_conditions_inds` and
`Neuman_boundary_conditions_vals`; the loads (`compute_body_force`, `compute_Neumann_integral`, lines 108-141) are the same formulas as in core.py and are taken from there.
-/
namespace Verif.Fem
open Finset Matrix

variable {nn nq nf nfq : ℕ}

/-- `stress` (numba_assembly.py 38-45). -/
noncomputable def numbaStress (g : Matrix (Fin 3) (Fin 3) ℝ) : Matrix (Fin 3) (Fin 3) ℝ :=
  let E : ℝ := 70e3
  let nu : ℝ := 0.3
  let mu := E / (2 * (1 + nu))
  let lmbda := E * nu / ((1 + nu) * (1 - 2 * nu))
  let epsilon := (0.5 : ℝ) • (g + gᵀ)
  (lmbda * epsilon.trace) • (1 : Matrix (Fin 3) (Fin 3) ℝ) + (2 * mu) • epsilon

/-- `to_dof_ind` (numba_assembly.py 49-50). -/
def toDofInd (i v vec : ℕ) : ℕ := vec * i + v

/-- `construct_phi_grad` (numba_assembly.py 54-57). -/
def constructPhiGrad (phi : Fin 3 → ℝ) (v : Fin 3) : Matrix (Fin 3) (Fin 3) ℝ := Matrix.of fun a b => if a = v then phi b else 0

/-- `val` of the innermost loop (numba_assembly.py 72-77). -/
noncomputable def numbaVal (F : Fem nn nq nf nfq 3 3) (c : Fin nn → ℕ) (i : Fin nn) (v : Fin 3) (j : Fin nn) (w : Fin 3) : ℝ :=
  (List.finRange nq).foldl (fun val q =>
    let phi_grad_i := constructPhiGrad (F.shapeGrad c q i) v
    let phi_grad_j := constructPhiGrad (F.shapeGrad c q j) w
    let physics_j := numbaStress phi_grad_j
    val + (∑ a, ∑ b, phi_grad_i a b * physics_j a b) * F.JxW c q) 0

/-- `assemble` (numba_assembly.py 61-87): the entries in the order of the loops. -/
noncomputable def numbaAssemble (F : Fem nn nq nf nfq 3 3) : List (ℕ × ℕ × ℝ) :=
  F.cells.flatMap fun c => (List.finRange nn).flatMap fun i => (List.finRange 3).flatMap fun v : Fin 3 =>
    (List.finRange nn).flatMap fun j => (List.finRange 3).map fun w : Fin 3 =>
      (toDofInd (c i) (v : ℕ) 3, toDofInd (c j) (w : ℕ) 3, numbaVal F c i v j w)

/-- `compute_residual` (numba_assembly.py 101-106); `dofs` is `sol.reshape(-1)`. -/
noncomputable def numbaResidual (F : Fem nn nq nf nfq 3 3) (sol : ℕ → Fin 3 → ℝ) : Except FemErr (ℕ → Fin 3 → ℝ) := do
  let dofs : ℕ → ℝ := fun d => sol (d / 3) ⟨d % 3, Nat.mod_lt _ (by decide)⟩
  let A := numbaAssemble F
  let weak_form := scatterAdd (0 : ℕ → ℝ) (A.map fun t => t.1) (A.map fun t => dofs t.2.1 * t.2.2)
  let neumann ← F.neumannIntegral
  pure ((fun n (i : Fin 3) => weak_form (3 * n + (i : ℕ))) - F.bodyForceFn - neumann)

theorem elasticStress_add (g h : Matrix (Fin 3) (Fin 3) ℝ) : elasticStress (g + h) = elasticStress g + elasticStress h := by
  unfold elasticStress hooke strain
  ext i j
  simp only [transpose_add, trace_smul, trace_add, smul_add, Matrix.add_apply, Matrix.smul_apply, smul_eq_mul]
  ring

theorem elasticStress_smul (a : ℝ) (g : Matrix (Fin 3) (Fin 3) ℝ) : elasticStress (a • g) = a • elasticStress g := by
  unfold elasticStress hooke strain
  ext i j
  simp only [transpose_smul, trace_smul, trace_add, smul_add, Matrix.add_apply, Matrix.smul_apply, smul_eq_mul]
  ring

theorem numbaStress_eq (g : Matrix (Fin 3) (Fin 3) ℝ) : numbaStress g = elasticStress g := rfl

/-- The cell kernel of linear elasticity as a linear map. -/
noncomputable def elasticKernel (F : Fem nn nq nf nfq 3 3) (r : Fem.CellRow nn nq 3 3) : (Fin nn → Fin 3 → ℝ) →ₗ[ℝ] (Fin nn → Fin 3 → ℝ) where
  toFun := (elasticFem F).kernel r
  map_add' x y := by
    funext n i
    simp only [Fem.kernel, elasticFem, Fem.laplaceKernel, Pi.add_apply, add_zero, ← sum_add_distrib, ← add_mul]
    refine sum_congr rfl fun q _ => sum_congr rfl fun d _ => ?_
    congr 1
    rw [← Matrix.add_apply, ← elasticStress_add]
    congr 2
    ext a b
    simp [add_mul, sum_add_distrib]
  map_smul' a x := by
    funext n i
    simp only [Fem.kernel, elasticFem, Fem.laplaceKernel, Pi.smul_apply, smul_eq_mul, add_zero, RingHom.id_apply, mul_sum, ← mul_assoc]
    refine sum_congr rfl fun q _ => sum_congr rfl fun d _ => ?_
    congr 1
    rw [← smul_eq_mul, ← Matrix.smul_apply, ← elasticStress_smul]
    congr 2
    ext b c
    simp [mul_sum, mul_assoc]

theorem jacOf_elastic (F : Fem nn nq nf nfq 3 3) (r : Fem.CellRow nn nq 3 3) (x : Fin nn → Fin 3 → ℝ) (n : Fin nn) (i : Fin 3) (n' : Fin nn) (i' : Fin 3) :
    jacOf ((elasticFem F).kernel r) x n i n' i' = ∑ q, ∑ d, elasticStress (constructPhiGrad (r.grads q n') i') i d * r.vg q n d := by
  have h : HasFDerivAt ((elasticFem F).kernel r) (LinearMap.toContinuousLinearMap (elasticKernel F r)) x :=
    (LinearMap.toContinuousLinearMap (elasticKernel F r)).hasFDerivAt
  unfold jacOf
  rw [h.fderiv]
  show (elasticFem F).kernel r (Pi.single n' (Pi.single i' 1)) n i = _
  simp only [Fem.kernel, elasticFem, Fem.laplaceKernel, add_zero]
  refine sum_congr rfl fun q _ => sum_congr rfl fun d _ => ?_
  have e : (Matrix.of fun (a b : Fin 3) => ∑ m, (Pi.single n' (Pi.single i' (1 : ℝ)) : Fin nn → Fin 3 → ℝ) m a * r.grads q m b) = constructPhiGrad (r.grads q n') i' := by
    ext a b
    simp only [of_apply, constructPhiGrad]
    rw [sum_eq_single n']
    · simp [Pi.single_apply]
    · intro m _ hm; simp [Pi.single_apply, hm]
    · intro hm; exact absurd (mem_univ _) hm
  rw [e]

theorem numbaVal_eq (F : Fem nn nq nf nfq 3 3) (c : Fin nn → ℕ) (i : Fin nn) (v : Fin 3) (j : Fin nn) (w : Fin 3) :
    numbaVal F c i v j w = ∑ q, ∑ d, elasticStress (constructPhiGrad (F.shapeGrad c q j) w) v d * F.vGradsJxW c q i d := by
  have hfold : ∀ (l : List (Fin nq)) (g : Fin nq → ℝ) (x : ℝ), l.foldl (fun val q => val + g q) x = x + (l.map g).sum := by
    intro l g
    induction l with
    | nil => simp
    | cons a l ih => intro x; rw [List.foldl_cons, ih, List.map_cons, List.sum_cons, add_assoc]
  unfold numbaVal
  simp only
  rw [hfold, zero_add, ← List.ofFn_eq_map, List.sum_ofFn]
  refine sum_congr rfl fun q _ => ?_
  rw [sum_eq_single v]
  · rw [sum_mul]
    refine sum_congr rfl fun d _ => ?_
    simp only [constructPhiGrad, of_apply, if_true, Fem.vGradsJxW, numbaStress_eq]
    ring
  · intro a _ ha
    exact sum_eq_zero fun b _ => by simp [constructPhiGrad, ha]
  · intro h; exact absurd (mem_univ _) h

theorem jacOf_numba (F : Fem nn nq nf nfq 3 3) (sol : ℕ → Fin 3 → ℝ) (k : ℕ) (c : Fin nn → ℕ) (x : Fin nn → Fin 3 → ℝ) :
    jacOf ((elasticFem F).kernel ((elasticFem F).cellRow k c sol)) x = numbaVal F c := by
  funext i v j w
  rw [jacOf_elastic, numbaVal_eq]
  rfl

theorem numbaAssemble_eq (F : Fem nn nq nf nfq 3 3) :
    numbaAssemble F = F.cells.flatMap fun c => (locals nn 3).flatMap fun p => (locals nn 3).map fun p' =>
      (3 * c p.1 + (p.2 : ℕ), 3 * c p'.1 + (p'.2 : ℕ), numbaVal F c p.1 p.2 p'.1 p'.2) := by
  unfold numbaAssemble toDofInd
  refine List.flatMap_congr fun c _ => ?_
  unfold locals
  rw [List.flatMap_assoc]
  refine List.flatMap_congr fun n _ => ?_
  rw [List.flatMap_map]
  refine List.flatMap_congr fun i _ => ?_
  rw [List.map_flatMap]
  refine List.flatMap_congr fun n' _ => ?_
  rw [List.map_map]
  rfl

theorem numbaAssemble_cols (F : Fem nn nq nf nfq 3 3) :
    (numbaAssemble F).map (fun t => t.1) = Fem.cooI 3 F.cells ∧ (numbaAssemble F).map (fun t => t.2.1) = Fem.cooJ 3 F.cells ∧
    (numbaAssemble F).map (fun t => t.2.2) = Fem.cooV (F.cells.map (numbaVal F)) := by
  rw [numbaAssemble_eq]
  unfold Fem.cooI Fem.cooJ Fem.cooV
  refine ⟨?_, ?_, ?_⟩
  · rw [List.map_flatMap]
    refine List.flatMap_congr fun c _ => ?_
    rw [cooI_block, List.map_flatMap]
    refine List.flatMap_congr fun p _ => ?_
    rw [List.map_map]; rfl
  · rw [List.map_flatMap]
    refine List.flatMap_congr fun c _ => ?_
    rw [cooJ_block, List.map_flatMap]
    refine List.flatMap_congr fun p _ => ?_
    rw [List.map_map]; rfl
  · rw [List.map_flatMap, List.flatMap_map]
    refine List.flatMap_congr fun c _ => ?_
    rw [cooV_block, List.map_flatMap]
    refine List.flatMap_congr fun p _ => ?_
    rw [List.map_map]; rfl

/-- **C93 (matrix).** The triplets built by the loops are, in the same order, the triplets which `newton_update` of the `LinearElasticity` problem gets by differentiating the cell kernel, at every solution. -/
theorem C93_triplets (F : Fem nn nq nf nfq 3 3) (hc : F.cauchy = none) (sol : ℕ → Fin 3 → ℝ) (R : ℕ → Fin 3 → ℝ) (I J : List ℕ) (V : List ℝ)
    (h : (elasticFem F).newtonUpdate sol = .ok (R, I, J, V)) :
    I = (numbaAssemble F).map (fun t => t.1) ∧ J = (numbaAssemble F).map (fun t => t.2.1) ∧ V = (numbaAssemble F).map (fun t => t.2.2) := by
  obtain ⟨h1, h2, h3⟩ := numbaAssemble_cols F
  rw [h1, h2, h3]
  obtain ⟨-, rfl, rfl, rfl⟩ := (newtonUpdate_ok_iff _ _ _ _ _ _).mp h
  have hc' : (elasticFem F).cauchy = none := hc
  have hj : (elasticFem F).cellJacs sol = F.cells.map (numbaVal F) := by
    unfold Fem.cellJacs
    simp only [jacOf_numba]
    show F.cells.zipIdx.map (fun p => numbaVal F p.1) = _
    rw [← Function.comp_def, ← List.map_map]
    simp
  rw [hj, hc']
  simp only [Fem.pairs, Option.elim_none, List.flatMap_nil]
  simp [Fem.cooI, Fem.cooJ, Fem.cooV, elasticFem]

/-- **C93 (residual).** The residual computed with the assembled matrix is the residual of the `LinearElasticity` problem. -/
theorem C93_residual (F : Fem nn nq nf nfq 3 3) (hc : F.cauchy = none) (hb : F.bodyVar = none) (hcell : F.cells ≠ []) (sol : ℕ → Fin 3 → ℝ) :
    numbaResidual F sol = (elasticFem F).computeResidual sol := by
  have hrow : (elasticFem F).RowsOk := ⟨List.length_pos_iff.mpr hcell, rfl, rfl⟩
  have hc' : (elasticFem F).cauchy = none := hc
  have hb' : (elasticFem F).bodyVar = none := hb
  obtain ⟨h1, h2, h3⟩ := numbaAssemble_cols F
  set dofs : ℕ → ℝ := fun d => sol (d / 3) ⟨d % 3, Nat.mod_lt _ (by decide)⟩ with hdofs
  have hd : ∀ n (i : Fin 3), dofs (3 * n + i) = sol n i := by
    intro n i
    have e1 : (3 * n + (i : ℕ)) / 3 = n := by omega
    have e2 : (3 * n + (i : ℕ)) % 3 = i := by omega
    simp only [hdofs, e1, e2]
  have hw : (fun n (i : Fin 3) => scatterAdd (0 : ℕ → ℝ) ((numbaAssemble F).map fun t => t.1) ((numbaAssemble F).map fun t => dofs t.2.1 * t.2.2) (3 * n + (i : ℕ)))
      = scatterAdd 0 (flat2 (elasticFem F).cells) (flat2 ((elasticFem F).cells.zipIdx.map fun p => (elasticFem F).kernel ((elasticFem F).cellRow p.2 p.1 sol) fun n => sol (p.1 n))) := by
    funext n i
    rw [scatter_rows _ _ _ (by simp), zip_zipIdx_map (elasticFem F).cells fun c k => (elasticFem F).kernel ((elasticFem F).cellRow k c sol) fun n => sol (c n), List.map_map]
    rw [scatterAdd_apply]
    have hmul : ((((numbaAssemble F).map fun t => t.1).zip ((numbaAssemble F).map fun t => dofs t.2.1 * t.2.2)).map fun p => if p.1 = 3 * n + (i : ℕ) then p.2 else 0).sum
        = cooMul (Fem.cooI 3 F.cells) (Fem.cooJ 3 F.cells) (Fem.cooV (F.cells.map (numbaVal F))) dofs (3 * n + i) := by
      unfold cooMul
      rw [← h1, ← h2, ← h3, List.zip_map', List.zip_map', List.zip_map', List.map_map, List.map_map]
      congr 1
      refine List.map_congr_left fun t _ => ?_
      simp only [Function.comp, mul_comm]
    have := cooMul_row F.cells (F.cells.map (numbaVal F)) (by simp) dofs sol hd n i
    rw [zip_map_self, List.map_map] at this
    rw [hmul, this]
    have hz : (F.cells.map ((fun p : (Fin nn → ℕ) × (Fin nn → Fin 3 → Fin nn → Fin 3 → ℝ) => ∑ a, if p.1 a = n then ∑ n', ∑ i', p.2 a i n' i' * sol (p.1 n') i' else 0) ∘ fun c => (c, numbaVal F c)))
        = F.cells.zipIdx.map ((fun p : (Fin nn → ℕ) × (Fin nn → Fin 3 → ℝ) => ∑ a, if p.1 a = n then p.2 a i else 0) ∘ fun p : (Fin nn → ℕ) × ℕ => (p.1, (elasticFem F).kernel ((elasticFem F).cellRow p.2 p.1 sol) fun n => sol (p.1 n))) := by
      have e : F.cells = F.cells.zipIdx.map Prod.fst := by simp
      conv_lhs => rw [e]
      rw [List.map_map]
      refine List.map_congr_left fun p _ => ?_
      simp only [Function.comp]
      refine sum_congr rfl fun a _ => ?_
      congr 1
      rw [← jacOf_numba F sol p.2 p.1 (fun n => sol (p.1 n)), jacOf_mul]
      have h : HasFDerivAt ((elasticFem F).kernel ((elasticFem F).cellRow p.2 p.1 sol)) (LinearMap.toContinuousLinearMap (elasticKernel F ((elasticFem F).cellRow p.2 p.1 sol))) (fun n => sol (p.1 n)) :=
        (LinearMap.toContinuousLinearMap (elasticKernel F _)).hasFDerivAt
      rw [h.fderiv]
      rfl
    rw [hz]
    rfl
  unfold numbaResidual Fem.computeResidual
  rw [cellValues_ok _ hrow]
  simp only
  rw [hw]
  unfold Fem.residualHelper
  dsimp only [bind, Except.bind, pure, Except.pure]
  rw [hc', hb']
  rfl

/-! ## Example: the unit tetrahedron with one quadrature point -/

noncomputable def unitTet : Fem 4 1 4 1 3 3 where
  numTotal := 4
  points := fun n d => if n = d + 1 then 1 else 0
  cells := [![0, 1, 2, 3]]
  shapeVals := fun _ _ => 1 / 4
  shapeGradsRef := fun _ => ![fun _ => -1, Pi.single 0 1, Pi.single 1 1, Pi.single 2 1]
  quadWeights := fun _ => 1 / 6
  faceShapeVals := fun _ _ _ => 0
  faceShapeGradsRef := fun _ _ _ _ => 0
  faceWeights := fun _ _ => 0
  faceNormals := fun _ _ => 0
  faceInds := ![[0], [1], [2], [3]]
  tensorMap := none
  massMap := none
  lapRows := none
  massRows := none
  source := none
  bodyVar := none
  neumann := none
  cauchy := none

theorem unitTet_jacobian (q : Fin 1) : unitTet.jacobian ![0, 1, 2, 3] q = 1 := by
  ext i j
  fin_cases i <;> fin_cases j <;> simp [Fem.jacobian, Fem.coos, unitTet, Fin.sum_univ_four]

/-- The diagonal entry of node 1, component 0 is `(λ + 2μ)/6`; the matrix has 144 entries. -/
example : numbaVal unitTet ![0, 1, 2, 3] 1 0 1 0 = 49000 / 0.52 / 6 ∧ (numbaAssemble unitTet).length = 144 := by
  constructor
  · have hg : unitTet.shapeGrad ![0, 1, 2, 3] 0 1 = Pi.single 0 1 := by
      funext d
      unfold Fem.shapeGrad
      rw [unitTet_jacobian]
      fin_cases d <;> simp [unitTet, Fin.sum_univ_three]
    have hw : unitTet.JxW ![0, 1, 2, 3] 0 = 1 / 6 := by
      unfold Fem.JxW
      rw [unitTet_jacobian]
      simp [unitTet]
    rw [numbaVal_eq]
    simp only [Fem.vGradsJxW, univ_unique, sum_singleton, Fin.default_eq_zero, Fin.isValue, hg, hw]
    simp [ elasticStress, hooke, strain, constructPhiGrad, Fin.sum_univ_three, Matrix.one_apply, Matrix.trace, lame, shearMod]
    norm_num
  · rw [numbaAssemble_eq]
    simp [unitTet, List.length_flatMap, locals_length]

/-- The hypotheses of both theorems hold for it. -/
example (sol : ℕ → Fin 3 → ℝ) : ∃ R I J V, (elasticFem unitTet).newtonUpdate sol = .ok (R, I, J, V) ∧ numbaResidual unitTet sol = .ok R := by
  obtain ⟨R, hR⟩ := (C13_returns (elasticFem unitTet) sol).mpr ⟨by simp [elasticFem, unitTet], by simp [elasticFem, unitTet], by simp [elasticFem, unitTet],
    by simp [elasticFem, unitTet], by simp [elasticFem, unitTet]⟩
  obtain ⟨I, J, V, hN⟩ := (C14_same_residual _ sol R).mp hR
  exact ⟨R, I, J, V, hN, by rw [C93_residual unitTet rfl rfl (by simp [unitTet])]; exact hR⟩

end Verif.Fem
