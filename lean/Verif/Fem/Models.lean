import Verif.Fem.PropsAssembly
import Mathlib.Analysis.SpecialFunctions.Pow.Real
import Mathlib.LinearAlgebra.Matrix.Trace

/-!
# Constitutive models (model of `jax_am/fem/models.py`)

Gradients of a vector field with `vec = dim` are `dim × dim` matrices; Python floats are reals.
-/
namespace Verif.Fem
open Finset Matrix

variable {nn nq nf nfq dim vec : ℕ}

/-! ## LinearPoisson -/

/-- `LinearPoisson.get_tensor_map` (models.py 9-10). -/
def poissonMap (g : Fin vec → Fin dim → ℝ) : Fin vec → Fin dim → ℝ := g

/-- `compute_l2_norm_error` (models.py 12-20); rows of the arrays `u`, `physical_quad_points` and `JxW` are taken together cell by cell. -/
noncomputable def Fem.l2Error (F : Fem nn nq nf nfq dim vec) (sol : ℕ → Fin vec → ℝ) (f : (Fin dim → ℝ) → Fin vec → ℝ) : ℝ :=
  let u := F.convertFromDofToQuad sol
  let trueU := F.quadPoints.map fun X q => f (X q)
  Real.sqrt ((u.zip (trueU.zip (F.cells.map F.JxW))).map fun p => ∑ q, ∑ i, (p.1 q i - p.2.1 q i) ^ 2 * p.2.2 q).sum

/-- `jax.jacrev(true_u_fn)` (models.py 31). -/
noncomputable def jacRev (f : (Fin dim → ℝ) → Fin vec → ℝ) (x : Fin dim → ℝ) (i : Fin vec) (d : Fin dim) : ℝ :=
  deriv (fun t : ℝ => f (x + t • Pi.single d 1) i) 0

/-- `compute_h1_norm_error` (models.py 22-37). -/
noncomputable def Fem.h1Error (F : Fem nn nq nf nfq dim vec) (sol : ℕ → Fin vec → ℝ) (f : (Fin dim → ℝ) → Fin vec → ℝ) : ℝ :=
  let uGrads := F.solToGrad sol
  let trueGrads := F.quadPoints.map fun X q => jacRev f (X q)
  F.l2Error sol f +
    Real.sqrt ((uGrads.zip (trueGrads.zip (F.cells.map F.JxW))).map fun p => ∑ q, ∑ i, ∑ d, (p.1 q i d - p.2.1 q i d) ^ 2 * p.2.2 q).sum

/-! ## Mechanics -/

/-- `Mechanics.surface_integral` (models.py 41-68): `surfaceFn` maps the array of gradients on the selected faces to the array of values. -/
noncomputable def Fem.surfaceIntegral (F : Fem nn nq nf nfq dim vec) (loc : Loc dim)
    (surfaceFn : List (Fin nfq → Fin vec → Fin dim → ℝ) → Except FemErr (List (Fin nfq → Fin vec → ℝ))) (sol : ℕ → Fin vec → ℝ) : Except FemErr (Fin vec → ℝ) := do
  let inds := F.boundaryInds loc
  let sel := F.selectFaces inds
  let g ← F.getFaceShapeGrads sel
  let uGrads := (sel.zip g.1).map fun p => fun (q : Fin nfq) (i : Fin vec) (d : Fin dim) => ∑ n, sol (p.1.1 n) i * p.2 q n d
  let traction ← surfaceFn uGrads
  pure fun i => ((traction.zip g.2).map fun p => ∑ q, p.1 q i * p.2 q).sum

/-- `compute_surface_area` (models.py 94-101): `ones_like(u_grads)[:, :, :, 0]` needs a gradient component 0. -/
noncomputable def Fem.surfaceArea (F : Fem nn nq nf nfq dim vec) (loc : Loc dim) (sol : ℕ → Fin vec → ℝ) : Except FemErr (Fin vec → ℝ) :=
  F.surfaceIntegral loc (fun gs => if dim = 0 then .error .index else .ok (gs.map fun _ _ _ => 1)) sol

/-- `compute_traction` (models.py 70-92): the normal is `(0, 0, 1)` reshaped to `(dim, 1)`, an error unless `dim = 3`. -/
noncomputable def Fem.computeTraction (F : Fem nn nq nf nfq dim vec) (stress : (Fin vec → Fin dim → ℝ) → Fin vec → Fin dim → ℝ) (loc : Loc dim)
    (sol : ℕ → Fin vec → ℝ) : Except FemErr (Fin vec → ℝ) :=
  F.surfaceIntegral loc (fun gs => if dim = 3 then .ok (gs.map fun g q i => ∑ d, stress (g q) i d * (if (d : ℕ) = 2 then 1 else 0)) else .error .shape) sol

/-! ## LinearElasticity -/

/-- `mu` (models.py 107-109, 162-164). -/
noncomputable def shearMod : ℝ := 70e3 / (2 * (1 + 0.3))

/-- `lmbda` (models.py 110, 165). -/
noncomputable def lame : ℝ := 70e3 * 0.3 / ((1 + 0.3) * (1 - 2 * 0.3))

/-- `strain` / `epsilon` (models.py 111, 157-159). -/
noncomputable def strain (g : Matrix (Fin dim) (Fin dim) ℝ) : Matrix (Fin dim) (Fin dim) ℝ := (0.5 : ℝ) • (g + gᵀ)

/-- `stress(epsilon)` (models.py 161-167); in `LinearElasticity` line 112. -/
noncomputable def hooke (eps : Matrix (Fin dim) (Fin dim) ℝ) : Matrix (Fin dim) (Fin dim) ℝ := (lame * eps.trace) • 1 + (2 * shearMod) • eps

/-- `LinearElasticity.get_tensor_map` (models.py 105-114). -/
noncomputable def elasticStress (g : Matrix (Fin dim) (Fin dim) ℝ) : Matrix (Fin dim) (Fin dim) ℝ := hooke (strain g)

/-- A `LinearElasticity` object: the `FEM` object with its tensor map. -/
noncomputable def elasticFem (F : Fem nn nq nf nfq dim dim) : Fem nn nq nf nfq dim dim :=
  { F with tensorMap := some fun _ _ g => elasticStress (Matrix.of g), massMap := none, lapRows := none, massRows := none }

/-! ## HyperElasticity -/

/-- `mu` (models.py 120-122). -/
noncomputable def hyperMu : ℝ := 1e3 / (2 * (1 + 0.3))

/-- `kappa` (models.py 123). -/
noncomputable def hyperKappa : ℝ := 1e3 / (3 * (1 - 2 * 0.3))

/-- `psi` (models.py 119-128). For `J < 0` the code's `J**(-2./3.)` is NaN; the theorems assume `J > 0`. -/
noncomputable def psi (F : Matrix (Fin dim) (Fin dim) ℝ) : ℝ :=
  let J := F.det
  let Jinv := J ^ (-2 / 3 : ℝ)
  let I1 := (Fᵀ * F).trace
  hyperMu / 2 * (Jinv * I1 - 3) + hyperKappa / 2 * (J - 1) ^ 2

/-- `P_fn = jax.grad(psi)` (models.py 129): the partial derivatives. -/
noncomputable def pkOf (F : Matrix (Fin dim) (Fin dim) ℝ) : Matrix (Fin dim) (Fin dim) ℝ :=
  Matrix.of fun i j => deriv (fun t : ℝ => psi (F + t • Matrix.single i j 1)) 0

/-- `first_PK_stress` (models.py 131-135). -/
noncomputable def firstPK (g : Matrix (Fin dim) (Fin dim) ℝ) : Matrix (Fin dim) (Fin dim) ℝ := pkOf (g + 1)

/-! ## Plasticity -/

/-- `safe_sqrt` (models.py 150-152). -/
noncomputable def safeSqrt (x : ℝ) : ℝ := if x > 0 then Real.sqrt x else 0

/-- `safe_divide` (models.py 154-155). -/
noncomputable def safeDivide (x y : ℝ) : ℝ := if y = 0 then 0 else x / y

/-- `stress_return_map` (models.py 169-179). -/
noncomputable def returnMap (g sigOld epsOld : Matrix (Fin dim) (Fin dim) ℝ) : Matrix (Fin dim) (Fin dim) ℝ :=
  let sig0 : ℝ := 250
  let epsInc := strain g - epsOld
  let trial := hooke epsInc + sigOld
  let sDev := trial - (1 / (dim : ℝ) * trial.trace) • (1 : Matrix (Fin dim) (Fin dim) ℝ)
  let sNorm := safeSqrt (3 / 2 * ∑ i, ∑ j, sDev i j * sDev i j)
  let fYield := sNorm - sig0
  let fPlus := if fYield > 0 then fYield else 0
  Matrix.of fun i j => trial i j - safeDivide (fPlus * sDev i j) sNorm

/-- The attributes `sigmas_old`, `epsilons_old`: one entry per cell. -/
structure PlastState (nq dim : ℕ) where
  sig : List (Fin nq → Matrix (Fin dim) (Fin dim) ℝ)
  eps : List (Fin nq → Matrix (Fin dim) (Fin dim) ℝ)

/-- `custom_init` (models.py 140-143). -/
def plastInit (F : Fem nn nq nf nfq dim dim) : PlastState nq dim := ⟨F.cells.map fun _ _ => 0, F.cells.map fun _ _ => 0⟩

/-- `update_stress_strain` (models.py 189-196): `vmap` raises if the numbers of rows differ. -/
noncomputable def updateStressStrain (F : Fem nn nq nf nfq dim dim) (st : PlastState nq dim) (sol : ℕ → Fin dim → ℝ) : Except FemErr (PlastState nq dim) :=
  let uGrads := F.solToGrad sol
  if uGrads.length = st.sig.length ∧ st.sig.length = st.eps.length then
    .ok ⟨(uGrads.zip (st.sig.zip st.eps)).map fun p q => returnMap (Matrix.of (p.1 q)) (p.2.1 q) (p.2.2 q), uGrads.map fun g q => strain (Matrix.of (g q))⟩
  else .error .shape

/-- A load history: the state after calling `update_stress_strain` for each solution in turn. -/
noncomputable def plastRun (F : Fem nn nq nf nfq dim dim) : List (ℕ → Fin dim → ℝ) → Except FemErr (PlastState nq dim)
  | sols => sols.foldlM (updateStressStrain F) (plastInit F)

/-- A `Plasticity` object: the tensor map receives the stored stress and strain of its cell and quadrature point through `internal_vars['laplace']` (models.py 143, 145-147, 196). -/
noncomputable def plastFem (F : Fem nn nq nf nfq dim dim) (st : PlastState nq dim) : Fem nn nq nf nfq dim dim :=
  { F with
    tensorMap := some fun k q g => returnMap (Matrix.of g) ((st.sig.getD k 0) q) ((st.eps.getD k 0) q)
    massMap := none
    lapRows := some st.sig.length
    massRows := none }

/-- `compute_avg_stress` (models.py 198-205). -/
noncomputable def avgStress (F : Fem nn nq nf nfq dim dim) (st : PlastState nq dim) : Matrix (Fin dim) (Fin dim) ℝ :=
  let sigma := ((st.sig.zip (F.cells.map F.JxW)).map fun p => ∑ q, p.2 q • p.1 q).sum
  let vol := (F.cells.map fun c => ∑ q, F.JxW c q).sum
  vol⁻¹ • sigma

end Verif.Fem
