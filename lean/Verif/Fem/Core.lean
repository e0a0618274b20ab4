import Verif.Fem.Basis
import Mathlib.LinearAlgebra.Matrix.NonsingularInverse
import Mathlib.Analysis.SpecialFunctions.Pow.Real
import Mathlib.Analysis.Calculus.FDeriv.Basic
import Mathlib.Analysis.Normed.Module.FiniteDimension

/-!
# The finite element core (model of `jax_am/fem/core.py`)

Sizes: `nn` nodes per cell, `nq` quadrature points per cell, `nf` faces per cell, `nfq` quadrature points per face, `dim` space dimensions,
`vec` solution components.  An array whose first axis runs over cells (or faces) is a list of rows.
-/
namespace Verif.Fem
open Finset

/-- Exceptions raised by the modelled code. -/
inductive FemErr
  | singular       -- numpy.linalg.LinAlgError
  | index          -- IndexError
  | shape          -- ValueError (shapes, ragged arrays, vstack of nothing)
  | zeroDivision   -- ZeroDivisionError
  | assertion      -- AssertionError
  | unpack         -- ValueError/TypeError when a tuple has the wrong length
  deriving DecidableEq

/-- A user location function on points. -/
abbrev Loc (dim : ℕ) := (Fin dim → ℝ) → Bool

/-- The `FEM` object (core.py 26-139): mesh, tabulated element data, problem data.
`tensorMap k q` is the user's tensor map with the row `internal_vars['laplace'][..][k][q]` inserted, likewise `massMap`;
`lapRows`/`massRows` are the numbers of rows of those internal variables if given.
`neumann`'s value functions take the number of the selected face and of the quadrature point first (rows of `internal_vars['neumann'][i]`). -/
structure Fem (nn nq nf nfq dim vec : ℕ) where
  numTotal : ℕ
  points : ℕ → Fin dim → ℝ
  cells : List (Fin nn → ℕ)
  shapeVals : Fin nq → Fin nn → ℝ
  shapeGradsRef : Fin nq → Fin nn → Fin dim → ℝ
  quadWeights : Fin nq → ℝ
  faceShapeVals : Fin nf → Fin nfq → Fin nn → ℝ
  faceShapeGradsRef : Fin nf → Fin nfq → Fin nn → Fin dim → ℝ
  faceWeights : Fin nf → Fin nfq → ℝ
  faceNormals : Fin nf → Fin dim → ℝ
  faceInds : Fin nf → List (Fin nn)
  tensorMap : Option (ℕ → Fin nq → (Fin vec → Fin dim → ℝ) → Fin vec → Fin dim → ℝ)
  massMap : Option (ℕ → Fin nq → (Fin vec → ℝ) → Fin vec → ℝ)
  lapRows : Option ℕ
  massRows : Option ℕ
  source : Option ((Fin dim → ℝ) → Fin vec → ℝ)
  bodyVar : Option ((ℕ → Fin vec → ℝ) × ((Fin vec → ℝ) → Fin vec → ℝ))
  neumann : Option (List (Loc dim) × List (ℕ → Fin nfq → (Fin dim → ℝ) → Fin vec → ℝ))
  cauchy : Option (List (Loc dim) × List ((Fin vec → ℝ) → Fin vec → ℝ))

variable {nn nq nf nfq dim vec : ℕ}

/-! ## Generic array operations -/

/-- `rows.reshape(-1, ...)`: join the cell axis and the local node axis, row-major. -/
def flat2 {m : ℕ} {α : Type*} (rows : List (Fin m → α)) : List α := rows.flatMap List.ofFn

/-- `x.at[idx].add(vals)`: repeated indices accumulate. -/
def scatterAdd {V : Type*} [Add V] (x : ℕ → V) (idx : List ℕ) (vals : List V) : ℕ → V :=
  (idx.zip vals).foldl (fun y p => Function.update y p.1 (y p.1 + p.2)) x

namespace Fem
variable (F : Fem nn nq nf nfq dim vec)

/-- `physical_coos = onp.take(self.points, self.cells, axis=0)`, one cell. -/
def coos (c : Fin nn → ℕ) : Fin nn → Fin dim → ℝ := fun n => F.points (c n)

/-- `jacobian_dx_deta` (core.py 159-162): entry `(i, j)` is `∂x_i/∂η_j`. -/
def jacobian (c : Fin nn → ℕ) (q : Fin nq) : Matrix (Fin dim) (Fin dim) ℝ :=
  Matrix.of fun i j => ∑ n, F.coos c n i * F.shapeGradsRef q n j

/-- `shape_grads_physical` (core.py 168-169): row vector times the inverse Jacobian. -/
noncomputable def shapeGrad (c : Fin nn → ℕ) (q : Fin nq) (n : Fin nn) (d : Fin dim) : ℝ :=
  ∑ b, F.shapeGradsRef q n b * (F.jacobian c q)⁻¹ b d

/-- `JxW` (core.py 163, 170). -/
noncomputable def JxW (c : Fin nn → ℕ) (q : Fin nq) : ℝ := (F.jacobian c q).det * F.quadWeights q

/-- `get_shape_grads` (core.py 141-171): `onp.linalg.inv` raises when some Jacobian is singular. -/
noncomputable def getShapeGrads : Except FemErr (List (Fin nq → Fin nn → Fin dim → ℝ) × List (Fin nq → ℝ)) :=
  open Classical in
  if ∃ c ∈ F.cells, ∃ q, (F.jacobian c q).det = 0 then .error .singular
  else .ok (F.cells.map F.shapeGrad, F.cells.map F.JxW)

/-- `self.v_grads_JxW` (core.py 119-121), the singleton axis dropped. -/
noncomputable def vGradsJxW (c : Fin nn → ℕ) (q : Fin nq) (n : Fin nn) (d : Fin dim) : ℝ := F.shapeGrad c q n d * F.JxW c q

/-- The Jacobian at a face quadrature point (core.py 202-205). -/
def faceJacobian (c : Fin nn → ℕ) (f : Fin nf) (q : Fin nfq) : Matrix (Fin dim) (Fin dim) ℝ :=
  Matrix.of fun i j => ∑ n, F.coos c n i * F.faceShapeGradsRef f q n j

/-- `nanson_scale` (core.py 219-226): the 2-norm of `normal @ J⁻¹`, times `det J`, times the weight. -/
noncomputable def nansonScale (c : Fin nn → ℕ) (f : Fin nf) (q : Fin nfq) : ℝ :=
  Real.sqrt (∑ d, (∑ b, F.faceNormals f b * (F.faceJacobian c f q)⁻¹ b d) ^ 2) * (F.faceJacobian c f q).det * F.faceWeights f q

/-- face shape gradients (core.py 213-215). -/
noncomputable def faceShapeGrad (c : Fin nn → ℕ) (f : Fin nf) (q : Fin nfq) (n : Fin nn) (d : Fin dim) : ℝ :=
  ∑ b, F.faceShapeGradsRef f q n b * (F.faceJacobian c f q)⁻¹ b d

/-- `get_face_shape_grads` (core.py 173-226) on a list of `(cell, face)` pairs; the pair already holds the cell's row. -/
noncomputable def getFaceShapeGrads (sel : List ((Fin nn → ℕ) × Fin nf)) :
    Except FemErr (List (Fin nfq → Fin nn → Fin dim → ℝ) × List (Fin nfq → ℝ)) :=
  open Classical in
  if ∃ p ∈ sel, ∃ q, (F.faceJacobian p.1 p.2 q).det = 0 then .error .singular
  else .ok (sel.map fun p => F.faceShapeGrad p.1 p.2, sel.map fun p => F.nansonScale p.1 p.2)

/-- `get_physical_quad_points` (core.py 228-241). -/
def quadPoints : List (Fin nq → Fin dim → ℝ) :=
  F.cells.map fun c q d => ∑ n, F.shapeVals q n * F.coos c n d

/-- `get_physical_surface_quad_points` (core.py 243-267). -/
def surfaceQuadPoints (sel : List ((Fin nn → ℕ) × Fin nf)) : List (Fin nfq → Fin dim → ℝ) :=
  sel.map fun p q d => ∑ n, F.faceShapeVals p.2 q n * F.coos p.1 n d

/-! ## Boundary selection -/

/-- `boundary_flags` of one location function (core.py 368-382). -/
def onBoundary (loc : Loc dim) (c : Fin nn → ℕ) (f : Fin nf) : Bool :=
  (F.faceInds f).all fun v => loc (F.coos c v)

/-- `onp.argwhere(boundary_flags)` (core.py 383-384): row-major list of (cell index, face index). -/
def boundaryInds (loc : Loc dim) : List (ℕ × Fin nf) :=
  (F.cells.zipIdx).flatMap fun p => (List.finRange nf).filterMap fun f => if F.onBoundary loc p.1 f then some (p.2, f) else none

/-- `Mesh.count_selected_faces` (generate_mesh.py 25-54): its own selection loop over the mesh's points, cells and the face table of the mesh's
element type; the number of rows of `argwhere`. -/
def countSelectedFaces (points : ℕ → Fin dim → ℝ) (cells : List (Fin nn → ℕ)) (faces : Fin nf → List (Fin nn)) (loc : Loc dim) : ℕ :=
  let cellPoints := cells.map fun c n => points (c n)
  let flags := cellPoints.map fun X f => (faces f).all fun v => loc (X v)
  (flags.flatMap fun fl => (List.finRange nf).filter fun f => fl f).length

/-- `get_boundary_conditions_inds` (core.py 352-386). -/
def getBoundaryConditionsInds (locs : List (Loc dim)) : List (List (ℕ × Fin nf)) := locs.map F.boundaryInds

/-- `self.cells[boundary_inds[:, 0]]` paired with the face numbers (`boundary_inds[:, 1]`). -/
def selectFaces (inds : List (ℕ × Fin nf)) : List ((Fin nn → ℕ) × Fin nf) :=
  inds.filterMap fun p => (F.cells[p.1]?).map fun c => (c, p.2)

/-! ## Kernels -/

/-- `laplace_kernel` (core.py 494-508). -/
def laplaceKernel (tm : Fin nq → (Fin vec → Fin dim → ℝ) → Fin vec → Fin dim → ℝ) (cellSol : Fin nn → Fin vec → ℝ)
    (grads vgJxW : Fin nq → Fin nn → Fin dim → ℝ) : Fin nn → Fin vec → ℝ := fun n i =>
  ∑ q, ∑ d, tm q (fun i' d' => ∑ n', cellSol n' i' * grads q n' d') i d * vgJxW q n d

/-- `mass_kernel` (core.py 514-524). -/
def massKernel (shapeVals : Fin nq → Fin nn → ℝ) (mm : Fin nq → (Fin vec → ℝ) → Fin vec → ℝ) (cellSol : Fin nn → Fin vec → ℝ)
    (jxw : Fin nq → ℝ) : Fin nn → Fin vec → ℝ := fun n i =>
  ∑ q, mm q (fun i' => ∑ n', cellSol n' i' * shapeVals q n') i * shapeVals q n * jxw q

/-- `cauchy_kernel` (core.py 529-538). -/
def cauchyKernel (cm : (Fin vec → ℝ) → Fin vec → ℝ) (cellSol : Fin nn → Fin vec → ℝ) (fsv : Fin nfq → Fin nn → ℝ) (scale : Fin nfq → ℝ) :
    Fin nn → Fin vec → ℝ := fun n i =>
  ∑ q, cm (fun i' => ∑ n', cellSol n' i' * fsv q n') i * fsv q n * scale q

/-- One row of `input_collection` (core.py 613-616). -/
structure CellRow (nn nq dim vec : ℕ) where
  sol : Fin nn → Fin vec → ℝ
  grads : Fin nq → Fin nn → Fin dim → ℝ
  jxw : Fin nq → ℝ
  vg : Fin nq → Fin nn → Fin dim → ℝ
  mvar : ℕ
  lvar : ℕ

/-- `kernel` of `get_kernel_fn_cell` (core.py 577-595).  If neither map exists the code's value is the scalar `0.`; here the zero array. -/
def kernel (r : CellRow nn nq dim vec) (sol : Fin nn → Fin vec → ℝ) : Fin nn → Fin vec → ℝ := fun n i =>
  (match F.tensorMap with
    | some tm => laplaceKernel (tm r.lvar) sol r.grads r.vg n i
    | none => 0) +
  (match F.massMap with
    | some mm => massKernel F.shapeVals (mm r.mvar) sol r.jxw n i
    | none => 0)

end Fem

/-- `value_and_jacfwd` (core.py 567-573): the value and the forward-mode Jacobian, whose entry `(n, i, n', i')` is the
derivative of output `(n, i)` in the basis direction `(n', i')`. -/
noncomputable def jacOf {nn vec : ℕ} (f : (Fin nn → Fin vec → ℝ) → Fin nn → Fin vec → ℝ) (x : Fin nn → Fin vec → ℝ) (n : Fin nn) (i : Fin vec) (n' : Fin nn)
    (i' : Fin vec) : ℝ :=
  fderiv ℝ f x (Pi.single n' (Pi.single i' 1)) n i

/-! ## Batching -/

/-- A pytree of arrays with the same kind of leading axis: the leading sizes of its leaves and, for each position, the tuple of rows. -/
structure Tree (γ : Type*) where
  sizes : List ℕ
  row : ℕ → γ

namespace Tree
variable {γ δ : Type*}

/-- `tree_map(lambda x: x[a:b], t)`. -/
def slice (t : Tree γ) (a b : ℕ) : Tree γ := ⟨t.sizes.map fun n => min b n - min a n, fun k => t.row (a + k)⟩

/-- `tree_map(lambda x: x[a:], t)`. -/
def sliceFrom (t : Tree γ) (a : ℕ) : Tree γ := ⟨t.sizes.map fun n => n - a, fun k => t.row (a + k)⟩

/-- `jax.vmap(f)(*t)`: raises unless all leading sizes agree. -/
def vmap (t : Tree γ) (f : γ → δ) : Except FemErr (List δ) :=
  if ∀ n ∈ t.sizes, n = t.sizes.headD 0 then .ok ((List.range (t.sizes.headD 0)).map fun k => f (t.row k)) else .error .shape

end Tree

/-- The batches of `split_and_compute_cell` (core.py 609-612, 621-630, 653-662): `numCells = len(self.cells)`. -/
def splitBatches {γ δ : Type*} (numCells : ℕ) (f : γ → δ) (t : Tree γ) : Except FemErr (List (List δ)) :=
  let numCuts := if 20 > numCells then numCells else 20
  if numCuts = 0 then .error .zeroDivision
  else
    let batchSize := numCells / numCuts
    (List.range numCuts).mapM fun i =>
      if i < numCuts - 1 then (t.slice (i * batchSize) ((i + 1) * batchSize)).vmap f
      else (t.sliceFrom (i * batchSize)).vmap f

/-- `split_and_compute_cell` with `jac_flag = False` (core.py 651-665). -/
def splitCompute {γ δ : Type*} (numCells : ℕ) (f : γ → δ) (t : Tree γ) : Except FemErr (List δ) := do
  let values ← splitBatches numCells f t
  pure values.flatten

/-- `split_and_compute_cell` with `jac_flag = True` (core.py 618-650): values and Jacobians are collected and stacked separately. -/
def splitComputeJac {γ δ ε : Type*} (numCells : ℕ) (f : γ → δ × ε) (t : Tree γ) : Except FemErr (List δ × List ε) := do
  let res ← splitBatches numCells f t
  pure ((res.map fun b => b.map Prod.fst).flatten, (res.map fun b => b.map Prod.snd).flatten)

namespace Fem
variable (F : Fem nn nq nf nfq dim vec)

/-- `input_collection` (core.py 613-616) for a nodal solution. -/
noncomputable def inputTree (sol : ℕ → Fin vec → ℝ) : Tree (CellRow nn nq dim vec) where
  sizes := [F.cells.length, F.cells.length, F.cells.length, F.cells.length, F.massRows.getD F.cells.length, F.lapRows.getD F.cells.length]
  row k :=
    let c := F.cells.getD k (fun _ => 0)
    ⟨fun n => sol (c n), F.shapeGrad c, F.JxW c, F.vGradsJxW c, k, k⟩

/-- `weak_form = split_and_compute_cell(cells_sol, np, False, ..)` (core.py 805-808). -/
noncomputable def cellValues (sol : ℕ → Fin vec → ℝ) : Except FemErr (List (Fin nn → Fin vec → ℝ)) :=
  splitCompute F.cells.length (fun r => F.kernel r r.sol) (F.inputTree sol)

/-- `weak_form, cells_jac = split_and_compute_cell(cells_sol, onp, True, ..)` (core.py 815-817). -/
noncomputable def cellValuesJac (sol : ℕ → Fin vec → ℝ) :
    Except FemErr (List (Fin nn → Fin vec → ℝ) × List (Fin nn → Fin vec → Fin nn → Fin vec → ℝ)) :=
  splitComputeJac F.cells.length (fun r => (F.kernel r r.sol, jacOf (F.kernel r) r.sol)) (F.inputTree sol)

/-- The selected faces of one boundary subset with their scales and shape values: arrays entering the face kernel. -/
structure FaceRow (nn nfq : ℕ) where
  cell : Fin nn → ℕ
  fsv : Fin nfq → Fin nn → ℝ
  scale : Fin nfq → ℝ

/-- Gathering for one boundary subset (core.py 688-694). -/
noncomputable def faceRows (inds : List (ℕ × Fin nf)) : Except FemErr (List (FaceRow nn nfq)) := do
  let sel := F.selectFaces inds
  let g ← F.getFaceShapeGrads sel
  pure ((sel.zip g.2).map fun p => ⟨p.1.1, F.faceShapeVals p.1.2, p.2⟩)

/-- One boundary subset in `compute_face` (core.py 688-701): kernel results and selected cells. -/
noncomputable def facePart {α : Type} (run : ((Fin vec → ℝ) → Fin vec → ℝ) → FaceRow nn nfq → α) (vals : List ((Fin vec → ℝ) → Fin vec → ℝ))
    (p : List (ℕ × Fin nf) × ℕ) : Except FemErr (List α × List (Fin nn → ℕ)) := do
  let rows ← F.faceRows p.1
  match vals[p.2]? with
  | none => .error .index
  | some cm => pure (List.map (run cm) rows, List.map FaceRow.cell rows)

/-- `compute_face` (core.py 667-708); `run` is the vmapped kernel (`jac_flag = False`) or its Jacobian (`True`). -/
noncomputable def computeFace {α : Type} (run : ((Fin vec → ℝ) → Fin vec → ℝ) → FaceRow nn nfq → α) :
    Except FemErr (List α × List (Fin nn → ℕ)) :=
  match F.cauchy with
  | none => .error .unpack
  | some (locs, vals) => do
    let parts ← (F.getBoundaryConditionsInds locs).zipIdx.mapM (F.facePart run vals)
    if parts.isEmpty then .error .shape
    else pure ((parts.map Prod.fst).flatten, (parts.map Prod.snd).flatten)

/-- The face kernel applied to a selected face (core.py 671-675). -/
def faceKernel (cm : (Fin vec → ℝ) → Fin vec → ℝ) (r : FaceRow nn nfq) (cellSol : Fin nn → Fin vec → ℝ) : Fin nn → Fin vec → ℝ :=
  cauchyKernel cm cellSol r.fsv r.scale

/-! ## Loads -/

/-- `compute_body_force_by_fn` (core.py 439-466). -/
noncomputable def bodyForceFn : ℕ → Fin vec → ℝ :=
  match F.source with
  | none => 0
  | some f =>
    let vals := (F.cells.zip F.quadPoints).map fun p => fun (n : Fin nn) (i : Fin vec) => ∑ q, F.shapeVals q n * f (p.2 q) i * F.JxW p.1 q
    scatterAdd 0 (flat2 F.cells) (flat2 vals)

/-- `compute_body_force_by_sol` (core.py 468-490). -/
noncomputable def bodyForceSol (sol : ℕ → Fin vec → ℝ) (mm : (Fin vec → ℝ) → Fin vec → ℝ) : ℕ → Fin vec → ℝ :=
  let vals := F.cells.map fun c => massKernel F.shapeVals (fun _ => mm) (fun n => sol (c n)) (F.JxW c)
  scatterAdd 0 (flat2 F.cells) (flat2 vals)

/-- One boundary subset of `compute_Neumann_integral_vars` (core.py 399-427). -/
noncomputable def neumannPart (inds : List (ℕ × Fin nf)) (g : ℕ → Fin nfq → (Fin dim → ℝ) → Fin vec → ℝ) (integral : ℕ → Fin vec → ℝ) :
    Except FemErr (ℕ → Fin vec → ℝ) := do
  let sel := F.selectFaces inds
  let traction := (F.surfaceQuadPoints sel).zipIdx.map fun p => fun q => g p.2 q (p.1 q)
  let gr ← F.getFaceShapeGrads sel
  let vals := (sel.zip (traction.zip gr.2)).map fun p => fun (n : Fin nn) (i : Fin vec) =>
    ∑ q, F.faceShapeVals p.1.2 q n * p.2.1 q i * p.2.2 q
  pure (scatterAdd integral (flat2 (sel.map Prod.fst)) (flat2 vals))

/-- `compute_Neumann_integral_vars` (core.py 388-428) with the boundary indices of `compute_Neumann_boundary_inds` (430-437). -/
noncomputable def neumannIntegral : Except FemErr (ℕ → Fin vec → ℝ) :=
  match F.neumann with
  | none => .ok 0
  | some (locs, vals) =>
    (F.getBoundaryConditionsInds locs).zipIdx.foldlM (fun integral p =>
      match vals[p.2]? with
      | none => .error .index
      | some g => F.neumannPart p.1 g integral) 0

/-- `compute_residual_vars_helper` (core.py 779-801). -/
noncomputable def residualHelper (sol : ℕ → Fin vec → ℝ) (weakForm : List (Fin nn → Fin vec → ℝ)) : Except FemErr (ℕ → Fin vec → ℝ) := do
  let res := scatterAdd 0 (flat2 F.cells) (flat2 weakForm)
  let res ← match F.cauchy with
    | none => pure res
    | some _ => do
      let vc ← F.computeFace fun cm r => faceKernel cm r (fun n => sol (r.cell n))
      pure (scatterAdd res (flat2 vc.2) (flat2 vc.1))
  let body := match F.bodyVar with
    | none => F.bodyForceFn
    | some (s, mm) => F.bodyForceSol s mm
  let neu ← F.neumannIntegral
  pure (res - body - neu)

/-- `compute_residual` (core.py `compute_residual_vars` 803-810, 850-851). -/
noncomputable def computeResidual (sol : ℕ → Fin vec → ℝ) : Except FemErr (ℕ → Fin vec → ℝ) := do
  let weakForm ← F.cellValues sol
  F.residualHelper sol weakForm

/-! ## The sparse matrix -/

/-- `inds` (core.py 819-821, 833-835), one row: `vec * cells[c, n] + i`, row-major in `(n, i)`. -/
def dofRow (c : Fin nn → ℕ) : List ℕ := (List.finRange nn).flatMap fun n => (List.finRange vec).map fun i : Fin vec => vec * c n + (i : ℕ)

/-- `onp.repeat(inds[:, :, None], num_nodes*vec, axis=2).reshape(-1)`. -/
def cooI (vec : ℕ) (cells : List (Fin nn → ℕ)) : List ℕ :=
  cells.flatMap fun c => (dofRow (vec := vec) c).flatMap fun a => List.replicate (nn * vec) a

/-- `onp.repeat(inds[:, None, :], num_nodes*vec, axis=1).reshape(-1)`. -/
def cooJ (vec : ℕ) (cells : List (Fin nn → ℕ)) : List ℕ :=
  cells.flatMap fun c => (List.replicate (nn * vec) (dofRow (vec := vec) c)).flatten

/-- `cells_jac.reshape(-1)`. -/
def cooV (jacs : List (Fin nn → Fin vec → Fin nn → Fin vec → ℝ)) : List ℝ :=
  jacs.flatMap fun D => (List.finRange nn).flatMap fun n => (List.finRange vec).flatMap fun i =>
    (List.finRange nn).flatMap fun n' => (List.finRange vec).map fun i' => D n i n' i'

/-- `compute_newton_vars` / `newton_update` (core.py 812-848, 853-854): residual and the triplets `I`, `J`, `V`. -/
noncomputable def newtonUpdate (sol : ℕ → Fin vec → ℝ) : Except FemErr ((ℕ → Fin vec → ℝ) × List ℕ × List ℕ × List ℝ) := do
  let wj ← F.cellValuesJac sol
  let ijv := (cooI vec F.cells, cooJ vec F.cells, cooV wj.2)
  let ijv ← match F.cauchy with
    | none => pure ijv
    | some _ => do
      let dc ← F.computeFace fun cm r => jacOf (faceKernel cm r) (fun n => sol (r.cell n))
      pure (ijv.1 ++ cooI vec dc.2, ijv.2.1 ++ cooJ vec dc.2, ijv.2.2 ++ cooV dc.1)
  let res ← F.residualHelper sol wj.1
  pure (res, ijv)

/-! ## Post-processing -/

/-- `convert_from_dof_to_quad` (core.py 710-729). -/
def convertFromDofToQuad (sol : ℕ → Fin vec → ℝ) : List (Fin nq → Fin vec → ℝ) :=
  F.cells.map fun c q i => ∑ n, sol (c n) i * F.shapeVals q n

/-- `convert_neumann_from_dof` (core.py 731-756) for the boundary indices of the given Neumann subset. -/
def convertNeumannFromDof (sol : ℕ → Fin vec → ℝ) (inds : List (ℕ × Fin nf)) : List (Fin nfq → Fin vec → ℝ) :=
  (F.selectFaces inds).map fun p q i => ∑ n, sol (p.1 n) i * F.faceShapeVals p.2 q n

/-- `sol_to_grad` (core.py 758-777). -/
noncomputable def solToGrad (sol : ℕ → Fin vec → ℝ) : List (Fin nq → Fin vec → Fin dim → ℝ) :=
  F.cells.map fun c q i d => ∑ n, sol (c n) i * F.shapeGrad c q n d

end Fem
end Verif.Fem
