import Verif.Fem.Core

/-!
# Tabulated element data (model of `jax_am/fem/basis.py` 105-185 and `FEM.__post_init__`, core.py 90-124)

The quadrature rules come from `basix.make_quadrature`; here a rule is an arbitrary list of points and weights, and the rules basix returns for the linear
elements are written down at the end.  `basix.cell.facet_jacobians` and `basix.cell.facet_outward_normals` are reproduced as data.
-/
namespace Verif.Fem
open Finset

/-- `points, weights` of a quadrature rule with `m` points. -/
structure QuadRule (m : ℕ) where
  pt : Fin m → ℕ → ℝ
  w : Fin m → ℝ

/-- coordinate `a` of vertex `v` of the reference cell, `basix.geometry(cell)[v][a]`. -/
noncomputable def vertexCoord (cell : CellType) (v a : ℕ) : ℝ := (((basixVertices cell).getD v []).getD a 0 : ℝ) / 2

/-- `mapped_point` (basis.py 158-163): the face point with face coordinates `s`, interpolated between the vertices of facet `f` by the linear basis
of the face cell. -/
noncomputable def facePoint (e : Elem) (f : ℕ) (s : ℕ → ℝ) (a : ℕ) : ℝ :=
  (((basixFacets e.cell).getD f []).zipIdx.map fun v => vertexCoord e.cell v.1 a * basisFn e.faceCell 1 ((basixVertices e.faceCell).getD v.2 []) s).sum

/-- `basix.cell.facet_jacobians(cell)[f]`, column `k`: the edge from the first to the `k+1`-st vertex of the facet. -/
noncomputable def facetJacobian (cell : CellType) (f k a : ℕ) : ℝ :=
  let vs := (basixFacets cell).getD f []
  vertexCoord cell (vs.getD (k + 1) 0) a - vertexCoord cell (vs.getD 0 0) a

/-- `onp.cross` of two vectors of length three. -/
def cross (u v : ℕ → ℝ) (a : ℕ) : ℝ :=
  if a = 0 then u 1 * v 2 - u 2 * v 1 else if a = 1 then u 2 * v 0 - u 0 * v 2 else u 0 * v 1 - u 1 * v 0

/-- dimension of the reference cell, `len(vertices[0])`. -/
def cellDim (cell : CellType) : ℕ := ((basixVertices cell).headD []).length

/-- `size_jacobian` (basis.py 166-170). -/
noncomputable def sizeJacobian (cell : CellType) (f : ℕ) : ℝ :=
  if cellDim cell = 2 then Real.sqrt (∑ a ∈ range 2, facetJacobian cell f 0 a ^ 2)
  else Real.sqrt (∑ a ∈ range 3, cross (facetJacobian cell f 0) (facetJacobian cell f 1) a ^ 2)

/-- `basix.cell.facet_outward_normals(cell)`. -/
noncomputable def facetNormals : CellType → List (List ℝ)
  | .interval => [[-1], [1]]
  | .triangle => [[1 / Real.sqrt 2, 1 / Real.sqrt 2], [-1, 0], [0, -1]]
  | .quadrilateral => [[0, -1], [-1, 0], [1, 0], [0, 1]]
  | .tetrahedron => [[1 / Real.sqrt 3, 1 / Real.sqrt 3, 1 / Real.sqrt 3], [-1, 0, 0], [0, -1, 0], [0, 0, -1]]
  | .hexahedron => [[0, 0, -1], [0, -1, 0], [-1, 0, 0], [1, 0, 0], [0, 1, 0], [0, 0, 1]]

variable {nn nq nf nfq dim vec : ℕ}

/-- The object holds the tables of `get_shape_vals_and_grads(ele_type)` (basis.py 104-123). -/
structure CellTables (F : Fem nn nq nf nfq dim vec) (e : Elem) (rule : QuadRule nq) : Prop where
  vals : ∀ q n, F.shapeVals q n = shapeVal e n (rule.pt q)
  grads : ∀ q n b, F.shapeGradsRef q n b = shapeGradRef e n (rule.pt q) b
  weights : ∀ q, F.quadWeights q = rule.w q

/-- The object holds the tables of `get_face_shape_vals_and_grads(ele_type)` (basis.py 129-185). -/
structure FaceTables (F : Fem nn nq nf nfq dim vec) (e : Elem) (rule : QuadRule nfq) : Prop where
  vals : ∀ f q n, F.faceShapeVals f q n = shapeVal e n (facePoint e f (rule.pt q))
  grads : ∀ f q n b, F.faceShapeGradsRef f q n b = shapeGradRef e n (facePoint e f (rule.pt q)) b
  weights : ∀ f q, F.faceWeights f q = rule.w q * sizeJacobian e.cell f
  normals : ∀ f b, F.faceNormals f b = ((facetNormals e.cell).getD f []).getD b 0
  inds : ∀ f, (F.faceInds f).map Fin.val = ((faceInds e).getD []).getD f []

/-- `FEM.__post_init__` (core.py 94-134): the object for a mesh and an element type, without problem data. -/
noncomputable def Fem.ofElement (nn nf dim vec : ℕ) (e : Elem) (rule : QuadRule nq) (frule : QuadRule nfq) (numTotal : ℕ) (points : ℕ → Fin dim → ℝ)
    (cells : List (Fin nn → ℕ)) : Fem nn nq nf nfq dim vec where
  numTotal := numTotal
  points := points
  cells := cells
  shapeVals := fun q n => shapeVal e n (rule.pt q)
  shapeGradsRef := fun q n b => shapeGradRef e n (rule.pt q) b
  quadWeights := rule.w
  faceShapeVals := fun f q n => shapeVal e n (facePoint e f (frule.pt q))
  faceShapeGradsRef := fun f q n b => shapeGradRef e n (facePoint e f (frule.pt q)) b
  faceWeights := fun f q => frule.w q * sizeJacobian e.cell f
  faceNormals := fun f b => ((facetNormals e.cell).getD f []).getD b 0
  faceInds := fun f => (((Verif.Fem.faceInds e).getD []).getD f []).filterMap fun k => if h : k < nn then some ⟨k, h⟩ else none
  tensorMap := none
  massMap := none
  lapRows := none
  massRows := none
  source := none
  bodyVar := none
  neumann := none
  cauchy := none

/-! ## The rules basix returns for the linear elements -/

/-- The two Gauss points of `[0, 1]`. -/
noncomputable def gaussPoint (upper : Bool) : ℝ := if upper then (1 + 1 / Real.sqrt 3) / 2 else (1 - 1 / Real.sqrt 3) / 2

/-- Two points per direction in `d` directions (`basix.make_quadrature(cell, 2)` for interval, quadrilateral, hexahedron: the last direction runs fastest). -/
noncomputable def gaussRule (d : ℕ) : QuadRule (2 ^ d) where
  pt := fun q a => gaussPoint ((q : ℕ).testBit (d - 1 - a))
  w := fun _ => 1 / 2 ^ d

/-- One point in the centre of the interval, triangle or tetrahedron (`basix.make_quadrature(cell, 0)`). -/
noncomputable def centreRule (d : ℕ) : QuadRule 1 where
  pt := fun _ _ => 1 / (d + 1)
  w := fun _ => 1 / (d.factorial : ℝ)

end Verif.Fem
