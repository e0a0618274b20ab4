import Verif.Base.Tactics
import Mathlib.Algebra.BigOperators.Group.List.Basic
import Mathlib.Analysis.Calculus.Deriv.Basic

/-!
# Reference elements (model of `jax_am/fem/basis.py`)

`basix` itself is a dependency which is not part of the repository.  What the code takes from it is
reproduced here as data: the numbering of vertices, edges, faces (`basix.cell.topology`), the node
positions and the Lagrange polynomials of degree 1 and 2.  Reference coordinates are doubled so
that they are natural numbers: `0`, `1`, `2` stand for `0`, `1/2`, `1`.
The serendipity family (HEX20, QUAD8) is modelled for its numbering only.
-/
namespace Verif.Fem

/-- `basix.ElementFamily` values used by the code (basis.py 32-89). -/
inductive Family | P | serendipity
  deriving DecidableEq

/-- `basix.CellType` values used by the code. -/
inductive CellType | interval | triangle | quadrilateral | tetrahedron | hexahedron
  deriving DecidableEq

/-- The tuple returned by `get_elements`. -/
structure Elem where
  family : Family
  cell : CellType
  faceCell : CellType
  gaussOrder : ℕ
  degree : ℕ
  reOrder : List ℕ
  deriving DecidableEq

/-- `get_elements` (basis.py 19-93): the `if`/`elif` chain; `none` is `NotImplementedError`. -/
def getElements (eleType : String) : Option Elem :=
  if eleType = "HEX8" then
    some ⟨.P, .hexahedron, .quadrilateral, 2, 1, [0, 1, 3, 2, 4, 5, 7, 6]⟩
  else if eleType = "HEX27" then
    some ⟨.P, .hexahedron, .quadrilateral, 10, 2,
      [0, 1, 3, 2, 4, 5, 7, 6, 8, 11, 13, 9, 16, 18, 19, 17, 10, 12, 15, 14, 22, 23, 21, 24, 20, 25, 26]⟩
  else if eleType = "HEX20" then
    some ⟨.serendipity, .hexahedron, .quadrilateral, 2, 2,
      [0, 1, 3, 2, 4, 5, 7, 6, 8, 11, 13, 9, 16, 18, 19, 17, 10, 12, 15, 14]⟩
  else if eleType = "TET4" then
    some ⟨.P, .tetrahedron, .triangle, 0, 1, [0, 1, 2, 3]⟩
  else if eleType = "TET10" then
    some ⟨.P, .tetrahedron, .triangle, 2, 2, [0, 1, 2, 3, 9, 6, 8, 7, 5, 4]⟩
  else if eleType = "QUAD4" then
    some ⟨.P, .quadrilateral, .interval, 2, 1, [0, 1, 3, 2]⟩
  else if eleType = "QUAD8" then
    some ⟨.serendipity, .quadrilateral, .interval, 2, 2, [0, 1, 3, 2, 4, 6, 7, 5]⟩
  else if eleType = "TRI3" then
    some ⟨.P, .triangle, .interval, 0, 1, [0, 1, 2]⟩
  else if eleType = "TRI6" then
    some ⟨.P, .triangle, .interval, 2, 2, [0, 1, 2, 5, 3, 4]⟩
  else none

/-- `onp.argwhere(re_order == ind)` (basis.py 100): the positions of `ind`, in increasing order. -/
def argwhereEq (l : List ℕ) (ind : ℕ) : List ℕ := (List.range l.length).filter fun k => l[k]? = some ind

/-- `onp.array(rows).reshape(-1)` for a Python list of 1-d arrays: a ragged list is an error
(numpy ≥ 1.24), otherwise the rows are concatenated. -/
def npArrayFlat {α : Type*} (rows : List (List α)) : Option (List α) :=
  if ∀ r ∈ rows, r.length = (rows.headD []).length then some rows.flatten else none

/-- `reorder_inds` (basis.py 96-101).  The index array is given flattened; the final
`reshape(inds.shape)` succeeds iff the number of entries is the original one. -/
def reorderInds (inds reOrder : List ℕ) : Option (List ℕ) :=
  (npArrayFlat (inds.map (argwhereEq reOrder))).bind fun flat =>
    if flat.length = inds.length then some flat else none

/-! ## Data taken from `basix` -/

/-- `basix.geometry(cell)`, doubled. -/
def basixVertices : CellType → List (List ℕ)
  | .interval => [[0], [2]]
  | .triangle => [[0, 0], [2, 0], [0, 2]]
  | .quadrilateral => [[0, 0], [2, 0], [0, 2], [2, 2]]
  | .tetrahedron => [[0, 0, 0], [2, 0, 0], [0, 2, 0], [0, 0, 2]]
  | .hexahedron => [[0, 0, 0], [2, 0, 0], [0, 2, 0], [2, 2, 0], [0, 0, 2], [2, 0, 2], [0, 2, 2], [2, 2, 2]]

/-- `basix.topology(cell)[1]`. -/
def basixEdges : CellType → List (ℕ × ℕ)
  | .interval => [(0, 1)]
  | .triangle => [(1, 2), (0, 2), (0, 1)]
  | .quadrilateral => [(0, 1), (0, 2), (1, 3), (2, 3)]
  | .tetrahedron => [(2, 3), (1, 3), (1, 2), (0, 3), (0, 2), (0, 1)]
  | .hexahedron => [(0, 1), (0, 2), (0, 4), (1, 3), (1, 5), (2, 3), (2, 6), (3, 7), (4, 5), (4, 6), (5, 7), (6, 7)]

/-- `basix.cell.sub_entity_connectivity(cell)[dim - 1]`, vertex lists of the facets. -/
def basixFacets : CellType → List (List ℕ)
  | .interval => [[0], [1]]
  | .triangle => [[1, 2], [0, 2], [0, 1]]
  | .quadrilateral => [[0, 1], [0, 2], [1, 3], [2, 3]]
  | .tetrahedron => [[1, 2, 3], [0, 2, 3], [0, 1, 3], [0, 1, 2]]
  | .hexahedron => [[0, 1, 2, 3], [0, 1, 4, 5], [0, 2, 4, 6], [1, 3, 5, 7], [2, 3, 6, 7], [4, 5, 6, 7]]

/-- mean of vertices (doubled coordinates) given by their numbers. -/
def meanOf (verts : List (List ℕ)) (is : List ℕ) : List ℕ :=
  (List.range (verts.headD []).length).map fun k => (is.map fun i => (verts.getD i []).getD k 0).sum / is.length

/-- Positions of the nodes of the basix element: vertices, then edge midpoints, and for tensor-product Lagrange
cells of degree 2 the face midpoints (3-d) and the centre. -/
def basixNodes (e : Elem) : List (List ℕ) :=
  let v := basixVertices e.cell
  if e.degree = 1 then v
  else
    let edges := (basixEdges e.cell).map fun p => meanOf v [p.1, p.2]
    let inner := match e.family, e.cell with
      | .P, .hexahedron => (basixFacets .hexahedron).map (meanOf v) ++ [meanOf v (List.range 8)]
      | .P, .quadrilateral => [meanOf v (List.range 4)]
      | _, _ => []
    v ++ edges ++ inner

/-- `face_inds` of `get_face_shape_vals_and_grads` (basis.py 159-179): facet vertices in mesh-local numbers. -/
def faceInds (e : Elem) : Option (List (List ℕ)) := (basixFacets e.cell).mapM fun f => reorderInds f e.reOrder

/-! ## Lagrange polynomials of degree 1 and 2 -/
section
variable {K : Type*} [Field K]

/-- 1-d Lagrange polynomial on `[0, 1]` with node `p/2`. -/
def lag (deg p : ℕ) (t : K) : K :=
  if deg = 1 then (if p = 0 then 1 - t else t)
  else if p = 0 then (1 - t) * (1 - 2 * t) else if p = 1 then 4 * t * (1 - t) else t * (2 * t - 1)

/-- factor of a simplex Lagrange polynomial belonging to one barycentric coordinate `l` with (doubled) nodal value `p`. -/
def bary (deg p : ℕ) (l : K) : K :=
  if p = 0 then 1 else if deg = 1 then l else if p = 1 then 2 * l else l * (2 * l - 1)

/-- The Lagrange basis function of a (doubled) node position. -/
def basisFn (cell : CellType) (deg : ℕ) (node : List ℕ) (x : ℕ → K) : K :=
  match cell with
  | .triangle | .tetrahedron =>
    bary deg (2 - node.sum) (1 - ((List.range node.length).map x).sum)
      * ((List.range node.length).map fun k => bary deg (node.getD k 0) (x k)).prod
  | _ => ((List.range node.length).map fun k => lag deg (node.getD k 0) (x k)).prod

/-- `shape_values` for mesh-local node `p` at a reference point (basis.py 121-122): column `re_order[p]` of the
tabulated basis. -/
def shapeVal (e : Elem) (p : ℕ) (x : ℕ → K) : K :=
  basisFn e.cell e.degree ((basixNodes e).getD (e.reOrder.getD p 0) []) x

end

/-- `shape_grads_ref` (basis.py 123): `tabulate(1, ..)` holds the partial derivatives. -/
noncomputable def shapeGradRef (e : Elem) (p : ℕ) (x : ℕ → ℝ) (a : ℕ) : ℝ :=
  deriv (fun s => shapeVal e p (Function.update x a s)) (x a)

end Verif.Fem
