import Verif.Base.Arr
import Mathlib.Algebra.BigOperators.Fin

/-!
# Structured meshes and lattice numbering (model)

`jax_am/common.py` (`box_mesh`, `rectangle_mesh`) and `jax_am/lbm/utils.py`
(`to_id`, `to_id_xyz`, `shape_wrapper`, `compute_cell_centroid`), and the temperature transfer
of `applications/phase_field/coupled/example.py`.
-/
namespace Verif.Mesh
open Verif

/-- A mesh as returned by `meshio.Mesh`: points with `d` components, cells with `m` nodes. -/
structure FMesh (K : Type*) (d m : ℕ) where
  points : Arr1 (Fin d → K)
  cells : Arr1 (Fin m → ℕ)

variable {K : Type*} [Field K]

/-- `common.box_mesh` (jax_am/common.py 34-55), line by line.  `meshio.Mesh` is the plain record. -/
def boxMesh (Nx Ny Nz : ℕ) (Lx Ly Lz : K) : FMesh K 3 8 :=
  let x := Arr1.linspace 0 Lx (Nx + 1)
  let y := Arr1.linspace 0 Ly (Ny + 1)
  let z := Arr1.linspace 0 Lz (Nz + 1)
  let points_xyz := Arr3.stack (meshgrid3 x y z)
  let points := points_xyz.flatten
  let points_inds := Arr1.arange points.n
  let P := points_inds.reshape3 (Nx + 1) (Ny + 1) (Nz + 1)
  let inds1 := P.init0.init1.init2
  let inds2 := P.tail0.init1.init2
  let inds3 := P.tail0.tail1.init2
  let inds4 := P.init0.tail1.init2
  let inds5 := P.init0.init1.tail2
  let inds6 := P.tail0.init1.tail2
  let inds7 := P.tail0.tail1.tail2
  let inds8 := P.init0.tail1.tail2
  let cells :=
    (Arr3.stack ![inds1, inds2, inds3, inds4, inds5, inds6, inds7, inds8]).flatten
  ⟨points, cells⟩

/-- `common.rectangle_mesh` (jax_am/common.py 58-73), line by line. -/
def rectangleMesh (Nx Ny : ℕ) (Lx Ly : K) : FMesh K 2 4 :=
  let x := Arr1.linspace 0 Lx (Nx + 1)
  let y := Arr1.linspace 0 Ly (Ny + 1)
  let points_xy := Arr2.stack (meshgrid2 x y)
  let points := points_xy.flatten
  let points_inds := Arr1.arange points.n
  let P := points_inds.reshape2 (Nx + 1) (Ny + 1)
  let inds1 := P.init0.init1
  let inds2 := P.tail0.init1
  let inds3 := P.tail0.tail1
  let inds4 := P.init0.tail1
  let cells := (Arr2.stack ![inds1, inds2, inds3, inds4]).flatten
  ⟨points, cells⟩

/-- `lbm.utils.compute_cell_centroid` (jax_am/lbm/utils.py 26-30): `np.mean(points[cells], axis=1)`. -/
def cellCentroid (M : FMesh K 3 8) : Arr1 (Fin 3 → K) :=
  M.cells.map fun c i => (∑ p, M.points.get (c p) i) / 8

/-- `lbm.utils.to_id` (jax_am/lbm/utils.py 33-34). -/
def toId (Ny Nz : ℕ) (idx idy idz : ℕ) : ℕ := idx * Ny * Nz + idy * Nz + idz

/-- `lbm.utils.to_id_xyz` (jax_am/lbm/utils.py 37-42). -/
def toIdXyz (Ny Nz : ℕ) (lattice_id : ℕ) : ℕ × ℕ × ℕ :=
  let id_z := lattice_id % Nz
  let lattice_id' := lattice_id / Nz
  let id_y := lattice_id' % Ny
  let id_x := lattice_id' / Ny
  (id_x, id_y, id_z)

/-- `lbm.utils.shape_wrapper` (jax_am/lbm/utils.py 45-49): reshape the flat vmapped result. -/
def shapeWrapper {α : Type*} (Nx Ny Nz : ℕ) (f : ℕ → α) : Arr3 α :=
  ((Arr1.arange (Nx * Ny * Nz)).map f).reshape3 Nx Ny Nz

/-- `convert_temperature` (applications/phase_field/coupled/example.py): transpose a CFD field
`(Nx, Ny, Nz)` to `(Nz, Ny, Nx)` and flatten it. -/
def convertTemperature {α : Type*} (T : Arr3 α) : Arr1 α := T.transpose210.flatten

end Verif.Mesh
