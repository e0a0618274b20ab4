import Verif.Base.Arr
import Mathlib.Algebra.Order.Field.Basic

/-!
# Uniform finite-volume meshes (model)

`jax_am/cfd/cfd_am.py`: `uniform_mesh` (593-599), `mesh2d` (602-665), `mesh3d` (668-745).
-/
namespace Verif.Cfd
open Verif

variable {K : Type*} [Field K]

/-- Index map of `onp.pad(a, 1, "symmetric")` on an axis of length `n`: positions `0` and `n+1` repeat the first and the last entry. -/
def padIdx (n i : ℕ) : ℕ := if i = 0 then 0 else if i ≤ n then i - 1 else n - 1

/-- `onp.pad(a, 1, "symmetric")`, 3-d. -/
def pad3 {α : Type*} (a : Arr3 α) : Arr3 α :=
  ⟨a.n0 + 2, a.n1 + 2, a.n2 + 2, fun i j k => a.get (padIdx a.n0 i) (padIdx a.n1 j) (padIdx a.n2 k)⟩

/-- `onp.pad(a, 1, "symmetric")`, 2-d. -/
def pad2 {α : Type*} (a : Arr2 α) : Arr2 α :=
  ⟨a.n0 + 2, a.n1 + 2, fun i j => a.get (padIdx a.n0 i) (padIdx a.n1 j)⟩

/-- `a[p:, q:, r:]` cut to the shape two smaller than `a` in each direction: `p = 0, 1, 2` are the slices `:-2`, `1:-1`, `2:`. -/
def slice3 {α : Type*} (p q r : ℕ) (a : Arr3 α) : Arr3 α :=
  ⟨a.n0 - 2, a.n1 - 2, a.n2 - 2, fun i j k => a.get (i + p) (j + q) (k + r)⟩

/-- 2-d version. -/
def slice2 {α : Type*} (p q : ℕ) (a : Arr2 α) : Arr2 α :=
  ⟨a.n0 - 2, a.n1 - 2, fun i j => a.get (i + p) (j + q)⟩

/-! ## mesh3d -/

/-- Cell numbers `onp.arange(0, Nx*Ny*Nz).reshape((Nx, Ny, Nz))` (cfd_am.py 699, 710). -/
def cellIdx3 (Nx Ny Nz : ℕ) : Arr3 ℕ := (Arr1.arange (Nx * Ny * Nz)).reshape3 Nx Ny Nz

/-- `mesh3d.get_neighbor` (cfd_am.py 697-706): `cell_conn`. -/
def cellConn3 (Nx Ny Nz : ℕ) : Arr1 (Fin 7 → ℕ) :=
  let c := pad3 (cellIdx3 Nx Ny Nz)
  (Arr3.stack ![slice3 1 1 1 c, slice3 0 1 1 c, slice3 2 1 1 c, slice3 1 0 1 c, slice3 1 2 1 c,
    slice3 1 1 0 c, slice3 1 1 2 c]).flatten

/-- `mesh3d.generate_mesh` (cfd_am.py 669-695): `dX`. -/
def dX3 (N : Fin 3 → ℕ) (L : Fin 3 → K) : Fin 3 → K := fun a => L a / N a

/-- `Xc` (cfd_am.py 673-684). -/
def Xc3 (Nx Ny Nz : ℕ) (Lx Ly Lz : K) : Arr1 (Fin 3 → K) :=
  let x := Arr1.linspace 0 Lx (Nx + 1)
  let y := Arr1.linspace 0 Ly (Ny + 1)
  let z := Arr1.linspace 0 Lz (Nz + 1)
  let xx := meshgrid3 x y z 0
  let yy := meshgrid3 x y z 1
  let zz := meshgrid3 x y z 2
  let xc : Arr3 K := ⟨Nx, Ny, Nz, fun i j k => (xx.get (i + 1) (j + 1) (k + 1) + xx.get i (j + 1) (k + 1)) / 2⟩
  let yc : Arr3 K := ⟨Nx, Ny, Nz, fun i j k => (yy.get (i + 1) (j + 1) (k + 1) + yy.get (i + 1) j (k + 1)) / 2⟩
  let zc : Arr3 K := ⟨Nx, Ny, Nz, fun i j k => (zz.get (i + 1) (j + 1) (k + 1) + zz.get (i + 1) (j + 1) k) / 2⟩
  (Arr3.stack ![xc, yc, zc]).flatten

/-- `dV` (cfd_am.py 686). -/
def dV3 (d : Fin 3 → K) : K := d 0 * d 1 * d 2
/-- `D` (cfd_am.py 687-690). -/
def D3 (d : Fin 3 → K) : Fin 6 → K := ![-d 0, d 0, -d 1, d 1, -d 2, d 2]
/-- `dS` (cfd_am.py 691-695). -/
def dS3 (d : Fin 3 → K) : Fin 6 → K :=
  ![-d 1 * d 2, d 1 * d 2, -d 2 * d 0, d 2 * d 0, -d 0 * d 1, d 0 * d 1]

/-- Boundary cells of side `s` as 2-d index arrays (cfd_am.py 711-716): `cell_idx[0, :, :]`, `cell_idx[-1, :, :]`, ... -/
def sideCells3 (Nx Ny Nz : ℕ) : Fin 6 → Arr2 ℕ :=
  let c := cellIdx3 Nx Ny Nz
  ![⟨Ny, Nz, fun j k => c.get 0 j k⟩, ⟨Ny, Nz, fun j k => c.get (Nx - 1) j k⟩,
    ⟨Nx, Nz, fun i k => c.get i 0 k⟩, ⟨Nx, Nz, fun i k => c.get i (Ny - 1) k⟩,
    ⟨Nx, Ny, fun i j => c.get i j 0⟩, ⟨Nx, Ny, fun i j => c.get i j (Nz - 1)⟩]

/-- `surf_set_num` (cfd_am.py 731-733). -/
def surfSetNum3 (Nx Ny Nz : ℕ) : Fin 6 → ℕ := ![Ny * Nz, Ny * Nz, Nx * Nz, Nx * Nz, Ny * Nx, Ny * Nx]

/-- Start of `surf_sets[s]` (cfd_am.py 720-729). -/
def surfStart3 (Nx Ny Nz : ℕ) : Fin 6 → ℕ :=
  ![0, Ny * Nz, Ny * Nz * 2, Ny * Nz * 2 + Nx * Nz, Ny * Nz * 2 + Nx * Nz * 2,
    Ny * Nz * 2 + Nx * Nz * 2 + Nx * Ny]

/-- End of `surf_sets[s]` (cfd_am.py 720-729). -/
def surfEnd3 (Nx Ny Nz : ℕ) : Fin 6 → ℕ :=
  ![Ny * Nz, Ny * Nz * 2, Ny * Nz * 2 + Nx * Nz, Ny * Nz * 2 + Nx * Nz * 2,
    Ny * Nz * 2 + Nx * Nz * 2 + Nx * Ny, Ny * Nz * 2 + Nx * Nz * 2 + Nx * Ny * 2]

/-- `surf_cell` (cfd_am.py 717-718). -/
def surfCell3 (Nx Ny Nz : ℕ) : List ℕ :=
  let c := sideCells3 Nx Ny Nz
  (c 0).flatten.toList ++ (c 1).flatten.toList ++ (c 2).flatten.toList ++ (c 3).flatten.toList
    ++ (c 4).flatten.toList ++ (c 5).flatten.toList

/-- `surf_orient` (cfd_am.py 734-736). -/
def surfOrient3 (Nx Ny Nz : ℕ) : List (Fin 6) :=
  List.replicate (Ny * Nz) 0 ++ List.replicate (Ny * Nz) 1 ++ List.replicate (Nx * Nz) 2
    ++ List.replicate (Nx * Nz) 3 ++ List.replicate (Ny * Nx) 4 ++ List.replicate (Ny * Nx) 5

/-- Half-cell offsets of the face centres (cfd_am.py 738-743). -/
def faceShift3 (d : Fin 3 → K) : Fin 6 → Fin 3 → K :=
  ![![-(d 0 / 2), 0, 0], ![d 0 / 2, 0, 0], ![0, -(d 1 / 2), 0], ![0, d 1 / 2, 0],
    ![0, 0, -(d 2 / 2)], ![0, 0, d 2 / 2]]

/-- `surface` (cfd_am.py 738-745). -/
def surface3 (Nx Ny Nz : ℕ) (Lx Ly Lz : K) : List (Fin 3 → K) :=
  let c := sideCells3 Nx Ny Nz
  let Xc := Xc3 Nx Ny Nz Lx Ly Lz
  let d := dX3 ![Nx, Ny, Nz] ![Lx, Ly, Lz]
  let blk : Fin 6 → List (Fin 3 → K) := fun s =>
    (c s).flatten.toList.map fun n a => Xc.get n a + faceShift3 d s a
  blk 0 ++ blk 1 ++ blk 2 ++ blk 3 ++ blk 4 ++ blk 5

/-! ## mesh2d -/

/-- cfd_am.py 630, 640 -/
def cellIdx2 (Nx Ny : ℕ) : Arr2 ℕ := (Arr1.arange (Nx * Ny)).reshape2 Nx Ny

/-- `mesh2d.get_neighbor` (cfd_am.py 628-636). -/
def cellConn2 (Nx Ny : ℕ) : Arr1 (Fin 5 → ℕ) :=
  let c := pad2 (cellIdx2 Nx Ny)
  (Arr2.stack ![slice2 1 1 c, slice2 0 1 c, slice2 2 1 c, slice2 1 0 c, slice2 1 2 c]).flatten

/-- `D` (cfd_am.py 620). -/
def D2 (d : Fin 2 → K) : Fin 4 → K := ![-d 0, d 0, -d 1, d 1]
/-- `dS` (cfd_am.py 621-626). -/
def dS2 (d : Fin 2 → K) : Fin 4 → K := ![-d 1, d 1, -d 0, d 0]

/-- cfd_am.py 641-644 -/
def sideCells2 (Nx Ny : ℕ) : Fin 4 → Arr1 ℕ :=
  let c := cellIdx2 Nx Ny
  ![⟨Ny, fun j => c.get 0 j⟩, ⟨Ny, fun j => c.get (Nx - 1) j⟩, ⟨Nx, fun i => c.get i 0⟩,
    ⟨Nx, fun i => c.get i (Ny - 1)⟩]

/-- `surf_cell` (cfd_am.py 646-647). -/
def surfCell2 (Nx Ny : ℕ) : List ℕ :=
  let c := sideCells2 Nx Ny
  (c 0).toList ++ (c 1).toList ++ (c 2).toList ++ (c 3).toList

/-- `surf_orient` (cfd_am.py 657-658). -/
def surfOrient2 (Nx Ny : ℕ) : List (Fin 4) :=
  List.replicate Ny 0 ++ List.replicate Ny 1 ++ List.replicate Nx 2 ++ List.replicate Nx 3

/-- `surf_set_num` (cfd_am.py 656) and the bounds of `surf_sets` (cfd_am.py 649-654). -/
def surfSetNum2 (Nx Ny : ℕ) : Fin 4 → ℕ := ![Ny, Ny, Nx, Nx]
def surfStart2 (Nx Ny : ℕ) : Fin 4 → ℕ := ![0, Ny, Ny * 2, Ny * 2 + Nx]
def surfEnd2 (Nx Ny : ℕ) : Fin 4 → ℕ := ![Ny, Ny * 2, Ny * 2 + Nx, Ny * 2 + Nx * 2]

end Verif.Cfd
