import Verif.PhaseField.AllenCahn
import Mathlib.Algebra.Order.Floor.Ring
import Mathlib.Data.List.MinMax

/-!
# Reading the Neper polycrystal (model)

`jax_am/phase_field/utils.py`: `Field.process_neper_mesh` (28-83), `Field.get_unique_ori_colors` (85-149).

Files, plots and the random choice of orientations are not modelled: the contents of the mesh file, the lines of the
`.obj` file, the random array `grain_oris_inds` and the quaternions are inputs. IPF colours (computed by orix) are not modelled.
-/
namespace Verif.PhaseField
open Verif

/-- Python's `round` of a float: nearest integer, halves to the even one. -/
noncomputable def pyRound (x : ℝ) : ℤ :=
  if x - ⌊x⌋ < 1 / 2 then ⌊x⌋ else if x - ⌊x⌋ > 1 / 2 then ⌊x⌋ + 1 else if ⌊x⌋ % 2 = 0 then ⌊x⌋ else ⌊x⌋ + 1

/-- `a[i]` of numpy with a possibly negative integer: negative positions count from the end; out of range raises. -/
def pyGet {α : Type*} (a : List α) (i : ℤ) : Option α :=
  if 0 ≤ i then a[i.toNat]? else if -i ≤ a.length then a[(a.length + i).toNat]? else none

/-- `max` of a list of integers (numpy raises for the empty list). -/
def listMax : List ℤ → Option ℤ
  | [] => none
  | a :: l => some (l.foldl max a)

/-- Grain and orientation numbers of the cells (utils.py 35-40): `cell_grain_inds = physical - 1`, the assertion on the number of grains,
`onp.take(grain_oris_inds, cell_grain_inds)`. Returns `cell_ori_inds`. -/
def cellOriInds (num_grains : ℕ) (physical : List ℤ) (grain_oris_inds : List ℕ) : Except String (List ℕ) := do
  let cell_grain_inds := physical.map fun p => p - 1
  match listMax cell_grain_inds with
  | none => .error "ValueError: zero-size array to reduction operation maximum"
  | some mx =>
    if (num_grains : ℤ) = mx + 1 then
      match cell_grain_inds.mapM (pyGet grain_oris_inds) with
      | some l => .ok l
      | none => .error "IndexError"
    else .error "AssertionError"

/-- `round(domain / points[..., i])` (utils.py 43-45). -/
noncomputable def roundAt (domain : ℝ) (p : Option (Fin 3 → ℝ)) (i : Fin 3) : Except String ℤ :=
  match p with
  | none => .error "IndexError"
  | some p => if p i = 0 then .error "OverflowError" else .ok (pyRound (domain / p i))

/-- Number of cells per direction (utils.py 43-49). `points` and `cells` as read from the file; the points used must exist, else `IndexError`;
a zero coordinate gives `round(inf)` or `round(nan)`, which raises. -/
noncomputable def gridSize (domain : Fin 3 → ℝ) (points : List (Fin 3 → ℝ)) (num_cells : ℕ) : Except String (ℤ × ℤ × ℤ) := do
  let Nx ← roundAt (domain 0) (pyGet points 1) 0
  let Ny ← roundAt (domain 1) (pyGet points (Nx + 1)) 1
  let Nz ← roundAt (domain 2) (pyGet points ((Nx + 1) * (Ny + 1))) 2
  if Nx * Ny * Nz = num_cells then .ok (Nx, Ny, Nz) else .error "AssertionError"

/-- `mesh_h_xyz` (utils.py 55-57). -/
noncomputable def meshH (domain : Fin 3 → ℝ) (N : ℤ × ℤ × ℤ) : Fin 3 → ℝ := ![domain 0 / N.1, domain 1 / N.2.1, domain 2 / N.2.2]

/-! ## The `.obj` reader -/

/-- State of the reading loop: `points`, `cells_inds`. -/
abbrev ObjState := List (List ℝ) × List (List (List ℤ))

/-- Body of the loop over the lines (utils.py 72-80). A line is the result of `line.split()`; `float` and `int` are Python's conversions (`none`: `ValueError`).
Errors: an empty line (`l[0]`), missing coordinates, a face before the first group (`cells_inds[-1]`), a text that is not a number. -/
def objLine (float : String → Option ℝ) (int : String → Option ℤ) (s : ObjState) (l : List String) : Except String ObjState :=
  match l with
  | [] => .error "IndexError: list index out of range"
  | head :: args =>
    if head = "v" then
      match args with
      | a :: b :: c :: _ =>
        match float a, float b, float c with
        | some x, some y, some z => .ok (s.1 ++ [[x, y, z]], s.2)
        | _, _, _ => .error "ValueError"
      | _ => .error "IndexError: list index out of range"
    else if head = "g" then .ok (s.1, s.2 ++ [[]])
    else if head = "f" then
      match s.2.getLast? with
      | none => .error "IndexError: list index out of range"
      | some last =>
        match args.mapM int with
        | none => .error "ValueError"
        | some ids => .ok (s.1, s.2.dropLast ++ [last ++ [ids.map fun i => i - 1]])
    else .ok s

/-- The loop (utils.py 70-80). -/
def readObj (float : String → Option ℝ) (int : String → Option ℤ) (lines : List (List String)) : Except String ObjState :=
  lines.foldlM (objLine float int) ([], [])

/-! ## Crystal directions -/

/-- `scipy_quat = concatenate((ori2.data[:, 1:], ori2.data[:, :1]), axis=1)` (utils.py 107): orix stores `(w, x, y, z)`, scipy wants `(x, y, z, w)`. -/
def scipyQuat (q : Fin 4 → ℝ) : Fin 4 → ℝ := ![q 1, q 2, q 3, q 0]

/-- scipy's rotation matrix of a unit quaternion `(x, y, z, w)`, applied to `v`. -/
def rotMatApply (u : Fin 4 → ℝ) (v : Fin 3 → ℝ) : Fin 3 → ℝ :=
  let x := u 0; let y := u 1; let z := u 2; let w := u 3
  ![(x ^ 2 - y ^ 2 - z ^ 2 + w ^ 2) * v 0 + 2 * (x * y - z * w) * v 1 + 2 * (x * z + y * w) * v 2,
    2 * (x * y + z * w) * v 0 + (-x ^ 2 + y ^ 2 - z ^ 2 + w ^ 2) * v 1 + 2 * (y * z - x * w) * v 2,
    2 * (x * z - y * w) * v 0 + 2 * (y * z + x * w) * v 1 + (-x ^ 2 - y ^ 2 + z ^ 2 + w ^ 2) * v 2]

/-- `R.from_quat(p).apply(v)` (utils.py 108-109): scipy normalises the quaternion (zero norm raises `ValueError`) and applies the matrix of the rotation.
Trusted: this is what scipy computes. -/
noncomputable def rotApply (p : Fin 4 → ℝ) (v : Fin 3 → ℝ) : Except String (Fin 3 → ℝ) :=
  let n := Real.sqrt (p 0 ^ 2 + p 1 ^ 2 + p 2 ^ 2 + p 3 ^ 2)
  if n = 0 then .error "ValueError: Found zero norm quaternions" else .ok (rotMatApply (fun i => p i / n) v)

/-- `unique_grain_directions` of one orientation (utils.py 104-109): images of the three axes. -/
noncomputable def grainDirections (q : Fin 4 → ℝ) : Except String (Fin 3 → Fin 3 → ℝ) := do
  let dx ← rotApply (scipyQuat q) ![1, 0, 0]
  let dy ← rotApply (scipyQuat q) ![0, 1, 0]
  let dz ← rotApply (scipyQuat q) ![0, 0, 1]
  pure ![dx, dy, dz]

end Verif.PhaseField
