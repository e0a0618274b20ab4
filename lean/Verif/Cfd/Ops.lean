import Verif.Base.Arr
import Mathlib.Algebra.BigOperators.Group.Finset.Basic
import Mathlib.Algebra.Order.Ring.Defs

/-!
# Finite-volume operators on structured grids (model)

`jax_am/cfd/cfd_am.py` lines 13-139.  A field of shape `(Nx, Ny, Nz, m)` is an `Arr3 (Fin m → K)`;
a slab such as `f[[0], :, :]` is the 2-d array of the remaining two axes.
-/
namespace Verif.Cfd
open Verif

variable {K : Type*} [Field K] {m : ℕ}

/-- Boundary-condition tag: the code accepts a number or a string (cfd_am.py 15-19). -/
inductive BcTag where
  | int (n : ℤ)
  | str (s : String)
  deriving DecidableEq

/-- `ghost_cell` on one entry (cfd_am.py 14-24); `none` is the Python `None` of a fall-through.  In the
Marangoni branch components 0 and 1 are Neumann and component 2 is Dirichlet (the code only makes
sense for `m = 3`). -/
def ghostCell (bc : BcTag) (value : Fin m → K) (dx : K) (neighbor : Fin m → K) : Option (Fin m → K) :=
  if bc = .str "Dirchlet" ∨ bc = .int 0 then some (fun c => 2 * value c - neighbor c)
  else if bc = .str "Neumann" ∨ bc = .int 1 then some (fun c => neighbor c + dx * value c)
  else if bc = .str "Marangoni_Z" ∨ bc = .int 2 then
    some (fun c => if c.val < 2 then neighbor c + dx * value c else 2 * value c - neighbor c)
  else none

/-- `ghost_cell` on a slab. `value` is already broadcast to the slab. -/
def ghostSlab (bc : BcTag) (value : Arr2 (Fin m → K)) (dx : K) (nb : Arr2 (Fin m → K)) :
    Option (Arr2 (Fin m → K)) :=
  if (ghostCell bc (fun _ : Fin m => (0 : K)) dx (fun _ => 0)).isSome then
    some ⟨nb.n0, nb.n1, fun a b => (ghostCell bc (value.get a b) dx (nb.get a b)).getD 0⟩
  else none

/-- Boundary slab of side `s` (cfd_am.py 28-33): `f[[0],:,:]`, `f[[-1],:,:]`, `f[:,[0],:]`, ... -/
def slab {α : Type*} (f : Arr3 α) : Fin 6 → Arr2 α :=
  ![⟨f.n1, f.n2, fun j k => f.get 0 j k⟩, ⟨f.n1, f.n2, fun j k => f.get (f.n0 - 1) j k⟩,
    ⟨f.n0, f.n2, fun i k => f.get i 0 k⟩, ⟨f.n0, f.n2, fun i k => f.get i (f.n1 - 1) k⟩,
    ⟨f.n0, f.n1, fun i j => f.get i j 0⟩, ⟨f.n0, f.n1, fun i j => f.get i j (f.n2 - 1)⟩]

/-- Signed spacing passed to `ghost_cell` (cfd_am.py 28-33). -/
def sgnDx (dX : Fin 3 → K) : Fin 6 → K := ![-dX 0, dX 0, -dX 1, dX 1, -dX 2, dX 2]

/-- Boundary conditions `BCs = [types, values]`. -/
structure BCs (K : Type*) (m : ℕ) where
  type : Fin 6 → BcTag
  value : Fin 6 → Arr2 (Fin m → K)

/-- Default `BCs` (cfd_am.py 38, 55, 84, 96, 117): Neumann with value 0. -/
def defaultBCs (K : Type*) [Field K] (m : ℕ) : BCs K m := ⟨fun _ => .int 1, fun _ => ⟨0, 0, fun _ _ _ => 0⟩⟩

/-- `get_GC_values` (cfd_am.py 26-34). -/
def getGC (f : Arr3 (Fin m → K)) (bcs : BCs K m) (dX : Fin 3 → K) : Fin 6 → Option (Arr2 (Fin m → K)) :=
  fun s => ghostSlab (bcs.type s) (bcs.value s) (sgnDx dX s) (slab f s)

/-- All six ghost slabs, if none is `None` (arithmetic with `None` raises). -/
def allSome {α : Type*} {n : ℕ} (v : Fin n → Option α) : Option (Fin n → α) :=
  if h : ∀ s, (v s).isSome then some (fun s => (v s).get (h s)) else none

/-- `np.concatenate((lo, f, hi), axis=0)` for slabs `lo`, `hi`. -/
def pad0 {α : Type*} (lo : Arr2 α) (f : Arr3 α) (hi : Arr2 α) : Arr3 α :=
  ⟨f.n0 + 2, f.n1, f.n2, fun i j k => if i = 0 then lo.get j k else if i ≤ f.n0 then f.get (i - 1) j k else hi.get j k⟩
/-- Same, axis 1. -/
def pad1 {α : Type*} (lo : Arr2 α) (f : Arr3 α) (hi : Arr2 α) : Arr3 α :=
  ⟨f.n0, f.n1 + 2, f.n2, fun i j k => if j = 0 then lo.get i k else if j ≤ f.n1 then f.get i (j - 1) k else hi.get i k⟩
/-- Same, axis 2. -/
def pad2' {α : Type*} (lo : Arr2 α) (f : Arr3 α) (hi : Arr2 α) : Arr3 α :=
  ⟨f.n0, f.n1, f.n2 + 2, fun i j k => if k = 0 then lo.get i j else if k ≤ f.n2 then f.get i j (k - 1) else hi.get i j⟩

/-- `np.diff(f, axis=0, append=g)`. -/
def diffA0 (f : Arr3 (Fin m → K)) (g : Arr2 (Fin m → K)) : Arr3 (Fin m → K) :=
  ⟨f.n0, f.n1, f.n2, fun i j k c => (if i + 1 < f.n0 then f.get (i + 1) j k c else g.get j k c) - f.get i j k c⟩
/-- `np.diff(f, axis=0, prepend=g)`. -/
def diffP0 (f : Arr3 (Fin m → K)) (g : Arr2 (Fin m → K)) : Arr3 (Fin m → K) :=
  ⟨f.n0, f.n1, f.n2, fun i j k c => f.get i j k c - (if i = 0 then g.get j k c else f.get (i - 1) j k c)⟩
/-- `np.diff(f, axis=1, append=g)`. -/
def diffA1 (f : Arr3 (Fin m → K)) (g : Arr2 (Fin m → K)) : Arr3 (Fin m → K) :=
  ⟨f.n0, f.n1, f.n2, fun i j k c => (if j + 1 < f.n1 then f.get i (j + 1) k c else g.get i k c) - f.get i j k c⟩
/-- `np.diff(f, axis=1, prepend=g)`. -/
def diffP1 (f : Arr3 (Fin m → K)) (g : Arr2 (Fin m → K)) : Arr3 (Fin m → K) :=
  ⟨f.n0, f.n1, f.n2, fun i j k c => f.get i j k c - (if j = 0 then g.get i k c else f.get i (j - 1) k c)⟩
/-- `np.diff(f, axis=2, append=g)`. -/
def diffA2 (f : Arr3 (Fin m → K)) (g : Arr2 (Fin m → K)) : Arr3 (Fin m → K) :=
  ⟨f.n0, f.n1, f.n2, fun i j k c => (if k + 1 < f.n2 then f.get i j (k + 1) c else g.get i j c) - f.get i j k c⟩
/-- `np.diff(f, axis=2, prepend=g)`. -/
def diffP2 (f : Arr3 (Fin m → K)) (g : Arr2 (Fin m → K)) : Arr3 (Fin m → K) :=
  ⟨f.n0, f.n1, f.n2, fun i j k c => f.get i j k c - (if k = 0 then g.get i j c else f.get i j (k - 1) c)⟩

/-- Viscosity argument of `laplace`: a scalar or three face arrays (cfd_am.py 40, 44). -/
inductive Visc (K : Type*) where
  | scalar (mu : K)
  | faces (mu : Fin 3 → Arr3 K)

/-- Body of `laplace` (cfd_am.py 40-51) for given ghost slabs. -/
def laplaceBody (f : Arr3 (Fin m → K)) (gc : Fin 6 → Arr2 (Fin m → K)) (miu : Visc K) (dX : Fin 3 → K) :
    Arr3 (Fin m → K) :=
  match miu with
  | .scalar mu => ⟨f.n0, f.n1, f.n2, fun i j k c =>
      (((diffA0 f (gc 1)).get i j k c - (diffP0 f (gc 0)).get i j k c) / dX 0 * dX 1 * dX 2
        + ((diffA1 f (gc 3)).get i j k c - (diffP1 f (gc 2)).get i j k c) / dX 1 * dX 2 * dX 0
        + ((diffA2 f (gc 5)).get i j k c - (diffP2 f (gc 4)).get i j k c) / dX 2 * dX 0 * dX 1) * mu⟩
  | .faces mu => ⟨f.n0, f.n1, f.n2, fun i j k c =>
      ((diffA0 f (gc 1)).get i j k c * (mu 0).get (i + 1) j k - (diffP0 f (gc 0)).get i j k c * (mu 0).get i j k) / dX 0 * dX 1 * dX 2
        + ((diffA1 f (gc 3)).get i j k c * (mu 1).get i (j + 1) k - (diffP1 f (gc 2)).get i j k c * (mu 1).get i j k) / dX 1 * dX 2 * dX 0
        + ((diffA2 f (gc 5)).get i j k c * (mu 2).get i j (k + 1) - (diffP2 f (gc 4)).get i j k c * (mu 2).get i j k) / dX 2 * dX 0 * dX 1⟩

/-- `laplace` (cfd_am.py 36-51): with `BCs = None` the passed ghost values are replaced by the default
ones; `BCs` is otherwise not used. `none`: an operand is `None`, the code raises. -/
def laplace (f : Arr3 (Fin m → K)) (f_gc : Fin 6 → Option (Arr2 (Fin m → K))) (miu : Visc K) (dX : Fin 3 → K)
    (bcs : Option (BCs K m)) : Option (Arr3 (Fin m → K)) :=
  let f_gc := match bcs with
    | none => getGC f (defaultBCs K m) dX
    | some _ => f_gc
  (allSome f_gc).map fun gc => laplaceBody f gc miu dX

variable [LinearOrder K]

/-- Face value along one line of cells: `theta`-blend of central and second-order upwind
(cfd_am.py 62-73); `a, b, c, d` are the entries `fx[i], fx[i+1], fx[i+2], fx[i+3]` around face `i`. -/
def faceVal (theta vel a b c d : K) : K :=
  theta * (b / 2 + c / 2) + (1 - theta) * (3 * b / 2 - a / 2) * (if vel ≥ 0 then 1 else 0)
    + (1 - theta) * (3 * c / 2 - d / 2) * (if vel < 0 then 1 else 0)

/-- `fx = np.concatenate((gc0, gc0, f, gc1, gc1), axis=0)` and `f_face_x` (cfd_am.py 58, 62-65); the
scalar face velocity is broadcast over the components. -/
def faceX (theta : K) (f : Arr3 (Fin m → K)) (lo hi : Arr2 (Fin m → K)) (u : Arr3 K) : Arr3 (Fin m → K) :=
  let fx := pad0 lo (pad0 lo f hi) hi
  ⟨f.n0 + 1, f.n1, f.n2, fun i j k c => faceVal theta (u.get i j k) (fx.get i j k c) (fx.get (i + 1) j k c)
    (fx.get (i + 2) j k c) (fx.get (i + 3) j k c)⟩
/-- `f_face_y` (cfd_am.py 59, 66-69). -/
def faceY (theta : K) (f : Arr3 (Fin m → K)) (lo hi : Arr2 (Fin m → K)) (v : Arr3 K) : Arr3 (Fin m → K) :=
  let fy := pad1 lo (pad1 lo f hi) hi
  ⟨f.n0, f.n1 + 1, f.n2, fun i j k c => faceVal theta (v.get i j k) (fy.get i j k c) (fy.get i (j + 1) k c)
    (fy.get i (j + 2) k c) (fy.get i (j + 3) k c)⟩
/-- `f_face_z` (cfd_am.py 60, 70-73). -/
def faceZ (theta : K) (f : Arr3 (Fin m → K)) (lo hi : Arr2 (Fin m → K)) (w : Arr3 K) : Arr3 (Fin m → K) :=
  let fz := pad2' lo (pad2' lo f hi) hi
  ⟨f.n0, f.n1, f.n2 + 1, fun i j k c => faceVal theta (w.get i j k) (fz.get i j k c) (fz.get i j (k + 1) c)
    (fz.get i j (k + 2) c) (fz.get i j (k + 3) c)⟩

/-- Body of `div` for given ghost slabs (cfd_am.py 57-80). -/
def divBody (f : Arr3 (Fin m → K)) (gc : Fin 6 → Arr2 (Fin m → K)) (vel_f : Fin 3 → Arr3 K) (dX : Fin 3 → K)
    (theta : K) : Arr3 (Fin m → K) :=
  let fx := faceX theta f (gc 0) (gc 1) (vel_f 0)
  let fy := faceY theta f (gc 2) (gc 3) (vel_f 1)
  let fz := faceZ theta f (gc 4) (gc 5) (vel_f 2)
  ⟨f.n0, f.n1, f.n2, fun i j k c =>
    (fx.get (i + 1) j k c * (vel_f 0).get (i + 1) j k - fx.get i j k c * (vel_f 0).get i j k) / dX 0
    + (fy.get i (j + 1) k c * (vel_f 1).get i (j + 1) k - fy.get i j k c * (vel_f 1).get i j k) / dX 1
    + (fz.get i j (k + 1) c * (vel_f 2).get i j (k + 1) - fz.get i j k c * (vel_f 2).get i j k) / dX 2⟩

/-- `div` (cfd_am.py 53-80). -/
def div (f : Arr3 (Fin m → K)) (vel_f : Fin 3 → Arr3 K) (dX : Fin 3 → K) (theta : K) (bcs : Option (BCs K m)) :
    Option (Arr3 (Fin m → K)) :=
  (allSome (getGC f (bcs.getD (defaultBCs K m)) dX)).map fun gc => divBody f gc vel_f dX theta

omit [LinearOrder K]

/-- `gradient` of a scalar field (cfd_am.py 82-92): `BCs` is an argument, but the ghost values are
always the default ones. -/
def gradient (f : Arr3 (Fin 1 → K)) (dX : Fin 3 → K) (_bcs : Option (BCs K 1)) : Option (Arr3 (Fin 3 → K)) :=
  (allSome (getGC f (defaultBCs K 1) dX)).map fun gc =>
    ⟨f.n0, f.n1, f.n2, fun i j k => ![
      ((diffA0 f (gc 1)).get i j k 0 + (diffP0 f (gc 0)).get i j k 0) / dX 0 / 2,
      ((diffA1 f (gc 3)).get i j k 0 + (diffP1 f (gc 2)).get i j k 0) / dX 1 / 2,
      ((diffA2 f (gc 5)).get i j k 0 + (diffP2 f (gc 4)).get i j k 0) / dX 2 / 2]⟩

/-- `get_face_vels` (cfd_am.py 94-113). -/
def faceVels (vel : Arr3 (Fin 3 → K)) (dX : Fin 3 → K) (bcs : Option (BCs K 3)) : Option (Fin 3 → Arr3 K) :=
  (allSome (getGC vel (bcs.getD (defaultBCs K 3)) dX)).map fun gc =>
    let u := pad0 (gc 0) vel (gc 1)
    let v := pad1 (gc 2) vel (gc 3)
    let w := pad2' (gc 4) vel (gc 5)
    ![⟨vel.n0 + 1, vel.n1, vel.n2, fun i j k => (u.get (i + 1) j k 0 + u.get i j k 0) / 2⟩,
      ⟨vel.n0, vel.n1 + 1, vel.n2, fun i j k => (v.get i (j + 1) k 1 + v.get i j k 1) / 2⟩,
      ⟨vel.n0, vel.n1, vel.n2 + 1, fun i j k => (w.get i j (k + 1) 2 + w.get i j k 2) / 2⟩]

/-- Outcome of `get_face_vel_component`. -/
inductive FvcErr where
  /-- `np.concatenate((.., vel, vel_gc), axis=2)`: `vel_gc` is a Python list of six slabs of different shapes. -/
  | badConcatenate
  /-- an operand is `None` -/
  | noneOperand
  deriving DecidableEq

/-- `get_face_vel_component` (cfd_am.py 115-139): the `axis = 2` branch concatenates the list `vel_gc`
itself and returns the undefined name `v_f`; other axes fall through and return `None`. -/
def faceVelComponent (vel : Arr3 (Fin 1 → K)) (dX : Fin 3 → K) (axis : ℤ) (bcs : Option (BCs K 1)) :
    Except FvcErr (Option (Arr3 K)) :=
  let vel_gc := getGC vel (bcs.getD (defaultBCs K 1)) dX
  if axis = 0 then
    match vel_gc 0, vel_gc 1 with
    | some a, some b => let u := pad0 a vel b
      .ok (some ⟨vel.n0 + 1, vel.n1, vel.n2, fun i j k => (u.get (i + 1) j k 0 + u.get i j k 0) / 2⟩)
    | _, _ => .error .noneOperand
  else if axis = 1 then
    match vel_gc 2, vel_gc 3 with
    | some a, some b => let v := pad1 a vel b
      .ok (some ⟨vel.n0, vel.n1 + 1, vel.n2, fun i j k => (v.get i (j + 1) k 0 + v.get i j k 0) / 2⟩)
    | _, _ => .error .noneOperand
  else if axis = 2 then .error .badConcatenate
  else .ok none

end Verif.Cfd
