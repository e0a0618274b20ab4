import Verif.Base.Tactics
import Mathlib.Data.Fin.VecNotation
import Mathlib.Algebra.Order.Field.Basic



/-!
# Rank-typed functional arrays

A numpy / JAX array with shape `(n0, n1, ..)` is a total function of `Nat` indices together with its
sizes.  Entries outside the shape are irrelevant.  The operations below are the numpy operations used
by jax-am, written as index arithmetic (row-major, C order).  A trailing component axis is
represented by letting the entry type be a vector `Fin m → α`.
-/
namespace Verif

/-- 1-d array. -/
structure Arr1 (α : Type*) where
  n : ℕ
  get : ℕ → α

/-- 2-d array. -/
structure Arr2 (α : Type*) where
  n0 : ℕ
  n1 : ℕ
  get : ℕ → ℕ → α

/-- 3-d array. -/
structure Arr3 (α : Type*) where
  n0 : ℕ
  n1 : ℕ
  n2 : ℕ
  get : ℕ → ℕ → ℕ → α

namespace Arr1
variable {α β : Type*}

/-- `np.arange(n)`. -/
def arange (n : ℕ) : Arr1 ℕ := ⟨n, fun i => i⟩

/-- `np.linspace(a, b, m)` (numpy computes `start + i * step` with `step = (b-a)/(m-1)`). -/
def linspace {K : Type*} [Field K] (a b : K) (m : ℕ) : Arr1 K :=
  ⟨m, fun i => a + (i : K) * ((b - a) / ((m : K) - 1))⟩

/-- `a.reshape(m0, m1)`. -/
def reshape2 (a : Arr1 α) (m0 m1 : ℕ) : Arr2 α := ⟨m0, m1, fun i j => a.get (i * m1 + j)⟩

/-- `a.reshape(m0, m1, m2)`. -/
def reshape3 (a : Arr1 α) (m0 m1 m2 : ℕ) : Arr3 α :=
  ⟨m0, m1, m2, fun i j k => a.get ((i * m1 + j) * m2 + k)⟩

/-- pointwise map (`vmap`). -/
def map (f : α → β) (a : Arr1 α) : Arr1 β := ⟨a.n, fun i => f (a.get i)⟩

/-- Python list of the entries. -/
def toList (a : Arr1 α) : List α := (List.range a.n).map a.get

end Arr1

namespace Arr2
variable {α β : Type*}

/-- `a.reshape(-1, ...)`: flatten the two leading axes. -/
def flatten (a : Arr2 α) : Arr1 α := ⟨a.n0 * a.n1, fun t => a.get (t / a.n1) (t % a.n1)⟩

/-- `a[:-1, :]`. -/
def init0 (a : Arr2 α) : Arr2 α := ⟨a.n0 - 1, a.n1, a.get⟩
/-- `a[:, :-1]`. -/
def init1 (a : Arr2 α) : Arr2 α := ⟨a.n0, a.n1 - 1, a.get⟩
/-- `a[1:, :]`. -/
def tail0 (a : Arr2 α) : Arr2 α := ⟨a.n0 - 1, a.n1, fun i j => a.get (i + 1) j⟩
/-- `a[:, 1:]`. -/
def tail1 (a : Arr2 α) : Arr2 α := ⟨a.n0, a.n1 - 1, fun i j => a.get i (j + 1)⟩

/-- `np.stack(arrays, axis=2)` of a tuple of arrays of equal shape. -/
def stack {m : ℕ} [NeZero m] (as : Fin m → Arr2 α) : Arr2 (Fin m → α) :=
  ⟨(as 0).n0, (as 0).n1, fun i j c => (as c).get i j⟩

end Arr2

namespace Arr3
variable {α β : Type*}

/-- `a.reshape(-1, ...)`: flatten the three leading axes. -/
def flatten (a : Arr3 α) : Arr1 α :=
  ⟨a.n0 * a.n1 * a.n2, fun t => a.get (t / a.n2 / a.n1) (t / a.n2 % a.n1) (t % a.n2)⟩

/-- `a[:-1, :, :]`. -/
def init0 (a : Arr3 α) : Arr3 α := ⟨a.n0 - 1, a.n1, a.n2, a.get⟩
/-- `a[:, :-1, :]`. -/
def init1 (a : Arr3 α) : Arr3 α := ⟨a.n0, a.n1 - 1, a.n2, a.get⟩
/-- `a[:, :, :-1]`. -/
def init2 (a : Arr3 α) : Arr3 α := ⟨a.n0, a.n1, a.n2 - 1, a.get⟩
/-- `a[1:, :, :]`. -/
def tail0 (a : Arr3 α) : Arr3 α := ⟨a.n0 - 1, a.n1, a.n2, fun i j k => a.get (i + 1) j k⟩
/-- `a[:, 1:, :]`. -/
def tail1 (a : Arr3 α) : Arr3 α := ⟨a.n0, a.n1 - 1, a.n2, fun i j k => a.get i (j + 1) k⟩
/-- `a[:, :, 1:]`. -/
def tail2 (a : Arr3 α) : Arr3 α := ⟨a.n0, a.n1, a.n2 - 1, fun i j k => a.get i j (k + 1)⟩

/-- `np.stack(arrays, axis=3)`. -/
def stack {m : ℕ} [NeZero m] (as : Fin m → Arr3 α) : Arr3 (Fin m → α) :=
  ⟨(as 0).n0, (as 0).n1, (as 0).n2, fun i j k c => (as c).get i j k⟩

/-- `np.transpose(a, (2, 1, 0))`. -/
def transpose210 (a : Arr3 α) : Arr3 α := ⟨a.n2, a.n1, a.n0, fun i j k => a.get k j i⟩

end Arr3

/-- `xv, yv, zv = np.meshgrid(x, y, z, indexing='ij')`. -/
def meshgrid3 {α : Type*} (x y z : Arr1 α) : Fin 3 → Arr3 α :=
  ![⟨x.n, y.n, z.n, fun i _ _ => x.get i⟩, ⟨x.n, y.n, z.n, fun _ j _ => y.get j⟩,
    ⟨x.n, y.n, z.n, fun _ _ k => z.get k⟩]

/-- `xv, yv = np.meshgrid(x, y, indexing='ij')`. -/
def meshgrid2 {α : Type*} (x y : Arr1 α) : Fin 2 → Arr2 α :=
  ![⟨x.n, y.n, fun i _ => x.get i⟩, ⟨x.n, y.n, fun _ j => y.get j⟩]

end Verif
