import Mathlib.Analysis.Matrix.Spectrum
import Mathlib.Analysis.Calculus.DSlope
import Mathlib.Analysis.Calculus.Deriv.Basic
import Mathlib.Analysis.Normed.Group.Constructions
import Mathlib.Topology.Algebra.Module.FiniteDimension
import Mathlib.Algebra.Order.BigOperators.Ring.Finset

/-!
# Functions of symmetric matrices and their derivative (demos/fem/phase_field_fracture/eigen.py)

`np.linalg.eigh` is an oracle: any function whose results are eigendecompositions. jax symmetrises the input of `eigh` by default, so that the
decomposition is that of `(x + xᵀ)/2`.
-/
namespace Verif.Fem
open Finset
open scoped Matrix

variable {n : ℕ}

/-- Result of `np.linalg.eigh` after `evecs = evecs.T` (eigen.py 13-14): eigenvalues, and eigenvectors as rows. -/
structure Eigh (n : ℕ) where
  vals : Fin n → ℝ
  vecs : Fin n → Fin n → ℝ

/-- What is trusted about `np.linalg.eigh(x)`: orthonormal vectors and `(x + xᵀ)/2 = ∑ λ_a u_a u_aᵀ`. -/
structure IsEigh (x : Fin n → Fin n → ℝ) (e : Eigh n) : Prop where
  orth : ∀ a b, ∑ i, e.vecs a i * e.vecs b i = if a = b then 1 else 0
  decomp : ∀ i j, ∑ a, e.vals a * (e.vecs a i * e.vecs a j) = (x i j + x j i) / 2

/-- `M = np.einsum('bi,bj->bij', evecs, evecs)` (eigen.py 15, 32, 50). -/
def Eigh.M (e : Eigh n) (b i j : Fin n) : ℝ := e.vecs b i * e.vecs b j

/-- `result` of `eigen_f_jax` and of `eigen_f` (eigen.py 12-18, 28-34): `np.sum(M * fn_vmap(evals)[:, None, None], axis=0)`. -/
def Eigh.apply (e : Eigh n) (fn : ℝ → ℝ) (i j : Fin n) : ℝ := ∑ b, e.M b i j * fn (e.vals b)

/-- `get_eigen_f_custom(fn)` (eigen.py 22-34, 74), the value. -/
def eigenF (eigh : (Fin n → Fin n → ℝ) → Eigh n) (fn : ℝ → ℝ) (x : Fin n → Fin n → ℝ) : Fin n → Fin n → ℝ := (eigh x).apply fn

/-- `theta` (eigen.py 60-64). -/
noncomputable def Eigh.theta (e : Eigh n) (fn grad : ℝ → ℝ) (a b : Fin n) : ℝ :=
  let diff_evals := e.vals a - e.vals b
  let diff_fvals := fn (e.vals a) - fn (e.vals b)
  let diff_grads := grad (e.vals a)
  if diff_evals = 0 then diff_grads else diff_fvals / diff_evals

/-- `P` (eigen.py 52-69). -/
noncomputable def Eigh.tangent (e : Eigh n) (fn grad : ℝ → ℝ) (i j k l : Fin n) : ℝ :=
  let MM := fun b : Fin n => e.M b i j * e.M b k l
  let term1 := ∑ b, MM b * grad (e.vals b)
  let G := fun a b : Fin n => e.M a i k * e.M b j l + e.M a i l * e.M b j k
  let tmp := fun a b : Fin n => G a b * e.theta fn grad a b
  let tmp1 := ∑ a, ∑ b, tmp a b
  let tmp2 := ∑ a, tmp a a
  let term2 := 0.5 * (tmp1 - tmp2)
  term1 + term2

/-- `jvp_result` of `f_jvp` (eigen.py 37-72); `grad` is `jax.grad(fn)`. -/
noncomputable def eigenJvp (eigh : (Fin n → Fin n → ℝ) → Eigh n) (fn grad : ℝ → ℝ) (x v : Fin n → Fin n → ℝ) : Fin n → Fin n → ℝ :=
  fun i j => ∑ k, ∑ l, (eigh x).tangent fn grad i j k l * v k l

/-! ## Matrix form -/

/-- Symmetric part. -/
noncomputable def symM (x : Fin n → Fin n → ℝ) : Matrix (Fin n) (Fin n) ℝ := Matrix.of fun i j => (x i j + x j i) / 2

/-- Sum of squares of the entries. -/
def frob2 (A : Matrix (Fin n) (Fin n) ℝ) : ℝ := ∑ i, ∑ j, A i j ^ 2

namespace Eigh
variable (e e' : Eigh n)

/-- The eigenvectors as rows. -/
def U : Matrix (Fin n) (Fin n) ℝ := Matrix.of e.vecs

theorem apply_eq (fn : ℝ → ℝ) : (Matrix.of (e.apply fn) : Matrix (Fin n) (Fin n) ℝ) = e.Uᵀ * Matrix.diagonal (fun a => fn (e.vals a)) * e.U := by
  ext i j
  rw [Matrix.mul_apply]
  simp only [Matrix.mul_diagonal, Matrix.transpose_apply, Matrix.of_apply, apply, M, U]
  exact sum_congr rfl fun b _ => by ring

end Eigh

theorem frob2_eq (A : Matrix (Fin n) (Fin n) ℝ) : frob2 A = (Aᵀ * A).trace := by
  unfold frob2
  rw [Matrix.trace, sum_comm]
  refine sum_congr rfl fun j _ => ?_
  rw [Matrix.diag_apply, Matrix.mul_apply]
  exact sum_congr rfl fun i _ => by rw [Matrix.transpose_apply, sq]

theorem frob2_nonneg (A : Matrix (Fin n) (Fin n) ℝ) : 0 ≤ frob2 A := sum_nonneg fun _ _ => sum_nonneg fun _ _ => sq_nonneg _

namespace IsEigh
variable {x y : Fin n → Fin n → ℝ} {e e' : Eigh n}

theorem UUt (h : IsEigh x e) : e.U * e.Uᵀ = 1 := by
  ext a b
  rw [Matrix.mul_apply, Matrix.one_apply]
  exact h.orth a b

theorem UtU (h : IsEigh x e) : e.Uᵀ * e.U = 1 := mul_eq_one_comm.mp h.UUt

theorem sym (h : IsEigh x e) : symM x = Matrix.of (e.apply id) := by
  ext i j
  rw [symM, Matrix.of_apply, Matrix.of_apply, ← h.decomp, Eigh.apply]
  exact sum_congr rfl fun a _ => by simp only [Eigh.M, id]; ring

/-- In the eigenvector frames the value of a function is diagonal. -/
theorem frameL (h : IsEigh x e) (fn : ℝ → ℝ) (B : Matrix (Fin n) (Fin n) ℝ) (a b : Fin n) :
    (e.U * Matrix.of (e.apply fn) * B) a b = fn (e.vals a) * (e.U * B) a b := by
  rw [e.apply_eq, Matrix.mul_assoc e.Uᵀ, ← Matrix.mul_assoc e.U, h.UUt, Matrix.one_mul, Matrix.mul_assoc, Matrix.diagonal_mul]

theorem frameR (h : IsEigh x e) (fn : ℝ → ℝ) (B : Matrix (Fin n) (Fin n) ℝ) (a b : Fin n) :
    (B * Matrix.of (e.apply fn) * e.Uᵀ) a b = fn (e.vals b) * (B * e.Uᵀ) a b := by
  rw [e.apply_eq, Matrix.mul_assoc B, Matrix.mul_assoc (e.Uᵀ * _), h.UUt, Matrix.mul_one, ← Matrix.mul_assoc, Matrix.mul_diagonal, mul_comm]

/-- Rotating the frames keeps the sum of squares. -/
theorem frob2_frame (h : IsEigh x e) (h' : IsEigh y e') (A : Matrix (Fin n) (Fin n) ℝ) : frob2 (e.U * A * e'.Uᵀ) = frob2 A := by
  rw [frob2_eq, frob2_eq, Matrix.transpose_mul, Matrix.transpose_mul, Matrix.transpose_transpose]
  have : e'.U * (Aᵀ * e.Uᵀ) * (e.U * A * e'.Uᵀ) = e'.U * (Aᵀ * A * e'.Uᵀ) := by
    rw [Matrix.mul_assoc, Matrix.mul_assoc Aᵀ, ← Matrix.mul_assoc e.Uᵀ, ← Matrix.mul_assoc e.Uᵀ, h.UtU, Matrix.one_mul, Matrix.mul_assoc Aᵀ]
  rw [this, Matrix.trace_mul_comm, Matrix.mul_assoc, h'.UtU, Matrix.mul_one]

/-- Difference of two values in the mixed frame. -/
theorem frame_sub (h : IsEigh x e) (h' : IsEigh y e') (fn : ℝ → ℝ) (a b : Fin n) :
    (e.U * (Matrix.of (e'.apply fn) - Matrix.of (e.apply fn)) * e'.Uᵀ) a b = (fn (e'.vals b) - fn (e.vals a)) * (e.U * e'.Uᵀ) a b := by
  rw [Matrix.mul_sub, Matrix.sub_mul, Matrix.sub_apply, h.frameL, h'.frameR]
  ring

theorem frob2_sub (h : IsEigh x e) (h' : IsEigh y e') (fn : ℝ → ℝ) :
    frob2 (Matrix.of (e'.apply fn) - Matrix.of (e.apply fn)) = ∑ a, ∑ b, ((fn (e'.vals b) - fn (e.vals a)) * (e.U * e'.Uᵀ) a b) ^ 2 := by
  rw [← h.frob2_frame h']
  exact sum_congr rfl fun a _ => sum_congr rfl fun b _ => by rw [h.frame_sub h']

theorem frob2_sym (h : IsEigh x e) (h' : IsEigh y e') :
    frob2 (symM y - symM x) = ∑ a, ∑ b, ((e'.vals b - e.vals a) * (e.U * e'.Uᵀ) a b) ^ 2 := by
  rw [h.sym, h'.sym, h.frob2_sub h']
  rfl

theorem col_one (h : IsEigh x e) (h' : IsEigh y e') (b : Fin n) : ∑ a, (e.U * e'.Uᵀ) a b ^ 2 = 1 := by
  have : (e.U * e'.Uᵀ)ᵀ * (e.U * e'.Uᵀ) = 1 := by
    rw [Matrix.transpose_mul, Matrix.transpose_transpose, Matrix.mul_assoc, ← Matrix.mul_assoc e.Uᵀ, h.UtU, Matrix.one_mul, h'.UUt]
  have hb := congrFun (congrFun this b) b
  rw [Matrix.mul_apply, Matrix.one_apply_eq] at hb
  rw [← hb]
  exact sum_congr rfl fun a _ => by rw [Matrix.transpose_apply, sq]

end IsEigh
end Verif.Fem
