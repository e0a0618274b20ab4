import Mathlib.Analysis.Calculus.FDeriv.Linear
import Mathlib.Analysis.Calculus.FDeriv.Comp
import Mathlib.Analysis.Calculus.FDeriv.Pi
import Mathlib.Analysis.Calculus.FDeriv.Add
import Mathlib.LinearAlgebra.Matrix.ToLin
import Mathlib.Topology.Algebra.Module.FiniteDimension

/-!
# Sparse Jacobians by graph colouring (model)

`jax_am/fem/experiments/sparsejac.py` (1-309), used by `jax_am/fem/experiments/sparse.py`.

Modelled: the connectivity matrices, networkx' greedy colouring for an arbitrary visiting order (the order is the colouring strategy), the projection, forward and
reverse mode, the expansion. `jax.jacrev` and `jax.jvp` are `fderiv`. `has_aux`, `argnums` and the type checks of the arguments are not modelled; shapes are in the types.
-/
namespace Verif.SparseJac

variable {m n : ℕ}

/-- A BCOO matrix: indices and values in storage order, duplicates allowed. -/
abbrev Bcoo (m n : ℕ) := List ((Fin m × Fin n) × ℝ)

/-- The dense matrix: values of equal indices are added (both jax and scipy). -/
def Bcoo.dense (S : Bcoo m n) : Matrix (Fin m) (Fin n) ℝ := Matrix.of fun i j => ((S.filter fun e => e.1 = (i, j)).map fun e => e.2).sum

/-- `_output_connectivity_from_sparsity` (sparsejac.py 213-225): `(S @ S.T).astype(bool)`. -/
def outputConnectivity (S : Bcoo m n) : Fin m → Fin m → Prop := fun i k => (S.dense * S.dense.transpose) i k ≠ 0

/-- `_input_connectivity_from_sparsity` (sparsejac.py 228-240): `(S.T @ S).astype(bool)`. -/
def inputConnectivity (S : Bcoo m n) : Fin n → Fin n → Prop := fun i k => (S.dense.transpose * S.dense) i k ≠ 0

/-! ## networkx greedy colouring -/

theorem exists_free (l : List ℕ) : ∃ c, c ∉ l := l.toFinset.exists_notMem.imp fun _ h => by simpa using h

/-- `for color in itertools.count(): if color not in neighbour_colors: break` (networkx `greedy_color`). -/
def firstFree (l : List ℕ) : ℕ := Nat.find (exists_free l)

/-- One step of networkx' `greedy_color`: the node gets the first colour not used by its coloured neighbours. -/
noncomputable def greedyStep {k : ℕ} (adj : Fin k → Fin k → Prop) (colors : Fin k → Option ℕ) (u : Fin k) : Fin k → Option ℕ :=
  open Classical in
  let neighbour_colors := ((List.finRange k).filter fun v => adj u v).filterMap colors
  Function.update colors u (some (firstFree neighbour_colors))

/-- `_greedy_color` (sparsejac.py 243-261) for the visiting order `order` (`largest_first`: decreasing degree). -/
noncomputable def greedyColor {k : ℕ} (adj : Fin k → Fin k → Prop) (order : List (Fin k)) : Fin k → Option ℕ :=
  order.foldl (greedyStep adj) fun _ => none

/-- `coloring` as an array; every node is coloured because the order contains all nodes. -/
noncomputable def coloring {k : ℕ} (adj : Fin k → Fin k → Prop) (order : List (Fin k)) (v : Fin k) : ℕ := (greedyColor adj order v).getD 0

/-- `onp.unique(coloring).size` (sparsejac.py 261). -/
def numColors {k : ℕ} (c : Fin k → ℕ) : ℕ := (Finset.univ.image c).card

/-! ## Forward and reverse mode -/

/-- `a[c, ...]` of jax: out-of-range positions are clamped to the last one. -/
def clampGet {N : ℕ} {α : Type*} (a : Fin N → α) (c : ℕ) (hN : 0 < N) : α := a ⟨min c (N - 1), by omega⟩

/-- Jacobian matrix of `f` at `x`: entry `(i, j)` is `∂f_i/∂x_j`. -/
noncomputable def jac {a b : ℕ} (f : (Fin a → ℝ) → (Fin b → ℝ)) (x : Fin a → ℝ) : Matrix (Fin b) (Fin a) ℝ :=
  Matrix.of fun i j => fderiv ℝ f x (Pi.single j 1) i

/-- `projection_matrix` (sparsejac.py 72-74). -/
noncomputable def projection {N : ℕ} (c : Fin m → ℕ) : Matrix (Fin N) (Fin m) ℝ := Matrix.of fun a r => if a.1 = c r then 1 else 0

/-- `jacrev` (sparsejac.py 66-112) followed by `_expand_jacrev_jac` (264-286), for the edge relation `adj` used by networkx. -/
noncomputable def jacrev (adj : Fin m → Fin m → Prop) (f : (Fin n → ℝ) → (Fin m → ℝ)) (S : Bcoo m n) (order : List (Fin m)) (x : Fin n → ℝ) :
    Bcoo m n :=
  let output_coloring := coloring adj order
  let ncolors := numColors output_coloring
  let P : Matrix (Fin ncolors) (Fin m) ℝ := projection output_coloring
  let compressed_jac := jac (fun x => P.mulVec (f x)) x
  S.map fun e => (e.1, if h : 0 < ncolors then clampGet (fun a => compressed_jac a e.1.2) (output_coloring e.1.1) h else 0)

/-- `jacfwd` (sparsejac.py 164-205) followed by `_expand_jacfwd_jac` (289-309): one `jvp` per column of `basis`. -/
noncomputable def jacfwd (adj : Fin n → Fin n → Prop) (f : (Fin n → ℝ) → (Fin m → ℝ)) (S : Bcoo m n) (order : List (Fin n)) (x : Fin n → ℝ) :
    Bcoo m n :=
  let input_coloring := coloring adj order
  let ncolors := numColors input_coloring
  let basis : Fin ncolors → Fin n → ℝ := fun a c => if a.1 = input_coloring c then 1 else 0
  let compressed_jac_transpose : Fin ncolors → Fin m → ℝ := fun a => fderiv ℝ f x (basis a)
  S.map fun e => (e.1, if h : 0 < ncolors then clampGet (fun a => compressed_jac_transpose a e.1.1) (input_coloring e.1.2) h else 0)

end Verif.SparseJac
