import Verif.Fem.Tangent
import Verif.Fem.Boundary

/-!
# The row-elimination solver (model of the first half of `jax_am/fem/solver.py`)

A vector of degrees of freedom is a function `ℕ → K` on flat indices `vec * node + component`; only indices below `num_total_nodes * vec` exist in the code.
The scalar operations are a parameter (`Arith`): exact reals (`realArith`) and reals with infinities and NaN (`Fl`, `flArith`) are the two instances used.
Linear solvers (PETSc, bicgstab) are an arbitrary function of the call and of a call counter.
-/
namespace Verif.Fem
open Finset

/-- The scalar operations used by the solver. -/
structure Arith (K : Type) where
  zero : K
  one : K
  add : K → K → K
  neg : K → K
  mul : K → K → K
  /-- multiplication by a Python float -/
  scale : ℝ → K → K
  /-- `np.linalg.norm` -/
  norm : List K → K
  /-- `>` -/
  gt : K → K → Bool
  /-- `np.isfinite` -/
  isFinite : K → Bool
  /-- the tolerance `1e-6` -/
  tol : K

/-- Exact real arithmetic. -/
noncomputable def realArith : Arith ℝ where
  zero := 0
  one := 1
  add := (· + ·)
  neg := (- ·)
  mul := (· * ·)
  scale := (· * ·)
  norm l := Real.sqrt (l.map (· ^ 2)).sum
  gt a b := open Classical in decide (a > b)
  isFinite _ := true
  tol := 1e-6

/-- Floating-point values without rounding: a real, an infinity or NaN. -/
inductive Fl
  | fin (x : ℝ)
  | pinf
  | ninf
  | nan

namespace Fl

def neg : Fl → Fl
  | fin x => fin (-x)
  | pinf => ninf
  | ninf => pinf
  | nan => nan

noncomputable def add : Fl → Fl → Fl
  | fin x, fin y => fin (x + y)
  | nan, _ => nan
  | _, nan => nan
  | pinf, ninf => nan
  | ninf, pinf => nan
  | pinf, _ => pinf
  | _, pinf => pinf
  | ninf, _ => ninf
  | _, ninf => ninf

/-- A signed infinity times a real. -/
noncomputable def infMul (s : Bool) (x : ℝ) : Fl :=
  open Classical in if x = 0 then nan else if (0 < x) = (s = true) then pinf else ninf

noncomputable def mul : Fl → Fl → Fl
  | fin x, fin y => fin (x * y)
  | nan, _ => nan
  | _, nan => nan
  | pinf, fin y => infMul true y
  | ninf, fin y => infMul false y
  | fin x, pinf => infMul true x
  | fin x, ninf => infMul false x
  | pinf, pinf => pinf
  | ninf, ninf => pinf
  | pinf, ninf => ninf
  | ninf, pinf => ninf

def isFinite : Fl → Bool
  | fin _ => true
  | _ => false

def isNan : Fl → Bool
  | nan => true
  | _ => false

/-- The finite value (0 otherwise). -/
def val : Fl → ℝ
  | fin x => x
  | _ => 0

noncomputable def norm (l : List Fl) : Fl :=
  if l.any isNan then nan else if l.all isFinite then fin (Real.sqrt (l.map fun x => x.val ^ 2).sum) else pinf

noncomputable def gt : Fl → Fl → Bool
  | fin x, fin y => open Classical in decide (x > y)
  | nan, _ => false
  | _, nan => false
  | pinf, pinf => false
  | pinf, _ => true
  | fin _, ninf => true
  | _, _ => false

end Fl

/-- Arithmetic with infinities and NaN. -/
noncomputable def flArith : Arith Fl where
  zero := .fin 0
  one := .fin 1
  add := Fl.add
  neg := Fl.neg
  mul := Fl.mul
  scale a x := Fl.mul (.fin a) x
  norm := Fl.norm
  gt := Fl.gt
  isFinite := Fl.isFinite
  tol := .fin 1e-6

/-- One entry of `node_inds_list`, `vec_inds_list`, `vals_list`. -/
structure Group (K : Type) where
  nodes : List ℕ
  comps : List ℕ
  vals : List K

/-- What `newton_update` leaves behind: the residual, the attributes `I`, `J`, `V` and `body_force + neumann`. -/
structure Newton (K : Type) where
  res : ℕ → K
  I : List ℕ
  J : List ℕ
  V : List K
  load : ℕ → K

/-- The part of a `FEM` problem the solver uses. -/
structure Prob (K E : Type) where
  vec : ℕ
  numNodes : ℕ
  groups : List (Group K)
  newton : (ℕ → K) → Except E (Newton K)

namespace Prob
variable {K E : Type} (ar : Arith K) (P : Prob K E)

/-- `num_total_dofs`. -/
def numDofs : ℕ := P.numNodes * P.vec

/-- Flat positions of `[node_inds_list[i], vec_inds_list[i]]` (solver.py 320-322: `node_inds * vec + vec_inds`). -/
def idx (g : Group K) : List ℕ := List.zipWith (fun n c => P.vec * n + c) g.nodes g.comps

end Prob

/-- `x.at[idx].set(vals)`. -/
def setAt {K : Type} (x : ℕ → K) (idx : List ℕ) (vals : List K) : ℕ → K := (idx.zip vals).foldl (fun y p => Function.update y p.1 p.2) x

/-- `x.at[idx].add(vals)` in the given arithmetic. -/
def addAt {K : Type} (ar : Arith K) (x : ℕ → K) (idx : List ℕ) (vals : List K) : ℕ → K :=
  (idx.zip vals).foldl (fun y p => Function.update y p.1 (ar.add (y p.1) p.2)) x

namespace Prob
variable {K E : Type} (ar : Arith K) (P : Prob K E)

/-- `apply_bc_vec` (solver.py 83-92). -/
def applyBcVec (res dofs : ℕ → K) : ℕ → K :=
  P.groups.foldl (fun r g => addAt ar (setAt r (P.idx g) ((P.idx g).map dofs)) (P.idx g) (g.vals.map ar.neg)) res

/-- `row_elimination` (solver.py 106-119). -/
def rowElimination (fn : (ℕ → K) → ℕ → K) (dofs : ℕ → K) : ℕ → K :=
  P.groups.foldl (fun r g => setAt r (P.idx g) ((P.idx g).map dofs)) (fn dofs)

/-- `assign_bc` (solver.py 122-127). -/
def assignBc (dofs : ℕ → K) : ℕ → K := P.groups.foldl (fun s g => setAt s (P.idx g) g.vals) dofs

/-- `assign_ones_bc` (solver.py 130-135). -/
def assignOnesBc (dofs : ℕ → K) : ℕ → K := P.groups.foldl (fun s g => setAt s (P.idx g) ((P.idx g).map fun _ => ar.one)) dofs

/-- `assign_zeros_bc` (solver.py 138-143). -/
def assignZerosBc (dofs : ℕ → K) : ℕ → K := P.groups.foldl (fun s g => setAt s (P.idx g) ((P.idx g).map fun _ => ar.zero)) dofs

/-- `copy_bc` (solver.py 146-154). -/
def copyBc (dofs : ℕ → K) : ℕ → K := P.groups.foldl (fun s g => setAt s (P.idx g) ((P.idx g).map dofs)) fun _ => ar.zero

/-- The sparse matrix built from the triplets (`csr_array`, solver.py 306-308): duplicates are added. -/
def entry (I J : List ℕ) (V : List K) (r c : ℕ) : K :=
  (I.zip (J.zip V)).foldl (fun s t => if t.1 = r ∧ t.2.1 = c then ar.add s t.2.2 else s) ar.zero

/-- `A_sp @ dofs` (solver.py 314-315). -/
def spMul (I J : List ℕ) (V : List K) (x : ℕ → K) (r : ℕ) : K :=
  (I.zip (J.zip V)).foldl (fun s t => if t.1 = r then ar.add s (ar.mul t.2.2 (x t.2.1)) else s) ar.zero

/-- A dense matrix times a vector, `n` columns (`A.mult` of PETSc). -/
def denseMul (n : ℕ) (M : ℕ → ℕ → K) (x : ℕ → K) (r : ℕ) : K := (List.range n).foldl (fun s c => ar.add s (ar.mul (M r c) (x c))) ar.zero

/-- `A.zeroRows(rows)`: PETSc replaces the rows by unit rows. -/
def zeroRows (M : ℕ → ℕ → K) (rows : List ℕ) : ℕ → ℕ → K := fun r c => if r ∈ rows then (if r = c then ar.one else ar.zero) else M r c

/-- The PETSc matrix of `get_A_fn` (solver.py 317-325). -/
def petscMatrix (I J : List ℕ) (V : List K) : ℕ → ℕ → K := P.groups.foldl (fun M g => zeroRows ar M (P.idx g)) (entry ar I J V)

/-- `get_A_fn` (solver.py 304-329), as an operator on vectors. -/
def getAFn (usePetsc : Bool) (nw : Newton K) : (ℕ → K) → ℕ → K :=
  if usePetsc then denseMul ar P.numDofs (P.petscMatrix ar nw.I nw.J nw.V) else P.rowElimination (spMul ar nw.I nw.J nw.V)

/-- `jacobi_preconditioner` (solver.py 202-206). -/
def jacobi (nw : Newton K) : ℕ → K := P.assignOnesBc ar fun d => entry ar nw.I nw.J nw.V d d

end Prob

/-- A call of a linear solver: `petsc_solve(A, b, ..)` or `jax_solve(problem, A, b, x0, precond)`. -/
structure LinCall (K : Type) where
  petsc : Bool
  op : (ℕ → K) → ℕ → K
  b : ℕ → K
  x0 : Option (ℕ → K)
  pc : Option (ℕ → K)

/-- Errors of the solver: an assertion, an exception of the problem, or still running when the fuel is used up. -/
inductive SolveErr (E : Type)
  | assertion
  | raised (e : E)
  | running
  | unboundLocal
  | nameError

namespace Prob
variable {K E : Type} (ar : Arith K) (P : Prob K E) (lin : ℕ → LinCall K → ℕ → K)

/-- `newton_update_helper` (solver.py 357-361). -/
def helper (dofs : ℕ → K) : Except (SolveErr E) (Newton K × (ℕ → K)) :=
  match P.newton dofs with
  | .error e => .error (.raised e)
  | .ok nw => .ok (nw, P.applyBcVec ar nw.res dofs)

/-- `linear_guess_solve` (solver.py 233-242). -/
def linearGuess (k : ℕ) (precond usePetsc : Bool) (nw : Newton K) : ℕ → K :=
  let b := P.assignBc nw.load
  if usePetsc then lin k ⟨true, P.getAFn ar true nw, b, none, none⟩
  else lin k ⟨false, P.getAFn ar false nw, b, some b, if precond then some (P.jacobi ar nw) else none⟩

/-- `linear_incremental_solver` (solver.py 245-264). -/
def linearIncremental (k : ℕ) (precond usePetsc : Bool) (nw : Newton K) (resVec dofs : ℕ → K) : ℕ → K :=
  let b := fun d => ar.neg (resVec d)
  let inc :=
    if usePetsc then lin k ⟨true, P.getAFn ar true nw, b, none, none⟩
    else
      let x01 := P.assignBc fun _ => ar.zero
      let x02 := P.copyBc ar dofs
      lin k ⟨false, P.getAFn ar false nw, b, some fun d => ar.add (x01 d) (ar.neg (x02 d)), if precond then some (P.jacobi ar nw) else none⟩
  fun d => ar.add (dofs d) (inc d)

/-- `np.linalg.norm(res_vec)`. -/
def resNorm (r : ℕ → K) : K := ar.norm ((List.range P.numDofs).map r)

/-- The `while res_val > tol` loop (solver.py 387-394). -/
def newtonLoop (precond usePetsc : Bool) : ℕ → ℕ → (ℕ → K) → Newton K × (ℕ → K) → Except (SolveErr E) ((ℕ → K) × K)
  | fuel, k, dofs, st =>
    if ar.gt (P.resNorm ar st.2) ar.tol then
      match fuel with
      | 0 => .error .running
      | fuel + 1 =>
        let dofs := P.linearIncremental ar lin k precond usePetsc st.1 st.2 dofs
        match P.helper ar dofs with
        | .error e => .error e
        | .ok st => newtonLoop precond usePetsc fuel (k + 1) dofs st
    else .ok (dofs, P.resNorm ar st.2)

/-- The two assertions at the end (solver.py 396-399). -/
def checkFinite (out : (ℕ → K) × K) : Except (SolveErr E) (ℕ → K) :=
  if ar.isFinite out.2 then (if (List.range P.numDofs).all fun d => ar.isFinite (out.1 d) then .ok out.1 else .error .assertion) else .error .assertion

/-- `solver_row_elimination` (solver.py 332-405). -/
def rowSolver (linear precond usePetsc : Bool) (guess : Option (ℕ → K)) (fuel : ℕ) : Except (SolveErr E) (ℕ → K) := do
  let dofs : ℕ → K := fun _ => ar.zero
  let out ← (if linear then do
      let dofs := P.assignBc dofs
      let st ← P.helper ar dofs
      let dofs := P.linearIncremental ar lin 0 precond usePetsc st.1 st.2 dofs
      let st ← P.helper ar dofs
      pure (dofs, P.resNorm ar st.2)
    else do
      let dofs ← (match guess with
        | none => do
          let st ← P.helper ar dofs
          pure (P.linearGuess ar lin 0 precond usePetsc st.1)
        | some g => pure g)
      let st ← P.helper ar dofs
      P.newtonLoop ar lin precond usePetsc fuel 1 dofs st)
  P.checkFinite ar out

/-- The `for i in range(3)` loop of `line_search` (solver.py 289-297); `f` is `res_norm_fn`. -/
noncomputable def lineSearchLoop (f : ℝ → K) : ℕ → ℝ → K → ℝ
  | 0, alpha, _ => alpha
  | i + 1, alpha, resNorm =>
    let alpha := alpha * 0.5
    let half := f alpha
    if ar.gt half resNorm then alpha * 2 else lineSearchLoop f i alpha half

/-- `res_norm_fn` (solver.py 272-274); `res` is the flattened `compute_residual`. -/
def resNormFn (res : (ℕ → K) → ℕ → K) (dofs inc : ℕ → K) (alpha : ℝ) : K :=
  let u : ℕ → K := fun d => ar.add (dofs d) (ar.scale alpha (inc d))
  P.resNorm ar (P.applyBcVec ar (res u) u)

/-- `line_search` (solver.py 267-301). -/
noncomputable def lineSearch (res : (ℕ → K) → ℕ → K) (dofs inc : ℕ → K) : ℕ → K :=
  let f := P.resNormFn ar res dofs inc
  let alpha := lineSearchLoop ar f 3 1 (f 1)
  fun d => ar.add (dofs d) (ar.scale alpha (inc d))

end Prob
end Verif.Fem
