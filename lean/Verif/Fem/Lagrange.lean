import Verif.Fem.SolverLemmas

/-!
# The Lagrange multiplier solver and the dispatcher (model of `jax_am/fem/solver.py` 408-654, 684-850)

The vector of unknowns and multipliers is again a function on flat indices; the multipliers follow the `num_total_dofs` degrees of freedom.
-/
namespace Verif.Fem
open Finset

/-- One entry of `p_node_inds_list_A`, `p_node_inds_list_B`, `p_vec_inds_list`. -/
structure PGroup where
  nodesA : List ℕ
  nodesB : List ℕ
  comps : List ℕ

/-- A problem with periodic constraints; `eps` is `p_num_eps` (solver.py 605-609). -/
structure LProb (K E : Type) extends Prob K E where
  pgroups : List PGroup
  eps : ℝ

/-- `np.cumsum(sizes).tolist()`, starting from `s`. -/
def npCumsum : ℕ → List ℕ → List ℕ
  | _, [] => []
  | s, n :: ns => (s + n) :: npCumsum (s + n) ns

/-- `np.split(l, cuts)`: `l[s:cuts[0]], l[cuts[0]:cuts[1]], ..., l[cuts[-1]:]`. -/
def npSplit {K : Type} (l : List K) : ℕ → List ℕ → List (List K)
  | s, [] => [l.drop s]
  | s, c :: cs => (l.drop s).take (c - s) :: npSplit l c cs

namespace LProb
variable {K E : Type} (ar : Arith K) (L : LProb K E)

/-- Flat positions of `sol[p_node_inds_list_A[i], p_vec_inds_list[i]]`. -/
def idxA (g : PGroup) : List ℕ := List.zipWith (fun n c => L.vec * n + c) g.nodesA g.comps

/-- Flat positions of `sol[p_node_inds_list_B[i], p_vec_inds_list[i]]`. -/
def idxB (g : PGroup) : List ℕ := List.zipWith (fun n c => L.vec * n + c) g.nodesB g.comps

/-- `aug_size` (solver.py 413-417). -/
def augSize : ℕ := (L.groups.map fun g => g.nodes.length).sum + (L.pgroups.map fun g => g.nodesA.length).sum

/-- `aug_dof_w_zero_bc` (solver.py 412-418); also `dofs_aug[:num_total_dofs]` (the entries beyond are cut off). -/
def augZero (x : ℕ → K) : ℕ → K := fun d => if d < L.numDofs then x d else ar.zero

/-- `aug_dof_w_bc` (solver.py 421-428). -/
def augBc (x : ℕ → K) : ℕ → K := fun d =>
  if d < L.numDofs then x d
  else ((L.groups.flatMap fun g => g.vals.map (ar.scale L.eps)) ++ L.pgroups.flatMap fun g => g.nodesA.map fun _ => ar.zero).getD (d - L.numDofs) ar.zero

/-- `Lagrangian_fn` (solver.py 455-496), over the reals. -/
def lagrangian (L : LProb ℝ E) (x : ℕ → ℝ) : ℝ :=
  let dSplits := npCumsum 0 (L.groups.map fun g => g.nodes.length)
  let pSplits := npCumsum 0 (L.pgroups.map fun g => g.nodesA.length)
  let dLen := dSplits.getLast?.getD 0
  let lmbda := (List.range L.augSize).map fun k => x (L.numDofs + k)
  let dPieces := npSplit (lmbda.take dLen) 0 dSplits
  let pPieces := npSplit (lmbda.drop dLen) 0 pSplits
  let lagD := ((L.groups.zip dPieces).map fun p => (List.zipWith (· * ·) p.2 (List.zipWith (· - ·) ((L.idx p.1).map x) p.1.vals)).sum).sum
  let lagP := ((L.pgroups.zip pPieces).map fun p => (List.zipWith (· * ·) p.2 (List.zipWith (· - ·) ((L.idxA p.1).map x) ((L.idxB p.1).map x))).sum).sum
  L.eps * (lagD + lagP)

/-- `compute_residual_lm` (solver.py 455-506), over the reals: `jax.grad` of the Lagrangian plus the padded physical residual. -/
noncomputable def residualLm (L : LProb ℝ E) (res x : ℕ → ℝ) (d : ℕ) : ℝ :=
  deriv (fun t : ℝ => L.lagrangian (x + t • Pi.single d 1)) 0 + L.augZero realArith res d

/-- A constraint `sol[a] - rhs` or `sol[a] - sol[b]`. -/
structure CRow (K : Type) where
  a : ℕ
  b : Option ℕ
  rhs : K

/-- All constraints in the order of their multipliers. -/
def rows : List (CRow K) := (L.groups.flatMap fun g => ((L.idx g).zip g.vals).map fun p => ⟨p.1, none, p.2⟩) ++
  L.pgroups.flatMap fun g => ((L.idxA g).zip (L.idxB g)).map fun p => ⟨p.1, some p.2, ar.zero⟩

/-- The violation of a constraint. -/
def gap (r : CRow K) (x : ℕ → K) : K :=
  match r.b with
  | none => ar.add (x r.a) (ar.neg r.rhs)
  | some b => ar.add (x r.a) (ar.neg (x b))

/-- What reverse-mode differentiation of `Lagrangian_fn` evaluates, in any arithmetic: scatter-added multipliers for the degrees of freedom, scaled constraint violations for the multipliers.
`C24_reverse_mode` proves that over the reals this is the gradient of the Lagrangian. -/
def gradLag (x : ℕ → K) (d : ℕ) : K :=
  if d < L.numDofs then
    ((L.rows ar).zipIdx L.numDofs).foldl (fun s p =>
      let s := if p.1.a = d then ar.add s (ar.scale L.eps (x p.2)) else s
      if p.1.b = some d then ar.add s (ar.neg (ar.scale L.eps (x p.2))) else s) ar.zero
  else
    match (L.rows ar)[d - L.numDofs]? with
    | some r => ar.scale L.eps (gap ar r x)
    | none => ar.zero

/-- `compute_residual_lm` as evaluated in any arithmetic. -/
def residualAr (res x : ℕ → K) (d : ℕ) : K := ar.add (L.gradLag ar x d) (L.augZero ar res d)

/-- The Dirichlet part of the constraint matrix (solver.py 517-528), as triplets (row, column, value); second component the final `group_index`. -/
def dTriplets : ℕ → List (Group K) → List (ℕ × ℕ × K) × ℕ
  | gi, [] => ([], gi)
  | gi, g :: gs =>
    let size := g.nodes.length
    let rest := dTriplets (gi + size) gs
    (List.zipWith (fun i j => (i, gi + j, ar.scale L.eps ar.one)) (L.idx g) (List.range size) ++ rest.1, rest.2)

/-- The periodic part (solver.py 530-544). -/
def pTriplets : ℕ → List PGroup → List (ℕ × ℕ × K) × ℕ
  | gi, [] => ([], gi)
  | gi, g :: gs =>
    let size := g.nodesA.length
    let rest := pTriplets (gi + size) gs
    (List.zipWith (fun i j => (i, gi + j, ar.scale L.eps ar.one)) (L.idxA g) (List.range size) ++
      List.zipWith (fun i j => (i, gi + j, ar.neg (ar.scale L.eps ar.one))) (L.idxB g) (List.range size) ++ rest.1, rest.2)

/-- `symmetry` (solver.py 511-515). -/
def symmetry (T : List (ℕ × ℕ × K)) : List (ℕ × ℕ × K) := T ++ T.map fun t => (t.2.1, t.1, t.2.2)

/-- The augmented triplets and the matrix size (solver.py 517-556). -/
def augTriplets (nw : Newton K) : List (ℕ × ℕ × K) × ℕ :=
  let dt := L.dTriplets ar L.numDofs L.groups
  let pt := L.pTriplets ar dt.2 L.pgroups
  (nw.I.zip (nw.J.zip nw.V) ++ symmetry dt.1 ++ symmetry pt.1, pt.2)

/-- `compute_linearized_residual` (solver.py 562-563): the product with the augmented matrix. -/
def augOp (nw : Newton K) : (ℕ → K) → ℕ → K :=
  let T := (L.augTriplets ar nw).1
  Prob.spMul ar (T.map fun t => t.1) (T.map fun t => t.2.1) (T.map fun t => t.2.2)

/-- `newton_update_helper` (solver.py 616-621) with `get_A_fn_and_res_aug` (509-581). With `use_petsc` the matrix is bound to `A` while `A_aug` is returned: `A_aug` is a local variable without value. -/
def augHelper (usePetsc : Bool) (x : ℕ → K) : Except (SolveErr E) (Newton K × ((ℕ → K) → ℕ → K) × (ℕ → K)) :=
  match L.newton (L.augZero ar x) with
  | .error e => .error (.raised e)
  | .ok nw =>
    let aAug : Option ((ℕ → K) → ℕ → K) := if usePetsc then none else some (L.augOp ar nw)
    let resAug := L.residualAr ar nw.res x
    match aAug with
    | none => .error .unboundLocal
    | some op => .ok (nw, op, resAug)

variable (lin : ℕ → LinCall K → ℕ → K)

/-- `linear_guess_solve_lm` (solver.py 431-441). -/
def linearGuessLm (usePetsc : Bool) (nw : Newton K) (op : (ℕ → K) → ℕ → K) : ℕ → K :=
  let b := L.augBc ar nw.load
  if usePetsc then lin 0 ⟨true, op, b, none, none⟩
  else lin 0 ⟨false, op, b, some (L.augZero ar (L.assignBc fun _ => ar.zero)), none⟩

/-- `linear_incremental_solver_lm` (solver.py 444-452). -/
def linearIncrementalLm (k : ℕ) (usePetsc : Bool) (op : (ℕ → K) → ℕ → K) (resAug x : ℕ → K) : ℕ → K :=
  let b := fun d => ar.neg (resAug d)
  let inc := lin k ⟨usePetsc, op, b, none, none⟩
  fun d => ar.add (x d) (inc d)

/-- `np.linalg.norm(res_vec_aug)`. -/
def normLm (r : ℕ → K) : K := ar.norm ((List.range (L.numDofs + L.augSize)).map r)

/-- The `while res_val > tol` loop (solver.py 638-645). -/
def lmLoop (usePetsc : Bool) : ℕ → ℕ → (ℕ → K) → ((ℕ → K) → ℕ → K) × (ℕ → K) → Except (SolveErr E) (ℕ → K)
  | fuel, k, x, st =>
    if ar.gt (L.normLm ar st.2) ar.tol then
      match fuel with
      | 0 => .error .running
      | fuel + 1 =>
        let x := linearIncrementalLm ar lin k usePetsc st.1 st.2 x
        match L.augHelper ar usePetsc x with
        | .error e => .error e
        | .ok st => lmLoop usePetsc fuel (k + 1) x st.2
    else .ok x

/-- `solver_lagrange_multiplier` (solver.py 584-654); returns the whole vector `dofs_aug`, of which the code keeps the first `num_total_dofs` entries (`solver` below). -/
def lmSolverAug (linear usePetsc : Bool) (fuel : ℕ) : Except (SolveErr E) (ℕ → K) :=
  if linear then do
    let x := L.augZero ar (L.assignBc fun _ => ar.zero)
    let st ← L.augHelper ar usePetsc x
    pure (linearIncrementalLm ar lin 0 usePetsc st.2.1 st.2.2 x)
  else do
    let x := L.augZero ar fun _ => ar.zero
    let st ← L.augHelper ar usePetsc x
    let x := L.linearGuessLm ar lin usePetsc st.1 st.2.1
    let st ← L.augHelper ar usePetsc x
    L.lmLoop ar lin usePetsc fuel 1 x st.2

/-- `solver_lagrange_multiplier`: the result cut to the degrees of freedom (solver.py 647). -/
def lmSolver (linear usePetsc : Bool) (fuel : ℕ) : Except (SolveErr E) (ℕ → K) := do
  let x ← L.lmSolverAug ar lin linear usePetsc fuel
  pure (L.augZero ar x)

/-- `solver` (solver.py 836-850); `periodic` is `problem.periodic_bc_info is not None`. -/
def solver (periodic linear precond usePetsc : Bool) (guess : Option (ℕ → K)) (fuel : ℕ) : Except (SolveErr E) (ℕ → K) :=
  if periodic then L.lmSolver ar lin linear usePetsc fuel else L.rowSolver ar lin linear precond usePetsc guess fuel

/-- The first two statements of `dynamic_relax_solve` (solver.py 725-732) and, abstractly, the rest. `dofs` is a local variable (it is assigned on line 732) without value when line 731 reads it;
`sol_shape` is not defined anywhere. Both are options here: `none` means unbound. -/
def dynamicRelaxFrom (dofs : Option (ℕ → K)) (solShape : Option Unit) (rest : (ℕ → K) → Except (SolveErr E) (ℕ → K)) : Except (SolveErr E) (ℕ → K) :=
  match dofs with
  | none => .error .unboundLocal
  | some dofs =>
    match solShape with
    | none => .error .nameError
    | some () =>
      match L.newton dofs with
      | .error e => .error (.raised e)
      | .ok nw => rest (L.linearGuess ar lin 0 true false nw)

/-- `dynamic_relax_solve` (solver.py 713-831): neither variable has a value. -/
def dynamicRelax (rest : (ℕ → K) → Except (SolveErr E) (ℕ → K)) : Except (SolveErr E) (ℕ → K) := L.dynamicRelaxFrom ar lin none none rest

end LProb

/-- `calC` (solver.py 685-693). -/
noncomputable def calC (t cmin cmax : ℝ) : ℝ :=
  let t := if t < 0 then 0 else t
  let c := 2 * Real.sqrt t
  let c := if c < cmin then cmin else c
  if c > cmax then cmax else c

end Verif.Fem
