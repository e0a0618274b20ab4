import Mathlib.Analysis.SpecialFunctions.Pow.Real
import Mathlib.Algebra.Order.BigOperators.Ring.Finset
import Mathlib.LinearAlgebra.FiniteDimensional.Lemmas
import Mathlib.Analysis.SpecificLimits.Basic

/-!
# Dynamic relaxation (applications/fem/buckling/dr.py, jax_am/fem/solver.py 685-831)

The script `dr.py` is the FEniCS solver which `dynamic_relax_solve` of the package calls its model.
The assembled residual and tangent of FEniCS are arbitrary functions `F`, `J` of the unknowns; the boundary
conditions are a list of (unknown, value).  Real arithmetic.  A value that is not finite (0/0 in the damping or
a row sum 0 in `R / M`) is `none`: in the code NaN then enters `q`, next the residual, and the loop ends because `nan > tol` is false.
-/

namespace Verif.DynRelax

/-- Vectors of unknowns, `np.zeros(N)` (dr.py 128-134); the code takes maxima over them, so at least one unknown. -/
abbrev V (n : ℕ) := Fin (n + 1) → ℝ

/-- The arguments `F`, `J`, `bcs` of `DynamicRelaxSolve` (dr.py 120): assembled residual, assembled tangent, constrained unknowns with their values. -/
structure Prob (n : ℕ) where
  F : V n → V n
  J : V n → Fin (n + 1) → Fin (n + 1) → ℝ
  bcs : List (Fin (n + 1) × ℝ)

/-- applications/fem/buckling/dr.py 41-49, `applyBCs` on a vector: the listed values are written one after the other. -/
def writeBcs {n : ℕ} (bcs : List (Fin (n + 1) × ℝ)) (u : V n) : V n := bcs.foldl (fun u p => Function.update u p.1 p.2) u

/-- dr.py 30-38, `homogenizeBCs`. -/
def homogenize {n : ℕ} (bcs : List (Fin (n + 1) × ℝ)) : List (Fin (n + 1) × ℝ) := bcs.map fun p => (p.1, 0)

/-- dr.py 41-49, `applyBCs` on a matrix: the rows of constrained unknowns become rows of the unit matrix. -/
def writeRows {n : ℕ} (bcs : List (Fin (n + 1) × ℝ)) (A : Fin (n + 1) → Fin (n + 1) → ℝ) : Fin (n + 1) → Fin (n + 1) → ℝ :=
  bcs.foldl (fun A p => Function.update A p.1 (Pi.single p.1 1)) A

/-- dr.py 73-76, `assembleVec` with the homogenized conditions. -/
def assembleVec {n : ℕ} (P : Prob n) (u : V n) : V n := writeBcs (homogenize P.bcs) (P.F u)

/-- dr.py 79-83, `assembleCSR` (the sparse format is left out). -/
def assembleCSR {n : ℕ} (P : Prob n) (u : V n) : Fin (n + 1) → Fin (n + 1) → ℝ := writeRows P.bcs (P.J u)

/-- dr.py 86-94 (jax_am/fem/solver.py 685-693), `calC`; `none` is NaN, for which all comparisons are false. -/
noncomputable def calC (t : Option ℝ) (cmin cmax : ℝ) : Option ℝ :=
  t.map fun t =>
    let t := if t < 0 then 0 else t
    let c := 2 * Real.sqrt t
    let c := if c < cmin then cmin else c
    if c > cmax then cmax else c

/-- dr.py 126. -/
noncomputable def cmin : ℝ := 1e-3
/-- dr.py 126. -/
noncomputable def cmax : ℝ := 3.9
/-- dr.py 126. -/
noncomputable def h_tilde : ℝ := 1.1
/-- dr.py 126. -/
def h : ℝ := 1

/-- dr.py 147, 179: the lumped mass, `h_tilde²/4` times the row sums of absolute values. -/
noncomputable def massOf {n : ℕ} (K : Fin (n + 1) → Fin (n + 1) → ℝ) : V n := fun i => h_tilde * h_tilde / 4 * ∑ j, |K i j|

/-- `np.max(np.absolute(R))`, dr.py 163. -/
noncomputable def maxAbs {n : ℕ} (R : V n) : ℝ := Finset.univ.sup' Finset.univ_nonempty fun i => |R i|

/-- `R / M`, dr.py 149 and 183: not finite when an entry of `M` is 0. -/
noncomputable def divV {n : ℕ} (R M : V n) : Option (V n) := by
  classical exact if ∀ i, M i ≠ 0 then some fun i => R i / M i else none

/-- The variables carried by the loop, dr.py 130-151; `qdot = none` when it is not finite. -/
structure State (n : ℕ) where
  q : V n
  R : V n
  M : V n
  qdot : Option (V n)
  qdotdot : V n
  qdotdot_old : V n
  nIters : ℕ
  iKMat : ℕ
  error : ℝ

/-- dr.py 138-151: the state before the loop. -/
noncomputable def start {n : ℕ} (P : Prob n) (u : V n) : State n :=
  let u := writeBcs P.bcs u
  let R := assembleVec P u
  let M := massOf (assembleCSR P u)
  { q := u, R := R, M := M, qdot := (divV R M).map fun x i => - h / 2 * x i,
    qdotdot := fun _ => 0, qdotdot_old := fun _ => 0, nIters := 0, iKMat := 0, error := 1 }

/-- dr.py 170-173: the estimate whether the masses are still large enough. -/
noncomputable def epsOf {n : ℕ} (qdotdot qdotdot_old q q_old : V n) : V n := fun i =>
  h_tilde * h_tilde / 4 * |if q i - q_old i ≠ 0 then (qdotdot i - qdotdot_old i) / (q i - q_old i) else 0|

/-- dr.py 160-184: one pass of the loop with the velocity `v`. -/
noncomputable def body {n : ℕ} (P : Prob n) (nKMat : ℕ) (s : State n) (v : V n) : State n :=
  let q : V n := fun i => s.q i + h * v i
  let R := assembleVec P q
  let nIters := s.nIters + 1
  let iKMat := s.iKMat + 1
  let S0 := ∑ i, (R i - s.R i) / h * v i
  let den := ∑ i, v i * s.M i * v i
  let t : Option ℝ := if den = 0 then none else some (S0 / den)
  let c := calC t cmin cmax
  let eps := epsOf s.qdotdot s.qdotdot_old q s.q
  let M := if maxAbs eps > 1 ∧ iKMat > nKMat then massOf (assembleCSR P q) else s.M
  let qdot : Option (V n) := c.bind fun c => (divV R M).map fun x i => (2 - c * h) / (2 + c * h) * v i - 2 * h / (2 + c * h) * x i
  { q := q, R := R, M := M, qdot := qdot,
    qdotdot := match qdot with
      | some w => fun i => w i - v i
      | none => fun _ => 0,
    qdotdot_old := s.qdotdot, nIters := nIters, iKMat := if maxAbs eps > 1 ∧ iKMat > nKMat then 0 else iKMat, error := maxAbs R }

/-- What the caller sees: `u` and the returned `nIters`, `convergence`, dr.py 202-214 (after a failure `u` is not finite). -/
inductive Outcome (n : ℕ) where
  | converged (u : V n) (nIters : ℕ)
  | failed (nIters : ℕ)

/-- dr.py 155-190: the loop, for at most `fuel` passes (`none`: still running). -/
noncomputable def loop {n : ℕ} (P : Prob n) (nKMat : ℕ) (tol : ℝ) : ℕ → State n → Option (Outcome n)
  | fuel, s =>
    if s.error > tol then
      match s.qdot with
      | none => some (.failed (s.nIters + 1))
      | some v =>
        match fuel with
        | 0 => none
        | fuel + 1 => loop P nKMat tol fuel (body P nKMat s v)
    else some (.converged s.q s.nIters)

/-- dr.py 120-214, `DynamicRelaxSolve`. -/
noncomputable def dynamicRelaxSolve {n : ℕ} (P : Prob n) (nKMat : ℕ) (tol : ℝ) (fuel : ℕ) (u : V n) : Option (Outcome n) :=
  loop P nKMat tol fuel (start P u)

/-! ## Specification -/

/-- The constrained unknowns. -/
def Fixed {n : ℕ} (P : Prob n) (i : Fin (n + 1)) : Prop := i ∈ P.bcs.map Prod.fst

/-- `u` takes the prescribed values (the last one listed for an unknown). -/
def MeetsBcs {n : ℕ} (P : Prob n) (u : V n) : Prop :=
  ∀ l i x r, P.bcs = l ++ (i, x) :: r → i ∉ r.map Prod.fst → u i = x

/-- The problem is the linear system `A u = b` with a symmetric matrix, positive semidefinite on the free unknowns, without a zero row there. -/
structure IsLinear {n : ℕ} (P : Prob n) (A : Fin (n + 1) → Fin (n + 1) → ℝ) (b : V n) : Prop where
  res : ∀ u i, P.F u i = ∑ j, A i j * u j - b i
  jac : ∀ u, P.J u = A
  symm : ∀ i j, A i j = A j i
  psd : ∀ x : V n, (∀ i, Fixed P i → x i = 0) → 0 ≤ ∑ i, x i * ∑ j, A i j * x j
  row : ∀ i, ¬ Fixed P i → ∃ j, A i j ≠ 0

/-- `u` solves the constrained problem exactly. -/
def Solves {n : ℕ} (P : Prob n) (u : V n) : Prop := MeetsBcs P u ∧ ∀ i, ¬ Fixed P i → P.F u i = 0

/-! ## Boundary values -/

theorem writeBcs_not {n : ℕ} (bcs : List (Fin (n + 1) × ℝ)) (u : V n) (i : Fin (n + 1)) (hi : i ∉ bcs.map Prod.fst) : writeBcs bcs u i = u i := by
  induction bcs generalizing u with
  | nil => rfl
  | cons p l ih =>
    simp only [List.map_cons, List.mem_cons, not_or] at hi
    show writeBcs l (Function.update u p.1 p.2) i = u i
    rw [ih _ hi.2, Function.update_of_ne hi.1]

theorem writeBcs_last {n : ℕ} (l r : List (Fin (n + 1) × ℝ)) (u : V n) (i : Fin (n + 1)) (x : ℝ) (hi : i ∉ r.map Prod.fst) : writeBcs (l ++ (i, x) :: r) u i = x := by
  unfold writeBcs
  rw [List.foldl_append, List.foldl_cons]
  have := writeBcs_not r (Function.update (List.foldl (fun u p => Function.update u p.1 p.2) u l) i x) i hi
  unfold writeBcs at this
  rw [this, Function.update_self]

/-- A constrained unknown has a last entry. -/
theorem last_entry {n : ℕ} (bcs : List (Fin (n + 1) × ℝ)) (i : Fin (n + 1)) (hi : i ∈ bcs.map Prod.fst) :
    ∃ l x r, bcs = l ++ (i, x) :: r ∧ i ∉ r.map Prod.fst := by
  induction bcs with
  | nil => simp at hi
  | cons p t ih =>
    by_cases ht : i ∈ t.map Prod.fst
    · obtain ⟨l, x, r, e, hr⟩ := ih ht
      exact ⟨p :: l, x, r, by rw [e]; rfl, hr⟩
    · simp only [List.map_cons, List.mem_cons] at hi
      rcases hi with hi | hi
      · exact ⟨[], p.2, t, by rw [hi]; rfl, ht⟩
      · exact absurd hi ht

theorem meets_writeBcs {n : ℕ} (P : Prob n) (u : V n) : MeetsBcs P (writeBcs P.bcs u) := by
  intro l i x r e hr
  rw [e]; exact writeBcs_last l r u i x hr

theorem meets_congr {n : ℕ} (P : Prob n) (u w : V n) (hu : MeetsBcs P u) (e : ∀ i, Fixed P i → w i = u i) : MeetsBcs P w := by
  intro l i x r e' hr
  rw [e i (by unfold Fixed; rw [e']; simp)]
  exact hu l i x r e' hr

theorem meets_unique {n : ℕ} (P : Prob n) (u w : V n) (hu : MeetsBcs P u) (hw : MeetsBcs P w) (i : Fin (n + 1)) (hi : Fixed P i) : u i = w i := by
  obtain ⟨l, x, r, e, hr⟩ := last_entry P.bcs i hi
  rw [hu l i x r e hr, hw l i x r e hr]

theorem homogenize_fst {n : ℕ} (bcs : List (Fin (n + 1) × ℝ)) : (homogenize bcs).map Prod.fst = bcs.map Prod.fst := by
  simp [homogenize]

theorem assembleVec_fixed {n : ℕ} (P : Prob n) (u : V n) (i : Fin (n + 1)) (hi : Fixed P i) : assembleVec P u i = 0 := by
  have hi' : i ∈ (homogenize P.bcs).map Prod.fst := by rw [homogenize_fst]; exact hi
  obtain ⟨l, x, r, e, hr⟩ := last_entry _ i hi'
  have hx : x = 0 := by
    have : (i, x) ∈ homogenize P.bcs := by rw [e]; simp
    simp only [homogenize, List.mem_map] at this
    obtain ⟨p, -, hp⟩ := this
    exact (congrArg Prod.snd hp).symm
  unfold assembleVec
  rw [e, writeBcs_last l r _ i x hr, hx]

theorem assembleVec_free {n : ℕ} (P : Prob n) (u : V n) (i : Fin (n + 1)) (hi : ¬ Fixed P i) : assembleVec P u i = P.F u i :=
  writeBcs_not _ _ i (by rw [homogenize_fst]; exact hi)

theorem writeRows_not {n : ℕ} (bcs : List (Fin (n + 1) × ℝ)) (A : Fin (n + 1) → Fin (n + 1) → ℝ) (i : Fin (n + 1)) (hi : i ∉ bcs.map Prod.fst) : writeRows bcs A i = A i := by
  induction bcs generalizing A with
  | nil => rfl
  | cons p l ih =>
    simp only [List.map_cons, List.mem_cons, not_or] at hi
    show writeRows l (Function.update A p.1 (Pi.single p.1 1)) i = A i
    rw [ih _ hi.2, Function.update_of_ne hi.1]

theorem writeRows_mem {n : ℕ} (bcs : List (Fin (n + 1) × ℝ)) (A : Fin (n + 1) → Fin (n + 1) → ℝ) (i : Fin (n + 1)) (hi : i ∈ bcs.map Prod.fst) : writeRows bcs A i = Pi.single i 1 := by
  obtain ⟨l, x, r, e, hr⟩ := last_entry bcs i hi
  rw [e]; unfold writeRows
  rw [List.foldl_append, List.foldl_cons]
  have := writeRows_not r (Function.update (List.foldl (fun A p => Function.update A p.1 (Pi.single p.1 1)) A l) i (Pi.single i 1)) i hr
  unfold writeRows at this
  rw [this, Function.update_self]

theorem abs_le_maxAbs {n : ℕ} (R : V n) (i : Fin (n + 1)) : |R i| ≤ maxAbs R :=
  Finset.le_sup' (fun i => |R i|) (Finset.mem_univ i)

theorem maxAbs_le {n : ℕ} (R : V n) (a : ℝ) (H : ∀ i, |R i| ≤ a) : maxAbs R ≤ a := by
  unfold maxAbs; exact Finset.sup'_le _ _ fun i _ => H i

theorem divV_some {n : ℕ} {R M x : V n} (e : divV R M = some x) : (∀ i, M i ≠ 0) ∧ ∀ i, x i = R i / M i := by
  unfold divV at e
  split_ifs at e with hM
  cases e
  exact ⟨hM, fun _ => rfl⟩

theorem divV_pos {n : ℕ} (R M : V n) (hM : ∀ i, M i ≠ 0) : divV R M = some fun i => R i / M i := by
  unfold divV; rw [if_pos hM]

/-! ## Soundness -/

/-- The invariant of the loop: the unknowns meet the conditions, the velocity vanishes on them, `R` and `error` belong to `q`. -/
structure Inv {n : ℕ} (P : Prob n) (s : State n) : Prop where
  bcs : MeetsBcs P s.q
  vel : ∀ v, s.qdot = some v → ∀ i, Fixed P i → v i = 0
  res : s.R = assembleVec P s.q
  err : s.nIters = 0 ∧ s.error = 1 ∨ s.error = maxAbs s.R

theorem start_inv {n : ℕ} (P : Prob n) (u : V n) : Inv P (start P u) where
  bcs := meets_writeBcs P u
  vel := by
    intro v e i hi
    simp only [start, Option.map_eq_some_iff] at e
    obtain ⟨x, ex, e⟩ := e
    rw [← e]
    show - h / 2 * x i = 0
    rw [(divV_some ex).2 i, assembleVec_fixed P _ i hi]; simp
  res := rfl
  err := .inl ⟨rfl, rfl⟩

theorem body_inv {n : ℕ} (P : Prob n) (nKMat : ℕ) (s : State n) (v : V n) (hs : Inv P s) (hv : s.qdot = some v) : Inv P (body P nKMat s v) where
  bcs := meets_congr P s.q _ hs.bcs fun i hi => by
    show s.q i + h * v i = s.q i
    rw [hs.vel v hv i hi]; simp
  vel := by
    intro w e i hi
    simp only [body, Option.bind_eq_some_iff, Option.map_eq_some_iff] at e
    obtain ⟨c, -, x, ex, e⟩ := e
    rw [← e]
    show _ * v i - _ * x i = 0
    rw [(divV_some ex).2 i, assembleVec_fixed P _ i hi, hs.vel v hv i hi]; simp
  res := rfl
  err := .inr rfl

theorem loop_sound {n : ℕ} (P : Prob n) (nKMat : ℕ) (tol : ℝ) (fuel : ℕ) (s : State n) (hs : Inv P s) (u : V n) (k : ℕ)
    (e : loop P nKMat tol fuel s = some (.converged u k)) : MeetsBcs P u ∧ s.nIters ≤ k ∧ k ≤ s.nIters + fuel ∧
      (k = s.nIters ∧ s.error ≤ tol ∧ u = s.q ∨ maxAbs (assembleVec P u) ≤ tol) := by
  induction fuel generalizing s with
  | zero =>
    unfold loop at e
    split_ifs at e with h1
    · cases hq : s.qdot <;> rw [hq] at e <;> simp at e
    · cases e
      exact ⟨hs.bcs, le_refl _, by omega, .inl ⟨rfl, not_lt.mp h1, rfl⟩⟩
  | succ f ih =>
    unfold loop at e
    split_ifs at e with h1
    · cases hq : s.qdot with
      | none => rw [hq] at e; simp at e
      | some v =>
        rw [hq] at e
        obtain ⟨a, b, c, d⟩ := ih _ (body_inv P nKMat s v hs hq) e
        refine ⟨a, ?_, ?_, .inr ?_⟩
        · have : (body P nKMat s v).nIters = s.nIters + 1 := rfl
          omega
        · have : (body P nKMat s v).nIters = s.nIters + 1 := rfl
          omega
        · rcases d with ⟨-, d, e⟩ | d
          · rw [e]; exact d
          · exact d
    · cases e
      exact ⟨hs.bcs, le_refl _, by omega, .inl ⟨rfl, not_lt.mp h1, rfl⟩⟩

/-- **C134.** Whenever `DynamicRelaxSolve` with a tolerance below 1 reports convergence, at least one pass was made, the unknowns
take the prescribed values and the residual of every free unknown is at most the tolerance - for every residual and tangent function, linear or not. -/
theorem C134_sound {n : ℕ} (P : Prob n) (nKMat : ℕ) (tol : ℝ) (fuel : ℕ) (u0 u : V n) (k : ℕ) (ht : tol < 1)
    (e : dynamicRelaxSolve P nKMat tol fuel u0 = some (.converged u k)) :
    0 < k ∧ MeetsBcs P u ∧ ∀ i, ¬ Fixed P i → |P.F u i| ≤ tol := by
  have hk : (start P u0).nIters = 0 := rfl
  obtain ⟨a, b, -, d⟩ := loop_sound P nKMat tol fuel _ (start_inv P u0) u k e
  have key : maxAbs (assembleVec P u) ≤ tol ∧ 0 < k := by
    unfold dynamicRelaxSolve loop at e
    have h1 : (start P u0).error > tol := ht
    rw [if_pos h1] at e
    cases hq : (start P u0).qdot with
    | none => rw [hq] at e; simp at e
    | some v =>
      rw [hq] at e
      cases fuel with
      | zero => simp at e
      | succ f =>
        obtain ⟨-, b', -, d'⟩ := loop_sound P nKMat tol f _ (body_inv P nKMat _ v (start_inv P u0) hq) u k e
        have hn : (body P nKMat (start P u0) v).nIters = 1 := rfl
        refine ⟨?_, by omega⟩
        rcases d' with ⟨-, d', e'⟩ | d'
        · rw [e']; exact d'
        · exact d'
  refine ⟨key.2, a, fun i hi => ?_⟩
  rw [← assembleVec_free P u i hi]
  exact (abs_le_maxAbs _ i).trans key.1

/-- **C134 (large tolerance).** The loop variable `error` starts at 1.0 instead of the residual (dr.py 151), so with a tolerance
of 1 or more the start value with the boundary values written in is returned as converged, whatever its residual. -/
theorem C134_loose {n : ℕ} (P : Prob n) (nKMat : ℕ) (tol : ℝ) (fuel : ℕ) (u0 : V n) (ht : 1 ≤ tol) :
    dynamicRelaxSolve P nKMat tol fuel u0 = some (.converged (writeBcs P.bcs u0) 0) := by
  unfold dynamicRelaxSolve loop
  rw [if_neg (not_lt.mpr (show (start P u0).error ≤ tol from ht))]
  rfl

end Verif.DynRelax
