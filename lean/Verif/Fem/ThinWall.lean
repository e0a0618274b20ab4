import Verif.Fem.ThermalFaces

/-!
# The deposition loop (model of applications/fem/thermal/thin_wall.py 42-143)

The tool path is a list of segments. A segment with the laser on is a list of steps; each activates the cells near the laser (`born`), and has its step size. A segment with the laser off builds a `Thermal`
object with one boundary function. The solver is an arbitrary function of the problem and the laser position. Files and printing are left out; `calls` is not in the code, it records what `solver` is called with.
-/
namespace Verif.Fem
open Finset

variable {nn nq nf nfq : ℕ}

inductive WallErr
  | fem (e : FemErr)
  | unbound            -- UnboundLocalError: `problem` before assignment
  deriving DecidableEq

/-- A `Thermal` object: mesh, step size, external faces, old temperature (`internal_vars`). -/
structure WallProblem (nn nf : ℕ) where
  mesh : ActiveMesh nn 3
  dt : ℝ
  ext : List (ℕ × Fin nf)
  old : ℕ → ℝ

/-- One step with the laser on: which cells the laser reaches (lines 116-117), `t[j+1]-t[j]`, laser centre. -/
structure WallStep where
  born : ℕ → Bool
  dt : ℝ
  laser : Fin 3 → ℝ

/-- The local variables at the head of the inner loop, with the record of solver calls: table, temperature before, step, problem. -/
structure WallState (nn nf : ℕ) where
  act : ℕ → Bool
  actOld : ℕ → Bool
  full : ℕ → ℝ
  book : FaceBook nf
  prob : Option (WallProblem nn nf)
  calls : List ((ℕ → Bool) × (ℕ → ℝ) × WallStep × WallProblem nn nf)

/-- `solver(problem, linear=True)` with the laser at the given place. -/
abbrev WallSolver (nn nf : ℕ) := WallProblem nn nf → (Fin 3 → ℝ) → ℕ → ℝ

def liftFem {α : Type} : Except FemErr α → Except WallErr α
  | .ok a => .ok a
  | .error e => .error (.fem e)

/-- Lines 48-52, 57-61, 81: cells below the base plate are active, the temperature is `T0`. -/
def wallInit (points : List (Fin 3 → ℝ)) (cells : List (Fin nn → ℕ)) (faces : Fin nf → List (Fin nn)) (base : ℕ → Bool) (T0 : ℝ) : Except WallErr (WallState nn nf) :=
  match getActiveMesh points cells base with
  | .error e => .error (.fem e)
  | .ok M =>
    match initializeHashMap cells faces base M.cellsMap with
    | .error e => .error (.fem e)
    | .ok r => .ok ⟨base, base, fun _ => T0, r.2.2, none, []⟩

/-- One step with the laser on (lines 111-140). -/
def wallStep (points : List (Fin 3 → ℝ)) (cells : List (Fin nn → ℕ)) (faces : Fin nf → List (Fin nn)) (solver : WallSolver nn nf) (s : WallState nn nf) (e : WallStep) : Except WallErr (WallState nn nf) :=
  let act := fun c => s.act c || e.born c
  match getActiveMesh points cells act with
  | .error e => .error (.fem e)
  | .ok M =>
    let sol := fun k => s.full (M.pointsMap.getD k 0)
    match updateHashMap cells.length s.actOld act M.cellsMap (cellsFace cells faces) s.book with
    | .error e => .error (.fem e)
    | .ok (ext, book) =>
      let prob := if (List.range cells.length).all (fun c => act c == s.actOld c) then s.prob else some ⟨M, e.dt, ext, sol⟩
      match prob with
      | none => .error .unbound
      | some p =>
        let sol := solver p e.laser
        .ok ⟨act, act, scatterSet s.full M.pointsMap sol, book, some { p with old := sol }, s.calls ++ [(act, s.full, e, p)]⟩

/-- A row of the tool path: laser off, or the steps with the laser on. -/
inductive WallSegment
  | off
  | on (steps : List WallStep)

/-- One row (lines 82-143). With the laser off, `Thermal` is built with one boundary function and raises (`C100_two`). -/
def wallSegment (points : List (Fin 3 → ℝ)) (cells : List (Fin nn → ℕ)) (faces : Fin nf → List (Fin nn)) (solver : WallSolver nn nf) (s : WallState nn nf) : WallSegment → Except WallErr (WallState nn nf)
  | .off => .error (.fem .index)
  | .on steps => steps.foldlM (wallStep points cells faces solver) s

/-- `ded_thin_wall`. -/
def wallRun (points : List (Fin 3 → ℝ)) (cells : List (Fin nn → ℕ)) (faces : Fin nf → List (Fin nn)) (base : ℕ → Bool) (T0 : ℝ) (solver : WallSolver nn nf) (path : List WallSegment) : Except WallErr (WallState nn nf) :=
  match wallInit points cells faces base T0 with
  | .error e => .error e
  | .ok s => path.foldlM (wallSegment points cells faces solver) s

/-! ## Specification -/

/-- The problem is posed on exactly the active cells, its boundary faces are the external ones, and its old temperature is the given one. -/
def WallProblem.Right (points : List (Fin 3 → ℝ)) (cells : List (Fin nn → ℕ)) (faces : Fin nf → List (Fin nn)) (act : ℕ → Bool) (full : ℕ → ℝ) (p : WallProblem nn nf) : Prop :=
  getActiveMesh points cells act = .ok p.mesh ∧ ExternalFaces cells faces act p.mesh.cellsMap p.ext ∧ ∀ k (h : k < p.mesh.pointsMap.length), p.old k = full p.mesh.pointsMap[k]

/-- Node `n` belongs to an active cell. -/
def Reached (cells : List (Fin nn → ℕ)) (act : ℕ → Bool) (n : ℕ) : Prop := ∃ c, c < cells.length ∧ act c = true ∧ ∃ a, cells.getD c (fun _ => 0) a = n

/-- The step sizes of the steps in which a cell is born, starting from the table `act`. -/
def birthDts (n : ℕ) : (ℕ → Bool) → List WallStep → List ℝ
  | _, [] => []
  | act, e :: es => (if ∃ c < n, act c = false ∧ e.born c = true then [e.dt] else []) ++ birthDts n (fun c => act c || e.born c) es

/-- All steps of a path. -/
def pathSteps : List WallSegment → List WallStep
  | [] => []
  | .off :: ss => pathSteps ss
  | .on steps :: ss => steps ++ pathSteps ss

structure WallInv (points : List (Fin 3 → ℝ)) (cells : List (Fin nn → ℕ)) (faces : Fin nf → List (Fin nn)) (base : ℕ → Bool) (T0 : ℝ) (es : List WallStep) (s : WallState nn nf) : Prop where
  old : s.actOld = s.act
  act : ∀ c, s.act c = true ↔ base c = true ∨ ∃ e ∈ es, e.born c = true
  book : s.book.Holds cells faces s.act
  prob : ∀ p, s.prob = some p → p.Right points cells faces s.act s.full
  dt : s.prob.map (·.dt) = (birthDts cells.length base es).getLast?
  rest : ∀ n, ¬ Reached cells s.act n → s.full n = T0
  calls : s.calls.length = es.length
  call : ∀ k (h : k < s.calls.length) (h' : k < es.length), s.calls[k].2.2.1 = es[k] ∧ (∀ c, s.calls[k].1 c = true ↔ base c = true ∨ ∃ e ∈ es.take (k + 1), e.born c = true) ∧
    s.calls[k].2.2.2.Right points cells faces s.calls[k].1 s.calls[k].2.1 ∧ (∀ n, ¬ Reached cells (fun c => base c || (es.take k).any fun e => e.born c) n → s.calls[k].2.1 n = T0) ∧
    some s.calls[k].2.2.2.dt = (birthDts cells.length base (es.take (k + 1))).getLast?

theorem birthDts_append (n : ℕ) (es : List WallStep) (e : WallStep) : ∀ act, birthDts n act (es ++ [e]) = birthDts n act es ++ (if ∃ c < n, (act c || es.any fun e => e.born c) = false ∧ e.born c = true then [e.dt] else []) := by
  induction es with
  | nil => intro act; simp [birthDts]
  | cons a es ih =>
    intro act
    rw [List.cons_append, birthDts, birthDts, ih, List.append_assoc]
    simp only [List.any_cons, Bool.or_assoc]
    congr

theorem wallInit_inv (points : List (Fin 3 → ℝ)) (cells : List (Fin nn → ℕ)) (faces : Fin nf → List (Fin nn)) (base : ℕ → Bool) (T0 : ℝ) (s : WallState nn nf) (h : wallInit points cells faces base T0 = .ok s) :
    WallInv points cells faces base T0 [] s := by
  unfold wallInit at h
  split at h
  · cases h
  rename_i M hM
  split at h
  · cases h
  rename_i r hr
  injection h with h
  subst h
  have hb : r.2.2.Holds cells faces base := by
    unfold initializeHashMap hashMapForFaces at hr
    dsimp only [bind, Except.bind, pure, Except.pure] at hr
    split at hr
    · cases hr
    injection hr with hr
    rw [← hr]
    exact bookCells_init cells faces base
  exact ⟨rfl, fun c => (by simp), hb, fun p hp => (by cases hp), rfl, fun _ _ => rfl, rfl, fun k h => (by simp at h)⟩

theorem wallStep_inv (points : List (Fin 3 → ℝ)) (cells : List (Fin nn → ℕ)) (faces : Fin nf → List (Fin nn)) (base : ℕ → Bool) (T0 : ℝ) (solver : WallSolver nn nf) (es : List WallStep) (s t : WallState nn nf) (e : WallStep)
    (hs : WallInv points cells faces base T0 es s) (h : wallStep points cells faces solver s e = .ok t) : WallInv points cells faces base T0 (es ++ [e]) t := by
  unfold wallStep at h
  dsimp only at h
  split at h
  · cases h
  rename_i M hM
  split at h
  · cases h
  rename_i ext book hu
  have hgrow : ∀ c < cells.length, s.act c = true → (s.act c || e.born c) = true := fun c _ hc => by simp [hc]
  rw [hs.old] at hu h
  have hbook : book.Holds cells faces (fun c => s.act c || e.born c) ∧ ExternalFaces cells faces (fun c => s.act c || e.born c) M.cellsMap ext := by
    unfold updateHashMap hashMapForFaces at hu
    dsimp only [bind, Except.bind, pure, Except.pure] at hu
    have hB1 := bookCells_update cells faces s.act (fun c => s.act c || e.born c) s.book hs.book hgrow
    split at hu
    · cases hu
    rename_i e1 hren
    injection hu with hu
    injection hu with h1 h2
    subst h1 h2
    exact ⟨hB1, (renumber_ok cells faces _ _ hB1 M.cellsMap (map_inj_of_mono _ _ _ (C99_active_mesh points cells _ M hM).2.1)).1 _ hren⟩
  obtain ⟨hm1, hm2, hm3, hm4, hm5, hm6⟩ := C99_active_mesh points cells _ M hM
  have hact : ∀ c, (s.act c || e.born c) = true ↔ base c = true ∨ ∃ e' ∈ es ++ [e], e'.born c = true := by
    intro c
    rw [Bool.or_eq_true, hs.act, or_assoc]
    simp [or_and_right, exists_or]
  have hactB : ∀ c, s.act c = (base c || es.any fun e => e.born c) := by
    intro c
    rw [Bool.eq_iff_iff, hs.act, Bool.or_eq_true, List.any_eq_true]
  -- the problem handed to the solver
  have hprob : ∀ p, (if (List.range cells.length).all (fun c => (s.act c || e.born c) == s.act c) then s.prob else some ⟨M, e.dt, ext, fun k => s.full (M.pointsMap.getD k 0)⟩) = some p →
      p.Right points cells faces (fun c => s.act c || e.born c) s.full ∧ p.mesh.pointsMap = M.pointsMap ∧ p.mesh = M ∧ some p.dt = (birthDts cells.length base (es ++ [e])).getLast? := by
    intro p hp
    rw [birthDts_append]
    simp only [← hactB]
    split at hp
    · rename_i hall
      have hsame : ∀ c < cells.length, (s.act c || e.born c) = s.act c := by
        intro c hc
        have := (List.all_eq_true.mp hall) c (List.mem_range.mpr hc)
        exact eq_of_beq this
      obtain ⟨h1, h2, h3⟩ := hs.prob p hp
      have hsameMesh : getActiveMesh points cells (fun c => s.act c || e.born c) = getActiveMesh points cells s.act := by
        unfold getActiveMesh
        rw [List.filter_congr (fun c hc => hsame c (List.mem_range.mp hc))]
      rw [hsameMesh, h1] at hM
      injection hM with hM
      have hface : ∀ q : ℕ × Fin nf, IsFace cells (fun c => s.act c || e.born c) q ↔ IsFace cells s.act q := by
        intro q
        unfold IsFace
        constructor
        · rintro ⟨a, b⟩; exact ⟨a, (hsame _ a).symm.trans b⟩
        · rintro ⟨a, b⟩; exact ⟨a, (hsame _ a).trans b⟩
      have hext : ∀ q : ℕ × Fin nf, IsExternal cells faces (fun c => s.act c || e.born c) q ↔ IsExternal cells faces s.act q := by
        intro q
        unfold IsExternal
        simp only [hface]
      refine ⟨⟨by rw [hsameMesh, h1], ⟨h2.1, fun q => ?_⟩, h3⟩, by rw [hM], hM, ?_⟩
      · rw [h2.2]
        simp only [hext]
      · rw [if_neg]
        · rw [List.append_nil, ← hs.dt, hp]
          rfl
        · rintro ⟨c, hc, h1, h2⟩
          have := hsame c hc
          rw [h1, h2] at this
          cases this
    · rename_i hall
      injection hp with hp
      subst hp
      refine ⟨⟨hM, hbook.2, fun k hk => ?_⟩, rfl, rfl, ?_⟩
      · show s.full _ = s.full _
        rw [List.getD_eq_getElem?_getD, List.getElem?_eq_getElem hk, Option.getD_some]
      · rw [if_pos]
        · rw [List.getLast?_concat]
        · by_contra hno
          push Not at hno
          refine hall (List.all_eq_true.mpr fun c hc => ?_)
          have := hno c (List.mem_range.mp hc)
          cases ha : s.act c with
          | true => simp
          | false => simpa [ha] using this
  split at h
  · cases h
  rename_i p hp
  obtain ⟨hr, hpm, hpM, hdt⟩ := hprob p hp
  injection h with h
  subst h
  have hnd : M.pointsMap.Nodup := hm4.imp fun h => Nat.ne_of_lt h
  refine ⟨rfl, hact, hbook.1, ?_, ?_, ?_, by simp [hs.calls], ?_⟩
  · intro p' hp'
    injection hp' with hp'
    subst hp'
    refine ⟨hr.1, hr.2.1, fun k hk => ?_⟩
    dsimp only at hk ⊢
    simp only [hpm] at hk ⊢
    rw [scatterSet_getElem _ _ hnd _ k hk]
  · exact hdt
  · intro n hn
    dsimp only at hn ⊢
    rw [scatterSet_notMem _ _ _ n (fun hmem => hn ((hm6 n).mp hmem))]
    refine hs.rest n fun ⟨c, a, b, d⟩ => hn ⟨c, a, ?_, d⟩
    simp [b]
  · intro k hk hk'
    dsimp only at hk ⊢
    by_cases hlt : k < s.calls.length
    · have hlt' : k < es.length := by rw [← hs.calls]; exact hlt
      have hc := hs.call k hlt hlt'
      rw [List.getElem_append_left hlt, List.getElem_append_left hlt', List.take_append_of_le_length hlt'.le, List.take_append_of_le_length (by omega)]
      exact hc
    · have hke : k = es.length := by
        simp only [List.length_append, List.length_singleton] at hk'
        rw [hs.calls] at hlt
        omega
      subst hke
      have e1 : (s.calls ++ [((fun c => s.act c || e.born c), s.full, e, p)])[es.length] = ((fun c => s.act c || e.born c), s.full, e, p) := by
        rw [List.getElem_append_right (by rw [hs.calls])]
        simp
      rw [e1]
      rw [List.take_append_of_le_length le_rfl, List.take_length, List.take_of_length_le (by simp)]
      refine ⟨by simp, hact, hr, fun n hn => hs.rest n ?_, hdt⟩
      simpa only [← hactB] using hn

theorem wallSteps_inv (points : List (Fin 3 → ℝ)) (cells : List (Fin nn → ℕ)) (faces : Fin nf → List (Fin nn)) (base : ℕ → Bool) (T0 : ℝ) (solver : WallSolver nn nf) (steps : List WallStep) :
    ∀ (es : List WallStep) (s t : WallState nn nf), WallInv points cells faces base T0 es s → steps.foldlM (wallStep points cells faces solver) s = .ok t → WallInv points cells faces base T0 (es ++ steps) t := by
  induction steps with
  | nil =>
    intro es s t hs h
    injection h with h
    subst h
    simpa using hs
  | cons e steps ih =>
    intro es s t hs h
    rw [List.foldlM_cons] at h
    dsimp only [bind, Except.bind] at h
    cases h1 : wallStep points cells faces solver s e with
    | error x => rw [h1] at h; cases h
    | ok u =>
      rw [h1] at h
      have := ih (es ++ [e]) u t (wallStep_inv points cells faces base T0 solver es s u e hs h1) h
      simpa using this

theorem wallRun_inv (points : List (Fin 3 → ℝ)) (cells : List (Fin nn → ℕ)) (faces : Fin nf → List (Fin nn)) (base : ℕ → Bool) (T0 : ℝ) (solver : WallSolver nn nf) (path : List WallSegment) (t : WallState nn nf)
    (h : wallRun points cells faces base T0 solver path = .ok t) : WallInv points cells faces base T0 (pathSteps path) t := by
  unfold wallRun at h
  split at h
  · cases h
  rename_i s hs
  have key : ∀ (path : List WallSegment) (es : List WallStep) (s : WallState nn nf), WallInv points cells faces base T0 es s → path.foldlM (wallSegment points cells faces solver) s = .ok t →
      WallInv points cells faces base T0 (es ++ pathSteps path) t := by
    intro path
    induction path with
    | nil =>
      intro es s hs h
      injection h with h
      subst h
      simpa [pathSteps] using hs
    | cons g path ih =>
      intro es s hs h
      rw [List.foldlM_cons] at h
      dsimp only [bind, Except.bind] at h
      cases g with
      | off => cases h
      | on steps =>
        cases h1 : wallSegment points cells faces solver s (.on steps) with
        | error x => rw [h1] at h; cases h
        | ok u =>
          rw [h1] at h
          have := ih (es ++ steps) u (wallSteps_inv points cells faces base T0 solver steps es s u hs h1) h
          simpa [pathSteps] using this
  have := key path [] s (wallInit_inv points cells faces base T0 s hs) h
  simpa using this

/-! ## Properties -/

/-- **C101 (deposition loop).** In every run that returns, whatever the solver does: each step calls the solver once; at that moment the active cells are those of the base and all reached so far, the
problem is posed on exactly these cells, with exactly their external faces and with the current temperature as old temperature. Nodes not reached before the step have the initial temperature. -/
theorem C101_calls (points : List (Fin 3 → ℝ)) (cells : List (Fin nn → ℕ)) (faces : Fin nf → List (Fin nn)) (base : ℕ → Bool) (T0 : ℝ) (solver : WallSolver nn nf) (path : List WallSegment) (t : WallState nn nf)
    (h : wallRun points cells faces base T0 solver path = .ok t) :
    t.calls.length = (pathSteps path).length ∧ ∀ k (hk : k < t.calls.length) (hk' : k < (pathSteps path).length), t.calls[k].2.2.1 = (pathSteps path)[k] ∧
      (∀ c, t.calls[k].1 c = true ↔ base c = true ∨ ∃ e ∈ (pathSteps path).take (k + 1), e.born c = true) ∧
      t.calls[k].2.2.2.Right points cells faces t.calls[k].1 t.calls[k].2.1 ∧
      ∀ n, ¬ Reached cells (fun c => base c || ((pathSteps path).take k).any fun e => e.born c) n → t.calls[k].2.1 n = T0 := by
  have hI := wallRun_inv points cells faces base T0 solver path t h
  exact ⟨hI.calls, fun k hk hk' => ⟨(hI.call k hk hk').1, (hI.call k hk hk').2.1, (hI.call k hk hk').2.2.1, (hI.call k hk hk').2.2.2.1⟩⟩

/-- **C101 (step size, finding).** The step size the solver works with is that of the last step in which a cell was born: in a step without births the problem is kept, with the old `dt`. -/
theorem C101_stale_dt (points : List (Fin 3 → ℝ)) (cells : List (Fin nn → ℕ)) (faces : Fin nf → List (Fin nn)) (base : ℕ → Bool) (T0 : ℝ) (solver : WallSolver nn nf) (path : List WallSegment) (t : WallState nn nf)
    (h : wallRun points cells faces base T0 solver path = .ok t) (k : ℕ) (hk : k < t.calls.length) : some t.calls[k].2.2.2.dt = (birthDts cells.length base ((pathSteps path).take (k + 1))).getLast? := by
  have hI := wallRun_inv points cells faces base T0 solver path t h
  exact (hI.call k hk (by rw [← hI.calls]; exact hk)).2.2.2.2

/-- **C101 (laser off, finding).** No path with a laser-off row can be run, and none whose first step bears no cell. -/
theorem C101_raises (points : List (Fin 3 → ℝ)) (cells : List (Fin nn → ℕ)) (faces : Fin nf → List (Fin nn)) (base : ℕ → Bool) (T0 : ℝ) (solver : WallSolver nn nf) (path : List WallSegment) (t : WallState nn nf)
    (h : wallRun points cells faces base T0 solver path = .ok t) : WallSegment.off ∉ path ∧ ∀ e es, pathSteps path = e :: es → ∃ c < cells.length, base c = false ∧ e.born c = true := by
  constructor
  · unfold wallRun at h
    split at h
    · cases h
    rename_i s hs
    clear hs
    induction path generalizing s with
    | nil => simp
    | cons g path ih =>
      rw [List.foldlM_cons] at h
      dsimp only [bind, Except.bind] at h
      cases g with
      | off => cases h
      | on steps =>
        cases h1 : wallSegment points cells faces solver s (.on steps) with
        | error x => rw [h1] at h; cases h
        | ok u =>
          rw [h1] at h
          have := ih u h
          simp [this]
  · intro e es hes
    have hI := wallRun_inv points cells faces base T0 solver path t h
    have hk : 0 < (pathSteps path).length := by rw [hes]; simp
    have hc := (hI.call 0 (by rw [hI.calls]; exact hk) hk).2.2.2.2
    simp only [hes, Nat.zero_add, List.take_succ_cons, List.take_zero, birthDts, List.append_nil] at hc
    by_contra hno
    rw [if_neg hno] at hc
    cases hc

/-- **C101 (temperature field).** After the run the field is the last solution at the nodes of the active cells, in their numbering, and the initial temperature elsewhere. -/
theorem C101_field (points : List (Fin 3 → ℝ)) (cells : List (Fin nn → ℕ)) (faces : Fin nf → List (Fin nn)) (base : ℕ → Bool) (T0 : ℝ) (solver : WallSolver nn nf) (path : List WallSegment) (t : WallState nn nf)
    (h : wallRun points cells faces base T0 solver path = .ok t) :
    (∀ p, t.prob = some p → p.Right points cells faces t.act t.full) ∧ (∀ c, t.act c = true ↔ base c = true ∨ ∃ e ∈ pathSteps path, e.born c = true) ∧ ∀ n, ¬ Reached cells t.act n → t.full n = T0 := by
  have hI := wallRun_inv points cells faces base T0 solver path t h
  exact ⟨hI.prob, hI.act, hI.rest⟩

/-! ## Example -/

/-- Two squares (seen from above): the first is the base, the second is reached by the first step; the second step bears nothing and is solved with the step size of the first. -/
noncomputable def sixPoints3 : List (Fin 3 → ℝ) := [![0, 0, 0], ![1, 0, 0], ![2, 0, 0], ![0, 1, 0], ![1, 1, 0], ![2, 1, 0]]

example : ∃ t, wallRun sixPoints3 twoQuads quadEdges (fun c => c == 0) 300 (fun p _ k => p.old k + p.dt) [.on [⟨fun _ => true, 1, 0⟩, ⟨fun _ => true, 7, 0⟩]] = .ok t ∧ (t.calls.map fun x => (x.2.2.1.dt, x.2.2.2.dt)) = [(1, 1), (7, 1)] ∧
    t.full 0 = 302 := by
  refine ⟨_, rfl, rfl, ?_⟩
  show (300 : ℝ) + 1 + 1 = 302
  norm_num

end Verif.Fem
