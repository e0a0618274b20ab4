import Verif.Fem.FractureProps
import Verif.Fem.PropsElastic2
import Verif.Fem.PropsSurface

/-!
# The phase-field fracture demo as a program (demos/fem/phase_field_fracture/example.py)

The two finite element problems, the history update, the staggered loop and the reported force. The constants `G_c`, `l`, `mu`, `lmbda` are those of the file. `solver` is modelled elsewhere
(C19-C21, C87); in the loop it is an arbitrary function of the data it is given. Output and plotting are left out.
-/
namespace Verif.Fem
open Finset

variable {nn nq nf nfq dim : ℕ}

/-- `PhaseField` (example.py 28-47): tensor map `G_c*l*d_grad`, mass map `G_c/l*d - 2.*(1 - d)*history` with one history value per cell and quadrature point; no boundary conditions (line 181). -/
noncomputable def phaseFem (F : Fem nn nq nf nfq dim 1) (history : List (Fin nq → ℝ)) : Fem nn nq nf nfq dim 1 :=
  { F with
    tensorMap := some fun _ _ d_grad i d => fracGc * fracL * d_grad i d
    massMap := some fun k q d i => fracGc / fracL * d i - 2 * (1 - d i) * (history.getD k 0) q
    lapRows := none
    massRows := some history.length
    source := none
    bodyVar := none
    neumann := none
    cauchy := none }

/-- `problem_u.convert_from_dof_to_quad(sol_d)` (example.py 124; core.py 710-729 for a field with one component). -/
def damageQuad (cells : List (Fin nn → ℕ)) (shapeVals : Fin nq → Fin nn → ℝ) (sol_d : ℕ → Fin 1 → ℝ) : List (Fin nq → Fin 1 → ℝ) :=
  cells.map fun c q i => ∑ n, sol_d (c n) i * shapeVals q n

/-- `Elasticity` after `set_params([sol_d, disp])` (example.py 50-60, 101-108, 120-125): the stress of the first option with the damage at the quadrature points as internal variable. -/
noncomputable def fractureFem (F : Fem nn nq nf nfq dim dim) (eigh : (Fin dim → Fin dim → ℝ) → Eigh dim) (noise : Fin dim → Fin dim → ℝ) (sol_d : ℕ → Fin 1 → ℝ) : Fem nn nq nf nfq dim dim :=
  let d := damageQuad F.cells F.shapeVals sol_d
  { F with
    tensorMap := some fun k q u_grad => stressOpt1 eigh noise u_grad ((d.getD k 0) q 0)
    massMap := none
    lapRows := some d.length
    massRows := none
    source := none
    bodyVar := none
    neumann := none
    cauchy := none }

/-- `compute_history` (example.py 110-118). `np.maximum` of two arrays; the code's arrays have the same shape, other shapes are reported as an error (broadcasting of a single row is not modelled). -/
noncomputable def computeHistory (F : Fem nn nq nf nfq dim dim) (eigh : (Fin dim → Fin dim → ℝ) → Eigh dim) (sol_u : ℕ → Fin dim → ℝ) (history_old : List (Fin nq → ℝ)) :
    Except FemErr (List (Fin nq → ℝ)) :=
  let u_grads := F.solToGrad sol_u
  let psi_plus := u_grads.map fun g q => psiPlusFn eigh (g q)
  if psi_plus.length = history_old.length then .ok (List.zipWith (fun a b q => max (a q) (b q)) psi_plus history_old) else .error .shape

/-- `compute_traction` (example.py 129-159): the normal is `(0, 0, 1)` whatever the location function. -/
noncomputable def fractureTraction (F : Fem nn nq nf nfq dim dim) (stress : (Fin dim → Fin dim → ℝ) → ℝ → Fin dim → Fin dim → ℝ) (loc : Loc dim) (sol_u : ℕ → Fin dim → ℝ) (sol_d : ℕ → Fin 1 → ℝ) :
    Except FemErr (Fin dim → ℝ) := do
  let sel := F.selectFaces (F.boundaryInds loc)
  let g ← F.getFaceShapeGrads sel
  let u_grads_face := (sel.zip g.1).map fun p => fun (q : Fin nfq) (i d : Fin dim) => ∑ n, sol_u (p.1.1 n) i * p.2 q n d
  let d_face := sel.map fun p => fun (q : Fin nfq) (i : Fin 1) => ∑ n, sol_d (p.1 n) i * F.faceShapeVals p.2 q n
  let traction ← if dim = 3 then .ok ((u_grads_face.zip d_face).map fun p q i => ∑ d, stress (p.1 q) (p.2 q 0) i d * (if (d : ℕ) = 2 then 1 else 0)) else .error FemErr.shape
  pure fun i => ((traction.zip g.2).map fun p => ∑ q, p.1 q i * p.2 q).sum

/-! ## The loop -/

/-- The variables of the script that survive an iteration. -/
structure FracState (nq dim : ℕ) where
  sol_d : ℕ → Fin 1 → ℝ
  sol_d_old : ℕ → Fin 1 → ℝ
  sol_u : ℕ → Fin dim → ℝ
  sol_u_old : ℕ → Fin dim → ℝ
  history : List (Fin nq → ℝ)
  history_old : List (Fin nq → ℝ)

/-- The two solver calls (example.py 231-232 and 234-235) as functions of what `set_params` hands over, and the history update. -/
structure FracSolvers (nq dim : ℕ) where
  solveU : (ℕ → Fin 1 → ℝ) → ℝ → Except FemErr (ℕ → Fin dim → ℝ)
  solveD : List (Fin nq → ℝ) → Except FemErr (ℕ → Fin 1 → ℝ)
  update : (ℕ → Fin dim → ℝ) → List (Fin nq → ℝ) → Except FemErr (List (Fin nq → ℝ))
  numNodes : ℕ

/-- `onp.linalg.norm(a - b)` of nodal arrays. -/
noncomputable def nodalDist {vec : ℕ} (N : ℕ) (a b : ℕ → Fin vec → ℝ) : ℝ := Real.sqrt (∑ n ∈ range N, ∑ i, (a n i - b n i) ^ 2)

/-- Body of the `while` loop (example.py 231-244) with the resulting `err`. -/
noncomputable def FracSolvers.body (S : FracSolvers nq dim) (disp : ℝ) (st : FracState nq dim) : Except FemErr (FracState nq dim × ℝ) := do
  let sol_u ← S.solveU st.sol_d disp
  let sol_d ← S.solveD st.history
  let history ← S.update sol_u st.history_old
  let sol_d := fun n i => max (sol_d n i) (st.sol_d_old n i)
  let err_u := nodalDist S.numNodes sol_u st.sol_u_old
  let err_d := nodalDist S.numNodes sol_d st.sol_d_old
  pure (⟨sol_d, sol_d, sol_u, sol_u, history, st.history_old⟩, max err_u err_d)

open Classical in
/-- The `while` loop (example.py 227-250), entered with `err = 1. > tol`. `early = true` is the file as it stands (`if True: break`), `early = false` the variant with these two lines commented out;
`none` when the given number of iterations does not suffice. -/
noncomputable def FracSolvers.inner (S : FracSolvers nq dim) (early : Bool) (disp : ℝ) : ℕ → FracState nq dim → Except FemErr (Option (FracState nq dim))
  | 0, _ => pure none
  | fuel + 1, st => do
    let r ← S.body disp st
    if early then pure (some r.1)
    else if r.2 > 1e-5 then S.inner early disp fuel r.1 else pure (some r.1)

/-- One load step (example.py 224-252): the loop, then `history_old = history`. -/
noncomputable def FracSolvers.step (S : FracSolvers nq dim) (early : Bool) (fuel : ℕ) (disp : ℝ) (st : FracState nq dim) : Except FemErr (Option (FracState nq dim)) := do
  let r ← S.inner early disp fuel st
  pure (r.map fun st => { st with history_old := st.history })

/-- All load steps; the state after each of them, first step first. -/
noncomputable def FracSolvers.run (S : FracSolvers nq dim) (early : Bool) (fuel : ℕ) : List ℝ → FracState nq dim → Except FemErr (Option (List (FracState nq dim)))
  | [], _ => pure (some [])
  | disp :: rest, st => do
    match ← S.step early fuel disp st with
    | none => pure none
    | some st' =>
      match ← S.run early fuel rest st' with
      | none => pure none
      | some l => pure (some (st' :: l))

/-- The initial state (example.py 181-185, 209-212): damage 1 at the nodes of the crack, everything else zero. -/
def fracInit (numCells : ℕ) (crack : ℕ → Bool) : FracState nq dim :=
  let sol_d := fun n (_ : Fin 1) => if crack n then 1 else 0
  let history := List.replicate numCells fun _ => 0
  ⟨sol_d, sol_d, fun _ _ => 0, fun _ _ => 0, history, history⟩

/-! ## Properties of the loop -/

theorem body_ok (S : FracSolvers nq dim) (disp : ℝ) (st : FracState nq dim) (r : FracState nq dim × ℝ) (h : S.body disp st = .ok r) :
    ∃ u d hist, S.solveU st.sol_d disp = .ok u ∧ S.solveD st.history = .ok d ∧ S.update u st.history_old = .ok hist ∧
      r.1 = ⟨fun n i => max (d n i) (st.sol_d_old n i), fun n i => max (d n i) (st.sol_d_old n i), u, u, hist, st.history_old⟩ ∧
      r.2 = max (nodalDist S.numNodes u st.sol_u_old) (nodalDist S.numNodes (fun n i => max (d n i) (st.sol_d_old n i)) st.sol_d_old) := by
  unfold FracSolvers.body at h
  dsimp only [bind, Except.bind, pure, Except.pure] at h
  cases h1 : S.solveU st.sol_d disp with
  | error e => rw [h1] at h; cases h
  | ok u =>
    cases h2 : S.solveD st.history with
    | error e => rw [h1, h2] at h; cases h
    | ok d =>
      cases h3 : S.update u st.history_old with
      | error e => rw [h1, h2] at h; simp only [h3] at h; cases h
      | ok hist =>
        rw [h1, h2] at h
        simp only [h3] at h
        injection h with h
        subst h
        exact ⟨u, d, hist, rfl, rfl, h3, rfl, rfl⟩

/-- What one pass through the inner loop establishes, for both variants. -/
structure FracStep (S : FracSolvers nq dim) (st st' : FracState nq dim) : Prop where
  grows : ∀ n i, st.sol_d_old n i ≤ st'.sol_d n i
  same : st'.sol_d_old = st'.sol_d
  hist : S.update st'.sol_u st.history_old = .ok st'.history
  old : st'.history_old = st.history_old

theorem inner_ok (S : FracSolvers nq dim) (early : Bool) (disp : ℝ) : ∀ (fuel : ℕ) (st st' : FracState nq dim), S.inner early disp fuel st = .ok (some st') → FracStep S st st'
  | 0, st, st', h => by simp [FracSolvers.inner, pure, Except.pure] at h
  | fuel + 1, st, st', h => by
    unfold FracSolvers.inner at h
    dsimp only [bind, Except.bind, pure, Except.pure] at h
    cases hb : S.body disp st with
    | error e => rw [hb] at h; cases h
    | ok r =>
      rw [hb] at h
      obtain ⟨u, d, hist, -, -, h3, h4, -⟩ := body_ok S disp st r hb
      have base : FracStep S st r.1 := by
        rw [h4]
        exact ⟨fun n i => le_max_right _ _, rfl, h3, rfl⟩
      have rest : ∀ h' : S.inner early disp fuel r.1 = .ok (some st'), FracStep S st st' := by
        intro h'
        have ih := inner_ok S early disp fuel r.1 st' h'
        refine ⟨fun n i => le_trans (base.grows n i) ?_, ih.same, ?_, ih.old.trans base.old⟩
        · rw [← base.same]; exact ih.grows n i
        · rw [← base.old]; exact ih.hist
      dsimp only at h
      split_ifs at h
      · injection h with h; injection h with h; subst h; exact base
      · exact rest h
      · injection h with h; injection h with h; subst h; exact base

theorem step_ok (S : FracSolvers nq dim) (early : Bool) (fuel : ℕ) (disp : ℝ) (st st' : FracState nq dim) (h : S.step early fuel disp st = .ok (some st')) :
    (∀ n i, st.sol_d_old n i ≤ st'.sol_d n i) ∧ st'.sol_d_old = st'.sol_d ∧ S.update st'.sol_u st.history_old = .ok st'.history ∧ st'.history_old = st'.history := by
  unfold FracSolvers.step at h
  dsimp only [bind, Except.bind, pure, Except.pure] at h
  cases hi : S.inner early disp fuel st with
  | error e => rw [hi] at h; cases h
  | ok o =>
    cases o with
    | none => rw [hi] at h; simp at h
    | some s =>
      rw [hi] at h
      simp only [Option.map_some] at h
      injection h with h
      injection h with h
      subst h
      have := inner_ok S early disp fuel st s hi
      exact ⟨this.grows, this.same, this.hist, rfl⟩

theorem run_cons (S : FracSolvers nq dim) (early : Bool) (fuel : ℕ) (disp : ℝ) (rest : List ℝ) (st : FracState nq dim) (l : List (FracState nq dim))
    (h : S.run early fuel (disp :: rest) st = .ok (some l)) : ∃ st' l', l = st' :: l' ∧ S.step early fuel disp st = .ok (some st') ∧ S.run early fuel rest st' = .ok (some l') := by
  unfold FracSolvers.run at h
  dsimp only [bind, Except.bind, pure, Except.pure] at h
  cases hs : S.step early fuel disp st with
  | error e => rw [hs] at h; cases h
  | ok o =>
    rw [hs] at h
    cases o with
    | none => simp at h
    | some st' =>
      dsimp only at h
      cases hr : S.run early fuel rest st' with
      | error e => rw [hr] at h; cases h
      | ok o' =>
        rw [hr] at h
        cases o' with
        | none => simp at h
        | some l' =>
          injection h with h
          injection h with h
          exact ⟨st', l', h.symm, rfl, hr⟩

/-- Specification: the largest value of `ψ` over the listed displacement fields and `h0`. -/
noncomputable def runningMax (h0 : ℝ) (vals : List ℝ) : ℝ := vals.foldl max h0

/-- **C98 (irreversibility).** Whatever the solvers return and whatever the loads (loading, unloading, reversal), with or without the early stop: the damage at every node never decreases from one load
step to the next, starting from the initial crack. -/
theorem C98_irreversible (S : FracSolvers nq dim) (early : Bool) (fuel : ℕ) (loads : List ℝ) (numCells : ℕ) (crack : ℕ → Bool) (l : List (FracState nq dim))
    (h : S.run early fuel loads (fracInit numCells crack) = .ok (some l)) :
    (((fracInit numCells crack : FracState nq dim) :: l).Pairwise fun a b => ∀ n i, a.sol_d n i ≤ b.sol_d n i) ∧ ∀ st ∈ l, ∀ n i, 0 ≤ st.sol_d n i ∧ (crack n = true → 1 ≤ st.sol_d n i) := by
  have key : ∀ (loads : List ℝ) (st : FracState nq dim) (l : List (FracState nq dim)), st.sol_d_old = st.sol_d → S.run early fuel loads st = .ok (some l) →
      (st :: l).Pairwise fun a b => ∀ n i, a.sol_d n i ≤ b.sol_d n i := by
    intro loads
    induction loads with
    | nil =>
      intro st l _ h
      simp only [FracSolvers.run, pure, Except.pure] at h
      injection h with h
      injection h with h
      subst h
      simp
    | cons disp rest ih =>
      intro st l hst h
      obtain ⟨st', l', rfl, hs, hr⟩ := run_cons S early fuel disp rest st l h
      obtain ⟨h1, h2, -, -⟩ := step_ok S early fuel disp st st' hs
      have := ih st' l' h2 hr
      refine List.pairwise_cons.mpr ⟨?_, this⟩
      intro b hb n i
      rw [hst] at h1
      rcases List.mem_cons.mp hb with rfl | hb
      · exact h1 n i
      · exact le_trans (h1 n i) ((List.pairwise_cons.mp this).1 b hb n i)
  have hp := key loads _ l rfl h
  refine ⟨hp, fun st hst n i => ?_⟩
  have := (List.pairwise_cons.mp hp).1 st hst n i
  simp only [fracInit] at this
  constructor
  · refine le_trans ?_ this
    split_ifs <;> norm_num
  · intro hc
    rwa [if_pos hc] at this

/-- Specification: tensile energy of a displacement field at a quadrature point of a cell. -/
noncomputable def energyAt (F : Fem nn nq nf nfq dim dim) (eigh : (Fin dim → Fin dim → ℝ) → Eigh dim) (u : ℕ → Fin dim → ℝ) (c : Fin nn → ℕ) (q : Fin nq) : ℝ :=
  psiPlus eigh fun i j => (F.gradAt u c q i j + F.gradAt u c q j i) / 2

theorem computeHistory_ok (F : Fem nn nq nf nfq dim dim) (eigh : (Fin dim → Fin dim → ℝ) → Eigh dim) (u : ℕ → Fin dim → ℝ) (old new : List (Fin nq → ℝ)) (h : computeHistory F eigh u old = .ok new) :
    old.length = F.cells.length ∧ new.length = F.cells.length ∧ ∀ k c, F.cells[k]? = some c → ∀ q, (new.getD k 0) q = max (energyAt F eigh u c q) ((old.getD k 0) q) := by
  unfold computeHistory at h
  dsimp only at h
  split_ifs at h with hl
  injection h with h
  subst h
  have hlen : (F.solToGrad u).length = F.cells.length := by simp [Fem.solToGrad]
  rw [List.length_map, hlen] at hl
  refine ⟨hl.symm, by rw [List.length_zipWith, List.length_map, hlen, ← hl, min_self], fun k c hk q => ?_⟩
  have hk' : k < F.cells.length := by
    by_contra hc
    rw [List.getElem?_eq_none (not_lt.mp hc)] at hk
    cases hk
  have hck : F.cells[k] = c := by
    rw [List.getElem?_eq_getElem hk'] at hk
    exact Option.some.inj hk
  have ho : k < old.length := by omega
  rw [List.getD_eq_getElem?_getD, List.getElem?_eq_getElem (by rw [List.length_zipWith, List.length_map, hlen]; omega), Option.getD_some, List.getElem_zipWith, List.getD_eq_getElem?_getD,
    List.getElem?_eq_getElem ho, Option.getD_some]
  congr 1
  rw [List.getElem_map]
  unfold psiPlusFn energyAt fracStrain
  congr 1
  funext i j
  have : ∀ i j, ((F.solToGrad u)[k]'(by omega)) q i j = F.gradAt u c q i j := by
    intro i j
    have h1 : (F.solToGrad u)[k]? = some fun q i d => ∑ n, u (c n) i * F.shapeGrad c q n d := by
      unfold Fem.solToGrad
      rw [List.getElem?_map, hk]
      rfl
    rw [List.getElem?_eq_getElem (by omega)] at h1
    rw [Option.some.inj h1]
    rfl
  rw [this, this]
  ring

/-- **C98 (history).** The history variable is, at every quadrature point, the largest tensile energy of the displacement fields accepted so far (and zero): it never decreases, also under unloading, and
does not contain energies of rejected inner iterates. -/
theorem C98_history (F : Fem nn nq nf nfq dim dim) (eigh : (Fin dim → Fin dim → ℝ) → Eigh dim) (solveU : (ℕ → Fin 1 → ℝ) → ℝ → Except FemErr (ℕ → Fin dim → ℝ))
    (solveD : List (Fin nq → ℝ) → Except FemErr (ℕ → Fin 1 → ℝ)) (N : ℕ) (early : Bool) (fuel : ℕ) (loads : List ℝ) (crack : ℕ → Bool) (l : List (FracState nq dim))
    (h : FracSolvers.run ⟨solveU, solveD, computeHistory F eigh, N⟩ early fuel loads (fracInit F.cells.length crack) = .ok (some l)) (m : ℕ) (st : FracState nq dim) (hm : l[m]? = some st)
    (k : ℕ) (c : Fin nn → ℕ) (hk : F.cells[k]? = some c) (q : Fin nq) :
    (st.history.getD k 0) q = runningMax 0 ((l.take (m + 1)).map fun s => energyAt F eigh s.sol_u c q) := by
  have key : ∀ (loads : List ℝ) (st0 : FracState nq dim) (l : List (FracState nq dim)), st0.history_old = st0.history →
      FracSolvers.run ⟨solveU, solveD, computeHistory F eigh, N⟩ early fuel loads st0 = .ok (some l) → ∀ m st, l[m]? = some st →
      (st.history.getD k 0) q = runningMax ((st0.history.getD k 0) q) ((l.take (m + 1)).map fun s => energyAt F eigh s.sol_u c q) := by
    intro loads
    induction loads with
    | nil =>
      intro st0 l _ h m st hm
      simp only [FracSolvers.run, pure, Except.pure] at h
      injection h with h
      injection h with h
      subst h
      simp at hm
    | cons disp rest ih =>
      intro st0 l h0 h m st hm
      obtain ⟨st', l', rfl, hs, hr⟩ := run_cons _ early fuel disp rest st0 l h
      obtain ⟨-, -, h3, h4⟩ := step_ok _ early fuel disp st0 st' hs
      have h5 := (computeHistory_ok F eigh _ _ _ h3).2.2 k c hk q
      rw [h0, max_comm] at h5
      cases m with
      | zero =>
        simp only [List.getElem?_cons_zero, Option.some.injEq] at hm
        subst hm
        simpa [runningMax] using h5
      | succ m =>
        rw [List.getElem?_cons_succ] at hm
        rw [ih st' l' h4 hr m st hm, h5]
        simp [runningMax]
  have := key loads _ l rfl h m st hm
  rw [this]
  congr 1
  have hk' : k < F.cells.length := by
    by_contra hc
    rw [List.getElem?_eq_none (not_lt.mp hc)] at hk
    cases hk
  simp only [fracInit]
  rw [List.getD_eq_getElem?_getD, List.getElem?_eq_getElem (by simpa using hk'), Option.getD_some, List.getElem_replicate]

theorem runningMax_le (h0 : ℝ) (vals : List ℝ) : h0 ≤ runningMax h0 vals ∧ ∀ v ∈ vals, v ≤ runningMax h0 vals := by
  unfold runningMax
  induction vals generalizing h0 with
  | nil => simp
  | cons a l ih =>
    obtain ⟨h1, h2⟩ := ih (max h0 a)
    simp only [List.foldl_cons]
    refine ⟨le_trans (le_max_left _ _) h1, fun v hv => ?_⟩
    rcases List.mem_cons.mp hv with rfl | hv
    · exact le_trans (le_max_right _ _) h1
    · exact h2 v hv

end Verif.Fem
