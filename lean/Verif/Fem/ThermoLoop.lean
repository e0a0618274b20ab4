import Verif.Fem.Thermo
import Verif.Fem.ThermoMech
import Verif.Fem.AdWrapper

/-!
# The time loop of the thermo-mechanical demo (model of demos/fem/thermal_mechanical/example.py 153-274)
-/
namespace Verif.Fem
open Finset Matrix

variable {nn nq nf nfq : ℕ}

/-! ## Model: the heat step -/

/-- `dirichlet_bc_info_T` (example.py 210-211, 218). -/
noncomputable def tmInfo : List (Loc 3) × List ℕ × List ((Fin 3 → ℝ) → ℝ) := ([tmBottom], [0], [fun _ => 300])

/-- `problem_T` after `set_params([sol_T_old, laser_center, switch])` with the numbers of the file (example.py 153-168, 217-222, 240, 250). -/
noncomputable def tmHeat (F : Fem nn nq nf nfq 3 1) (L : Fin 3 → ℝ) (old : ℕ → Fin 1 → ℝ) (laser_center : Fin 3 → ℝ) (switch : ℝ) : Fem nn nq nf nfq 3 1 :=
  tmThermal F 15 8440 588 (2 * 1e-6) (tmTop (L 2)) (tmWalls (L 0) (L 1)) (tmTopFlux laser_center switch) tmWallFlux old

/-- `solver(problem_T, use_petsc=False)` (example.py 251). -/
noncomputable def tmSolveT (F : Fem nn nq nf nfq 3 1) (L : Fin 3 → ℝ) (groups : List (Group ℝ)) (lin : ℕ → LinCall ℝ → ℕ → ℝ) (fuel : ℕ) (old : ℕ → Fin 1 → ℝ) (laser_center : Fin 3 → ℝ) (switch : ℝ) :
    Except (SolveErr FemErr) (ℕ → Fin 1 → ℝ) := do
  let u ← ((tmHeat F L old laser_center switch).toProb groups).rowSolver realArith lin false true false none fuel
  pure fun n i => u (1 * n + i)

/-! ## The heat step on the mesh of the demo -/

theorem exactFor_of_exactLin {E : Type} (P : Prob ℝ E) (usePetsc : Bool) (h : ∃ lin, P.ExactFor usePetsc lin) (lin : ℕ → LinCall ℝ → ℕ → ℝ) (hlin : ExactLin P.numDofs lin) : P.ExactFor usePetsc lin := by
  obtain ⟨lin0, h0⟩ := h
  intro k call hc
  exact hlin k call ⟨lin0 k call, h0 k call hc⟩

/-- **C108 (demo).** On every box mesh of cells as small as those of the file: the boundary condition is accepted, and with an exact linear solver each heat step returns after at most one Newton iteration, for every old temperature,
laser position and switch. The nodes of the two lowest layers are at 300 K (to `1e-6`), at the others the discrete heat equation holds (to `1e-6`). -/
theorem C108_demo (N : Fin 3 → ℕ) (L : Fin 3 → ℝ) (hc : ∀ a, Coarse N L a) (F : Fem 8 (2 ^ 3) 6 nfq 3 1) (hbox : OnBox F N L) (hnum : F.numTotal = (N 0 + 1) * (N 1 + 1) * (N 2 + 1))
    (ht : CellTables F hex8 (gaussRule 3)) (frule : QuadRule nfq) (hf : FaceTables F hex8 frule) :
    ∃ ns cs ws, dirichletBC F.numTotal F.points (some tmInfo) = .ok (ns, cs, ws) ∧ ∀ lin, ExactLin F.numTotal lin → ∀ old laser_center switch fuel,
      ∃ T R, tmSolveT F L (groupsOf ns cs ws) lin (fuel + 1) old laser_center switch = .ok T ∧ (tmHeat F L old laser_center switch).computeResidual T = .ok R ∧
        ∀ m : Fin 3 → ℕ, (∀ b, m b ≤ N b) → (m 2 ≤ 1 → |T (gridNode N m) 0 - 300| ≤ 1e-6) ∧ (2 ≤ m 2 → |R (gridNode N m) 0| ≤ 1e-6) := by
  have hN : ∀ a, 0 < N a := fun a => by have := (hc a).cells; omega
  have hL : ∀ a, 0 < L a := fun a => (hc a).size
  have hS := C98_box F N L hbox hnum hN hL ht
  obtain ⟨⟨ns, cs, ws⟩, hbc⟩ := (C17_accepted F.numTotal F.points tmInfo.1 tmInfo.2.1 tmInfo.2.2).1.mpr ⟨rfl, rfl⟩
  refine ⟨ns, cs, ws, hbc, fun lin hlin old laser_center switch fuel => ?_⟩
  set G := tmHeat F L old laser_center switch with hG
  have hwf : (G.toProb (groupsOf ns cs ws)).WF := C19_groups_wf (G.toProb (groupsOf ns cs ws)) Nat.one_pos F.numTotal F.points _ _ _ ns cs ws hbc rfl
  have hfaces : ∀ l ∈ [tmTop (L 2), tmWalls (L 0) (L 1)], ∀ p ∈ F.selected l, ∀ q, (F.faceJacobian p.1 p.2 q).det ≠ 0 := by
    intro l _ p hp q
    have hp' : p ∈ F.selectFaces (F.boundaryInds l) := by rw [selectFaces_boundaryInds]; exact hp
    obtain ⟨g, hg, hpg⟩ := (hbox.mem_cells p.1).mp (selectFaces_mem F _ p hp')
    rw [hpg, hbox.faceJacobian _ hf g hg, Matrix.det_diagonal]
    exact (prod_pos fun a _ => div_pos (hL a) (by exact_mod_cast hN a)).ne'
  obtain ⟨h1, h2⟩ := C108_solve F hS 15 8440 588 (2 * 1e-6) (by norm_num) (by norm_num) (by norm_num) _ _ (tmTopFlux laser_center switch) tmWallFlux old hfaces (groupsOf ns cs ws) hwf false
  have hdofs : (G.toProb (groupsOf ns cs ws)).numDofs = F.numTotal := mul_one _
  obtain ⟨u, hu, ⟨R, hR, hres⟩, -⟩ := h2 lin (exactFor_of_exactLin _ _ h1 lin (by change ExactLin (G.toProb (groupsOf ns cs ws)).numDofs lin; rw [hdofs]; exact hlin)) true fuel
  refine ⟨fun n i => u (1 * n + i), R, ?_, hR, fun m hm => ?_⟩
  · unfold tmSolveT
    change Prob.rowSolver realArith (G.toProb (groupsOf ns cs ws)) lin false true false none (fuel + 1) = _ at hu
    rw [← hG, hu]
    rfl
  · have hlt : gridNode N m < F.numTotal := by rw [hnum]; exact gridNode_lt N m hm
    obtain ⟨p1, p2⟩ := user_prescriptions (G.toProb (groupsOf ns cs ws)) F.points [tmBottom] [0] [fun _ => 300] (fun c hc => by rw [List.mem_singleton.mp hc]; exact Nat.one_pos) ns cs ws hbc rfl (gridNode N m) 0 hlt Nat.one_pos
    obtain ⟨r1, r2⟩ := hres (gridNode N m) hlt 0
    have hbot := (C107_nodes hbox hc m hm).2.1
    refine ⟨fun h => ?_, fun h => ?_⟩
    · have hnf : ¬ FreeAt (G.toProb (groupsOf ns cs ws)).prescriptions (1 * gridNode N m + 0) := by
        intro hfree
        exact (p1.mp hfree) (tmBottom, 0, fun _ => 300) (by simp) ⟨hbot.mpr (by omega), rfl⟩
      obtain ⟨w, hw⟩ := (free_or_last _ _).resolve_left hnf
      obtain ⟨t, htm, -, hv⟩ := p2 w hw
      have ht2 : t = (tmBottom, 0, fun _ => 300) := by simpa using htm
      have hw3 : w = 300 := by rw [hv, ht2]
      have := r1 w hw
      rwa [hw3] at this
    · refine r2 (p1.mpr fun t htm h2 => ?_)
      have ht2 : t = (tmBottom, 0, fun _ => 300) := by simpa using htm
      rw [ht2] at h2
      have := hbot.mp h2.1
      omega

/-- **C108 (equilibrium).** With the laser off and everything at 300 K, 300 K everywhere solves the step exactly, and it is the only solution. -/
theorem C108_ambient (F : Fem nn nq nf nfq 3 1) (hF : F.Sound) (hgrad : ∀ q b, ∑ n, F.shapeGradsRef q n b = 0) (hface : ∀ f q, ∑ n, F.faceShapeVals f q n = 1) (L : Fin 3 → ℝ) (laser_center : Fin 3 → ℝ)
    (hfaces : ∀ l ∈ [tmTop (L 2), tmWalls (L 0) (L 1)], ∀ p ∈ F.selected l, ∀ q, (F.faceJacobian p.1 p.2 q).det ≠ 0) (pres : List (ℕ × ℝ)) (hpres : ∀ d v, LastAt pres d v → v = 300) :
    (tmHeat F L (fun _ _ => 300) laser_center 0).Solves pres (fun _ _ => 300) ∧
    ∀ T, (tmHeat F L (fun _ _ => 300) laser_center 0).Solves pres T → ∀ n < F.numTotal, T n 0 = 300 := by
  have hsol : (tmHeat F L (fun _ _ => 300) laser_center 0).Solves pres (fun _ _ => 300) := by
    obtain ⟨R, hR⟩ := (C108_returns F 15 8440 588 (2 * 1e-6) (tmTop (L 2)) (tmWalls (L 0) (L 1)) (tmTopFlux laser_center 0) tmWallFlux (fun _ _ => 300) (fun _ _ => 300)).mpr ⟨hF.cells, hfaces⟩
    refine ⟨R, hR, fun n hn i => ⟨fun v hv => (hpres _ v hv).symm, fun _ => ?_⟩⟩
    have hi : i = 0 := Subsingleton.elim _ _
    subst hi
    have h1 := tm_work F hF.mesh 15 8440 588 (2 * 1e-6) _ _ _ _ _ _ R (fun m _ => if m = n then 1 else 0) hR
    have hgc : ∀ c q d, F.gradAt (fun _ (_ : Fin 1) => (300 : ℝ)) c q 0 d = 0 := fun c q d => by
      unfold Fem.gradAt
      rw [← mul_sum, grad_sum_zero F hgrad c q d, mul_zero]
    have hfc : ∀ s q, F.uFace (fun _ (_ : Fin 1) => (300 : ℝ)) s q 0 = 300 := fun s q => by
      unfold Fem.uFace
      rw [← mul_sum, hface, mul_one]
    have hl : tmLoss 300 = 0 := ((C108_loss 300 (by norm_num)).1).mpr rfl
    have hlas : ∀ x y, tmLaser laser_center 0 x y = 0 := fun x y => by unfold tmLaser; simp
    have hw : ∀ I (g : FluxFn), (∀ x T i, T 0 = 300 → g x T i = 0) → ∀ v, fluxWork F I g (fun _ _ => 300) v = 0 := fun I g hg v => by
      unfold fluxWork
      refine List.sum_eq_zero fun x hx => ?_
      obtain ⟨p, -, rfl⟩ := List.mem_map.mp hx
      exact sum_eq_zero fun q _ => by rw [hg _ _ _ (hfc p q), zero_mul, zero_mul]
    rw [hw _ _ (fun x T i hT => by simp [tmTopFlux, hT, hl, hlas]), hw _ _ (fun x T i hT => by simp [tmWallFlux, hT, hl])] at h1
    simp only [hgc, sub_self, mul_zero, zero_mul, sum_const_zero, add_zero, sub_zero] at h1
    have hz : heatOf F (fun _ _ => 0) = 0 := by
      unfold heatOf
      refine List.sum_eq_zero fun x hx => ?_
      obtain ⟨c, -, rfl⟩ := List.mem_map.mp hx
      simp
    rw [hz] at h1
    simp only [mul_ite, mul_one, mul_zero] at h1
    have hn' : n ∈ range F.numTotal := Finset.mem_range.mpr hn
    rwa [sum_ite_eq' (range F.numTotal) n, if_pos hn'] at h1
  refine ⟨hsol, fun T hT n hn => ?_⟩
  obtain ⟨R, hR, hs⟩ := hsol
  obtain ⟨R', hR', hs'⟩ := hT
  refine C108_determined F hF 15 8440 588 (2 * 1e-6) (by norm_num) (by norm_num) (by norm_num) _ _ _ _ _ pres T (fun _ _ => 300) R' R hR' hR (fun n hn i hf => ?_) (fun n hn i hf => ?_) n hn 0
  · obtain ⟨w, hw⟩ := (free_or_last _ _).resolve_left hf
    rw [(hs' n hn i).1 w hw, hpres _ w hw]
  · rw [(hs' n hn i).2 hf, (hs n hn i).2 hf]

/-! ## Model: the loop -/

/-- `ts[i]` (example.py 240-243); `np.arange` in exact arithmetic. -/
noncomputable def tmTs (i : ℕ) : ℝ := i * (2 * 1e-6)

/-- `laser_on_t`, `simulation_t` (example.py 241-242). -/
noncomputable def tmLaserOn (Lx : ℝ) : ℝ := 0.5 * Lx / 0.5
noncomputable def tmSimulation (Lx : ℝ) : ℝ := 2 * tmLaserOn Lx

/-- `laser_center` (example.py 245). -/
noncomputable def tmCenter (L : Fin 3 → ℝ) (i : ℕ) : Fin 3 → ℝ := ![L 0 * 0.25 + 0.5 * tmTs (i + 1), L 1 / 2, L 2]

open Classical in
/-- `switch` (example.py 246). -/
noncomputable def tmSwitch (L : Fin 3 → ℝ) (i : ℕ) : ℝ := if tmTs (i + 1) < tmLaserOn (L 0) then 1 else 0

/-- A written file (example.py 268-272): its number, the temperature, the displacement. -/
structure TmFile where
  number : ℕ
  temperature : ℕ → Fin 1 → ℝ
  displacement : ℕ → Fin 3 → ℝ

/-- The variables of the script that survive an iteration. -/
structure TmState (nq : ℕ) where
  sol_T_old : ℕ → Fin 1 → ℝ
  sol_T_old_for_u : ℕ → Fin 1 → ℝ
  sol_u : ℕ → Fin 3 → ℝ
  params_u : List (TmCell nq 3)
  files : List TmFile

/-- The two solver calls (example.py 250-251 and 258-259) as functions of what `set_params` hands over. -/
structure TmSolvers (nq : ℕ) where
  solveT : (ℕ → Fin 1 → ℝ) → (Fin 3 → ℝ) → ℝ → Except (SolveErr FemErr) (ℕ → Fin 1 → ℝ)
  solveU : List (TmCell nq 3) → (ℕ → Fin 3 → ℝ) → Except (SolveErr FemErr) (ℕ → Fin 3 → ℝ)

/-- An exception of the FEM object. -/
def tmLift {α : Type} : Except FemErr α → Except (SolveErr FemErr) α
  | .ok a => .ok a
  | .error e => .error (.raised e)

/-- One iteration (example.py 244-274). -/
noncomputable def tmBody (S : TmSolvers nq) (F : Fem nn nq nf nfq 3 3) (L : Fin 3 → ℝ) (s : TmState nq) (i : ℕ) : Except (SolveErr FemErr) (TmState nq) := do
  let laser_center := tmCenter L i
  let switch := tmSwitch L i
  let sol_T_new ← S.solveT s.sol_T_old laser_center switch
  let s ← (if (i + 1) % 10 = 0 then do
      let params_u ← tmLift (tmUpdatePhase F (fun n => sol_T_new n 0 - s.sol_T_old_for_u n 0) (fun n => sol_T_new n 0) s.params_u)
      let sol_u ← S.solveU params_u s.sol_u
      let params_u ← tmLift (tmUpdateStress F sol_u params_u)
      pure { s with sol_T_old_for_u := sol_T_new, sol_u := sol_u, params_u := params_u, files := s.files ++ [⟨i + 1, s.sol_T_old, sol_u⟩] }
    else pure s)
  pure { s with sol_T_old := sol_T_new }

/-- The state before the loop (example.py 220-228, 234-238). -/
noncomputable def tmStart (F : Fem nn nq nf nfq 3 3) : TmState nq := ⟨fun _ _ => 300, fun _ _ => 300, fun _ _ => 0, tmInit F, [⟨0, fun _ _ => 300, fun _ _ => 0⟩]⟩

/-- The first `k` iterations. -/
noncomputable def tmRun (S : TmSolvers nq) (F : Fem nn nq nf nfq 3 3) (L : Fin 3 → ℝ) (k : ℕ) : Except (SolveErr FemErr) (TmState nq) := (List.range k).foldlM (tmBody S F L) (tmStart F)

/-! ## C110 -/

/-- **C110 (times).** With the numbers of the file: 500 time points before the end, so 499 iterations; the laser is on in the first 249 of them, and then its centre is between a quarter and three quarters of the length, in the middle of
the width and on the upper side. After that its centre goes on and leaves the part. -/
theorem C110_times :
    (∀ i : ℕ, tmTs i < tmSimulation (tmL 0) ↔ i < 500) ∧ (∀ i, tmSwitch tmL i = 1 ↔ i < 249) ∧ (∀ i, tmSwitch tmL i = 0 ↔ 249 ≤ i) ∧
    (∀ i < 249, tmL 0 / 4 < tmCenter tmL i 0 ∧ tmCenter tmL i 0 < 3 / 4 * tmL 0) ∧ (∀ i, tmCenter tmL i 1 = tmL 1 / 2 ∧ tmCenter tmL i 2 = tmL 2) ∧ tmL 0 < tmCenter tmL 498 0 := by
  have hL : tmL 0 = 0.5e-3 := rfl
  have hon : ∀ i, tmTs (i + 1) < tmLaserOn (tmL 0) ↔ i < 249 := fun i => by
    unfold tmTs tmLaserOn
    rw [hL]
    constructor
    · intro h
      have : ((i + 1 : ℕ) : ℝ) < 250 := by norm_num at h ⊢; linarith
      have : i + 1 < 250 := by exact_mod_cast this
      omega
    · intro h
      have : ((i + 1 : ℕ) : ℝ) ≤ 249 := by exact_mod_cast (by omega : i + 1 ≤ 249)
      norm_num at this ⊢
      linarith
  refine ⟨fun i => ?_, fun i => ?_, fun i => ?_, fun i hi => ?_, fun i => ⟨rfl, rfl⟩, ?_⟩
  · unfold tmTs tmSimulation tmLaserOn
    rw [hL]
    constructor
    · intro h
      have : (i : ℝ) < 500 := by ring_nf at h; linarith
      exact_mod_cast this
    · intro h
      have : (i : ℝ) ≤ 499 := by exact_mod_cast (by omega : i ≤ 499)
      ring_nf
      linarith
  · unfold tmSwitch
    rw [← hon i]
    split_ifs with h <;> simp [h]
  · unfold tmSwitch
    rw [← not_lt, ← hon i]
    split_ifs with h <;> simp [h]
  · have : ((i + 1 : ℕ) : ℝ) ≤ 249 := by exact_mod_cast (by omega : i + 1 ≤ 249)
    have h0 : (0 : ℝ) < ((i + 1 : ℕ) : ℝ) := by positivity
    show tmL 0 / 4 < tmL 0 * 0.25 + 0.5 * tmTs (i + 1) ∧ tmL 0 * 0.25 + 0.5 * tmTs (i + 1) < 3 / 4 * tmL 0
    unfold tmTs
    rw [hL]
    constructor <;> nlinarith
  · show tmL 0 < tmL 0 * 0.25 + 0.5 * tmTs 499
    unfold tmTs
    rw [hL]
    norm_num

/-- What is known after `k` iterations, for a temperature history `hist` (after each iteration) and displacements `us` (after each mechanical step). -/
structure TmTrace (S : TmSolvers nq) (F : Fem nn nq nf nfq 3 3) (L : Fin 3 → ℝ) (k : ℕ) (hist : ℕ → ℕ → Fin 1 → ℝ) (us : ℕ → ℕ → Fin 3 → ℝ) (s : TmState nq) : Prop where
  start : hist 0 = (fun _ _ => 300) ∧ us 0 = fun _ _ => 0
  heat : ∀ i < k, S.solveT (hist i) (tmCenter L i) (tmSwitch L i) = .ok (hist (i + 1))
  now : s.sol_T_old = hist k ∧ s.sol_T_old_for_u = hist (10 * (k / 10)) ∧ s.sol_u = us (k / 10)
  mech : ((List.range (k / 10)).map fun j => ((fun n => hist (10 * (j + 1)) n 0), us (j + 1))).foldlM (tmMech F) (fun _ => 300, tmInit F) = .ok ((fun n => hist (10 * (k / 10)) n 0), s.params_u)
  files : s.files = ⟨0, hist 0, us 0⟩ :: (List.range (k / 10)).map fun j => ⟨10 * (j + 1), hist (10 * (j + 1) - 1), us (j + 1)⟩

/-- **C110 (loop).** Whenever the first `k` iterations return: the temperatures form a chain of heat steps from 300 K; the mechanical steps are every tenth one, each with the temperature change since the last mechanical step, so that stresses
and phases are those of the sequence of every tenth temperature; file number `10 j` holds the displacement of the `j`-th mechanical step, but the temperature of one heat step before. -/
theorem C110_loop (S : TmSolvers nq) (F : Fem nn nq nf nfq 3 3) (L : Fin 3 → ℝ) (k : ℕ) (s : TmState nq) (h : tmRun S F L k = .ok s) : ∃ hist us, TmTrace S F L k hist us s := by
  induction k generalizing s with
  | zero =>
    have hs : tmStart F = s := by
      have h' : (pure (tmStart F) : Except (SolveErr FemErr) (TmState nq)) = .ok s := h
      exact Except.ok.inj h'
    subst hs
    exact ⟨fun _ _ _ => 300, fun _ _ _ => 0, ⟨rfl, rfl⟩, fun i hi => absurd hi (by omega), ⟨rfl, rfl, rfl⟩, rfl, rfl⟩
  | succ k ih =>
    unfold tmRun at h ih
    rw [List.range_succ, List.foldlM_append] at h
    cases hk : (List.range k).foldlM (tmBody S F L) (tmStart F) with
    | error e => rw [hk] at h; cases h
    | ok s0 =>
      rw [hk] at h
      have hb : tmBody S F L s0 k = .ok s := by
        dsimp only [bind, Except.bind] at h
        simp only [List.foldlM_cons, List.foldlM_nil] at h
        dsimp only [bind, Except.bind] at h
        cases hx : tmBody S F L s0 k with
        | error e => rw [hx] at h; cases h
        | ok s1 => rw [hx] at h; exact h
      obtain ⟨hist, us, tr⟩ := ih s0 hk
      unfold tmBody at hb
      dsimp only [bind, Except.bind, pure, Except.pure] at hb
      cases hT : S.solveT s0.sol_T_old (tmCenter L k) (tmSwitch L k) with
      | error e => rw [hT] at hb; cases hb
      | ok T =>
        rw [hT] at hb
        dsimp only at hb
        rw [tr.now.1] at hT
        set hist' : ℕ → ℕ → Fin 1 → ℝ := fun i => if i ≤ k then hist i else T with hh'
        have hold : ∀ i ≤ k, hist' i = hist i := fun i hi => if_pos hi
        have hnew : hist' (k + 1) = T := if_neg (by omega)
        have hheat : ∀ i < k + 1, S.solveT (hist' i) (tmCenter L i) (tmSwitch L i) = .ok (hist' (i + 1)) := by
          intro i hi
          rcases Nat.lt_succ_iff_lt_or_eq.mp hi with hi | rfl
          · rw [hold i (by omega), hold (i + 1) (by omega)]
            exact tr.heat i hi
          · rw [hold i le_rfl, hnew]
            exact hT
        have hstart : hist' 0 = fun _ _ => 300 := by rw [hold 0 (by omega)]; exact tr.start.1
        by_cases hm : (k + 1) % 10 = 0
        · rw [if_pos hm] at hb
          have hdiv : (k + 1) / 10 = k / 10 + 1 := by omega
          have hmul : 10 * (k / 10 + 1) = k + 1 := by omega
          cases hp : tmUpdatePhase F (fun n => T n 0 - s0.sol_T_old_for_u n 0) (fun n => T n 0) s0.params_u with
          | error e => rw [hp] at hb; cases hb
          | ok p =>
            rw [hp] at hb
            dsimp only [tmLift] at hb
            cases hu : S.solveU p s0.sol_u with
            | error e => rw [hu] at hb; cases hb
            | ok u =>
              rw [hu] at hb
              dsimp only at hb
              cases hp2 : tmUpdateStress F u p with
              | error e => rw [hp2] at hb; cases hb
              | ok p2 =>
                rw [hp2] at hb
                dsimp only at hb
                have hs := Except.ok.inj hb
                set us' : ℕ → ℕ → Fin 3 → ℝ := fun j => if j ≤ k / 10 then us j else u with hus'
                have uold : ∀ j ≤ k / 10, us' j = us j := fun j hj => if_pos hj
                have unew : us' (k / 10 + 1) = u := if_neg (by omega)
                refine ⟨hist', us', ⟨hstart, by rw [uold 0 (by omega)]; exact tr.start.2⟩, hheat, ?_, ?_, ?_⟩
                · rw [← hs, hdiv, hmul, hnew, unew]
                  exact ⟨rfl, rfl, rfl⟩
                · rw [hdiv, hmul, List.range_succ, List.map_append, List.foldlM_append]
                  have e : ((List.range (k / 10)).map fun j => ((fun n => hist' (10 * (j + 1)) n 0), us' (j + 1))) = (List.range (k / 10)).map fun j => ((fun n => hist (10 * (j + 1)) n 0), us (j + 1)) := by
                    refine List.map_congr_left fun j hj => ?_
                    rw [List.mem_range] at hj
                    rw [hold _ (by omega), uold _ (by omega)]
                  rw [e, tr.mech]
                  dsimp only [bind, Except.bind]
                  simp only [List.map_cons, List.map_nil, List.foldlM_cons, List.foldlM_nil]
                  unfold tmMech
                  dsimp only [bind, Except.bind]
                  rw [hmul, hnew, unew]
                  have e2 : (fun n => T n 0 - hist (10 * (k / 10)) n 0) = fun n => T n 0 - s0.sol_T_old_for_u n 0 := by rw [tr.now.2.1]
                  rw [e2, hp]
                  dsimp only
                  rw [hp2, ← hs]
                  rfl
                · rw [← hs, hdiv, List.range_succ, List.map_append]
                  show s0.files ++ _ = _
                  rw [tr.files, List.cons_append, hold 0 (by omega), uold 0 (by omega)]
                  congr 1
                  congr 1
                  · refine List.map_congr_left fun j hj => ?_
                    rw [List.mem_range] at hj
                    rw [hold _ (by omega), uold _ (by omega)]
                  · simp only [List.map_cons, List.map_nil]
                    rw [hmul, unew, show k + 1 - 1 = k by omega, hold k le_rfl, tr.now.1]
        · rw [if_neg hm] at hb
          have hdiv : (k + 1) / 10 = k / 10 := by omega
          have hs := Except.ok.inj hb
          refine ⟨hist', us, ⟨hstart, tr.start.2⟩, hheat, ?_, ?_, ?_⟩
          · rw [← hs, hdiv, hnew, hold _ (by omega)]
            exact ⟨rfl, tr.now.2⟩
          · rw [← hs, hdiv, hold _ (by omega : 10 * (k / 10) ≤ k), ← tr.mech]
            congr 1
            refine List.map_congr_left fun j hj => ?_
            rw [List.mem_range] at hj
            rw [hold _ (by omega)]
          · rw [← hs, hdiv]
            show s0.files = _
            rw [tr.files, hold 0 (by omega)]
            congr 1
            refine List.map_congr_left fun j hj => ?_
            rw [List.mem_range] at hj
            rw [hold _ (by omega)]

/-- **C110 (state).** The stored stress never exceeds the yield stress and is symmetric; the stored phase of a point is decided by every tenth temperature alone. -/
theorem C110_state (S : TmSolvers nq) (F : Fem nn nq nf nfq 3 3) (L : Fin 3 → ℝ) (k : ℕ) (hist : ℕ → ℕ → Fin 1 → ℝ) (us : ℕ → ℕ → Fin 3 → ℝ) (s : TmState nq) (tr : TmTrace S F L k hist us s) :
    s.params_u.length = F.cells.length ∧ ∀ (l : ℕ) (c : Fin nn → ℕ), F.cells[l]? = some c → ∃ p, s.params_u[l]? = some p ∧ ∀ q,
      let ts := (List.range (k / 10)).map fun j => ∑ n, hist (10 * (j + 1)) (c n) 0 * F.shapeVals q n
      mises (p.sig q) ≤ 250e6 ∧ (p.sig q)ᵀ = p.sig q ∧ (p.phase q = SOLID ↔ Frozen ts) ∧ (p.phase q = LIQUID ↔ Molten ts ∧ ¬ Frozen ts) ∧ (p.phase q = POWDER ↔ ¬ Molten ts) := by
  obtain ⟨s', h1, h2, h3⟩ := C109_history (by norm_num) F ((List.range (k / 10)).map fun j => ((fun n => hist (10 * (j + 1)) n 0), us (j + 1)))
  rw [tr.mech] at h1
  have e := Except.ok.inj h1
  rw [← e] at h2 h3
  refine ⟨h2, fun l c hc => ?_⟩
  obtain ⟨p, hp, hq⟩ := h3 l c hc
  refine ⟨p, hp, fun q => ?_⟩
  obtain ⟨q1, q2, q3, -⟩ := hq q
  rw [List.map_map] at q1
  have h := C109_phase ((List.range (k / 10)).map fun j => ∑ n, hist (10 * (j + 1)) (c n) 0 * F.shapeVals q n)
  have q1' : p.phase q = ((List.range (k / 10)).map fun j => ∑ n, hist (10 * (j + 1)) (c n) 0 * F.shapeVals q n).foldl tmPhase POWDER := q1
  rw [← q1'] at h
  exact ⟨q2, q3, h⟩

/-- **C110 (exceptions).** The loop raises only what one of the two solver calls raises. -/
theorem C110_raises (S : TmSolvers nq) (F : Fem nn nq nf nfq 3 3) (L : Fin 3 → ℝ) (k : ℕ) (e : SolveErr FemErr) (h : tmRun S F L k = .error e) :
    (∃ i < k, ∃ T, S.solveT T (tmCenter L i) (tmSwitch L i) = .error e) ∨ ∃ p u, S.solveU p u = .error e := by
  induction k with
  | zero => cases h
  | succ k ih =>
    cases hk : tmRun S F L k with
    | error e' =>
      have : e' = e := by
        unfold tmRun at h hk
        rw [List.range_succ, List.foldlM_append, hk] at h
        exact Except.error.inj h
      rw [hk, this] at ih
      rcases ih rfl with ⟨i, hi, hT⟩ | h
      · exact .inl ⟨i, by omega, hT⟩
      · exact .inr h
    | ok s =>
      obtain ⟨hist, us, tr⟩ := C110_loop S F L k s hk
      have hlen := (C110_state S F L k hist us s tr).1
      have hb : tmBody S F L s k = .error e := by
        unfold tmRun at h hk
        rw [List.range_succ, List.foldlM_append, hk] at h
        dsimp only [bind, Except.bind] at h
        simp only [List.foldlM_cons, List.foldlM_nil] at h
        dsimp only [bind, Except.bind] at h
        cases hx : tmBody S F L s k with
        | error e => rw [hx] at h; exact h
        | ok s1 => rw [hx] at h; cases h
      unfold tmBody at hb
      dsimp only [bind, Except.bind, pure, Except.pure] at hb
      cases hT : S.solveT s.sol_T_old (tmCenter L k) (tmSwitch L k) with
      | error e' =>
        rw [hT] at hb
        exact .inl ⟨k, by omega, s.sol_T_old, by rw [hT]; rw [Except.error.inj hb]⟩
      | ok T =>
        rw [hT] at hb
        dsimp only at hb
        by_cases hm : (k + 1) % 10 = 0
        · rw [if_pos hm] at hb
          obtain ⟨p, hp, hpl, -⟩ := tmUpdatePhase_ok F (fun n => T n 0 - s.sol_T_old_for_u n 0) (fun n => T n 0) s.params_u hlen
          rw [hp] at hb
          dsimp only [tmLift] at hb
          cases hu : S.solveU p s.sol_u with
          | error e' =>
            rw [hu] at hb
            exact .inr ⟨p, s.sol_u, by rw [hu]; rw [Except.error.inj hb]⟩
          | ok u =>
            rw [hu] at hb
            dsimp only at hb
            obtain ⟨p2, hp2, -, -⟩ := tmUpdateStress_ok F u p hpl
            rw [hp2] at hb
            cases hb
        · rw [if_neg hm] at hb
          cases hb

/-- `dirichlet_bc_info_u` (example.py 214-215, 225). -/
noncomputable def tmInfoU : List (Loc 3) × List ℕ × List ((Fin 3 → ℝ) → ℝ) := ([tmBottom, tmBottom, tmBottom], [0, 1, 2], [fun _ => 0, fun _ => 0, fun _ => 0])

/-- The two solver calls of the script (example.py 250-251, 258-259). -/
noncomputable def tmScript (F₁ : Fem nn nq nf nfq 3 1) (F : Fem nn nq nf nfq 3 3) (L : Fin 3 → ℝ) (groupsT groupsU : List (Group ℝ)) (lin : ℕ → LinCall ℝ → ℕ → ℝ) (fuel : ℕ) : TmSolvers nq where
  solveT old laser_center switch := tmSolveT F₁ L groupsT lin fuel old laser_center switch
  solveU params guess := do
    let u ← ((tmPlast F params).toProb groupsU).rowSolver realArith lin false true false (some fun d => guess (d / 3) ⟨d % 3, Nat.mod_lt _ (by norm_num)⟩) fuel
    pure fun n i => u (3 * n + i)

/-- **C110 (program).** The whole script on a mesh of the kind of the file, with exact linear solves: it can fail in a mechanical solve only. If `k` iterations return, every temperature of the run satisfies its heat step to `1e-6`, the two lowest
layers of nodes stay at 300 K, and the trace is as in `C110_loop`. -/
theorem C110_program (N : Fin 3 → ℕ) (L : Fin 3 → ℝ) (hc : ∀ a, Coarse N L a) (F₁ : Fem 8 (2 ^ 3) 6 nfq 3 1) (hbox : OnBox F₁ N L) (hnum : F₁.numTotal = (N 0 + 1) * (N 1 + 1) * (N 2 + 1))
    (ht : CellTables F₁ hex8 (gaussRule 3)) (frule : QuadRule nfq) (hf : FaceTables F₁ hex8 frule) (F : Fem 8 (2 ^ 3) 6 nfq 3 3) :
    ∃ ns cs ws nu cu wu, dirichletBC F₁.numTotal F₁.points (some tmInfo) = .ok (ns, cs, ws) ∧ dirichletBC F.numTotal F.points (some tmInfoU) = .ok (nu, cu, wu) ∧ ∀ lin, ExactLin F₁.numTotal lin → ∀ fuel k,
      let S := tmScript F₁ F L (groupsOf ns cs ws) (groupsOf nu cu wu) lin (fuel + 1)
      (∀ e, tmRun S F L k = .error e → ∃ p u, S.solveU p u = .error e) ∧
      ∀ s, tmRun S F L k = .ok s → ∃ hist us, TmTrace S F L k hist us s ∧ ∀ i < k, ∃ R, (tmHeat F₁ L (hist i) (tmCenter L i) (tmSwitch L i)).computeResidual (hist (i + 1)) = .ok R ∧
        ∀ m : Fin 3 → ℕ, (∀ b, m b ≤ N b) → (m 2 ≤ 1 → |hist (i + 1) (gridNode N m) 0 - 300| ≤ 1e-6) ∧ (2 ≤ m 2 → |R (gridNode N m) 0| ≤ 1e-6) := by
  obtain ⟨ns, cs, ws, hbc, hstep⟩ := C108_demo N L hc F₁ hbox hnum ht frule hf
  obtain ⟨⟨nu, cu, wu⟩, hbu⟩ := (C17_accepted F.numTotal F.points tmInfoU.1 tmInfoU.2.1 tmInfoU.2.2).1.mpr ⟨rfl, rfl⟩
  refine ⟨ns, cs, ws, nu, cu, wu, hbc, hbu, fun lin hlin fuel k => ⟨fun e he => ?_, fun s hs => ?_⟩⟩
  · rcases C110_raises _ F L k e he with ⟨i, -, T, hT⟩ | h
    · obtain ⟨T', -, hT', -⟩ := hstep lin hlin T (tmCenter L i) (tmSwitch L i) fuel
      change tmSolveT F₁ L (groupsOf ns cs ws) lin (fuel + 1) T (tmCenter L i) (tmSwitch L i) = .error e at hT
      rw [hT'] at hT
      cases hT
    · exact h
  · obtain ⟨hist, us, tr⟩ := C110_loop _ F L k s hs
    refine ⟨hist, us, tr, fun i hi => ?_⟩
    obtain ⟨T, R, hT, hR, hm⟩ := hstep lin hlin (hist i) (tmCenter L i) (tmSwitch L i) fuel
    have h1 := tr.heat i hi
    change tmSolveT F₁ L (groupsOf ns cs ws) lin (fuel + 1) (hist i) (tmCenter L i) (tmSwitch L i) = .ok (hist (i + 1)) at h1
    rw [hT] at h1
    rw [← Except.ok.inj h1]
    exact ⟨R, hR, hm⟩

/-! ## Concrete cases -/

/-- The mesh of the file satisfies the hypotheses; an exact solver exists; with a mechanical solver that returns, all 499 iterations run and write 50 files. -/
example (u : ℕ → Fin 3 → ℝ) : ∃ (S : TmSolvers (2 ^ 3)) (s : TmState (2 ^ 3)), tmRun S (boxFem tmN tmL 3) tmL 499 = .ok s ∧ s.files.length = 50 := by
  obtain ⟨ns, cs, ws, -, h⟩ := C108_demo tmN tmL tm_coarse (boxFem tmN tmL 1) (boxFem_onBox _ _ 1) (boxFem_num _ _ 1) ⟨fun _ _ => rfl, fun _ _ _ => rfl, fun _ => rfl⟩ _ (boxFem_faces _ _ 1)
  let S : TmSolvers (2 ^ 3) := ⟨tmSolveT (boxFem tmN tmL 1) tmL (groupsOf ns cs ws) (chosenLin (boxFem tmN tmL 1).numTotal) 1, fun _ _ => .ok u⟩
  cases hr : tmRun S (boxFem tmN tmL 3) tmL 499 with
  | error e =>
    rcases C110_raises _ _ _ _ e hr with ⟨i, -, T, hT⟩ | ⟨p, u, hu⟩
    · obtain ⟨T', -, hT', -⟩ := h _ (chosenLin_exact _) T (tmCenter tmL i) (tmSwitch tmL i) 0
      change tmSolveT _ _ _ _ _ _ _ _ = _ at hT
      rw [hT'] at hT
      cases hT
    · cases hu
  | ok s =>
    obtain ⟨hist, us, tr⟩ := C110_loop _ _ _ _ s hr
    exact ⟨S, s, hr, by rw [tr.files]; simp⟩

end Verif.Fem
