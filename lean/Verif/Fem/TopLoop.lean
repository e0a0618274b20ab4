import Verif.Fem.MmaOpt
import Verif.Fem.StressCon

/-!
# C136: the optimisation loop of the applications (model of applications/fem/top_opt/mma.py 421-493)

The copy of `optimize` used by the applications differs from that of the package (C35, C73): the loop condition mentions a relative change, the move limit is an argument and the wall times are returned.
Its callbacks may keep a state between calls, as `computeConstraints` of L_shape.py and the counters of multi_material.py and plasticity.py do. Everything else in the file is the same code up to comments.
-/
namespace Verif.TopProg
open Verif.Fem.Mma Finset

variable {N k : ℕ} {κ σ : Type} [Fintype κ] [DecidableEq κ]

/-- The callbacks, with the state they keep between calls. -/
structure UHandles (N k : ℕ) (κ σ : Type) where
  obj : σ → (Fin N × Fin k → ℝ) → Except MmaErr ((Fin N × Fin k → ℝ) × σ)
  cons : σ → ℕ → (Fin N × Fin k → ℝ) → Except MmaErr (((κ → ℝ) × (κ → Fin N × Fin k → ℝ)) × σ)

/-- The variables of the loop: `loop`, `change`, the MMA state, the wall times, and the state of the callbacks. -/
structure AppSt (N k : ℕ) (σ : Type) where
  loop : ℕ
  change : ℝ
  st : State (Fin N × Fin k)
  walls : List ℝ
  user : σ

/-- One pass (mma.py 451-491). `change` is not assigned. `clock i` is the time measured in pass `i`. -/
noncomputable def appStep (solve : LinSolve) (move : ℝ) (H : Fin N → Fin N → ℝ) (U : UHandles N k κ σ) (clock : ℕ → ℝ) (s : AppSt N k σ) : Except MmaErr (AppSt N k σ) := do
  let loop := s.loop + 1
  let (dJ, user) ← U.obj s.user s.st.xval
  let ((vc, dvc), user) ← U.cons user loop s.st.xval
  let dJ := applyFilter H s.st.xval dJ
  let dvc := fun i => applyFilter H s.st.xval (dvc i)
  let (p, low, upp) ← mmasub solve (optParams move) s.st dJ vc dvc
  pure { s with
    loop := loop
    st := { epoch := s.st.epoch + 1, xval := p.x, xold1 := s.st.xval, xold2 := s.st.xold1, low := low, upp := upp }
    walls := s.walls ++ [clock loop]
    user := user }

/-- `optimizationParams`. -/
structure OptPar where
  maxIters : ℕ
  minIters : ℕ
  relTol : ℝ

/-- The loop condition (mma.py 448-450): `and` binds more tightly than `or`. -/
def appCond (o : OptPar) (s : AppSt N k σ) : Prop := (s.change > o.relTol ∧ s.loop < o.maxIters) ∨ s.loop < o.minIters

/-- The state before the loop (mma.py 425-446). -/
def appInit (rho : Fin N × Fin k → ℝ) (user : σ) : AppSt N k σ := ⟨0, 1, optInit rho, [], user⟩

/-- The loop (mma.py 448-491). -/
noncomputable def appLoop (solve : LinSolve) (move : ℝ) (o : OptPar) (H : Fin N → Fin N → ℝ) (U : UHandles N k κ σ) (clock : ℕ → ℝ) (rho : Fin N × Fin k → ℝ) (user : σ) : Except MmaErr (AppSt N k σ) :=
  whileE (appCond o) (appStep solve move H U clock) (max o.maxIters o.minIters) (appInit rho user)

/-- `optimize` (mma.py 421-493) after the filter has been computed. -/
noncomputable def appOptimize (solve : LinSolve) (move : ℝ) (o : OptPar) (filter : Except MmaErr (Fin N → Fin N → ℝ)) (U : UHandles N k κ σ) (clock : ℕ → ℝ) (rho : Fin N × Fin k → ℝ) (user : σ) :
    Except MmaErr ((Fin N × Fin k → ℝ) × List ℝ) := do
  let H ← filter
  let s ← appLoop solve move o H U clock rho user
  pure (s.st.xval, s.walls)

/-! ## Specification -/

/-- The number of passes: the tolerance only matters in that it is below one. -/
noncomputable def passes (o : OptPar) : ℕ := open Classical in if o.relTol < 1 then max o.maxIters o.minIters else o.minIters

section
variable (solve : LinSolve) (move : ℝ) (H : Fin N → Fin N → ℝ) (U : UHandles N k κ σ) (clock : ℕ → ℝ)

theorem appStep_keeps {s s' : AppSt N k σ} (h : appStep solve move H U clock s = .ok s') : s'.loop = s.loop + 1 ∧ s'.change = s.change ∧ s'.walls = s.walls ++ [clock (s.loop + 1)] := by
  unfold appStep at h
  dsimp only [bind, Except.bind] at h
  cases h1 : U.obj s.user s.st.xval with
  | error e => rw [h1] at h; cases h
  | ok r1 =>
  rw [h1] at h
  dsimp only at h
  cases h2 : U.cons r1.2 (s.loop + 1) s.st.xval with
  | error e => rw [h2] at h; cases h
  | ok r2 =>
  rw [h2] at h
  dsimp only at h
  cases h3 : mmasub solve (optParams move) s.st (applyFilter H s.st.xval r1.1) r2.1.1 (fun i => applyFilter H s.st.xval (r2.1.2 i)) with
  | error e => rw [h3] at h; cases h
  | ok r3 =>
  rw [h3] at h
  injection h with h
  subst h
  exact ⟨rfl, rfl, rfl⟩

theorem cond_iff (o : OptPar) (s : AppSt N k σ) (hc : s.change = 1) : appCond o s ↔ s.loop < passes o := by
  unfold appCond passes
  rw [hc]
  by_cases h : o.relTol < 1
  · rw [if_pos h, lt_max_iff]
    exact ⟨fun h' => h'.elim (fun x => Or.inl x.2) Or.inr, fun h' => h'.elim (fun x => Or.inl ⟨h, x⟩) Or.inr⟩
  · rw [if_neg h]
    exact ⟨fun h' => h'.elim (fun x => absurd x.1 h) id, Or.inr⟩

/-- The states reached from the start, pass by pass. -/
noncomputable def appTrace (rho : Fin N × Fin k → ℝ) (user : σ) : ℕ → Except MmaErr (AppSt N k σ)
  | 0 => .ok (appInit rho user)
  | i + 1 => do appStep solve move H U clock (← appTrace rho user i)

/-- The state of the callbacks at the beginning of pass `l`. -/
noncomputable def userAt (rho : Fin N × Fin k → ℝ) (user : σ) (l : ℕ) : σ :=
  match appTrace solve move H U clock rho user (l - 1) with
  | .ok s => s.user
  | .error _ => user

/-- Callbacks without state that answer in pass `l` as the others do in that pass. -/
noncomputable def frozen (rho : Fin N × Fin k → ℝ) (user : σ) : Handles N k κ where
  obj l x := (U.obj (userAt solve move H U clock rho user l) x).map Prod.fst
  cons l x := do
    let r ← U.obj (userAt solve move H U clock rho user l) x
    (U.cons r.2 l x).map Prod.fst

theorem step_sim (rho : Fin N × Fin k → ℝ) (user : σ) (s : AppSt N k σ) (hs : appTrace solve move H U clock rho user s.loop = .ok s) :
    (appStep solve move H U clock s).map (fun s' => (s'.loop, s'.st)) = optStep solve move H (frozen solve move H U clock rho user) (s.loop, s.st) := by
  have hu : userAt solve move H U clock rho user (s.loop + 1) = s.user := by
    unfold userAt
    rw [Nat.add_sub_cancel, hs]
  unfold appStep optStep frozen
  dsimp only [bind, Except.bind]
  rw [hu]
  cases h1 : U.obj s.user s.st.xval with
  | error e => rfl
  | ok r1 =>
  dsimp only [Except.map]
  cases h2 : U.cons r1.2 (s.loop + 1) s.st.xval with
  | error e => rfl
  | ok r2 =>
  dsimp only
  cases h3 : mmasub solve (optParams move) s.st (applyFilter H s.st.xval r1.1) r2.1.1 (fun i => applyFilter H s.st.xval (r2.1.2 i)) with
  | error e => rfl
  | ok r3 => rfl

theorem loop_sim (o : OptPar) (rho : Fin N × Fin k → ℝ) (user : σ) (fuel : ℕ) : ∀ s : AppSt N k σ, s.change = 1 → appTrace solve move H U clock rho user s.loop = .ok s →
    (whileE (appCond o) (appStep solve move H U clock) fuel s).map (fun s' => (s'.loop, s'.st)) =
      whileE (fun s => s.1 < passes o) (optStep solve move H (frozen solve move H U clock rho user)) fuel (s.loop, s.st) := by
  induction fuel with
  | zero =>
    intro s hc _
    unfold whileE
    by_cases h : s.loop < passes o
    · rw [if_pos ((cond_iff o s hc).2 h), if_pos h]
      rfl
    · rw [if_neg (fun x => h ((cond_iff o s hc).1 x)), if_neg h]
      rfl
  | succ fuel ih =>
    intro s hc hs
    unfold whileE
    by_cases h : s.loop < passes o
    · rw [if_pos ((cond_iff o s hc).2 h), if_pos h, ← step_sim solve move H U clock rho user s hs]
      cases h1 : appStep solve move H U clock s with
      | error e => rfl
      | ok s' =>
        obtain ⟨k1, k2, -⟩ := appStep_keeps solve move H U clock h1
        have hs' : appTrace solve move H U clock rho user s'.loop = .ok s' := by
          rw [k1]
          show (appTrace solve move H U clock rho user s.loop).bind _ = _
          rw [hs]
          exact h1
        exact ih s' (k2.trans hc) hs'
    · rw [if_neg (fun x => h ((cond_iff o s hc).1 x)), if_neg h]
      rfl

/-- More passes allowed than needed make no difference. -/
theorem while_fuel {τ : Type} (b : ℕ × τ → Except MmaErr (ℕ × τ)) (hb : ∀ s s', b s = .ok s' → s'.1 = s.1 + 1) (K : ℕ) :
    ∀ (f f' : ℕ) (s : ℕ × τ), K ≤ s.1 + f → K ≤ s.1 + f' → whileE (fun s => s.1 < K) b f s = whileE (fun s => s.1 < K) b f' s := by
  intro f
  induction f with
  | zero =>
    intro f' s h _
    have hn : ¬ s.1 < K := by omega
    cases f' with
    | zero => rfl
    | succ f' =>
      unfold whileE
      rw [if_neg hn, if_neg hn]
  | succ f ih =>
    intro f' s h h'
    by_cases hc : s.1 < K
    · cases f' with
      | zero => omega
      | succ f' =>
        unfold whileE
        rw [if_pos hc, if_pos hc]
        cases h1 : b s with
        | error e => rfl
        | ok s' =>
          have := hb s s' h1
          exact ih f' s' (by omega) (by omega)
    · cases f' <;> (unfold whileE; rw [if_neg hc, if_neg hc])

theorem optStep_loop (V : Handles N k κ) (s s' : ℕ × State (Fin N × Fin k)) (h : optStep solve move H V s = .ok s') : s'.1 = s.1 + 1 := by
  unfold optStep at h
  dsimp only [bind, Except.bind] at h
  cases h1 : V.obj (s.1 + 1) s.2.xval with
  | error e => rw [h1] at h; cases h
  | ok dJ =>
  rw [h1] at h
  dsimp only at h
  cases h2 : V.cons (s.1 + 1) s.2.xval with
  | error e => rw [h2] at h; cases h
  | ok c =>
  rw [h2] at h
  dsimp only at h
  cases h3 : mmasub solve (optParams move) s.2 (applyFilter H s.2.xval dJ) c.1 (fun i => applyFilter H s.2.xval (c.2 i)) with
  | error e => rw [h3] at h; cases h
  | ok r3 =>
  rw [h3] at h
  injection h with h
  subst h
  rfl

end

variable (solve : LinSolve) (move : ℝ) (filter : Except MmaErr (Fin N → Fin N → ℝ)) (U : UHandles N k κ σ) (clock : ℕ → ℝ)

/-- **C136 (refinement).** For all callbacks, whatever they remember between calls: the copy of `optimize` in the applications computes what `optimize` of the package computes with `passes` iterations and
callbacks without memory that give the same answers; if the former never raise, neither do the latter. -/
theorem C136_refines (o : OptPar) (rho : Fin N × Fin k → ℝ) (user : σ) : ∃ V : Handles N k κ,
    (appOptimize solve move o filter U clock rho user).map Prod.fst = optimize solve move (passes o) filter V rho ∧
    ((∀ u x, ∃ r, U.obj u x = .ok r) → (∀ u l x, ∃ r, U.cons u l x = .ok r) → (∀ l x, ∃ g, V.obj l x = .ok g) ∧ ∀ l x, ∃ g, V.cons l x = .ok g) := by
  cases filter with
  | error e => exact ⟨⟨fun _ _ => .ok 0, fun _ _ => .ok (0, 0)⟩, rfl, fun _ _ => ⟨fun _ _ => ⟨_, rfl⟩, fun _ _ => ⟨_, rfl⟩⟩⟩
  | ok H =>
    refine ⟨frozen solve move H U clock rho user, ?_, fun ho hc => ⟨fun l x => ?_, fun l x => ?_⟩⟩
    · have h1 := loop_sim solve move H U clock o rho user (max o.maxIters o.minIters) (appInit rho user) rfl rfl
      have hle : passes o ≤ max o.maxIters o.minIters := by
        unfold passes
        split_ifs
        · exact le_rfl
        · exact le_max_right _ _
      have h2 := while_fuel (optStep solve move H (frozen solve move H U clock rho user)) (optStep_loop solve move H _) (passes o) (max o.maxIters o.minIters) (passes o) (0, optInit rho)
        (by rw [zero_add]; exact hle) (by rw [zero_add])
      have h3 : (appLoop solve move o H U clock rho user).map (fun s' => (s'.loop, s'.st)) =
          whileE (fun s => s.1 < passes o) (optStep solve move H (frozen solve move H U clock rho user)) (passes o) (0, optInit rho) := h1.trans h2
      show (appOptimize solve move o (.ok H) U clock rho user).map Prod.fst = (do let s ← whileE (fun s => s.1 < passes o) (optStep solve move H (frozen solve move H U clock rho user)) (passes o) (0, optInit rho); pure s.2.xval)
      rw [← h3]
      unfold appOptimize
      dsimp only [bind, Except.bind]
      cases appLoop solve move o H U clock rho user <;> rfl
    · obtain ⟨r, hr⟩ := ho (userAt solve move H U clock rho user l) x
      exact ⟨r.1, by show Except.map _ _ = _; rw [hr]; rfl⟩
    · obtain ⟨r, hr⟩ := ho (userAt solve move H U clock rho user l) x
      obtain ⟨c, hc⟩ := hc r.2 l x
      refine ⟨c.1, ?_⟩
      show Except.bind _ _ = _
      rw [hr]
      show Except.map _ _ = _
      rw [hc]
      rfl

theorem while_inv {τ : Type} (c : τ → Prop) (b : τ → Except MmaErr τ) (I : τ → Prop) (hI : ∀ s s', I s → c s → b s = .ok s' → I s') (f : ℕ) :
    ∀ s s', I s → whileE c b f s = .ok s' → I s' ∧ ¬ c s' := by
  induction f with
  | zero =>
    intro s s' h h'
    unfold whileE at h'
    by_cases hc : c s
    · rw [if_pos hc] at h'; cases h'
    · rw [if_neg hc] at h'
      injection h' with h'
      subst h'
      exact ⟨h, hc⟩
  | succ f ih =>
    intro s s' h h'
    unfold whileE at h'
    by_cases hc : c s
    · rw [if_pos hc] at h'
      cases h1 : b s with
      | error e => rw [h1] at h'; cases h'
      | ok t =>
        rw [h1] at h'
        exact ih t s' (hI s t h hc h1) h'
    · rw [if_neg hc] at h'
      injection h' with h'
      subst h'
      exact ⟨h, hc⟩

/-- **C136 (passes).** If `optimize` returns, it has made exactly `max(maxIters, minIters)` passes when the tolerance is below one and `minIters` otherwise, one wall time each: convergence never ends the loop, because
`change` keeps its initial value. -/
theorem C136_passes (o : OptPar) (rho : Fin N × Fin k → ℝ) (user : σ) (res : Fin N × Fin k → ℝ) (walls : List ℝ) (h : appOptimize solve move o filter U clock rho user = .ok (res, walls)) :
    walls = (List.range (if o.relTol < 1 then max o.maxIters o.minIters else o.minIters)).map fun i => clock (i + 1) := by
  cases filter with
  | error e => cases h
  | ok H =>
  unfold appOptimize at h
  dsimp only [bind, Except.bind] at h
  cases hl : appLoop solve move o H U clock rho user with
  | error e => rw [hl] at h; cases h
  | ok s =>
  rw [hl] at h
  injection h with h
  injection h with _ h
  obtain ⟨⟨i1, i2, i3⟩, hstop⟩ := while_inv (appCond o) (appStep solve move H U clock) (fun s => s.change = 1 ∧ s.walls = (List.range s.loop).map (fun i => clock (i + 1)) ∧ s.loop ≤ passes o)
    (fun a b ha hc hab => by
      obtain ⟨k1, k2, k3⟩ := appStep_keeps solve move H U clock hab
      refine ⟨k2.trans ha.1, ?_, ?_⟩
      · rw [k3, k1, ha.2.1, List.range_succ, List.map_append]
        rfl
      · rw [k1]
        exact (cond_iff o a ha.1).1 hc) _ _ s ⟨rfl, rfl, Nat.zero_le _⟩ hl
  have h4 : s.loop = passes o := by
    have : ¬ s.loop < passes o := fun x => hstop ((cond_iff o s i1).2 x)
    omega
  rw [← h, i2, h4]
  unfold passes
  split_ifs <;> rfl

/-- **C136 (designs).** With a positive move limit every design returned has densities between zero and one, and differs from the initial one by at most the number of passes times the move limit. -/
theorem C136_designs (hm : 0 < move) (o : OptPar) (rho : Fin N × Fin k → ℝ) (hrho : ∀ j, 0 ≤ rho j ∧ rho j ≤ 1) (user : σ) (res : Fin N × Fin k → ℝ) (walls : List ℝ)
    (h : appOptimize solve move o filter U clock rho user = .ok (res, walls)) : ∀ j, 0 ≤ res j ∧ res j ≤ 1 ∧ |res j - rho j| ≤ walls.length * move := by
  obtain ⟨V, hV, -⟩ := C136_refines solve move filter U clock o rho user
  rw [h] at hV
  have h1 := C35_result solve move hm (passes o) filter V rho hrho res hV.symm
  have h2 : walls.length = passes o := by
    rw [C136_passes solve move filter U clock o rho user res walls h, List.length_map, List.length_range]
    unfold passes
    split_ifs <;> rfl
  intro j
  rw [h2]
  exact h1 j

/-- **C136 (the programs return).** With callbacks that never raise and a linear solver that solves every nonsingular system, `optimize` returns. -/
theorem C136_returns [NeZero N] [NeZero k] (hex : solve.Exact) (hm : 0 < move) (H : Fin N → Fin N → ℝ) (o : OptPar) (rho : Fin N × Fin k → ℝ) (hrho : ∀ j, 0 ≤ rho j ∧ rho j ≤ 1) (user : σ)
    (hobj : ∀ u x, ∃ r, U.obj u x = .ok r) (hcons : ∀ u l x, ∃ r, U.cons u l x = .ok r) : ∃ res walls, appOptimize solve move o (.ok H) U clock rho user = .ok (res, walls) := by
  obtain ⟨V, hV, hok⟩ := C136_refines solve move (.ok H) U clock o rho user
  obtain ⟨h1, h2⟩ := hok hobj hcons
  obtain ⟨res, hres⟩ := C73_optimize solve hex move hm (passes o) H V rho hrho h1 h2
  rw [hres] at hV
  cases ha : appOptimize solve move o (.ok H) U clock rho user with
  | error e => rw [ha] at hV; cases hV
  | ok r => exact ⟨r.1, r.2, rfl⟩

/-- The callbacks of L_shape.py: some objective (96-99) and `computeConstraints` (101-121) with its attributes. -/
noncomputable def lHandles {n : ℕ} [NeZero n] (obj : (Fin N × Fin 1 → ℝ) → Except MmaErr (Fin N × Fin 1 → ℝ)) (vf allowed : ℝ) (vm : (Fin N → ℝ) → Fin n → ℝ) : UHandles N 1 (Fin 2) Att where
  obj a x := (obj x).map fun g => (g, a)
  cons a _ x :=
    let r := conHandle vf allowed vm a fun j => x (j, 0)
    .ok ((r.1.1, fun i j => r.1.2 i j.1), r.2)

/-- **C136 (the bracket).** In the program of L_shape.py, for every objective and solver: whenever the loop ends, all densities are strictly between zero and one, 201 designs have been tried, and the correction lies between
`n^(-1/12)` and one, provided a body with positive densities is stressed somewhere. -/
theorem C136_bracket {n : ℕ} [NeZero n] (hm : 0 < move) (H : Fin N → Fin N → ℝ) (obj : (Fin N × Fin 1 → ℝ) → Except MmaErr (Fin N × Fin 1 → ℝ)) (allowed : ℝ) (ha : 0 < allowed) (vm : (Fin N → ℝ) → Fin n → ℝ)
    (hvm : ∀ x : Fin N → ℝ, (∀ j, 0 < x j) → (∀ i, 0 ≤ vm x i) ∧ ∃ i, 0 < vm x i) (s : AppSt N 1 Att)
    (h : appLoop solve move ⟨201, 201, 0.05⟩ H (lHandles obj 0.5 allowed vm) clock (fun _ => 0.5) (attInit allowed) = .ok s) :
    s.loop = 201 ∧ (∀ j, 0 < s.st.xval j ∧ s.st.xval j < 1) ∧ 1 / (n : ℝ) ^ (1 / (12 : ℝ)) ≤ s.user.cp ∧ s.user.cp ≤ 1 := by
  have hpass : passes ⟨201, 201, 0.05⟩ = 201 := by norm_num [passes]
  obtain ⟨⟨i1, i2, i3, i4⟩, hstop⟩ := while_inv (appCond ⟨201, 201, 0.05⟩) (appStep solve move H (lHandles obj 0.5 allowed vm) clock)
    (fun s => s.change = 1 ∧ s.loop ≤ 201 ∧ (∀ j, 0 < s.st.xval j ∧ s.st.xval j < 1) ∧ AttOk n allowed s.user)
    (fun a b ha' hc hab => by
      obtain ⟨k1, k2, -⟩ := appStep_keeps solve move H _ clock hab
      have hlt := (cond_iff _ a ha'.1).1 hc
      rw [hpass] at hlt
      refine ⟨k2.trans ha'.1, by omega, ?_⟩
      unfold appStep lHandles at hab
      dsimp only [bind, Except.bind] at hab
      cases h1 : obj a.st.xval with
      | error e => rw [h1] at hab; cases hab
      | ok g =>
      rw [h1] at hab
      dsimp only [Except.map] at hab
      generalize hr : conHandle 0.5 allowed vm a.user (fun j => a.st.xval (j, 0)) = r at hab
      cases h3 : mmasub solve (optParams move) a.st (applyFilter H a.st.xval g) r.1.1 (fun i => applyFilter H a.st.xval fun j => r.1.2 i j.1) with
      | error e => rw [h3] at hab; cases hab
      | ok p =>
      rw [h3] at hab
      injection hab with hab
      subst hab
      refine ⟨fun j => ?_, ?_⟩
      · have := mmasub_bounds solve (optParams move) a.st (fun _ => by simp [optParams]) hm (fun j => ⟨(ha'.2.2.1 j).1.le, (ha'.2.2.1 j).2.le⟩) _ _ _ p.1 p.2.1 p.2.2 h3 j
        simpa [optParams] using And.intro this.1 this.2.1
      · obtain ⟨h4, i, h5⟩ := hvm (fun j => a.st.xval (j, 0)) fun j => (ha'.2.2.1 (j, 0)).1
        have h6 := ha'.2.2.2.step (vf := 0.5) ha (fun j => a.st.xval (j, 0)) h4 (h5.trans_le (le_maxOf _ i))
        rw [hr] at h6
        exact h6) _ _ s ⟨rfl, Nat.zero_le _, fun j => by norm_num [appInit, optInit], attInit_ok allowed ha⟩ h
  have h4 : ¬ s.loop < 201 := fun x => hstop ((cond_iff _ s i1).2 (by rw [hpass]; exact x))
  exact ⟨by omega, i3, i4.cp.1, i4.cp.2⟩

/-- The settings of the five programs: L_shape.py 127, box.py, multi_material.py 102, plasticity.py 206, freecad.py 163 make 201, 41, 51, 51 and 30 passes. -/
example : passes ⟨201, 201, 0.05⟩ = 201 ∧ passes ⟨41, 41, 0.05⟩ = 41 ∧ passes ⟨51, 51, 0.05⟩ = 51 ∧ passes ⟨30, 30, 0.05⟩ = 30 ∧ passes ⟨10, 3, 2⟩ = 3 := by
  refine ⟨?_, ?_, ?_, ?_, ?_⟩ <;> norm_num [passes]

end Verif.TopProg
