import Verif.Lbm.DamRun

/-!
# Dam break: mass that is created and lost, with concrete states
-/
namespace Verif.Lbm.Dam
open Finset

/-! ## Concrete states -/

/-- The flags of a kind without neighbourhood flags. -/
def kindFlags : Kind → Flags
  | .fluid => Flags.only .FLUID
  | .iface => Flags.only .INTERFACE
  | .gas => Flags.only .GAS
  | .wall => Flags.only .OBSTACLE

theorem kindFlags_kind (k : Kind) (l : List CT) (hl : ∀ c ∈ l, c = .NO_FLUID_NEIGH ∨ c = .NO_EMPTY_NEIGH ∨ c = .NO_IFACE_NEIGH) : IsKind ((kindFlags k).set l) k := by
  have h : ∀ c : CT, c ≠ .NO_FLUID_NEIGH → c ≠ .NO_EMPTY_NEIGH → c ≠ .NO_IFACE_NEIGH → (kindFlags k).set l c = kindFlags k c := fun c a b d => by
    have : c ∉ l := fun hc => by rcases hl c hc with h | h | h <;> contradiction
    simp [Flags.set, this]
  have hk : IsKind (kindFlags k) k := by
    cases k
    · exact only_kind.2.1
    · exact only_kind.2.2.1
    · exact only_kind.2.2.2
    · exact only_kind.1
  refine ⟨?_, ?_, ?_, ?_, ?_, ?_, ?_, ?_⟩ <;> rw [h _ (by simp) (by simp) (by simp)]
  · exact hk.fluid
  · exact hk.iface
  · exact hk.gas
  · exact hk.wall
  · exact hk.inlet
  · exact hk.outlet
  · exact hk.toFluid
  · exact hk.toGas

/-- A channel of height one between walls: kinds, masses, densities and neighbourhood flags along it, at rest. -/
noncomputable def row (K : ℤ → Kind) (m r : ℤ → ℝ) (f : ℤ → List CT) : State := fun p =>
  if p.2 = 1 then ⟨t, t, t, 0, 0, 0, r p.1, m p.1, (kindFlags (K p.1)).set (f p.1)⟩ else ⟨0, 0, 0, 0, 0, 0, 0, 0, kindFlags .wall⟩

/-- Its kinds. -/
def rowKind (K : ℤ → Kind) (p : Pos) : Kind := if p.2 = 1 then K p.1 else .wall

theorem row_closed (nx : ℕ) (K : ℤ → Kind) (m r : ℤ → ℝ) (f : ℤ → List CT) (hK : ∀ x, K x ≠ .wall → 0 < x ∧ x < (nx : ℤ) - 1) (hf : ∀ x, ∀ c ∈ f x, c = .NO_FLUID_NEIGH ∨ c = .NO_EMPTY_NEIGH ∨ c = .NO_IFACE_NEIGH) :
    Closed nx 3 (row K m r f) (rowKind K) := by
  refine ⟨fun p => ?_, fun p hp => ?_⟩
  · unfold row rowKind
    split_ifs
    · exact kindFlags_kind _ _ (hf p.1)
    · exact only_kind.1
  · unfold rowKind at hp
    split_ifs at hp with h
    · have := hK p.1 hp
      exact ⟨this.1, this.2, by omega, by omega⟩
    · exact absurd rfl hp

theorem adj_row (x y : ℤ) : Adj (x, 1) (y, 1) ↔ x = y + 1 ∨ x = y - 1 := by
  unfold Adj
  simp only [ne_eq, Prod.mk.injEq, and_true, sub_self, abs_zero, zero_le_one, abs_le]
  omega

/-! ## Streaming creates mass -/

/-- **C117 (creation).** With the fill levels that `evolve` passes and nonnegative populations, in a closed domain without interface cells that touch neither gas nor fluid, streaming never decreases the total mass, and increases it as soon as a population moves from
an interface cell that touches both fluid and gas to an interface cell that touches only fluid. -/
theorem C117_created (nx ny : ℕ) (m : Pos → ℝ) (s s' : State) (k : Pos → Kind) (hc : Closed nx ny s k) (h : loopM (streamCell nx ny m m) (cells nx ny) s = .ok s') (hpos : ∀ p n, k p = .iface → 0 ≤ (s p).fout n)
    (hno : ∀ p, k p = .iface → ¬ ((s p).ty .NO_FLUID_NEIGH = true ∧ (s p).ty .NO_EMPTY_NEIGH = true)) :
    ∑ p ∈ grid nx ny, (s p).mass ≤ ∑ p ∈ grid nx ny, (s' p).mass ∧
    ((∃ p n, n ≠ 0 ∧ k p = .iface ∧ k (p - v n) = .iface ∧ (s p).ty .NO_FLUID_NEIGH = false ∧ (s p).ty .NO_EMPTY_NEIGH = true ∧ (s (p - v n)).ty .NO_FLUID_NEIGH = false ∧ (s (p - v n)).ty .NO_EMPTY_NEIGH = false ∧ 0 < (s (p - v n)).fout n) →
      ∑ p ∈ grid nx ny, (s p).mass < ∑ p ∈ grid nx ny, (s' p).mass) := by
  have heps : ∀ p, k p = .iface → 0 < getEpsilon (s p).ty (m p) (m p) := fun p hp => by
    have := C117_interface m m s p _ (hc.kind p) hp (m p)
    rcases lt_or_ge 0 (m p) with h0 | h0
    · rw [this.2.1 h0]; norm_num
    · rw [this.2.2.1 h0]; norm_num
  have hterm : ∀ p n, 0 ≤ (if n ≠ 0 ∧ k p = .iface ∧ k (p - v n) = .iface then
    (exchange (s p).ty (s (p - v n)).ty ((s p).fout (v_inv n)) ((s (p - v n)).fout n) + exchange (s (p - v n)).ty (s p).ty ((s (p - v n)).fout n) ((s p).fout (v_inv n))) *
      (getEpsilon (s p).ty (m p) (m p) + getEpsilon (s (p - v n)).ty (m (p - v n)) (m (p - v n))) * 0.5 else 0) := fun p n => by
    split_ifs with hcond
    · obtain ⟨h0, h1, h2⟩ := hcond
      have e1 := heps p h1
      have e2 := heps _ h2
      have x := hpos p (v_inv n) h1
      have y := hpos _ n h2
      refine mul_nonneg (mul_nonneg ?_ (by linarith)) (by norm_num)
      rw [C117_exchange]
      split_ifs with a b c d
      · linarith
      · linarith
      · exact absurd ⟨c.1, c.2.2.1⟩ (hno p h1)
      · exact absurd ⟨d.2.1, d.2.2.2⟩ (hno _ h2)
      · exact le_refl _
    · exact le_refl _
  have hm := (C117_mass nx ny m m s s' k hc h).1
  refine ⟨?_, ?_⟩
  · rw [hm]
    have : 0 ≤ leak nx ny m m s k := sum_nonneg fun p _ => sum_nonneg fun n _ => hterm p n
    linarith
  · rintro ⟨p, n, h0, h1, h2, a, b, c, d, hf⟩
    rw [hm]
    have hp : p ∈ grid nx ny := by
      have := hc.inside p (by rw [h1]; simp)
      rw [mem_grid]
      omega
    have : 0 < leak nx ny m m s k := by
      refine sum_pos' (fun p _ => sum_nonneg fun n _ => hterm p n) ⟨p, hp, sum_pos' (fun n _ => hterm p n) ⟨n, mem_univ _, ?_⟩⟩
      rw [if_pos ⟨h0, h1, h2⟩, C117_exchange, if_pos ⟨a, c, b, d⟩]
      have e1 := heps p h1
      have e2 := heps _ h2
      have : 0 < getEpsilon (s p).ty (m p) (m p) + getEpsilon (s (p - v n)).ty (m (p - v n)) (m (p - v n)) := by linarith
      positivity
    linarith

theorem t_pos (n : Fin 9) : 0 < t n := by
  fin_cases n <;> norm_num [t]

theorem t_inv (n : Fin 9) : t (v_inv n) = t n := by
  rw [v_inv_table]
  fin_cases n <;> rfl

/-- Streaming of a channel of interface cells at rest succeeds. -/
theorem row_stream (nx : ℕ) (K : ℤ → Kind) (m r : ℤ → ℝ) (f : ℤ → List CT) (hK : ∀ x, K x ≠ .wall → 0 < x ∧ x < (nx : ℤ) - 1) (hK' : ∀ x, K x = .iface ∨ K x = .wall)
    (hf : ∀ x, ∀ c ∈ f x, c = .NO_FLUID_NEIGH ∨ c = .NO_EMPTY_NEIGH ∨ c = .NO_IFACE_NEIGH) (mp : Pos → ℝ) :
    ∃ s', loopM (streamCell nx (3 : ℕ) mp mp) (cells nx 3) (row K m r f) = .ok s' := by
  have hc := row_closed nx K m r f hK hf
  cases hl : loopM (streamCell nx (3 : ℕ) mp mp) (cells nx 3) (row K m r f) with
  | ok s' => exact ⟨s', rfl⟩
  | error e =>
    exfalso
    have hloop : (∃ e, loopM (streamCell nx (3 : ℕ) mp mp) (cells nx 3) (row K m r f) = .error e) ↔ ∃ q ∈ cells nx 3, ∃ e, streamCell nx (3 : ℕ) mp mp (row K m r f) q = .error e := by
      refine (loopM_eq (fun c => (c.fout, c.ty)) _ (fun s p c h => ?_) (fun s s' p h hq => ?_) _ (nodup_cells nx 3) _).2
      · rcases streamCell_ok _ _ _ _ _ _ _ h with ⟨_, rfl⟩ | ⟨_, _, _, _, h2, _, h3, _⟩
        · rfl
        · rw [h2, h3]
      · have h1 : ∀ q, (s q).fout = (s' q).fout := fun q => congrArg Prod.fst (hq q)
        have h2 : ∀ q, (s q).ty = (s' q).ty := fun q => congrArg Prod.snd (hq q)
        unfold streamCell streamFluid streamInterface
        simp only [h, h1, h2]
    obtain ⟨q, _, e', he⟩ := hloop.mp ⟨e, hl⟩
    have hk := hc.kind q
    rcases hkq : rowKind K q with _ | _ | _ | _
    · unfold rowKind at hkq
      split_ifs at hkq
      rcases hK' q.1 with h | h <;> rw [h] at hkq <;> exact absurd hkq (by simp)
    · have hq1 : q.2 = 1 := by
        unfold rowKind at hkq
        split_ifs at hkq with h
        exact h
      have hfout : ∀ p, (rowKind K p = .iface) → (row K m r f p).fout = t := fun p hp => by
        unfold rowKind at hp
        unfold row
        split_ifs at hp with h
        rw [if_pos h]
      have hq : (row K m r f q).ux = 0 ∧ (row K m r f q).uy = 0 ∧ (row K m r f q).fin = t := by
        unfold row
        rw [if_pos hq1]
        exact ⟨rfl, rfl, rfl⟩
      unfold streamCell at he
      simp only [has_two, show (row K m r f q).ty.has [.FLUID, .INLET, .OUTLET] = false from by simp [Flags.has, hk.fluid, hk.inlet, hk.outlet, hkq], has_one, hk.wall, hk.gas, hk.iface, hkq, reduceCtorEq, decide_false, decide_true, Bool.or_false, Bool.false_eq_true, if_false, if_true] at he
      have hfin : (streamInterface mp mp (row K m r f) q).fin = t := by
        funext n
        have hback : ∀ n, setEqui 1 (row K m r f q).ux (row K m r f q).uy n + setEqui 1 (row K m r f q).ux (row K m r f q).uy (v_inv n) - (row K m r f q).fout (v_inv n) = t n := fun n => by
          rw [hq.1, hq.2.1, hfout q hkq]
          simp only [setEqui]
          rw [t_inv]
          ring
        simp only [streamInterface]
        split_ifs with h0 h1 h2 h3 h4
        · rw [h0, hq.2.2]
        · exact hback n
        · exfalso
          rw [has_one, (hc.kind _).fluid, decide_eq_true_iff] at h2
          unfold rowKind at h2
          split_ifs at h2
          rcases hK' (q - v n).1 with h | h <;> rw [h] at h2 <;> exact absurd h2 (by simp)
        · rw [has_one, (hc.kind _).iface, decide_eq_true_iff] at h3
          rw [hfout _ h3]
        · exact hback n
        · rw [hfout q hkq, t_inv]
      have hsum : ∑ n, (streamInterface mp mp (row K m r f) q).fin n ≠ 0 := by
        rw [hfin]
        exact (sum_pos (fun n _ => t_pos n) ⟨0, mem_univ _⟩).ne'
      cases hu : updateRhoU (streamInterface mp mp (row K m r f) q) with
      | ok c => rw [hu] at he; simp [bind, Except.bind] at he
      | error e =>
        unfold updateRhoU at hu
        simp only at hu
        rw [if_neg hsum] at hu
        split_ifs at hu
    · unfold rowKind at hkq
      split_ifs at hkq
      rcases hK' q.1 with h | h <;> rw [h] at hkq <;> exact absurd hkq (by simp)
    · unfold streamCell at he
      simp only [has_two, hk.wall, hkq, decide_true, Bool.true_or, if_true] at he
      exact absurd he (by simp)

/-- Two interface cells at rest, the first without empty neighbours: mass appears from nothing. -/
example : ∃ s', loopM (streamCell 4 (3 : ℕ) (fun _ => 1) (fun _ => 1)) (cells 4 3) (row (fun x => if x = 1 ∨ x = 2 then .iface else .wall) 1 1 (fun x => if x = 1 then [.NO_EMPTY_NEIGH] else [])) = .ok s' ∧
    ∑ p ∈ grid 4 3, (row (fun x => if x = 1 ∨ x = 2 then .iface else .wall) 1 1 (fun x => if x = 1 then [.NO_EMPTY_NEIGH] else []) p).mass < ∑ p ∈ grid 4 3, (s' p).mass := by
  have hK : ∀ x : ℤ, (if x = 1 ∨ x = 2 then Kind.iface else .wall) ≠ .wall → 0 < x ∧ x < ((4 : ℕ) : ℤ) - 1 := fun x h => by
    by_cases hx : x = 1 ∨ x = 2
    · push_cast; omega
    · rw [if_neg hx] at h; exact absurd rfl h
  have hf : ∀ x : ℤ, ∀ c ∈ (if x = 1 then [CT.NO_EMPTY_NEIGH] else []), c = .NO_FLUID_NEIGH ∨ c = .NO_EMPTY_NEIGH ∨ c = .NO_IFACE_NEIGH := fun x c h => by
    split_ifs at h
    · exact Or.inr (Or.inl (by simpa using h))
    · simp at h
  obtain ⟨s', hs⟩ := row_stream 4 _ 1 1 _ hK (fun x => by split_ifs <;> simp) hf fun _ => 1
  refine ⟨s', hs, (C117_created 4 3 _ _ s' _ (row_closed 4 _ 1 1 _ hK hf) hs ?_ ?_).2 ⟨(1, 1), 3, by decide, ?_, ?_, ?_, ?_, ?_, ?_, ?_⟩⟩
  · intro p n _
    unfold row
    split_ifs
    · exact (t_pos n).le
    · exact le_refl _
  · intro p _
    unfold row
    split_ifs with h1 <;> simp [Flags.set, kindFlags, Flags.only]
    split_ifs <;> simp [Flags.only]
  · simp [rowKind]
  · simp [rowKind, v]
  · simp [row, Flags.set, kindFlags, Flags.only]
  · simp [row, Flags.set, kindFlags, Flags.only]
  · simp [row, Flags.set, kindFlags, Flags.only, v]
  · simp [row, Flags.set, kindFlags, Flags.only, v]
  · have : (((1, 1) : Pos) - v 3).2 = 1 := by decide
    unfold row
    rw [if_pos this]
    exact t_pos 3

/-! ## Excess mass is lost -/

/-- **C118 (loss).** If no cell that leaves the interface lies between two opposite cells that are interface afterwards — as at a plane surface — then all its excess mass is lost: it is written for the interface side and read from the other. -/
theorem C118_lost (nx ny : ℕ) (s : State) (k k' : Pos → Kind) (hc : Closed nx ny s k) (hc' : Closed nx ny (updateTypes nx ny s) k') (hg : ∀ q, k q = .gas → (s q).mass = 0) (hz : ∀ q n, (s q).fdist n = 0)
    (hopp : ∀ p n, k p = .iface → k' p ≠ .iface → k' (p + v n) = .iface → k' (p - v n) ≠ .iface) :
    ∑ q ∈ grid nx ny, (updateTypes nx ny s q).mass = ∑ q ∈ grid nx ny, (s q).mass - ∑ q ∈ grid nx ny, if k q = .iface ∧ k' q ≠ .iface then (s q).mass - (updateTypes nx ny s q).mass else 0 := by
  rw [C118_mass nx ny s k k' hc hc' hg]
  have : collected nx ny (updateTypes nx ny s) k' = 0 := by
    unfold collected
    refine sum_eq_zero fun p _ => sum_eq_zero fun n hn => ?_
    have hn : n ≠ 0 := (mem_erase.mp hn).1
    split_ifs with hi
    · obtain ⟨-, -, h3, h4⟩ := C118_shares nx ny s k k' hc hc' p
      by_cases hp : k p = .iface ∧ k' p ≠ .iface ∧ ∃ q, Adj q p ∧ k' q = .iface
      · obtain ⟨w, -, w2, -, w4⟩ := h3 hp.1 hp.2.1 hp.2.2
        rw [w4 n hn]
        have : w n = 0 := by
          by_contra hw
          exact hopp p n hp.1 hp.2.1 (w2 n hw).2 hi
        rw [this, mul_zero]
      · rw [h4 fun a b q hq hi => hp ⟨a, b, q, hq, hi⟩, hz]
    · rfl
  rw [this, add_zero]

set_option maxHeartbeats 800000 in
/-- Fluid, a full interface cell of mass two and density one, gas: one unit of mass disappears. -/
example : ∑ q ∈ grid 5 3, (updateTypes 5 3 (row (fun x => if x = 1 then .fluid else if x = 2 then .iface else if x = 3 then .gas else .wall) (fun x => if x = 1 then 1 else if x = 2 then 2 else 0) 1 fun _ => []) q).mass =
    ∑ q ∈ grid 5 3, (row (fun x => if x = 1 then .fluid else if x = 2 then .iface else if x = 3 then .gas else .wall) (fun x => if x = 1 then 1 else if x = 2 then 2 else 0) 1 (fun _ => []) q).mass - 1 := by
  set K : ℤ → Kind := fun x => if x = 1 then .fluid else if x = 2 then .iface else if x = 3 then .gas else .wall with hKd
  set m : ℤ → ℝ := fun x => if x = 1 then 1 else if x = 2 then 2 else 0 with hm
  have hK : ∀ x : ℤ, K x ≠ .wall → 0 < x ∧ x < ((5 : ℕ) : ℤ) - 1 := fun x h => by
    simp only [hKd] at h
    split_ifs at h
    all_goals first | (push_cast; omega) | exact absurd rfl h
  have hc := row_closed 5 K m 1 (fun _ => []) hK (by simp)
  obtain ⟨k', hc', hw, hi, hg, hf, -⟩ := C118_kinds 5 3 _ _ hc
  have hmg : ∀ x, K x = .gas → m x = 0 := fun x hx => by
    simp only [hKd] at hx
    simp only [hm]
    split_ifs at hx ⊢
    rfl
  have hkind : ∀ p : Pos, rowKind K p = .iface ↔ p = (2, 1) := fun p => by
    unfold rowKind
    simp only [hKd, Prod.ext_iff]
    clear hc hK hmg
    clear_value m
    split_ifs <;> simp_all
  have hfill : Fills (row K m 1 (fun _ => []) (2, 1)) := by
    left
    simp only [row, hm]
    norm_num
  have k1 : k' (1, 1) = .fluid := (hf (1, 1) (by simp [rowKind, hKd])).2 fun ⟨p, _, h, h', _⟩ => h' (by rw [(hkind p).mp h]; exact hfill)
  have k2 : k' (2, 1) = .fluid := (hi (2, 1) (by simp [rowKind, hKd])).1 hfill
  have k3 : k' (3, 1) = .iface := (hg (3, 1) (by simp [rowKind, hKd])).1 ⟨(2, 1), (adj_row 2 3).mpr (by norm_num), by simp [rowKind, hKd], hfill⟩
  have kall : ∀ p, k' p = .iface → p = (3, 1) := fun p hp => by
    by_contra hne
    have : rowKind K p = .wall ∨ p = (1, 1) ∨ p = (2, 1) := by
      unfold rowKind
      simp only [hKd, Prod.ext_iff] at hne ⊢
      clear hc hK hmg hkind hc' hw hi hg hf hfill k1 k2 k3 hp
      clear_value m
      split_ifs <;> simp_all
    rcases this with h | h | h
    · rw [hw p h] at hp; exact absurd hp (by simp)
    · rw [h, k1] at hp; exact absurd hp (by simp)
    · rw [h, k2] at hp; exact absurd hp (by simp)
  rw [C118_lost 5 3 _ _ k' hc hc' ?_ ?_ ?_]
  · congr 1
    rw [sum_eq_single (2, 1)]
    · rw [if_pos ⟨by simp [rowKind, hKd], by rw [k2]; simp⟩, (C118_shares 5 3 _ _ k' hc hc' (2, 1)).1 (by simp [rowKind, hKd]) k2]
      simp only [row, hm]
      norm_num
    · intro q _ hq
      rw [if_neg fun h => hq ((hkind q).mp h.1)]
    · intro h
      exact absurd (mem_grid.mpr (by norm_num)) h
  · intro q hq
    unfold rowKind at hq
    unfold row
    split_ifs at hq ⊢
    exact hmg _ hq
  · intro q n
    unfold row
    split_ifs <;> rfl
  · intro p n hp _ h1 h2
    have e1 := kall _ h1
    have e2 := kall _ h2
    have : v n = 0 := by
      have h : p + v n = p - v n := e1.trans e2.symm
      have h' := Prod.ext_iff.mp h
      simp only [Prod.fst_add, Prod.snd_add, Prod.fst_sub, Prod.snd_sub] at h'
      refine Prod.ext ?_ ?_
      · simp only [Prod.fst_zero]; omega
      · simp only [Prod.snd_zero]; omega
    rw [this, add_zero, (hkind p).mp hp] at e1
    exact absurd e1 (by simp)

/-- **C118 (gap).** Two neighbouring interface cells, one full and one empty, leave liquid next to gas without an interface cell between them, though liquid and gas were separated before. -/
theorem C118_gap : ∃ (nx ny : ℕ) (s : State) (k k' : Pos → Kind), Closed nx ny s k ∧ Separated k ∧ Closed nx ny (updateTypes nx ny s) k' ∧ ¬ Separated k' := by
  set K : ℤ → Kind := fun x => if x = 1 then .fluid else if x = 2 then .iface else if x = 3 then .iface else if x = 4 then .gas else .wall with hKd
  set m : ℤ → ℝ := fun x => if x = 1 then 1 else if x = 2 then 2 else if x = 3 then -1 else 0 with hm
  have hK : ∀ x : ℤ, K x ≠ .wall → 0 < x ∧ x < ((6 : ℕ) : ℤ) - 1 := fun x h => by
    simp only [hKd] at h
    split_ifs at h
    all_goals first | (push_cast; omega) | exact absurd rfl h
  have hc := row_closed 6 K m 1 (fun _ => []) hK (by simp)
  obtain ⟨k', hc', hw, hi, hg, hf, -⟩ := C118_kinds 6 3 _ _ hc
  refine ⟨6, 3, _, _, k', hc, ?_, hc', fun hsep => ?_⟩
  · rintro ⟨x, y⟩ ⟨x', y'⟩ ⟨_, h1, _⟩ hp hq
    unfold rowKind at hp hq
    simp only [hKd] at hp hq h1
    rw [abs_le] at h1
    split_ifs at hp hq
    omega
  · refine hsep (2, 1) (3, 1) ((adj_row 2 3).mpr (by norm_num)) ((hi (2, 1) (by simp [rowKind, hKd])).1 ?_) ((hi (3, 1) (by simp [rowKind, hKd])).2.1 ?_ ?_)
    · left
      simp only [row, hm]
      norm_num
    · unfold Fills
      simp only [row, hm]
      norm_num
    · left
      simp only [row, hm]
      norm_num

/-! ## Further cases -/

/-- A moving fluid: the equilibrium in the direction of the flow and against it. -/
example : setEqui 1 0.1 0 6 = 1.33 / 9 ∧ setEqui 1 0.1 0 3 = 0.73 / 9 ∧ ∑ n, setEqui 1 0.1 0 n = 1 := by
  have v6 : v 6 = (1, 0) := by decide
  have v3 : v 3 = (-1, 0) := by decide
  have t6 : t 6 = 1 / 9 := rfl
  have t3 : t 3 = 1 / 9 := rfl
  refine ⟨?_, ?_, (C116_equilibrium 1 0.1 0).1⟩
  · simp only [setEqui, v6, t6]; norm_num
  · simp only [setEqui, v3, t3]; norm_num

/-- An interface cell that has just been filled from gas, with zero populations. -/
example : step 3 3 1 0 (-0.1) (fun p => ⟨0, 0, 0, 0, 0, 0, 1, 0, (kindFlags (if p = (1, 1) then .iface else .wall)).set []⟩) = .error .nan := by
  refine C119_nan 3 3 1 0 (-0.1) _ (fun p => if p = (1, 1) then .iface else .wall) ⟨fun p => kindFlags_kind _ _ (by simp), fun p hp => ?_⟩ (1, 1) (Or.inl (by simp)) fun n => rfl
  by_cases h : p = (1, 1)
  · rw [h]; norm_num
  · rw [if_neg h] at hp; exact absurd rfl hp

/-- Shares left over from an earlier pass: with one interface cell next to a fluid cell that still holds 1/2 for the direction away from it, and nothing to convert, the total mass grows by 1/2. -/
example (s : State) (k : Pos → Kind) (hc : Closed 4 3 s k) (h1 : k (1, 1) = .fluid) (h2 : k (2, 1) = .iface) (h3 : ∀ p, k p = .iface → p = (2, 1)) (hm : (s (2, 1)).mass = 0.5 ∧ (s (2, 1)).rho = 1) (hf : ∀ c, c = .NO_FLUID_NEIGH ∨ c = .NO_EMPTY_NEIGH ∨ c = .NO_IFACE_NEIGH → (s (2, 1)).ty c = false)
    (hd : ∀ p n, (s p).fdist n = if p = (1, 1) ∧ n = 3 then 0.5 else 0) : ∑ q ∈ grid 4 3, (updateTypes 4 3 s q).mass = ∑ q ∈ grid 4 3, (s q).mass + 0.5 := by
  rw [(C118_stale 4 3 s k hc fun q hq => ?_).2.2]
  · congr 1
    rw [sum_eq_single (1, 1), sum_eq_single 3]
    · rw [if_pos (by rw [show ((1, 1) : Pos) - v 3 = (2, 1) by decide]; exact h2), hd, if_pos ⟨rfl, rfl⟩]
    · intro n _ hn
      rw [hd, if_neg (c := _ ∧ _) fun h => hn h.2, ite_self]
    · intro h
      exact absurd (mem_erase.mpr ⟨by decide, mem_univ _⟩) h
    · intro p _ hp
      refine sum_eq_zero fun n _ => ?_
      rw [hd, if_neg (c := _ ∧ _) fun h => hp h.1, ite_self]
    · intro h
      exact absurd (mem_grid.mpr (by norm_num)) h
  · rw [h3 q hq]
    refine ⟨?_, ?_⟩
    · unfold Fills
      rw [hm.1, hm.2, hf _ (Or.inr (Or.inl rfl))]
      norm_num
    · unfold Empties
      rw [hm.1, hm.2, hf _ (Or.inr (Or.inr rfl)), hf _ (Or.inl rfl)]
      norm_num

end Verif.Lbm.Dam
