import Verif.Lbm.DamStream

/-!
# Dam break: cell types and excess mass
-/
namespace Verif.Lbm.Dam
open Finset

/-! ## Loops that change neighbours -/

/-- One link of the second and third loop. -/
def touch (A B : Cell → Bool) (W : Pos → Cell → Cell) (s : State) (l : Pos × Fin 9) : State :=
  if A (s l.1) then if B (s (l.1 - v l.2)) then Function.update s (l.1 - v l.2) (W (l.1 - v l.2) (s (l.1 - v l.2))) else s else s

section touch

variable (A B : Cell → Bool) (W : Pos → Cell → Cell)

theorem touch_A (hWA : ∀ q c, A (W q c) = false) (s : State) (hAB : ∀ q, B (s q) = true → A (s q) = false) (l : Pos × Fin 9) (q : Pos) : A (touch A B W s l q) = A (s q) := by
  unfold touch
  split_ifs with h1 h2
  · by_cases hq : q = l.1 - v l.2
    · subst hq
      rw [Function.update_self, hWA, hAB _ h2]
    · rw [Function.update_of_ne hq]
  · rfl
  · rfl

theorem touch_AB (hWB : ∀ q c, B (W q c) = false) (s : State) (hAB : ∀ q, B (s q) = true → A (s q) = false) (l : Pos × Fin 9) (q : Pos) (h : B (touch A B W s l q) = true) : A (touch A B W s l q) = false := by
  unfold touch at *
  split_ifs at * with h1 h2
  · by_cases hq : q = l.1 - v l.2
    · subst hq
      rw [Function.update_self, hWB] at h
      exact absurd h (by simp)
    · rw [Function.update_of_ne hq] at h ⊢
      exact hAB q h
  · exact hAB q h
  · exact hAB q h

open Classical in
/-- The result of all links. -/
theorem touch_fold (hWA : ∀ q c, A (W q c) = false) (hWB : ∀ q c, B (W q c) = false) (L : List (Pos × Fin 9)) (s : State) (hAB : ∀ q, B (s q) = true → A (s q) = false) (q : Pos) :
    L.foldl (touch A B W) s q = if B (s q) = true ∧ ∃ l ∈ L, l.1 - v l.2 = q ∧ A (s l.1) = true then W q (s q) else s q := by
  induction L generalizing s with
  | nil => simp
  | cons l L ih =>
    rw [List.foldl_cons, ih _ fun q h => touch_AB A B W hWB s hAB l q h]
    simp only [touch_A A B W hWA s hAB l]
    by_cases hq : q = l.1 - v l.2 ∧ A (s l.1) = true ∧ B (s q) = true
    · obtain ⟨rfl, h1, h2⟩ := hq
      have e : touch A B W s l (l.1 - v l.2) = W (l.1 - v l.2) (s (l.1 - v l.2)) := by
        unfold touch
        rw [if_pos h1, if_pos h2, Function.update_self]
      rw [e, hWB, if_neg (by simp), if_pos ⟨h2, l, by simp, rfl, h1⟩]
    · have e : touch A B W s l q = s q := by
        unfold touch
        split_ifs with h1 h2
        · refine Function.update_of_ne (fun h => hq ⟨h, h1, ?_⟩) _ _
          rw [h]; exact h2
        · rfl
        · rfl
      rw [e]
      congr 1
      apply propext
      constructor
      · rintro ⟨h1, l', hl', h2⟩
        exact ⟨h1, l', by simp [hl'], h2⟩
      · rintro ⟨h1, l', hl', h2, h3⟩
        rcases List.mem_cons.mp hl' with rfl | hl'
        · exact absurd ⟨h2.symm, h3, h1⟩ hq
        · exact ⟨h1, l', hl', h2, h3⟩

/-- The loops of the code are loops over links. -/
theorem touch_cells (hWA : ∀ q c, A (W q c) = false) (hWB : ∀ q c, B (W q c) = false) (g : State → Pos → State)
    (hg : ∀ s p, g s p = if A (s p) then dirs.foldl (fun s n => if B (s (p - v n)) then Function.update s (p - v n) (W (p - v n) (s (p - v n))) else s) s else s) (l : List Pos) (s : State)
    (hAB : ∀ q, B (s q) = true → A (s q) = false) : l.foldl g s = (l.flatMap fun p => dirs.map fun n => (p, n)).foldl (touch A B W) s := by
  have inner : ∀ (p : Pos) (d : List (Fin 9)) (s : State), (∀ q, B (s q) = true → A (s q) = false) →
      (if A (s p) then d.foldl (fun s n => if B (s (p - v n)) then Function.update s (p - v n) (W (p - v n) (s (p - v n))) else s) s else s) = (d.map fun n => (p, n)).foldl (touch A B W) s ∧
      ∀ q, B ((d.map fun n => (p, n)).foldl (touch A B W) s q) = true → A ((d.map fun n => (p, n)).foldl (touch A B W) s q) = false := by
    intro p d
    induction d with
    | nil => intro s h; exact ⟨by simp, h⟩
    | cons n d ih =>
      intro s h
      obtain ⟨i1, i2⟩ := ih (touch A B W s (p, n)) fun q hq => touch_AB A B W hWB s h (p, n) q hq
      rw [touch_A A B W hWA s h] at i1
      refine ⟨?_, i2⟩
      rw [List.map_cons, List.foldl_cons, List.foldl_cons, ← i1]
      by_cases hA : A (s p) = true
      · rw [if_pos hA, if_pos hA]
        congr 1
        unfold touch
        rw [if_pos hA]
      · rw [if_neg hA, if_neg hA]
        unfold touch
        rw [if_neg hA]
  induction l generalizing s with
  | nil => rfl
  | cons p l ih =>
    rw [List.foldl_cons, List.flatMap_cons, List.foldl_append, hg, (inner p dirs s hAB).1, ih _ (inner p dirs s hAB).2]

end touch

/-! ## Types within `update_types` -/

/-- The kinds of cells within `update_types`. -/
inductive MKind | fluid | iface | gas | wall | toFluid | toGas
  deriving DecidableEq

/-- The flags of such a cell. -/
structure IsM (f : Flags) (k : MKind) : Prop where
  fluid : f .FLUID = decide (k = .fluid)
  iface : f .INTERFACE = decide (k = .iface)
  gas : f .GAS = decide (k = .gas)
  wall : f .OBSTACLE = decide (k = .wall)
  toFluid : f .TO_FLUID = decide (k = .toFluid)
  toGas : f .TO_GAS = decide (k = .toGas)
  inlet : f .INLET = false
  outlet : f .OUTLET = false

/-- Specification: an interface cell is filled. -/
def Fills (c : Cell) : Prop := c.mass > 1.003 * c.rho ∨ (c.mass ≥ 0.9 * c.rho ∧ c.ty .NO_EMPTY_NEIGH = true)

/-- Specification: an interface cell that is not filled is emptied. -/
def Empties (c : Cell) : Prop := c.mass < -0.003 * c.rho ∨ c.ty .NO_IFACE_NEIGH = true ∨ c.ty .NO_FLUID_NEIGH = true

open Classical in
/-- Specification: the marks. -/
noncomputable def mark (s : State) (k : Pos → Kind) (p : Pos) : MKind :=
  match k p with
  | .fluid => .fluid
  | .gas => .gas
  | .wall => .wall
  | .iface => if Fills (s p) then .toFluid else if Empties (s p) then .toGas else .iface

/-- Specification: the neighbours of a cell. -/
def Adj (p q : Pos) : Prop := p ≠ q ∧ |p.1 - q.1| ≤ 1 ∧ |p.2 - q.2| ≤ 1

theorem adj_iff (p q : Pos) : Adj p q ↔ ∃ n ∈ dirs, p - v n = q := by
  constructor
  · rintro ⟨h0, h1, h2⟩
    obtain ⟨n, hn, _⟩ := ((C116_lattice).2.1 (p - q)).mpr ⟨h1, h2⟩
    refine ⟨n, ?_, by rw [hn]; abel⟩
    have : n ≠ 0 := fun h => h0 (by
      rw [h] at hn
      have : p - q = 0 := hn.symm
      exact sub_eq_zero.mp this)
    have hd : ∀ n : Fin 9, n ≠ 0 → n ∈ dirs := by decide
    exact hd n this
  · rintro ⟨n, hn, rfl⟩
    have h1 : n ≠ 0 ∧ |(v n).1| ≤ 1 ∧ |(v n).2| ≤ 1 ∧ v n ≠ 0 := by revert hn; revert n; decide
    refine ⟨fun h => h1.2.2.2 ?_, ?_, ?_⟩
    · have : v n = p - (p - v n) := by abel
      rw [this, ← h, sub_self]
    · simpa using h1.2.1
    · simpa using h1.2.2.1

theorem Adj.symm {p q : Pos} (h : Adj p q) : Adj q p := ⟨h.1.symm, by rw [abs_sub_comm]; exact h.2.1, by rw [abs_sub_comm]; exact h.2.2⟩

open Classical in
/-- Specification: the kinds after the second and third loop. -/
noncomputable def middle (s : State) (k : Pos → Kind) (q : Pos) : MKind :=
  match mark s k q with
  | .gas => if ∃ p, Adj p q ∧ mark s k p = .toFluid then .iface else .gas
  | .fluid => if ∃ p, Adj p q ∧ mark s k p = .toGas then .iface else .fluid
  | m => m

/-- Specification: the kinds after `update_types`. -/
noncomputable def nextKind (s : State) (k : Pos → Kind) (q : Pos) : Kind :=
  match middle s k q with
  | .gas => .gas
  | .fluid => .fluid
  | .wall => .wall
  | .iface => .iface
  | .toFluid => .fluid
  | .toGas => .gas

theorem markCell_isM (s : State) (k : Pos → Kind) (p : Pos) (hk : IsKind (s p).ty (k p)) : IsM (markCell s p).ty (mark s k p) := by
  unfold markCell mark
  simp only
  rw [has_one, hk.iface]
  have e1 : ((s p).mass > (1 + (0.003 : ℝ)) * (s p).rho ∨ ((s p).mass ≥ (1 - (0.1 : ℝ)) * (s p).rho ∧ (s p).ty.has [.NO_EMPTY_NEIGH] = true)) ↔ Fills (s p) := by
    unfold Fills
    rw [has_one]
    norm_num
  rcases hkp : k p with _ | _ | _ | _
  · simp only [reduceCtorEq, decide_false, Bool.false_eq_true, if_false]
    refine ⟨?_, ?_, ?_, ?_, ?_, ?_, ?_, ?_⟩ <;> simp [Flags.clear, hk.fluid, hk.iface, hk.gas, hk.wall, hk.toFluid, hk.toGas, hk.inlet, hk.outlet, hkp]
  · simp only [decide_true, if_true]
    by_cases hf : Fills (s p)
    · rw [if_pos (e1.mpr hf), if_pos hf]
      refine ⟨?_, ?_, ?_, ?_, ?_, ?_, ?_, ?_⟩ <;> simp [Flags.clear, Flags.only]
    · rw [if_neg (fun h => hf (e1.mp h)), if_neg hf]
      have e2 : ((s p).mass < -(0.003 : ℝ) * (s p).rho ∨ ((s p).mass ≤ (0.1 : ℝ) * (s p).rho ∧ (s p).ty.has [.NO_FLUID_NEIGH] = true) ∨ (s p).ty.has [.NO_IFACE_NEIGH, .NO_FLUID_NEIGH] = true) ↔ Empties (s p) := by
        unfold Empties
        rw [has_one, has_two, Bool.or_eq_true]
        constructor
        · rintro (h | ⟨_, h⟩ | h)
          · exact Or.inl h
          · exact Or.inr (Or.inr h)
          · exact Or.inr h
        · rintro (h | h)
          · exact Or.inl h
          · exact Or.inr (Or.inr h)
      by_cases he : Empties (s p)
      · rw [if_pos (e2.mpr he), if_pos he]
        refine ⟨?_, ?_, ?_, ?_, ?_, ?_, ?_, ?_⟩ <;> simp [Flags.clear, Flags.only]
      · rw [if_neg (fun h => he (e2.mp h)), if_neg he]
        refine ⟨?_, ?_, ?_, ?_, ?_, ?_, ?_, ?_⟩ <;> simp [Flags.clear, hk.fluid, hk.iface, hk.gas, hk.wall, hk.toFluid, hk.toGas, hk.inlet, hk.outlet, hkp]
  · simp only [reduceCtorEq, decide_false, Bool.false_eq_true, if_false]
    refine ⟨?_, ?_, ?_, ?_, ?_, ?_, ?_, ?_⟩ <;> simp [Flags.clear, hk.fluid, hk.iface, hk.gas, hk.wall, hk.toFluid, hk.toGas, hk.inlet, hk.outlet, hkp]
  · simp only [reduceCtorEq, decide_false, Bool.false_eq_true, if_false]
    refine ⟨?_, ?_, ?_, ?_, ?_, ?_, ?_, ?_⟩ <;> simp [Flags.clear, hk.fluid, hk.iface, hk.gas, hk.wall, hk.toFluid, hk.toGas, hk.inlet, hk.outlet, hkp]

theorem mark_wall (s : State) (k : Pos → Kind) (p : Pos) : mark s k p = .wall ↔ k p = .wall := by
  unfold mark
  rcases k p with _ | _ | _ | _ <;> simp
  split_ifs <;> simp

theorem only_isM_iface : IsM (Flags.only .INTERFACE) .iface := by
  refine ⟨?_, ?_, ?_, ?_, ?_, ?_, ?_, ?_⟩ <;> decide

/-- The state before the distribution of the excess mass, cell by cell. -/
structure Middle (s s3 : State) (k : Pos → Kind) : Prop where
  kind : ∀ q, IsM (s3 q).ty (middle s k q)
  keep : ∀ q, (s3 q).fin = (s q).fin ∧ (s3 q).fout = (s q).fout ∧ (s3 q).fdist = (s q).fdist
  old : ∀ q, ¬ (k q = .gas ∧ middle s k q = .iface) → (s3 q).mass = (s q).mass ∧ (s3 q).rho = (s q).rho
  new : ∀ q, k q = .gas → middle s k q = .iface → (s3 q).mass = 0

theorem middle_state (nx ny : ℕ) (s : State) (k : Pos → Kind) (hc : Closed nx ny s k) : Middle s ((cells nx ny).foldl emptyCell ((cells nx ny).foldl (fillCell s) (loop markCell (cells nx ny) s))) k := by
  -- first loop
  set s1 := loop markCell (cells nx ny) s with hs1
  have hin : ∀ p, k p ≠ .wall → p ∈ cells nx ny := fun p hw => by
    have := hc.inside p hw
    rw [mem_cells]
    omega
  have h1 : ∀ q, s1 q = if q ∈ cells nx ny then markCell s q else s q := fun q =>
    loop_eq (fun _ => ()) _ (fun _ _ => rfl) (fun s s' p h _ => by unfold markCell; rw [h]) _ (nodup_cells nx ny) s q
  have k1 : ∀ q, IsM (s1 q).ty (mark s k q) := fun q => by
    rw [h1]
    split_ifs with hq
    · exact markCell_isM s k q (hc.kind q)
    · have hw : k q = .wall := by
        by_contra h
        exact hq (hin q h)
      have hk := hc.kind q
      rw [(mark_wall s k q).mpr hw]
      refine ⟨?_, ?_, ?_, ?_, ?_, ?_, ?_, ?_⟩ <;> simp [hk.fluid, hk.iface, hk.gas, hk.wall, hk.toFluid, hk.toGas, hk.inlet, hk.outlet, hw]
  have c1 : ∀ q, (s1 q).fin = (s q).fin ∧ (s1 q).fout = (s q).fout ∧ (s1 q).fdist = (s q).fdist ∧ (s1 q).mass = (s q).mass ∧ (s1 q).rho = (s q).rho := fun q => by
    rw [h1]
    split_ifs <;> exact ⟨rfl, rfl, rfl, rfl, rfl⟩
  -- second loop
  set s2 := (cells nx ny).foldl (fillCell s) s1 with hs2
  have h2 : ∀ q, s2 q = if (s1 q).ty .GAS = true ∧ ∃ l ∈ ((cells nx ny).flatMap fun p => dirs.map fun n => (p, n)), l.1 - v l.2 = q ∧ (s1 l.1).ty .TO_FLUID = true then { averageSurround s q (s1 q) with ty := Flags.only .INTERFACE } else s1 q := by
    intro q
    have hAB : ∀ q, (s1 q).ty .GAS = true → (s1 q).ty .TO_FLUID = false := fun q h => by
      rw [(k1 q).gas] at h
      rw [(k1 q).toFluid]
      have := of_decide_eq_true h
      simp [this]
    rw [hs2, touch_cells (fun c => c.ty .TO_FLUID) (fun c => c.ty .GAS) (fun q c => { averageSurround s q c with ty := Flags.only .INTERFACE }) (fun _ _ => by simp [Flags.only]) (fun _ _ => by simp [Flags.only]) (fillCell s)
      (fun s' p => by unfold fillCell; simp only [has_one]) _ s1 hAB, touch_fold _ _ _ (fun _ _ => by simp [Flags.only]) (fun _ _ => by simp [Flags.only]) _ s1 hAB]
  have e2 : ∀ q, ((s1 q).ty .GAS = true ∧ ∃ l ∈ ((cells nx ny).flatMap fun p => dirs.map fun n => (p, n)), l.1 - v l.2 = q ∧ (s1 l.1).ty .TO_FLUID = true) ↔ (mark s k q = .gas ∧ ∃ p, Adj p q ∧ mark s k p = .toFluid) := by
    intro q
    rw [(k1 q).gas, decide_eq_true_iff]
    refine and_congr Iff.rfl ⟨?_, ?_⟩
    · rintro ⟨⟨p, n⟩, hl, h3, h4⟩
      obtain ⟨p', hp', hl⟩ := List.mem_flatMap.mp hl
      obtain ⟨n', hn', hl⟩ := List.mem_map.mp hl
      obtain ⟨rfl, rfl⟩ := Prod.ext_iff.mp hl
      simp only at h3 h4
      rw [(k1 p').toFluid, decide_eq_true_iff] at h4
      exact ⟨p', (adj_iff _ _).mpr ⟨n', hn', h3⟩, h4⟩
    · rintro ⟨p, ha, hp⟩
      obtain ⟨n, hn, h3⟩ := (adj_iff _ _).mp ha
      refine ⟨(p, n), List.mem_flatMap.mpr ⟨p, hin p fun hw => ?_, List.mem_map.mpr ⟨n, hn, rfl⟩⟩, h3, ?_⟩
      · rw [(mark_wall s k p).mpr hw] at hp
        exact absurd hp (by simp)
      · simp only
        rw [(k1 p).toFluid, decide_eq_true_iff]
        exact hp
  classical
  let m2 : Pos → MKind := fun q => if mark s k q = .gas ∧ ∃ p, Adj p q ∧ mark s k p = .toFluid then .iface else mark s k q
  have k2 : ∀ q, IsM (s2 q).ty (m2 q) := fun q => by
    rw [h2]
    by_cases hq : mark s k q = .gas ∧ ∃ p, Adj p q ∧ mark s k p = .toFluid
    · rw [if_pos ((e2 q).mpr hq), show m2 q = .iface from if_pos hq]
      exact only_isM_iface
    · rw [if_neg fun h => hq ((e2 q).mp h), show m2 q = mark s k q from if_neg hq]
      exact k1 q
  -- third loop
  set s3 := (cells nx ny).foldl emptyCell s2 with hs3
  have h3 : ∀ q, s3 q = if (s2 q).ty .FLUID = true ∧ ∃ l ∈ ((cells nx ny).flatMap fun p => dirs.map fun n => (p, n)), l.1 - v l.2 = q ∧ (s2 l.1).ty .TO_GAS = true then { s2 q with ty := Flags.only .INTERFACE } else s2 q := by
    intro q
    have hAB : ∀ q, (s2 q).ty .FLUID = true → (s2 q).ty .TO_GAS = false := fun q h => by
      rw [(k2 q).fluid] at h
      rw [(k2 q).toGas]
      have := of_decide_eq_true h
      simp [this]
    rw [hs3, touch_cells (fun c => c.ty .TO_GAS) (fun c => c.ty .FLUID) (fun _ c => { c with ty := Flags.only .INTERFACE }) (fun _ _ => by simp [Flags.only]) (fun _ _ => by simp [Flags.only]) emptyCell
      (fun s' p => by unfold emptyCell; simp only [has_one]) _ s2 hAB, touch_fold _ _ _ (fun _ _ => by simp [Flags.only]) (fun _ _ => by simp [Flags.only]) _ s2 hAB]
  have hm2 : ∀ q, m2 q = .toGas ↔ mark s k q = .toGas := fun q => by
    by_cases hq : mark s k q = .gas ∧ ∃ p, Adj p q ∧ mark s k p = .toFluid
    · rw [show m2 q = .iface from if_pos hq, hq.1]
      simp
    · rw [show m2 q = mark s k q from if_neg hq]
  have hm2f : ∀ q, m2 q = .fluid ↔ mark s k q = .fluid := fun q => by
    by_cases hq : mark s k q = .gas ∧ ∃ p, Adj p q ∧ mark s k p = .toFluid
    · rw [show m2 q = .iface from if_pos hq, hq.1]
      simp
    · rw [show m2 q = mark s k q from if_neg hq]
  have e3 : ∀ q, ((s2 q).ty .FLUID = true ∧ ∃ l ∈ ((cells nx ny).flatMap fun p => dirs.map fun n => (p, n)), l.1 - v l.2 = q ∧ (s2 l.1).ty .TO_GAS = true) ↔ (mark s k q = .fluid ∧ ∃ p, Adj p q ∧ mark s k p = .toGas) := by
    intro q
    rw [(k2 q).fluid, decide_eq_true_iff, hm2f]
    refine and_congr Iff.rfl ⟨?_, ?_⟩
    · rintro ⟨⟨p, n⟩, hl, h3, h4⟩
      obtain ⟨p', hp', hl⟩ := List.mem_flatMap.mp hl
      obtain ⟨n', hn', hl⟩ := List.mem_map.mp hl
      obtain ⟨rfl, rfl⟩ := Prod.ext_iff.mp hl
      simp only at h3 h4
      rw [(k2 p').toGas, decide_eq_true_iff, hm2] at h4
      exact ⟨p', (adj_iff _ _).mpr ⟨n', hn', h3⟩, h4⟩
    · rintro ⟨p, ha, hp⟩
      obtain ⟨n, hn, h3⟩ := (adj_iff _ _).mp ha
      refine ⟨(p, n), List.mem_flatMap.mpr ⟨p, hin p fun hw => ?_, List.mem_map.mpr ⟨n, hn, rfl⟩⟩, h3, ?_⟩
      · rw [(mark_wall s k p).mpr hw] at hp
        exact absurd hp (by simp)
      · simp only
        rw [(k2 p).toGas, decide_eq_true_iff, hm2]
        exact hp
  -- together
  have hmid : ∀ q, middle s k q = if mark s k q = .fluid ∧ ∃ p, Adj p q ∧ mark s k p = .toGas then .iface else m2 q := fun q => by
    unfold middle
    rcases hm : mark s k q with _ | _ | _ | _ | _ | _
    · have : m2 q = .fluid := (hm2f q).mpr hm
      simp only [this, true_and]
    all_goals simp [m2, hm]
  have hgas : ∀ q, mark s k q = .gas ↔ k q = .gas := fun q => by
    unfold mark
    rcases k q with _ | _ | _ | _ <;> simp
    split_ifs <;> simp
  have hkeep3 : ∀ q, (s3 q).fin = (s2 q).fin ∧ (s3 q).fout = (s2 q).fout ∧ (s3 q).fdist = (s2 q).fdist ∧ (s3 q).mass = (s2 q).mass ∧ (s3 q).rho = (s2 q).rho := fun q => by
    rw [h3]
    split_ifs <;> exact ⟨rfl, rfl, rfl, rfl, rfl⟩
  have hkeep2 : ∀ q, (s2 q).fin = (s1 q).fin ∧ (s2 q).fout = (s1 q).fout ∧ (s2 q).fdist = (s1 q).fdist := fun q => by
    rw [h2]
    split_ifs <;> exact ⟨rfl, rfl, rfl⟩
  refine ⟨fun q => ?_, fun q => ?_, fun q hq => ?_, fun q hg hi => ?_⟩
  · rw [hmid, h3]
    by_cases hq : mark s k q = .fluid ∧ ∃ p, Adj p q ∧ mark s k p = .toGas
    · rw [if_pos ((e3 q).mpr hq), if_pos hq]
      exact only_isM_iface
    · rw [if_neg fun h => hq ((e3 q).mp h), if_neg hq]
      exact k2 q
  · exact ⟨(hkeep3 q).1.trans ((hkeep2 q).1.trans (c1 q).1), (hkeep3 q).2.1.trans ((hkeep2 q).2.1.trans (c1 q).2.1), (hkeep3 q).2.2.1.trans ((hkeep2 q).2.2.trans (c1 q).2.2.1)⟩
  · have : ¬ (mark s k q = .gas ∧ ∃ p, Adj p q ∧ mark s k p = .toFluid) := fun h => hq ⟨(hgas q).mp h.1, by
      rw [hmid, if_neg (by rw [h.1]; simp)]
      exact if_pos h⟩
    have e : s2 q = s1 q := by rw [h2, if_neg fun h => this ((e2 q).mp h)]
    rw [(hkeep3 q).2.2.2.1, (hkeep3 q).2.2.2.2, e]
    exact ⟨(c1 q).2.2.2.1, (c1 q).2.2.2.2⟩
  · have hg' := (hgas q).mpr hg
    have : mark s k q = .gas ∧ ∃ p, Adj p q ∧ mark s k p = .toFluid := by
      rw [hmid, if_neg (by rw [hg']; simp)] at hi
      by_contra h
      rw [show m2 q = mark s k q from if_neg h, hg'] at hi
      exact absurd hi (by simp)
    rw [(hkeep3 q).2.2.2.1, h2, if_pos ((e2 q).mpr this)]
    rfl

end Verif.Lbm.Dam
