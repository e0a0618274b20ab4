import Verif.Lbm.DamMass

/-!
# Dam break: runs
-/
namespace Verif.Lbm.Dam
open Finset

/-! ## Errors -/

theorem loopM_error (g : State → Pos → Except DErr Cell) (P : State → Prop) (e0 : DErr) (hP : ∀ s p c, P s → g s p = .ok c → P (Function.update s p c)) (hg : ∀ s p e, P s → g s p = .error e → e = e0) (l : List Pos) (s : State) (hs : P s) :
    (∀ e, loopM g l s = .error e → e = e0) ∧ ∀ s', loopM g l s = .ok s' → P s' := by
  induction l generalizing s with
  | nil =>
    refine ⟨fun e h => ?_, fun s' h => ?_⟩
    · simp [loopM, pure, Except.pure] at h
    · rw [← Except.ok.inj (show Except.ok s = Except.ok s' from h)]
      exact hs
  | cons p l ih =>
    unfold loopM at *
    rw [List.foldlM_cons]
    cases hgp : g s p with
    | error e =>
      refine ⟨fun e' h => ?_, fun s' h => ?_⟩
      · rw [← Except.error.inj (show Except.error e = Except.error e' from h)]
        exact hg s p e hs hgp
      · simp [Except.map, bind, Except.bind] at h
    | ok c => exact ih (Function.update s p c) (hP s p c hs hgp)

theorem updateRhoU_error (c : Cell) (e : DErr) (h : updateRhoU c = .error e) : e = .nan := by
  unfold updateRhoU at h
  simp only at h
  split_ifs at h
  exact (Except.error.inj h).symm

theorem updateRhoU_zero (c : Cell) (h : ∑ n, c.fin n = 0) : updateRhoU c = .error .nan := by
  unfold updateRhoU
  simp only
  rw [if_pos h]

/-- All cells have a kind. -/
def Kinds (k : Pos → Kind) (s : State) : Prop := ∀ p, IsKind (s p).ty (k p)

theorem Kinds.update {k : Pos → Kind} {s : State} (h : Kinds k s) (p : Pos) (c : Cell) (hc : c.ty = (s p).ty) : Kinds k (Function.update s p c) := fun q => by
  by_cases hq : q = p
  · subst hq
    rw [Function.update_self, hc]
    exact h q
  · rw [Function.update_of_ne hq]
    exact h q

theorem collisionCell_ok (omega gx gy : ℝ) (s : State) (p : Pos) (c : Cell) (h : collisionCell omega gx gy s p = .ok c) : c.ty = (s p).ty ∧ c.mass = (s p).mass ∧ c.fin = (s p).fin ∧ c.fdist = (s p).fdist := by
  have hc := C116_collision omega gx gy s p
  cases hg : (s p).ty.has [.GAS, .OBSTACLE] with
  | true =>
    rw [hc.1 hg] at h
    rw [← Except.ok.inj h]
    exact ⟨rfl, rfl, rfl, rfl⟩
  | false =>
    obtain ⟨_, _, _, h1, h2, h3, h4, _⟩ := hc.2.2 c hg h
    exact ⟨h1, h2, h3, h4⟩

theorem collisionCell_error (omega gx gy : ℝ) (k : Pos → Kind) (s : State) (hk : Kinds k s) (p : Pos) (e : DErr) (h : collisionCell omega gx gy s p = .error e) : e = .nan := by
  unfold collisionCell at h
  simp only [has_one, (hk p).inlet, (hk p).outlet, Bool.false_eq_true, if_false] at h
  split_ifs at h
  cases hu : updateRhoU (s p) with
  | error e' =>
    rw [hu] at h
    rw [← Except.error.inj (show Except.error e' = Except.error e from h)]
    exact updateRhoU_error _ _ hu
  | ok c => rw [hu] at h; simp [bind, Except.bind] at h

theorem streamCell_error (nx ny : ℤ) (mass_prev rho_prev : Pos → ℝ) (s : State) (p : Pos) (e : DErr) (h : streamCell nx ny mass_prev rho_prev s p = .error e) : e = .nan := by
  unfold streamCell at h
  simp only at h
  by_cases h0 : (s p).ty.has [.OBSTACLE, .GAS] = true
  · rw [if_pos h0] at h
    exact absurd h (by simp)
  rw [if_neg h0] at h
  generalize hc : (if (s p).ty.has [.FLUID, .INLET, .OUTLET] = true then streamFluid nx ny s p else if (s p).ty.has [.INTERFACE] = true then streamInterface mass_prev rho_prev s p else s p) = c at h
  cases hu : updateRhoU c with
  | error e' =>
    rw [hu] at h
    rw [← Except.error.inj (show Except.error e' = Except.error e from h)]
    exact updateRhoU_error _ _ hu
  | ok c => rw [hu] at h; simp [bind, Except.bind] at h

/-! ## One pass -/

theorem collision_closed (omega gx gy : ℝ) (nx ny : ℕ) (s s1 : State) (k : Pos → Kind) (hc : Closed nx ny s k) (h : loopM (collisionCell omega gx gy) (cells nx ny) s = .ok s1) :
    Closed nx ny s1 k ∧ ∀ q, (s1 q).ty = (s q).ty ∧ (s1 q).mass = (s q).mass ∧ (s1 q).fin = (s q).fin ∧ (s1 q).fdist = (s q).fdist := by
  have hq : ∀ q, (s1 q).ty = (s q).ty ∧ (s1 q).mass = (s q).mass ∧ (s1 q).fin = (s q).fin ∧ (s1 q).fdist = (s q).fdist := fun q => by
    have := collision_loop omega gx gy nx ny s s1 h q
    by_cases hq : q ∈ cells nx ny
    · exact collisionCell_ok _ _ _ _ _ _ (this.1 hq)
    · rw [this.2 hq]
      exact ⟨rfl, rfl, rfl, rfl⟩
  exact ⟨⟨fun p => by rw [(hq p).1]; exact hc.kind p, hc.inside⟩, hq⟩

theorem stream_closed (nx ny : ℕ) (mass_prev rho_prev : Pos → ℝ) (s s2 : State) (k : Pos → Kind) (hc : Closed nx ny s k) (h : loopM (streamCell nx ny mass_prev rho_prev) (cells nx ny) s = .ok s2) :
    Closed nx ny s2 k ∧ (∀ q, k q = .gas ∨ k q = .wall → s2 q = s q) ∧ ∀ q, (s2 q).fdist = (s q).fdist := by
  have hq : ∀ q, (s2 q).ty = (s q).ty ∧ (k q = .gas ∨ k q = .wall → s2 q = s q) ∧ (s2 q).fdist = (s q).fdist := fun q => by
    have := stream_loop nx ny mass_prev rho_prev s s2 h q
    by_cases hq : q ∈ cells nx ny
    · rcases streamCell_ok _ _ _ _ _ _ _ (this.1 hq) with ⟨_, h'⟩ | ⟨h0, _, _, _, _, _, h1, h2, _⟩
      · rw [h']
        exact ⟨rfl, fun _ => rfl, rfl⟩
      · refine ⟨h1, fun hk => ?_, h2⟩
        rw [has_two, (hc.kind q).wall, (hc.kind q).gas] at h0
        rcases hk with hk | hk <;> rw [hk] at h0 <;> simp at h0
    · rw [this.2 hq]
      exact ⟨rfl, fun _ => rfl, rfl⟩
  exact ⟨⟨fun p => by rw [(hq p).1]; exact hc.kind p, hc.inside⟩, fun q => (hq q).2.1, fun q => (hq q).2.2⟩

theorem step_cases (nx ny : ℕ) (omega gx gy : ℝ) (s : State) :
    (∃ s1 s2, loopM (collisionCell omega gx gy) (cells nx ny) s = .ok s1 ∧ loopM (streamCell nx ny (fun q => (s1 q).mass) (fun q => (s1 q).mass)) (cells nx ny) s1 = .ok s2 ∧ step nx ny omega gx gy s = .ok (updateTypes nx ny s2)) ∨
    (∃ e, step nx ny omega gx gy s = .error e ∧ (loopM (collisionCell omega gx gy) (cells nx ny) s = .error e ∨
      ∃ s1, loopM (collisionCell omega gx gy) (cells nx ny) s = .ok s1 ∧ loopM (streamCell nx ny (fun q => (s1 q).mass) (fun q => (s1 q).mass)) (cells nx ny) s1 = .error e)) := by
  unfold step
  dsimp only [bind, Except.bind]
  cases h1 : loopM (collisionCell omega gx gy) (cells nx ny) s with
  | error e => exact Or.inr ⟨e, rfl, Or.inl rfl⟩
  | ok s1 =>
    dsimp only
    cases h2 : loopM (streamCell nx ny (fun q => (s1 q).mass) (fun q => (s1 q).mass)) (cells nx ny) s1 with
    | error e => exact Or.inr ⟨e, rfl, Or.inr ⟨s1, rfl, h2⟩⟩
    | ok s2 => exact Or.inl ⟨s1, s2, rfl, h2, rfl⟩

/-- **C119 (closed domain).** From a closed state one pass of `evolve` yields a closed state or not-a-number; the missing functions for inlets and outlets are never called. Walls stay walls; the populations of a gas cell are those it had before, and gas
becomes interface or stays gas. -/
theorem C119_closed (nx ny : ℕ) (omega gx gy : ℝ) (s : State) (k : Pos → Kind) (hc : Closed nx ny s k) :
    (∀ e, step nx ny omega gx gy s = .error e → e = .nan) ∧
    ∀ s', step nx ny omega gx gy s = .ok s' → ∃ k', Closed nx ny s' k' ∧ (∀ q, k q = .wall → k' q = .wall) ∧ ∀ q, k q = .gas → (s' q).fin = (s q).fin ∧ (k' q = .gas ∨ k' q = .iface) := by
  rcases step_cases nx ny omega gx gy s with ⟨s1, s2, h1, h2, h⟩ | ⟨e, h, he⟩
  · refine ⟨fun e he => ?_, fun s' h' => ?_⟩
    · rw [h] at he
      exact absurd he (by simp)
    · rw [h] at h'
      have h' := Except.ok.inj h'
      subst h'
      obtain ⟨c1, q1⟩ := collision_closed omega gx gy nx ny s s1 k hc h1
      obtain ⟨c2, q2, -⟩ := stream_closed nx ny _ _ s1 s2 k c1 h2
      obtain ⟨k', c3, hw, -, hg, -⟩ := C118_kinds nx ny s2 k c2
      refine ⟨k', c3, hw, fun q hq => ⟨?_, ?_⟩⟩
      · rw [((C118_flags nx ny s2 k k' c2 c3).2 q).1, q2 q (Or.inl hq), (q1 q).2.2.1]
      · by_cases hp : ∃ p, Adj p q ∧ k p = .iface ∧ Fills (s2 p)
        · exact Or.inr ((hg q hq).1 hp)
        · exact Or.inl ((hg q hq).2 hp)
  · refine ⟨fun e' he' => ?_, fun s' h' => ?_⟩
    · rw [h] at he'
      rw [← Except.error.inj he']
      rcases he with he | ⟨s1, h1, he⟩
      · exact (loopM_error _ (Kinds k) .nan (fun s p c hs h => hs.update p c (collisionCell_ok _ _ _ _ _ _ h).1) (fun s p e hs h => collisionCell_error _ _ _ k s hs p e h) _ s hc.kind).1 e he
      · exact (loopM_error _ (fun _ => True) .nan (fun _ _ _ _ _ => trivial) (fun s p e _ h => streamCell_error _ _ _ _ s p e h) _ s1 trivial).1 e he
    · rw [h] at h'
      exact absurd h' (by simp)

/-- **C119 (dry cells).** A fluid or interface cell whose populations are all zero makes the next pass fail with not-a-number: `update_rho_u` divides zero by zero. -/
theorem C119_nan (nx ny : ℕ) (omega gx gy : ℝ) (s : State) (k : Pos → Kind) (hc : Closed nx ny s k) (p : Pos) (hp : k p = .iface ∨ k p = .fluid) (hz : ∀ n, (s p).fin n = 0) : step nx ny omega gx gy s = .error .nan := by
  have hk := hc.kind p
  have hcell : collisionCell omega gx gy s p = .error .nan := by
    unfold collisionCell
    have h0 : (s p).ty.has [.GAS, .OBSTACLE] = false := by
      rw [has_two, hk.gas, hk.wall]
      rcases hp with hp | hp <;> rw [hp] <;> rfl
    simp only [h0, has_one, hk.inlet, hk.outlet, Bool.false_eq_true, if_false]
    rw [updateRhoU_zero _ (by simp [hz])]
    rfl
  have hin : p ∈ cells nx ny := by
    have := hc.inside p (by rcases hp with hp | hp <;> rw [hp] <;> simp)
    rw [mem_cells]
    omega
  obtain ⟨e, he⟩ := (loopM_eq (fun _ => ()) (collisionCell omega gx gy) (fun _ _ _ _ => rfl) (fun s s' p h _ => by unfold collisionCell; rw [h]) _ (nodup_cells nx ny) s).2.mpr ⟨p, hin, _, hcell⟩
  rcases step_cases nx ny omega gx gy s with ⟨s1, s2, h1, _⟩ | ⟨e', h, _⟩
  · rw [he] at h1
    exact absurd h1 (by simp)
  · rw [h, (C119_closed nx ny omega gx gy s k hc).1 e' h]

/-! ## Runs -/

/-- **C119 (runs).** The populations of gas cells are never initialised. So if all gas cells of the initial state have zero populations, as they have at the start of the script, and a run of `N` passes meets no not-a-number, then none of the initial gas
cells ever became wet before the last pass: a run either leaves the liquid in its initial cells or breaks down one pass after it has left them. -/
theorem C119_dry (nx ny : ℕ) (omega gx gy : ℝ) (N : ℕ) (s0 : State) (k0 : Pos → Kind) (hc : Closed nx ny s0 k0) (G : Set Pos) (hG : ∀ p ∈ G, k0 p = .gas ∧ ∀ n, (s0 p).fin n = 0) (L : List State) (h : evolve nx ny omega gx gy N s0 = .ok L) :
    L.length = N ∧ ∀ (i : ℕ) (s : State), i + 1 < N → L[i]? = some s → ∃ k, Closed nx ny s k ∧ ∀ p ∈ G, k p = .gas := by
  induction N generalizing s0 k0 L with
  | zero =>
    rw [← Except.ok.inj (show Except.ok [] = Except.ok L from h)]
    exact ⟨rfl, fun i s hi => absurd hi (by omega)⟩
  | succ N ih =>
    unfold evolve at h
    dsimp only [bind, Except.bind] at h
    cases h1 : step nx ny omega gx gy s0 with
    | error e => rw [h1] at h; exact absurd h (by simp)
    | ok s1 =>
      rw [h1] at h
      dsimp only at h
      cases h2 : evolve nx ny omega gx gy N s1 with
      | error e => rw [h2] at h; exact absurd h (by simp)
      | ok rest =>
        rw [h2] at h
        dsimp only at h
        have hL := Except.ok.inj h
        subst hL
        obtain ⟨k1, c1, -, g1⟩ := (C119_closed nx ny omega gx gy s0 k0 hc).2 s1 h1
        cases N with
        | zero =>
          rw [← Except.ok.inj (show Except.ok [] = Except.ok rest from h2)]
          exact ⟨rfl, fun i s hi => absurd hi (by omega)⟩
        | succ N =>
          have hdry : ∀ p ∈ G, k1 p = .gas ∧ ∀ n, (s1 p).fin n = 0 := fun p hp => by
            have hz : ∀ n, (s1 p).fin n = 0 := fun n => by rw [(g1 p (hG p hp).1).1]; exact (hG p hp).2 n
            refine ⟨?_, hz⟩
            rcases (g1 p (hG p hp).1).2 with hg | hg
            · exact hg
            · exfalso
              have hn := C119_nan nx ny omega gx gy s1 k1 c1 p (Or.inl hg) hz
              unfold evolve at h2
              dsimp only [bind, Except.bind] at h2
              rw [hn] at h2
              exact absurd h2 (by simp)
          obtain ⟨l, hr⟩ := ih s1 k1 c1 hdry rest h2
          refine ⟨by simp [l], fun i s hi hs => ?_⟩
          cases i with
          | zero =>
            have : s1 = s := by simpa using hs
            subst this
            exact ⟨k1, c1, fun p hp => (hdry p hp).1⟩
          | succ i => exact hr i s (by omega) (by simpa using hs)

/-! ## The script -/

/-- Specification: the initial kinds. -/
def initKind (nx ny minx maxx miny maxy : ℤ) (p : Pos) : Kind :=
  if p.1 ≤ 0 ∨ nx - 1 ≤ p.1 ∨ p.2 ≤ 0 ∨ ny - 1 ≤ p.2 then .wall
  else if minx < p.1 ∧ p.1 < maxx - 1 ∧ miny < p.2 ∧ p.2 < maxy - 1 then .fluid
  else if minx ≤ p.1 ∧ p.1 < maxx ∧ miny ≤ p.2 ∧ p.2 < maxy then .iface
  else .gas

theorem only_kind : IsKind (Flags.only .OBSTACLE) .wall ∧ IsKind (Flags.only .FLUID) .fluid ∧ IsKind (Flags.only .INTERFACE) .iface ∧ IsKind (Flags.only .GAS) .gas := by
  refine ⟨⟨?_, ?_, ?_, ?_, ?_, ?_, ?_, ?_⟩, ⟨?_, ?_, ?_, ?_, ?_, ?_, ?_, ?_⟩, ⟨?_, ?_, ?_, ?_, ?_, ?_, ?_, ?_⟩, ⟨?_, ?_, ?_, ?_, ?_, ?_, ?_, ?_⟩⟩ <;> decide

/-- **C119 (start).** The initial state is closed; liquid and gas are separated by an interface layer; in every cell mass, density and the sum of the populations agree, with 1 in the fluid, 1/2 in the interface and 0 elsewhere, and gas cells have zero
populations. -/
theorem C119_start (nx ny : ℕ) (minx maxx miny maxy : ℤ) :
    Closed nx ny (initState nx ny minx maxx miny maxy) (initKind nx ny minx maxx miny maxy) ∧ Separated (initKind nx ny minx maxx miny maxy) ∧
    ∀ p, let c := initState nx ny minx maxx miny maxy p
      c.rho = c.mass ∧ ∑ n, c.fin n = c.mass ∧ c.ux = 0 ∧ c.uy = 0 ∧ (c.mass = match initKind nx ny minx maxx miny maxy p with | .fluid => 1 | .iface => 1 / 2 | _ => 0) ∧
      (initKind nx ny minx maxx miny maxy p = .gas → ∀ n, c.fin n = 0) := by
  have hk : ∀ p, IsKind (initState nx ny minx maxx miny maxy p).ty (initKind nx ny minx maxx miny maxy p) := fun p => by
    unfold initState initType initKind
    simp only [Int.add_one_le_iff]
    split_ifs
    · exact only_kind.1
    · exact only_kind.2.1
    · exact only_kind.2.2.1
    · exact only_kind.2.2.2
  have hm : ∀ p, (initState nx ny minx maxx miny maxy p).mass = match initKind nx ny minx maxx miny maxy p with | .fluid => 1 | .iface => 1 / 2 | _ => 0 := fun p => by
    have e : (initState nx ny minx maxx miny maxy p).mass = if (initState nx ny minx maxx miny maxy p).ty.has [.FLUID] then 1 else if (initState nx ny minx maxx miny maxy p).ty.has [.INTERFACE] then 0.5 else 0 := rfl
    rw [e, has_one, has_one, (hk p).fluid, (hk p).iface]
    rcases initKind nx ny minx maxx miny maxy p with _ | _ | _ | _ <;> simp <;> norm_num
  refine ⟨⟨hk, fun p hp => ?_⟩, fun p q ⟨_, h1, h2⟩ hp hq => ?_, fun p => ?_⟩
  · unfold initKind at hp
    by_cases h : p.1 ≤ 0 ∨ (nx : ℤ) - 1 ≤ p.1 ∨ p.2 ≤ 0 ∨ (ny : ℤ) - 1 ≤ p.2
    · rw [if_pos h] at hp
      exact absurd rfl hp
    · push Not at h
      exact h
  · unfold initKind at hp hq
    rw [abs_le] at h1 h2
    split_ifs at hp hq with a b c d e
    exact e (by omega)
  · refine ⟨rfl, (C116_equilibrium _ 0 0).1, rfl, rfl, hm p, fun hg n => ?_⟩
    have e : (initState nx ny minx maxx miny maxy p).fin = setEqui (initState nx ny minx maxx miny maxy p).mass 0 0 := rfl
    rw [e, hm p, hg]
    simp [setEqui]

/-- **C119 (script).** If the hundred passes of the script meet no not-a-number, then in the first ninety-nine of them every cell outside the initial block is still gas: the dam never breaks. -/
theorem C119_script (L : List State) (h : script = .ok L) (i : ℕ) (hi : i < 99) :
    ∃ s, L[i]? = some s ∧ ∀ p : Pos, 0 < p.1 → p.1 < 169 → 0 < p.2 → p.2 < 169 → (70 ≤ p.1 ∨ p.2 < 40) → (s p).ty .GAS = true := by
  obtain ⟨hc, -, h3⟩ := C119_start 170 170 0 70 40 170
  obtain ⟨hl, hr⟩ := C119_dry 170 170 1 0 (-0.1) 100 _ _ hc {p | 0 < p.1 ∧ p.1 < 169 ∧ 0 < p.2 ∧ p.2 < 169 ∧ (70 ≤ p.1 ∨ p.2 < 40)} (fun p hp => by
    obtain ⟨a, b, c, d, e⟩ := hp
    have hg : initKind ((170 : ℕ) : ℤ) ((170 : ℕ) : ℤ) 0 70 40 170 p = .gas := by
      unfold initKind
      push_cast
      rw [if_neg (by omega), if_neg (by omega), if_neg (by omega)]
    exact ⟨hg, (h3 p).2.2.2.2.2 hg⟩) L h
  have hs : L[i]? = some L[i] := List.getElem?_eq_getElem (by omega)
  refine ⟨L[i]'(by omega), hs, fun p a b c d e => ?_⟩
  obtain ⟨k, hk, hg⟩ := hr i _ (by omega) hs
  rw [(hk.kind p).gas, hg p ⟨a, b, c, d, e⟩]
  rfl

end Verif.Lbm.Dam
