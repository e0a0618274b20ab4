import Verif.Lbm.DamProps

/-!
# Dam break: streaming and mass exchange
-/
namespace Verif.Lbm.Dam
open Finset

/-! ## Specifications -/

/-- The four kinds of cells between two passes. -/
inductive Kind | fluid | iface | gas | wall
  deriving DecidableEq

/-- Specification: the flags of a cell of a given kind; neighbourhood flags are free. -/
structure IsKind (f : Flags) (k : Kind) : Prop where
  fluid : f .FLUID = decide (k = .fluid)
  iface : f .INTERFACE = decide (k = .iface)
  gas : f .GAS = decide (k = .gas)
  wall : f .OBSTACLE = decide (k = .wall)
  inlet : f .INLET = false
  outlet : f .OUTLET = false
  toFluid : f .TO_FLUID = false
  toGas : f .TO_GAS = false

/-- Specification: every cell has a kind, and all cells that are not walls lie inside. -/
structure Closed (nx ny : ℕ) (s : State) (k : Pos → Kind) : Prop where
  kind : ∀ p, IsKind (s p).ty (k p)
  inside : ∀ p, k p ≠ .wall → 0 < p.1 ∧ p.1 < (nx : ℤ) - 1 ∧ 0 < p.2 ∧ p.2 < (ny : ℤ) - 1

theorem has_one (f : Flags) (a : CT) : f.has [a] = f a := by simp [Flags.has]
theorem has_two (f : Flags) (a b : CT) : f.has [a, b] = (f a || f b) := by simp [Flags.has]

theorem IsKind.unique {f : Flags} {k k' : Kind} (h : IsKind f k) (h' : IsKind f k') : k = k' := by
  have h1 := h.fluid.symm.trans h'.fluid
  have h2 := h.iface.symm.trans h'.iface
  have h3 := h.gas.symm.trans h'.gas
  cases k <;> cases k' <;> simp_all

theorem neighbour_inside (p : Pos) (n : Fin 9) : p.1 - 1 ≤ (p - v n).1 ∧ (p - v n).1 ≤ p.1 + 1 ∧ p.2 - 1 ≤ (p - v n).2 ∧ (p - v n).2 ≤ p.2 + 1 := by
  have : -1 ≤ (v n).1 ∧ (v n).1 ≤ 1 ∧ -1 ≤ (v n).2 ∧ (v n).2 ≤ 1 := by revert n; decide
  simp only [Prod.fst_sub, Prod.snd_sub]
  omega

/-! ## The loop -/

theorem collision_loop (omega gx gy : ℝ) (nx ny : ℕ) (s s' : State) (h : loopM (collisionCell omega gx gy) (cells nx ny) s = .ok s') (q : Pos) :
    (q ∈ cells nx ny → collisionCell omega gx gy s q = .ok (s' q)) ∧ (q ∉ cells nx ny → s' q = s q) :=
  (loopM_eq (fun _ => ()) _ (fun _ _ _ _ => rfl) (fun s s' p h _ => by unfold collisionCell; rw [h]) _ (nodup_cells nx ny) s).1 s' h q

theorem updateRhoU_keep (c c' : Cell) (h : updateRhoU c = .ok c') : c'.fin = c.fin ∧ c'.fout = c.fout ∧ c'.mass = c.mass ∧ c'.ty = c.ty ∧ c'.fdist = c.fdist ∧ c'.rho = ∑ n, c.fin n ∧ c'.rho ≠ 0 := by
  obtain ⟨a, b, _, _, c1, c2, c3, c4, c5, _⟩ := (C116_velocity c).2.1 c' h
  exact ⟨c1, c2, c3, c4, c5, a, b⟩

/-- What a streaming step of a cell returns. -/
theorem streamCell_ok (nx ny : ℤ) (mass_prev rho_prev : Pos → ℝ) (s : State) (p : Pos) (c' : Cell) (h : streamCell nx ny mass_prev rho_prev s p = .ok c') :
    ((s p).ty.has [.OBSTACLE, .GAS] = true ∧ c' = s p) ∨
    ((s p).ty.has [.OBSTACLE, .GAS] = false ∧ ∃ c, c = (if (s p).ty.has [.FLUID, .INLET, .OUTLET] then streamFluid nx ny s p else if (s p).ty.has [.INTERFACE] then streamInterface mass_prev rho_prev s p else s p) ∧
      c'.fin = c.fin ∧ c'.fout = (s p).fout ∧ c'.mass = c.mass ∧ c'.ty = (s p).ty ∧ c'.fdist = (s p).fdist ∧ (∑ n, c.fin n ≠ 0) ∧ c'.rho = if (s p).ty.has [.FLUID] then c.mass else ∑ n, c.fin n) := by
  unfold streamCell at h
  simp only at h
  by_cases h0 : (s p).ty.has [.OBSTACLE, .GAS] = true
  · rw [if_pos h0] at h
    exact Or.inl ⟨h0, (Except.ok.inj h).symm⟩
  · rw [if_neg h0] at h
    have h0' : (s p).ty.has [.OBSTACLE, .GAS] = false := by simpa using h0
    refine Or.inr ⟨h0', _, rfl, ?_⟩
    generalize hc : (if (s p).ty.has [.FLUID, .INLET, .OUTLET] = true then streamFluid nx ny s p else if (s p).ty.has [.INTERFACE] = true then streamInterface mass_prev rho_prev s p else s p) = c at h ⊢
    have hcty : c.ty = (s p).ty ∧ c.fout = (s p).fout ∧ c.fdist = (s p).fdist := by
      rw [← hc]
      split_ifs <;> exact ⟨rfl, rfl, rfl⟩
    cases hu : updateRhoU c with
    | error e => rw [hu] at h; simp [bind, Except.bind] at h
    | ok d =>
      rw [hu] at h
      have hd := updateRhoU_keep c d hu
      have hc' : c' = if d.ty.has [.FLUID] then { d with rho := d.mass } else d := (Except.ok.inj h).symm
      rw [hd.2.2.2.1, hcty.1] at hc'
      by_cases hf : (s p).ty.has [.FLUID] = true
      · rw [if_pos hf] at hc' ⊢
        subst hc'
        exact ⟨hd.1, hd.2.1.trans hcty.2.1, hd.2.2.1, rfl, hd.2.2.2.2.1.trans hcty.2.2, by rw [← hd.2.2.2.2.2.1]; exact hd.2.2.2.2.2.2, hd.2.2.1⟩
      · rw [if_neg hf] at hc' ⊢
        subst hc'
        exact ⟨hd.1, hd.2.1.trans hcty.2.1, hd.2.2.1, hd.2.2.2.1.trans hcty.1, hd.2.2.2.2.1.trans hcty.2.2, by rw [← hd.2.2.2.2.2.1]; exact hd.2.2.2.2.2.2, hd.2.2.2.2.2.1⟩

theorem stream_loop (nx ny : ℕ) (mass_prev rho_prev : Pos → ℝ) (s s' : State) (h : loopM (streamCell nx ny mass_prev rho_prev) (cells nx ny) s = .ok s') (q : Pos) :
    (q ∈ cells nx ny → streamCell nx ny mass_prev rho_prev s q = .ok (s' q)) ∧ (q ∉ cells nx ny → s' q = s q) := by
  refine (loopM_eq (fun c => (c.fout, c.ty)) _ (fun s p c h => ?_) (fun s s' p h hq => ?_) _ (nodup_cells nx ny) s).1 s' h q
  · rcases streamCell_ok _ _ _ _ _ _ _ h with ⟨_, rfl⟩ | ⟨_, _, _, _, h2, _, h3, _⟩
    · rfl
    · rw [h2, h3]
  · have h1 : ∀ q, (s q).fout = (s' q).fout := fun q => congrArg Prod.fst (hq q)
    have h2 : ∀ q, (s q).ty = (s' q).ty := fun q => congrArg Prod.snd (hq q)
    unfold streamCell streamFluid streamInterface
    simp only [h, h1, h2]

/-! ## C117: mass exchange -/

/-- **C117 (exchange).** The two sides of an exchange between interface cells cancel, except in two cases. A cell without empty neighbours next to one with empty and fluid neighbours: both sides gain the population that leaves the latter. A cell
without empty neighbours, once with and once without fluid neighbours: the population leaving the former is lost. -/
theorem C117_exchange (a b : Flags) (x y : ℝ) :
    exchange a b x y + exchange b a y x =
      if a .NO_FLUID_NEIGH = false ∧ b .NO_FLUID_NEIGH = false ∧ a .NO_EMPTY_NEIGH = true ∧ b .NO_EMPTY_NEIGH = false then 2 * y
      else if a .NO_FLUID_NEIGH = false ∧ b .NO_FLUID_NEIGH = false ∧ a .NO_EMPTY_NEIGH = false ∧ b .NO_EMPTY_NEIGH = true then 2 * x
      else if a .NO_FLUID_NEIGH = true ∧ b .NO_FLUID_NEIGH = false ∧ a .NO_EMPTY_NEIGH = true ∧ b .NO_EMPTY_NEIGH = true then -y
      else if a .NO_FLUID_NEIGH = false ∧ b .NO_FLUID_NEIGH = true ∧ a .NO_EMPTY_NEIGH = true ∧ b .NO_EMPTY_NEIGH = true then -x
      else 0 := by
  unfold exchange
  simp only [has_one]
  cases a .NO_FLUID_NEIGH <;> cases b .NO_FLUID_NEIGH <;> cases a .NO_EMPTY_NEIGH <;> cases b .NO_EMPTY_NEIGH <;> simp <;> ring

/-- Specification: a pair of flags for which the exchange of mass is unbalanced. -/
def Unbalanced (a b : Flags) : Prop :=
  (a .NO_FLUID_NEIGH = false ∧ b .NO_FLUID_NEIGH = false ∧ a .NO_EMPTY_NEIGH ≠ b .NO_EMPTY_NEIGH) ∨ (a .NO_FLUID_NEIGH ≠ b .NO_FLUID_NEIGH ∧ a .NO_EMPTY_NEIGH = true ∧ b .NO_EMPTY_NEIGH = true)

theorem exchange_balanced (a b : Flags) (x y : ℝ) (h : ¬ Unbalanced a b) : exchange a b x y + exchange b a y x = 0 := by
  rw [C117_exchange]
  unfold Unbalanced at h
  revert h
  cases a .NO_FLUID_NEIGH <;> cases b .NO_FLUID_NEIGH <;> cases a .NO_EMPTY_NEIGH <;> cases b .NO_EMPTY_NEIGH <;> simp

/-- The mass a cell gains over one direction. -/
noncomputable def gain (mass_prev rho_prev : Pos → ℝ) (s : State) (k : Pos → Kind) (p : Pos) (n : Fin 9) : ℝ :=
  if n = 0 then 0 else
  match k p, k (p - v n) with
  | .fluid, .fluid => (s (p - v n)).fout n - (s p).fout (v_inv n)
  | .fluid, .iface => (s (p - v n)).fout n - (s p).fout (v_inv n)
  | .iface, .fluid => (s (p - v n)).fout n - (s p).fout (v_inv n)
  | .iface, .iface => exchange (s p).ty (s (p - v n)).ty ((s p).fout (v_inv n)) ((s (p - v n)).fout n) *
      (getEpsilon (s p).ty (rho_prev p) (mass_prev p) + getEpsilon (s (p - v n)).ty (rho_prev (p - v n)) (mass_prev (p - v n))) * 0.5
  | _, _ => 0

theorem stream_mass (nx ny : ℕ) (mass_prev rho_prev : Pos → ℝ) (s s' : State) (k : Pos → Kind) (hc : Closed nx ny s k) (h : loopM (streamCell nx ny mass_prev rho_prev) (cells nx ny) s = .ok s') (p : Pos) :
    (s' p).mass = (s p).mass + ∑ n, gain mass_prev rho_prev s k p n := by
  have hk := hc.kind p
  have hz : v 0 = 0 := rfl
  rcases (stream_loop nx ny mass_prev rho_prev s s' h p) with ⟨h1, h2⟩
  have hin : k p ≠ .wall → p ∈ cells nx ny := fun hw => by
    have := hc.inside p hw
    rw [mem_cells]
    omega
  by_cases hw : k p = .wall ∨ k p = .gas
  · have h0 : ∑ n, gain mass_prev rho_prev s k p n = 0 := sum_eq_zero fun n _ => by
      unfold gain
      rcases hw with h | h <;> rw [h] <;> split_ifs <;> rfl
    have : s' p = s p := by
      by_cases hm : p ∈ cells nx ny
      · rcases streamCell_ok _ _ _ _ _ _ _ (h1 hm) with ⟨_, h⟩ | ⟨h, _⟩
        · exact h
        · rw [has_two, hk.wall, hk.gas] at h
          rcases hw with hw | hw <;> rw [hw] at h <;> simp at h
      · exact h2 hm
    rw [this, h0, add_zero]
  · have hw1 : k p ≠ .wall := fun h => hw (Or.inl h)
    have hw2 : k p ≠ .gas := fun h => hw (Or.inr h)
    have hmem := hin hw1
    have hb := hc.inside p hw1
    rcases streamCell_ok _ _ _ _ _ _ _ (h1 hmem) with ⟨h, _⟩ | ⟨_, c, hcc, _, _, hm, _⟩
    · rw [has_two, hk.wall, hk.gas] at h
      simp [hw1, hw2] at h
    · rw [hm, hcc]
      have hfl : (s p).ty.has [.FLUID, .INLET, .OUTLET] = decide (k p = .fluid) := by
        simp [Flags.has, hk.fluid, hk.inlet, hk.outlet]
      rw [hfl, has_one, hk.iface]
      rcases hkp : k p with _ | _ | _ | _
      · simp only [decide_true, if_true]
        show (s p).mass + ∑ n, _ = _
        congr 1
        refine sum_congr rfl fun n _ => ?_
        have hn := neighbour_inside p n
        have hq := hc.kind (p - v n)
        have hout : ¬ ((0 < (p - v n).1 ∧ (p - v n).1 ≥ (nx : ℤ)) ∨ (0 < (p - v n).2 ∧ (p - v n).2 ≥ (ny : ℤ))) := by omega
        rw [if_neg hout]
        have hwet : (s (p - v n)).ty.has [.FLUID, .INTERFACE, .INLET, .OUTLET] = (decide (k (p - v n) = .fluid) || decide (k (p - v n) = .iface)) := by
          simp [Flags.has, hq.fluid, hq.iface, hq.inlet, hq.outlet]
        beta_reduce
        rw [hwet]
        unfold gain
        rw [hkp]
        by_cases h0 : n = 0
        · subst h0
          rw [hz, sub_zero, hkp]
          simp [show v_inv 0 = 0 from by decide]
        · rw [if_neg h0]
          rcases k (p - v n) with _ | _ | _ | _ <;> simp
      · simp only [reduceCtorEq, decide_false, Bool.false_eq_true, if_false, decide_true, if_true]
        show (s p).mass + ∑ n, _ = _
        congr 1
        refine sum_congr rfl fun n _ => ?_
        have hq := hc.kind (p - v n)
        simp only [has_one, hq.fluid, hq.iface]
        unfold gain
        rw [hkp]
        by_cases h0 : n = 0
        · rw [if_pos h0, if_pos h0]
        · rw [if_neg h0, if_neg h0]
          rcases k (p - v n) with _ | _ | _ | _ <;> simp
      · exact absurd hkp hw2
      · exact absurd hkp hw1

/-- The grid as a set. -/
def grid (nx ny : ℕ) : Finset Pos := (cells nx ny).toFinset

theorem mem_grid {nx ny : ℕ} {p : Pos} : p ∈ grid nx ny ↔ 0 ≤ p.1 ∧ p.1 < nx ∧ 0 ≤ p.2 ∧ p.2 < ny := by rw [grid, List.mem_toFinset, mem_cells]

/-- Reversing a link. -/
theorem sum_reverse (nx ny : ℕ) (X : Pos → Fin 9 → ℝ) (hX : ∀ p n, X p n ≠ 0 → p ∈ grid nx ny ∧ p - v n ∈ grid nx ny) :
    ∑ p ∈ grid nx ny, ∑ n, X p n = ∑ p ∈ grid nx ny, ∑ n, X (p - v n) (v_inv n) := by
  rw [← sum_product', ← sum_product']
  have hrev : ∀ (p : Pos) (n : Fin 9), p - v n - v (v_inv n) = p := fun p n => by rw [v_inv_v]; abel
  refine sum_bij_ne_zero (fun a _ _ => (a.1 - v a.2, v_inv a.2)) (fun a _ h => ?_) (fun a _ _ b _ _ h => ?_) (fun b _ h => ?_) (fun a _ _ => ?_)
  · exact mem_product.mpr ⟨(hX _ _ h).2, mem_univ _⟩
  · obtain ⟨h1, h2⟩ := Prod.ext_iff.mp h
    simp only at h1 h2
    have e : a.2 = b.2 := by rw [← v_inv_inv a.2, h2, v_inv_inv]
    refine Prod.ext ?_ e
    rw [e] at h1
    exact sub_left_injective h1
  · refine ⟨(b.1 - v b.2, v_inv b.2), mem_product.mpr ⟨(hX _ _ h).1, mem_univ _⟩, h, ?_⟩
    exact Prod.ext (hrev _ _) (v_inv_inv _)
  · simp only
    rw [hrev, v_inv_inv]

/-- Specification: the unbalanced part of the exchange over all links between interface cells; every link is counted from both ends. -/
noncomputable def leak (nx ny : ℕ) (mass_prev rho_prev : Pos → ℝ) (s : State) (k : Pos → Kind) : ℝ :=
  ∑ p ∈ grid nx ny, ∑ n, if n ≠ 0 ∧ k p = .iface ∧ k (p - v n) = .iface then
    (exchange (s p).ty (s (p - v n)).ty ((s p).fout (v_inv n)) ((s (p - v n)).fout n) + exchange (s (p - v n)).ty (s p).ty ((s (p - v n)).fout n) ((s p).fout (v_inv n))) *
      (getEpsilon (s p).ty (rho_prev p) (mass_prev p) + getEpsilon (s (p - v n)).ty (rho_prev (p - v n)) (mass_prev (p - v n))) * 0.5
  else 0

/-- **C117 (mass).** In a closed domain the total mass after streaming is the total mass before plus half the unbalanced exchange; fluid cells, walls and gas never change the total. So mass is conserved if no two neighbouring interface cells form
an unbalanced pair. -/
theorem C117_mass (nx ny : ℕ) (mass_prev rho_prev : Pos → ℝ) (s s' : State) (k : Pos → Kind) (hc : Closed nx ny s k) (h : loopM (streamCell nx ny mass_prev rho_prev) (cells nx ny) s = .ok s') :
    ∑ p ∈ grid nx ny, (s' p).mass = ∑ p ∈ grid nx ny, (s p).mass + leak nx ny mass_prev rho_prev s k / 2 ∧
    ((∀ p n, k p = .iface → k (p - v n) = .iface → ¬ Unbalanced (s p).ty (s (p - v n)).ty) → ∑ p ∈ grid nx ny, (s' p).mass = ∑ p ∈ grid nx ny, (s p).mass) := by
  have hsum : ∑ p ∈ grid nx ny, (s' p).mass = ∑ p ∈ grid nx ny, (s p).mass + ∑ p ∈ grid nx ny, ∑ n, gain mass_prev rho_prev s k p n := by
    rw [← sum_add_distrib]
    exact sum_congr rfl fun p _ => stream_mass nx ny mass_prev rho_prev s s' k hc h p
  have hin : ∀ p, k p ≠ .wall → p ∈ grid nx ny := fun p hw => by
    have := hc.inside p hw
    rw [mem_grid]
    omega
  have hrev : ∀ (p : Pos) (n : Fin 9), p - v n - v (v_inv n) = p := fun p n => by rw [v_inv_v]; abel
  have hgain : ∀ p n, gain mass_prev rho_prev s k p n ≠ 0 → p ∈ grid nx ny ∧ p - v n ∈ grid nx ny := fun p n hne => by
    unfold gain at hne
    split_ifs at hne with h0
    · exact absurd rfl hne
    · constructor <;> refine hin _ fun hw => hne ?_
      · rw [hw]
      · rw [hw]
        rcases k p with _ | _ | _ | _ <;> rfl
  have h2 : (∑ p ∈ grid nx ny, ∑ n, gain mass_prev rho_prev s k p n) + (∑ p ∈ grid nx ny, ∑ n, gain mass_prev rho_prev s k p n) = leak nx ny mass_prev rho_prev s k := by
    nth_rewrite 2 [sum_reverse nx ny _ hgain]
    unfold leak
    rw [← sum_add_distrib]
    refine sum_congr rfl fun p _ => ?_
    rw [← sum_add_distrib]
    refine sum_congr rfl fun n _ => ?_
    unfold gain
    rw [hrev, v_inv_inv]
    by_cases h0 : n = 0
    · subst h0
      simp [show v_inv 0 = 0 from by decide]
    · have h0' : v_inv n ≠ 0 := fun h => h0 ((v_inv_zero n).mp h)
      rw [if_neg h0, if_neg h0']
      rcases hkp : k p with _ | _ | _ | _ <;> rcases hkq : k (p - v n) with _ | _ | _ | _ <;> simp [h0]
      ring
  refine ⟨by rw [hsum, ← h2]; ring, fun hb => ?_⟩
  have : leak nx ny mass_prev rho_prev s k = 0 := by
    unfold leak
    refine sum_eq_zero fun p _ => sum_eq_zero fun n _ => ?_
    split_ifs with hcond
    · rw [exchange_balanced _ _ _ _ (hb p n hcond.2.1 hcond.2.2)]
      ring
    · rfl
  rw [hsum]
  linarith [h2, this]

/-- **C117 (fluid cells).** In a closed domain a fluid cell changes its mass by exactly the change of its populations, next to walls and gas too; so if mass and density agreed before (as they do after the collision), the density the code
overwrites with the mass was already equal to it. -/
theorem C117_fluid (nx ny : ℕ) (mass_prev rho_prev : Pos → ℝ) (s s' : State) (k : Pos → Kind) (hc : Closed nx ny s k) (h : loopM (streamCell nx ny mass_prev rho_prev) (cells nx ny) s = .ok s') (p : Pos) (hp : k p = .fluid) :
    (s' p).mass - (s p).mass = ∑ n, (s' p).fin n - ∑ n, (s p).fout n ∧ (s' p).rho = (s' p).mass ∧ ((s p).mass = ∑ n, (s p).fout n → (s' p).rho = ∑ n, (s' p).fin n) := by
  have hk := hc.kind p
  have hb := hc.inside p (by rw [hp]; simp)
  have hmem : p ∈ cells nx ny := by rw [mem_cells]; omega
  rcases streamCell_ok _ _ _ _ _ _ _ ((stream_loop nx ny mass_prev rho_prev s s' h p).1 hmem) with ⟨h, _⟩ | ⟨_, c, hcc, hfin, _, hm, _, _, _, hrho⟩
  · rw [has_two, hk.wall, hk.gas, hp] at h
    simp at h
  · have hfl : (s p).ty.has [.FLUID, .INLET, .OUTLET] = true := by simp [Flags.has, hk.fluid, hp]
    rw [if_pos hfl] at hcc
    have hfl1 : (s p).ty.has [.FLUID] = true := by simp [Flags.has, hk.fluid, hp]
    rw [if_pos hfl1] at hrho
    have hperm : ∑ n, (s p).fout (v_inv n) = ∑ n, (s p).fout n := Equiv.sum_comp (⟨v_inv, v_inv, v_inv_inv, v_inv_inv⟩ : Fin 9 ≃ Fin 9) fun n => (s p).fout n
    have hmass : (s' p).mass - (s p).mass = ∑ n, (s' p).fin n - ∑ n, (s p).fout n := by
      rw [hm, hfin, hcc, ← hperm, ← sum_sub_distrib]
      show (s p).mass + _ - (s p).mass = _
      rw [add_sub_cancel_left]
      refine sum_congr rfl fun n _ => ?_
      have hn := neighbour_inside p n
      have hout : ¬ ((0 < (p - v n).1 ∧ (p - v n).1 ≥ (nx : ℤ)) ∨ (0 < (p - v n).2 ∧ (p - v n).2 ≥ (ny : ℤ))) := by omega
      simp only [streamFluid]
      rw [if_neg hout, if_neg hout]
      split_ifs <;> ring
    exact ⟨hmass, by rw [hrho, hm], fun he => by rw [hrho, ← hm]; linarith⟩

/-- **C117 (interface cells).** An interface cell keeps the rest population it had before the collision. The previous density that `evolve` passes is the previous mass, so the fill level used for the exchange is 1 for every interface cell with
positive mass and 1/2 for all others, whatever their mass is. -/
theorem C117_interface (mass_prev rho_prev : Pos → ℝ) (s : State) (p : Pos) (k : Kind) (hk : IsKind (s p).ty k) (hi : k = .iface) (m : ℝ) :
    (streamInterface mass_prev rho_prev s p).fin 0 = (s p).fin 0 ∧ (0 < m → getEpsilon (s p).ty m m = 1) ∧ (m ≤ 0 → getEpsilon (s p).ty m m = 1 / 2) ∧
    ∀ rho, 0 < rho → 0 ≤ m → m ≤ rho → getEpsilon (s p).ty rho m = m / rho := by
  subst hi
  have h1 : ((s p).ty.has [.FLUID] || (s p).ty.has [.OBSTACLE]) = false := by simp [has_one, hk.fluid, hk.wall]
  have h2 : (s p).ty.has [.GAS] = false := by simp [has_one, hk.gas]
  refine ⟨by simp [streamInterface], fun h => ?_, fun h => ?_, fun rho hr h0 h3 => ?_⟩
  · unfold getEpsilon
    simp only [h1, h2, Bool.false_eq_true, if_false]
    rw [if_pos h, div_self h.ne']
    norm_num
  · unfold getEpsilon
    simp only [h1, h2, Bool.false_eq_true, if_false]
    rw [if_neg (not_lt.mpr h)]
    norm_num
  · unfold getEpsilon
    simp only [h1, h2, Bool.false_eq_true, if_false]
    rw [if_pos hr, if_neg (not_lt.mpr ((div_le_one hr).mpr h3)), if_neg (not_lt.mpr (by positivity))]

end Verif.Lbm.Dam
