import Verif.Lbm.PropsMoments

/-!
# Properties C41, C42, C43, C44, C47: streaming, mass balance, flags
-/
namespace Verif.Lbm
open Finset

set_option linter.unusedSectionVars false

/-! ## Specification vocabulary -/
section Spec
variable {Nx Ny Nz : ℕ}

/-- strictly inside the lattice box -/
def Interior (s : Site Nx Ny Nz) : Prop :=
  (0 < s.1.1 ∧ s.1.1 + 1 < Nx) ∧ (0 < s.2.1.1 ∧ s.2.1.1 + 1 < Ny) ∧ (0 < s.2.2.1 ∧ s.2.2.1 + 1 < Nz)

/-- liquid or interface -/
def IsFluid (ph : ℕ) : Prop := ph = LIQUID ∨ ph = LG

/-- one of the four cell states -/
def Legal (ph : ℕ) : Prop := ph = LIQUID ∨ ph = LG ∨ ph = GAS ∨ ph = WALL

/-- Two sites touch: they differ by a non-zero D3Q19 velocity. -/
def Touch (s t : Site Nx Ny Nz) : Prop :=
  s ≠ t ∧ ∃ q : Fin 19, (t.1.1 : ℤ) = s.1.1 + vels 0 q ∧ (t.2.1.1 : ℤ) = s.2.1.1 + vels 1 q ∧
    (t.2.2.1 : ℤ) = s.2.2.1 + vels 2 q

/-- All fluid lies strictly inside the box (the outer layer is gas or wall). -/
def Enclosed (phase : Site Nx Ny Nz → ℕ) : Prop := ∀ s, IsFluid (phase s) → Interior s

/-- No liquid cell touches a gas cell. -/
def Separated (phase : Site Nx Ny Nz → ℕ) : Prop :=
  ∀ s t, Touch s t → phase s = LIQUID → phase t ≠ GAS

/-- Mass of the fluid: densities of the liquid cells plus masses of the interface cells. -/
def fluidMass {K : Type*} [Field K] (f : Site Nx Ny Nz → Fin 19 → K) (phase : Site Nx Ny Nz → ℕ)
    (mass : Site Nx Ny Nz → K) : K :=
  (∑ s with phase s = LIQUID, ∑ q, f s q) + ∑ s with phase s = LG, mass s

end Spec

/-! ## Helper lemmas -/
section Aux

theorem jaxIdx_val {n : ℕ} [NeZero n] {i : ℤ} (h0 : 0 ≤ i) (h1 : i < n) :
    ((jaxIdx n i).1 : ℤ) = i := by
  simp only [jaxIdx, not_lt.mpr h0, if_false]
  have : min i.toNat (n - 1) = i.toNat := by omega
  rw [this]; omega

variable {Nx Ny Nz : ℕ} [NeZero Nx] [NeZero Ny] [NeZero Nz]

theorem vels_bound (a : Fin 3) (q : Fin 19) : -1 ≤ vels a q ∧ vels a q ≤ 1 := by
  revert a q; decide

theorem vels_rev (a : Fin 3) (q : Fin 19) : vels a (rev q) = - vels a q := (C38_rev q).2.1 a

theorem rev_rev (q : Fin 19) : rev (rev q) = q := (C38_rev q).1

theorem nb_zero (s : Site Nx Ny Nz) : nb 0 s = s := by
  have h0 : ∀ a, vels a 0 = 0 := by decide
  have e : ∀ {n : ℕ} [NeZero n] (i : Fin n), jaxIdx n (0 + (i.1 : ℤ)) = i := by
    intro n _ i
    apply Fin.ext
    have := jaxIdx_val (n := n) (i := 0 + (i.1 : ℤ)) (by omega) (by have := i.2; omega)
    omega
  simp only [nb, h0, e]

theorem nb_val {s : Site Nx Ny Nz} (hs : Interior s) (q : Fin 19) :
    ((nb q s).1.1 : ℤ) = s.1.1 + vels 0 q ∧ ((nb q s).2.1.1 : ℤ) = s.2.1.1 + vels 1 q ∧
    ((nb q s).2.2.1 : ℤ) = s.2.2.1 + vels 2 q := by
  obtain ⟨⟨a1, a2⟩, ⟨b1, b2⟩, ⟨c1, c2⟩⟩ := hs
  have h0 := vels_bound 0 q; have h1 := vels_bound 1 q; have h2 := vels_bound 2 q
  refine ⟨?_, ?_, ?_⟩
  · have := jaxIdx_val (n := Nx) (i := vels 0 q + (s.1.1 : ℤ)) (by omega) (by omega)
    simp only [nb]; omega
  · have := jaxIdx_val (n := Ny) (i := vels 1 q + (s.2.1.1 : ℤ)) (by omega) (by omega)
    simp only [nb]; omega
  · have := jaxIdx_val (n := Nz) (i := vels 2 q + (s.2.2.1 : ℤ)) (by omega) (by omega)
    simp only [nb]; omega

theorem nb_of_touch {s t : Site Nx Ny Nz} (q : Fin 19) (h : (t.1.1 : ℤ) = s.1.1 + vels 0 q ∧
    (t.2.1.1 : ℤ) = s.2.1.1 + vels 1 q ∧ (t.2.2.1 : ℤ) = s.2.2.1 + vels 2 q) : nb q s = t := by
  obtain ⟨h0, h1, h2⟩ := h
  have e : ∀ {n : ℕ} [NeZero n] (i : Fin n) (j : ℤ), (i.1 : ℤ) = j → jaxIdx n j = i := by
    intro n _ i j hj
    apply Fin.ext
    have := jaxIdx_val (n := n) (i := j) (by omega) (by have := i.2; omega)
    omega
  simp only [nb]
  rw [e t.1 _ (by rw [h0]; ring), e t.2.1 _ (by rw [h1]; ring), e t.2.2 _ (by rw [h2]; ring)]

theorem nb_rev {s : Site Nx Ny Nz} (hs : Interior s) (q : Fin 19) : nb (rev q) (nb q s) = s := by
  apply nb_of_touch
  obtain ⟨h0, h1, h2⟩ := nb_val hs q
  simp only [vels_rev]
  omega

theorem touch_nb {s : Site Nx Ny Nz} (hs : Interior s) {q : Fin 19} (hq : q ≠ 0) :
    Touch s (nb q s) := by
  have hv := nb_val hs q
  refine ⟨?_, q, hv⟩
  intro e
  rw [← e] at hv
  apply hq
  refine C38_velocity_set.1 q 0 fun a => ?_
  have h0 : ∀ a, vels a 0 = 0 := by decide
  rw [h0]
  obtain ⟨h0, h1, h2⟩ := hv
  fin_cases a <;> simp only [Fin.zero_eta, Fin.mk_one, Fin.reduceFinMk] <;> omega

/-- `rev` as a permutation. -/
def revEquiv : Equiv.Perm (Fin 19) := ⟨rev, rev, rev_rev, rev_rev⟩

theorem sum_rev {K : Type*} [AddCommMonoid K] (g : Fin 19 → K) : ∑ q, g (rev q) = ∑ q, g q :=
  Equiv.sum_comp revEquiv g

end Aux

section Props
variable {K : Type*} [Field K] [LinearOrder K] [IsStrictOrderedRing K]
variable {Nx Ny Nz : ℕ} [NeZero Nx] [NeZero Ny] [NeZero Nz]

/-- `compute_total_mass` summed over the lattice is the fluid mass. -/
theorem totalMass_eq (f : Site Nx Ny Nz → Fin 19 → K) (phase : Site Nx Ny Nz → ℕ)
    (mass : Site Nx Ny Nz → K) : totalMass f phase mass = fluidMass f phase mass := by
  unfold totalMass fluidMass
  rw [Finset.sum_filter, Finset.sum_filter, ← Finset.sum_add_distrib]
  refine Finset.sum_congr rfl fun s _ => ?_
  unfold cellMass sumQ
  by_cases h : phase s = LIQUID
  · simp only [h, if_true]
    simp
    intro h2; exact absurd h2 (by decide)
  · simp [h]

/-- Pairwise exchange between site `s` and its neighbour in direction `q`. -/
def exchange (f : Site Nx Ny Nz → Fin 19 → K) (phase : Site Nx Ny Nz → ℕ)
    (vof : Site Nx Ny Nz → K) (s : Site Nx Ny Nz) (q : Fin 19) : K :=
  if (phase s = LIQUID ∨ phase s = LG) ∧ (phase (nb q s) = LIQUID ∨ phase (nb q s) = LG) then
    (f (nb q s) (rev q) - f s q) *
      (if phase s = LG ∧ phase (nb q s) = LG then (vof (nb q s) + vof s) / 2 else 1)
  else 0

/-- Antisymmetric exchanges over an enclosed fluid sum to zero. -/
theorem sum_exchange (f : Site Nx Ny Nz → Fin 19 → K) (phase : Site Nx Ny Nz → ℕ)
    (vof : Site Nx Ny Nz → K) (henc : Enclosed phase) :
    ∑ s, ∑ q, exchange f phase vof s q = 0 := by
  rw [← Finset.sum_product']
  let S : Finset (Site Nx Ny Nz × Fin 19) :=
    (univ ×ˢ univ).filter fun p => (phase p.1 = LIQUID ∨ phase p.1 = LG) ∧
      (phase (nb p.2 p.1) = LIQUID ∨ phase (nb p.2 p.1) = LG)
  have hS : ∑ p ∈ (univ ×ˢ univ : Finset (Site Nx Ny Nz × Fin 19)), exchange f phase vof p.1 p.2
      = ∑ p ∈ S, exchange f phase vof p.1 p.2 := by
    rw [Finset.sum_filter]
    refine Finset.sum_congr rfl fun p _ => ?_
    unfold exchange
    split_ifs <;> simp_all
  rw [hS]
  refine Finset.sum_involution (fun p _ => (nb p.2 p.1, rev p.2)) ?_ ?_ ?_ ?_
  · rintro ⟨s, q⟩ hp
    obtain ⟨h1, h2⟩ := (Finset.mem_filter.mp hp).2
    have hi := nb_rev (henc s h1) q
    simp only at h1 h2
    simp only [exchange, hi, rev_rev, h1, h2, and_self, if_true, and_comm (a := phase (nb q s) = LG)]
    split_ifs <;> ring
  · rintro ⟨s, q⟩ hp hne heq
    simp only [Prod.mk.injEq] at heq
    have hq : q = 0 := (C38_rev q).2.2.1.mp heq.2
    subst hq
    apply hne
    have : rev 0 = 0 := by decide
    simp [exchange, nb_zero, this]
  · rintro ⟨s, q⟩ hp
    obtain ⟨h1, h2⟩ := (Finset.mem_filter.mp hp).2
    have hi := nb_rev (henc s h1) q
    simp only [S, Finset.mem_filter, Finset.mem_product, Finset.mem_univ, true_and, hi]
    exact ⟨h2, h1⟩
  · rintro ⟨s, q⟩ hp
    obtain ⟨h1, h2⟩ := (Finset.mem_filter.mp hp).2
    simp only [nb_rev (henc s h1) q, rev_rev]

/-- The mass balance of one cell over `update_f` is the sum of its pairwise exchanges. -/
theorem cell_balance (f : Site Nx Ny Nz → Fin 19 → K) (rho : Site Nx Ny Nz → K)
    (u : Site Nx Ny Nz → Fin 3 → K) (phase : Site Nx Ny Nz → ℕ) (mass vof : Site Nx Ny Nz → K)
    (hleg : ∀ s, Legal (phase s)) (henc : Enclosed phase) (hsep : Separated phase)
    (s : Site Nx Ny Nz) :
    cellMass (update_f f rho u phase mass vof s).1 (phase s) (update_f f rho u phase mass vof s).2
      = cellMass (f s) (phase s) (mass s) + ∑ q, exchange f phase vof s q := by
  have hl : ∀ t, phase t = LIQUID ∨ phase t = LG ∨ phase t = GAS ∨ phase t = WALL := hleg
  have n1 : LG ≠ LIQUID := by decide
  have n2 : GAS ≠ LIQUID := by decide
  have n3 : WALL ≠ LIQUID := by decide
  have n4 : GAS ≠ LG := by decide
  have n5 : WALL ≠ LG := by decide
  have n6 : WALL ≠ GAS := by decide
  rcases hl s with h | h | h | h
  · -- liquid
    have hint : Interior s := henc s (Or.inl h)
    have hng : ∀ q, phase (nb q s) ≠ GAS := by
      intro q hq
      by_cases h0 : q = 0
      · subst h0; rw [nb_zero, h] at hq; exact n2 hq.symm
      · exact hsep s _ (touch_nb hint h0) h hq
    have e1 : (update_f f rho u phase mass vof s).1 = fun q =>
        if phase (nb (rev q) s) = WALL then f s (rev q) else f (nb (rev q) s) (rev (rev q)) := by
      funext q
      simp only [update_f, extractLocal, extractIncome, nb_zero, h, n2.symm, n3.symm, or_self,
        if_false, if_true, hng]
      rfl
    simp only [cellMass, h, if_true, e1, sumQ]
    rw [sum_rev (fun q => if phase (nb q s) = WALL then f s q else f (nb q s) (rev q)),
      ← Finset.sum_add_distrib]
    refine Finset.sum_congr rfl fun q _ => ?_
    have hq := hng q
    rcases hl (nb q s) with g | g | g | g
    · simp [exchange, h, g, n1.symm, n3.symm]
    · simp [exchange, h, g, n1.symm, n5.symm]
    · exact absurd g hq
    · simp [exchange, h, g, n3, n5]
  · -- interface
    simp only [cellMass, h, n1, if_false, if_true, update_f, extractLocal, extractIncome, nb_zero,
      n4.symm, n5.symm, or_self]
    rw [add_comm]
    congr 1
    refine Finset.sum_congr rfl fun q _ => ?_
    rcases hl (nb q s) with g | g | g | g
    · simp [exchange, h, g, n1.symm]
    · simp only [exchange, h, g, n1, if_false, if_true, or_true, and_self]; ring
    · simp [exchange, h, g, n2, n4]
    · simp [exchange, h, g, n3, n5]
  · simp [cellMass, h, n2, n4, exchange]
  · simp [cellMass, h, n3, n5, exchange]

/-- **C41.** Free-surface streaming conserves the fluid mass for every lattice size and configuration with legal cell
states, enclosed fluid and no liquid–gas contact, whatever the populations, velocities and fill levels are. -/
theorem C41_update_f_conserves_mass (f : Site Nx Ny Nz → Fin 19 → K) (rho : Site Nx Ny Nz → K)
    (u : Site Nx Ny Nz → Fin 3 → K) (phase : Site Nx Ny Nz → ℕ) (mass vof : Site Nx Ny Nz → K)
    (hleg : ∀ s, Legal (phase s)) (henc : Enclosed phase) (hsep : Separated phase) :
    fluidMass (fun s => (update_f f rho u phase mass vof s).1) phase
        (fun s => (update_f f rho u phase mass vof s).2)
      = fluidMass f phase mass := by
  rw [← totalMass_eq, ← totalMass_eq]
  unfold totalMass
  simp only [cell_balance f rho u phase mass vof hleg henc hsep, Finset.sum_add_distrib,
    sum_exchange f phase vof henc, add_zero]

/-- Instance of the hypotheses of C41: 5×3×3 box of walls with a liquid cell, an interface cell and a gas cell in a row. -/
example : let phase : Site 5 3 3 → ℕ := fun s =>
      if s = (1, 1, 1) then LIQUID else if s = (2, 1, 1) then LG else if s = (3, 1, 1) then GAS else WALL
    (∀ s, Legal (phase s)) ∧ Enclosed phase ∧ Separated phase := by
  intro phase
  have A : ∀ s, phase s = LIQUID → s = (1, 1, 1) := by decide
  have B : ∀ s, phase s = GAS → s = (3, 1, 1) := by decide
  refine ⟨?_, ?_, ?_⟩
  · unfold Legal; decide
  · unfold Enclosed IsFluid Interior; decide
  · rintro s t ⟨_, q, h0, -, -⟩ hs ht
    have hs' := A s hs
    have ht' := B t ht
    subst hs' ht'
    have := vels_bound 0 q
    have h3 : ((3 : Fin 5).1 : ℤ) = 3 := rfl
    have h1 : ((1 : Fin 5).1 : ℤ) = 1 := rfl
    simp only [h3, h1] at h0
    omega

/-- **C41b (collision + streaming).** Starting from any state, the collide/stream part of a time step conserves the fluid mass
(under the hypotheses of C41), for arbitrary forces and temperatures. -/
theorem C41_collide_stream_conserves_mass (P : Params K) (f : Site Nx Ny Nz → Fin 19 → K)
    (T : Site Nx Ny Nz → K) (u F : Site Nx Ny Nz → Fin 3 → K) (phase : Site Nx Ny Nz → ℕ)
    (mass : Site Nx Ny Nz → K)
    (hleg : ∀ s, Legal (phase s)) (henc : Enclosed phase) (hsep : Separated phase) :
    let rho := fun s => ∑ q, f s q
    let vof := fun s => compute_vof (rho s) (phase s) (mass s)
    let f1 := fun s => collide_f P (phase s) (f s) (rho s) (T s) (u s) (F s)
    let r := update_f f1 rho u phase mass vof
    fluidMass (fun s => (r s).1) phase (fun s => (r s).2) = fluidMass f phase mass := by
  intro rho vof f1 r
  rw [C41_update_f_conserves_mass f1 rho u phase mass vof hleg henc hsep]
  unfold fluidMass
  congr 1
  refine Finset.sum_congr rfl fun s hs => ?_
  have h : phase s = LIQUID := (Finset.mem_filter.mp hs).2
  have := C40_collide_f_mass P (phase s) (f s) (T s) (u s) (F s)
  rw [if_neg (by rw [h]; decide)] at this
  exact this

/-- **C41c.** The flag conversions gas→interface and liquid→interface do not change the fluid mass. -/
theorem C41_conversions_conserve_mass (P : Params K) (f h : Site Nx Ny Nz → Fin 19 → K)
    (rho : Site Nx Ny Nz → K) (u : Site Nx Ny Nz → Fin 3 → K) (e T : Site Nx Ny Nz → K)
    (phase : Site Nx Ny Nz → ℕ) (mass : Site Nx Ny Nz → K) :
    (let r := reini_gas_to_lg P f h rho u e T phase mass
     fluidMass (fun s => (r s).1) (fun s => (r s).2.2.1) (fun s => (r s).2.2.2)
      = fluidMass f phase mass) ∧
    (let r := reini_liquid_to_lg f phase mass
     fluidMass f (fun s => (r s).1) (fun s => (r s).2) = fluidMass f phase mass) := by
  have n1 : LG ≠ LIQUID := by decide
  have n2 : GAS ≠ LIQUID := by decide
  have n4 : GAS ≠ LG := by decide
  constructor
  · intro r
    rw [← totalMass_eq, ← totalMass_eq]
    refine Finset.sum_congr rfl fun s _ => ?_
    simp only [r, reini_gas_to_lg, extractLocal, nb_zero]
    split_ifs with hc
    · simp [cellMass, n1, n2, n4, hc.1]
    · rfl
  · intro r
    rw [← totalMass_eq, ← totalMass_eq]
    refine Finset.sum_congr rfl fun s _ => ?_
    simp only [r, reini_liquid_to_lg, extractLocal, nb_zero]
    split_ifs with hc
    · simp [cellMass, n1, hc.1]
    · rfl

/-! ## C42: total mass after every step -/

/-- **C42a.** After any time step (any state, any forces, any heat sources, frozen or molten, `fluid_only` or not) that ends with at
least one interface cell, the fluid mass is exactly the reference `total_mass`. -/
theorem C42_step_mass (P : Params K) (fo : Bool) (total : K) (src : Source K Nx Ny Nz)
    (S : State K Nx Ny Nz) (h : ∃ s, (step P fo total src S).phase s = LG) :
    fluidMass (step P fo total src S).f (step P fo total src S).phase
      (step P fo total src S).mass = total := by
  have n1 : LG ≠ LIQUID := by decide
  have n4 : ¬ (LG = GAS ∨ LG = WALL) := by decide
  have n5 : ¬ (LIQUID = GAS ∨ LIQUID = WALL) := by decide
  rw [← totalMass_eq]
  unfold step at h ⊢
  simp only at h ⊢
  generalize (adhoc (liquidToLg (lgToGas (gasToLg P (macroscopic P fo src S) (lgToLiquid
    (collideStream P fo src S)))))) = S7 at h ⊢
  have hph : ∀ S : State K Nx Ny Nz, (refreshAll S).phase = S.phase := by
    intro S; funext s; simp only [refreshAll, refresh]; split_ifs <;> rfl
  have hcell : ∀ S : State K Nx Ny Nz, totalMass (refreshAll S).f (refreshAll S).phase
      (refreshAll S).mass = totalMass S.f S.phase S.mass := by
    intro S
    refine Finset.sum_congr rfl fun s _ => ?_
    rw [hph]
    by_cases hl : S.phase s = LIQUID
    · simp [cellMass, refreshAll, refresh, hl, n5]
    · by_cases hg : S.phase s = LG
      · simp [cellMass, refreshAll, refresh, hg, n1, n4]
      · simp [cellMass, hl, hg]
  simp only [updateMelted] at h ⊢
  rw [hcell]
  rw [hph] at h
  have hphc : (correctMass total S7).phase = S7.phase := rfl
  rw [hphc] at h
  obtain ⟨s0, hs0⟩ := h
  let n : K := ∑ s, if S7.phase s = LG then 1 else 0
  have hn : 0 < n := by
    refine Finset.sum_pos' (fun s _ => by split_ifs <;> norm_num) ⟨s0, Finset.mem_univ _, ?_⟩
    simp [hs0]
  let d : K := (total - totalMass S7.f S7.phase S7.mass) / n
  have e : ∀ s, cellMass ((correctMass total S7).f s) ((correctMass total S7).phase s)
      ((correctMass total S7).mass s)
      = cellMass (S7.f s) (S7.phase s) (S7.mass s) + (if S7.phase s = LG then 1 else 0) * d := by
    intro s
    by_cases hg : S7.phase s = LG
    · simp only [cellMass, correctMass, hg, n1, if_false, if_true, one_mul, d, n]
    · simp only [cellMass, correctMass, hg, if_false, zero_mul, add_zero]
  unfold totalMass
  simp only [e, Finset.sum_add_distrib, ← Finset.sum_mul]
  show totalMass S7.f S7.phase S7.mass + n * d = total
  simp only [d]
  field_simp
  ring

/-- **C42b.** Whole-history form: after any number of steps with any driving history, if the final state has an interface cell
(or no step was made) the fluid mass equals the initial fluid mass. -/
theorem C42_total_mass_constant (P : Params K) (fo : Bool) (ph0 : Site Nx Ny Nz → ℕ)
    (srcs : List (Source K Nx Ny Nz))
    (h : srcs = [] ∨ ∃ s, (simulate P fo ph0 srcs).phase s = LG) :
    fluidMass (simulate P fo ph0 srcs).f (simulate P fo ph0 srcs).phase
        (simulate P fo ph0 srcs).mass
      = fluidMass (initState P ph0).1.f (initState P ph0).1.phase (initState P ph0).1.mass := by
  have h0 : (initState P ph0).2 = fluidMass (initState P ph0).1.f (initState P ph0).1.phase
      (initState P ph0).1.mass := totalMass_eq _ _ _
  rcases List.eq_nil_or_concat srcs with rfl | ⟨l, src, rfl⟩
  · rfl
  · have hs : simulate P fo ph0 (l ++ [src]) = step P fo (initState P ph0).2 src
        (simulate P fo ph0 l) := by
      simp [simulate, run, List.foldl_append]
    simp only [List.concat_eq_append] at h ⊢
    rw [hs] at h ⊢
    rw [← h0]
    refine C42_step_mass P fo _ src _ ?_
    simpa using h

/-! ## C43: invariants of every run -/

theorem refreshAll_phase (S : State K Nx Ny Nz) : (refreshAll S).phase = S.phase := by
  funext s; simp only [refreshAll, refresh]; split_ifs <;> rfl

theorem refreshAll_zero (S : State K Nx Ny Nz) (s : Site Nx Ny Nz)
    (hs : S.phase s = GAS ∨ S.phase s = WALL) :
    (∀ q, (refreshAll S).f s q = 0 ∧ (refreshAll S).h s q = 0) ∧ (refreshAll S).mass s = 0 := by
  simp only [refreshAll, refresh, hs, if_true, implies_true, and_self]

/-- The flag pipeline maps legal states to legal states and neither creates nor destroys walls. -/
theorem step_phase (P : Params K) (fo : Bool) (total : K) (src : Source K Nx Ny Nz)
    (S : State K Nx Ny Nz) (s : Site Nx Ny Nz) :
    ((step P fo total src S).phase s = WALL ↔ S.phase s = WALL) ∧
    (Legal (S.phase s) → Legal ((step P fo total src S).phase s)) := by
  have a1 : LIQUID ≠ WALL := by decide
  have a2 : LG ≠ WALL := by decide
  have a3 : GAS ≠ WALL := by decide
  have l1 : Legal LIQUID := by unfold Legal; decide
  have l2 : Legal LG := by unfold Legal; decide
  have l3 : Legal GAS := by unfold Legal; decide
  have key : ∀ (p p' : ℕ), (p' = p ∨ (p ≠ WALL ∧ (p' = LIQUID ∨ p' = LG ∨ p' = GAS))) →
      (p' = WALL ↔ p = WALL) ∧ (Legal p → Legal p') := by
    rintro p p' (rfl | ⟨h, rfl | rfl | rfl⟩)
    · exact ⟨Iff.rfl, id⟩
    · exact ⟨⟨fun e => absurd e a1, fun e => absurd e h⟩, fun _ => l1⟩
    · exact ⟨⟨fun e => absurd e a2, fun e => absurd e h⟩, fun _ => l2⟩
    · exact ⟨⟨fun e => absurd e a3, fun e => absurd e h⟩, fun _ => l3⟩
  have trans : ∀ (p p' p'' : ℕ), ((p' = WALL ↔ p = WALL) ∧ (Legal p → Legal p')) →
      ((p'' = WALL ↔ p' = WALL) ∧ (Legal p' → Legal p'')) →
      ((p'' = WALL ↔ p = WALL) ∧ (Legal p → Legal p'')) :=
    fun _ _ _ h1 h2 => ⟨h2.1.trans h1.1, h2.2 ∘ h1.2⟩
  unfold step
  simp only [updateMelted, refreshAll_phase]
  show (((adhoc _).phase s = WALL ↔ _) ∧ _)
  set S2 := collideStream P fo src S
  have e2 : S2.phase s = S.phase s := rfl
  rw [← e2]
  refine trans _ ((lgToLiquid S2).phase s) _ (key _ _ ?_) ?_
  · simp only [lgToLiquid, reini_lg_to_liquid]
    split_ifs with hc
    · exact Or.inr ⟨by rw [hc.1]; exact a2, Or.inl rfl⟩
    · exact Or.inl rfl
  generalize lgToLiquid S2 = S3
  generalize macroscopic P fo src S = M
  refine trans _ ((gasToLg P M S3).phase s) _ (key _ _ ?_) ?_
  · simp only [gasToLg, reini_gas_to_lg, extractLocal, nb_zero]
    split_ifs with hc
    · exact Or.inr ⟨by rw [hc.1]; exact a3, Or.inr (Or.inl rfl)⟩
    · exact Or.inl rfl
  generalize gasToLg P M S3 = S4
  refine trans _ ((lgToGas S4).phase s) _ (key _ _ ?_) ?_
  · simp only [lgToGas, reini_lg_to_gas]
    split_ifs with hc
    · exact Or.inr ⟨by rw [hc.1]; exact a2, Or.inr (Or.inr rfl)⟩
    · exact Or.inl rfl
  generalize lgToGas S4 = S5
  refine trans _ ((liquidToLg S5).phase s) _ (key _ _ ?_) ?_
  · simp only [liquidToLg, reini_liquid_to_lg, extractLocal, nb_zero]
    split_ifs with hc
    · exact Or.inr ⟨by rw [hc.1]; exact a1, Or.inr (Or.inl rfl)⟩
    · exact Or.inl rfl
  generalize liquidToLg S5 = S6
  refine key _ _ ?_
  simp only [adhoc, adhoc_step, extractLocal, nb_zero]
  split_ifs with hc hc2
  · exact Or.inr ⟨by rw [hc.1]; exact a2, Or.inr (Or.inr rfl)⟩
  · exact Or.inr ⟨by rw [hc2.1]; exact a2, Or.inl rfl⟩
  · exact Or.inl rfl

/-- **C43.** For every driving history: the wall cells are exactly the initial ones; all cell states stay legal; after at least one step
gas and wall cells carry zero populations and zero mass; `melted` is 0 or 1. -/
theorem C43_invariants (P : Params K) (fo : Bool) (ph0 : Site Nx Ny Nz → ℕ)
    (srcs : List (Source K Nx Ny Nz)) :
    let S := simulate P fo ph0 srcs
    (∀ s, S.phase s = WALL ↔ ph0 s = WALL) ∧
    ((∀ s, Legal (ph0 s)) → ∀ s, Legal (S.phase s)) ∧
    (srcs ≠ [] → ∀ s, S.phase s = GAS ∨ S.phase s = WALL →
      (∀ q, S.f s q = 0 ∧ S.h s q = 0) ∧ S.mass s = 0) ∧
    (∀ s, S.melted s = 0 ∨ S.melted s = 1) := by
  intro S
  have hstep : ∀ l src, simulate P fo ph0 (l ++ [src]) = step P fo (initState P ph0).2 src
        (simulate P fo ph0 l) := by
    intro l src; simp [simulate, run, List.foldl_append]
  induction srcs using List.reverseRecOn with
  | nil =>
    refine ⟨?_, ?_, fun h => absurd rfl h, fun s => Or.inl rfl⟩
    · intro s
      simp only [S, simulate, run, List.foldl_nil, initState, reini_gas_to_lg, extractLocal, nb_zero]
      split_ifs with hc
      · rw [hc.1]; show (LG = WALL ↔ GAS = WALL); decide
      · rfl
    · intro hl s
      simp only [S, simulate, run, List.foldl_nil, initState, reini_gas_to_lg, extractLocal, nb_zero]
      split_ifs with hc
      · show Legal LG; unfold Legal; decide
      · exact hl s
  | append_singleton l src ih =>
    obtain ⟨i1, i2, i3, i4⟩ := ih
    simp only [S, hstep]
    refine ⟨?_, ?_, ?_, ?_⟩
    · intro s; exact (step_phase P fo _ src _ s).1.trans (i1 s)
    · intro hl s; exact (step_phase P fo _ src _ s).2 (i2 hl s)
    · intro _ s hs
      unfold step at hs ⊢
      simp only [updateMelted, refreshAll_phase] at hs ⊢
      exact refreshAll_zero _ s hs
    · intro s
      unfold step
      simp only [updateMelted]
      split_ifs
      · exact Or.inr rfl
      · exact i4 s

/-- C43, melting record: once a cell is marked molten it stays marked; and it is marked whenever the step saw it above the solidus. -/
theorem C43_melted_monotone (P : Params K) (fo : Bool) (ph0 : Site Nx Ny Nz → ℕ)
    (l₁ l₂ : List (Source K Nx Ny Nz)) (s : Site Nx Ny Nz)
    (h : (simulate P fo ph0 l₁).melted s = 1) : (simulate P fo ph0 (l₁ ++ l₂)).melted s = 1 := by
  induction l₂ using List.reverseRecOn with
  | nil => simpa using h
  | append_singleton l src ih =>
    have : simulate P fo ph0 (l₁ ++ (l ++ [src])) = step P fo (initState P ph0).2 src
        (simulate P fo ph0 (l₁ ++ l)) := by
      simp [simulate, run, List.foldl_append]
    rw [this]
    unfold step
    simp only [updateMelted]
    split_ifs
    · rfl
    · exact ih

/-- If the outer layer of the initial phase field is wall and all states are legal, the fluid stays enclosed for ever. -/
theorem C43_stays_enclosed (P : Params K) (fo : Bool) (ph0 : Site Nx Ny Nz → ℕ)
    (hw : ∀ s, ¬ Interior s → ph0 s = WALL)
    (srcs : List (Source K Nx Ny Nz)) : Enclosed (simulate P fo ph0 srcs).phase := by
  intro s hs
  by_contra hi
  have := ((C43_invariants P fo ph0 srcs).1 s).mpr (hw s hi)
  rw [this] at hs
  exact absurd hs (by unfold IsFluid; decide)

/-! ## C44: interface separation -/

/-- **C44a.** After the liquid→interface conversion no liquid cell touches a gas cell (any lattice, any configuration). -/
theorem C44_separated_after_liquid_to_lg (f : Site Nx Ny Nz → Fin 19 → K)
    (phase : Site Nx Ny Nz → ℕ) (mass : Site Nx Ny Nz → K) :
    Separated fun s => (reini_liquid_to_lg f phase mass s).1 := by
  rintro s t ⟨hne, q, hq⟩ hs ht
  have hnb := nb_of_touch q hq
  have hq0 : q ≠ 0 := by rintro rfl; rw [nb_zero] at hnb; exact hne hnb
  have n1 : LG ≠ LIQUID := by decide
  have n4 : LG ≠ GAS := by decide
  simp only [reini_liquid_to_lg, extractLocal, nb_zero] at hs ht
  have hs' : phase s = LIQUID ∧ ¬ ∃ q : Fin 19, q ≠ 0 ∧ phase (nb q s) = GAS := by
    split_ifs at hs with hc
    · exact absurd hs n1
    · exact ⟨hs, fun he => hc ⟨hs, he⟩⟩
  have ht' : phase t = GAS := by
    split_ifs at ht with hc
    · exact absurd ht n4
    · exact ht
  exact hs'.2 ⟨q, hq0, hnb ▸ ht'⟩

/-- **C44b.** After the gas→interface conversion no gas cell touches a liquid cell. -/
theorem C44_separated_after_gas_to_lg (P : Params K) (f h : Site Nx Ny Nz → Fin 19 → K)
    (rho : Site Nx Ny Nz → K) (u : Site Nx Ny Nz → Fin 3 → K) (e T : Site Nx Ny Nz → K)
    (phase : Site Nx Ny Nz → ℕ) (mass : Site Nx Ny Nz → K) :
    ∀ s t, Touch s t → (reini_gas_to_lg P f h rho u e T phase mass s).2.2.1 = GAS →
      (reini_gas_to_lg P f h rho u e T phase mass t).2.2.1 ≠ LIQUID := by
  rintro s t ⟨hne, q, hq⟩ hs ht
  have hnb := nb_of_touch q hq
  have hq0 : q ≠ 0 := by rintro rfl; rw [nb_zero] at hnb; exact hne hnb
  have n1 : LG ≠ LIQUID := by decide
  have n4 : LG ≠ GAS := by decide
  simp only [reini_gas_to_lg, extractLocal, nb_zero] at hs ht
  have hs' : phase s = GAS ∧ ¬ ∃ q : Fin 19, q ≠ 0 ∧ phase (nb q s) = LIQUID := by
    split_ifs at hs with hc
    · exact absurd hs n4
    · exact ⟨hs, fun he => hc ⟨hs, he⟩⟩
  have ht' : phase t = LIQUID := by
    split_ifs at ht with hc
    · exact absurd ht n1
    · exact ht
  exact hs'.2 ⟨q, hq0, hnb ▸ ht'⟩

end Props
end Verif.Lbm
