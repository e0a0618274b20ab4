import Verif.Lbm.PropsMass

/-!
# C42/C44 negative results and C47 (enthalpy streaming)
-/
namespace Verif.Lbm
open Finset

set_option linter.unusedSectionVars false
set_option linter.unusedSimpArgs false

section Rest
variable {K : Type*} [Field K] [LinearOrder K] [IsStrictOrderedRing K]
variable {Nx Ny Nz : ℕ} [NeZero Nx] [NeZero Ny] [NeZero Nz]

/-- Equilibrium at rest is `weights * rho`. -/
theorem equilibrium_f_rest (q : Fin 19) (rho : K) :
    equilibrium_f q rho (fun _ => 0) = weights q * rho := by
  simp [equilibrium_f, velDot]

theorem weights_rev (q : Fin 19) : (weights (rev q) : K) = weights q := by
  rw [weights_eq, weights_eq]
  have : ∀ q, w36 (rev q) = w36 q := by decide
  rw [this]

/-- A frozen lattice without gas whose fluid populations are `weights` stays so through collide + stream, and interface masses do not change. -/
theorem frozen_rest (P : Params K) (src : Source K Nx Ny Nz) (S : State K Nx Ny Nz)
    (hng : ∀ s, S.phase s ≠ GAS)
    (hf : ∀ s, S.phase s ≠ WALL → S.f s = weights)
    (hT : ∀ s, compute_T P (sumQ (S.h s)) < P.T_solidus) (s : Site Nx Ny Nz)
    (hs : S.phase s ≠ WALL) :
    (collideStream P false src S).f s = weights ∧
    (S.phase s = LG → (collideStream P false src S).mass s = S.mass s) := by
  have n6 : WALL ≠ LIQUID := by decide
  have n7 : WALL ≠ LG := by decide
  have n1 : LG ≠ LIQUID := by decide
  have hf1 : ∀ t, S.phase t ≠ WALL → (fun q => collide_f P (S.phase t) (S.f t) (sumQ (S.f t))
      (compute_T P (sumQ (S.h t))) (compute_u P (S.f t) (sumQ (S.f t)) (compute_T P (sumQ (S.h t))) (src.F t)) (src.F t) q) = weights := by
    intro t ht
    funext q
    have h1 : ¬ (S.phase t = GAS ∨ S.phase t = WALL) := by
      rintro (h | h)
      · exact hng t h
      · exact ht h
    have hsum : sumQ (weights : Fin 19 → K) = 1 := C38_moments.1
    simp only [collide_f, h1, if_false, hT t, if_true, hf t ht, hsum, mul_one]
  have hs' : ¬ (S.phase s = GAS ∨ S.phase s = WALL) := by
    rintro (h | h)
    · exact hng s h
    · exact hs h
  have hloc : ∀ q, S.phase (nb q s) = WALL ∨ (S.phase (nb q s) ≠ WALL) := fun q => em _
  constructor
  · simp only [collideStream, macroscopic, startH, update_f, extractLocal, extractIncome, nb_zero,
      hs', if_false, hng]
    have e : ∀ q, (if S.phase (nb (rev q) s) = WALL then
        collide_f P (S.phase s) (S.f s) (sumQ (S.f s)) (compute_T P (sumQ (S.h s)))
          (compute_u P (S.f s) (sumQ (S.f s)) (compute_T P (sumQ (S.h s))) (src.F s)) (src.F s) (rev q)
        else collide_f P (S.phase (nb (rev q) s)) (S.f (nb (rev q) s)) (sumQ (S.f (nb (rev q) s)))
          (compute_T P (sumQ (S.h (nb (rev q) s))))
          (compute_u P (S.f (nb (rev q) s)) (sumQ (S.f (nb (rev q) s)))
            (compute_T P (sumQ (S.h (nb (rev q) s)))) (src.F (nb (rev q) s)))
          (src.F (nb (rev q) s)) (rev (rev q))) = weights q := by
      intro q
      rcases hloc (rev q) with h | h
      · rw [if_pos h, congrFun (hf1 s hs) (rev q), weights_rev]
      · rw [if_neg h, congrFun (hf1 _ h) (rev (rev q)), rev_rev]
    by_cases hl : S.phase s = LIQUID
    · have n8 : LIQUID ≠ WALL := by decide
      simp only [hl, if_true] at e ⊢
      funext q
      simpa [n8] using e q
    · simp only [hl, if_false]
      funext q
      simpa [hs] using e q
  · intro hlg
    simp only [collideStream, macroscopic, startH, update_f, extractLocal, extractIncome, nb_zero,
      hs', if_false, hlg, n1, Bool.false_eq_true]
    have hz : ∀ q, S.phase (nb q s) ≠ WALL →
      collide_f P (S.phase (nb q s)) (S.f (nb q s)) (sumQ (S.f (nb q s)))
          (compute_T P (sumQ (S.h (nb q s))))
          (compute_u P (S.f (nb q s)) (sumQ (S.f (nb q s)))
            (compute_T P (sumQ (S.h (nb q s)))) (src.F (nb q s)))
          (src.F (nb q s)) (rev q) -
        collide_f P LG (S.f s) (sumQ (S.f s)) (compute_T P (sumQ (S.h s)))
          (compute_u P (S.f s) (sumQ (S.f s)) (compute_T P (sumQ (S.h s))) (src.F s)) (src.F s) q
        = 0 := by
      intro q hq
      have h1 := congrFun (hf1 _ hq) (rev q)
      have h2 := congrFun (hf1 s hs) q
      simp only [hlg] at h2
      rw [h1, h2, weights_rev, sub_self]
    rw [hlg] at hs'
    simp only [hs', if_false]
    rw [add_eq_right]
    refine Finset.sum_eq_zero fun q _ => ?_
    split_ifs with h1 h2
    · exact hz q (by rw [h1]; exact n6.symm)
    · have := hz q (by rw [h2]; exact n7.symm)
      rw [this]; ring
    · rfl

end Rest

/-! ## C44: the property fails after `adhoc_step` -/

/-- Row of cells wall, A, B, C, wall in a 5×3×3 box of walls: A and B interface, C liquid. -/
def cexPhase : Site 5 3 3 → ℕ := fun s =>
  if s = (1, 1, 1) then LG else if s = (2, 1, 1) then LG else if s = (3, 1, 1) then LIQUID else WALL

/-- **C44 (negation).** `adhoc_step` turns the neighbouring interface cells A and B of a separated configuration into gas and
liquid at the same time. -/
theorem C44_adhoc_breaks_separation :
    Separated cexPhase ∧ Enclosed cexPhase ∧ ¬ Separated (adhoc_step cexPhase) := by
  refine ⟨?_, ?_, ?_⟩
  · intro s t _ _ ht
    have : ∀ t, cexPhase t ≠ GAS := by decide
    exact this t ht
  · unfold Enclosed IsFluid Interior; decide
  · intro h
    have hA : adhoc_step cexPhase (1, 1, 1) = GAS := by decide
    have hB : adhoc_step cexPhase (2, 1, 1) = LIQUID := by decide
    refine h (2, 1, 1) (1, 1, 1) ⟨by decide, 2, ?_⟩ hB hA
    decide

/-- Parameters of a cold (fully frozen) material. -/
def coldParams : Params ℚ := ⟨1, 1, 1, 1, 2, 3, 2, 4⟩

section Cold
variable {Nx Ny Nz : ℕ} [NeZero Nx] [NeZero Ny] [NeZero Nz]

/-- Initial state of a gas-free lattice: uniform rest populations, interface cells half full. -/
theorem cold_init (ph : Site Nx Ny Nz → ℕ) (hng : ∀ s, ph s ≠ GAS) :
    (initState coldParams ph).1.phase = ph ∧ (∀ s, (initState coldParams ph).1.f s = weights) ∧
    (∀ s, compute_T coldParams (sumQ ((initState coldParams ph).1.h s)) < coldParams.T_solidus) ∧
    (∀ s, ph s = LG → (initState coldParams ph).1.mass s = 1 / 2) := by
  have hsum : sumQ (weights : Fin 19 → ℚ) = 1 := C38_moments.1
  have hinit : ∀ s, (reini_gas_to_lg coldParams (fun _ q => weights q * rho0)
      (fun _ q => weights q * (T0 * coldParams.heat_capacity))
      (fun _ => sumQ fun q => weights q * rho0) (fun _ _ => 0)
      (fun _ => sumQ fun q => weights q * (T0 * coldParams.heat_capacity))
      (fun _ => compute_T coldParams (sumQ fun q => weights q * (T0 * coldParams.heat_capacity)))
      ph (fun _ => sumQ fun q => weights q * rho0) s)
      = ((fun q => (weights q : ℚ) * rho0), (fun q => weights q * (T0 * coldParams.heat_capacity)),
        ph s, sumQ fun q => weights q * rho0) := by
    intro s
    simp only [reini_gas_to_lg, extractLocal, nb_zero, hng, false_and, if_false]
  refine ⟨?_, ?_, ?_, ?_⟩
  · funext s; simp only [initState, hinit]
  · intro s; funext q; simp only [initState, hinit]; simp [rho0]
  · intro s
    have : (initState coldParams ph).1.h s = weights := by
      funext q; simp only [initState, hinit]; simp [T0, coldParams]
    rw [this, hsum]; norm_num [compute_T, coldParams]
  · intro s hs
    simp only [initState, hinit, hs, if_true]
    simp only [rho0, mul_one]
    rw [show (fun q => (weights q : ℚ)) = weights from rfl, hsum, mul_one]

/-- On a gas-free frozen lattice one complete step only applies the ad hoc flag rule. -/
theorem cold_step_phase (ph : Site Nx Ny Nz → ℕ) (hng : ∀ s, ph s ≠ GAS)
    (src : Source ℚ Nx Ny Nz) :
    (simulate coldParams false ph [src]).phase = adhoc_step ph := by
  obtain ⟨p0, f0, h0, m0⟩ := cold_init ph hng
  have hsum : sumQ (weights : Fin 19 → ℚ) = 1 := C38_moments.1
  have lw : LG ≠ WALL := by decide
  set S0 := (initState coldParams ph).1 with hS0
  have hcs := frozen_rest coldParams src S0
    (by rw [p0]; exact hng) (fun s _ => f0 s) h0
  set S2 := collideStream coldParams false src S0 with hS2
  have p2 : S2.phase = ph := p0
  have p3 : (lgToLiquid S2).phase = ph := by
    funext s
    simp only [lgToLiquid, reini_lg_to_liquid, p2]
    rw [if_neg]
    rintro ⟨hl, hm⟩
    have hw : S0.phase s ≠ WALL := by rw [p0, hl]; exact lw
    obtain ⟨e1, e2⟩ := hcs s hw
    rw [e1, e2 (by rw [p0]; exact hl), m0 s hl, hsum, theta] at hm
    norm_num at hm
  set S3 := lgToLiquid S2 with hS3
  set M := macroscopic coldParams false src S0 with hM
  have g4 : ∀ s, reini_gas_to_lg coldParams S3.f S3.h M.rho M.u M.enthalpy M.T S3.phase S3.mass s
      = (S3.f s, S3.h s, ph s, S3.mass s) := by
    intro s
    simp only [reini_gas_to_lg, extractLocal, nb_zero, p3, hng, false_and, if_false]
  have p5 : (lgToGas (gasToLg coldParams M S3)).phase = ph := by
    funext s
    simp only [lgToGas, gasToLg, reini_lg_to_gas, g4]
    rw [if_neg]
    rintro ⟨hl, hm⟩
    have hw : S0.phase s ≠ WALL := by rw [p0, hl]; exact lw
    obtain ⟨e1, e2⟩ := hcs s hw
    have e1' : S3.f s = weights := e1
    have e2' : S3.mass s = 1 / 2 := (e2 (by rw [p0]; exact hl)).trans (m0 s hl)
    rw [e1', e2', hsum, theta] at hm
    norm_num at hm
  have p6 : (liquidToLg (lgToGas (gasToLg coldParams M S3))).phase = ph := by
    funext s
    simp only [liquidToLg, reini_liquid_to_lg, extractLocal, nb_zero, p5]
    rw [if_neg]
    rintro ⟨_, q, _, hq⟩
    exact hng _ hq
  simp only [simulate, run, List.foldl_cons, List.foldl_nil, step, updateMelted, refreshAll_phase]
  exact congrArg adhoc_step p6

end Cold

/-- **C44 (negation, full time step from a legal initial phase field).** A complete `simulation` step, for *every* force and heat
source, ends with a liquid cell touching a gas cell. -/
theorem C44_step_breaks_separation (src : Source ℚ 5 3 3) :
    (∀ s, Legal (cexPhase s)) ∧ Separated cexPhase ∧
    ¬ Separated (simulate coldParams false cexPhase [src]).phase := by
  refine ⟨by unfold Legal; decide, C44_adhoc_breaks_separation.1, ?_⟩
  rw [cold_step_phase cexPhase (by decide) src]
  exact C44_adhoc_breaks_separation.2.2

/-! ## C42: without an interface cell the correction is lost -/

/-- One interface cell enclosed by walls. -/
def lonePhase : Site 3 3 3 → ℕ := fun s => if s = (1, 1, 1) then LG else WALL

/-- **C42 (negation without interface).** A single interface cell (mass 1/2) enclosed by walls vanishes in one step, for every force
and heat source: the total mass drops from 1/2 to 0. -/
theorem C42_mass_lost_without_interface (src : Source ℚ 3 3 3) :
    let I := (initState coldParams lonePhase).1
    let S := simulate coldParams false lonePhase [src]
    fluidMass I.f I.phase I.mass = 1 / 2 ∧ fluidMass S.f S.phase S.mass = 0 := by
  intro I S
  have hng : ∀ s, lonePhase s ≠ GAS := by decide
  obtain ⟨p0, f0, h0, m0⟩ := cold_init lonePhase hng
  constructor
  · unfold fluidMass
    rw [show I.phase = lonePhase from p0]
    have e1 : (univ.filter fun s => lonePhase s = LIQUID) = ∅ := by decide
    have e2 : (univ.filter fun s => lonePhase s = LG) = {(1, 1, 1)} := by decide
    rw [e1, e2, Finset.sum_empty, Finset.sum_singleton, m0 _ (by decide), zero_add]
  · unfold fluidMass
    rw [show S.phase = adhoc_step lonePhase from cold_step_phase lonePhase hng src]
    have e1 : (univ.filter fun s => adhoc_step lonePhase s = LIQUID) = ∅ := by decide
    have e2 : (univ.filter fun s => adhoc_step lonePhase s = LG) = ∅ := by decide
    rw [e1, e2, Finset.sum_empty, Finset.sum_empty, add_zero]

/-! ## C47: streaming of enthalpy -/
section Enthalpy
variable {K : Type*} [Field K] [LinearOrder K] [IsStrictOrderedRing K]
variable {Nx Ny Nz : ℕ} [NeZero Nx] [NeZero Ny] [NeZero Nz]

/-- **C47.** Streaming of enthalpy over an enclosed fluid (gas contact allowed): the total enthalpy of the fluid cells changes only through
wall links, each of which replaces the outgoing population by the ambient one `weights * c * T0`. -/
theorem C47_update_h_balance (P : Params K) (h : Site Nx Ny Nz → Fin 19 → K)
    (phase : Site Nx Ny Nz → ℕ) (hleg : ∀ s, Legal (phase s)) (henc : Enclosed phase) :
    (∑ s with (phase s = LIQUID ∨ phase s = LG), ∑ q, update_h P h phase s q)
      = (∑ s with (phase s = LIQUID ∨ phase s = LG), ∑ q, h s q)
        + ∑ s with (phase s = LIQUID ∨ phase s = LG), ∑ q with phase (nb q s) = WALL,
            (weights q * P.heat_capacity * T0 - h s q) := by
  have hl : ∀ t, phase t = LIQUID ∨ phase t = LG ∨ phase t = GAS ∨ phase t = WALL := hleg
  have n2 : GAS ≠ LIQUID := by decide
  have n3 : WALL ≠ LIQUID := by decide
  have n4 : GAS ≠ LG := by decide
  have n5 : WALL ≠ LG := by decide
  have n6 : WALL ≠ GAS := by decide
  have n1 : LG ≠ LIQUID := by decide
  let phase' : Site Nx Ny Nz → ℕ := fun s => if phase s = LIQUID ∨ phase s = LG then LIQUID else WALL
  have henc' : Enclosed phase' := by
    intro s hs
    apply henc
    by_contra hc
    have : ¬ (phase s = LIQUID ∨ phase s = LG) := hc
    simp only [phase', this, if_false] at hs
    exact absurd hs (by unfold IsFluid; decide)
  have hz := sum_exchange h phase' (fun _ => 1) henc'
  have amb : ∀ q, equilibrium_h P (rev q) (T0 * P.heat_capacity) T0 (fun _ => 0)
      = weights q * P.heat_capacity * T0 := by
    intro q
    rw [eqh_zero_eq, equilibrium_f_rest, weights_rev]
    split_ifs <;> ring
  have cell : ∀ s, (phase s = LIQUID ∨ phase s = LG) →
      ∑ q, update_h P h phase s q = ∑ q, h s q
        + ((∑ q with phase (nb q s) = WALL, (weights q * P.heat_capacity * T0 - h s q))
          + ∑ q, exchange h phase' (fun _ => 1) s q) := by
    intro s hs
    have hs' : ¬ (phase s = GAS ∨ phase s = WALL) := by
      rintro (e | e) <;> rcases hs with g | g <;> rw [e] at g
      · exact n2 g
      · exact n4 g
      · exact n3 g
      · exact n5 g
    rw [← sum_rev (fun q => update_h P h phase s q), Finset.sum_filter, ← Finset.sum_add_distrib,
      ← Finset.sum_add_distrib]
    refine Finset.sum_congr rfl fun q _ => ?_
    simp only [update_h, extractLocal, extractIncome, nb_zero, hs', if_false, rev_rev, amb, exchange,
      phase', hs, if_true]
    rcases hl (nb q s) with g | g | g | g
    · simp [g, n2.symm, n3.symm, n1.symm]
    · simp [g, n4.symm, n5.symm, n1.symm]
    · simp [g, n6.symm, n2, n4, n3, n5]
    · simp [g, n6, n3, n5]
  rw [Finset.sum_congr rfl fun s hs => cell s (Finset.mem_filter.mp hs).2,
    Finset.sum_add_distrib, Finset.sum_add_distrib]
  have : ∑ s with (phase s = LIQUID ∨ phase s = LG), ∑ q, exchange h phase' (fun _ => 1) s q = 0 := by
    rw [← hz, Finset.sum_filter]
    refine Finset.sum_congr rfl fun s _ => ?_
    split_ifs with hs
    · rfl
    · symm
      refine Finset.sum_eq_zero fun q _ => ?_
      simp [exchange, phase', hs, n3, n5]
  rw [this, add_zero]

/-- C47, corollary: with no wall next to the fluid (a drop floating in gas) streaming conserves total enthalpy exactly. -/
theorem C47_no_wall (P : Params K) (h : Site Nx Ny Nz → Fin 19 → K)
    (phase : Site Nx Ny Nz → ℕ) (hleg : ∀ s, Legal (phase s)) (henc : Enclosed phase)
    (hw : ∀ s q, (phase s = LIQUID ∨ phase s = LG) → phase (nb q s) ≠ WALL) :
    (∑ s with (phase s = LIQUID ∨ phase s = LG), ∑ q, update_h P h phase s q)
      = ∑ s with (phase s = LIQUID ∨ phase s = LG), ∑ q, h s q := by
  rw [C47_update_h_balance P h phase hleg henc, add_eq_left]
  refine Finset.sum_eq_zero fun s hs => ?_
  rw [Finset.sum_filter]
  refine Finset.sum_eq_zero fun q _ => ?_
  rw [if_neg (hw s q (Finset.mem_filter.mp hs).2)]

/-- Instance: a one-cell drop in the middle of a 5×5×5 gas box satisfies the hypotheses. -/
example : let phase : Site 5 5 5 → ℕ := fun s => if s = (2, 2, 2) then LG else GAS
    (∀ s, Legal (phase s)) ∧ Enclosed phase ∧
    (∀ s q, (phase s = LIQUID ∨ phase s = LG) → phase (nb q s) ≠ WALL) := by
  intro phase
  have A : ∀ s, phase s = LG ∨ phase s = GAS := by
    intro s; simp only [phase]; split_ifs <;> simp
  have B : ∀ s, (phase s = LIQUID ∨ phase s = LG) → s = (2, 2, 2) := by
    intro s h
    by_contra hc
    simp only [phase, hc, if_false] at h
    exact absurd h (by decide)
  refine ⟨fun s => ?_, fun s hs => ?_, fun s q _ => ?_⟩
  · rcases A s with h | h <;> rw [h] <;> unfold Legal <;> decide
  · rw [B s hs]; unfold Interior; decide
  · rcases A (nb q s) with h | h <;> rw [h] <;> decide

end Enthalpy
end Verif.Lbm
