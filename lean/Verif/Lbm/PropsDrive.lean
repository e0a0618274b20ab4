import Verif.Lbm.PropsForces
import Verif.Lbm.PropsFlags
import Verif.Lbm.PropsMass

/-!
# Forces and heat sources of the lattice Boltzmann solver (C76, C77) and the simulation driven by them (C78)
-/
namespace Verif.Lbm
open Finset

theorem norm3_sq (v : Fin 3 → ℝ) : norm3 v ^ 2 = ∑ a, v a ^ 2 :=
  Real.sq_sqrt (Finset.sum_nonneg fun _ _ => sq_nonneg _)

theorem norm3_nonneg (v : Fin 3 → ℝ) : 0 ≤ norm3 v := Real.sqrt_nonneg _

theorem norm3_eq_zero {v : Fin 3 → ℝ} (h : norm3 v = 0) : v = 0 := by
  have h2 := norm3_sq v
  rw [h] at h2
  have : ∀ a ∈ Finset.univ, v a ^ 2 = 0 :=
    (Finset.sum_eq_zero_iff_of_nonneg fun _ _ => sq_nonneg _).1 (by simpa using h2.symm)
  funext a
  exact pow_eq_zero_iff two_ne_zero |>.1 (this a (mem_univ a))

/-- The tangential part of `w` with respect to the direction `phi` (specification). -/
noncomputable def tangential (phi w : Fin 3 → ℝ) : Fin 3 → ℝ := fun a =>
  w a - (∑ b, phi b * w b) / (∑ b, phi b ^ 2) * phi a

theorem marangoni_eq (G : ForceParams) (vof : ℝ) (phi w : Fin 3 → ℝ) (a : Fin 3) :
    marangoni G vof phi w a
      = G.st_grad_coeff * 2 * vof * norm3 phi * tangential phi w a := by
  unfold marangoni tangential normal
  by_cases h : norm3 phi = 0
  · rw [h]; ring
  · have hs : ∑ b, phi b / norm3 phi * w b = (∑ b, phi b * w b) / norm3 phi := by
      rw [Finset.sum_div]; exact Finset.sum_congr rfl fun _ _ => by ring
    rw [hs, ← norm3_sq]
    field_simp

/-- **C76a.** The Marangoni force is tangential to the interface, is proportional to the tangential temperature gradient, drives the melt towards hotter or colder regions
according to the sign of the surface tension gradient, and vanishes in an isothermal neighbourhood. -/
theorem C76_marangoni (G : ForceParams) (vof : ℝ) (phi w : Fin 3 → ℝ) :
    (∑ a, marangoni G vof phi w a * phi a = 0) ∧
    (∀ a, marangoni G vof phi w a = G.st_grad_coeff * 2 * vof * norm3 phi * tangential phi w a) ∧
    (0 ≤ vof → (0 ≤ G.st_grad_coeff → 0 ≤ ∑ a, marangoni G vof phi w a * w a) ∧
      (G.st_grad_coeff ≤ 0 → ∑ a, marangoni G vof phi w a * w a ≤ 0)) ∧
    (w = 0 → marangoni G vof phi w = 0) := by
  have htan : phi ≠ 0 → ∑ a, tangential phi w a * phi a = 0 := by
    intro h
    have hs : (∑ b, phi b ^ 2) ≠ 0 := by
      rw [← norm3_sq]
      exact pow_ne_zero 2 fun h0 => h (norm3_eq_zero h0)
    simp only [tangential, sub_mul, Finset.sum_sub_distrib]
    have : ∑ a, (∑ b, phi b * w b) / (∑ b, phi b ^ 2) * phi a * phi a
        = (∑ b, phi b * w b) / (∑ b, phi b ^ 2) * ∑ a, phi a ^ 2 := by
      rw [Finset.mul_sum]; exact Finset.sum_congr rfl fun _ _ => by ring
    rw [this, div_mul_cancel₀ _ hs, sub_eq_zero]
    exact Finset.sum_congr rfl fun _ _ => mul_comm _ _
  have h1 : ∑ a, marangoni G vof phi w a * phi a = 0 := by
    by_cases h : phi = 0
    · subst h; simp
    · have : ∑ a, marangoni G vof phi w a * phi a
          = G.st_grad_coeff * 2 * vof * norm3 phi * ∑ a, tangential phi w a * phi a := by
        rw [Finset.mul_sum]
        exact Finset.sum_congr rfl fun a _ => by rw [marangoni_eq]; ring
      rw [this, htan h, mul_zero]
  have h3 : ∑ a, marangoni G vof phi w a * w a
      = G.st_grad_coeff * (2 * vof * norm3 phi * ∑ a, tangential phi w a * w a) := by
    rw [Finset.mul_sum, Finset.mul_sum]
    exact Finset.sum_congr rfl fun a _ => by rw [marangoni_eq]; ring
  have h4 : 0 ≤ ∑ a, tangential phi w a * w a := by
    by_cases h : phi = 0
    · subst h
      exact Finset.sum_nonneg fun a _ => by simp [tangential, mul_self_nonneg]
    · have : ∑ a, tangential phi w a * w a = ∑ a, tangential phi w a ^ 2 := by
        have e : ∀ a, tangential phi w a * w a = tangential phi w a ^ 2
            + (∑ b, phi b * w b) / (∑ b, phi b ^ 2) * (tangential phi w a * phi a) := by
          intro a
          have : w a = tangential phi w a + (∑ b, phi b * w b) / (∑ b, phi b ^ 2) * phi a := by
            unfold tangential; ring
          linear_combination tangential phi w a * this
        simp only [e, Finset.sum_add_distrib, ← Finset.mul_sum, htan h, mul_zero, add_zero]
      rw [this]
      exact Finset.sum_nonneg fun a _ => sq_nonneg _
  refine ⟨h1, marangoni_eq G vof phi w, fun hv => ⟨fun hg => ?_, fun hg => ?_⟩, ?_⟩
  · rw [h3]
    exact mul_nonneg hg (mul_nonneg (by have := norm3_nonneg phi; positivity) h4)
  · rw [h3]
    exact mul_nonpos_of_nonpos_of_nonneg hg
      (mul_nonneg (by have := norm3_nonneg phi; positivity) h4)
  · rintro rfl
    funext a
    rw [marangoni_eq]
    simp [tangential]

/-- A horizontal free surface heated unevenly in x: with a negative surface tension gradient the melt is pulled towards the colder side. -/
example (G : ForceParams) (hG : G.st_grad_coeff = -1) :
    marangoni G (1 / 2) ![0, 0, -1] ![1, 0, 0] 0 = -1 := by
  have hn : norm3 ![0, 0, -1] = 1 := by simp [norm3, Fin.sum_univ_three]
  rw [marangoni_eq, hG, hn]
  simp [tangential, Fin.sum_univ_three]

/-- Magnitude of the recoil pressure (specification): Clausius–Clapeyron with exponent `L/R (1/T_evap - 1/T)`. -/
noncomputable def recoilPressure (G : ForceParams) (T : ℝ) : ℝ :=
  G.rp_coeff * G.p_atm * Real.exp (G.latent_heat_evap / G.gas_const * (1 / G.T_evap - 1 / T))

/-- **C76b.** At positive temperature the recoil force is the Clausius–Clapeyron pressure times the fill gradient; the pressure is the given fraction of the
atmospheric pressure at the evaporation temperature and increases with temperature. -/
theorem C76_recoil (G : ForceParams) (hR : G.gas_const ≠ 0) (hE : 0 < G.T_evap) :
    (∀ T phi a, 0 < T → recoil G T phi a = recoilPressure G T * phi a) ∧
    (∀ phi a, recoil G 0 phi a = 0) ∧
    recoilPressure G G.T_evap = G.rp_coeff * G.p_atm ∧
    (0 ≤ G.rp_coeff * G.p_atm → 0 ≤ G.latent_heat_evap / G.gas_const →
      ∀ T T', 0 < T → T ≤ T' → recoilPressure G T ≤ recoilPressure G T') := by
  refine ⟨fun T phi a hT => ?_, fun phi a => ?_, ?_, fun h1 h2 T T' hT hTT => ?_⟩
  · unfold recoil recoilPressure M0
    rw [if_neg hT.ne']
    congr 3
    field_simp
  · unfold recoil; simp
  · unfold recoilPressure; simp
  · unfold recoilPressure
    refine mul_le_mul_of_nonneg_left (Real.exp_le_exp.2 (mul_le_mul_of_nonneg_left ?_ h2)) h1
    have := one_div_le_one_div_of_le hT hTT
    linarith

/-- **C76c.** Where the fill gradient vanishes (bulk liquid) the volume force is the weight of the cell, whatever the temperature field. -/
theorem C76_bulk (G : ForceParams) (rho vof kappa T : ℝ) (w : Fin 3 → ℝ) :
    fSource G rho vof 0 kappa T w = fun a => rho * ![0, 0, -G.gravity] a := by
  funext a
  unfold fSource
  rw [marangoni_eq]
  have : norm3 (0 : Fin 3 → ℝ) = 0 := by simp [norm3]
  simp [this, recoil, gVec]

section Grad
variable {Nx Ny Nz : ℕ} [NeZero Nx] [NeZero Ny] [NeZero Nz]

/-- **C76d.** The temperature gradient ignores the temperature stored in gas and wall cells; it is exact for affine temperature fields when no neighbour is gas or wall, and it
vanishes in an isothermal neighbourhood. -/
theorem C76_T_grad (phase : Site Nx Ny Nz → ℕ) (s : Site Nx Ny Nz) :
    (∀ T T' : Site Nx Ny Nz → ℝ, T s = T' s →
      (∀ t, phase t ≠ GAS → phase t ≠ WALL → T t = T' t) → getTGrad T phase s = getTGrad T' phase s) ∧
    (∀ c v, Inside s → (∀ a b d : Fin 3, grid333 s phase a b d ≠ GAS ∧ grid333 s phase a b d ≠ WALL) →
      getTGrad (affineField c v) phase s = v) ∧
    (∀ c : ℝ, getTGrad (fun _ => c) phase s = 0) := by
  have hc : ∀ T : Site Nx Ny Nz → ℝ, grid333 s T 1 1 1 = T s := by
    intro T
    show T (shift ((1 : ℤ) - 1) ((1 : ℤ) - 1) ((1 : ℤ) - 1) s) = T s
    rw [sub_self, shift_zero]
  refine ⟨fun T T' h0 h => ?_, fun c v hs hp => ?_, fun c => ?_⟩
  · unfold getTGrad
    dsimp only
    refine congrArg centralGrad ?_
    funext a b d
    simp only [hc, h0]
    split_ifs with hg
    · rfl
    · push Not at hg
      exact h _ hg.1 hg.2
  · refine Eq.trans ?_ (C75_phi_exact hs c v)
    unfold getTGrad getPhi
    dsimp only
    refine congrArg centralGrad ?_
    funext a b d
    exact if_neg (by push Not; exact hp a b d)
  · unfold getTGrad
    simp only [grid333]
    funext k
    unfold centralGrad
    fin_cases k <;> simp

end Grad

/-! ## C77: heat source -/

/-- **C77a.** The heat source is absorbed laser flux on upward facing interface minus losses: no interface, no source; a surface facing down or sideways absorbs no laser
light; the absorbed power is between 0 and the peak of the beam; it is zero when the switch is off. -/
theorem C77_laser (G : ForceParams) (T vof : ℝ) (phi : Fin 3 → ℝ) (x y lx ly sw : ℝ)
    (hP : 0 ≤ G.laser_power) (ha : 0 ≤ G.absorbed_fraction) (hs : 0 ≤ sw) (hv : 0 ≤ vof) :
    let absorbed := hSource G T vof phi x y lx ly sw - qLoss G T vof phi
    0 ≤ absorbed ∧
    absorbed ≤ 2 * vof * norm3 phi *
      (sw * 2 * G.laser_power * G.absorbed_fraction / (Real.pi * G.beam_size ^ 2)) ∧
    (0 ≤ phi 2 → absorbed = 0) ∧ (sw = 0 → absorbed = 0) ∧
    (phi = 0 → hSource G T vof phi x y lx ly sw = 0) := by
  intro absorbed
  have habs : absorbed = (if -phi 2 * 1 > 0 then -phi 2 * 1 else 0) *
      qLaser G x y lx ly sw * 2 * vof := by
    simp only [absorbed, hSource]; ring
  have hpk : 0 ≤ sw * 2 * G.laser_power * G.absorbed_fraction / (Real.pi * G.beam_size ^ 2) := by
    have := Real.pi_pos; positivity
  have hq0 : 0 ≤ qLaser G x y lx ly sw := mul_nonneg hpk (Real.exp_pos _).le
  have hq1 : qLaser G x y lx ly sw
      ≤ sw * 2 * G.laser_power * G.absorbed_fraction / (Real.pi * G.beam_size ^ 2) := by
    unfold qLaser
    refine mul_le_of_le_one_right hpk (Real.exp_le_one_iff.2 ?_)
    apply div_nonpos_of_nonpos_of_nonneg _ (sq_nonneg _)
    nlinarith [sq_nonneg (x - lx), sq_nonneg (y - ly)]
  have ht0 : 0 ≤ (if -phi 2 * 1 > 0 then -phi 2 * 1 else 0) := by split_ifs with h <;> linarith
  have ht1 : (if -phi 2 * 1 > 0 then -phi 2 * 1 else 0) ≤ norm3 phi := by
    split_ifs with h
    · rw [mul_one]
      refine (neg_le_abs _).trans ?_
      rw [← Real.sqrt_sq_eq_abs]
      exact Real.sqrt_le_sqrt
        (Finset.single_le_sum (f := fun a => phi a ^ 2) (fun _ _ => sq_nonneg _) (mem_univ 2))
    · exact norm3_nonneg phi
  refine ⟨?_, ?_, fun h => ?_, fun h => ?_, fun h => ?_⟩
  · rw [habs]; positivity
  · rw [habs]
    have := mul_le_mul ht1 hq1 hq0 (norm3_nonneg phi)
    nlinarith
  · rw [habs, if_neg (by linarith)]; ring
  · rw [habs]; subst h; unfold qLaser; ring
  · subst h
    have : norm3 (0 : Fin 3 → ℝ) = 0 := by simp [norm3]
    simp [hSource, qLoss, this]

/-- A flat free surface right under the beam absorbs the peak intensity. -/
example (G : ForceParams) (hP : G.laser_power = 1) (ha : G.absorbed_fraction = 1)
    (hb : G.beam_size = 1) (T : ℝ) :
    hSource G T (1 / 2) ![0, 0, -1] 3 4 3 4 1 - qLoss G T (1 / 2) ![0, 0, -1] = 2 / Real.pi := by
  simp [hSource, qLaser, hP, ha, hb]

/-- **C77b.** Losses have the sign of `T0 - T`, vanish at ambient temperature, and grow with temperature. -/
theorem C77_loss (G : ForceParams) (vof : ℝ) (phi : Fin 3 → ℝ) (hv : 0 ≤ vof)
    (hr : 0 ≤ G.SB_const * G.emissivity) (hc : 0 ≤ G.h_conv) :
    (∀ T, 0 ≤ T → (T ≤ T0 → 0 ≤ qLoss G T vof phi) ∧ (T0 ≤ T → qLoss G T vof phi ≤ 0)) ∧
    qLoss G T0 vof phi = 0 ∧
    (∀ T T', 0 ≤ T → T ≤ T' → qLoss G T' vof phi ≤ qLoss G T vof phi) := by
  have hmono : ∀ T T', 0 ≤ T → T ≤ T' → qLoss G T' vof phi ≤ qLoss G T vof phi := by
    intro T T' h0 h
    unfold qLoss
    have h4 : T ^ 4 ≤ T' ^ 4 := pow_le_pow_left₀ h0 h 4
    have e1 : G.h_conv * (T0 - T') ≤ G.h_conv * (T0 - T) :=
      mul_le_mul_of_nonneg_left (by linarith) hc
    have e2 : G.SB_const * G.emissivity * (T0 ^ 4 - T' ^ 4)
        ≤ G.SB_const * G.emissivity * (T0 ^ 4 - T ^ 4) :=
      mul_le_mul_of_nonneg_left (by linarith) hr
    have hn := norm3_nonneg phi
    have := mul_le_mul_of_nonneg_left (add_le_add e1 e2) hn
    simp only
    nlinarith
  have hz : qLoss G T0 vof phi = 0 := by unfold qLoss; simp
  refine ⟨fun T h0 => ⟨fun h => ?_, fun h => ?_⟩, hz, hmono⟩
  · rw [← hz]; exact hmono T T0 h0 h
  · rw [← hz]; exact hmono T0 T (by unfold T0; norm_num) h

/-! ## C78: the driven simulation -/

section Driven
variable {Nx Ny Nz : ℕ} [NeZero Nx] [NeZero Ny] [NeZero Nz]

theorem drivenRun_append (P : Params ℝ) (G : ForceParams) (fo : Bool) (m : ℝ)
    (l : List (ℝ × ℝ × ℝ)) (z : ℝ × ℝ × ℝ) (S : State ℝ Nx Ny Nz) :
    drivenRun P G fo m (l ++ [z]) S
      = step P fo m (drive P G fo z (drivenRun P G fo m l S)) (drivenRun P G fo m l S) := by
  simp [drivenRun, List.foldl_append]

/-- The driven simulation is a run of the model with arbitrary sources. -/
theorem simulation_eq (P : Params ℝ) (G : ForceParams) (fo : Bool) (ph0 : Site Nx Ny Nz → ℕ)
    (path : List (ℝ × ℝ × ℝ)) :
    ∃ srcs : List (Source ℝ Nx Ny Nz), srcs.length = path.length ∧
      simulation P G fo ph0 path = simulate P fo ph0 srcs := by
  induction path using List.reverseRecOn with
  | nil => exact ⟨[], rfl, rfl⟩
  | append_singleton l z ih =>
    obtain ⟨srcs, hl, he⟩ := ih
    refine ⟨srcs ++ [drive P G fo z (simulation P G fo ph0 l)], by simp [hl], ?_⟩
    have h1 : simulation P G fo ph0 (l ++ [z])
        = step P fo (initState P ph0).2 (drive P G fo z (simulation P G fo ph0 l))
          (simulation P G fo ph0 l) := drivenRun_append _ _ _ _ _ _ _
    have h2 : ∀ src, simulate P fo ph0 (srcs ++ [src])
        = step P fo (initState P ph0).2 src (simulate P fo ph0 srcs) := by
      intro src; simp [simulate, run, List.foldl_append]
    rw [h1, h2, ← he]

/-- **C78a.** With the forces and heat sources the code computes, and for every laser path: mass is conserved at the end of every step that leaves an interface cell, walls
are permanent, states stay legal, gas and wall cells are empty. -/
theorem C78_driven (P : Params ℝ) (G : ForceParams) (fo : Bool) (ph0 : Site Nx Ny Nz → ℕ)
    (path : List (ℝ × ℝ × ℝ)) :
    let S := simulation P G fo ph0 path
    (path = [] ∨ (∃ s, S.phase s = LG) → fluidMass S.f S.phase S.mass
      = fluidMass (initState P ph0).1.f (initState P ph0).1.phase (initState P ph0).1.mass) ∧
    (∀ s, S.phase s = WALL ↔ ph0 s = WALL) ∧
    ((∀ s, Legal (ph0 s)) → ∀ s, Legal (S.phase s)) ∧
    (path ≠ [] → ∀ s, S.phase s = GAS ∨ S.phase s = WALL →
      (∀ q, S.f s q = 0 ∧ S.h s q = 0) ∧ S.mass s = 0) := by
  intro S
  obtain ⟨srcs, hl, he⟩ := simulation_eq P G fo ph0 path
  have hS : S = simulate P fo ph0 srcs := he
  have hn : path = [] ↔ srcs = [] := by
    rw [← List.length_eq_zero_iff, ← List.length_eq_zero_iff, hl]
  obtain ⟨i1, i2, i3, -⟩ := C43_invariants P fo ph0 srcs
  rw [hS]
  refine ⟨fun h => C42_total_mass_constant P fo ph0 srcs ?_, i1, i2, fun h => i3 (mt hn.2 h)⟩
  rcases h with h | h
  · exact Or.inl (hn.1 h)
  · exact Or.inr h

section NoGas
variable (S : State ℝ Nx Ny Nz)
  (hph : ∀ s, S.phase s = LIQUID ∨ S.phase s = WALL)
include hph

omit [NeZero Nx] [NeZero Ny] [NeZero Nz] in
theorem ng_ne (s : Site Nx Ny Nz) : S.phase s ≠ GAS ∧ S.phase s ≠ LG := by
  rcases hph s with h | h <;> rw [h] <;> decide

omit [NeZero Nx] [NeZero Ny] [NeZero Nz] in
theorem lgToLiquid_id : lgToLiquid S = S := by
  have : (lgToLiquid S).phase = S.phase := by
    funext s
    simp only [lgToLiquid, reini_lg_to_liquid]
    exact if_neg fun h => (ng_ne S hph s).2 h.1
  cases S
  simpa [lgToLiquid] using this

theorem gasToLg_id (P : Params ℝ) (M : Macro ℝ Nx Ny Nz) : gasToLg P M S = S := by
  have : reini_gas_to_lg P S.f S.h M.rho M.u M.enthalpy M.T S.phase S.mass
      = fun s => (S.f s, S.h s, S.phase s, S.mass s) := by
    funext s
    simp only [reini_gas_to_lg, extractLocal, nb_zero]
    exact if_neg fun h => (ng_ne S hph s).1 h.1
  simp only [gasToLg, this]

omit [NeZero Nx] [NeZero Ny] [NeZero Nz] in
theorem lgToGas_id : lgToGas S = S := by
  have : (lgToGas S).phase = S.phase := by
    funext s
    simp only [lgToGas, reini_lg_to_gas]
    exact if_neg fun h => (ng_ne S hph s).2 h.1
  cases S
  simpa [lgToGas] using this

theorem liquidToLg_id : liquidToLg S = S := by
  have : reini_liquid_to_lg S.f S.phase S.mass = fun s => (S.phase s, S.mass s) := by
    funext s
    simp only [reini_liquid_to_lg, extractLocal, nb_zero]
    exact if_neg fun h => by
      obtain ⟨q, -, hq⟩ := h.2
      exact (ng_ne S hph _).1 hq
  simp only [liquidToLg, this]

theorem adhoc_id : adhoc S = S := by
  have : adhoc_step S.phase = S.phase := by
    funext s
    simp only [adhoc_step, extractLocal, nb_zero]
    rw [if_neg fun h => (ng_ne S hph s).2 h.1, if_neg fun h => (ng_ne S hph s).2 h.1]
  simp only [adhoc, this]

omit [NeZero Nx] [NeZero Ny] [NeZero Nz] in
theorem correctMass_id (m : ℝ) : correctMass m S = S := by
  simp only [correctMass]
  have : ∀ s, (if S.phase s = LG then S.mass s + (m - totalMass S.f S.phase S.mass) /
      ∑ t, (if S.phase t = LG then (1 : ℝ) else 0) else S.mass s) = S.mass s :=
    fun s => if_neg (ng_ne S hph s).2
  simp only [this]

end NoGas

/-- A closed box at rest at ambient temperature: every cell is liquid or wall, the fluid cells carry the ambient equilibrium. -/
def Quiet (P : Params ℝ) (ph0 : Site Nx Ny Nz → ℕ) (S : State ℝ Nx Ny Nz) : Prop :=
  S.phase = ph0 ∧ ∀ s, ph0 s = LIQUID →
    (∀ q, S.f s q = weights q ∧ S.h s q = weights q * P.heat_capacity) ∧ S.mass s = 1

theorem quiet_step (P : Params ℝ) (G : ForceParams) (m : ℝ) (laser : ℝ × ℝ × ℝ)
    (ph0 : Site Nx Ny Nz → ℕ) (hph : ∀ s, ph0 s = LIQUID ∨ ph0 s = WALL)
    (hc : P.heat_capacity ≠ 0) (hs : P.heat_capacity < P.enthalpy_s)
    (hg : G.gravity = 0 ∨ 1 < P.T_solidus) (S : State ℝ Nx Ny Nz) (hS : Quiet P ph0 S) :
    Quiet P ph0 (step P false m (drive P G false laser S) S) := by
  obtain ⟨hp, hl⟩ := hS
  have w1 : ∑ q, (weights q : ℝ) = 1 := C38_moments.1
  have we : ∀ a, ∑ q, (weights q : ℝ) * (vels a q : ℝ) = 0 := C38_moments.2.1
  have hrho : ∀ s, ph0 s = LIQUID → sumQ (S.f s) = 1 := by
    intro s h
    unfold sumQ
    rw [← w1]
    exact Finset.sum_congr rfl fun q _ => ((hl s h).1 q).1
  have hent : ∀ s, ph0 s = LIQUID → sumQ (S.h s) = P.heat_capacity := by
    intro s h
    unfold sumQ
    simp only [((hl s h).1 _).2, ← Finset.sum_mul, w1, one_mul]
  have hT : compute_T P P.heat_capacity = 1 := by
    unfold compute_T
    rw [if_pos hs, div_self hc]
  have hvof : (fun s => compute_vof (sumQ (S.f s)) (S.phase s) (S.mass s)) = fun _ => (1 : ℝ) := by
    funext s
    rw [hp]
    rcases hph s with h | h
    · rw [h, hrho s h]
      rfl
    · rw [h]; rfl
  have hphi : ∀ s : Site Nx Ny Nz, getPhi (fun _ => (1 : ℝ)) s = 0 := by
    intro s
    funext k
    unfold getPhi centralGrad grid333
    fin_cases k <;> simp
  have hQ : ∀ s, (drive P G false laser S).Q s = 0 := by
    intro s
    simp only [drive, hvof, hphi]
    have : norm3 (0 : Fin 3 → ℝ) = 0 := by simp [norm3]
    simp [hSource, qLoss, this]
  have hF : ∀ s, ph0 s = LIQUID → (drive P G false laser S).F s = fun a => ![0, 0, -G.gravity] a := by
    intro s h
    simp only [drive, hvof, hphi, hrho s h, C76_bulk, one_mul]
  set src := drive P G false laser S with hsrc
  set M := macroscopic P false src S with hM
  have mrho : ∀ s, ph0 s = LIQUID → M.rho s = 1 := hrho
  have ment : ∀ s, ph0 s = LIQUID → M.enthalpy s = P.heat_capacity := fun s h => hent s h
  have mT : ∀ s, ph0 s = LIQUID → M.T s = 1 := by
    intro s h
    show compute_T P (sumQ (S.h s)) = 1
    rw [hent s h, hT]
  have mu : ∀ s, ph0 s = LIQUID → M.u s = 0 := by
    intro s h
    funext a
    show compute_u P (S.f s) (M.rho s) (M.T s) (src.F s) a = 0
    rw [mrho s h, mT s h, hF s h]
    unfold compute_u
    simp only [((hl s h).1 _).1, we]
    rcases hg with h0 | h0
    · rw [h0]
      fin_cases a <;> simp
    · rw [if_pos h0]
  -- after the collisions the fluid cells are unchanged
  have cf : ∀ s, ph0 s = LIQUID → ∀ q,
      collide_f P (S.phase s) (S.f s) (M.rho s) (M.T s) (M.u s) (src.F s) q = weights q := by
    intro s h q
    rw [hp, h, mrho s h, mT s h, mu s h, hF s h]
    unfold collide_f
    rw [if_neg (by decide)]
    by_cases h1 : (1 : ℝ) < P.T_solidus
    · rw [if_pos h1, mul_one]
    · rw [if_neg h1]
      have h0 : G.gravity = 0 := hg.resolve_right h1
      have e1 : equilibrium_f q (1 : ℝ) 0 = weights q := by
        have := equilibrium_f_rest q (1 : ℝ)
        rw [mul_one] at this
        exact this
      have e2 : f_forcing P q 0 (fun a => ![0, 0, -G.gravity] a) = 0 := by
        unfold f_forcing
        rw [h0]
        have : ∑ a : Fin 3, (((vels a q : ℝ) - (0 : Fin 3 → ℝ) a) / cs_sq + velDot q 0 / cs_sq ^ 2 *
            (vels a q : ℝ)) * (![0, 0, -0] : Fin 3 → ℝ) a = 0 :=
          Finset.sum_eq_zero fun a _ => by fin_cases a <;> simp
        rw [this, mul_zero]
      rw [e1, e2, ((hl s h).1 q).1]; ring
  have eh : ∀ q, equilibrium_h P q P.heat_capacity 1 0 = weights q * P.heat_capacity := by
    intro q
    unfold equilibrium_h velDot
    simp only [Pi.zero_apply, mul_zero, Finset.sum_const_zero, zero_div, ne_eq, OfNat.ofNat_ne_zero,
      not_false_eq_true, zero_pow, add_zero, sub_zero, mul_one]
    split_ifs with h0
    · rw [h0]; ring
    · rfl
  have ch : ∀ s, ph0 s = LIQUID → ∀ q, collide_h P (S.phase s) (S.h s) (M.enthalpy s) (M.T s)
      (M.rho s) (M.u s) (src.Q s) q = weights q * P.heat_capacity := by
    intro s h q
    rw [hp, h, mrho s h, mT s h, mu s h, ment s h, hQ s]
    unfold collide_h
    rw [if_neg (by decide)]
    simp only [eh, ((hl s h).1 q).2, h_forcing]
    ring
  have hnoGas : ∀ s, ph0 s ≠ GAS := fun s => by rcases hph s with h | h <;> rw [h] <;> decide
  -- streaming
  have hcs : Quiet P ph0 (collideStream P false src S) := by
    refine ⟨hp, fun s h => ⟨fun q => ⟨?_, ?_⟩, ?_⟩⟩
    · simp only [collideStream, update_f, extractLocal, extractIncome, nb_zero]
      rw [← hM, hp, if_neg (by rw [h]; decide), if_pos h]
      show (if ph0 (nb (rev q) s) = GAS then _ else if ph0 (nb (rev q) s) = WALL then _ else _) = _
      rw [if_neg (hnoGas _)]
      split_ifs with hw
      · rw [← hp, cf s h, weights_rev]
      · rw [rev_rev, ← hp]
        exact cf _ ((hph _).resolve_right hw) q
    · simp only [collideStream, update_h, extractLocal, extractIncome, nb_zero]
      rw [← hM, hp, if_neg (by rw [h]; decide)]
      show (if ph0 (nb (rev q) s) = GAS then _ else if ph0 (nb (rev q) s) = WALL then _ else _) = _
      rw [if_neg (hnoGas _)]
      split_ifs with hw
      · have := eh q
        rw [show (T0 : ℝ) = 1 from rfl, one_mul]
        exact this
      · rw [rev_rev, ← hp]
        exact ch _ ((hph _).resolve_right hw) q
    · simp only [collideStream, update_f, extractLocal, nb_zero]
      rw [← hM, hp, if_neg (by rw [h]; decide), if_pos h]
      exact mrho s h
  -- the conversions change nothing
  have hall : ∀ s, (collideStream P false src S).phase s = LIQUID ∨
      (collideStream P false src S).phase s = WALL := fun s => by rw [hcs.1]; exact hph s
  have hstep : step P false m src S
      = updateMelted P M.T (refreshAll (collideStream P false src S)) := by
    unfold step
    simp only
    rw [lgToLiquid_id _ hall, gasToLg_id _ hall, lgToGas_id _ hall, liquidToLg_id _ hall,
      adhoc_id _ hall, correctMass_id _ hall]
  rw [hstep]
  refine ⟨?_, fun s h => ?_⟩
  · show (refreshAll _).phase = ph0
    rw [refreshAll_phase]; exact hcs.1
  · have hr : refresh ((collideStream P false src S).f s) ((collideStream P false src S).h s)
        ((collideStream P false src S).phase s) ((collideStream P false src S).mass s)
        = ((collideStream P false src S).f s, (collideStream P false src S).h s,
          (collideStream P false src S).phase s, (collideStream P false src S).mass s) := by
      unfold refresh
      exact if_neg (by rw [hcs.1, h]; decide)
    have e1 : (updateMelted P M.T (refreshAll (collideStream P false src S))).f s
        = (collideStream P false src S).f s := congrArg (·.1) hr
    have e2 : (updateMelted P M.T (refreshAll (collideStream P false src S))).h s
        = (collideStream P false src S).h s := congrArg (·.2.1) hr
    have e3 : (updateMelted P M.T (refreshAll (collideStream P false src S))).mass s
        = (collideStream P false src S).mass s := congrArg (·.2.2.2) hr
    rw [e1, e2, e3]
    exact hcs.2 s h

/-- **C78b.** A closed box without gas, at ambient temperature below the solidus (or without gravity), stays exactly at rest for every laser path: populations,
enthalpy, mass and phases of all fluid cells never change. -/
theorem C78_quiet (P : Params ℝ) (G : ForceParams) (ph0 : Site Nx Ny Nz → ℕ)
    (hph : ∀ s, ph0 s = LIQUID ∨ ph0 s = WALL)
    (hc : P.heat_capacity ≠ 0) (hs : P.heat_capacity < P.enthalpy_s)
    (hg : G.gravity = 0 ∨ 1 < P.T_solidus) (path : List (ℝ × ℝ × ℝ)) :
    let S := simulation P G false ph0 path
    S.phase = ph0 ∧ ∀ s, ph0 s = LIQUID →
      (∀ q, S.f s q = weights q ∧ S.h s q = weights q * P.heat_capacity) ∧ S.mass s = 1 := by
  intro S
  show Quiet P ph0 S
  have w1 : ∑ q, (weights q : ℝ) = 1 := C38_moments.1
  induction path using List.reverseRecOn with
  | nil =>
    show Quiet P ph0 (initState P ph0).1
    have hnoGas : ∀ s, ph0 s ≠ GAS := fun s => by rcases hph s with h | h <;> rw [h] <;> decide
    have hnoLG : ∀ s, ph0 s ≠ LG := fun s => by rcases hph s with h | h <;> rw [h] <;> decide
    have hr : ∀ (f h : Site Nx Ny Nz → Fin 19 → ℝ) rho u e T mass,
        reini_gas_to_lg P f h rho u e T ph0 mass = fun s => (f s, h s, ph0 s, mass s) := by
      intro f h rho u e T mass
      funext s
      simp only [reini_gas_to_lg, extractLocal, nb_zero]
      exact if_neg fun hh => hnoGas s hh.1
    refine ⟨?_, fun s h => ⟨fun q => ⟨?_, ?_⟩, ?_⟩⟩
    · simp only [initState, hr]
    · simp only [initState, hr]
      show weights q * 1 = weights q
      rw [mul_one]
    · simp only [initState, hr]
      show weights q * (1 * P.heat_capacity) = _
      rw [one_mul]
    · simp only [initState, hr]
      rw [if_neg (hnoLG s)]
      show ∑ q, weights q * (1 : ℝ) = 1
      simp only [mul_one]; exact w1
  | append_singleton l z ih =>
    have h1 : S = step P false (initState P ph0).2
        (drive P G false z (simulation P G false ph0 l)) (simulation P G false ph0 l) :=
      drivenRun_append _ _ _ _ _ _ _
    rw [h1]
    exact quiet_step P G _ z ph0 hph hc hs hg _ ih

/-- The hypotheses of C78b hold for a single liquid cell in a 3×3×3 wall box with gravity. -/
example : ∃ (P : Params ℝ) (G : ForceParams) (ph0 : Site 3 3 3 → ℕ),
    (∀ s, ph0 s = LIQUID ∨ ph0 s = WALL) ∧ P.heat_capacity ≠ 0 ∧ P.heat_capacity < P.enthalpy_s ∧
    (G.gravity = 0 ∨ 1 < P.T_solidus) ∧ G.gravity ≠ 0 ∧ ∃ s, ph0 s = LIQUID :=
  ⟨⟨1, 1, 1, 1, 2, 3, 2, 4⟩, ⟨1, 1, 1, 1, 1, 1, 1, 1, 1, 1, 1, 1, 1, 1⟩,
    fun s => if s = (1, 1, 1) then LIQUID else WALL,
    fun s => by dsimp only; split_ifs <;> simp, by norm_num, by norm_num, by norm_num, by norm_num,
    (1, 1, 1), by simp⟩

end Driven

end Verif.Lbm
