import Verif.Lbm.PropsDrive

/-!
# Conversion to lattice units (C79)

`jax_am/lbm/core.py` 590-642: physical parameters are divided by reference scales. The properties state that the temperature law, the forces and the heat source evaluated
in lattice units are the physical ones expressed in lattice units.
-/
namespace Verif.Lbm
open Finset

/-- Physical parameters (`lbm_args[..]['value']`) used by the solver. -/
structure Phys where
  h : ℝ
  dt : ℝ
  rho0 : ℝ
  T0 : ℝ
  M0 : ℝ
  gravity : ℝ
  dynamic_viscosity : ℝ
  st_coeff : ℝ
  st_grad_coeff : ℝ
  rp_coeff : ℝ
  laser_power : ℝ
  beam_size : ℝ
  absorbed_fraction : ℝ
  heat_capacity : ℝ
  thermal_diffusivity_l : ℝ
  thermal_diffusivity_s : ℝ
  emissivity : ℝ
  h_conv : ℝ
  latent_heat_evap : ℝ
  T_liquidus : ℝ
  T_solidus : ℝ
  T_evap : ℝ
  enthalpy_s : ℝ
  enthalpy_l : ℝ

/-- core.py 596-598 -/
noncomputable def pAtmReal : ℝ := 101325
noncomputable def gasConstReal : ℝ := 8.314
noncomputable def sbConstReal : ℝ := 5.67e-8

namespace Phys
variable (p : Phys)

/-- core.py 600-609 -/
noncomputable def cLength : ℝ := p.h / hCell
noncomputable def cTime : ℝ := p.dt / Lbm.dt
noncomputable def cDensity : ℝ := p.rho0 / Lbm.rho0
noncomputable def cTemperature : ℝ := p.T0 / Lbm.T0
noncomputable def cMolarMass : ℝ := p.M0 / Lbm.M0
noncomputable def cMass : ℝ := p.cDensity * p.cLength ^ 3
noncomputable def cForce : ℝ := p.cMass * p.cLength / p.cTime ^ 2
noncomputable def cEnergy : ℝ := p.cForce * p.cLength
noncomputable def cPressure : ℝ := p.cForce / p.cLength ^ 2
noncomputable def cMolar : ℝ := p.cMass / p.cMolarMass

/-- The parameters of the collision and phase change in lattice units (core.py 616, 624-640). -/
noncomputable def toParams : Params ℝ where
  tau_viscosity_nu :=
    p.dynamic_viscosity / (p.cMass / (p.cLength * p.cTime)) / Lbm.rho0 / (cs_sq * Lbm.dt) + 0.5
  tau_diffusivity_s := p.thermal_diffusivity_s / (p.cLength ^ 2 / p.cTime) / (cs_sq * Lbm.dt) + 0.5
  tau_diffusivity_l := p.thermal_diffusivity_l / (p.cLength ^ 2 / p.cTime) / (cs_sq * Lbm.dt) + 0.5
  heat_capacity := p.heat_capacity / (p.cEnergy / (p.cMass * p.cTemperature))
  T_solidus := p.T_solidus / p.cTemperature
  T_liquidus := p.T_liquidus / p.cTemperature
  enthalpy_s := p.enthalpy_s / (p.cEnergy / p.cMass)
  enthalpy_l := p.enthalpy_l / (p.cEnergy / p.cMass)

/-- The parameters of the driving terms in lattice units (core.py 611-633). -/
noncomputable def toForce : ForceParams where
  gravity := p.gravity / (p.cLength / p.cTime ^ 2)
  st_coeff := p.st_coeff / (p.cForce / p.cLength)
  st_grad_coeff := p.st_grad_coeff / (p.cForce / (p.cLength * p.cTemperature))
  rp_coeff := p.rp_coeff
  p_atm := pAtmReal / p.cPressure
  latent_heat_evap := p.latent_heat_evap / (p.cEnergy / p.cMass)
  gas_const := gasConstReal / (p.cEnergy / (p.cTemperature * p.cMolar))
  T_evap := p.T_evap / p.cTemperature
  SB_const := sbConstReal / (p.cMass / p.cTime ^ 3 / p.cTemperature ^ 4)
  emissivity := p.emissivity
  h_conv := p.h_conv / (p.cMass / p.cTime ^ 3 / p.cTemperature)
  laser_power := p.laser_power / (p.cEnergy / p.cTime)
  absorbed_fraction := p.absorbed_fraction
  beam_size := p.beam_size / p.cLength

/-- All reference scales are positive. -/
def Pos : Prop := 0 < p.h ∧ 0 < p.dt ∧ 0 < p.rho0 ∧ 0 < p.T0 ∧ 0 < p.M0

/-! ### Physical laws (specification) -/

/-- Temperature of the material at specific enthalpy `e` [J/kg]: sensible heat, linear melting interval, sensible heat of the melt. -/
noncomputable def temperature (e : ℝ) : ℝ :=
  if e < p.enthalpy_s then e / p.heat_capacity
  else if e < p.enthalpy_l then
    p.T_solidus + (e - p.enthalpy_s) / (p.enthalpy_l - p.enthalpy_s) * (p.T_liquidus - p.T_solidus)
  else p.T_liquidus + (e - p.enthalpy_l) / p.heat_capacity

/-- Force density [N/m³]: gravity, capillarity, thermocapillarity, recoil. `phi` [1/m] is the gradient of the fill level, `kappa` [1/m] the curvature. -/
noncomputable def force (rho vof : ℝ) (phi : Fin 3 → ℝ) (kappa T : ℝ) (gradT : Fin 3 → ℝ) :
    Fin 3 → ℝ := fun a =>
  rho * ![0, 0, -p.gravity] a + p.st_coeff * kappa * phi a
    + p.st_grad_coeff * 2 * vof * norm3 phi * tangential phi gradT a
    + p.rp_coeff * pAtmReal *
      Real.exp (p.latent_heat_evap * p.M0 / gasConstReal * (1 / p.T_evap - 1 / T)) * phi a

/-- Heat source density [W/m³]: absorbed laser light on upward faces plus convective and radiative exchange with the surroundings. -/
noncomputable def heat (T vof : ℝ) (phi : Fin 3 → ℝ) (x y lx ly switch : ℝ) : ℝ :=
  2 * vof * (max 0 (-phi 2) * (switch * 2 * p.laser_power * p.absorbed_fraction /
      (Real.pi * p.beam_size ^ 2) * Real.exp (-2 * ((x - lx) ^ 2 + (y - ly) ^ 2) / p.beam_size ^ 2))
    + norm3 phi * (p.h_conv * (p.T0 - T) + sbConstReal * p.emissivity * (p.T0 ^ 4 - T ^ 4)))

variable {p}

theorem scales (p : Phys) :
    p.cLength = p.h ∧ p.cTime = p.dt ∧ p.cDensity = p.rho0 ∧ p.cTemperature = p.T0 ∧
    p.cMolarMass = p.M0 := by
  simp [cLength, cTime, cDensity, cTemperature, cMolarMass, hCell, Lbm.dt, Lbm.rho0, Lbm.T0, Lbm.M0]

/-- **C79a.** Relaxation times: `tau = 3 ν Δt/Δx² + 1/2` in physical units, for viscosity and diffusivities. -/
theorem _root_.Verif.Lbm.C79_relaxation (hp : p.Pos) :
    p.toParams.tau_viscosity_nu = 3 * (p.dynamic_viscosity / p.rho0) * p.dt / p.h ^ 2 + 1 / 2 ∧
    p.toParams.tau_diffusivity_s = 3 * p.thermal_diffusivity_s * p.dt / p.h ^ 2 + 1 / 2 ∧
    p.toParams.tau_diffusivity_l = 3 * p.thermal_diffusivity_l * p.dt / p.h ^ 2 + 1 / 2 := by
  obtain ⟨e1, e2, e3, e4, e5⟩ := scales p
  obtain ⟨h1, h2, h3, h4, h5⟩ := hp
  simp only [toParams, cMass, e1, e2, e3, Lbm.dt, Lbm.rho0, cs_sq]
  refine ⟨?_, ?_, ?_⟩ <;> (field_simp; ring)

/-- **C79b.** The temperature law in lattice units is the physical one: scaling the enthalpy by `(Δx/Δt)²` scales the temperature by `T0`. -/
theorem _root_.Verif.Lbm.C79_temperature (hp : p.Pos) (e : ℝ) :
    compute_T p.toParams (e / (p.h / p.dt) ^ 2) = p.temperature e / p.T0 := by
  obtain ⟨e1, e2, e3, e4, e5⟩ := scales p
  obtain ⟨h1, h2, h3, h4, h5⟩ := hp
  have hE : p.cEnergy / p.cMass = (p.h / p.dt) ^ 2 := by
    simp only [cEnergy, cForce, cMass, e1, e2, e3]
    field_simp
  have hpos : 0 < (p.h / p.dt) ^ 2 := by positivity
  have hC : p.toParams.heat_capacity = p.heat_capacity * p.T0 / (p.h / p.dt) ^ 2 := by
    simp only [toParams, cEnergy, cForce, cMass, e1, e2, e3, e4]
    field_simp
  unfold compute_T temperature
  rw [hC]
  simp only [toParams, hE, e4]
  simp only [div_lt_div_iff_of_pos_right hpos]
  split_ifs
  · field_simp
  · rw [← sub_div, ← sub_div, div_div_div_cancel_right₀ hpos.ne', ← sub_div, add_div, mul_div_assoc]
  · rw [← sub_div, add_div]
    congr 1
    field_simp

theorem norm3_smul (c : ℝ) (hc : 0 ≤ c) (v : Fin 3 → ℝ) : norm3 (fun a => c * v a) = c * norm3 v := by
  unfold norm3
  have : ∑ a, (c * v a) ^ 2 = c ^ 2 * ∑ a, v a ^ 2 := by
    rw [Finset.mul_sum]; exact Finset.sum_congr rfl fun _ _ => by ring
  rw [this, Real.sqrt_mul (sq_nonneg c), Real.sqrt_sq hc]

theorem tangential_smul {c d : ℝ} (hc : c ≠ 0) (phi w : Fin 3 → ℝ) (a : Fin 3) :
    tangential (fun a => c * phi a) (fun a => d * w a) a = d * tangential phi w a := by
  unfold tangential
  have h1 : ∑ b, c * phi b * (d * w b) = c * d * ∑ b, phi b * w b := by
    rw [Finset.mul_sum]; exact Finset.sum_congr rfl fun _ _ => by ring
  have h2 : ∑ b, (c * phi b) ^ 2 = c ^ 2 * ∑ b, phi b ^ 2 := by
    rw [Finset.mul_sum]; exact Finset.sum_congr rfl fun _ _ => by ring
  rw [h1, h2]
  rcases eq_or_ne (∑ b, phi b ^ 2) 0 with h | h
  · rw [h]; simp
  · field_simp

/-- **C79c.** The force density computed in lattice units is the physical force density divided by the unit `ρ0 Δx/Δt²`. -/
theorem _root_.Verif.Lbm.C79_force (hp : p.Pos) (rho vof : ℝ) (phi : Fin 3 → ℝ) (kappa T : ℝ)
    (gradT : Fin 3 → ℝ) (hT : 0 < T) (hE : 0 < p.T_evap) (a : Fin 3) :
    fSource p.toForce (rho / p.rho0) vof (fun b => p.h * phi b) (p.h * kappa) (T / p.T0)
        (fun b => p.h / p.T0 * gradT b) a
      = p.force rho vof phi kappa T gradT a / (p.rho0 * p.h / p.dt ^ 2) := by
  obtain ⟨e1, e2, e3, e4, e5⟩ := scales p
  obtain ⟨h1, h2, h3, h4, h5⟩ := hp
  have hR : gasConstReal ≠ 0 := by unfold gasConstReal; norm_num
  unfold fSource force
  rw [marangoni_eq, norm3_smul p.h h1.le, tangential_smul h1.ne']
  have hx : p.toForce.latent_heat_evap * Lbm.M0 * (T / p.T0 - p.toForce.T_evap) /
      (p.toForce.gas_const * (T / p.T0) * p.toForce.T_evap)
      = p.latent_heat_evap * p.M0 / gasConstReal * (1 / p.T_evap - 1 / T) := by
    simp only [toForce, cMolar, cEnergy, cForce, cMass, e1, e2, e3, e4, e5, Lbm.M0]
    field_simp
  unfold recoil gVec
  rw [if_neg (by positivity), hx]
  simp only [toForce, cPressure, cForce, cMass, e1, e2, e3, e4]
  have hg : (![0, 0, -(p.gravity / (p.h / p.dt ^ 2))] : Fin 3 → ℝ) a
      = (![0, 0, -p.gravity] : Fin 3 → ℝ) a / (p.h / p.dt ^ 2) := by
    fin_cases a <;> simp
    ring
  rw [hg]
  field_simp

/-- **C79d.** The heat source computed in lattice units (positions divided by `Δx`) is the physical one divided by the unit `ρ0 Δx²/Δt³`. -/
theorem _root_.Verif.Lbm.C79_heat (hp : p.Pos) (T vof : ℝ) (phi : Fin 3 → ℝ)
    (x y lx ly switch : ℝ) :
    hSource p.toForce (T / p.T0) vof (fun b => p.h * phi b) (x / p.h) (y / p.h) (lx / p.h)
        (ly / p.h) switch
      = p.heat T vof phi x y lx ly switch / (p.rho0 * p.h ^ 2 / p.dt ^ 3) := by
  obtain ⟨e1, e2, e3, e4, e5⟩ := scales p
  obtain ⟨h1, h2, h3, h4, h5⟩ := hp
  unfold hSource qLoss qLaser heat
  rw [norm3_smul p.h h1.le]
  have hm : (if -(p.h * phi 2) * 1 > 0 then -(p.h * phi 2) * 1 else 0) = p.h * max 0 (-phi 2) := by
    rcases le_total 0 (phi 2) with h | h
    · rw [if_neg (by nlinarith [mul_nonneg h1.le h]), max_eq_left (by linarith), mul_zero]
    · rw [max_eq_right (by linarith)]
      split_ifs with h0
      · ring
      · have := mul_nonneg h1.le (neg_nonneg.2 h)
        linarith
  have hexp : -2 * ((x / p.h - lx / p.h) ^ 2 + (y / p.h - ly / p.h) ^ 2) / p.toForce.beam_size ^ 2
      = -2 * ((x - lx) ^ 2 + (y - ly) ^ 2) / p.beam_size ^ 2 := by
    simp only [toForce, e1]
    rcases eq_or_ne p.beam_size 0 with h | h
    · rw [h]; simp
    · field_simp
  simp only
  rw [hm, hexp]
  simp only [toForce, cEnergy, cForce, cMass, e1, e2, e3, e4, Lbm.T0]
  rcases eq_or_ne p.beam_size 0 with h | h
  · rw [h]; simp; field_simp
  · field_simp

end Phys

/-- The scales of `applications/lbm/pbf/lbm_params.json` are positive and give the relaxation time `0.5 + 3·(0.007/8440)·2e-7/(6e-6)²`. -/
noncomputable def pbfPhys : Phys where
  h := 6e-6
  dt := 2e-7
  rho0 := 8440
  T0 := 300
  M0 := 6.14e-2
  gravity := 9.8
  dynamic_viscosity := 0.007
  st_coeff := 1.8
  st_grad_coeff := -2e-5
  rp_coeff := 0.54
  laser_power := 100
  beam_size := 25e-6
  absorbed_fraction := 0.4
  heat_capacity := 588.23
  thermal_diffusivity_l := 5.769e-06
  thermal_diffusivity_s := 1.885e-6
  emissivity := 0.3
  h_conv := 100
  latent_heat_evap := 6.173e6
  T_liquidus := 1623
  T_solidus := 1563
  T_evap := 3188
  enthalpy_s := 9.19403e5
  enthalpy_l := 1.210397e6

theorem pbf_pos : pbfPhys.Pos := by unfold Phys.Pos pbfPhys; norm_num

/-- The shipped parameters: below the stability limit asked for in the commented-out assertion, and melting at the solidus temperature up to rounding of the input. -/
example : 1 / 2 < pbfPhys.toParams.tau_viscosity_nu ∧ pbfPhys.toParams.tau_viscosity_nu < 0.52 ∧
    compute_T pbfPhys.toParams (pbfPhys.enthalpy_s / (pbfPhys.h / pbfPhys.dt) ^ 2) = 1563 / 300 := by
  refine ⟨?_, ?_, ?_⟩
  · rw [(C79_relaxation pbf_pos).1]; unfold pbfPhys; norm_num
  · rw [(C79_relaxation pbf_pos).1]; unfold pbfPhys; norm_num
  · rw [C79_temperature pbf_pos]
    unfold Phys.temperature pbfPhys
    norm_num

end Verif.Lbm
