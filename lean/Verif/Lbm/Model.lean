import Verif.Base.Tactics
import Mathlib.Algebra.BigOperators.Fin
import Mathlib.Algebra.BigOperators.Field
import Mathlib.Algebra.Order.BigOperators.Group.Finset
import Mathlib.Data.Fintype.Prod
import Mathlib.Data.Fintype.BigOperators

/-!
# Free-surface thermal lattice Boltzmann solver (model)

`jax_am/lbm/core.py`, `simulation`.  Scalars live in a linearly ordered field `K` (exact arithmetic).
A field on the `(Nx, Ny, Nz)` lattice is a function on `Site`.  `jax.vmap` over
`lattice_ids` followed by `shape_wrapper` is the function `Site → _` (justified by C03).
Curvature, temperature-gradient, force and heat-source formulas (core.py 114-235) are *inputs* of a
step: the step theorems hold for arbitrary `f_source_term`, `h_source_term`.
-/
namespace Verif.Lbm
open Finset

/-! ## Lattice tables (core.py 578-591) -/

/-- `vels` (core.py 578-580). -/
def vels : Fin 3 → Fin 19 → ℤ :=
  ![![0, 1, -1, 0,  0, 0,  0, 1, -1 , 1, -1, 1, -1, -1,  1, 0,  0,  0,  0],
    ![0, 0,  0, 1, -1, 0,  0, 1, -1, -1,  1, 0,  0,  0,  0, 1, -1,  1, -1],
    ![0, 0,  0, 0,  0, 1, -1, 0,  0,  0,  0, 1, -1,  1, -1, 1, -1, -1,  1]]

/-- `rev` (core.py 581). -/
def rev : Fin 19 → Fin 19 := ![0, 2, 1, 4, 3, 6, 5, 8, 7, 10, 9, 12, 11, 14, 13, 16, 15, 18, 17]

/-- `weights` (core.py 582-583). -/
def weights {K : Type*} [Field K] : Fin 19 → K :=
  ![1/3, 1/18, 1/18, 1/18, 1/18, 1/18, 1/18, 1/36, 1/36, 1/36,
    1/36, 1/36, 1/36, 1/36, 1/36, 1/36, 1/36, 1/36, 1/36]

/-- `ST` (lbm/utils.py 8-15). -/
def LIQUID : ℕ := 0
def LG : ℕ := 1
def GAS : ℕ := 2
def WALL : ℕ := 3

/-- Run-time parameters that enter the step (core.py 585-642), in lattice units.  The lattice-unit
constants `dt = 1`, `m = 1/2`, `cs_sq = 1/3`, `theta = 1e-3`, `rho0 = T0 = 1`, `rho_g = rho0` are
those of the code. -/
structure Params (K : Type*) where
  tau_viscosity_nu : K
  tau_diffusivity_s : K
  tau_diffusivity_l : K
  heat_capacity : K
  T_solidus : K
  T_liquidus : K
  enthalpy_s : K
  enthalpy_l : K

variable {K : Type*} [Field K] [LinearOrder K]

/-- core.py 585-594 -/
def cs_sq : K := 1 / 3
def dt : K := 1
def mHalf : K := 1 / 2
def theta : K := 1 / 1000
def rho0 : K := 1
def T0 : K := 1
def rho_g : K := rho0

/-! ## Indexing -/

/-- JAX gather index semantics: negative indices count from the end, then clamp to the array. -/
def jaxIdx (n : ℕ) [NeZero n] (i : ℤ) : Fin n :=
  let j := if i < 0 then i + n else i
  ⟨min j.toNat (n - 1), by have := NeZero.pos n; omega⟩

section Sites
variable (Nx Ny Nz : ℕ)

/-- A lattice site `(id_x, id_y, id_z)`. -/
abbrev Site := Fin Nx × Fin Ny × Fin Nz

variable {Nx Ny Nz} [NeZero Nx] [NeZero Ny] [NeZero Nz]

/-- The site addressed by `values[vels[0]+id_x, vels[1]+id_y, vels[2]+id_z]` in entry `q`
(`extract_local`, core.py 48-50). -/
def nb (q : Fin 19) (s : Site Nx Ny Nz) : Site Nx Ny Nz :=
  (jaxIdx Nx (vels 0 q + s.1.1), jaxIdx Ny (vels 1 q + s.2.1.1), jaxIdx Nz (vels 2 q + s.2.2.1))

/-- `extract_local` (core.py 48-50). -/
def extractLocal {α : Type*} (s : Site Nx Ny Nz) (v : Site Nx Ny Nz → α) : Fin 19 → α :=
  fun q => v (nb q s)

/-- `extract_income` (core.py 52-54). -/
def extractIncome {α : Type*} (s : Site Nx Ny Nz) (v : Site Nx Ny Nz → Fin 19 → α) : Fin 19 → α :=
  fun q => v (nb q s) (rev q)

end Sites

/-! ## Local formulas -/

/-- `vel_dot_u`: `np.sum(vels[:, q] * u)`. -/
def velDot (q : Fin 19) (u : Fin 3 → K) : K := ∑ a, (vels a q : K) * u a

/-- `equilibrium_f` (core.py 61-64). -/
def equilibrium_f (q : Fin 19) (rho : K) (u : Fin 3 → K) : K :=
  let vel_dot_u := velDot q u
  let u_sq := ∑ a, u a * u a
  weights q * rho * (1 + vel_dot_u / cs_sq + vel_dot_u ^ 2 / (2 * cs_sq ^ 2) - u_sq / (2 * cs_sq))

/-- `equilibrium_h` (core.py 69-74). -/
def equilibrium_h (P : Params K) (q : Fin 19) (enthalpy T : K) (u : Fin 3 → K) : K :=
  let u_sq := ∑ a, u a * u a
  let vel_dot_u := velDot q u
  let result := weights q * P.heat_capacity * T *
    (1 + vel_dot_u / cs_sq + vel_dot_u ^ 2 / (2 * cs_sq ^ 2) - u_sq / (2 * cs_sq))
  let result0 := enthalpy - P.heat_capacity * T
    + weights 0 * P.heat_capacity * T * (1 - u_sq / (2 * cs_sq))
  if q = 0 then result0 else result

/-- `f_forcing` (core.py 79-81). -/
def f_forcing (P : Params K) (q : Fin 19) (u F : Fin 3 → K) : K :=
  (1 - 1 / (2 * P.tau_viscosity_nu)) * weights q *
    ∑ a, (((vels a q : K) - u a) / cs_sq + velDot q u / cs_sq ^ 2 * (vels a q : K)) * F a

/-- `h_forcing_vmap` (core.py 86-87). -/
def h_forcing (volume_power rho : K) (q : Fin 19) : K := volume_power / rho * weights q

/-- `compute_rho` / `compute_enthalpy` (core.py 95-98): sum over the 19 populations. -/
def sumQ (f : Fin 19 → K) : K := ∑ q, f q

/-- `compute_T` (core.py 101-105). -/
def compute_T (P : Params K) (e : K) : K :=
  if e < P.enthalpy_s then e / P.heat_capacity
  else if e < P.enthalpy_l then
    P.T_solidus + (e - P.enthalpy_s) / (P.enthalpy_l - P.enthalpy_s) * (P.T_liquidus - P.T_solidus)
  else P.T_liquidus + (e - P.enthalpy_l) / P.heat_capacity

/-- `compute_vof` (core.py 108-112), one site. -/
def compute_vof (rho : K) (phase : ℕ) (mass : K) : K :=
  let vof := if phase = LIQUID then rho else mass
  let vof := if phase = GAS then 0 else vof
  if phase = WALL then rho0 else vof

/-- `compute_u` (core.py 202-207), one site. -/
def compute_u (P : Params K) (f : Fin 19 → K) (rho T : K) (F : Fin 3 → K) : Fin 3 → K := fun a =>
  let u := (∑ q, f q * (vels a q : K) + dt * mHalf * F a) / (if rho = 0 then 1 else rho)
  let u := if rho = 0 then 0 else u
  if T < P.T_solidus then 0 else u

/-- `collide_f` (core.py 240-264), one site with phase `ph` (`phase_local[0]`). -/
def collide_f (P : Params K) (ph : ℕ) (f : Fin 19 → K) (rho T : K) (u F : Fin 3 → K) :
    Fin 19 → K := fun q =>
  if ph = GAS ∨ ph = WALL then 0
  else if T < P.T_solidus then weights q * rho
  else 1 / P.tau_viscosity_nu * (equilibrium_f q rho u - f q) + f q + f_forcing P q u F * dt

/-- `collide_h` (core.py 269-295), one site. -/
def collide_h (P : Params K) (ph : ℕ) (h : Fin 19 → K) (enthalpy T rho : K) (u : Fin 3 → K)
    (src : K) : Fin 19 → K := fun q =>
  if ph = GAS ∨ ph = WALL then 0
  else
    let tau := if T < P.T_solidus then P.tau_diffusivity_s else P.tau_diffusivity_l
    1 / tau * (equilibrium_h P q enthalpy T u - h q) + h q + h_forcing src rho q * dt

section Global
variable {Nx Ny Nz : ℕ} [NeZero Nx] [NeZero Ny] [NeZero Nz]

/-- `update_f` (core.py 300-357): streamed populations and new mass at site `s`. -/
def update_f (f : Site Nx Ny Nz → Fin 19 → K) (rho : Site Nx Ny Nz → K)
    (u : Site Nx Ny Nz → Fin 3 → K) (phase : Site Nx Ny Nz → ℕ) (mass vof : Site Nx Ny Nz → K)
    (s : Site Nx Ny Nz) : (Fin 19 → K) × K :=
  let f_self := f s
  let income := extractIncome s f
  let u_self := u s
  let phase_local := extractLocal s phase
  let vof_local := extractLocal s vof
  if phase_local 0 = GAS ∨ phase_local 0 = WALL then (fun _ => 0, 0)
  else
    let streamed : Fin 19 → K := fun q =>
      if phase_local (rev q) = GAS then
        equilibrium_f (rev q) rho_g u_self + equilibrium_f q rho_g u_self - f_self (rev q)
      else if phase_local (rev q) = WALL then f_self (rev q)
      else income (rev q)
    if phase_local 0 = LIQUID then (streamed, rho s)
    else
      -- `jax.lax.switch(phase_local[q], [liquid, lg, gas_or_wall, gas_or_wall], q)`
      let mass_change : Fin 19 → K := fun q =>
        if phase_local q = LIQUID then income q - f_self q
        else if phase_local q = LG then
          (income q - f_self q) * (vof_local q + vof_local 0) / 2
        else 0
      let delta_m := ∑ q, mass_change q
      (streamed, delta_m + mass s)

/-- `update_h` (core.py 363-392). -/
def update_h (P : Params K) (h : Site Nx Ny Nz → Fin 19 → K) (phase : Site Nx Ny Nz → ℕ)
    (s : Site Nx Ny Nz) : Fin 19 → K := fun q =>
  let h_self := h s
  let income := extractIncome s h
  let phase_local := extractLocal s phase
  if phase_local 0 = GAS ∨ phase_local 0 = WALL then 0
  else if phase_local (rev q) = GAS then h_self (rev q)
  else if phase_local (rev q) = WALL then
    equilibrium_h P q (T0 * P.heat_capacity) T0 (fun _ => 0)
  else income (rev q)

/-- `reini_lg_to_liquid` (core.py 398-406), one site. -/
def reini_lg_to_liquid (f : Fin 19 → K) (ph : ℕ) (mass : K) : ℕ :=
  let rho_self := sumQ f
  if ph = LG ∧ mass > (1 + theta) * rho_self then LIQUID else ph

/-- `reini_gas_to_lg` (core.py 411-438). Result `(f, h, phase, mass)`.
`np.sum(nb_liquid_flag * x)/np.sum(nb_liquid_flag)` are averages over the liquid/interface cells of the stencil. -/
def reini_gas_to_lg (P : Params K) (f h : Site Nx Ny Nz → Fin 19 → K) (rho : Site Nx Ny Nz → K)
    (u : Site Nx Ny Nz → Fin 3 → K) (enthalpy T : Site Nx Ny Nz → K) (phase : Site Nx Ny Nz → ℕ)
    (mass : Site Nx Ny Nz → K) (s : Site Nx Ny Nz) :
    (Fin 19 → K) × (Fin 19 → K) × ℕ × K :=
  let phase_local := extractLocal s phase
  if phase_local 0 = GAS ∧ ∃ q : Fin 19, q ≠ 0 ∧ phase_local q = LIQUID then
    let flag : Fin 19 → K := fun q =>
      if phase_local q = LIQUID ∨ phase_local q = LG then 1 else 0
    let n := ∑ q, flag q
    let rho_avg := (∑ q, flag q * extractLocal s rho q) / n
    let u_avg : Fin 3 → K := fun a => (∑ q, flag q * extractLocal s u q a) / n
    let enthalpy_avg := (∑ q, flag q * extractLocal s enthalpy q) / n
    let T_avg := (∑ q, flag q * extractLocal s T q) / n
    (fun q => equilibrium_f q rho_avg u_avg,
      fun q => equilibrium_h P q enthalpy_avg T_avg u_avg, LG, 0)
  else (f s, h s, phase_local 0, mass s)

/-- `reini_lg_to_gas` (core.py 443-451), one site. -/
def reini_lg_to_gas (f : Fin 19 → K) (ph : ℕ) (mass : K) : ℕ :=
  let rho_self := sumQ f
  if ph = LG ∧ mass < (0 - theta) * rho_self then GAS else ph

/-- `reini_liquid_to_lg` (core.py 456-468). Result `(phase, mass)`. -/
def reini_liquid_to_lg (f : Site Nx Ny Nz → Fin 19 → K) (phase : Site Nx Ny Nz → ℕ)
    (mass : Site Nx Ny Nz → K) (s : Site Nx Ny Nz) : ℕ × K :=
  let rho_self := sumQ (f s)
  let phase_local := extractLocal s phase
  if phase_local 0 = LIQUID ∧ ∃ q : Fin 19, q ≠ 0 ∧ phase_local q = GAS then (LG, rho_self)
  else (phase_local 0, mass s)

/-- `adhoc_step` (core.py 473-484). -/
def adhoc_step (phase : Site Nx Ny Nz → ℕ) (s : Site Nx Ny Nz) : ℕ :=
  let phase_local := extractLocal s phase
  let gas_nb_flag := ∀ q : Fin 19, q ≠ 0 →
    (phase_local q = WALL ∨ phase_local q = GAS ∨ phase_local q = LG)
  let gas_flag := phase_local 0 = LG ∧ gas_nb_flag
  let liquid_nb_flag := ∀ q : Fin 19, q ≠ 0 →
    (phase_local q = WALL ∨ phase_local q = LIQUID ∨ phase_local q = LG)
  let liquid_flag := phase_local 0 = LG ∧ liquid_nb_flag
  if gas_flag then GAS else if liquid_flag then LIQUID else phase_local 0

/-- `refresh_for_output` (core.py 489-500), one site. Result `(f, h, phase, mass)`. -/
def refresh (f h : Fin 19 → K) (ph : ℕ) (mass : K) : (Fin 19 → K) × (Fin 19 → K) × ℕ × K :=
  if ph = GAS ∨ ph = WALL then (fun _ => 0, fun _ => 0, ph, 0) else (f, h, ph, mass)

/-- `compute_total_mass` (core.py 505-516), one site. -/
def cellMass (f : Fin 19 → K) (ph : ℕ) (mass : K) : K :=
  if ph = LIQUID then sumQ f else if ph = LG then mass else 0

/-- `np.sum(compute_total_mass_vmap(...))` (core.py 660, 709). -/
def totalMass (f : Site Nx Ny Nz → Fin 19 → K) (phase : Site Nx Ny Nz → ℕ)
    (mass : Site Nx Ny Nz → K) : K := ∑ s, cellMass (f s) (phase s) (mass s)

/-- Arrays carried from one time step to the next (core.py 648-720). -/
structure State (K : Type*) (Nx Ny Nz : ℕ) where
  f : Site Nx Ny Nz → Fin 19 → K
  h : Site Nx Ny Nz → Fin 19 → K
  phase : Site Nx Ny Nz → ℕ
  mass : Site Nx Ny Nz → K
  melted : Site Nx Ny Nz → K

/-- Driving terms of one step: `compute_f_source_term`, `compute_h_source_term` (core.py 186-237);
arbitrary. -/
structure Source (K : Type*) (Nx Ny Nz : ℕ) where
  F : Site Nx Ny Nz → Fin 3 → K
  Q : Site Nx Ny Nz → K

/-- Initialisation (core.py 648-662). Returns the state and `total_mass`. -/
def initState (P : Params K) (initial_phase : Site Nx Ny Nz → ℕ) : State K Nx Ny Nz × K :=
  let f : Site Nx Ny Nz → Fin 19 → K := fun _ q => weights q * rho0
  let h : Site Nx Ny Nz → Fin 19 → K := fun _ q => weights q * (T0 * P.heat_capacity)
  let mass : Site Nx Ny Nz → K := fun s => sumQ (f s)
  let rho : Site Nx Ny Nz → K := fun s => sumQ (f s)
  let u : Site Nx Ny Nz → Fin 3 → K := fun _ _ => 0
  let enthalpy : Site Nx Ny Nz → K := fun s => sumQ (h s)
  let T : Site Nx Ny Nz → K := fun s => compute_T P (enthalpy s)
  let r := reini_gas_to_lg P f h rho u enthalpy T initial_phase mass
  let f1 := fun s => (r s).1
  let h1 := fun s => (r s).2.1
  let phase1 := fun s => (r s).2.2.1
  let mass1 := fun s => if phase1 s = LG then 1 / 2 * sumQ (f1 s) else (r s).2.2.2
  (⟨f1, h1, phase1, mass1, fun _ => 0⟩, totalMass f1 phase1 mass1)

/-- Macroscopic fields computed at the beginning of a pass (core.py 671-685). -/
structure Macro (K : Type*) (Nx Ny Nz : ℕ) where
  rho : Site Nx Ny Nz → K
  enthalpy : Site Nx Ny Nz → K
  T : Site Nx Ny Nz → K
  vof : Site Nx Ny Nz → K
  u : Site Nx Ny Nz → Fin 3 → K

/-- `h_distribute` at the beginning of a pass (core.py 671-672, `fluid_only`). -/
def startH (P : Params K) (fluid_only : Bool) (h : Site Nx Ny Nz → Fin 19 → K) :
    Site Nx Ny Nz → Fin 19 → K :=
  if fluid_only then fun _ q => weights q * (P.enthalpy_l + 1) else h

/-- core.py 674-683. -/
def macroscopic (P : Params K) (fluid_only : Bool) (src : Source K Nx Ny Nz)
    (S : State K Nx Ny Nz) : Macro K Nx Ny Nz :=
  let rho := fun s => sumQ (S.f s)
  let enthalpy := fun s => sumQ (startH P fluid_only S.h s)
  let T := fun s => compute_T P (enthalpy s)
  let vof := fun s => compute_vof (rho s) (S.phase s) (S.mass s)
  let u := fun s => compute_u P (S.f s) (rho s) (T s) (src.F s)
  ⟨rho, enthalpy, T, vof, u⟩

/-- Collisions and streaming (core.py 685-689). -/
def collideStream (P : Params K) (fluid_only : Bool) (src : Source K Nx Ny Nz)
    (S : State K Nx Ny Nz) : State K Nx Ny Nz :=
  let M := macroscopic P fluid_only src S
  let f1 := fun s => collide_f P (S.phase s) (S.f s) (M.rho s) (M.T s) (M.u s) (src.F s)
  let h1 := fun s => collide_h P (S.phase s) (startH P fluid_only S.h s) (M.enthalpy s) (M.T s)
    (M.rho s) (M.u s) (src.Q s)
  let r2 := update_f f1 M.rho M.u S.phase S.mass M.vof
  ⟨fun s => (r2 s).1, update_h P h1 S.phase, S.phase, fun s => (r2 s).2, S.melted⟩

/-- core.py 695: interface → liquid. -/
def lgToLiquid (S : State K Nx Ny Nz) : State K Nx Ny Nz :=
  { S with phase := fun s => reini_lg_to_liquid (S.f s) (S.phase s) (S.mass s) }

/-- core.py 701: gas → interface (uses the macroscopic fields of the start of the pass). -/
def gasToLg (P : Params K) (M : Macro K Nx Ny Nz) (S : State K Nx Ny Nz) : State K Nx Ny Nz :=
  let r := reini_gas_to_lg P S.f S.h M.rho M.u M.enthalpy M.T S.phase S.mass
  ⟨fun s => (r s).1, fun s => (r s).2.1, fun s => (r s).2.2.1, fun s => (r s).2.2.2, S.melted⟩

/-- core.py 704: interface → gas. -/
def lgToGas (S : State K Nx Ny Nz) : State K Nx Ny Nz :=
  { S with phase := fun s => reini_lg_to_gas (S.f s) (S.phase s) (S.mass s) }

/-- core.py 707: liquid → interface. -/
def liquidToLg (S : State K Nx Ny Nz) : State K Nx Ny Nz :=
  let r := reini_liquid_to_lg S.f S.phase S.mass
  { S with phase := fun s => (r s).1, mass := fun s => (r s).2 }

/-- core.py 709: `adhoc_step`. -/
def adhoc (S : State K Nx Ny Nz) : State K Nx Ny Nz := { S with phase := adhoc_step S.phase }

/-- Mass correction (core.py 711-712). -/
def correctMass (total_mass : K) (S : State K Nx Ny Nz) : State K Nx Ny Nz :=
  let calculated_mass := totalMass S.f S.phase S.mass
  let nLG : K := ∑ s, if S.phase s = LG then 1 else 0
  { S with mass := fun s =>
      if S.phase s = LG then S.mass s + (total_mass - calculated_mass) / nLG else S.mass s }

/-- core.py 714: `refresh_for_output`. -/
def refreshAll (S : State K Nx Ny Nz) : State K Nx Ny Nz :=
  let r := fun s => refresh (S.f s) (S.h s) (S.phase s) (S.mass s)
  ⟨fun s => (r s).1, fun s => (r s).2.1, fun s => (r s).2.2.1, fun s => (r s).2.2.2, S.melted⟩

/-- core.py 717: `melted = np.where(T > T_solidus, 1., melted)`. -/
def updateMelted (P : Params K) (T : Site Nx Ny Nz → K) (S : State K Nx Ny Nz) : State K Nx Ny Nz :=
  { S with melted := fun s => if T s > P.T_solidus then 1 else S.melted s }

/-- One pass of the time loop (core.py 666-717). -/
def step (P : Params K) (fluid_only : Bool) (total_mass : K) (src : Source K Nx Ny Nz)
    (S : State K Nx Ny Nz) : State K Nx Ny Nz :=
  let M := macroscopic P fluid_only src S
  let S2 := collideStream P fluid_only src S
  let S3 := lgToLiquid S2
  let S4 := gasToLg P M S3
  let S5 := lgToGas S4
  let S6 := liquidToLg S5
  let S7 := adhoc S6
  let S8 := correctMass total_mass S7
  let S9 := refreshAll S8
  updateMelted P M.T S9

/-- The whole time loop (core.py 666-720): one entry of `srcs` per time step. -/
def run (P : Params K) (fluid_only : Bool) (total_mass : K) (srcs : List (Source K Nx Ny Nz))
    (S : State K Nx Ny Nz) : State K Nx Ny Nz :=
  srcs.foldl (fun S src => step P fluid_only total_mass src S) S

/-- `simulation` after the given driving history. -/
def simulate (P : Params K) (fluid_only : Bool) (initial_phase : Site Nx Ny Nz → ℕ)
    (srcs : List (Source K Nx Ny Nz)) : State K Nx Ny Nz :=
  run P fluid_only (initState P initial_phase).2 srcs (initState P initial_phase).1

end Global
end Verif.Lbm
