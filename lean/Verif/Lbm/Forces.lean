import Verif.Lbm.Model
import Mathlib.Analysis.SpecialFunctions.Pow.Real
import Mathlib.Analysis.SpecialFunctions.Exp
import Mathlib.Analysis.SpecialFunctions.Sqrt
import Mathlib.Analysis.Real.Pi.Bounds

/-!
# Driving terms of the lattice Boltzmann solver (model)

`jax_am/lbm/core.py` 16-46 and 114-237: interface normal, curvature by height functions, temperature gradient,
volume force, heat source, and the time loop with these terms in place of the arbitrary `Source` of `Verif.Lbm.Model`.
Real arithmetic; `h = 1`, `M0 = 1` are the lattice-unit constants of the code (core.py 590-594).
-/
namespace Verif.Lbm
open Finset

section Stencils
variable {Nx Ny Nz : ℕ} [NeZero Nx] [NeZero Ny] [NeZero Nz] {α : Type*}

/-- `(id + d) % N` with Python's non-negative remainder. -/
def wrap (n : ℕ) [NeZero n] (i : ℤ) : Fin n :=
  ⟨(i % n).toNat, by
    have hn : (0 : ℤ) < n := by exact_mod_cast NeZero.pos n
    have h1 := Int.emod_nonneg i hn.ne'
    have h2 := Int.emod_lt_of_pos i hn
    omega⟩

/-- The site at offset `(a, b, c)`, wrapped around in every direction. -/
def shift (a b c : ℤ) (s : Site Nx Ny Nz) : Site Nx Ny Nz :=
  (wrap Nx (s.1.1 + a), wrap Ny (s.2.1.1 + b), wrap Nz (s.2.2.1 + c))

/-- `extract_3x3x3_grid` (core.py 40-46). -/
def grid333 (s : Site Nx Ny Nz) (v : Site Nx Ny Nz → α) (a b c : Fin 3) : α :=
  v (shift ((a : ℤ) - 1) ((b : ℤ) - 1) ((c : ℤ) - 1) s)

/-- `extract_7x3x3_grid` (core.py 16-22). -/
def grid733 (s : Site Nx Ny Nz) (v : Site Nx Ny Nz → α) (a : Fin 7) (b c : Fin 3) : α :=
  v (shift ((a : ℤ) - 3) ((b : ℤ) - 1) ((c : ℤ) - 1) s)

/-- `extract_3x7x3_grid` (core.py 24-30). -/
def grid373 (s : Site Nx Ny Nz) (v : Site Nx Ny Nz → α) (a : Fin 3) (b : Fin 7) (c : Fin 3) : α :=
  v (shift ((a : ℤ) - 1) ((b : ℤ) - 3) ((c : ℤ) - 1) s)

/-- `extract_3x3x7_grid` (core.py 32-38). -/
def grid337 (s : Site Nx Ny Nz) (v : Site Nx Ny Nz → α) (a b : Fin 3) (c : Fin 7) : α :=
  v (shift ((a : ℤ) - 1) ((b : ℤ) - 1) ((c : ℤ) - 3) s)

end Stencils

/-- `h` (core.py 590): cell size in lattice units. -/
def hCell : ℝ := 1

/-- Central differences of a 3×3×3 block around its centre `[1,1,1]` (core.py 119-122 and 176-179). -/
noncomputable def centralGrad (g : Fin 3 → Fin 3 → Fin 3 → ℝ) : Fin 3 → ℝ :=
  ![(g 2 1 1 - g 0 1 1) / (2 * hCell), (g 1 2 1 - g 1 0 1) / (2 * hCell),
    (g 1 1 2 - g 1 1 0) / (2 * hCell)]

/-- `curvature` (core.py 144-154). In real arithmetic the value is always finite (the denominator is at least 1), so the `np.isfinite` filter is the
identity. -/
noncomputable def curvature (H : Fin 3 → Fin 3 → ℝ) : ℝ :=
  let Hx := (H 2 1 - H 0 1) / (2 * hCell)
  let Hy := (H 1 2 - H 1 0) / (2 * hCell)
  let Hxx := (H 2 1 - 2 * H 1 1 + H 0 1) / hCell ^ 2
  let Hyy := (H 1 2 - 2 * H 1 1 + H 1 0) / hCell ^ 2
  let Hxy := (H 2 2 - H 0 2 - H 2 0 + H 0 0) / (4 * hCell)
  let kappa := -(Hxx + Hyy + Hxx * Hy ^ 2 + Hyy * Hx ^ 2 - 2 * Hxy * Hx * Hy) /
    (1 + Hx ^ 2 + Hy ^ 2) ^ ((3 : ℝ) / 2)
  kappa

/-- `np.linalg.norm(v)` of a 3-vector. -/
noncomputable def norm3 (v : Fin 3 → ℝ) : ℝ := Real.sqrt (∑ a, v a ^ 2)

section Fields
variable {Nx Ny Nz : ℕ} [NeZero Nx] [NeZero Ny] [NeZero Nz]

/-- `get_phi` (core.py 115-122). -/
noncomputable def getPhi (vof : Site Nx Ny Nz → ℝ) (s : Site Nx Ny Nz) : Fin 3 → ℝ :=
  centralGrad (grid333 s vof)

/-- `kappa_7x3x3` (core.py 126-128): column sums along x, indexed by (y, z). -/
def heights1 (vof : Site Nx Ny Nz → ℝ) (s : Site Nx Ny Nz) (b c : Fin 3) : ℝ :=
  ∑ a, grid733 s vof a b c

/-- `kappa_3x7x3` (core.py 132-134): column sums along y, indexed by (x, z). -/
def heights2 (vof : Site Nx Ny Nz → ℝ) (s : Site Nx Ny Nz) (a c : Fin 3) : ℝ :=
  ∑ b, grid373 s vof a b c

/-- `kappa_3x3x7` (core.py 138-140): column sums along z, indexed by (x, y). -/
def heights3 (vof : Site Nx Ny Nz → ℝ) (s : Site Nx Ny Nz) (a b : Fin 3) : ℝ :=
  ∑ c, grid337 s vof a b c

/-- `kappa` of `compute_curvature` (core.py 156-165). -/
noncomputable def getKappa (vof : Site Nx Ny Nz → ℝ) (s : Site Nx Ny Nz) : ℝ :=
  let phi := getPhi vof s
  if |phi 0| ≥ |phi 1| ∧ |phi 0| ≥ |phi 2| then curvature (heights1 vof s)
  else if |phi 1| ≥ |phi 0| ∧ |phi 1| ≥ |phi 2| then curvature (heights2 vof s)
  else curvature (heights3 vof s)

/-- `get_T_grad` (core.py 171-179): gas and wall cells take the temperature of the centre cell. -/
noncomputable def getTGrad (T : Site Nx Ny Nz → ℝ) (phase : Site Nx Ny Nz → ℕ) (s : Site Nx Ny Nz) :
    Fin 3 → ℝ :=
  let T_grid := grid333 s T
  let phase_grid := grid333 s phase
  centralGrad fun a b c =>
    if phase_grid a b c = GAS ∨ phase_grid a b c = WALL then T_grid 1 1 1 else T_grid a b c

end Fields

/-- Parameters of the driving terms in lattice units (core.py 600-642). -/
structure ForceParams where
  gravity : ℝ
  st_coeff : ℝ
  st_grad_coeff : ℝ
  rp_coeff : ℝ
  p_atm : ℝ
  latent_heat_evap : ℝ
  gas_const : ℝ
  T_evap : ℝ
  SB_const : ℝ
  emissivity : ℝ
  h_conv : ℝ
  laser_power : ℝ
  absorbed_fraction : ℝ
  beam_size : ℝ

/-- `M0` (core.py 594). -/
def M0 : ℝ := 1

/-- `g` (core.py 642). -/
def gVec (G : ForceParams) : Fin 3 → ℝ := ![0, 0, -G.gravity]

/-- `normal` (core.py 190-191): `phi/norm(phi)`, where the NaN of `0/0` is replaced by zero. -/
noncomputable def normal (phi : Fin 3 → ℝ) : Fin 3 → ℝ := fun a => phi a / norm3 phi

/-- `Marangoni_force` (core.py 192-193), one site. -/
noncomputable def marangoni (G : ForceParams) (vof : ℝ) (phi T_grad : Fin 3 → ℝ) : Fin 3 → ℝ :=
  fun a => G.st_grad_coeff * (T_grad a - (∑ b, normal phi b * T_grad b) * normal phi a) *
    norm3 phi * 2 * vof

/-- `recoil_pressure` (core.py 195), one site. At `T = 0` (gas and wall cells) the exponent is `-inf` in floating point, so that the exponential
is zero; this is written out because division by zero is zero here. -/
noncomputable def recoil (G : ForceParams) (T : ℝ) (phi : Fin 3 → ℝ) : Fin 3 → ℝ := fun a =>
  G.rp_coeff * G.p_atm *
    (if T = 0 then 0 else
      Real.exp (G.latent_heat_evap * M0 * (T - G.T_evap) / (G.gas_const * T * G.T_evap))) * phi a

/-- `compute_f_source_term` (core.py 187-198), one site. -/
noncomputable def fSource (G : ForceParams) (rho vof : ℝ) (phi : Fin 3 → ℝ) (kappa T : ℝ)
    (T_grad : Fin 3 → ℝ) : Fin 3 → ℝ := fun a =>
  rho * gVec G a + G.st_coeff * kappa * phi a + marangoni G vof phi T_grad a + recoil G T phi a

/-- `q_loss` (core.py 216-218). -/
noncomputable def qLoss (G : ForceParams) (T vof : ℝ) (phi : Fin 3 → ℝ) : ℝ :=
  let q_rad := G.SB_const * G.emissivity * (T0 ^ 4 - T ^ 4)
  let q_conv := G.h_conv * (T0 - T)
  norm3 phi * (q_conv + q_rad) * 2 * vof

/-- `q_laser` (core.py 227). -/
noncomputable def qLaser (G : ForceParams) (x y laser_x laser_y switch : ℝ) : ℝ :=
  switch * 2 * G.laser_power * G.absorbed_fraction / (Real.pi * G.beam_size ^ 2) *
    Real.exp (-2 * ((x - laser_x) ^ 2 + (y - laser_y) ^ 2) / G.beam_size ^ 2)

/-- `compute_h_src` (core.py 210-235), one site with centroid `(x, y, _)`. -/
noncomputable def hSource (G : ForceParams) (T vof : ℝ) (phi : Fin 3 → ℝ)
    (x y laser_x laser_y switch : ℝ) : ℝ :=
  let tmp := -phi 2 * 1
  let tmp := if tmp > 0 then tmp else 0
  tmp * qLaser G x y laser_x laser_y switch * 2 * vof + qLoss G T vof phi

section Loop
variable {Nx Ny Nz : ℕ} [NeZero Nx] [NeZero Ny] [NeZero Nz]

/-- The driving terms of one pass, computed from the state (core.py 674-683); `laser = (x, y, switch)` is the sample of the path. The centroid of cell
`(i, j, k)` of the unit lattice is `(i + 1/2, j + 1/2, k + 1/2)` (C03). -/
noncomputable def drive (P : Params ℝ) (G : ForceParams) (fluid_only : Bool)
    (laser : ℝ × ℝ × ℝ) (S : State ℝ Nx Ny Nz) : Source ℝ Nx Ny Nz :=
  let rho := fun s => sumQ (S.f s)
  let enthalpy := fun s => sumQ (startH P fluid_only S.h s)
  let T := fun s => compute_T P (enthalpy s)
  let vof := fun s => compute_vof (rho s) (S.phase s) (S.mass s)
  let phi := getPhi vof
  let kappa := getKappa vof
  let T_grad := getTGrad T S.phase
  ⟨fun s => fSource G (rho s) (vof s) (phi s) (kappa s) (T s) (T_grad s),
   fun s => hSource G (T s) (vof s) (phi s) ((s.1.1 : ℝ) + 1 / 2) ((s.2.1.1 : ℝ) + 1 / 2)
     laser.1 laser.2.1 laser.2.2⟩

/-- The time loop of `simulation` (core.py 666-717) for the laser samples `1, 2, …` of the path. -/
noncomputable def drivenRun (P : Params ℝ) (G : ForceParams) (fluid_only : Bool) (total_mass : ℝ)
    (path : List (ℝ × ℝ × ℝ)) (S : State ℝ Nx Ny Nz) : State ℝ Nx Ny Nz :=
  path.foldl (fun S laser => step P fluid_only total_mass (drive P G fluid_only laser S) S) S

/-- `simulation` (core.py 15-724) for a given laser path. -/
noncomputable def simulation (P : Params ℝ) (G : ForceParams) (fluid_only : Bool)
    (initial_phase : Site Nx Ny Nz → ℕ) (path : List (ℝ × ℝ × ℝ)) : State ℝ Nx Ny Nz :=
  drivenRun P G fluid_only (initState P initial_phase).2 path (initState P initial_phase).1

end Loop
end Verif.Lbm
