import Verif.Cfd.Poisson
import Verif.Cfd.Ops
import Mathlib.Analysis.SpecialFunctions.Exp
import Mathlib.Analysis.Real.Pi.Bounds
import Mathlib.Algebra.Order.Floor.Ring

/-!
# Powder-bed melt pool driver `AM_3d` (model)

`jax_am/cfd/cfd_am.py` lines 142-385 (`AM_3d`) and 528-590 (`velocity_eqn.update`).  Printing, file output and the unused
attributes are left out.  Scalar fields of shape `(Nx, Ny, Nz, 1)` are `Arr3 (Fin 1 → ℝ)`.
-/
namespace Verif.Cfd
open Verif

/-- A box-shaped mesh: numbers of cells and lengths. -/
structure Box where
  n : Fin 3 → ℕ
  L : Fin 3 → ℝ

/-- `dX` of a box. -/
noncomputable def Box.dX (b : Box) : Fin 3 → ℝ := dX3 b.n b.L

/-- The `mesh3d` of a box. -/
noncomputable def Box.mesh (b : Box) : FvMesh 6 := mesh3d (b.n 0) (b.n 1) (b.n 2) (b.L 0) (b.L 1) (b.L 2)

/-- Entries of `args` used by `AM_3d`. -/
structure AmArgs where
  g : Box
  loc : Box
  X0 : Fin 3 → ℝ
  speed : ℝ
  P : ℝ
  tOff : ℝ
  eta : ℝ
  rb : ℝ
  phi : ℝ
  heatSource : ℤ
  h : ℝ
  sb : ℝ
  emis : ℝ
  Tref : ℝ
  Tl : ℝ
  Ts : ℝ
  dt : ℝ
  rho : ℝ
  visco : ℝ
  marangoni : ℝ

/-- `np.clip(x, lo, hi)`: `minimum(maximum(x, lo), hi)`. -/
def clip {K : Type*} [LinearOrder K] (x lo hi : K) : K := min (max x lo) hi

/-- `fluid_frac` (cfd_am.py 360-363). -/
noncomputable def fluidFrac (Ts Tl T : ℝ) : ℝ := (clip T Ts Tl - Ts) / (Tl - Ts)

/-- Python `round(x)`: to the nearest integer, ties to even. -/
noncomputable def pyRound (x : ℝ) : ℤ :=
  if x - ⌊x⌋ < 1 / 2 then ⌊x⌋ else if 1 / 2 < x - ⌊x⌋ then ⌊x⌋ + 1 else if Even ⌊x⌋ then ⌊x⌋ else ⌊x⌋ + 1

/-- `toolpath` (cfd_am.py 280-285). -/
noncomputable def toolpath (a : AmArgs) (t : ℝ) : ℝ × ℝ × ℝ × ℝ :=
  (a.X0 0 + t * a.speed, a.X0 1, a.X0 2, a.P * (if t < a.tOff then 1 else 0))

/-- Lower end of the window along an axis (cfd_am.py 240-241, 244-245). -/
noncomputable def boxLow (xl dx : ℝ) (N Nl : ℕ) : ℤ :=
  clip (pyRound (xl / dx) - pyRound ((Nl : ℝ) / 2)) 0 ((N : ℤ) - Nl)

/-- A window `x0:x1, y0:y1, z0:z1`. -/
structure Window where
  lo : Fin 3 → ℤ
  hi : Fin 3 → ℤ

/-- `get_moving_box_boundary` (cfd_am.py 237-252). -/
noncomputable def movingBox (a : AmArgs) (t : ℝ) : Window :=
  let p := toolpath a t
  let x0 := boxLow p.1 (a.g.dX 0) (a.g.n 0) (a.loc.n 0)
  let y0 := boxLow p.2.1 (a.g.dX 1) (a.g.n 1) (a.loc.n 1)
  let z0 : ℤ := (a.g.n 2 : ℤ) - a.loc.n 2
  ⟨![x0, y0, z0], ![x0 + a.loc.n 0, y0 + a.loc.n 1, a.g.n 2]⟩

/-- Start or stop of a Python slice on an axis of length `N`: negative numbers count from the end. -/
def pyIdx (N : ℕ) (s : ℤ) : ℕ := if s < 0 then (s + N).toNat else min s.toNat N

/-- Length of the slice `lo:hi` on an axis of length `N`. -/
def pyLen (N : ℕ) (lo hi : ℤ) : ℕ := pyIdx N hi - pyIdx N lo

/-- `f[x0:x1, y0:y1, z0:z1]`. -/
def sliceW {α : Type*} (f : Arr3 α) (w : Window) : Arr3 α :=
  ⟨pyLen f.n0 (w.lo 0) (w.hi 0), pyLen f.n1 (w.lo 1) (w.hi 1), pyLen f.n2 (w.lo 2) (w.hi 2),
    fun i j k => f.get (pyIdx f.n0 (w.lo 0) + i) (pyIdx f.n1 (w.lo 1) + j) (pyIdx f.n2 (w.lo 2) + k)⟩

/-- `f.at[x0:x1, y0:y1, z0:z1].set(v)` for `v` of the shape of the slice. -/
def setW {α : Type*} (f : Arr3 α) (w : Window) (v : Arr3 α) : Arr3 α :=
  ⟨f.n0, f.n1, f.n2, fun i j k =>
    if (pyIdx f.n0 (w.lo 0) ≤ i ∧ i < pyIdx f.n0 (w.hi 0)) ∧ (pyIdx f.n1 (w.lo 1) ≤ j ∧ j < pyIdx f.n1 (w.hi 1)) ∧
        (pyIdx f.n2 (w.lo 2) ≤ k ∧ k < pyIdx f.n2 (w.hi 2)) then
      v.get (i - pyIdx f.n0 (w.lo 0)) (j - pyIdx f.n1 (w.lo 1)) (k - pyIdx f.n2 (w.lo 2))
    else f.get i j k⟩

/-- `get_body_heat_source` (cfd_am.py 223-235). `none`: division by zero (`d == 0`), which raises for Python floats. -/
noncomputable def bodyHeatSource (a : AmArgs) (t : ℝ) (xc yc zc : ℝ) : Option ℝ :=
  let p := toolpath a t
  let d := a.phi * p.2.2.2 / a.speed / a.rb ^ 2
  if d = 0 then none
  else
    some (2 * p.2.2.2 * a.eta / d / Real.pi / a.rb ^ 2 * Real.exp (-2 * ((xc - p.1) ^ 2 + (yc - p.2.1) ^ 2) / a.rb ^ 2)
      * (if p.2.2.1 - zc ≤ d then 1 else 0))

/-- `Gaussian_flux` (cfd_am.py 326-332). -/
noncomputable def gaussianFlux (a : AmArgs) (xl yl P xc yc : ℝ) : ℝ :=
  2 * P * a.eta / Real.pi / a.rb ^ 2 * Real.exp (-2 * ((xc - xl) ^ 2 + (yc - yl) ^ 2) / a.rb ^ 2)

/-- `bc_values` of `energe_bc` (cfd_am.py 339-354); all types are 1. `Ttop` is `T[:, :, -1, :]`; the top values are flattened in row-major order and the
laser flux is added at the positions `surface[surf_sets[-1]]`. -/
noncomputable def energyBcValue (a : AmArgs) (t : ℝ) (Ttop : Arr2 (Fin 1 → ℝ)) : Fin 6 → ℕ → ℝ := fun s n =>
  if s = 5 then
    let T := Ttop.flatten.get n 0
    let q := -(a.h * (T - a.Tref)) - a.sb * a.emis * (T ^ 4 - a.Tref ^ 4)
    if a.heatSource = 0 then
      let pos := (surface3 (a.g.n 0) (a.g.n 1) (a.g.n 2) (a.g.L 0) (a.g.L 1) (a.g.L 2)).getD
        (surfStart3 (a.g.n 0) (a.g.n 1) (a.g.n 2) 5 + n) 0
      let p := toolpath a t
      q + gaussianFlux a p.1 p.2.1 p.2.2.2 (pos 0) (pos 1)
    else q
  else 0

/-- `marangoni_effect` (cfd_am.py 291-299): central differences of the symmetrically padded top temperature. -/
noncomputable def marangoniEffect (a : AmArgs) (Ttop : Arr2 (Fin 1 → ℝ)) : Arr2 (Fin 3 → ℝ) :=
  let T := pad2 Ttop
  ⟨Ttop.n0, Ttop.n1, fun i j => ![
    (T.get (i + 2) (j + 1) 0 - T.get i (j + 1) 0) / 2 / a.loc.dX 0 * a.marangoni / a.visco * fluidFrac a.Ts a.Tl (Ttop.get i j 0),
    (T.get (i + 1) (j + 2) 0 - T.get (i + 1) j 0) / 2 / a.loc.dX 1 * a.marangoni / a.visco * fluidFrac a.Ts a.Tl (Ttop.get i j 0),
    0]⟩

/-- `T[:, :, -1]`. -/
def topOf {α : Type*} (T : Arr3 α) : Arr2 α := ⟨T.n0, T.n1, fun i j => T.get i j (T.n2 - 1)⟩

/-- `vel_BCs` (cfd_am.py 303-306): vector form, no slip on five sides, Marangoni on top. -/
noncomputable def velBCs (a : AmArgs) (T : Arr3 (Fin 1 → ℝ)) : BCs ℝ 3 :=
  ⟨fun s => if s = 5 then .int 2 else .int 0, fun s => if s = 5 then marangoniEffect a (topOf T) else ⟨1, 1, fun _ _ _ => 0⟩⟩

/-- `bc_type` (cfd_am.py 309-310), scalar form per component. -/
def velBcType (c : Fin 3) : Fin 6 → ℤ := fun s => if s = 5 ∧ c ≠ 2 then 1 else 0

/-- `bc_values` (cfd_am.py 311-320). -/
noncomputable def velBcValue (a : AmArgs) (T : Arr3 (Fin 1 → ℝ)) (c : Fin 3) : Fin 6 → ℕ → ℝ := fun s n =>
  if s = 5 then (marangoniEffect a (topOf T)).flatten.get n c * a.visco else 0

/-- Component `c` of a field, flattened. -/
def flat {m : ℕ} (f : Arr3 (Fin m → ℝ)) (c : Fin m) : ℕ → ℝ := fun n => f.flatten.get n c

/-- `x.reshape(shape)`. -/
def unflat (b : Box) (x : ℕ → ℝ) : Arr3 ℝ := (⟨b.n 0 * b.n 1 * b.n 2, x⟩ : Arr1 ℝ).reshape3 (b.n 0) (b.n 1) (b.n 2)

/-- `div_vel` (cfd_am.py 575-579). -/
noncomputable def divVel (b : Box) (v : Fin 3 → Arr3 ℝ) (dt rho : ℝ) : Arr3 ℝ :=
  ⟨b.n 0, b.n 1, b.n 2, fun i j k =>
    (((v 0).get (i + 1) j k - (v 0).get i j k) / b.dX 0 + ((v 1).get i (j + 1) k - (v 1).get i j k) / b.dX 1
      + ((v 2).get i j (k + 1) - (v 2).get i j k) / b.dX 2) / dt * rho⟩

/-- `bicgstab(A, b)`. -/
abbrev LinSolve := ((ℕ → ℝ) → ℕ → ℝ) → (ℕ → ℝ) → ℕ → ℝ

/-- Prediction step of `velocity_eqn.update`, component `c` (cfd_am.py 562-572). -/
noncomputable def predict (a : AmArgs) (ls : LinSolve) (vel0 conv0 gradp0 : Arr3 (Fin 3 → ℝ)) (fl T : Arr3 (Fin 1 → ℝ)) (c : Fin 3) :
    Except PErr (ℕ → ℝ) :=
  (velPoisson a.loc.mesh a.visco a.rho a.dt (flat vel0 c) (flat conv0 c) (flat gradp0 c) (flat fl 0)
    (some (velBcType c)) (velBcValue a T c)).bind fun p => solverLinear p ls false

/-- `velocity_eqn.update` (cfd_am.py 556-590). The matrix of the pressure problem is computed once in the constructor at the zero field
(cfd_am.py 546-547), which is what `solverLinear` does. -/
noncomputable def velUpdate (a : AmArgs) (ls : LinSolve) (vel0 conv0 gradp0 : Arr3 (Fin 3 → ℝ)) (fl T : Arr3 (Fin 1 → ℝ)) :
    Option (Arr3 (Fin 3 → ℝ) × BCs ℝ 3 × Arr3 (Fin 3 → ℝ)) := do
  let u ← (predict a ls vel0 conv0 gradp0 fl T 0).toOption
  let v ← (predict a ls vel0 conv0 gradp0 fl T 1).toOption
  let w ← (predict a ls vel0 conv0 gradp0 fl T 2).toOption
  let vel : Arr3 (Fin 3 → ℝ) := Arr3.stack ![unflat a.loc u, unflat a.loc v, unflat a.loc w]
  let vf ← faceVels vel a.loc.dX (some (velBCs a T))
  let dv := divVel a.loc vf a.dt a.rho
  let pr ← ((presPoisson a.loc.mesh dv.flatten.get).bind fun p => solverLinear p ls false).toOption
  let p := unflat a.loc pr
  let g ← gradient ⟨p.n0, p.n1, p.n2, fun i j k _ => p.get i j k⟩ a.loc.dX none
  some (⟨vel.n0, vel.n1, vel.n2, fun i j k c => vel.get i j k c - a.dt * g.get i j k c / a.rho⟩, velBCs a T,
    ⟨vel.n0, vel.n1, vel.n2, fun i j k c => gradp0.get i j k c + g.get i j k c⟩)

/-- `energy_eqn.update` (cfd_am.py 515-525) with the boundary conditions of `energe_bc`; `ls U b` is the linear solve with the matrix at `U`,
`ratio` the residual ratio. -/
noncomputable def energyUpdate (a : AmArgs) (m : EnergyArgs) (ls : (ℕ → ℝ) → (ℕ → ℝ) → ℕ → ℝ) (ratio : (ℕ → ℝ) → (ℕ → ℝ) → Ratio)
    (T0 convT Q : Arr3 (Fin 1 → ℝ)) (t : ℝ) : Option (Arr3 (Fin 1 → ℝ)) :=
  match energyPoisson a.g.mesh m (flat T0 0) (flat convT 0) (flat Q 0) (some fun _ => 1) (energyBcValue a t (topOf T0)) with
  | .error _ => none
  | .ok p =>
    let r := solverNonlinear (fun U => ((p.computeResidual U).toOption.getD 0)) ls ratio (some (flat T0 0)) 1e-5 1 50
    let T := unflat a.g r.1
    some ⟨T.n0, T.n1, T.n2, fun i j k _ => T.get i j k⟩

/-- State of an `AM_3d` object. -/
structure AmState where
  t : ℝ
  T : Arr3 (Fin 1 → ℝ)
  solidID : Arr3 (Fin 1 → ℝ)
  vel : Arr3 (Fin 3 → ℝ)
  conv : Arr3 (Fin 3 → ℝ)
  gradp : Arr3 (Fin 3 → ℝ)
  convT : Arr3 (Fin 1 → ℝ)

/-- `eqn_T_init`, `eqn_V_init` (cfd_am.py 261-278), `self.t = 0.`. -/
def amInit (a : AmArgs) : AmState :=
  let z3 : Arr3 (Fin 3 → ℝ) := ⟨a.g.n 0, a.g.n 1, a.g.n 2, fun _ _ _ _ => 0⟩
  let z1 : Arr3 (Fin 1 → ℝ) := ⟨a.g.n 0, a.g.n 1, a.g.n 2, fun _ _ _ _ => 0⟩
  ⟨0, ⟨a.g.n 0, a.g.n 1, a.g.n 2, fun _ _ _ _ => a.Tref⟩, z1, z3, z3, z3, z1⟩

/-- `Q` of `time_integration` (cfd_am.py 168-171). -/
noncomputable def heatSource (a : AmArgs) (t : ℝ) : Option (Arr3 (Fin 1 → ℝ)) :=
  if a.heatSource = 1 then
    if (bodyHeatSource a t 0 0 0).isNone then none
    else
      let X := Xc3 (a.g.n 0) (a.g.n 1) (a.g.n 2) (a.g.L 0) (a.g.L 1) (a.g.L 2)
      let q : ℕ → ℝ := fun n => (bodyHeatSource a t (X.get n 0) (X.get n 1) (X.get n 2)).getD 0
      some ⟨a.g.n 0, a.g.n 1, a.g.n 2, fun i j k _ => (unflat a.g q).get i j k⟩
  else some ⟨a.g.n 0, a.g.n 1, a.g.n 2, fun _ _ _ _ => 0⟩

/-- Velocity update used by `time_integration`: a map from the windowed fields. -/
abbrev VelStep := Arr3 (Fin 3 → ℝ) → Arr3 (Fin 3 → ℝ) → Arr3 (Fin 3 → ℝ) → Arr3 (Fin 1 → ℝ) → Arr3 (Fin 1 → ℝ) →
  Option (Arr3 (Fin 3 → ℝ) × BCs ℝ 3 × Arr3 (Fin 3 → ℝ))

/-- Temperature update used by `time_integration`. -/
abbrev TempStep := Arr3 (Fin 1 → ℝ) → Arr3 (Fin 1 → ℝ) → Arr3 (Fin 1 → ℝ) → ℝ → Option (Arr3 (Fin 1 → ℝ))

/-- `time_integration` (cfd_am.py 167-193). `eqnT` and `eqnV` are the two equation updates (`energyUpdate`, `velUpdate`); a window whose shape is not the shape
of the local mesh makes the vectorised source term of the velocity equation fail (`vmap` over arrays of different lengths), hence `none`. -/
noncomputable def timeIntegration (a : AmArgs) (eqnT : TempStep) (eqnV : VelStep) (s : AmState) : Option AmState := do
  let Q ← heatSource a s.t
  let T ← eqnT s.T s.convT Q s.t
  let fl0 : Arr3 (Fin 1 → ℝ) := ⟨T.n0, T.n1, T.n2, fun i j k c => fluidFrac a.Ts a.Tl (T.get i j k c)⟩
  let solidID : Arr3 (Fin 1 → ℝ) := ⟨s.solidID.n0, s.solidID.n1, s.solidID.n2, fun i j k c => max (s.solidID.get i j k c) (fl0.get i j k c)⟩
  let w := movingBox a s.t
  let v0 := sliceW s.vel w
  if v0.n0 = a.loc.n 0 ∧ v0.n1 = a.loc.n 1 ∧ v0.n2 = a.loc.n 2 then
    let (vel, bcs, gradp) ← eqnV v0 (sliceW s.conv w) (sliceW s.gradp w) (sliceW fl0 w) (sliceW T w)
    let vf ← faceVels vel a.g.dX (some bcs)
    let convT ← div (sliceW T w) vf a.g.dX (1 / 8) none
    let conv ← div vel vf a.g.dX (1 / 8) none
    some ⟨s.t + a.dt, T, solidID, setW s.vel w vel, setW s.conv w conv, setW s.gradp w gradp, setW s.convT w convT⟩
  else none

end Verif.Cfd
