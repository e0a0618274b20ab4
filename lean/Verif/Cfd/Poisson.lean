import Verif.Cfd.MeshModel
import Mathlib.Analysis.Calculus.FDeriv.Basic
import Mathlib.Analysis.Calculus.FDeriv.Pi

/-!
# Cell-based diffusion solver (model)

`jax_am/cfd/cfd_am.py`: class `poisson` (388-492), `energy_eqn` (495-525), `solver_linear` (748-777),
`solver_nonlinear` (780-813).
-/
namespace Verif.Cfd
open Verif

/-- The mesh attributes used by `poisson`: cell table, distances, face areas, volume, boundary faces; `ns` sides per cell. -/
structure FvMesh (ns : ℕ) where
  N : ℕ
  conn : ℕ → Fin (ns + 1) → ℕ
  D : Fin ns → ℝ
  dS : Fin ns → ℝ
  dV : ℝ
  surfCell : List ℕ
  surfStart : Fin ns → ℕ
  surfNum : Fin ns → ℕ

/-- `mesh3d` (cfd_am.py 668-745). -/
noncomputable def mesh3d (Nx Ny Nz : ℕ) (Lx Ly Lz : ℝ) : FvMesh 6 :=
  let d := dX3 ![Nx, Ny, Nz] ![Lx, Ly, Lz]
  ⟨Nx * Ny * Nz, (cellConn3 Nx Ny Nz).get, D3 d, dS3 d, dV3 d, surfCell3 Nx Ny Nz, surfStart3 Nx Ny Nz, surfSetNum3 Nx Ny Nz⟩

/-- The `nonlinear` argument: compared with `==` against `False` and `True` (cfd_am.py 394, 431, 462); a string equals neither. -/
inductive PyFlag where
  | bool (b : Bool)
  | str (s : String)
  deriving DecidableEq

/-- Python exceptions of this part. -/
inductive PErr where
  | assertion
  /-- `self.mu` or `self.mu_fn` was never set -/
  | attribute
  /-- `residual.at[surf_cell].add(-flux)` with incompatible shapes -/
  | shape
  deriving DecidableEq

/-- A `poisson` object. `src n u` is `source_fn` applied to the unknown and to the extra arguments of cell `n`.
`bc_type` is `None` or a list with one number per side. `bcValue i t` is entry `t` of `bc_value[i]`. -/
structure Poisson (ns : ℕ) where
  msh : FvMesh ns
  flag : PyFlag
  mu : Option ℝ
  muFn : Option (ℝ → ℝ)
  src : ℕ → ℝ → ℝ
  bcType : Option (Fin ns → ℤ)
  bcValue : Fin ns → ℕ → ℝ

variable {ns : ℕ}

/-- `poisson.__init__` (cfd_am.py 389-409). -/
def poissonInit (msh : FvMesh ns) (flag : PyFlag) (mu : Option ℝ) (muFn : Option (ℝ → ℝ)) (src : Option (ℕ → ℝ → ℝ))
    (bcType : Option (Fin ns → ℤ)) (bcValue : Fin ns → ℕ → ℝ) : Except PErr (Poisson ns) :=
  let source := src.getD (fun _ _ => 0)
  if flag = .bool false then
    match mu with
    | some m => .ok ⟨msh, flag, some m, none, source, bcType, bcValue⟩
    | none => .error .assertion
  else
    match muFn with
    | some f => .ok ⟨msh, flag, none, some f, source, bcType, bcValue⟩
    | none => .error .assertion

namespace Poisson

/-- Diffusivity of the face between two cells: `self.mu` (cfd_am.py 412) or the harmonic mean (cfd_am.py 416). -/
noncomputable def faceMu (p : Poisson ns) (Up Unb : ℝ) : ℝ :=
  if p.flag = .bool false then p.mu.getD 0
  else let f := p.muFn.getD (fun _ => 0); 2 * f Up * f Unb / (f Unb + f Up)

/-- `linear_laplace_kernel`, `nonlinear_laplace_kernel` (cfd_am.py 411-417). -/
noncomputable def laplaceKernel (p : Poisson ns) (Up : ℝ) (Unb : Fin ns → ℝ) : ℝ :=
  ∑ s, (Unb s - Up) / p.msh.D s * p.faceMu Up (Unb s) * p.msh.dS s

/-- `compute_residual_kernel` (cfd_am.py 446-449) at cell `n`. -/
noncomputable def residualKernel (p : Poisson ns) (n : ℕ) (x : Fin (ns + 1) → ℝ) : ℝ :=
  -p.laplaceKernel (x 0) (fun s => x s.succ) - p.src n (x 0) * p.msh.dV

/-- `surf_cell[surf_sets[i]]`. -/
def sideCellsOf (m : FvMesh ns) (i : Fin ns) : List ℕ :=
  (List.range (m.surfNum i)).map fun t => m.surfCell.getD (m.surfStart i + t) 0

/-- Diffusivity used at a Dirichlet side (cfd_am.py 431-434 and 462-465). -/
def dirMu (p : Poisson ns) (v : ℝ) : Except PErr ℝ :=
  if p.flag = .bool true then
    match p.muFn with
    | some f => .ok (f v)
    | none => .error .attribute
  else
    match p.mu with
    | some m => .ok m
    | none => .error .attribute

/-- Piece of `flux` contributed by side `i` (cfd_am.py 430-442). -/
noncomputable def sideFlux (p : Poisson ns) (ty : Fin ns → ℤ) (U : ℕ → ℝ) (i : Fin ns) : Except PErr (List ℝ) :=
  if ty i = 0 then
    -- `self.mu` is looked up even if the side has no faces
    (p.dirMu 0).bind fun _ =>
      ((List.range (p.msh.surfNum i)).mapM fun t => (p.dirMu (p.bcValue i t)).map fun mu =>
        mu * 2 * (p.bcValue i t - U ((sideCellsOf p.msh i).getD t 0)) / p.msh.D i * p.msh.dS i)
  else if ty i = 1 then .ok ((List.range (p.msh.surfNum i)).map fun t => p.bcValue i t * |p.msh.dS i|)
  else .ok []

/-- `x.at[idx].add(vals)`: repeated indices accumulate. -/
def scatterAdd (x : ℕ → ℝ) (idx : List ℕ) (vals : List ℝ) : ℕ → ℝ :=
  fun n => x n + (((idx.zip vals).filter fun q => q.1 = n).map Prod.snd).sum

/-- `apply_BC_to_residual` (cfd_am.py 426-444). A one-element `flux` would be broadcast. -/
noncomputable def applyBcResidual (p : Poisson ns) (U r : ℕ → ℝ) : Except PErr (ℕ → ℝ) :=
  match p.bcType with
  | none => .ok r
  | some ty =>
    ((List.finRange ns).mapM (p.sideFlux ty U)).bind fun fl =>
      let flux := fl.flatten
      if flux.length = p.msh.surfCell.length then .ok (scatterAdd r p.msh.surfCell (flux.map (- ·)))
      else if flux.length = 1 then .ok (scatterAdd r p.msh.surfCell ((List.replicate p.msh.surfCell.length (flux.getD 0 0)).map (- ·)))
      else .error .shape

/-- `compute_residual` (cfd_am.py 451-454). -/
noncomputable def computeResidual (p : Poisson ns) (U : ℕ → ℝ) : Except PErr (ℕ → ℝ) :=
  p.applyBcResidual U fun n => -p.laplaceKernel (U (p.msh.conn n 0)) (fun s => U (p.msh.conn n s.succ)) - p.src n (U n) * p.msh.dV

/-- Dirichlet pieces of `apply_BC_to_matrix` for side `i`: pairs (cell, value) (cfd_am.py 456-472). -/
noncomputable def sideDiag (p : Poisson ns) (ty : Fin ns → ℤ) (i : Fin ns) : Except PErr (List (ℕ × ℝ)) :=
  if ty i = 0 then
    (p.dirMu 0).bind fun _ =>
      ((List.range (p.msh.surfNum i)).mapM fun t => (p.dirMu (p.bcValue i t)).map fun mu =>
        ((sideCellsOf p.msh i).getD t 0, mu * 2 / p.msh.D i * p.msh.dS i))
  else .ok []

/-- `newton_update` (cfd_am.py 474-481): per cell the derivatives of the local residual with respect to its `ns+1` entries
(`jax.jacrev` is the Fréchet derivative applied to unit vectors), plus the Dirichlet terms in column 0. -/
noncomputable def newtonUpdate (p : Poisson ns) (U : ℕ → ℝ) : Except PErr (ℕ → Fin (ns + 1) → ℝ) :=
  let values : ℕ → Fin (ns + 1) → ℝ := fun n c => fderiv ℝ (p.residualKernel n) (fun c => U (p.msh.conn n c)) (Pi.single c 1)
  match p.bcType with
  | none => .ok values
  | some ty =>
    ((List.finRange ns).mapM (p.sideDiag ty)).bind fun l =>
      let diag := scatterAdd (fun _ => 0) (l.flatten.map Prod.fst) (l.flatten.map Prod.snd)
      .ok fun n c => if c = 0 then values n c + diag n else values n c

/-- `compute_linearized_residual` (cfd_am.py 483-484). -/
def linearized (m : FvMesh ns) (values : ℕ → Fin (ns + 1) → ℝ) (U : ℕ → ℝ) : ℕ → ℝ :=
  fun n => ∑ c, values n c * U (m.conn n c)

/-- `precond_values` (cfd_am.py 481): entries of the row whose column is the cell itself. -/
def precondValues (m : FvMesh ns) (values : ℕ → Fin (ns + 1) → ℝ) : ℕ → ℝ :=
  fun n => ∑ c, (if m.conn n c = n then 1 else 0) * values n c

/-- `jacobiPreconditioner` (cfd_am.py 486-488). -/
noncomputable def jacobi (m : FvMesh ns) (values : ℕ → Fin (ns + 1) → ℝ) (U : ℕ → ℝ) : ℕ → ℝ :=
  fun n => 1 / precondValues m values n * U n

end Poisson

/-! ## `energy_eqn` and `velocity_eqn` -/

/-- Material data of `energy_eqn` (cfd_am.py 496-505). -/
structure EnergyArgs where
  cp : ℝ → ℝ
  k : ℝ → ℝ
  latent : ℝ
  Tl : ℝ
  Ts : ℝ
  rho : ℝ
  dt : ℝ

/-- `cp_fn` (cfd_am.py 497-498). -/
noncomputable def EnergyArgs.cpFn (a : EnergyArgs) (T : ℝ) : ℝ :=
  a.cp T + a.latent / (a.Tl - a.Ts) * (if T > a.Ts then 1 else 0) * (if T < a.Tl then 1 else 0)

/-- `fn` (cfd_am.py 499-500). -/
noncomputable def EnergyArgs.source (a : EnergyArgs) (T T0 conv Q : ℝ) : ℝ :=
  -a.rho * (T - T0) * a.cpFn T0 / a.dt - a.rho * a.cpFn T0 * conv + Q

/-- The `poisson` object of `energy_eqn` with boundary conditions set (cfd_am.py 501-512): `nonlinear='True'` is a string. -/
noncomputable def energyPoisson (m : FvMesh ns) (a : EnergyArgs) (T0 conv Q : ℕ → ℝ) (bcType : Option (Fin ns → ℤ))
    (bcValue : Fin ns → ℕ → ℝ) : Except PErr (Poisson ns) :=
  poissonInit m (.str "True") none (some a.k) (some fun n T => a.source T (T0 n) (conv n) (Q n)) bcType bcValue

/-- Source of the velocity prediction (cfd_am.py 533-535). -/
noncomputable def velSource (rho dt u u0 conv gradp fl : ℝ) : ℝ :=
  -rho * (u - u0) / dt - rho * conv - gradp - 1e7 * rho * (1 - fl) ^ 2 / (fl ^ 3 + 1e-5) * u

/-- The `poisson` object of the velocity prediction, one component (cfd_am.py 536-539, 563-570). -/
noncomputable def velPoisson (m : FvMesh ns) (visco rho dt : ℝ) (u0 conv gradp fl : ℕ → ℝ) (bcType : Option (Fin ns → ℤ))
    (bcValue : Fin ns → ℕ → ℝ) : Except PErr (Poisson ns) :=
  poissonInit m (.bool false) (some visco) none (some fun n u => velSource rho dt u (u0 n) (conv n) (gradp n) (fl n)) bcType bcValue

/-- The pressure correction problem (cfd_am.py 541-544): no boundary terms, source `-div_v`. -/
def presPoisson (m : FvMesh ns) (divv : ℕ → ℝ) : Except PErr (Poisson ns) :=
  poissonInit m (.bool false) (some 1) none (some fun n _ => -divv n) none (fun _ _ => 0)

/-! ## Solvers -/

/-- `solver_linear` (cfd_am.py 748-777) with `update=True`; `bicgstab A b` is the iterative solver (its `info` is not looked at). With
`relative` row 0 is replaced by the first unit row and `b[0]` by 0. -/
noncomputable def solverLinear (p : Poisson ns) (bicgstab : ((ℕ → ℝ) → ℕ → ℝ) → (ℕ → ℝ) → ℕ → ℝ) (relative : Bool) :
    Except PErr (ℕ → ℝ) :=
  (p.computeResidual fun _ => 0).bind fun res =>
    (p.newtonUpdate fun _ => 0).bind fun values =>
      let values := if relative then fun n => if n = 0 then (fun c => if c = 0 then 1 else 0) else values n else values
      let b : ℕ → ℝ := fun n => -res n
      let b := if relative then fun n => if n = 0 then 0 else b n else b
      let inc := bicgstab (Poisson.linearized p.msh values) b
      .ok fun n => 0 + inc n

/-- Outcome of a comparison `a / b > tol` in floating point: `0/0` and overflow give "not a number", and every comparison with it is false. -/
inductive Ratio where
  | num (r : ℝ)
  | nan

/-- `solver_nonlinear` (cfd_am.py 780-813): `while_loop` with the residual ratio test and the iteration counter, with fuel `max_it - it`.
`residual`, `norm`, `ratio` and the linear solver are arbitrary. Returns the unknowns, the right-hand side and the counter. -/
def nlLoop {V R : Type*} (cond : R → Bool) (body : V → R → V × R) : ℕ → V → R → ℕ → V × R × ℕ
  | 0, dofs, b, it => (dofs, b, it)
  | fuel + 1, dofs, b, it =>
    if cond b then let (d, b') := body dofs b; nlLoop cond body fuel d b' (it + 1) else (dofs, b, it)

/-- One Newton update (cfd_am.py 800-807): linear solve, relaxed update, new right-hand side `-residual`. -/
def nlBody {V : Type*} [AddCommGroup V] [Module ℝ V] (residual : V → V) (solve : V → V → V) (relaxation : ℝ) (dofs b : V) : V × V :=
  let inc := solve dofs b
  let dofs := dofs + relaxation • inc
  (dofs, -residual dofs)

/-- `cond_fun` without the counter test (cfd_am.py 796-798). -/
noncomputable def nlCond {V : Type*} (ratio : V → Ratio) (tol : ℝ) (b : V) : Bool :=
  match ratio b with
  | .num r => decide (r > tol)
  | .nan => false

/-- `solver_nonlinear` (cfd_am.py 780-813). -/
noncomputable def solverNonlinear {V : Type*} [AddCommGroup V] [Module ℝ V] (residual : V → V) (solve : V → V → V)
    (ratio : V → V → Ratio) (init : Option V) (tol relaxation : ℝ) (max_it : ℕ) : V × V × ℕ :=
  let dofs := init.getD 0
  let b := -residual dofs
  nlLoop (nlCond (ratio b) tol) (nlBody residual solve relaxation) max_it dofs b 0

end Verif.Cfd
