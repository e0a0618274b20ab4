import Verif.Base.Arr
import Mathlib.Analysis.SpecialFunctions.Trigonometric.Inverse
import Mathlib.Analysis.SpecialFunctions.Exp
import Mathlib.Analysis.Calculus.Deriv.Basic

/-!
# Allen–Cahn grain-growth model (model)

`jax_am/phase_field/allen_cahn.py`.  The state `eta` (shape `(num_cells, num_oris)`) is a function `ℕ → Fin m → ℝ`; entries beyond the number of cells are irrelevant.
-/
namespace Verif.PhaseField
open Verif

/-- `np.concatenate((a, b), axis=2)`. -/
def cat2 {α : Type*} (a b : Arr3 α) : Arr3 α :=
  ⟨a.n0, a.n1, a.n2 + b.n2, fun i j k => if k < a.n2 then a.get i j k else b.get i j (k - a.n2)⟩
/-- `np.concatenate((a, b), axis=1)`. -/
def cat1 {α : Type*} (a b : Arr3 α) : Arr3 α :=
  ⟨a.n0, a.n1 + b.n1, a.n2, fun i j k => if j < a.n1 then a.get i j k else b.get i (j - a.n1) k⟩
/-- `np.concatenate((a, b), axis=0)`. -/
def cat0 {α : Type*} (a b : Arr3 α) : Arr3 α :=
  ⟨a.n0 + b.n0, a.n1, a.n2, fun i j k => if i < a.n0 then a.get i j k else b.get (i - a.n0) j k⟩

/-- `a[:, :, :1]`, `a[:, :, -1:]` and the same for the other axes. -/
def first2 {α : Type*} (a : Arr3 α) : Arr3 α := ⟨a.n0, a.n1, 1, a.get⟩
def last2 {α : Type*} (a : Arr3 α) : Arr3 α := ⟨a.n0, a.n1, 1, fun i j k => a.get i j (a.n2 - 1 + k)⟩
def first1 {α : Type*} (a : Arr3 α) : Arr3 α := ⟨a.n0, 1, a.n2, a.get⟩
def last1 {α : Type*} (a : Arr3 α) : Arr3 α := ⟨a.n0, 1, a.n2, fun i j k => a.get i (a.n1 - 1 + j) k⟩
def first0 {α : Type*} (a : Arr3 α) : Arr3 α := ⟨1, a.n1, a.n2, a.get⟩
def last0 {α : Type*} (a : Arr3 α) : Arr3 α := ⟨1, a.n1, a.n2, fun i j k => a.get (a.n0 - 1 + i) j k⟩

/-- The entries of `pf_args` and of `polycrystal` that are used. `dirs` are the `d + 1` crystal directions of each orientation (`unique_grain_directions`). -/
structure PfArgs (m d : ℕ) where
  Nx : ℕ
  Ny : ℕ
  Nz : ℕ
  hx : ℝ
  hy : ℝ
  hz : ℝ
  m_g : ℝ
  kappa_g : ℝ
  ad_hoc : ℝ
  L0 : ℝ
  Qg : ℝ
  gas_const : ℝ
  T_liquidus : ℝ
  anisotropy : ℝ
  dirs : Fin (d + 1) → Fin m → Fin 3 → ℝ

variable {m d : ℕ}

/-- Number of cells. -/
def PfArgs.N (P : PfArgs m d) : ℕ := P.Nz * P.Ny * P.Nx

/-- `local_energy_fn` (allen_cahn.py 42-49), with `gamma = 1`. -/
noncomputable def localEnergy (P : PfArgs m d) (eta : ℕ → Fin m → ℝ) (zeta : ℕ → ℝ) : ℝ :=
  let gamma := 1
  let grain_energy_1 := ∑ n ∈ Finset.range P.N, ∑ o, (eta n o ^ 4 / 4 - eta n o ^ 2 / 2)
  let graph_energy_2 := gamma * ((∑ n ∈ Finset.range P.N, ∑ o, ∑ p, (eta n o * eta n p) ^ 2)
    - ∑ n ∈ Finset.range P.N, ∑ o, eta n o ^ 4)
  let graph_energy_3 := ∑ n ∈ Finset.range P.N, (1 - zeta n) ^ 2 * ∑ o, eta n o ^ 2
  P.m_g * (grain_energy_1 + graph_energy_2 + graph_energy_3)

/-- Replace one entry of the state. -/
def setEntry (eta : ℕ → Fin m → ℝ) (n : ℕ) (o : Fin m) (s : ℝ) : ℕ → Fin m → ℝ :=
  Function.update eta n (Function.update (eta n) o s)

/-- `local_energy_grad_fn = jax.grad(local_energy_fn, argnums=0)` (allen_cahn.py 51): the partial derivatives. -/
noncomputable def localEnergyGrad (P : PfArgs m d) (eta : ℕ → Fin m → ℝ) (zeta : ℕ → ℝ) (n : ℕ) (o : Fin m) : ℝ :=
  deriv (fun s => localEnergy P (setEntry eta n o s) zeta) (eta n o)

/-- `T = np.where(T > 2000., 2000., T)` (allen_cahn.py 56). -/
noncomputable def capT (T : ℝ) : ℝ := if T > 2000 then 2000 else T

/-- `zeta` (allen_cahn.py 57). `th` is `np.tanh`; floating point `tanh` saturates at ±1, so it is a parameter. -/
noncomputable def zetaOf (th : ℝ → ℝ) (P : PfArgs m d) (T : ℕ → ℝ) (n : ℕ) : ℝ :=
  1 / 2 * (1 - th (1e10 * (capT (T n) / P.T_liquidus - 1)))

/-- `Lg` (allen_cahn.py 83). -/
noncomputable def LgOf (P : PfArgs m d) (T : ℕ → ℝ) (n : ℕ) : ℝ :=
  P.L0 * Real.exp (-P.Qg / (capT (T n) * P.gas_const))

/-- `update_anisotropy_helper` at one cell and one orientation (allen_cahn.py 28-39). A zero edge gives 0/0 = nan, which `np.isfinite` replaces by angle 0; quotients outside [-1, 1] (possible if the
crystal directions are not normalised) give nan in numpy, hence 0, while `Real.arccos` gives 0 or π, which the folding in the next line also maps to 0. -/
noncomputable def anisoTerm (P : PfArgs m d) (o : Fin m) (edge : Fin 3 → ℝ) : ℝ :=
  let angle : Fin (d + 1) → ℝ := fun q =>
    let nrm := Real.sqrt (∑ c, edge c ^ 2)
    let a := if nrm = 0 then 0 else Real.arccos ((∑ c, P.dirs q o c * edge c) / nrm)
    if a < Real.pi / 2 then a else Real.pi - a
  let ang := Finset.univ.inf' ⟨0, Finset.mem_univ _⟩ angle
  1 + P.anisotropy * (Real.cos ang ^ 4 + Real.sin ang ^ 4)

/-- The neighbour fields `eta_neg_x, eta_pos_x, eta_neg_y, ...` (allen_cahn.py 60-66). -/
def negX {α : Type*} (a : Arr3 α) : Arr3 α := cat2 (first2 a) a.init2
def posX {α : Type*} (a : Arr3 α) : Arr3 α := cat2 a.tail2 (last2 a)
def negY {α : Type*} (a : Arr3 α) : Arr3 α := cat1 (first1 a) a.init1
def posY {α : Type*} (a : Arr3 α) : Arr3 α := cat1 a.tail1 (last1 a)
def negZ {α : Type*} (a : Arr3 α) : Arr3 α := cat0 (first0 a) a.init0
def posZ {α : Type*} (a : Arr3 α) : Arr3 α := cat0 a.tail0 (last0 a)

/-- `aniso` (allen_cahn.py 68-72). -/
noncomputable def anisoField (P : PfArgs m d) (e : Arr3 (Fin m → ℝ)) : Arr3 (Fin m → ℝ) :=
  ⟨e.n0, e.n1, e.n2, fun k j i o =>
    if P.anisotropy > 0 then
      anisoTerm P o ![(posX e).get k j i o - (negX e).get k j i o, (posY e).get k j i o - (negY e).get k j i o,
        (posZ e).get k j i o - (negZ e).get k j i o]
    else 1⟩

/-- `laplace` (allen_cahn.py 75-81): the three second differences times `aniso * kappa_g * ad_hoc`, summed over directions, flattened to `(num_cells, num_oris)`. -/
noncomputable def laplaceTerm (P : PfArgs m d) (eta : ℕ → Fin m → ℝ) : Arr1 (Fin m → ℝ) :=
  let e : Arr3 (Fin m → ℝ) := (⟨P.N, eta⟩ : Arr1 _).reshape3 P.Nz P.Ny P.Nx
  let an := anisoField P e
  let lap : Arr3 (Fin m → ℝ) := ⟨e.n0, e.n1, e.n2, fun k j i o =>
    -((((posX e).get k j i o - e.get k j i o) + ((negX e).get k j i o - e.get k j i o)) / P.hx ^ 2
        * an.get k j i o * P.kappa_g * P.ad_hoc)
    + -((((posY e).get k j i o - e.get k j i o) + ((negY e).get k j i o - e.get k j i o)) / P.hy ^ 2
        * an.get k j i o * P.kappa_g * P.ad_hoc)
    + -((((posZ e).get k j i o - e.get k j i o) + ((negZ e).get k j i o - e.get k j i o)) / P.hz ^ 2
        * an.get k j i o * P.kappa_g * P.ad_hoc)⟩
  lap.flatten

/-- `state_rhs` (allen_cahn.py 53-85). -/
noncomputable def stateRhs (th : ℝ → ℝ) (P : PfArgs m d) (T : ℕ → ℝ) (eta : ℕ → Fin m → ℝ) : ℕ → Fin m → ℝ :=
  fun n o =>
    let local_energy_grad := localEnergyGrad P eta (zetaOf th P T) n o / P.ad_hoc;
    -LgOf P T n * (local_energy_grad + (laplaceTerm P eta).get n o)

/-- `explicit_euler` (allen_cahn.py 106-114); also `PFSolver.stepper` (allen_cahn.py 139-143), which returns `explicit_euler`'s state. -/
def explicitEuler {S : Type*} [AddCommGroup S] [Module ℝ S] (f : S → ℝ → S) (pre : S × ℝ) (t_crt : ℝ) : S × ℝ :=
  let h := t_crt - pre.2
  (pre.1 + h • f pre.1 pre.2, t_crt)

/-- `rk4` (allen_cahn.py 90-103). -/
noncomputable def rk4 {S : Type*} [AddCommGroup S] [Module ℝ S] (f : S → ℝ → S) (pre : S × ℝ) (t_crt : ℝ) : S × ℝ :=
  let h := t_crt - pre.2
  let k1 := h • f pre.1 pre.2
  let k2 := h • f (pre.1 + (1 / 2 : ℝ) • k1) (pre.2 + h / 2)
  let k3 := h • f (pre.1 + (1 / 2 : ℝ) • k2) (pre.2 + h / 2)
  let k4 := h • f (pre.1 + k3) (pre.2 + h)
  (pre.1 + (1 / 6 : ℝ) • (k1 + (2 : ℝ) • k2 + (2 : ℝ) • k3 + k4), t_crt)

/-- `PFSolver.stepper` (allen_cahn.py 139-143). -/
noncomputable def stepper (th : ℝ → ℝ) (P : PfArgs m d) (pre : (ℕ → Fin m → ℝ) × ℝ) (t_crt : ℝ) (T : ℕ → ℝ) :
    (ℕ → Fin m → ℝ) × ℝ :=
  explicitEuler (fun eta _ => stateRhs th P T eta) pre t_crt

/-- A driver loop: `for t_crt, T in ...: state, sol = solver.stepper(state, t_crt, [T])` (as in applications/phase_field). -/
noncomputable def runSteps (th : ℝ → ℝ) (P : PfArgs m d) (steps : List (ℝ × (ℕ → ℝ))) (s0 : (ℕ → Fin m → ℝ) × ℝ) :
    (ℕ → Fin m → ℝ) × ℝ :=
  steps.foldl (fun s a => stepper th P s a.1 a.2) s0

/-- `PFSolver.ini_cond` (allen_cahn.py 145-153): zeros, then the entries `(n, cell_ori_inds[n])` are set to 1, in order. -/
def iniCond (num_nodes : ℕ) (cell_ori_inds : ℕ → Fin m) : ℕ → Fin m → ℝ :=
  ((List.range num_nodes).map fun n : ℕ => (n, cell_ori_inds n)).foldl
    (fun eta (p : ℕ × Fin m) => setEntry eta p.1 p.2 1) (fun _ _ => 0)

/-- `force_eta_zero_in_liquid` (allen_cahn.py 118-127), available to users though not called by `stepper`. -/
noncomputable def forceEta (P : PfArgs m d) (T : ℕ → ℝ) (s : (ℕ → Fin m → ℝ) × ℝ) : (ℕ → Fin m → ℝ) × ℝ :=
  (fun n o => if T n > P.T_liquidus + 1 then 0 else s.1 n o, s.2)

end Verif.PhaseField
