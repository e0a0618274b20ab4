import Mathlib.Analysis.SpecialFunctions.Trigonometric.Basic
import Mathlib.Data.ZMod.Basic
import Mathlib.Data.Fin.VecNotation
import Mathlib.Algebra.BigOperators.Fin
import Mathlib.Tactic.Linarith
import Mathlib.Tactic.Ring
import Mathlib.Tactic.FieldSimp
import Mathlib.Tactic.FinCases
import Mathlib.Tactic.LinearCombination
import Mathlib.Tactic.Positivity
import Mathlib.Tactic.NormNum

/-!
# C132: flow past a cylinder (model of jax_am/lbm/experiments/cylinder.py)

Simplifications: floats are real numbers. A division by a zero density in a cell that is not overwritten afterwards gives NaN in the code and the error `nan` here; in the cells of the cylinder the result of the collision is overwritten (line 76),
so a zero density there does no harm. The resolution, the relaxation time, the number of steps and the noise are parameters; the indices of an axis of length `n` are `ZMod n`, in which the wrap-around of `np.roll` is the subtraction.
Not modelled: colours, axes, saving of the figure.
-/
namespace Verif.Lbm.Cyl
open Finset

/-- `cxs`, `cys`, `weights` (cylinder.py 27-29). -/
def cx : Fin 9 → ℤ := ![0, 0, 1, 1, 1, 0, -1, -1, -1]
def cy : Fin 9 → ℤ := ![0, 1, 1, 0, -1, -1, -1, 0, 1]
noncomputable def w : Fin 9 → ℝ := ![4 / 9, 1 / 9, 1 / 36, 1 / 9, 1 / 36, 1 / 9, 1 / 36, 1 / 9, 1 / 36]

/-- The populations of a cell. -/
abbrev Pop := Fin 9 → ℝ
/-- A field of numbers of shape `(Ny, Nx)`. -/
abbrev Field (ny nx : ℕ) := ZMod ny → ZMod nx → ℝ
/-- `F` of shape `(Ny, Nx, NL)` (cylinder.py 32). -/
abbrev State (ny nx : ℕ) := ZMod ny → ZMod nx → Pop
/-- `cylinder`: a mask of shape `(Ny, Nx)`. -/
abbrev Mask (ny nx : ℕ) := ZMod ny → ZMod nx → Bool

/-- Not-a-number, division by the Python number zero. -/
inductive CErr | nan | zeroDivision
  deriving DecidableEq

variable {ny nx : ℕ}

/-- `np.roll(A, k, axis=0)` and `np.roll(A, k, axis=1)`. -/
def roll0 (A : Field ny nx) (k : ℤ) : Field ny nx := fun y x => A (y - k) x
def roll1 (A : Field ny nx) (k : ℤ) : Field ny nx := fun y x => A y (x - k)

/-- The drift (cylinder.py 53-55). -/
def drift (F : State ny nx) : State ny nx := fun y x i => roll0 (roll1 (fun y x => F y x i) (cx i)) (cy i) y x

/-- The index list of the reflection (cylinder.py 60). -/
def opp : Fin 9 → Fin 9 := ![0, 5, 6, 7, 8, 1, 2, 3, 4]

/-- `rho` and the numerators of `ux`, `uy` (cylinder.py 63-65). -/
def rho (f : Pop) : ℝ := ∑ i, f i
def mx (f : Pop) : ℝ := ∑ i, f i * cx i
def my (f : Pop) : ℝ := ∑ i, f i * cy i
/-- `ux`, `uy` (cylinder.py 64-65). -/
noncomputable def ux (f : Pop) : ℝ := mx f / rho f
noncomputable def uy (f : Pop) : ℝ := my f / rho f

/-- `Feq` of a cell (cylinder.py 71). -/
noncomputable def feq (r u v : ℝ) : Pop := fun i => r * w i * (1 + 3 * (cx i * u + cy i * v) + 9 * (cx i * u + cy i * v) ^ 2 / 2 - 3 * (u ^ 2 + v ^ 2) / 2)

/-- The equilibrium with the density and velocity of `f`. -/
noncomputable def equi (f : Pop) : Pop := feq (rho f) (ux f) (uy f)

/-- The collision of a cell (cylinder.py 73). -/
noncomputable def relax (τ : ℝ) (f : Pop) : Pop := fun i => f i + -(1 / τ) * (f i - equi f i)

/-- One pass of the main loop without the plot (cylinder.py 52-76). -/
noncomputable def step (cyl : Mask ny nx) (τ : ℝ) (F : State ny nx) : Except CErr (State ny nx) :=
  let F1 := drift F
  let bndryF : State ny nx := fun y x i => F1 y x (opp i)
  open Classical in
  if τ = 0 then .error .zeroDivision
  else if ∃ y x, cyl y x = false ∧ rho (F1 y x) = 0 then .error .nan
  else .ok fun y x => if cyl y x then bndryF y x else relax τ (F1 y x)

/-- The main loop (cylinder.py 49-76). -/
noncomputable def run (cyl : Mask ny nx) (τ : ℝ) : ℕ → State ny nx → Except CErr (State ny nx)
  | 0, F => .ok F
  | n + 1, F =>
    match step cyl τ F with
    | .error e => .error e
    | .ok F' => run cyl τ n F'

/-- The state before the scaling (cylinder.py 32-36); `noise` is the result of `randn`. -/
noncomputable def init0 (noise : State ny nx) : State ny nx := fun y x i =>
  (1 + 0.01 * noise y x i) + if i = 3 then 2 * (1 + 0.2 * Real.cos (2 * Real.pi * (x.val : ℝ) / nx * 4)) else 0

/-- The initial state (cylinder.py 32-39). -/
noncomputable def init (rho0 : ℝ) (noise : State ny nx) : Except CErr (State ny nx) :=
  open Classical in
  if ∃ y x, rho (init0 noise y x) = 0 then .error .nan else .ok fun y x i => init0 noise y x i * (rho0 / rho (init0 noise y x))

/-- `cylinder` (cylinder.py 42-43). -/
noncomputable def cylinder (ny nx : ℕ) : Mask ny nx := fun y x =>
  open Classical in decide (((x.val : ℝ) - nx / 4) ^ 2 + ((y.val : ℝ) - ny / 2) ^ 2 < ((ny : ℝ) / 4) ^ 2)

/-- The state after `n` passes of `main` (cylinder.py 16-76). -/
noncomputable def mainRun (noise : State 100 400) (n : ℕ) : Except CErr (State 100 400) :=
  match init 100 noise with
  | .error e => .error e
  | .ok F => run (cylinder 100 400) 0.6 n F

/-- `ux`, `uy` of the plot for the state `F` at the beginning of the pass (cylinder.py 64-65, 82-83). -/
noncomputable def plotU (cyl : Mask ny nx) (F : State ny nx) : Field ny nx := fun y x => if cyl y x then 0 else ux (drift F y x)
noncomputable def plotV (cyl : Mask ny nx) (F : State ny nx) : Field ny nx := fun y x => if cyl y x then 0 else uy (drift F y x)

/-- `vorticity` of a velocity field (cylinder.py 84), before the mask. -/
def vorticity (u v : Field ny nx) : Field ny nx := fun y x => (roll0 u (-1) y x - roll0 u 1 y x) - (roll1 v (-1) y x - roll1 v 1 y x)

/-! ## Specification -/

/-- The sum of a quantity over all cells. -/
def total [NeZero ny] [NeZero nx] (q : Pop → ℝ) (F : State ny nx) : ℝ := ∑ y, ∑ x, q (F y x)

/-- Reflection of the directions at the axis `y = 0`: the vector `(cx, -cy)`. -/
def flip : Fin 9 → Fin 9 := ![0, 5, 4, 3, 2, 1, 8, 7, 6]

/-- The mirror image of a state: row `y` becomes row `-y`, the vectors are reflected. -/
def mirror (F : State ny nx) : State ny nx := fun y x i => F (-y) x (flip i)

/-! ## Lattice -/

lemma cx_opp (i : Fin 9) : cx (opp i) = -cx i := by fin_cases i <;> rfl
lemma cy_opp (i : Fin 9) : cy (opp i) = -cy i := by fin_cases i <;> rfl
lemma opp_opp (i : Fin 9) : opp (opp i) = i := by fin_cases i <;> rfl
lemma cx_flip (i : Fin 9) : cx (flip i) = cx i := by fin_cases i <;> rfl
lemma cy_flip (i : Fin 9) : cy (flip i) = -cy i := by fin_cases i <;> rfl
lemma flip_flip (i : Fin 9) : flip (flip i) = i := by fin_cases i <;> rfl
lemma opp_flip (i : Fin 9) : opp (flip i) = flip (opp i) := by revert i; decide
lemma w_opp (i : Fin 9) : w (opp i) = w i := by fin_cases i <;> simp [w, opp]
lemma w_flip (i : Fin 9) : w (flip i) = w i := by fin_cases i <;> simp [w, flip]

def oppE : Fin 9 ≃ Fin 9 := ⟨opp, opp, opp_opp, opp_opp⟩
def flipE : Fin 9 ≃ Fin 9 := ⟨flip, flip, flip_flip, flip_flip⟩

lemma rho_opp (f : Pop) : rho (fun i => f (opp i)) = rho f := Equiv.sum_comp oppE f
lemma mx_opp (f : Pop) : mx (fun i => f (opp i)) = -mx f := by
  have h := Equiv.sum_comp oppE fun i => f i * (cx i : ℝ)
  have e : ∀ i, f (oppE i) * (cx (oppE i) : ℝ) = -(f (opp i) * cx i) := by
    intro i
    show f (opp i) * (cx (opp i) : ℝ) = _
    rw [cx_opp]; push_cast; ring
  rw [Finset.sum_congr rfl fun i _ => e i, Finset.sum_neg_distrib] at h
  unfold mx
  linarith
lemma my_opp (f : Pop) : my (fun i => f (opp i)) = -my f := by
  have h := Equiv.sum_comp oppE fun i => f i * (cy i : ℝ)
  have e : ∀ i, f (oppE i) * (cy (oppE i) : ℝ) = -(f (opp i) * cy i) := by
    intro i
    show f (opp i) * (cy (opp i) : ℝ) = _
    rw [cy_opp]; push_cast; ring
  rw [Finset.sum_congr rfl fun i _ => e i, Finset.sum_neg_distrib] at h
  unfold my
  linarith
lemma rho_flip (f : Pop) : rho (fun i => f (flip i)) = rho f := Equiv.sum_comp flipE f
lemma mx_flip (f : Pop) : mx (fun i => f (flip i)) = mx f := by
  have h := Equiv.sum_comp flipE fun i => f i * (cx i : ℝ)
  have e : ∀ i, f (flipE i) * (cx (flipE i) : ℝ) = f (flip i) * cx i := by
    intro i
    show f (flip i) * (cx (flip i) : ℝ) = _
    rw [cx_flip]
  rw [Finset.sum_congr rfl fun i _ => e i] at h
  exact h
lemma my_flip (f : Pop) : my (fun i => f (flip i)) = -my f := by
  have h := Equiv.sum_comp flipE fun i => f i * (cy i : ℝ)
  have e : ∀ i, f (flipE i) * (cy (flipE i) : ℝ) = -(f (flip i) * cy i) := by
    intro i
    show f (flip i) * (cy (flip i) : ℝ) = _
    rw [cy_flip]; push_cast; ring
  rw [Finset.sum_congr rfl fun i _ => e i, Finset.sum_neg_distrib] at h
  unfold my
  linarith

/-- **C132 (moments).** The equilibrium of any density and velocity has that density, that momentum, and the momentum flux `r (δ/3 + u u)`. -/
theorem C132_moments (r u v : ℝ) :
    ∑ i, feq r u v i = r ∧ ∑ i, feq r u v i * cx i = r * u ∧ ∑ i, feq r u v i * cy i = r * v ∧
      ∑ i, feq r u v i * (cx i * cx i) = r * (1 / 3 + u * u) ∧ ∑ i, feq r u v i * (cx i * cy i) = r * (u * v) ∧ ∑ i, feq r u v i * (cy i * cy i) = r * (1 / 3 + v * v) := by
  refine ⟨?_, ?_, ?_, ?_, ?_, ?_⟩ <;>
  · simp only [Fin.sum_univ_succ, Fin.sum_univ_zero, feq, w, cx, cy, Matrix.cons_val_zero, Matrix.cons_val_succ, Int.cast_zero, Int.cast_one, Int.cast_neg]
    ring

lemma rho_feq (r u v : ℝ) : rho (feq r u v) = r := (C132_moments r u v).1
lemma mx_feq (r u v : ℝ) : mx (feq r u v) = r * u := (C132_moments r u v).2.1
lemma my_feq (r u v : ℝ) : my (feq r u v) = r * v := (C132_moments r u v).2.2.1

lemma rho_lin (a b : ℝ) (f g : Pop) : rho (fun i => a * f i + b * g i) = a * rho f + b * rho g := by
  simp only [rho, Finset.sum_add_distrib, Finset.mul_sum]
lemma mx_lin (a b : ℝ) (f g : Pop) : mx (fun i => a * f i + b * g i) = a * mx f + b * mx g := by
  simp only [mx, Finset.mul_sum, ← Finset.sum_add_distrib]
  exact Finset.sum_congr rfl fun i _ => by ring
lemma my_lin (a b : ℝ) (f g : Pop) : my (fun i => a * f i + b * g i) = a * my f + b * my g := by
  simp only [my, Finset.mul_sum, ← Finset.sum_add_distrib]
  exact Finset.sum_congr rfl fun i _ => by ring

lemma relax_eq (τ : ℝ) (f : Pop) : relax τ f = fun i => (1 - 1 / τ) * f i + 1 / τ * equi f i := by
  funext i; simp only [relax]; ring

lemma equi_moments (f : Pop) (h : rho f ≠ 0) : rho (equi f) = rho f ∧ mx (equi f) = mx f ∧ my (equi f) = my f := by
  refine ⟨rho_feq _ _ _, ?_, ?_⟩
  · rw [equi, mx_feq, ux]; field_simp
  · rw [equi, my_feq, uy]; field_simp

/-- **C132 (collision).** In a cell with non-zero density the collision keeps mass and both components of momentum, and therefore the equilibrium; it multiplies the distance to the equilibrium by `1 - 1/τ` (so by `-2/3` in the program), and it changes
nothing exactly if the cell is in equilibrium. -/
theorem C132_collision (τ : ℝ) (f : Pop) (h : rho f ≠ 0) :
    (rho (relax τ f) = rho f ∧ mx (relax τ f) = mx f ∧ my (relax τ f) = my f) ∧ equi (relax τ f) = equi f ∧
      (∀ i, relax τ f i - equi (relax τ f) i = (1 - 1 / τ) * (f i - equi f i)) ∧ (∀ i, relax 0.6 f i - equi f i = -(2 / 3) * (f i - equi f i)) ∧ (τ ≠ 0 → (relax τ f = f ↔ f = equi f)) := by
  obtain ⟨e1, e2, e3⟩ := equi_moments f h
  have k1 : rho (relax τ f) = rho f := by rw [relax_eq, rho_lin, e1]; ring
  have k2 : mx (relax τ f) = mx f := by rw [relax_eq, mx_lin, e2]; ring
  have k3 : my (relax τ f) = my f := by rw [relax_eq, my_lin, e3]; ring
  have k4 : equi (relax τ f) = equi f := by rw [equi, ux, uy, k1, k2, k3]; rfl
  refine ⟨⟨k1, k2, k3⟩, k4, fun i => ?_, fun i => ?_, fun hτ => ⟨fun he => ?_, fun he => ?_⟩⟩
  · rw [k4, relax]; ring
  · rw [relax]; ring
  · funext i
    have := congrFun he i
    simp only [relax] at this
    have h0 : 1 / τ * (f i - equi f i) = 0 := by linarith
    rcases mul_eq_zero.mp h0 with h1 | h1
    · exact absurd h1 (one_div_ne_zero hτ)
    · linarith
  · funext i
    have := congrFun he i
    simp only [relax]
    rw [← this]; ring

/-! ## Drift and reflection -/

/-- **C132 (drift).** A population moves by its own vector, periodically; after `n` drifts by `n` times the vector. The drift has an inverse, and for every direction the sum over all cells stays the same. -/
theorem C132_drift [NeZero ny] [NeZero nx] (F : State ny nx) :
    (∀ y x i, drift F (y + cy i) (x + cx i) i = F y x i) ∧ (∀ (n : ℕ) y x i, drift^[n] F (y + n * cy i) (x + n * cx i) i = F y x i) ∧ Function.Bijective (drift (ny := ny) (nx := nx)) ∧
      ∀ i, ∑ y, ∑ x, drift F y x i = ∑ y, ∑ x, F y x i := by
  have h1 : ∀ (F : State ny nx) y x i, drift F (y + cy i) (x + cx i) i = F y x i := by
    intro F y x i
    simp only [drift, roll0, roll1, add_sub_cancel_right]
  refine ⟨h1 F, ?_, ⟨?_, ?_⟩, ?_⟩
  · intro n
    induction n generalizing F with
    | zero => intro y x i; simp
    | succ n ih =>
      intro y x i
      rw [Function.iterate_succ_apply, ← h1 F y x i, ← ih (drift F) (y + cy i) (x + cx i) i]
      have a : (y + ((n + 1 : ℕ) : ZMod ny) * cy i) = y + cy i + n * cy i := by push_cast; ring
      have b : (x + ((n + 1 : ℕ) : ZMod nx) * cx i) = x + cx i + n * cx i := by push_cast; ring
      rw [a, b]
  · intro F G h
    funext y x i
    rw [← h1 F, ← h1 G, h]
  · intro G
    refine ⟨fun y x i => G (y + cy i) (x + cx i) i, ?_⟩
    funext y x i
    simp only [drift, roll0, roll1, sub_add_cancel]
  · intro i
    have a := Equiv.sum_comp (Equiv.subRight ((cy i : ℤ) : ZMod ny)) fun y => ∑ x, F y (x - cx i) i
    have b : ∀ y, ∑ x, F y (x - cx i) i = ∑ x, F y x i := fun y => Equiv.sum_comp (Equiv.subRight ((cx i : ℤ) : ZMod nx)) fun x => F y x i
    calc ∑ y, ∑ x, drift F y x i = ∑ y, ∑ x, F (y - cy i) (x - cx i) i := rfl
      _ = ∑ y, ∑ x, F y (x - cx i) i := a
      _ = _ := Finset.sum_congr rfl fun y _ => b y

/-- **C132 (reflection).** The index list of the reflection is its own inverse and turns every vector around; reflected populations have the same mass and the opposite momentum. -/
theorem C132_reflection (f : Pop) :
    (∀ i, opp (opp i) = i ∧ cx (opp i) = -cx i ∧ cy (opp i) = -cy i) ∧ rho (fun i => f (opp i)) = rho f ∧ mx (fun i => f (opp i)) = -mx f ∧ my (fun i => f (opp i)) = -my f :=
  ⟨fun i => ⟨opp_opp i, cx_opp i, cy_opp i⟩, rho_opp f, mx_opp f, my_opp f⟩

lemma step_ok {cyl : Mask ny nx} {τ : ℝ} {F G : State ny nx} (h : step cyl τ F = .ok G) :
    τ ≠ 0 ∧ (∀ y x, cyl y x = false → rho (drift F y x) ≠ 0) ∧ (∀ y x, cyl y x = true → ∀ i, G y x i = drift F y x (opp i)) ∧ (∀ y x, cyl y x = false → G y x = relax τ (drift F y x)) := by
  unfold step at h
  simp only at h
  split_ifs at h with h1 h2
  have e := Except.ok.inj h
  push Not at h2
  refine ⟨h1, h2, fun y x hc i => ?_, fun y x hc => ?_⟩
  · rw [← e]; simp [hc]
  · rw [← e]; simp [hc]

/-- **C132 (no penetration).** What a cell sends along `i` into the cylinder comes back to the same cell along the opposite vector with the second drift, unchanged. -/
theorem C132_return (cyl : Mask ny nx) (τ : ℝ) (F G : State ny nx) (h : step cyl τ F = .ok G) (y : ZMod ny) (x : ZMod nx) (i : Fin 9) (hc : cyl (y + cy i) (x + cx i) = true) :
    drift G y x (opp i) = F y x i := by
  have e := (step_ok h).2.2.1 _ _ hc (opp i)
  have e1 : drift G y x (opp i) = G (y + cy i) (x + cx i) (opp i) := by
    simp only [drift, roll0, roll1, cx_opp, cy_opp]
    push_cast
    simp only [sub_neg_eq_add]
  rw [e1, e, opp_opp]
  simp only [drift, roll0, roll1, add_sub_cancel_right]

/-! ## Balances -/

lemma total_drift [NeZero ny] [NeZero nx] (F : State ny nx) (c : Fin 9 → ℝ) : total (fun f => ∑ i, f i * c i) (drift F) = total (fun f => ∑ i, f i * c i) F := by
  have swap : ∀ G : State ny nx, total (fun f => ∑ i, f i * c i) G = ∑ i, (∑ y, ∑ x, G y x i) * c i := by
    intro G
    unfold total
    calc ∑ y, ∑ x, ∑ i, G y x i * c i = ∑ y, ∑ i, ∑ x, G y x i * c i := Finset.sum_congr rfl fun y _ => Finset.sum_comm
      _ = ∑ i, ∑ y, ∑ x, G y x i * c i := Finset.sum_comm
      _ = _ := Finset.sum_congr rfl fun i _ => by simp only [Finset.sum_mul]
  rw [swap, swap]
  exact Finset.sum_congr rfl fun i _ => by rw [(C132_drift F).2.2.2 i]

lemma total_rho_drift [NeZero ny] [NeZero nx] (F : State ny nx) : total rho (drift F) = total rho F := by
  have := total_drift F fun _ => 1
  simp only [mul_one] at this
  exact this

/-- The sum of a quantity over the cells of the cylinder. -/
def inside [NeZero ny] [NeZero nx] (cyl : Mask ny nx) (q : Pop → ℝ) (F : State ny nx) : ℝ := ∑ y, ∑ x, if cyl y x then q (F y x) else 0

/-- **C132 (balance of a step).** The total mass stays the same; the momentum of the step is lost twice in the cells of the cylinder: the force on the cylinder is the momentum exchange. Without a cylinder the momentum is conserved. -/
theorem C132_balance [NeZero ny] [NeZero nx] (cyl : Mask ny nx) (τ : ℝ) (F G : State ny nx) (h : step cyl τ F = .ok G) :
    total rho G = total rho F ∧ total mx G = total mx F - 2 * inside cyl mx (drift F) ∧ total my G = total my F - 2 * inside cyl my (drift F) := by
  obtain ⟨-, h0, h1, h2⟩ := step_ok h
  have cell : ∀ y x, rho (G y x) = rho (drift F y x) ∧ mx (G y x) = mx (drift F y x) - 2 * (if cyl y x then mx (drift F y x) else 0) ∧
      my (G y x) = my (drift F y x) - 2 * (if cyl y x then my (drift F y x) else 0) := by
    intro y x
    cases hc : cyl y x with
    | true =>
      have e : G y x = fun i => drift F y x (opp i) := funext (h1 y x hc)
      rw [e, rho_opp, mx_opp, my_opp]
      refine ⟨rfl, ?_, ?_⟩ <;> simp <;> ring
    | false =>
      rw [h2 y x hc]
      obtain ⟨k1, k2, k3⟩ := (C132_collision τ _ (h0 y x hc)).1
      simp [k1, k2, k3]
  have hm := total_drift F fun i => (cx i : ℝ)
  have hn := total_drift F fun i => (cy i : ℝ)
  refine ⟨?_, ?_, ?_⟩
  · rw [← total_rho_drift F]
    exact Finset.sum_congr rfl fun y _ => Finset.sum_congr rfl fun x _ => (cell y x).1
  · have : total mx F = total mx (drift F) := hm.symm
    rw [this]
    unfold total inside
    rw [Finset.mul_sum, ← Finset.sum_sub_distrib]
    refine Finset.sum_congr rfl fun y _ => ?_
    rw [Finset.mul_sum, ← Finset.sum_sub_distrib]
    exact Finset.sum_congr rfl fun x _ => (cell y x).2.1
  · have : total my F = total my (drift F) := hn.symm
    rw [this]
    unfold total inside
    rw [Finset.mul_sum, ← Finset.sum_sub_distrib]
    refine Finset.sum_congr rfl fun y _ => ?_
    rw [Finset.mul_sum, ← Finset.sum_sub_distrib]
    exact Finset.sum_congr rfl fun x _ => (cell y x).2.2

/-- **C132 (mass).** For every mask, relaxation time and number of steps the total mass at the end is the total mass at the beginning. With an empty mask the total momentum is conserved as well. -/
theorem C132_mass [NeZero ny] [NeZero nx] (cyl : Mask ny nx) (τ : ℝ) (n : ℕ) (F G : State ny nx) (h : run cyl τ n F = .ok G) :
    total rho G = total rho F ∧ ((∀ y x, cyl y x = false) → total mx G = total mx F ∧ total my G = total my F) := by
  induction n generalizing F with
  | zero => rw [← Except.ok.inj h]; exact ⟨rfl, fun _ => ⟨rfl, rfl⟩⟩
  | succ n ih =>
    rw [run] at h
    cases hs : step cyl τ F with
    | error e => rw [hs] at h; cases h
    | ok F' =>
      rw [hs] at h
      obtain ⟨b1, b2, b3⟩ := C132_balance cyl τ F F' hs
      obtain ⟨i1, i2⟩ := ih F' h
      refine ⟨i1.trans b1, fun he => ?_⟩
      have z : ∀ q, inside cyl q (drift F) = 0 := by
        intro q; unfold inside; simp [he]
      rw [z, mul_zero, sub_zero] at b2 b3
      exact ⟨(i2 he).1.trans b2, (i2 he).2.trans b3⟩

/-! ## Start -/

/-- **C132 (start).** If every entry of the noise is above -100 the start does not fail, all populations are positive and the density is `rho0` in every cell. -/
theorem C132_start [NeZero ny] [NeZero nx] (rho0 : ℝ) (h0 : 0 < rho0) (noise : State ny nx) (hn : ∀ y x i, -100 < noise y x i) :
    ∃ F, init rho0 noise = .ok F ∧ (∀ y x i, 0 < F y x i) ∧ (∀ y x, rho (F y x) = rho0) ∧ total rho F = rho0 * (ny * nx : ℕ) := by
  have hp : ∀ y x i, 0 < init0 noise y x i := by
    intro y x i
    have a := hn y x i
    have b := Real.neg_one_le_cos (2 * Real.pi * (x.val : ℝ) / nx * 4)
    unfold init0
    generalize Real.cos (2 * Real.pi * (x.val : ℝ) / nx * 4) = c at b ⊢
    have e1 : (0.01 : ℝ) = 1 / 100 := by norm_num
    have e2 : (0.2 : ℝ) = 1 / 5 := by norm_num
    rw [e1, e2]
    split_ifs <;> linarith
  have hr : ∀ y x, 0 < rho (init0 noise y x) := fun y x => Finset.sum_pos (fun i _ => hp y x i) ⟨0, Finset.mem_univ _⟩
  have hd : ∀ y x, rho (fun i => init0 noise y x i * (rho0 / rho (init0 noise y x))) = rho0 := by
    intro y x
    have : rho (fun i => init0 noise y x i * (rho0 / rho (init0 noise y x))) = rho (init0 noise y x) * (rho0 / rho (init0 noise y x)) := by
      simp only [rho, ← Finset.sum_mul]
    rw [this]
    have := (hr y x).ne'
    field_simp
  refine ⟨fun y x i => init0 noise y x i * (rho0 / rho (init0 noise y x)), ?_, fun y x i => mul_pos (hp y x i) (div_pos h0 (hr y x)), hd, ?_⟩
  · unfold init
    rw [if_neg]
    rintro ⟨y, x, h⟩
    exact (hr y x).ne' h
  · unfold total
    simp only [hd, Finset.sum_const, Finset.card_univ, ZMod.card, nsmul_eq_mul]
    push_cast; ring

/-- **C132 (program).** Whatever the noise, the total mass of the program after any number of steps is `100 * 100 * 400`, if no density became zero on the way. -/
theorem C132_program (noise : State 100 400) (hn : ∀ y x i, -100 < noise y x i) (n : ℕ) (F : State 100 400) (h : mainRun noise n = .ok F) : total rho F = 4000000 := by
  obtain ⟨F0, e0, -, -, e1⟩ := C132_start 100 (by norm_num) noise hn
  unfold mainRun at h
  rw [e0] at h
  rw [(C132_mass _ _ n F0 F h).1, e1]
  norm_num

/-! ## Steady states -/

lemma equi_feq (r u v : ℝ) (hr : r ≠ 0) : equi (feq r u v) = feq r u v := by
  have a : ux (feq r u v) = u := by rw [ux, mx_feq, rho_feq]; field_simp
  have b : uy (feq r u v) = v := by rw [uy, my_feq, rho_feq]; field_simp
  rw [equi, a, b, rho_feq]

/-- **C132 (steady states).** A uniform flow of density `r ≠ 0` is not changed by a step exactly if there is no cylinder or the fluid is at rest. -/
theorem C132_uniform (cyl : Mask ny nx) (τ : ℝ) (hτ : τ ≠ 0) (r u v : ℝ) (hr : r ≠ 0) :
    step cyl τ (fun _ _ => feq r u v) = .ok (fun _ _ => feq r u v) ↔ (∀ y x, cyl y x = false) ∨ (u = 0 ∧ v = 0) := by
  have hd : drift (fun (_ : ZMod ny) (_ : ZMod nx) => feq r u v) = fun _ _ => feq r u v := rfl
  have hrel : relax τ (feq r u v) = feq r u v := ((C132_collision τ _ (by rw [rho_feq]; exact hr)).2.2.2.2 hτ).mpr (equi_feq r u v hr).symm
  constructor
  · intro h
    by_contra hne
    push Not at hne
    obtain ⟨⟨y, x, hc⟩, huv⟩ := hne
    have hc' : cyl y x = true := by simpa using hc
    have e : (feq r u v) = fun i => feq r u v (opp i) := funext ((step_ok h).2.2.1 y x hc')
    have a : mx (feq r u v) = -mx (feq r u v) := by conv_lhs => rw [e]; exact mx_opp _
    have b : my (feq r u v) = -my (feq r u v) := by conv_lhs => rw [e]; exact my_opp _
    rw [mx_feq] at a
    rw [my_feq] at b
    have a' : r * u = 0 := by linarith
    have b' : r * v = 0 := by linarith
    exact huv ((mul_eq_zero.mp a').resolve_left hr) ((mul_eq_zero.mp b').resolve_left hr)
  · intro h
    unfold step
    simp only [hd]
    rw [if_neg hτ, if_neg (by rintro ⟨y, x, -, h0⟩; rw [hd, rho_feq] at h0; exact hr h0)]
    congr 1
    funext y x
    rcases h with h | ⟨rfl, rfl⟩
    · simp [h y x, hrel]
    · split_ifs
      · funext i
        simp only [feq, w_opp]
        ring
      · exact hrel

/-! ## Mirror symmetry -/

lemma equi_flip (f : Pop) : equi (fun i => f (flip i)) = fun i => equi f (flip i) := by
  funext i
  simp only [equi, ux, uy, rho_flip, mx_flip, my_flip, feq, w_flip, cx_flip, cy_flip]
  push_cast
  ring

lemma relax_flip (τ : ℝ) (f : Pop) : relax τ (fun i => f (flip i)) = fun i => relax τ f (flip i) := by
  funext i
  simp only [relax, equi_flip]

lemma drift_mirror (F : State ny nx) : drift (mirror F) = mirror (drift F) := by
  funext y x i
  simp only [drift, mirror, roll0, roll1, cx_flip, cy_flip]
  congr 1
  push_cast
  ring

/-- **C132 (mirror).** The program does not distinguish the two sides of the axis: with a mask symmetric to it, the mirrored start gives the mirrored result (or the same error) after every number of steps. -/
theorem C132_mirror (cyl : Mask ny nx) (hc : ∀ y x, cyl (-y) x = cyl y x) (τ : ℝ) (n : ℕ) (F : State ny nx) :
    run cyl τ n (mirror F) = (run cyl τ n F).map mirror := by
  have hstep : ∀ F, step cyl τ (mirror F) = (step cyl τ F).map mirror := by
    intro F
    have hex : (∃ y x, cyl y x = false ∧ rho (drift (mirror F) y x) = 0) ↔ ∃ y x, cyl y x = false ∧ rho (drift F y x) = 0 := by
      rw [drift_mirror]
      constructor
      · rintro ⟨y, x, h1, h2⟩
        refine ⟨-y, x, by rw [hc]; exact h1, ?_⟩
        rw [← rho_flip]; exact h2
      · rintro ⟨y, x, h1, h2⟩
        refine ⟨-y, x, by rw [hc]; exact h1, ?_⟩
        have e : mirror (drift F) (-y) x = fun i => drift F y x (flip i) := by funext i; simp only [mirror, neg_neg]
        rw [e, rho_flip]; exact h2
    unfold step
    simp only
    by_cases hτ : τ = 0
    · rw [if_pos hτ, if_pos hτ]; rfl
    rw [if_neg hτ, if_neg hτ]
    by_cases hz : ∃ y x, cyl y x = false ∧ rho (drift F y x) = 0
    · rw [if_pos hz, if_pos (hex.mpr hz)]; rfl
    · rw [if_neg hz, if_neg fun h => hz (hex.mp h)]
      show Except.ok _ = Except.ok _
      congr 1
      funext y x
      rw [drift_mirror]
      have e : mirror (drift F) y x = fun i => drift F (-y) x (flip i) := rfl
      show (if cyl y x = true then fun i => mirror (drift F) y x (opp i) else relax τ (mirror (drift F) y x)) =
        fun i => (if cyl (-y) x = true then fun i => drift F (-y) x (opp i) else relax τ (drift F (-y) x)) (flip i)
      rw [hc, e]
      split_ifs
      · funext i; simp only [opp_flip]
      · exact relax_flip τ _
  induction n generalizing F with
  | zero => rfl
  | succ n ih =>
    rw [run, run, hstep]
    cases hs : step cyl τ F with
    | error e => rfl
    | ok F' => exact ih F'

/-- The mask of the program is symmetric to the axis. -/
lemma cylinder_neg [NeZero ny] (y : ZMod ny) (x : ZMod nx) : cylinder ny nx (-y) x = cylinder ny nx y x := by
  unfold cylinder
  rw [ZMod.neg_val]
  split_ifs with h
  · rw [h, ZMod.val_zero]
  · rw [Nat.cast_sub (ZMod.val_lt y).le]
    have : ((x.val : ℝ) - nx / 4) ^ 2 + ((ny : ℝ) - y.val - ny / 2) ^ 2 = ((x.val : ℝ) - nx / 4) ^ 2 + ((y.val : ℝ) - ny / 2) ^ 2 := by ring
    rw [this]

/-- **C132 (no vortex street without noise).** If the noise is symmetric to the axis (for example zero), then after every number of steps the state is symmetric: the vertical velocity is odd, so it vanishes on the rows 0 and 50 (the axis of the
cylinder), the total vertical momentum is zero, and the plotted vorticity is odd. -/
theorem C132_symmetric (noise : State 100 400) (hsym : mirror noise = noise) (n : ℕ) (F : State 100 400) (h : mainRun noise n = .ok F) :
    mirror F = F ∧ (∀ y x, ux (F (-y) x) = ux (F y x) ∧ uy (F (-y) x) = -uy (F y x)) ∧ (∀ x, uy (F 0 x) = 0 ∧ uy (F 50 x) = 0) ∧ total my F = 0 ∧
      ∀ y x, vorticity (plotU (cylinder 100 400) F) (plotV (cylinder 100 400) F) (-y) x = -vorticity (plotU (cylinder 100 400) F) (plotV (cylinder 100 400) F) y x := by
  have h0 : mirror (init0 noise) = init0 noise := by
    funext y x i
    have e := congrFun (congrFun (congrFun hsym y) x) i
    have ei : (flip i = 3) = (i = 3) := by revert i; intro i _; fin_cases i <;> simp [flip]
    simp only [mirror] at e ⊢
    simp only [init0, e, ei]
  unfold mainRun at h
  cases hi : init 100 noise with
  | error e => rw [hi] at h; cases h
  | ok F0 =>
    rw [hi] at h
    replace h : run (cylinder 100 400) 0.6 n F0 = .ok F := h
    have hF0 : mirror F0 = F0 := by
      unfold init at hi
      split_ifs at hi
      rw [← Except.ok.inj hi]
      funext y x i
      have er : rho (init0 noise (-y) x) = rho (init0 noise y x) := by
        rw [← rho_flip]
        exact congrArg rho (congrFun (congrFun h0 y) x)
      have e := congrFun (congrFun (congrFun h0 y) x) i
      simp only [mirror] at e ⊢
      rw [e, er]
    have hF : mirror F = F := by
      have e := C132_mirror (cylinder 100 400) cylinder_neg 0.6 n F0
      rw [hF0, h] at e
      exact (Except.ok.inj e).symm
    have odd : ∀ G : State 100 400, mirror G = G → ∀ y x, ux (G (-y) x) = ux (G y x) ∧ uy (G (-y) x) = -uy (G y x) ∧ my (G (-y) x) = -my (G y x) := by
      intro G hG y x
      have e : G y x = fun i => G (-y) x (flip i) := (congrFun (congrFun hG y) x).symm
      have a := rho_flip (G (-y) x)
      have b := mx_flip (G (-y) x)
      have c := my_flip (G (-y) x)
      rw [← e] at a b c
      refine ⟨by rw [ux, ux, a, b], by rw [uy, uy, a, c]; ring, by rw [c]; ring⟩
    have hD : mirror (drift F) = drift F := by rw [← drift_mirror, hF]
    refine ⟨hF, fun y x => ⟨(odd F hF y x).1, (odd F hF y x).2.1⟩, fun x => ⟨?_, ?_⟩, ?_, ?_⟩
    · have := (odd F hF 0 x).2.1
      rw [neg_zero] at this
      linarith
    · have := (odd F hF 50 x).2.1
      rw [show -(50 : ZMod 100) = 50 from by decide] at this
      linarith
    · have e := Equiv.sum_comp (Equiv.neg (ZMod 100)) fun y => ∑ x, my (F y x)
      have e' : ∑ y, ∑ x, my (F (Equiv.neg (ZMod 100) y) x) = -∑ y, ∑ x, my (F y x) := by
        simp only [Equiv.neg_apply, (odd F hF _ _).2.2, Finset.sum_neg_distrib]
      unfold total
      linarith
    · have pu : ∀ y x, plotU (cylinder 100 400) F (-y) x = plotU (cylinder 100 400) F y x := by
        intro y x; simp only [plotU, cylinder_neg, (odd _ hD y x).1]
      have pv : ∀ y x, plotV (cylinder 100 400) F (-y) x = -plotV (cylinder 100 400) F y x := by
        intro y x; simp only [plotV, cylinder_neg, (odd _ hD y x).2.1]; split_ifs <;> simp
      intro y x
      simp only [vorticity, roll0, roll1, pv]
      have e1 : -y - ((-1 : ℤ) : ZMod 100) = -(y - ((1 : ℤ) : ZMod 100)) := by push_cast; ring
      have e2 : -y - ((1 : ℤ) : ZMod 100) = -(y - ((-1 : ℤ) : ZMod 100)) := by push_cast; ring
      rw [e1, e2, pu, pu]
      ring

/-! ## Mask, vorticity, signs -/

/-- **C132 (mask).** The cylinder of the program has its centre in row 50, column 100 and radius 25; it does not reach the border, so it is not cut by the periodic boundary. -/
theorem C132_mask (y : ZMod 100) (x : ZMod 400) :
    (cylinder 100 400 y x = true ↔ ((x.val : ℤ) - 100) ^ 2 + ((y.val : ℤ) - 50) ^ 2 < 25 ^ 2) ∧ (cylinder 100 400 y x = true → 25 < y.val ∧ y.val < 75 ∧ 75 < x.val ∧ x.val < 125) := by
  have h1 : cylinder 100 400 y x = true ↔ ((x.val : ℤ) - 100) ^ 2 + ((y.val : ℤ) - 50) ^ 2 < 25 ^ 2 := by
    unfold cylinder
    rw [decide_eq_true_iff]
    rw [← Int.cast_lt (R := ℝ)]
    push_cast
    norm_num
  refine ⟨h1, fun h => ?_⟩
  have h2 := h1.mp h
  refine ⟨?_, ?_, ?_, ?_⟩ <;> (by_contra hn; push Not at hn; have hn' := Int.ofNat_le.mpr hn; push_cast at hn')
  all_goals nlinarith [sq_nonneg ((x.val : ℤ) - 100), sq_nonneg ((y.val : ℤ) - 50)]

/-- **C132 (vorticity).** The vorticity of any velocity field sums to zero over the periodic box. -/
theorem C132_vorticity [NeZero ny] [NeZero nx] (u v : Field ny nx) : ∑ y, ∑ x, vorticity u v y x = 0 := by
  have r0 : ∀ (A : Field ny nx) (k : ℤ), ∑ y, ∑ x, roll0 A k y x = ∑ y, ∑ x, A y x := fun A k => Equiv.sum_comp (Equiv.subRight (k : ZMod ny)) fun y => ∑ x, A y x
  have r1 : ∀ (A : Field ny nx) (k : ℤ), ∑ y, ∑ x, roll1 A k y x = ∑ y, ∑ x, A y x := fun A k => Finset.sum_congr rfl fun y _ => Equiv.sum_comp (Equiv.subRight (k : ZMod nx)) fun x => A y x
  simp only [vorticity, Finset.sum_sub_distrib, r0, r1]
  ring

/-- **C132 (signs).** With `τ ≥ 1` and speed at most `1/√3` a collision keeps populations non-negative. -/
theorem C132_nonneg (τ : ℝ) (hτ : 1 ≤ τ) (f : Pop) (hf : ∀ i, 0 ≤ f i) (hu : ux f ^ 2 + uy f ^ 2 ≤ 1 / 3) (i : Fin 9) : 0 ≤ relax τ f i := by
  have hr : 0 ≤ rho f := Finset.sum_nonneg fun i _ => hf i
  have hw : 0 ≤ w i := by fin_cases i <;> simp [w] <;> norm_num
  have he : 0 ≤ equi f i := by
    unfold equi feq
    refine mul_nonneg (mul_nonneg hr hw) ?_
    nlinarith [sq_nonneg (3 * ((cx i : ℝ) * ux f + cy i * uy f) + 1)]
  rw [relax_eq]
  have h1 : 0 ≤ 1 / τ := by positivity
  have h2 : 1 / τ ≤ 1 := by rw [div_le_one (by linarith)]; exact hτ
  exact add_nonneg (mul_nonneg (by linarith) (hf i)) (mul_nonneg h1 he)

/-- **C132 (signs, failure).** With the relaxation time of the program this is false also for small speeds: there is a state of non-negative populations at rest that has a negative population after one step. -/
theorem C132_negative (ny nx : ℕ) : ∃ F G : State ny nx, (∀ y x i, 0 ≤ F y x i) ∧ (∀ y x, ux (F y x) = 0 ∧ uy (F y x) = 0) ∧ step (fun _ _ => false) 0.6 F = .ok G ∧ ∀ y x, G y x 1 < 0 := by
  have r1 : rho ![0, 1, 0, 0, 0, 1, 0, 0, 0] = 2 := by simp [rho, Fin.sum_univ_succ]; norm_num
  have r2 : mx ![0, 1, 0, 0, 0, 1, 0, 0, 0] = 0 := by simp [mx, cx, Fin.sum_univ_succ]
  have r3 : my ![0, 1, 0, 0, 0, 1, 0, 0, 0] = 0 := by simp [my, cy, Fin.sum_univ_succ]
  refine ⟨fun _ _ => ![0, 1, 0, 0, 0, 1, 0, 0, 0], fun _ _ => relax 0.6 ![0, 1, 0, 0, 0, 1, 0, 0, 0], ?_, ?_, ?_, ?_⟩
  · intro y x i; fin_cases i <;> simp
  · intro y x; simp [ux, uy, r2, r3]
  · have hd : drift (fun (_ : ZMod ny) (_ : ZMod nx) => (![0, 1, 0, 0, 0, 1, 0, 0, 0] : Pop)) = fun _ _ => ![0, 1, 0, 0, 0, 1, 0, 0, 0] := rfl
    unfold step
    simp only [hd]
    rw [if_neg (by norm_num), if_neg (by rintro ⟨y, x, -, h⟩; rw [hd, r1] at h; norm_num at h)]
    simp
  · intro y x
    simp only [relax, equi, ux, uy, r1, r2, r3, feq, w, cx, cy]
    norm_num

/-! ## Examples -/

/-- The equilibrium of density 36 moving with `ux = 1/3`: the population along `+x` is 28/3, the one along `-x` is 4/3. -/
example : feq 36 (1 / 3) 0 3 = 28 / 3 ∧ feq 36 (1 / 3) 0 7 = 4 / 3 := by
  have h : w 3 = 1 / 9 ∧ w 7 = 1 / 9 ∧ cx 3 = 1 ∧ cx 7 = -1 := ⟨rfl, rfl, rfl, rfl⟩
  simp only [feq, h]
  norm_num

/-- Fluid at rest around the cylinder of the program stays at rest for every number of steps. -/
example (n : ℕ) : run (cylinder 100 400) 0.6 n (fun _ _ => feq 100 0 0) = .ok fun _ _ => feq 100 0 0 := by
  induction n with
  | zero => rfl
  | succ n ih =>
    rw [run, (C132_uniform (cylinder 100 400) 0.6 (by norm_num) 100 0 0 (by norm_num)).mpr (Or.inr ⟨rfl, rfl⟩)]
    exact ih

/-- The first pass of the program without noise succeeds; mass and symmetry as claimed. -/
example : ∃ F, mainRun (fun _ _ _ => 0) 1 = .ok F ∧ total rho F = 4000000 ∧ mirror F = F := by
  obtain ⟨F0, e0, hp, -, -⟩ := C132_start (ny := 100) (nx := 400) 100 (by norm_num) (fun _ _ _ => 0) (fun _ _ _ => by norm_num)
  have hr : ∀ y x, rho (drift F0 y x) ≠ 0 := fun y x => (Finset.sum_pos (fun i _ => hp _ _ i) ⟨0, Finset.mem_univ _⟩).ne'
  have hs : ∃ F, step (cylinder 100 400) 0.6 F0 = .ok F := by
    unfold step
    simp only
    rw [if_neg (by norm_num), if_neg (by rintro ⟨y, x, -, h⟩; exact hr y x h)]
    exact ⟨_, rfl⟩
  obtain ⟨F, hF⟩ := hs
  have hm : mainRun (fun _ _ _ => 0) 1 = .ok F := by
    unfold mainRun
    rw [e0]
    show run (cylinder 100 400) 0.6 1 F0 = .ok F
    rw [run, hF]
    rfl
  exact ⟨F, hm, C132_program _ (fun _ _ _ => by norm_num) 1 F hm, (C132_symmetric _ rfl 1 F hm).1⟩

/-- The centre is in the cylinder, the point 25 cells to the right is not. -/
example : cylinder 100 400 50 100 = true ∧ cylinder 100 400 50 125 = false := by
  constructor
  · rw [(C132_mask 50 100).1]
    show ((100 : ℕ) - 100 : ℤ) ^ 2 + ((50 : ℕ) - 50 : ℤ) ^ 2 < 25 ^ 2
    norm_num
  · rw [← Bool.not_eq_true, (C132_mask 50 125).1]
    show ¬ ((125 : ℕ) - 100 : ℤ) ^ 2 + ((50 : ℕ) - 50 : ℤ) ^ 2 < 25 ^ 2
    norm_num

/-- One obstacle cell in a uniform flow of 9 cells: it takes away twice the momentum of one cell, here 24 of 108. -/
example (cyl : Mask 3 3) (hc : ∀ y x, cyl y x = true ↔ y = 1 ∧ x = 1) (G : State 3 3) (h : step cyl 0.6 (fun _ _ => feq 36 (1 / 3) 0) = .ok G) : total mx G = 108 - 24 := by
  have hm : mx (feq 36 (1 / 3) 0) = 12 := by rw [mx_feq]; norm_num
  have hd : drift (fun (_ : ZMod 3) (_ : ZMod 3) => feq 36 (1 / 3) 0) = fun _ _ => feq 36 (1 / 3) 0 := rfl
  rw [(C132_balance cyl 0.6 _ G h).2.1, hd]
  have a : total mx (fun (_ : ZMod 3) (_ : ZMod 3) => feq 36 (1 / 3) 0) = 108 := by
    simp only [total, hm, Finset.sum_const, Finset.card_univ, ZMod.card, nsmul_eq_mul]; norm_num
  have b : inside cyl mx (fun (_ : ZMod 3) (_ : ZMod 3) => feq 36 (1 / 3) 0) = 12 := by
    simp only [inside, hm, hc]
    rw [Finset.sum_eq_single 1 (fun y _ hy => by simp [hy]) (by simp), Finset.sum_eq_single 1 (fun x _ hx => by simp [hx]) (by simp)]
    simp
  rw [a, b]
  norm_num

end Verif.Lbm.Cyl
