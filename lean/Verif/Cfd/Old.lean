import Verif.Cfd.OpsProps
import Mathlib.Analysis.Calculus.FDeriv.Add
import Mathlib.Analysis.Calculus.FDeriv.Linear
import Mathlib.Analysis.InnerProductSpace.PiL2

/-!
# C130: the earlier finite-volume operators (cfd/experiments/old)

`discretization.py`, `discretization2D.py`, `setupAM.py`, `solver.py`.  `ghost_cell` (discretization.py 5-13), `get_GC_values` (16-22) and `laplace` (62-74, without the default conditions) are
word for word those of cfd_am.py; their models `ghostCell`, `getGC`, `laplaceBody` are used.
-/
namespace Verif.Cfd
open Verif Finset
set_option linter.unusedSectionVars false

/-! ## Model -/

section model
variable {K : Type*} [Field K] {m : ℕ}

/-- `surf_value` on one entry (discretization.py 41-49). -/
def surfValue (bc : BcTag) (value : Fin m → K) (dx : K) (neighbor : Fin m → K) : Option (Fin m → K) :=
  if bc = .str "Dirchlet" ∨ bc = .int 0 then some (fun c => value c * 1)
  else if bc = .str "Neumann" ∨ bc = .int 1 then some (fun c => neighbor c + dx / 2 * value c)
  else if bc = .str "Marangoni_Z" ∨ bc = .int 2 then
    some (fun c => if c.val < 2 then neighbor c + dx / 2 * value c else value c)
  else none

/-- The slab looked at by `get_surf_values` (discretization.py 27-38): for the side `+x` it is `f[[1],:,:]`, an index beyond the end being moved to the end. -/
def surfSlab {α : Type*} (f : Arr3 α) : Fin 6 → Arr2 α :=
  ![⟨f.n1, f.n2, fun j k => f.get 0 j k⟩, ⟨f.n1, f.n2, fun j k => f.get (min 1 (f.n0 - 1)) j k⟩,
    ⟨f.n0, f.n2, fun i k => f.get i 0 k⟩, ⟨f.n0, f.n2, fun i k => f.get i (f.n1 - 1) k⟩,
    ⟨f.n0, f.n1, fun i j => f.get i j 0⟩, ⟨f.n0, f.n1, fun i j => f.get i j (f.n2 - 1)⟩]

/-- `get_surf_values` (discretization.py 26-38), entry `(a, b)`; the sides are numbered 0 to 5 (`-x`, `+x`, ...). -/
def surfAt (f : Arr3 (Fin m → K)) (bcs : BCs K m) (dX : Fin 3 → K) (face : Fin 6) (a b : ℕ) : Option (Fin m → K) :=
  surfValue (bcs.type face) ((bcs.value face).get a b) (sgnDx dX face) ((surfSlab f face).get a b)

/-- `cell_to_face` for given ghost slabs (discretization.py 55-58). -/
def cellToFace (f : Arr3 (Fin m → K)) (gc : Fin 6 → Arr2 (Fin m → K)) : Fin 3 → Arr3 (Fin m → K) :=
  ![⟨f.n0 + 1, f.n1, f.n2, fun i j k c => if i = 0 then ((gc 0).get j k c + f.get 0 j k c) / 2 else if i < f.n0 then (f.get i j k c + f.get (i - 1) j k c) / 2 else ((gc 1).get j k c + f.get (f.n0 - 1) j k c) / 2⟩,
    ⟨f.n0, f.n1 + 1, f.n2, fun i j k c => if j = 0 then ((gc 2).get i k c + f.get i 0 k c) / 2 else if j < f.n1 then (f.get i j k c + f.get i (j - 1) k c) / 2 else ((gc 3).get i k c + f.get i (f.n1 - 1) k c) / 2⟩,
    ⟨f.n0, f.n1, f.n2 + 1, fun i j k c => if k = 0 then ((gc 4).get i j c + f.get i j 0 c) / 2 else if k < f.n2 then (f.get i j k c + f.get i j (k - 1) c) / 2 else ((gc 5).get i j c + f.get i j (f.n2 - 1) c) / 2⟩]

/-- `gradient` for given ghost slabs (discretization.py 97-100), scalar field. -/
def gradientOld (f : Arr3 (Fin 1 → K)) (gc : Fin 6 → Arr2 (Fin 1 → K)) (dX : Fin 3 → K) : Arr3 (Fin 3 → K) :=
  ⟨f.n0, f.n1, f.n2, fun i j k c => dX 0 * dX 1 * dX 2 * (![
    ((diffA0 f (gc 1)).get i j k 0 + (diffP0 f (gc 0)).get i j k 0) / dX 0 / 2,
    ((diffA1 f (gc 3)).get i j k 0 + (diffP1 f (gc 2)).get i j k 0) / dX 1 / 2,
    ((diffA2 f (gc 5)).get i j k 0 + (diffP2 f (gc 4)).get i j k 0) / dX 2 / 2] : Fin 3 → K) c⟩

/-- `BC_surf` on one entry (discretization2D.py 4-8). -/
def bcSurf (bc : BcTag) (value : Fin m → K) (dx : K) (neighbor : Fin m → K) : Option (Fin m → K) :=
  if bc = .int 0 then some (fun c => 2 * value c - neighbor c)
  else if bc = .int 1 then some (fun c => neighbor c + dx * value c)
  else none

/-- Boundary lines `f[[0],:]`, `f[[-1],:]`, `f[:,[0]]`, `f[:,[-1]]` (discretization2D.py 12-15). -/
def edgeOf {α : Type*} (f : Arr2 α) : Fin 4 → Arr1 α :=
  ![⟨f.n1, fun j => f.get 0 j⟩, ⟨f.n1, fun j => f.get (f.n0 - 1) j⟩, ⟨f.n0, fun i => f.get i 0⟩, ⟨f.n0, fun i => f.get i (f.n1 - 1)⟩]

/-- Boundary conditions of the two-dimensional operators. -/
structure BCs2 (K : Type*) (m : ℕ) where
  type : Fin 4 → BcTag
  value : Fin 4 → Arr1 (Fin m → K)

/-- `get_bound_values` (discretization2D.py 11-15), entry `a` of side `s`. -/
def boundAt (f : Arr2 (Fin m → K)) (bcs : BCs2 K m) (dX : Fin 2 → K) (s : Fin 4) (a : ℕ) : Option (Fin m → K) :=
  bcSurf (bcs.type s) ((bcs.value s).get a) ((![-dX 0, dX 0, -dX 1, dX 1] : Fin 4 → K) s) ((edgeOf f s).get a)

/-- `np.diff(f, axis=0, append=g)` and the three others (discretization2D.py 20-21). -/
def dA0 (f : Arr2 (Fin m → K)) (g : Arr1 (Fin m → K)) (i j : ℕ) (c : Fin m) : K := (if i + 1 < f.n0 then f.get (i + 1) j c else g.get j c) - f.get i j c
@[inherit_doc dA0]
def dP0 (f : Arr2 (Fin m → K)) (g : Arr1 (Fin m → K)) (i j : ℕ) (c : Fin m) : K := f.get i j c - (if i = 0 then g.get j c else f.get (i - 1) j c)
@[inherit_doc dA0]
def dA1 (f : Arr2 (Fin m → K)) (g : Arr1 (Fin m → K)) (i j : ℕ) (c : Fin m) : K := (if j + 1 < f.n1 then f.get i (j + 1) c else g.get i c) - f.get i j c
@[inherit_doc dA0]
def dP1 (f : Arr2 (Fin m → K)) (g : Arr1 (Fin m → K)) (i j : ℕ) (c : Fin m) : K := f.get i j c - (if j = 0 then g.get i c else f.get i (j - 1) c)

/-- `diffusion` (discretization2D.py 19-22). -/
def diffusion2 (f : Arr2 (Fin m → K)) (f_b : Fin 4 → Arr1 (Fin m → K)) (miu : K) (dX : Fin 2 → K) : Arr2 (Fin m → K) :=
  ⟨f.n0, f.n1, fun i j c => ((dA0 f (f_b 1) i j c - dP0 f (f_b 0) i j c) / dX 0 * dX 1 + (dA1 f (f_b 3) i j c - dP1 f (f_b 2) i j c) / dX 1 * dX 0) * miu⟩

/-- `gradient` (discretization2D.py 64-66), scalar field. -/
def gradient2 (f : Arr2 (Fin 1 → K)) (f_b : Fin 4 → Arr1 (Fin 1 → K)) (dX : Fin 2 → K) : Arr2 (Fin 2 → K) :=
  ⟨f.n0, f.n1, fun i j => ![(dA0 f (f_b 1) i j 0 + dP0 f (f_b 0) i j 0) / dX 0 / 2, (dA1 f (f_b 3) i j 0 + dP1 f (f_b 2) i j 0) / dX 1 / 2]⟩

/-- `np.concatenate((lo, f, hi), axis=0)` and `axis=1` for lines. -/
def padL0 {α : Type*} (lo : Arr1 α) (f : Arr2 α) (hi : Arr1 α) : Arr2 α :=
  ⟨f.n0 + 2, f.n1, fun i j => if i = 0 then lo.get j else if i ≤ f.n0 then f.get (i - 1) j else hi.get j⟩
@[inherit_doc padL0]
def padL1 {α : Type*} (lo : Arr1 α) (f : Arr2 α) (hi : Arr1 α) : Arr2 α :=
  ⟨f.n0, f.n1 + 2, fun i j => if j = 0 then lo.get i else if j ≤ f.n1 then f.get i (j - 1) else hi.get i⟩

/-- `get_face_values` for given ghost lines (discretization2D.py 52-60). -/
def faceValues2 (vel : Arr2 (Fin 2 → K)) (vel_bc : Fin 4 → Arr1 (Fin 2 → K)) : Fin 2 → Arr2 K :=
  let u := padL0 (vel_bc 0) vel (vel_bc 1)
  let v := padL1 (vel_bc 2) vel (vel_bc 3)
  ![⟨vel.n0 + 1, vel.n1, fun i j => (u.get (i + 1) j 0 + u.get i j 0) / 2⟩, ⟨vel.n0, vel.n1 + 1, fun i j => (v.get i (j + 1) 1 + v.get i j 1) / 2⟩]

/-- `generate_mesh` (setupAM.py 5-25): spacings and cell centres. -/
def oldMesh (domain : Fin 3 → K) (N : Fin 3 → ℕ) : (Fin 3 → K) × (Fin 3 → Arr3 K) :=
  let x := meshgrid3 (Arr1.linspace 0 (domain 0) (N 0 + 1)) (Arr1.linspace 0 (domain 1) (N 1 + 1)) (Arr1.linspace 0 (domain 2) (N 2 + 1))
  (fun d => domain d / N d,
   ![⟨N 0, N 1, N 2, fun i j k => ((x 0).get (i + 1) (j + 1) (k + 1) + (x 0).get i (j + 1) (k + 1)) / 2⟩,
     ⟨N 0, N 1, N 2, fun i j k => ((x 1).get (i + 1) (j + 1) (k + 1) + (x 1).get (i + 1) j (k + 1)) / 2⟩,
     ⟨N 0, N 1, N 2, fun i j k => ((x 2).get (i + 1) (j + 1) (k + 1) + (x 2).get (i + 1) (j + 1) k) / 2⟩])

variable [LinearOrder K]

/-- `div` for given ghost slabs (discretization.py 78-93). -/
def divOld (f : Arr3 (Fin m → K)) (gc : Fin 6 → Arr2 (Fin m → K)) (vel_f : Fin 3 → Arr3 K) (dX : Fin 3 → K) (theta : K) : Arr3 (Fin m → K) :=
  let fx := faceX theta f (gc 0) (gc 1) (vel_f 0)
  let fy := faceY theta f (gc 2) (gc 3) (vel_f 1)
  let fz := faceZ theta f (gc 4) (gc 5) (vel_f 2)
  ⟨f.n0, f.n1, f.n2, fun i j k c =>
    (fx.get (i + 1) j k c * (vel_f 0).get (i + 1) j k - fx.get i j k c * (vel_f 0).get i j k) * dX 1 * dX 2
    + (fy.get i (j + 1) k c * (vel_f 1).get i (j + 1) k - fy.get i j k c * (vel_f 1).get i j k) * dX 2 * dX 0
    + (fz.get i j (k + 1) c * (vel_f 2).get i j (k + 1) - fz.get i j k c * (vel_f 2).get i j k) * dX 0 * dX 1⟩

/-- `convection` for given ghost lines (discretization2D.py 26-45). -/
def convection2 (f : Arr2 (Fin m → K)) (f_b : Fin 4 → Arr1 (Fin m → K)) (vel_f : Fin 2 → Arr2 K) (dX : Fin 2 → K) (theta : K) : Arr2 (Fin m → K) :=
  let fx := padL0 (f_b 0) (padL0 (f_b 0) f (f_b 1)) (f_b 1)
  let fy := padL1 (f_b 2) (padL1 (f_b 2) f (f_b 3)) (f_b 3)
  let x : ℕ → ℕ → Fin m → K := fun i j c => faceVal theta ((vel_f 0).get i j) (fx.get i j c) (fx.get (i + 1) j c) (fx.get (i + 2) j c) (fx.get (i + 3) j c)
  let y : ℕ → ℕ → Fin m → K := fun i j c => faceVal theta ((vel_f 1).get i j) (fy.get i j c) (fy.get i (j + 1) c) (fy.get i (j + 2) c) (fy.get i (j + 3) c)
  ⟨f.n0, f.n1, fun i j c => (x (i + 1) j c * (vel_f 0).get (i + 1) j - x i j c * (vel_f 0).get i j) * dX 1 + (y i (j + 1) c * (vel_f 1).get i (j + 1) - y i j c * (vel_f 1).get i j) * dX 0⟩

end model

section solvers
variable {V : Type*} [NormedAddCommGroup V] [NormedSpace ℝ V]

/-- `get_A_fn_linear_fn` (experiments/old/solver.py 6-11): `jax.jvp`. -/
noncomputable def oldJvp (A : V → V) (dofs inc : V) : V := fderiv ℝ A dofs inc

/-- `solver_linear` (experiments/old/solver.py 14-24) and `solver_linear_cg` (old/solver.py 40-50), which differ in the iterative method `krylov`; second component: the ratio of norms (`none`: division by zero). -/
noncomputable def oldLinear (krylov : (V → V) → V → V) (A : V → V) (dofs : V) : V × Option ℝ :=
  let b := -A dofs
  let x := dofs + krylov (oldJvp A dofs) b
  (x, if ‖b‖ = 0 then none else some (‖A x‖ / ‖b‖))

/-- `cond_fun` of `solver_nonlinear` (experiments/old/solver.py 56-58) without the counter. `‖inc‖/0` is `inf` or, for `inc = 0`, NaN. -/
def oldGoOn (tol : ℝ) (dofs inc : V) : Prop := if ‖dofs‖ = 0 then 0 < ‖inc‖ else tol < ‖inc‖ / ‖dofs‖

open Classical in
/-- The `while_loop` (experiments/old/solver.py 60-70); the fuel is `max_it - it`. -/
noncomputable def oldLoop (krylov : (V → V) → V → V) (A : V → V) (tol alpha : ℝ) : ℕ → V → V → ℕ → V × V × ℕ
  | 0, dofs, inc, it => (dofs, inc, it)
  | fuel + 1, dofs, inc, it =>
    if oldGoOn tol dofs inc then
      let inc := krylov (oldJvp A dofs) (-A dofs)
      oldLoop krylov A tol alpha fuel (dofs + alpha • inc) inc (it + 1)
    else (dofs, inc, it)

/-- `solver_nonlinear` (experiments/old/solver.py 53-72); `ones` is `np.ones_like(dofs)`. -/
noncomputable def oldNonlinear (krylov : (V → V) → V → V) (A : V → V) (ones dofs : V) (tol : ℝ) (max_it : ℕ) (alpha : ℝ) : V × ℕ :=
  let r := oldLoop krylov A tol alpha max_it dofs ones 0
  (r.1, r.2.2)

end solvers

/-! ## Three dimensions -/

variable {K : Type*} [Field K] [LinearOrder K] [IsStrictOrderedRing K] {m : ℕ}

theorem surfValue_ghost (bc : BcTag) (value nb : Fin m → K) (dx : K) : surfValue bc value dx nb = (ghostCell bc value dx nb).map fun g c => (g c + nb c) / 2 := by
  unfold surfValue ghostCell
  split_ifs
  · simp
  · simp only [Option.map_some, Option.some.injEq]
    funext c
    ring
  · simp only [Option.map_some, Option.some.injEq]
    funext c
    split_ifs <;> ring
  · rfl

/-- **C130 (surface values).** The value `get_surf_values` returns for a side is the one `cell_to_face` puts on the faces of that side, for every condition on every side except `+x`.  On `+x` this holds for Dirichlet conditions
and for at most two cells in x direction. -/
theorem C130_surface (f : Arr3 (Fin m → K)) (bcs : BCs K m) (dX : Fin 3 → K) (h0 : 0 < f.n0) (h1 : 0 < f.n1) (h2 : 0 < f.n2) (gc : Fin 6 → Arr2 (Fin m → K)) (hgc : allSome (getGC f bcs dX) = some gc) (s : Fin 6)
    (hs : s = 1 → f.n0 ≤ 2 ∨ bcs.type 1 = .int 0) (a b : ℕ) :
    let p := sideCell (f.n0 + 1) (f.n1 + 1) (f.n2 + 1) s a b
    surfAt f bcs dX s a b = some ((cellToFace f gc (sideAxis s)).get p.1 p.2.1 p.2.2) := by
  have hg := ghostSlab_eq _ _ _ _ _ (allSome_some _ _ hgc s) a b
  have hface : ∀ c, (cellToFace f gc (sideAxis s)).get (sideCell (f.n0 + 1) (f.n1 + 1) (f.n2 + 1) s a b).1 (sideCell (f.n0 + 1) (f.n1 + 1) (f.n2 + 1) s a b).2.1 (sideCell (f.n0 + 1) (f.n1 + 1) (f.n2 + 1) s a b).2.2 c =
      ((gc s).get a b c + (slab f s).get a b c) / 2 := by
    intro c
    fin_cases s <;> simp [cellToFace, sideCell, sideAxis, slab, h0.ne', h1.ne', h2.ne']
  intro p
  by_cases h1' : s = 1 ∧ 2 < f.n0
  · obtain ⟨rfl, hn⟩ := h1'
    have ht := (hs rfl).resolve_left (by omega)
    rw [ht] at hg
    simp only [ghostCell, or_true, if_true, Option.some.injEq] at hg
    unfold surfAt
    rw [ht]
    simp only [surfValue, or_true, if_true, Option.some.injEq, mul_one]
    funext c
    rw [hface c, ← hg]
    ring
  · have hslab : (surfSlab f s).get a b = (slab f s).get a b := by
      fin_cases s
      · rfl
      · have hn : ¬ 2 < f.n0 := fun h => h1' ⟨rfl, h⟩
        show f.get (min 1 (f.n0 - 1)) a b = f.get (f.n0 - 1) a b
        rw [Nat.min_eq_right (by omega)]
      all_goals rfl
    unfold surfAt
    rw [hslab, surfValue_ghost, hg, Option.map_some]
    congr 1
    funext c
    exact (hface c).symm

/-- **C130 (surface values on +x, finding).** With an insulated side `+x` and three cells in a row, 0, 0 and 1, `get_surf_values` returns 0 where `cell_to_face` has 1: the second cell is read instead of the last. -/
theorem C130_surface_fails : ∃ (f : Arr3 (Fin 1 → ℚ)) (gc : Fin 6 → Arr2 (Fin 1 → ℚ)), f.n0 = 3 ∧ allSome (getGC f (defaultBCs ℚ 1) fun _ => 1) = some gc ∧
    surfAt f (defaultBCs ℚ 1) (fun _ => 1) 1 0 0 = some (fun _ => 0) ∧ (cellToFace f gc 0).get 3 0 0 = fun _ => 1 := by
  obtain ⟨gc, h, hv⟩ := defaultGC (K := ℚ) (m := 1) ⟨3, 1, 1, fun i _ _ _ => if i = 2 then 1 else 0⟩ fun _ => 1
  refine ⟨_, gc, rfl, h, ?_, ?_⟩
  · simp [surfAt, surfValue, defaultBCs, surfSlab]
  · funext c
    simp [cellToFace, hv, slab]

/-- **C130 (convection).** The earlier `div` is the present one times the volume of a cell. -/
theorem C130_div (f : Arr3 (Fin m → K)) (gc : Fin 6 → Arr2 (Fin m → K)) (v : Fin 3 → Arr3 K) (dX : Fin 3 → K) (hd : ∀ a, dX a ≠ 0) (theta : K) (i j k : ℕ) (c : Fin m) :
    (divOld f gc v dX theta).get i j k c = dX 0 * dX 1 * dX 2 * (divBody f gc v dX theta).get i j k c := by
  have := hd 0
  have := hd 1
  have := hd 2
  simp only [divOld, divBody]
  field_simp

/-- **C130 (gradient).** With ghost values of an insulated box the earlier `gradient` is the present one times the volume of a cell. -/
theorem C130_gradient (f : Arr3 (Fin 1 → K)) (dX : Fin 3 → K) (bcs : Option (BCs K 1)) : ∃ gc g, allSome (getGC f (defaultBCs K 1) dX) = some gc ∧ gradient f dX bcs = some g ∧
    ∀ i j k c, (gradientOld f gc dX).get i j k c = dX 0 * dX 1 * dX 2 * g.get i j k c := by
  obtain ⟨gc, hgc, -⟩ := defaultGC f dX
  unfold gradient
  rw [hgc]
  exact ⟨gc, _, rfl, rfl, fun i j k c => rfl⟩

theorem cellToFace_diff (f : Arr3 (Fin m → K)) (gc : Fin 6 → Arr2 (Fin m → K)) (i j k : ℕ) (hi : i < f.n0) (hj : j < f.n1) (hk : k < f.n2) (c : Fin m) :
    (cellToFace f gc 0).get (i + 1) j k c - (cellToFace f gc 0).get i j k c = ((diffA0 f (gc 1)).get i j k c + (diffP0 f (gc 0)).get i j k c) / 2 ∧
    (cellToFace f gc 1).get i (j + 1) k c - (cellToFace f gc 1).get i j k c = ((diffA1 f (gc 3)).get i j k c + (diffP1 f (gc 2)).get i j k c) / 2 ∧
    (cellToFace f gc 2).get i j (k + 1) c - (cellToFace f gc 2).get i j k c = ((diffA2 f (gc 5)).get i j k c + (diffP2 f (gc 4)).get i j k c) / 2 := by
  have key : ∀ (n t : ℕ) (F : ℕ → K) (lo hi : K), t < n →
      (if t + 1 = 0 then (lo + F 0) / 2 else if t + 1 < n then (F (t + 1) + F (t + 1 - 1)) / 2 else (hi + F (n - 1)) / 2) - (if t = 0 then (lo + F 0) / 2 else if t < n then (F t + F (t - 1)) / 2 else (hi + F (n - 1)) / 2) =
      ((if t + 1 < n then F (t + 1) else hi) - F t + (F t - if t = 0 then lo else F (t - 1))) / 2 := by
    intro n t F lo hi ht
    rw [if_neg (Nat.succ_ne_zero t), Nat.add_sub_cancel]
    by_cases h1 : t + 1 < n
    · rw [if_pos h1, if_pos h1]
      by_cases h2 : t = 0
      · subst h2
        rw [if_pos rfl, if_pos rfl]
        ring
      · rw [if_neg h2, if_neg h2, if_pos ht]
        ring
    · have e : n - 1 = t := by omega
      rw [if_neg h1, if_neg h1, e]
      by_cases h2 : t = 0
      · subst h2
        rw [if_pos rfl, if_pos rfl]
        ring
      · rw [if_neg h2, if_neg h2, if_pos ht]
        ring
  exact ⟨key f.n0 i (fun t => f.get t j k c) _ _ hi, key f.n1 j (fun t => f.get i t k c) _ _ hj, key f.n2 k (fun t => f.get i j t c) _ _ hk⟩

/-- **C130 (Gauss).** In every cell the earlier `gradient` is the sum of face value times outward face area over the six faces, the face values being those of `cell_to_face`, with the same ghost values. -/
theorem C130_gauss (f : Arr3 (Fin 1 → K)) (gc : Fin 6 → Arr2 (Fin 1 → K)) (dX : Fin 3 → K) (hd : ∀ a, dX a ≠ 0) (i j k : ℕ) (hi : i < f.n0) (hj : j < f.n1) (hk : k < f.n2) :
    (gradientOld f gc dX).get i j k = ![
      ((cellToFace f gc 0).get (i + 1) j k 0 - (cellToFace f gc 0).get i j k 0) * (dX 1 * dX 2),
      ((cellToFace f gc 1).get i (j + 1) k 0 - (cellToFace f gc 1).get i j k 0) * (dX 0 * dX 2),
      ((cellToFace f gc 2).get i j (k + 1) 0 - (cellToFace f gc 2).get i j k 0) * (dX 0 * dX 1)] := by
  have := hd 0
  have := hd 1
  have := hd 2
  obtain ⟨e0, e1, e2⟩ := cellToFace_diff f gc i j k hi hj hk 0
  rw [e0, e1, e2]
  funext c
  fin_cases c
  · simp only [gradientOld, Fin.zero_eta, Matrix.cons_val_zero]
    field_simp
  · show dX 0 * dX 1 * dX 2 * (((diffA1 f (gc 3)).get i j k 0 + (diffP1 f (gc 2)).get i j k 0) / dX 1 / 2) = ((diffA1 f (gc 3)).get i j k 0 + (diffP1 f (gc 2)).get i j k 0) / 2 * (dX 0 * dX 2)
    field_simp
  · show dX 0 * dX 1 * dX 2 * (((diffA2 f (gc 5)).get i j k 0 + (diffP2 f (gc 4)).get i j k 0) / dX 2 / 2) = ((diffA2 f (gc 5)).get i j k 0 + (diffP2 f (gc 4)).get i j k 0) / 2 * (dX 0 * dX 1)
    field_simp

/-- **C130 (total gradient).** Summed over the box the earlier `gradient` leaves only the surface: in x direction the values of `get_surf_values` on the right minus those on the left, times the face area
(`cell_to_face` on the right, see the finding). -/
theorem C130_gauss_total (f : Arr3 (Fin 1 → K)) (gc : Fin 6 → Arr2 (Fin 1 → K)) (dX : Fin 3 → K) (hd : ∀ a, dX a ≠ 0) :
    gridSum f.n0 f.n1 f.n2 (fun i j k => (gradientOld f gc dX).get i j k 0) = slabSum f.n1 f.n2 (fun j k => (cellToFace f gc 0).get f.n0 j k 0 - (cellToFace f gc 0).get 0 j k 0) * (dX 1 * dX 2) ∧
    gridSum f.n0 f.n1 f.n2 (fun i j k => (gradientOld f gc dX).get i j k 1) = slabSum f.n0 f.n2 (fun i k => (cellToFace f gc 1).get i f.n1 k 0 - (cellToFace f gc 1).get i 0 k 0) * (dX 0 * dX 2) ∧
    gridSum f.n0 f.n1 f.n2 (fun i j k => (gradientOld f gc dX).get i j k 2) = slabSum f.n0 f.n1 (fun i j => (cellToFace f gc 2).get i j f.n2 0 - (cellToFace f gc 2).get i j 0 0) * (dX 0 * dX 1) := by
  refine ⟨?_, ?_, ?_⟩
  · rw [gridSum_congr f.n0 f.n1 f.n2 _ _ fun i hi j hj k hk => by rw [C130_gauss f gc dX hd i j k hi hj hk, Matrix.cons_val_zero], gridSum_mul, tele0 _ _ _ fun i j k => (cellToFace f gc 0).get i j k 0]
  · rw [gridSum_congr f.n0 f.n1 f.n2 _ (fun i j k => ((cellToFace f gc 1).get i (j + 1) k 0 - (cellToFace f gc 1).get i j k 0) * (dX 0 * dX 2)) fun i hi j hj k hk => by rw [C130_gauss f gc dX hd i j k hi hj hk]; rfl,
      gridSum_mul, tele1 _ _ _ fun i j k => (cellToFace f gc 1).get i j k 0]
  · rw [gridSum_congr f.n0 f.n1 f.n2 _ (fun i j k => ((cellToFace f gc 2).get i j (k + 1) 0 - (cellToFace f gc 2).get i j k 0) * (dX 0 * dX 1)) fun i hi j hj k hk => by rw [C130_gauss f gc dX hd i j k hi hj hk]; rfl,
      gridSum_mul, tele2 _ _ _ fun i j k => (cellToFace f gc 2).get i j k 0]

/-! ## Two dimensions as one layer of cells -/

/-- Specification: a plane field as one layer of cells. -/
def layer {α : Type*} (f : Arr2 α) : Arr3 α := ⟨f.n0, f.n1, 1, fun i j _ => f.get i j⟩

/-- Specification: the conditions of the plane problem on the four lateral sides, insulated below and above. -/
def layerBCs (b : BCs2 K m) : BCs K m :=
  ⟨![b.type 0, b.type 1, b.type 2, b.type 3, .int 1, .int 1],
   ![⟨(b.value 0).n, 1, fun a _ => (b.value 0).get a⟩, ⟨(b.value 1).n, 1, fun a _ => (b.value 1).get a⟩, ⟨(b.value 2).n, 1, fun a _ => (b.value 2).get a⟩, ⟨(b.value 3).n, 1, fun a _ => (b.value 3).get a⟩,
     ⟨0, 0, fun _ _ _ => 0⟩, ⟨0, 0, fun _ _ _ => 0⟩]⟩

/-- Specification: the ghost lines as ghost slabs of the layer. -/
def layerGC (f : Arr2 (Fin m → K)) (f_b : Fin 4 → Arr1 (Fin m → K)) : Fin 6 → Arr2 (Fin m → K) :=
  ![⟨f.n1, 1, fun a _ => (f_b 0).get a⟩, ⟨f.n1, 1, fun a _ => (f_b 1).get a⟩, ⟨f.n0, 1, fun a _ => (f_b 2).get a⟩, ⟨f.n0, 1, fun a _ => (f_b 3).get a⟩, f, f]

theorem bcSurf_ghost (bc : BcTag) (value nb : Fin m → K) (dx : K) (g : Fin m → K) (h : bcSurf bc value dx nb = some g) : ghostCell bc value dx nb = some g := by
  unfold bcSurf at h
  unfold ghostCell
  split_ifs at h with h1 h2
  · rw [if_pos (.inr h1)]
    exact h
  · subst h2
    simpa using h

/-- **C130 (plane ghost values).** The ghost values of the plane operators are those of the three-dimensional ones on one layer of cells, insulated below and above. -/
theorem C130_plane_ghost (f : Arr2 (Fin m → K)) (b : BCs2 K m) (dX : Fin 2 → K) (dz : K) (f_b : Fin 4 → Arr1 (Fin m → K)) (h : ∀ s a, boundAt f b dX s a = some ((f_b s).get a)) :
    allSome (getGC (layer f) (layerBCs b) ![dX 0, dX 1, dz]) = some (layerGC f f_b) := by
  refine allSome_eq _ _ fun s => ?_
  have hsome : ∀ (t : BcTag) (v : Arr2 (Fin m → K)) (dx : K) (nb g : Arr2 (Fin m → K)), g.n0 = nb.n0 → g.n1 = nb.n1 → (∀ a b', ghostCell t (v.get a b') dx (nb.get a b') = some (g.get a b')) → ghostSlab t v dx nb = some g := by
    intro t v dx nb g e0 e1 hh
    have h0 := hh 0 0
    have : (ghostCell t (fun _ : Fin m => (0 : K)) dx (fun _ => 0)).isSome := by
      revert h0
      unfold ghostCell
      split_ifs <;> simp
    unfold ghostSlab
    rw [if_pos this]
    obtain ⟨g0, g1, gg⟩ := g
    simp only at e0 e1 hh
    subst e0 e1
    congr 2
    funext a b'
    rw [hh a b']
    rfl
  have hb : ∀ s a, ghostCell (b.type s) ((b.value s).get a) ((![-dX 0, dX 0, -dX 1, dX 1] : Fin 4 → K) s) ((edgeOf f s).get a) = some ((f_b s).get a) := fun s a => bcSurf_ghost _ _ _ _ _ (h s a)
  fin_cases s
  · exact hsome _ _ _ _ _ rfl rfl fun a _ => hb 0 a
  · exact hsome _ _ _ _ _ rfl rfl fun a _ => hb 1 a
  · exact hsome _ _ _ _ _ rfl rfl fun a _ => hb 2 a
  · exact hsome _ _ _ _ _ rfl rfl fun a _ => hb 3 a
  all_goals
    refine hsome _ _ _ _ _ rfl rfl fun a b' => ?_
    simp [layerBCs, ghostCell, slab, layer, layerGC]

/-- **C130 (plane operators).** On one layer of cells of height 1, insulated below and above and without vertical velocity, the three-dimensional operators are the plane ones: diffusion, convection, gradient (times the area of a
cell; no vertical component) and face velocities. -/
theorem C130_plane (f : Arr2 (Fin m → K)) (f_b : Fin 4 → Arr1 (Fin m → K)) (dX : Fin 2 → K) (i j : ℕ) (c : Fin m) :
    (∀ miu, (laplaceBody (layer f) (layerGC f f_b) (.scalar miu) ![dX 0, dX 1, 1]).get i j 0 c = (diffusion2 f f_b miu dX).get i j c) ∧
    (∀ theta u v, (divOld (layer f) (layerGC f f_b) ![layer u, layer v, ⟨f.n0, f.n1, 2, fun _ _ _ => 0⟩] ![dX 0, dX 1, 1] theta).get i j 0 c = (convection2 f f_b ![u, v] dX theta).get i j c) := by
  constructor
  · intro miu
    have ha : (diffA2 (layer f) (layerGC f f_b 5)).get i j 0 c = 0 := sub_self _
    have hp : (diffP2 (layer f) (layerGC f f_b 4)).get i j 0 c = 0 := sub_self _
    have e : (laplaceBody (layer f) (layerGC f f_b) (.scalar miu) ![dX 0, dX 1, 1]).get i j 0 c =
      ((dA0 f (f_b 1) i j c - dP0 f (f_b 0) i j c) / dX 0 * dX 1 * 1 + (dA1 f (f_b 3) i j c - dP1 f (f_b 2) i j c) / dX 1 * 1 * dX 0 +
        ((diffA2 (layer f) (layerGC f f_b 5)).get i j 0 c - (diffP2 (layer f) (layerGC f f_b 4)).get i j 0 c) / 1 * dX 0 * dX 1) * miu := rfl
    rw [e, ha, hp]
    show _ = ((dA0 f (f_b 1) i j c - dP0 f (f_b 0) i j c) / dX 0 * dX 1 + (dA1 f (f_b 3) i j c - dP1 f (f_b 2) i j c) / dX 1 * dX 0) * miu
    ring
  · intro theta u v
    set C := convection2 f f_b ![u, v] dX theta with hC
    set x : ℕ → ℕ → Fin m → K := fun i j c => (faceX theta (layer f) (layerGC f f_b 0) (layerGC f f_b 1) (layer u)).get i j 0 c
    set y : ℕ → ℕ → Fin m → K := fun i j c => (faceY theta (layer f) (layerGC f f_b 2) (layerGC f f_b 3) (layer v)).get i j 0 c
    have e : (divOld (layer f) (layerGC f f_b) ![layer u, layer v, ⟨f.n0, f.n1, 2, fun _ _ _ => 0⟩] ![dX 0, dX 1, 1] theta).get i j 0 c =
      (x (i + 1) j c * u.get (i + 1) j - x i j c * u.get i j) * dX 1 * 1 + (y i (j + 1) c * v.get i (j + 1) - y i j c * v.get i j) * 1 * dX 0 +
        ((faceZ theta (layer f) (layerGC f f_b 4) (layerGC f f_b 5) ⟨f.n0, f.n1, 2, fun _ _ _ => 0⟩).get i j 1 c * 0 - (faceZ theta (layer f) (layerGC f f_b 4) (layerGC f f_b 5) ⟨f.n0, f.n1, 2, fun _ _ _ => 0⟩).get i j 0 c * 0) * dX 0 * dX 1 := rfl
    have e2 : C.get i j c = (x (i + 1) j c * u.get (i + 1) j - x i j c * u.get i j) * dX 1 + (y i (j + 1) c * v.get i (j + 1) - y i j c * v.get i j) * dX 0 := rfl
    rw [e, e2]
    ring

/-- **C130 (plane gradient).** -/
theorem C130_plane_gradient (f : Arr2 (Fin 1 → K)) (f_b : Fin 4 → Arr1 (Fin 1 → K)) (dX : Fin 2 → K) (i j : ℕ) :
    (gradientOld (layer f) (layerGC f f_b) ![dX 0, dX 1, 1]).get i j 0 = ![dX 0 * dX 1 * (gradient2 f f_b dX).get i j 0, dX 0 * dX 1 * (gradient2 f f_b dX).get i j 1, 0] := by
  funext c
  fin_cases c
  · show dX 0 * dX 1 * 1 * ((dA0 f (f_b 1) i j 0 + dP0 f (f_b 0) i j 0) / dX 0 / 2) = dX 0 * dX 1 * ((dA0 f (f_b 1) i j 0 + dP0 f (f_b 0) i j 0) / dX 0 / 2)
    rw [mul_one]
  · show dX 0 * dX 1 * 1 * ((dA1 f (f_b 3) i j 0 + dP1 f (f_b 2) i j 0) / dX 1 / 2) = dX 0 * dX 1 * ((dA1 f (f_b 3) i j 0 + dP1 f (f_b 2) i j 0) / dX 1 / 2)
    rw [mul_one]
  · show dX 0 * dX 1 * 1 * ((f.get i j 0 - f.get i j 0 + (f.get i j 0 - f.get i j 0)) / 1 / 2) = 0
    ring

theorem padL_map {α β : Type*} (lo : Arr1 α) (f : Arr2 α) (hi : Arr1 α) (g : α → β) (i j : ℕ) :
    (padL0 ⟨lo.n, fun a => g (lo.get a)⟩ ⟨f.n0, f.n1, fun i j => g (f.get i j)⟩ ⟨hi.n, fun a => g (hi.get a)⟩).get i j = g ((padL0 lo f hi).get i j) ∧
    (padL1 ⟨lo.n, fun a => g (lo.get a)⟩ ⟨f.n0, f.n1, fun i j => g (f.get i j)⟩ ⟨hi.n, fun a => g (hi.get a)⟩).get i j = g ((padL1 lo f hi).get i j) := by
  simp only [padL0, padL1]
  constructor <;> split_ifs <;> rfl

/-- **C130 (plane face velocities).** -/
theorem C130_plane_faces (vel : Arr2 (Fin 3 → K)) (b : BCs2 K 3) (dX : Fin 2 → K) (dz : K) (f_b : Fin 4 → Arr1 (Fin 3 → K)) (h : ∀ s a, boundAt vel b dX s a = some ((f_b s).get a)) :
    ∃ w, faceVels (layer vel) ![dX 0, dX 1, dz] (some (layerBCs b)) = some w ∧
      let F := faceValues2 ⟨vel.n0, vel.n1, fun i j c => vel.get i j c.castSucc⟩ fun s => ⟨(f_b s).n, fun a c => (f_b s).get a c.castSucc⟩
      ∀ i j, (w 0).get i j 0 = (F 0).get i j ∧ (w 1).get i j 0 = (F 1).get i j ∧ (w 2).get i j 0 = vel.get i j 2 := by
  have hgc := C130_plane_ghost vel b dX dz f_b h
  refine ⟨_, by unfold faceVels; rw [Option.getD_some, hgc]; rfl, ?_⟩
  intro F i j
  refine ⟨?_, ?_, ?_⟩
  · have e := fun i => congrFun (padL_map (f_b 0) vel (f_b 1) (fun (x : Fin 3 → K) (c : Fin 2) => x c.castSucc) i j).1 0
    show ((padL0 (f_b 0) vel (f_b 1)).get (i + 1) j 0 + (padL0 (f_b 0) vel (f_b 1)).get i j 0) / 2 = _
    exact congrArg₂ (fun a b => (a + b) / 2) (e (i + 1)).symm (e i).symm
  · have e := fun j => congrFun (padL_map (f_b 2) vel (f_b 3) (fun (x : Fin 3 → K) (c : Fin 2) => x c.castSucc) i j).2 1
    show ((padL1 (f_b 2) vel (f_b 3)).get i (j + 1) 1 + (padL1 (f_b 2) vel (f_b 3)).get i j 1) / 2 = _
    exact congrArg₂ (fun a b => (a + b) / 2) (e (j + 1)).symm (e j).symm
  · show (vel.get i j 2 + vel.get i j 2) / 2 = vel.get i j 2
    ring

/-- **C130 (mesh).** `generate_mesh` of setupAM.py returns the centres of the cells. -/
theorem C130_mesh (domain : Fin 3 → K) (N : Fin 3 → ℕ) (i : Fin 3 → ℕ) (d : Fin 3) : ((oldMesh domain N).2 d).get (i 0) (i 1) (i 2) = ((i d : K) + 1 / 2) * (oldMesh domain N).1 d := by
  fin_cases d <;> simp [oldMesh, meshgrid3, Arr1.linspace] <;> ring

example : (diffusion2 (K := ℚ) (m := 1) ⟨2, 1, fun i _ _ => i⟩ (fun _ => ⟨1, fun _ _ => 0⟩) 1 ![1, 1]).get 0 0 0 = 1 := by
  simp [diffusion2, dA0, dP0, dA1, dP1]

/-! ## Solvers -/

section solvers
variable {V : Type*} [NormedAddCommGroup V] [NormedSpace ℝ V]

/-- **C130 (reported residual).** For an affine problem the number `solver_linear` returns is the relative residual of the linear system the iterative method was asked to solve; it is 0 for an exact method, and then
the returned array solves the problem. -/
theorem C130_linear (krylov : (V → V) → V → V) (L : V →L[ℝ] V) (r : V) (x : V) :
    let A : V → V := fun y => L y + r
    let inc := krylov L (-A x)
    (oldLinear krylov A x).1 = x + inc ∧ (A x ≠ 0 → (oldLinear krylov A x).2 = some (‖-A x - L inc‖ / ‖-A x‖)) ∧ (L inc = -A x → A (oldLinear krylov A x).1 = 0) := by
  intro A inc
  have hj : oldJvp A x = L := by
    funext v
    unfold oldJvp
    show fderiv ℝ (fun y => L y + r) x v = L v
    rw [fderiv_add_const, L.fderiv]
  have h1 : (oldLinear krylov A x).1 = x + inc := by
    simp only [oldLinear, hj]
    rfl
  have h2 : A (x + inc) = -(-A x - L inc) := by
    show L (x + inc) + r = -(-(L x + r) - L inc)
    rw [map_add]
    abel
  refine ⟨h1, fun hne => ?_, fun he => ?_⟩
  · have h3 : (oldLinear krylov A x).2 = if ‖-A x‖ = 0 then none else some (‖A (x + inc)‖ / ‖-A x‖) := by
      simp only [oldLinear, hj]
      rfl
    rw [h3, if_neg (by simpa using hne), h2, norm_neg (-A x - L inc)]
  · rw [h1, h2, he]
    simp

theorem oldLoop_spec (krylov : (V → V) → V → V) (A : V → V) (tol alpha : ℝ) : ∀ (fuel : ℕ) (x inc : V) (it : ℕ),
    let r := oldLoop krylov A tol alpha fuel x inc it
    it ≤ r.2.2 ∧ r.2.2 ≤ it + fuel ∧ (r.2.2 < it + fuel → ¬ oldGoOn tol r.1 r.2.1) ∧
    ((r.2.2 = it ∧ r.1 = x ∧ r.2.1 = inc) ∨ (it < r.2.2 ∧ ∃ y, r.1 = y + alpha • r.2.1 ∧ r.2.1 = krylov (oldJvp A y) (-A y)))
  | 0, x, inc, it => by
    refine ⟨le_rfl, le_rfl, fun h => absurd h (lt_irrefl _), .inl ⟨rfl, rfl, rfl⟩⟩
  | fuel + 1, x, inc, it => by
    intro r
    by_cases hg : oldGoOn tol x inc
    · have hr : r = oldLoop krylov A tol alpha fuel (x + alpha • krylov (oldJvp A x) (-A x)) (krylov (oldJvp A x) (-A x)) (it + 1) := by
        show oldLoop krylov A tol alpha (fuel + 1) x inc it = _
        simp only [oldLoop, if_pos hg]
      obtain ⟨h1, h2, h3, h4⟩ := oldLoop_spec krylov A tol alpha fuel (x + alpha • krylov (oldJvp A x) (-A x)) (krylov (oldJvp A x) (-A x)) (it + 1)
      rw [← hr] at h1 h2 h3 h4
      refine ⟨by omega, by omega, fun h => h3 (by omega), .inr ⟨by omega, ?_⟩⟩
      rcases h4 with ⟨-, h5, h6⟩ | ⟨-, h5⟩
      · exact ⟨x, by rw [h6, h5], h6⟩
      · exact h5
    · have hr : r = (x, inc, it) := by
        show oldLoop krylov A tol alpha (fuel + 1) x inc it = _
        simp only [oldLoop, if_neg hg]
      rw [hr]
      exact ⟨le_rfl, by simp, fun _ => hg, .inl ⟨rfl, rfl, rfl⟩⟩

/-- **C130 (nonlinear solver).** The loop never exceeds `max_it`. If it did at least one step and stops before, the returned array is `y + alpha·inc`, where `inc` answers the linearised problem at `y`, and `inc` is at most `tol` times
as long as the returned array. -/
theorem C130_nonlinear (krylov : (V → V) → V → V) (A : V → V) (ones x : V) (tol : ℝ) (max_it : ℕ) (alpha : ℝ) :
    let r := oldNonlinear krylov A ones x tol max_it alpha
    r.2 ≤ max_it ∧ (0 < r.2 → ∃ y, r.1 = y + alpha • krylov (oldJvp A y) (-A y) ∧ (r.2 < max_it → r.1 ≠ 0 → ‖krylov (oldJvp A y) (-A y)‖ ≤ tol * ‖r.1‖)) := by
  intro r
  obtain ⟨-, h2, h3, h4⟩ := oldLoop_spec krylov A tol alpha max_it x ones 0
  refine ⟨le_of_le_of_eq h2 (Nat.zero_add _), fun hpos => ?_⟩
  rcases h4 with ⟨h5, -, -⟩ | ⟨-, y, h5, h6⟩
  · exact absurd h5 hpos.ne'
  · refine ⟨y, by rw [← h6]; exact h5, fun hlt hne => ?_⟩
    have hlt' : (oldLoop krylov A tol alpha max_it x ones 0).2.2 < max_it := hlt
    have hne' : (oldLoop krylov A tol alpha max_it x ones 0).1 ≠ 0 := hne
    have := h3 (by omega)
    unfold oldGoOn at this
    rw [if_neg (by simpa using hne'), not_lt, h6] at this
    rwa [div_le_iff₀ (norm_pos_iff.mpr hne')] at this

/-- **C130 (large initial guess, finding).** The first test compares the array of ones with the initial guess: an initial guess longer than `‖ones‖/tol` is returned unchanged after no step, whatever the problem. -/
theorem C130_large_guess (krylov : (V → V) → V → V) (A : V → V) (ones x : V) (tol : ℝ) (max_it : ℕ) (alpha : ℝ) (hx : x ≠ 0) (h : ‖ones‖ ≤ tol * ‖x‖) :
    oldNonlinear krylov A ones x tol max_it alpha = (x, 0) := by
  have hg : ¬ oldGoOn tol x ones := by
    unfold oldGoOn
    rw [if_neg (by simpa using hx), not_lt, div_le_iff₀ (norm_pos_iff.mpr hx)]
    exact h
  unfold oldNonlinear
  cases max_it with
  | zero => rfl
  | succ n => simp only [oldLoop, if_neg hg]

/-- **C130 (affine problems).** With an exact linear method and `alpha = 1` an affine regular problem is solved after one step, and the loop stops after at most two, unless the initial guess is too long. -/
theorem C130_affine (krylov : (V → V) → V → V) (L : V →L[ℝ] V) (r : V) (hk : ∀ y, L (krylov L y) = y) (hinj : ∀ y, L y = 0 → y = 0) (ones x : V) (tol : ℝ) (htol : 0 ≤ tol) (max_it : ℕ) (hm : 0 < max_it) (hx : x = 0 ∧ ones ≠ 0 ∨ x ≠ 0 ∧ tol * ‖x‖ < ‖ones‖) :
    let A : V → V := fun y => L y + r
    let R := oldNonlinear krylov A ones x tol max_it 1
    A R.1 = 0 ∧ R.2 ≤ 2 := by
  have hg : oldGoOn tol x ones := by
    unfold oldGoOn
    rcases hx with ⟨rfl, h⟩ | ⟨h0, h⟩
    · rw [if_pos norm_zero]
      exact norm_pos_iff.mpr h
    · rw [if_neg (by simpa using h0), lt_div_iff₀ (norm_pos_iff.mpr h0)]
      exact h
  intro A
  have hj : ∀ x, oldJvp A x = L := by
    intro x
    funext v
    unfold oldJvp
    show fderiv ℝ (fun y => L y + r) x v = L v
    rw [fderiv_add_const, L.fderiv]
  have hstep : ∀ y, A (y + (1 : ℝ) • krylov L (-A y)) = 0 := by
    intro y
    show L (y + (1 : ℝ) • krylov L (-A y)) + r = 0
    rw [one_smul, map_add, hk]
    show L y + -(L y + r) + r = 0
    abel
  have hzero : krylov L 0 = 0 := hinj _ (hk 0)
  obtain ⟨n, rfl⟩ : ∃ n, max_it = n + 1 := ⟨max_it - 1, by omega⟩
  unfold oldNonlinear
  simp only [oldLoop, if_pos hg, hj]
  set y := x + (1 : ℝ) • krylov L (-A x) with hy
  have hAy : A y = 0 := hstep x
  cases n with
  | zero => exact ⟨hAy, by simp [oldLoop]⟩
  | succ n =>
    by_cases hg2 : oldGoOn tol y (krylov L (-A x))
    · simp only [oldLoop, if_pos hg2, hj, hAy, neg_zero, hzero, smul_zero, add_zero]
      have hstop : ¬ oldGoOn tol y 0 := by
        unfold oldGoOn
        simp [htol]
      cases n with
      | zero => exact ⟨hAy, by simp [oldLoop]⟩
      | succ n =>
        simp only [oldLoop, if_neg hstop]
        exact ⟨hAy, le_refl 2⟩
    · simp only [oldLoop, if_neg hg2]
      exact ⟨hAy, by omega⟩

/-- The hypotheses of `C130_affine` on a concrete problem: `2y - 6 = 0` from the guess 1. -/
example : (oldNonlinear (fun _ b => b / 2) (fun y : ℝ => 2 * y - 6) 1 1 1e-5 1000 1).1 = 3 := by
  have := C130_affine (V := ℝ) (fun _ b => b / 2) ((2 : ℝ) • ContinuousLinearMap.id ℝ ℝ) (-6) (fun y => by simp; ring) (fun y hy => by simpa using hy) 1 1 1e-5 (by norm_num) 1000 (by norm_num)
    (by norm_num)
  have h := this.1
  simp only [FunLike.coe_smul, ContinuousLinearMap.coe_id', Pi.smul_apply, id_eq, smul_eq_mul, ← sub_eq_add_neg] at h
  linarith

end solvers

end Verif.Cfd
