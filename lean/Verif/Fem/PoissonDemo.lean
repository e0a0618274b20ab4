import Verif.Fem.TopOptMesh
import Verif.Fem.PropsLinear2
import Mathlib.Analysis.SpecialFunctions.Trigonometric.Basic
import Mathlib.Analysis.SpecialFunctions.Integrals.Basic

/-!
# C129: the Poisson demo (demos/fem/poisson/example.py)
-/
namespace Verif.Fem
open Finset

/-! ## Model -/

/-- `left`, `right`, `bottom`, `top` (example.py 23-33). -/
noncomputable def pdLeft : Loc 2 := fun point => isclose (point 0) 0 1e-5
@[inherit_doc pdLeft]
noncomputable def pdRight (Lx : ℝ) : Loc 2 := fun point => isclose (point 0) Lx 1e-5
@[inherit_doc pdLeft]
noncomputable def pdBottom : Loc 2 := fun point => isclose (point 1) 0 1e-5
@[inherit_doc pdLeft]
noncomputable def pdTop (Ly : ℝ) : Loc 2 := fun point => isclose (point 1) Ly 1e-5

/-- `Poisson(mesh, vec=1, dim=2, ele_type='QUAD4', neumann_bc_info=[[bottom, top], [g, g']], source_info=f)` on `rectangle_mesh` (example.py 12-21, 46-56), for any number of cells, any size and any data. -/
noncomputable def pdFem (Nx Ny : ℕ) (Lx Ly : ℝ) (f g g' : (Fin 2 → ℝ) → ℝ) : Fem 4 (2 ^ 2) 4 (2 ^ 1) 2 1 :=
  { Fem.ofElement 4 4 2 1 quad4 (gaussRule 2) (gaussRule 1) ((Nx + 1) * (Ny + 1)) (Verif.Mesh.rectangleMesh Nx Ny Lx Ly).points.get (Verif.Mesh.rectangleMesh Nx Ny Lx Ly).cells.toList with
    tensorMap := some fun _ _ => poissonMap
    source := some fun x _ => f x
    neumann := some ([pdBottom, pdTop Ly], [fun _ _ x _ => g x, fun _ _ x _ => g' x]) }

/-- `dirichlet_bc_info` (example.py 35-44). -/
noncomputable def pdInfo (Lx : ℝ) : List (Loc 2) × List ℕ × List ((Fin 2 → ℝ) → ℝ) := ([pdLeft, pdRight Lx], [0, 0], [fun _ => 0, fun _ => 0])

/-- `neumann_val` (example.py 46-47) and `body_force` (example.py 51-52). -/
noncomputable def pdFlux : (Fin 2 → ℝ) → ℝ := fun point => Real.sin (5 * point 0)
@[inherit_doc pdFlux]
noncomputable def pdBody : (Fin 2 → ℝ) → ℝ := fun point => 10 * Real.exp (-((point 0 - 0.5) ^ 2 + (point 1 - 0.5) ^ 2) / 0.02)

/-! ## Specification: bilinear elements on a grid -/

/-- Specification: difference quotients (without the division) of a grid function along the edges. -/
def pdDx (U : ℕ → ℕ → ℝ) (i j : ℕ) : ℝ := U (i + 1) j - U i j
@[inherit_doc pdDx]
def pdDy (U : ℕ → ℕ → ℝ) (i j : ℕ) : ℝ := U i (j + 1) - U i j

/-- Specification: the integral of `∇U·∇V` over the cell `(i, j)` of size `hx × hy`, `U` and `V` interpolated bilinearly. -/
noncomputable def pdCell (hx hy : ℝ) (U V : ℕ → ℕ → ℝ) (i j : ℕ) : ℝ :=
  (hy / hx * (2 * pdDx U i j * pdDx V i j + pdDx U i j * pdDx V i (j + 1) + pdDx U i (j + 1) * pdDx V i j + 2 * pdDx U i (j + 1) * pdDx V i (j + 1)) +
   hx / hy * (2 * pdDy U i j * pdDy V i j + pdDy U i j * pdDy V (i + 1) j + pdDy U (i + 1) j * pdDy V i j + 2 * pdDy U (i + 1) j * pdDy V (i + 1) j)) / 6

/-- Specification: the integral of `∇U·∇V` over the rectangle. -/
noncomputable def pdForm (Nx Ny : ℕ) (hx hy : ℝ) (U V : ℕ → ℕ → ℝ) : ℝ := ∑ i ∈ range Nx, ∑ j ∈ range Ny, pdCell hx hy U V i j

/-- Specification: bilinear interpolation in the cell `(i, j)` at local coordinates `(s, t)`. -/
def pdVal (V : ℕ → ℕ → ℝ) (i j : ℕ) (s t : ℝ) : ℝ := V i j * ((1 - s) * (1 - t)) + V (i + 1) j * (s * (1 - t)) + V (i + 1) (j + 1) * (s * t) + V i (j + 1) * ((1 - s) * t)

/-- Specification: work of the source on `V`, two Gauss points per direction. -/
noncomputable def pdSource (Nx Ny : ℕ) (hx hy : ℝ) (f : (Fin 2 → ℝ) → ℝ) (V : ℕ → ℕ → ℝ) : ℝ :=
  ∑ i ∈ range Nx, ∑ j ∈ range Ny, ∑ b : Bool, ∑ b' : Bool,
    f ![(i + gaussPoint b) * hx, (j + gaussPoint b') * hy] * pdVal V i j (gaussPoint b) (gaussPoint b') * (hx * hy / 4)

/-- Specification: work of a flux through a horizontal side at height `y`, row `m` of the grid. -/
noncomputable def pdSide (Nx : ℕ) (hx y : ℝ) (m : ℕ) (g : (Fin 2 → ℝ) → ℝ) (V : ℕ → ℕ → ℝ) : ℝ :=
  ∑ i ∈ range Nx, ∑ b : Bool, g ![(i + gaussPoint b) * hx, y] * (V i m * (1 - gaussPoint b) + V (i + 1) m * gaussPoint b) * (hx / 2)

/-- Specification: work of all loads. -/
noncomputable def pdLoad (Nx Ny : ℕ) (Lx Ly : ℝ) (f g g' : (Fin 2 → ℝ) → ℝ) (V : ℕ → ℕ → ℝ) : ℝ :=
  pdSource Nx Ny (Lx / Nx) (Ly / Ny) f V + pdSide Nx (Lx / Nx) 0 0 g V + pdSide Nx (Lx / Nx) Ly Ny g' V

/-- Specification: zero on the left and right sides. -/
def PdHeld (Nx Ny : ℕ) (V : ℕ → ℕ → ℝ) : Prop := ∀ j ≤ Ny, V 0 j = 0 ∧ V Nx j = 0

/-- Specification: the Galerkin solution of `-Δu = f`, zero on the left and right, fluxes `g` and `g'` into the body at the bottom and the top. -/
structure PdSolves (Nx Ny : ℕ) (Lx Ly : ℝ) (f g g' : (Fin 2 → ℝ) → ℝ) (U : ℕ → ℕ → ℝ) : Prop where
  held : PdHeld Nx Ny U
  weak : ∀ V, PdHeld Nx Ny V → pdForm Nx Ny (Lx / Nx) (Ly / Ny) U V = pdLoad Nx Ny Lx Ly f g g' V

/-- Specification: the cells are larger than the tolerances of the location functions. -/
structure PdGrid (Nx Ny : ℕ) (Lx Ly : ℝ) : Prop where
  nx : 0 < Nx
  ny : 0 < Ny
  lx : 0 < Lx
  ly : 0 < Ly
  tolx : 1e-5 + 1e-5 * Lx < Lx / Nx
  toly : 1e-5 + 1e-5 * Ly < Ly / Ny

/-- Specification: the nodal array as a grid function, node `i·(Ny+1)+j` at position `(i, j)`. -/
def pdGrid (Ny : ℕ) (u : ℕ → ℝ) (i j : ℕ) : ℝ := u (i * (Ny + 1) + j)

/-! ## Grid algebra -/

section
variable {Nx Ny : ℕ} {Lx Ly hx hy : ℝ} {f g g' : (Fin 2 → ℝ) → ℝ}

theorem pdCell_sub (U W V : ℕ → ℕ → ℝ) (i j : ℕ) : pdCell hx hy (fun i j => U i j - W i j) V i j = pdCell hx hy U V i j - pdCell hx hy W V i j := by
  unfold pdCell pdDx pdDy
  ring

theorem pdForm_sub (U W V : ℕ → ℕ → ℝ) : pdForm Nx Ny hx hy (fun i j => U i j - W i j) V = pdForm Nx Ny hx hy U V - pdForm Nx Ny hx hy W V := by
  unfold pdForm
  simp only [pdCell_sub, sum_sub_distrib]

theorem pdForm_comm (U V : ℕ → ℕ → ℝ) : pdForm Nx Ny hx hy U V = pdForm Nx Ny hx hy V U := by
  unfold pdForm
  refine sum_congr rfl fun i _ => sum_congr rfl fun j _ => ?_
  unfold pdCell
  ring

theorem pdCell_self (hx0 : 0 < hx) (hy0 : 0 < hy) (V : ℕ → ℕ → ℝ) (i j : ℕ) : pdCell hx hy V V i j =
    (hy / hx * (pdDx V i j ^ 2 + pdDx V i (j + 1) ^ 2 + (pdDx V i j + pdDx V i (j + 1)) ^ 2) + hx / hy * (pdDy V i j ^ 2 + pdDy V (i + 1) j ^ 2 + (pdDy V i j + pdDy V (i + 1) j) ^ 2)) / 6 := by
  unfold pdCell
  ring

theorem pdForm_nonneg (hx0 : 0 < hx) (hy0 : 0 < hy) (V : ℕ → ℕ → ℝ) : 0 ≤ pdForm Nx Ny hx hy V V :=
  sum_nonneg fun i _ => sum_nonneg fun j _ => by
    rw [pdCell_self hx0 hy0]
    have := div_pos hy0 hx0
    have := div_pos hx0 hy0
    positivity

/-- A held grid function without energy vanishes. -/
theorem pdForm_zero (hNy : 0 < Ny) (hx0 : 0 < hx) (hy0 : 0 < hy) (V : ℕ → ℕ → ℝ) (hV : PdHeld Nx Ny V) (h : pdForm Nx Ny hx hy V V ≤ 0) : ∀ i ≤ Nx, ∀ j ≤ Ny, V i j = 0 := by
  have hc : ∀ i j, 0 ≤ pdCell hx hy V V i j := fun i j => by
    rw [pdCell_self hx0 hy0]
    have := div_pos hy0 hx0
    have := div_pos hx0 hy0
    positivity
  have h0 : pdForm Nx Ny hx hy V V = 0 := le_antisymm h (pdForm_nonneg hx0 hy0 V)
  have h1 : ∀ i < Nx, ∀ j < Ny, pdCell hx hy V V i j = 0 := by
    intro i hi j hj
    have e1 := (sum_eq_zero_iff_of_nonneg fun i _ => sum_nonneg fun j _ => hc i j).mp h0 i (mem_range.mpr hi)
    exact (sum_eq_zero_iff_of_nonneg fun j _ => hc i j).mp e1 j (mem_range.mpr hj)
  have h2 : ∀ i < Nx, ∀ j < Ny, pdDx V i j = 0 ∧ pdDx V i (j + 1) = 0 := by
    intro i hi j hj
    have e := h1 i hi j hj
    rw [pdCell_self hx0 hy0] at e
    have p1 := div_pos hy0 hx0
    have p2 := div_pos hx0 hy0
    have e1 : hy / hx * (pdDx V i j ^ 2 + pdDx V i (j + 1) ^ 2 + (pdDx V i j + pdDx V i (j + 1)) ^ 2) ≤ 0 := by
      have : 0 ≤ hx / hy * (pdDy V i j ^ 2 + pdDy V (i + 1) j ^ 2 + (pdDy V i j + pdDy V (i + 1) j) ^ 2) := by positivity
      linarith
    have e2 : pdDx V i j ^ 2 + pdDx V i (j + 1) ^ 2 + (pdDx V i j + pdDx V i (j + 1)) ^ 2 ≤ 0 := by
      by_contra hlt
      exact absurd e1 (not_le.mpr (mul_pos p1 (not_le.mp hlt)))
    constructor
    · exact pow_eq_zero_iff (two_ne_zero) |>.mp (le_antisymm (by nlinarith [sq_nonneg (pdDx V i (j + 1)), sq_nonneg (pdDx V i j + pdDx V i (j + 1))]) (sq_nonneg _))
    · exact pow_eq_zero_iff (two_ne_zero) |>.mp (le_antisymm (by nlinarith [sq_nonneg (pdDx V i j), sq_nonneg (pdDx V i j + pdDx V i (j + 1))]) (sq_nonneg _))
  have h3 : ∀ i < Nx, ∀ j ≤ Ny, V (i + 1) j = V i j := by
    intro i hi j hj
    have : pdDx V i j = 0 := by
      rcases Nat.lt_or_ge j Ny with h | h
      · exact (h2 i hi j h).1
      · obtain ⟨k, rfl⟩ : ∃ k, j = k + 1 := ⟨j - 1, by omega⟩
        exact (h2 i hi k (by omega)).2
    unfold pdDx at this
    linarith
  intro i hi j hj
  induction i with
  | zero => exact (hV j hj).1
  | succ i ih => rw [h3 i (by omega) j hj, ih (by omega)]

theorem pdSource_sub (f : (Fin 2 → ℝ) → ℝ) (U V : ℕ → ℕ → ℝ) : pdSource Nx Ny hx hy f (fun i j => U i j - V i j) = pdSource Nx Ny hx hy f U - pdSource Nx Ny hx hy f V := by
  unfold pdSource
  simp only [← sum_sub_distrib]
  refine sum_congr rfl fun i _ => sum_congr rfl fun j _ => sum_congr rfl fun b _ => sum_congr rfl fun b' _ => ?_
  unfold pdVal
  ring

theorem pdSide_sub (y : ℝ) (m : ℕ) (g : (Fin 2 → ℝ) → ℝ) (U V : ℕ → ℕ → ℝ) : pdSide Nx hx y m g (fun i j => U i j - V i j) = pdSide Nx hx y m g U - pdSide Nx hx y m g V := by
  unfold pdSide
  simp only [← sum_sub_distrib]
  refine sum_congr rfl fun i _ => sum_congr rfl fun b _ => ?_
  ring

theorem pdLoad_sub (U V : ℕ → ℕ → ℝ) : pdLoad Nx Ny Lx Ly f g g' (fun i j => U i j - V i j) = pdLoad Nx Ny Lx Ly f g g' U - pdLoad Nx Ny Lx Ly f g g' V := by
  unfold pdLoad
  rw [pdSource_sub, pdSide_sub, pdSide_sub]
  ring

theorem gaussPoint_nonneg (b : Bool) : 0 ≤ gaussPoint b ∧ gaussPoint b ≤ 1 := by
  have h3 : 1 / Real.sqrt 3 ≤ 1 := by
    rw [div_le_one (by positivity)]
    exact Real.one_le_sqrt.mpr (by norm_num)
  have h4 : 0 ≤ 1 / Real.sqrt 3 := by positivity
  cases b <;> simp only [gaussPoint, if_true, Bool.false_eq_true, if_false] <;> constructor <;> linarith

theorem pdVal_mono {U V : ℕ → ℕ → ℝ} (i j : ℕ) (b b' : Bool) (h0 : U i j ≤ V i j) (h1 : U (i + 1) j ≤ V (i + 1) j) (h2 : U (i + 1) (j + 1) ≤ V (i + 1) (j + 1)) (h3 : U i (j + 1) ≤ V i (j + 1)) :
    pdVal U i j (gaussPoint b) (gaussPoint b') ≤ pdVal V i j (gaussPoint b) (gaussPoint b') := by
  obtain ⟨a1, a2⟩ := gaussPoint_nonneg b
  obtain ⟨a3, a4⟩ := gaussPoint_nonneg b'
  have p1 : 0 ≤ 1 - gaussPoint b := by linarith
  have p2 : 0 ≤ 1 - gaussPoint b' := by linarith
  unfold pdVal
  exact add_le_add (add_le_add (add_le_add (mul_le_mul_of_nonneg_right h0 (mul_nonneg p1 p2)) (mul_le_mul_of_nonneg_right h1 (mul_nonneg a1 p2))) (mul_le_mul_of_nonneg_right h2 (mul_nonneg a1 a3)))
    (mul_le_mul_of_nonneg_right h3 (mul_nonneg p1 a3))

/-- Work of data on a non-positive function: larger data, smaller work. -/
theorem pdLoad_data (hLx : 0 < Lx) (hLy : 0 < Ly) {f₂ g₂ g₂' : (Fin 2 → ℝ) → ℝ} (hf : ∀ x, f x ≤ f₂ x) (hg : ∀ x, g x ≤ g₂ x) (hg' : ∀ x, g' x ≤ g₂' x) (V : ℕ → ℕ → ℝ) (hV : ∀ i j, V i j ≤ 0) :
    pdLoad Nx Ny Lx Ly f₂ g₂ g₂' V ≤ pdLoad Nx Ny Lx Ly f g g' V := by
  have hx0 : 0 ≤ Lx / Nx := div_nonneg hLx.le (Nat.cast_nonneg _)
  have hy0 : 0 ≤ Ly / Ny := div_nonneg hLy.le (Nat.cast_nonneg _)
  have hval : ∀ i j b b', pdVal V i j (gaussPoint b) (gaussPoint b') ≤ 0 := by
    intro i j b b'
    have := pdVal_mono (U := V) (V := fun _ _ => 0) i j b b' (hV _ _) (hV _ _) (hV _ _) (hV _ _)
    refine this.trans_eq ?_
    simp [pdVal]
  have hside : ∀ (y : ℝ) (m : ℕ) (g g₂ : (Fin 2 → ℝ) → ℝ), (∀ x, g x ≤ g₂ x) → pdSide Nx (Lx / Nx) y m g₂ V ≤ pdSide Nx (Lx / Nx) y m g V := by
    intro y m g g₂ h
    refine sum_le_sum fun i _ => sum_le_sum fun b _ => ?_
    obtain ⟨a1, a2⟩ := gaussPoint_nonneg b
    refine mul_le_mul_of_nonneg_right (mul_le_mul_of_nonpos_right (h _) ?_) (by positivity)
    have := mul_nonpos_of_nonpos_of_nonneg (hV i m) (sub_nonneg.mpr a2)
    have := mul_nonpos_of_nonpos_of_nonneg (hV (i + 1) m) a1
    linarith
  unfold pdLoad
  refine add_le_add (add_le_add ?_ (hside _ _ _ _ hg)) (hside _ _ _ _ hg')
  refine sum_le_sum fun i _ => sum_le_sum fun j _ => sum_le_sum fun b _ => sum_le_sum fun b' _ => ?_
  exact mul_le_mul_of_nonneg_right (mul_le_mul_of_nonpos_right (hf _) (hval i j b b')) (by positivity)

/-- The element matrix has no positive entry off the diagonal when no cell is longer than `√2` times its height, nor higher than `√2` times its length. -/
theorem pdCell_mixed (hx0 : 0 < hx) (hy0 : 0 < hy) (h1 : hx ^ 2 ≤ 2 * hy ^ 2) (h2 : hy ^ 2 ≤ 2 * hx ^ 2) (P V : ℕ → ℕ → ℝ) (hP : ∀ i j, 0 ≤ P i j) (hV : ∀ i j, V i j ≤ 0) (hPV : ∀ i j, P i j * V i j = 0)
    (i j : ℕ) : 0 ≤ pdCell hx hy P V i j := by
  have k1 : 0 ≤ 2 * (hy / hx) - hx / hy := by
    rw [sub_nonneg, ← mul_div_assoc, div_le_div_iff₀ hy0 hx0]
    nlinarith
  have k2 : 0 ≤ 2 * (hx / hy) - hy / hx := by
    rw [sub_nonneg, ← mul_div_assoc, div_le_div_iff₀ hx0 hy0]
    nlinarith
  have k3 : 0 ≤ hx / hy + hy / hx := by positivity
  have q : ∀ i j k l, 0 ≤ -(P i j * V k l) := fun i j k l => by
    rw [← mul_neg]
    exact mul_nonneg (hP i j) (neg_nonneg.mpr (hV k l))
  have e : pdCell hx hy P V i j =
      ((2 * (hy / hx) - hx / hy) * (-(P i j * V (i + 1) j) + -(P (i + 1) j * V i j) + -(P (i + 1) (j + 1) * V i (j + 1)) + -(P i (j + 1) * V (i + 1) (j + 1))) +
       (2 * (hx / hy) - hy / hx) * (-(P i j * V i (j + 1)) + -(P i (j + 1) * V i j) + -(P (i + 1) (j + 1) * V (i + 1) j) + -(P (i + 1) j * V (i + 1) (j + 1))) +
       (hx / hy + hy / hx) * (-(P i j * V (i + 1) (j + 1)) + -(P (i + 1) (j + 1) * V i j) + -(P (i + 1) j * V i (j + 1)) + -(P i (j + 1) * V (i + 1) j))) / 6 := by
    unfold pdCell pdDx pdDy
    linear_combination (hy / hx + hx / hy) / 3 * (hPV i j + hPV (i + 1) j + hPV i (j + 1) + hPV (i + 1) (j + 1))
  rw [e]
  refine div_nonneg (add_nonneg (add_nonneg (mul_nonneg k1 ?_) (mul_nonneg k2 ?_)) (mul_nonneg k3 ?_)) (by norm_num) <;>
    exact add_nonneg (add_nonneg (add_nonneg (q _ _ _ _) (q _ _ _ _)) (q _ _ _ _)) (q _ _ _ _)

/-- The solution of the grid problem is unique. -/
theorem pdSolves_unique (hG : PdGrid Nx Ny Lx Ly) {U W : ℕ → ℕ → ℝ} (hU : PdSolves Nx Ny Lx Ly f g g' U) (hW : PdSolves Nx Ny Lx Ly f g g' W) : ∀ i ≤ Nx, ∀ j ≤ Ny, U i j = W i j := by
  have hx0 : 0 < Lx / Nx := div_pos hG.lx (by exact_mod_cast hG.nx)
  have hy0 : 0 < Ly / Ny := div_pos hG.ly (by exact_mod_cast hG.ny)
  have hheld : PdHeld Nx Ny (fun i j => U i j - W i j) := fun j hj => by
    simp only [(hU.held j hj).1, (hU.held j hj).2, (hW.held j hj).1, (hW.held j hj).2, sub_zero, and_self]
  intro i hi j hj
  have := pdForm_zero hG.ny hx0 hy0 _ hheld (by rw [pdForm_sub, hU.weak _ hheld, hW.weak _ hheld, sub_self]) i hi j hj
  linarith

/-- **C129 (comparison).** Cells not too flat: a larger source and larger fluxes into the body give a nowhere smaller solution. -/
theorem C129_comparison (hG : PdGrid Nx Ny Lx Ly) (h1 : (Lx / Nx) ^ 2 ≤ 2 * (Ly / Ny) ^ 2) (h2 : (Ly / Ny) ^ 2 ≤ 2 * (Lx / Nx) ^ 2) {f₂ g₂ g₂' : (Fin 2 → ℝ) → ℝ}
    (hf : ∀ x, f x ≤ f₂ x) (hg : ∀ x, g x ≤ g₂ x) (hg' : ∀ x, g' x ≤ g₂' x) {U U₂ : ℕ → ℕ → ℝ} (hU : PdSolves Nx Ny Lx Ly f g g' U) (hU₂ : PdSolves Nx Ny Lx Ly f₂ g₂ g₂' U₂) :
    ∀ i ≤ Nx, ∀ j ≤ Ny, U i j ≤ U₂ i j := by
  have hx0 : 0 < Lx / Nx := div_pos hG.lx (by exact_mod_cast hG.nx)
  have hy0 : 0 < Ly / Ny := div_pos hG.ly (by exact_mod_cast hG.ny)
  set D : ℕ → ℕ → ℝ := fun i j => U₂ i j - U i j with hD
  set V : ℕ → ℕ → ℝ := fun i j => min (D i j) 0 with hVdef
  set P : ℕ → ℕ → ℝ := fun i j => D i j - V i j with hPdef
  have hV0 : ∀ i j, V i j ≤ 0 := fun i j => min_le_right _ _
  have hP0 : ∀ i j, 0 ≤ P i j := fun i j => sub_nonneg.mpr (min_le_left _ _)
  have hPV : ∀ i j, P i j * V i j = 0 := by
    intro i j
    simp only [hPdef, hVdef]
    rcases le_total (D i j) 0 with h | h
    · rw [min_eq_left h, sub_self, zero_mul]
    · rw [min_eq_right h, mul_zero]
  have hheld : PdHeld Nx Ny V := fun j hj => by
    simp only [hVdef, hD, (hU.held j hj).1, (hU.held j hj).2, (hU₂.held j hj).1, (hU₂.held j hj).2, sub_zero, min_self, and_self]
  have hle : pdForm Nx Ny (Lx / Nx) (Ly / Ny) V V ≤ 0 := by
    have e1 : pdForm Nx Ny (Lx / Nx) (Ly / Ny) P V = pdForm Nx Ny (Lx / Nx) (Ly / Ny) D V - pdForm Nx Ny (Lx / Nx) (Ly / Ny) V V := pdForm_sub _ _ _
    have e2 : pdForm Nx Ny (Lx / Nx) (Ly / Ny) D V = pdForm Nx Ny (Lx / Nx) (Ly / Ny) U₂ V - pdForm Nx Ny (Lx / Nx) (Ly / Ny) U V := pdForm_sub _ _ _
    have e3 : 0 ≤ pdForm Nx Ny (Lx / Nx) (Ly / Ny) P V := sum_nonneg fun i _ => sum_nonneg fun j _ => pdCell_mixed hx0 hy0 h1 h2 P V hP0 hV0 hPV i j
    rw [hU.weak _ hheld, hU₂.weak _ hheld] at e2
    have e4 := pdLoad_data (Nx := Nx) (Ny := Ny) hG.lx hG.ly hf hg hg' V hV0
    linarith
  intro i hi j hj
  have := pdForm_zero hG.ny hx0 hy0 V hheld hle i hi j hj
  have hD0 : 0 ≤ D i j := by
    by_contra hlt
    rw [not_le] at hlt
    simp only [hVdef, min_eq_left hlt.le] at this
    exact hlt.ne this
  simp only [hD] at hD0
  linarith

/-- **C129 (energy).** The solution has the least energy `½∫|∇W|² - loads` of all grid functions held at the sides, and is the only one with that energy. -/
theorem C129_energy (hG : PdGrid Nx Ny Lx Ly) {U : ℕ → ℕ → ℝ} (hU : PdSolves Nx Ny Lx Ly f g g' U) (W : ℕ → ℕ → ℝ) (hW : PdHeld Nx Ny W) :
    pdForm Nx Ny (Lx / Nx) (Ly / Ny) U U / 2 - pdLoad Nx Ny Lx Ly f g g' U ≤ pdForm Nx Ny (Lx / Nx) (Ly / Ny) W W / 2 - pdLoad Nx Ny Lx Ly f g g' W ∧
    (pdForm Nx Ny (Lx / Nx) (Ly / Ny) W W / 2 - pdLoad Nx Ny Lx Ly f g g' W ≤ pdForm Nx Ny (Lx / Nx) (Ly / Ny) U U / 2 - pdLoad Nx Ny Lx Ly f g g' U → ∀ i ≤ Nx, ∀ j ≤ Ny, W i j = U i j) := by
  have hx0 : 0 < Lx / Nx := div_pos hG.lx (by exact_mod_cast hG.nx)
  have hy0 : 0 < Ly / Ny := div_pos hG.ly (by exact_mod_cast hG.ny)
  have hheld : PdHeld Nx Ny (fun i j => W i j - U i j) := fun j hj => by
    simp only [(hU.held j hj).1, (hU.held j hj).2, (hW j hj).1, (hW j hj).2, sub_zero, and_self]
  have e1 := hU.weak _ hheld
  rw [pdLoad_sub, pdForm_comm, pdForm_sub] at e1
  have e2 : pdForm Nx Ny (Lx / Nx) (Ly / Ny) (fun i j => W i j - U i j) (fun i j => W i j - U i j) =
      pdForm Nx Ny (Lx / Nx) (Ly / Ny) W W - 2 * pdForm Nx Ny (Lx / Nx) (Ly / Ny) W U + pdForm Nx Ny (Lx / Nx) (Ly / Ny) U U := by
    rw [pdForm_sub, pdForm_comm W, pdForm_comm U, pdForm_sub, pdForm_sub, pdForm_comm U W]
    ring
  have e3 := pdForm_nonneg (Nx := Nx) (Ny := Ny) hx0 hy0 (fun i j => W i j - U i j)
  refine ⟨by linarith, fun hle i hi j hj => ?_⟩
  have := pdForm_zero hG.ny hx0 hy0 _ hheld (by linarith) i hi j hj
  linarith

/-! ## Reflection -/

theorem gaussPoint_not (b : Bool) : gaussPoint (!b) = 1 - gaussPoint b := by
  cases b <;> simp [gaussPoint] <;> ring

theorem sum_bool_not (G : Bool → ℝ) : ∑ b, G (!b) = ∑ b, G b := by
  simp only [Fintype.sum_bool, Bool.not_true, Bool.not_false]
  ring

theorem pdForm_reflect (U V : ℕ → ℕ → ℝ) : pdForm Nx Ny hx hy (fun i j => U i (Ny - j)) V = pdForm Nx Ny hx hy U (fun i j => V i (Ny - j)) := by
  unfold pdForm
  refine sum_congr rfl fun i _ => ?_
  rw [← sum_range_reflect]
  refine sum_congr rfl fun j hj => ?_
  have hj' := mem_range.mp hj
  have e1 : Ny - (Ny - 1 - j) = j + 1 := by omega
  have e2 : Ny - (Ny - 1 - j + 1) = j := by omega
  have e3 : Ny - (j + 1) = Ny - 1 - j := by omega
  have e4 : Ny - j = Ny - 1 - j + 1 := by omega
  unfold pdCell pdDx pdDy
  simp only [e1, e2, e3, e4]
  ring

theorem pdLoad_reflect (hNy : 0 < Ny) (hf : ∀ x y, f ![x, Ly - y] = f ![x, y]) (hg : ∀ x, g ![x, 0] = g' ![x, Ly]) (V : ℕ → ℕ → ℝ) :
    pdLoad Nx Ny Lx Ly f g g' (fun i j => V i (Ny - j)) = pdLoad Nx Ny Lx Ly f g g' V := by
  have hN : (Ny : ℝ) ≠ 0 := by exact_mod_cast hNy.ne'
  have h1 : pdSource Nx Ny (Lx / Nx) (Ly / Ny) f (fun i j => V i (Ny - j)) = pdSource Nx Ny (Lx / Nx) (Ly / Ny) f V := by
    unfold pdSource
    refine sum_congr rfl fun i _ => ?_
    rw [← sum_range_reflect]
    refine sum_congr rfl fun j hj => sum_congr rfl fun b _ => ?_
    have hj' := mem_range.mp hj
    rw [← sum_bool_not]
    refine sum_congr rfl fun b' _ => ?_
    have e1 : Ny - (Ny - 1 - j) = j + 1 := by omega
    have e2 : Ny - (Ny - 1 - j + 1) = j := by omega
    have e5 : ((Ny - 1 - j : ℕ) : ℝ) = Ny - 1 - j := by
      rw [Nat.cast_sub (by omega), Nat.cast_sub (by omega)]
      norm_num
    rw [gaussPoint_not, e5, ← hf _ ((j + gaussPoint b') * (Ly / Ny))]
    have e6 : ((Ny : ℝ) - 1 - j + (1 - gaussPoint b')) * (Ly / Ny) = Ly - (j + gaussPoint b') * (Ly / Ny) := by
      field_simp
      ring
    rw [e6]
    unfold pdVal
    simp only [e1, e2]
    ring
  have h2 : ∀ (y y' : ℝ) (m m' : ℕ) (k k' : (Fin 2 → ℝ) → ℝ), (∀ x, k ![x, y] = k' ![x, y']) → Ny - m = m' → pdSide Nx (Lx / Nx) y m k (fun i j => V i (Ny - j)) = pdSide Nx (Lx / Nx) y' m' k' V := by
    intro y y' m m' k k' hk hm
    unfold pdSide
    simp only [hk, hm]
  unfold pdLoad
  rw [h1, h2 0 Ly 0 Ny g g' hg (by omega), h2 Ly 0 Ny 0 g' g (fun x => (hg x).symm) (by omega)]
  ring

/-- **C129 (symmetry).** Data symmetric about the horizontal midline: so is the solution, exactly. -/
theorem C129_symmetry (hG : PdGrid Nx Ny Lx Ly) (hf : ∀ x y, f ![x, Ly - y] = f ![x, y]) (hg : ∀ x, g ![x, 0] = g' ![x, Ly]) {U : ℕ → ℕ → ℝ} (hU : PdSolves Nx Ny Lx Ly f g g' U) :
    ∀ i ≤ Nx, ∀ j ≤ Ny, U i (Ny - j) = U i j := by
  refine pdSolves_unique (f := f) (g := g) (g' := g') hG ⟨fun j _ => hU.held (Ny - j) (by omega), fun V hV => ?_⟩ hU
  rw [pdForm_reflect, hU.weak _ fun j _ => hV (Ny - j) (by omega), pdLoad_reflect hG.ny hf hg]

end

/-! ## The program's forms -/

theorem quad4_interp (w : Fin 4 → ℝ) (x : ℕ → ℝ) :
    ∑ n, w n * shapeVal quad4 n x = w 0 * ((1 - x 0) * (1 - x 1)) + w 1 * (x 0 * (1 - x 1)) + w 2 * (x 0 * x 1) + w 3 * ((1 - x 0) * x 1) := by
  simp only [shapeVal_quad4, Fin.sum_univ_four]
  simp [Verif.Mesh.quadCorner, lin]

theorem sum_gauss2 (G : ℝ → ℝ → ℝ) : ∑ q : Fin (2 ^ 2), G ((gaussRule 2).pt q 0) ((gaussRule 2).pt q 1) = ∑ b : Bool, ∑ b' : Bool, G (gaussPoint b) (gaussPoint b') := by
  rw [show (∑ q : Fin (2 ^ 2), G ((gaussRule 2).pt q 0) ((gaussRule 2).pt q 1)) = ∑ q : Fin 4, G (gaussPoint ((q : ℕ).testBit 1)) (gaussPoint ((q : ℕ).testBit 0)) from rfl, Fin.sum_univ_four]
  simp only [Fintype.sum_bool]
  rw [show ((0 : Fin 4) : ℕ).testBit 1 = false from rfl, show ((0 : Fin 4) : ℕ).testBit 0 = false from rfl, show ((1 : Fin 4) : ℕ).testBit 1 = false from rfl, show ((1 : Fin 4) : ℕ).testBit 0 = true from rfl,
    show ((2 : Fin 4) : ℕ).testBit 1 = true from rfl, show ((2 : Fin 4) : ℕ).testBit 0 = false from rfl, show ((3 : Fin 4) : ℕ).testBit 1 = true from rfl, show ((3 : Fin 4) : ℕ).testBit 0 = true from rfl]
  ring

theorem sum_gauss1 (G : ℝ → ℝ) : ∑ q : Fin (2 ^ 1), G ((gaussRule 1).pt q 0) = ∑ b : Bool, G (gaussPoint b) := by
  rw [show (∑ q : Fin (2 ^ 1), G ((gaussRule 1).pt q 0)) = ∑ q : Fin 2, G (gaussPoint ((q : ℕ).testBit 0)) from rfl, Fin.sum_univ_two]
  simp only [Fintype.sum_bool]
  rw [show ((0 : Fin 2) : ℕ).testBit 0 = false from rfl, show ((1 : Fin 2) : ℕ).testBit 0 = true from rfl]
  ring

theorem gauss_moments : gaussPoint false + gaussPoint true = 1 ∧ gaussPoint false * gaussPoint true = 1 / 6 := by
  have h : (1 / Real.sqrt 3) ^ 2 = 1 / 3 := by
    rw [div_pow, Real.sq_sqrt (by norm_num)]
    norm_num
  simp only [gaussPoint, if_true, Bool.false_eq_true, if_false]
  constructor
  · ring
  · linear_combination -h / 4

section
variable {Nx Ny : ℕ} {Lx Ly : ℝ} {f g g' : (Fin 2 → ℝ) → ℝ}

theorem pd_rect : OnRect (pdFem Nx Ny Lx Ly f g g') Nx Ny Lx Ly := ⟨rfl, rfl, rfl⟩

theorem pd_tables : CellTables (pdFem Nx Ny Lx Ly f g g') quad4 (gaussRule 2) := ⟨fun _ _ => rfl, fun _ _ _ => rfl, fun _ => rfl⟩

theorem pd_faces : FaceTables (pdFem Nx Ny Lx Ly f g g') quad4 (gaussRule 1) :=
  ⟨fun _ _ _ => rfl, fun _ _ _ _ => rfl, fun _ _ => rfl, fun _ _ => rfl, fun f => by
    show List.map Fin.val (List.filterMap _ _) = _
    revert f
    decide +kernel⟩

theorem pd_jacobian (i j : ℕ) (hj : j < Ny) (q : Fin (2 ^ 2)) : (pdFem Nx Ny Lx Ly f g g').jacobian (rectCell Ny i j) q = Matrix.diagonal ![Lx / Nx, Ly / Ny] := pd_rect.jacobian _ pd_tables i j hj q

theorem pd_JxW (i j : ℕ) (hj : j < Ny) (q : Fin (2 ^ 2)) : (pdFem Nx Ny Lx Ly f g g').JxW (rectCell Ny i j) q = (Lx / Nx) * (Ly / Ny) / 4 := by
  unfold Fem.JxW
  rw [pd_jacobian i j hj, Matrix.det_diagonal, Fin.prod_univ_two, pd_tables.weights]
  simp [gaussRule]
  ring

theorem pd_cell (u : ℕ → Fin 1 → ℝ) (i j : ℕ) : u (rectCell Ny i j 0) 0 = pdGrid Ny (fun n => u n 0) i j ∧ u (rectCell Ny i j 1) 0 = pdGrid Ny (fun n => u n 0) (i + 1) j ∧
    u (rectCell Ny i j 2) 0 = pdGrid Ny (fun n => u n 0) (i + 1) (j + 1) ∧ u (rectCell Ny i j 3) 0 = pdGrid Ny (fun n => u n 0) i (j + 1) := ⟨rfl, rfl, rfl, rfl⟩

theorem pd_shapeGrad (hG : PdGrid Nx Ny Lx Ly) (i j : ℕ) (hj : j < Ny) (q : Fin (2 ^ 2)) (a : Fin 4) (d : Fin 2) :
    (pdFem Nx Ny Lx Ly f g g').shapeGrad (rectCell Ny i j) q a d = shapeGradRef quad4 a ((gaussRule 2).pt q) d * (![Lx / Nx, Ly / Ny] d)⁻¹ := by
  have hh : ∀ a, 0 < (![Lx / Nx, Ly / Ny] : Fin 2 → ℝ) a := by
    intro a
    fin_cases a
    · exact div_pos hG.lx (by exact_mod_cast hG.nx)
    · exact div_pos hG.ly (by exact_mod_cast hG.ny)
  have hinv : (Matrix.diagonal ![Lx / Nx, Ly / Ny] : Matrix (Fin 2) (Fin 2) ℝ)⁻¹ = Matrix.diagonal fun a => (![Lx / Nx, Ly / Ny] a)⁻¹ := by
    refine Matrix.inv_eq_right_inv ?_
    rw [Matrix.diagonal_mul_diagonal, ← Matrix.diagonal_one]
    exact congrArg _ (funext fun a => mul_inv_cancel₀ (hh a).ne')
  simp only [Fem.shapeGrad, pd_jacobian i j hj, hinv, Matrix.diagonal_apply, mul_ite, mul_zero, sum_ite_eq', mem_univ, if_true, pd_tables.grads]

theorem pd_grad (hG : PdGrid Nx Ny Lx Ly) (u : ℕ → Fin 1 → ℝ) (i j : ℕ) (hj : j < Ny) (q : Fin (2 ^ 2)) :
    (pdFem Nx Ny Lx Ly f g g').gradAt u (rectCell Ny i j) q 0 0 =
      (pdDx (pdGrid Ny fun n => u n 0) i j * (1 - (gaussRule 2).pt q 1) + pdDx (pdGrid Ny fun n => u n 0) i (j + 1) * (gaussRule 2).pt q 1) * (Lx / Nx)⁻¹ ∧
    (pdFem Nx Ny Lx Ly f g g').gradAt u (rectCell Ny i j) q 0 1 =
      (pdDy (pdGrid Ny fun n => u n 0) i j * (1 - (gaussRule 2).pt q 0) + pdDy (pdGrid Ny fun n => u n 0) (i + 1) j * (gaussRule 2).pt q 0) * (Ly / Ny)⁻¹ := by
  obtain ⟨c0, c1, c2, c3⟩ := pd_cell (Ny := Ny) u i j
  constructor
  · unfold Fem.gradAt
    simp only [pd_shapeGrad hG i j hj, Fin.sum_univ_four, c0, c1, c2, c3, fun a => (shapeGradRef_quad4 a ((gaussRule 2).pt q)).1]
    simp only [Verif.Mesh.quadCorner, lin, slope, pdDx, Matrix.cons_val_zero]
    simp
    ring
  · unfold Fem.gradAt
    simp only [pd_shapeGrad hG i j hj, Fin.sum_univ_four, c0, c1, c2, c3, fun a => (shapeGradRef_quad4 a ((gaussRule 2).pt q)).2]
    simp only [Verif.Mesh.quadCorner, lin, slope, pdDy, Matrix.cons_val_one]
    simp
    ring

/-- The program's quadrature of `∇u·∇v` is exact. -/
theorem pd_cell_form (hG : PdGrid Nx Ny Lx Ly) (u v : ℕ → Fin 1 → ℝ) (i j : ℕ) (hj : j < Ny) :
    ∑ q, (∑ k, ∑ d, (pdFem Nx Ny Lx Ly f g g').gradAt u (rectCell Ny i j) q k d * (pdFem Nx Ny Lx Ly f g g').gradAt v (rectCell Ny i j) q k d) * (pdFem Nx Ny Lx Ly f g g').JxW (rectCell Ny i j) q =
      pdCell (Lx / Nx) (Ly / Ny) (pdGrid Ny fun n => u n 0) (pdGrid Ny fun n => v n 0) i j := by
  have hx0 : Lx / Nx ≠ 0 := (div_pos hG.lx (by exact_mod_cast hG.nx)).ne'
  have hy0 : Ly / Ny ≠ 0 := (div_pos hG.ly (by exact_mod_cast hG.ny)).ne'
  simp only [Fin.sum_univ_two, Finset.univ_unique, Finset.sum_singleton, Fin.default_eq_zero, fun w q => (pd_grad (f := f) (g := g) (g' := g') hG w i j hj q).1, fun w q => (pd_grad (f := f) (g := g) (g' := g') hG w i j hj q).2, pd_JxW i j hj]
  set U := pdGrid Ny fun n => u n 0
  set V := pdGrid Ny fun n => v n 0
  generalize Lx / (Nx : ℝ) = hx at *
  generalize Ly / (Ny : ℝ) = hy at *
  rw [sum_gauss2 fun s t => ((pdDx U i j * (1 - t) + pdDx U i (j + 1) * t) * hx⁻¹ * ((pdDx V i j * (1 - t) + pdDx V i (j + 1) * t) * hx⁻¹) +
      (pdDy U i j * (1 - s) + pdDy U (i + 1) j * s) * hy⁻¹ * ((pdDy V i j * (1 - s) + pdDy V (i + 1) j * s) * hy⁻¹)) * (hx * hy / 4)]
  obtain ⟨m1, m2⟩ := gauss_moments
  have m3 : gaussPoint true = 1 - gaussPoint false := by linarith
  simp only [Fintype.sum_bool, m3] at m2 ⊢
  generalize gaussPoint false = a at *
  unfold pdCell
  field_simp
  linear_combination (-24 * (hy ^ 2 * (pdDx U i j - pdDx U i (j + 1)) * (pdDx V i j - pdDx V i (j + 1)) + hx ^ 2 * (pdDy U i j - pdDy U (i + 1) j) * (pdDy V i j - pdDy V (i + 1) j))) * m2

theorem pd_uAt (u : ℕ → Fin 1 → ℝ) (i j : ℕ) (q : Fin (2 ^ 2)) :
    (pdFem Nx Ny Lx Ly f g g').uAt u (rectCell Ny i j) q 0 = pdVal (pdGrid Ny fun n => u n 0) i j ((gaussRule 2).pt q 0) ((gaussRule 2).pt q 1) := by
  obtain ⟨c0, c1, c2, c3⟩ := pd_cell (Ny := Ny) u i j
  unfold Fem.uAt
  simp only [pd_tables.vals]
  rw [quad4_interp fun n => u (rectCell Ny i j n) 0]
  simp only [c0, c1, c2, c3]
  rfl

theorem pd_xAt (i j : ℕ) (hj : j < Ny) (q : Fin (2 ^ 2)) :
    (pdFem Nx Ny Lx Ly f g g').xAt (rectCell Ny i j) q = ![(i + (gaussRule 2).pt q 0) * (Lx / Nx), (j + (gaussRule 2).pt q 1) * (Ly / Ny)] := by
  funext d
  unfold Fem.xAt
  simp only [pd_tables.vals, pd_rect.corner i j hj, mul_comm (shapeVal quad4 _ _)]
  rw [quad4_interp fun n => (![(i : ℝ) * (Lx / Nx), (j : ℝ) * (Ly / Ny)] d + Verif.Mesh.quadCorner n d * ![Lx / Nx, Ly / Ny] d)]
  fin_cases d <;> simp [Verif.Mesh.quadCorner] <;> ring

theorem pd_source (u : ℕ → Fin 1 → ℝ) (i j : ℕ) (hj : j < Ny) :
    ∑ q, (∑ k, (pdFem Nx Ny Lx Ly f g g').load (rectCell Ny i j) q k * (pdFem Nx Ny Lx Ly f g g').uAt u (rectCell Ny i j) q k) * (pdFem Nx Ny Lx Ly f g g').JxW (rectCell Ny i j) q =
      ∑ b : Bool, ∑ b' : Bool, f ![(i + gaussPoint b) * (Lx / Nx), (j + gaussPoint b') * (Ly / Ny)] * pdVal (pdGrid Ny fun n => u n 0) i j (gaussPoint b) (gaussPoint b') * ((Lx / Nx) * (Ly / Ny) / 4) := by
  have hl : ∀ q, (pdFem Nx Ny Lx Ly f g g').load (rectCell Ny i j) q 0 = f ![(i + (gaussRule 2).pt q 0) * (Lx / Nx), (j + (gaussRule 2).pt q 1) * (Ly / Ny)] := by
    intro q
    show f ((pdFem Nx Ny Lx Ly f g g').xAt (rectCell Ny i j) q) = _
    rw [pd_xAt i j hj]
  simp only [Finset.univ_unique, Finset.sum_singleton, Fin.default_eq_zero, hl, pd_uAt, pd_JxW i j hj]
  exact sum_gauss2 fun s t => f ![(i + s) * (Lx / Nx), (j + t) * (Ly / Ny)] * pdVal (pdGrid Ny fun n => u n 0) i j s t * ((Lx / Nx) * (Ly / Ny) / 4)

/-- The two horizontal faces of the reference cell. -/
theorem facePoint_quad4 (s : ℕ → ℝ) : facePoint quad4 0 s 0 = s 0 ∧ facePoint quad4 0 s 1 = 0 ∧ facePoint quad4 3 s 0 = s 0 ∧ facePoint quad4 3 s 1 = 1 := by
  refine ⟨?_, ?_, ?_, ?_⟩ <;> simp [facePoint, quad4, basixFacets, vertexCoord, basixVertices, basisFn, lag, List.zipIdx, List.range_succ]

theorem pd_face (hG : PdGrid Nx Ny Lx Ly) (u : ℕ → Fin 1 → ℝ) (i j : ℕ) (hj : j < Ny) (q : Fin (2 ^ 1)) :
    ((pdFem Nx Ny Lx Ly f g g').uFace u (rectCell Ny i j, 0) q 0 = pdGrid Ny (fun n => u n 0) i j * (1 - (gaussRule 1).pt q 0) + pdGrid Ny (fun n => u n 0) (i + 1) j * (gaussRule 1).pt q 0 ∧
      (pdFem Nx Ny Lx Ly f g g').xFace (rectCell Ny i j, 0) q = ![(i + (gaussRule 1).pt q 0) * (Lx / Nx), j * (Ly / Ny)]) ∧
    ((pdFem Nx Ny Lx Ly f g g').uFace u (rectCell Ny i j, 3) q 0 = pdGrid Ny (fun n => u n 0) i (j + 1) * (1 - (gaussRule 1).pt q 0) + pdGrid Ny (fun n => u n 0) (i + 1) (j + 1) * (gaussRule 1).pt q 0 ∧
      (pdFem Nx Ny Lx Ly f g g').xFace (rectCell Ny i j, 3) q = ![(i + (gaussRule 1).pt q 0) * (Lx / Nx), (j + 1) * (Ly / Ny)]) ∧
    ∀ fc : Fin 4, fc = 0 ∨ fc = 3 → (pdFem Nx Ny Lx Ly f g g').nansonScale (rectCell Ny i j) fc q = (Lx / Nx) / 2 := by
  obtain ⟨c0, c1, c2, c3⟩ := pd_cell (Ny := Ny) u i j
  have hp := facePoint_quad4 ((gaussRule 1).pt q)
  have f0 : (((0 : Fin 4) : ℕ)) = 0 := rfl
  have f3 : (((3 : Fin 4) : ℕ)) = 3 := rfl
  refine ⟨⟨?_, ?_⟩, ⟨?_, ?_⟩, ?_⟩
  · unfold Fem.uFace
    simp only [pd_faces.vals]
    rw [quad4_interp fun n => u (rectCell Ny i j n) 0]
    simp only [c0, c1, c2, c3, f0, hp.1, hp.2.1]
    ring
  · funext d
    unfold Fem.xFace
    simp only [pd_faces.vals, pd_rect.corner i j hj, mul_comm (shapeVal quad4 _ _)]
    rw [quad4_interp fun n => (![(i : ℝ) * (Lx / Nx), (j : ℝ) * (Ly / Ny)] d + Verif.Mesh.quadCorner n d * ![Lx / Nx, Ly / Ny] d)]
    simp only [f0, hp.1, hp.2.1]
    fin_cases d <;> simp [Verif.Mesh.quadCorner] <;> ring
  · unfold Fem.uFace
    simp only [pd_faces.vals]
    rw [quad4_interp fun n => u (rectCell Ny i j n) 0]
    simp only [c0, c1, c2, c3, f3, hp.2.2.1, hp.2.2.2]
    ring
  · funext d
    unfold Fem.xFace
    simp only [pd_faces.vals, pd_rect.corner i j hj, mul_comm (shapeVal quad4 _ _)]
    rw [quad4_interp fun n => (![(i : ℝ) * (Lx / Nx), (j : ℝ) * (Ly / Ny)] d + Verif.Mesh.quadCorner n d * ![Lx / Nx, Ly / Ny] d)]
    simp only [f3, hp.2.2.1, hp.2.2.2]
    fin_cases d <;> simp [Verif.Mesh.quadCorner] <;> ring
  · intro fc hfc
    rw [nansonScale_rect _ pd_rect (gaussRule 1) pd_faces hG.nx hG.ny hG.lx hG.ly i j hj]
    rcases hfc with rfl | rfl <;> simp [quadAxis, gaussRule] <;> ring

/-- Which grid nodes the location functions accept. -/
theorem pd_loc (hG : PdGrid Nx Ny Lx Ly) (i j : ℕ) (hi : i ≤ Nx) (hj : j ≤ Ny) :
    (pdLeft ((pdFem Nx Ny Lx Ly f g g').points (i * (Ny + 1) + j)) = true ↔ i = 0) ∧ (pdRight Lx ((pdFem Nx Ny Lx Ly f g g').points (i * (Ny + 1) + j)) = true ↔ i = Nx) ∧
    (pdBottom ((pdFem Nx Ny Lx Ly f g g').points (i * (Ny + 1) + j)) = true ↔ j = 0) ∧ (pdTop Ly ((pdFem Nx Ny Lx Ly f g g').points (i * (Ny + 1) + j)) = true ↔ j = Ny) := by
  have key : ∀ (N k : ℕ) (L : ℝ), 0 < N → 0 < L → 1e-5 + 1e-5 * L < L / N → k ≤ N →
      (isclose ((k : ℝ) * (L / N)) 0 1e-5 = true ↔ k = 0) ∧ (isclose ((k : ℝ) * (L / N)) L 1e-5 = true ↔ k = N) := by
    intro N k L hN hL ht hk
    have hN' : (0 : ℝ) < N := by exact_mod_cast hN
    have hh : 0 < L / N := div_pos hL hN'
    rw [isclose_iff, isclose_iff, abs_zero, abs_of_pos hL, sub_zero, abs_of_nonneg (by positivity), mul_zero, add_zero]
    constructor
    · constructor
      · intro h
        by_contra hne
        have h1 : (1 : ℝ) ≤ k := by exact_mod_cast Nat.one_le_iff_ne_zero.mpr hne
        have h2 : L / N ≤ k * (L / N) := le_mul_of_one_le_left hh.le h1
        have h3 : (0 : ℝ) ≤ 1e-5 * L := by positivity
        linarith
      · rintro rfl
        norm_num
    · have e : (k : ℝ) * (L / N) - L = -((N - k) * (L / N)) := by
        field_simp
        ring
      have hk' : (k : ℝ) ≤ N := by exact_mod_cast hk
      rw [e, abs_neg, abs_of_nonneg (mul_nonneg (by linarith) hh.le)]
      constructor
      · intro h
        by_contra hne
        have h1 : (1 : ℝ) ≤ N - k := by
          have : (k : ℝ) + 1 ≤ N := by exact_mod_cast (show k + 1 ≤ N by omega)
          linarith
        have h2 : L / N ≤ (N - k) * (L / N) := le_mul_of_one_le_left hh.le h1
        linarith
      · rintro rfl
        rw [sub_self, zero_mul]
        positivity
  rw [pd_rect.point i j hj]
  obtain ⟨a1, a2⟩ := key Nx i Lx hG.nx hG.lx hG.tolx hi
  obtain ⟨a3, a4⟩ := key Ny j Ly hG.ny hG.ly hG.toly hj
  exact ⟨by simpa [pdLeft] using a1, by simpa [pdRight] using a2, by simpa [pdBottom] using a3, by simpa [pdTop] using a4⟩

/-- The selected faces: the lower sides of the bottom cells, the upper sides of the top cells. -/
theorem pd_selected (hG : PdGrid Nx Ny Lx Ly) (G : (Fin 4 → ℕ) × Fin 4 → ℝ) :
    (((pdFem Nx Ny Lx Ly f g g').selected pdBottom).map G).sum = ∑ i ∈ range Nx, G (rectCell Ny i 0, 0) ∧
    (((pdFem Nx Ny Lx Ly f g g').selected (pdTop Ly)).map G).sum = ∑ i ∈ range Nx, G (rectCell Ny i (Ny - 1), 3) := by
  set F := pdFem Nx Ny Lx Ly f g g' with hF
  have key : ∀ (loc : Loc 2) (m : ℕ) (fc : Fin 4), m < Ny → (∀ i j, i ≤ Nx → j ≤ Ny → (loc (F.points (i * (Ny + 1) + j)) = true ↔ j = m + quadSide fc)) → quadAxis fc = 1 →
      (∀ j < Ny, ∀ f', quadAxis f' = 1 → j + quadSide f' = m + quadSide fc → j = m ∧ f' = fc) → ((F.selected loc).map G).sum = ∑ i ∈ range Nx, G (rectCell Ny i m, fc) := by
    intro loc m fc hm hloc hax hun
    have hon : ∀ i j, i < Nx → j < Ny → ∀ f, F.onBoundary loc (rectCell Ny i j) f = true ↔ j = m ∧ f = fc := by
      intro i j hi hj f'
      have hp : ∀ p, loc (F.coos (rectCell Ny i j) p) = true ↔ j + Verif.Mesh.quadCorner p 1 = m + quadSide fc := fun p =>
        hloc _ _ (by have := quadCorner_le p 0; omega) (by have := quadCorner_le p 1; omega)
      unfold Fem.onBoundary
      rw [List.all_eq_true]
      simp only [hp, faceInds_quad4 F (gaussRule 1) pd_faces]
      constructor
      · intro hall
        refine (fun h : quadAxis f' = 1 ∧ j + quadSide f' = m + quadSide fc => hun j hj f' h.1 h.2) ?_
        fin_cases f'
        · have h1 := hall 0 rfl
          exact ⟨rfl, h1⟩
        · have h1 := hall 0 rfl
          have h2 := hall 3 rfl
          simp [Verif.Mesh.quadCorner] at h1 h2
          omega
        · have h1 := hall 1 rfl
          have h2 := hall 2 rfl
          simp [Verif.Mesh.quadCorner] at h1 h2
          omega
        · have h1 := hall 2 rfl
          exact ⟨rfl, h1⟩
      · rintro ⟨rfl, rfl⟩ p hpp
        rw [hax] at hpp
        rw [hpp]
    have hflat : ∀ (l : List (Fin 4 → ℕ)) (K : (Fin 4 → ℕ) → List ((Fin 4 → ℕ) × Fin 4)) (H : (Fin 4 → ℕ) × Fin 4 → ℝ), ((l.flatMap K).map H).sum = (l.map fun c => ((K c).map H).sum).sum := by
      intro l K H
      induction l with
      | nil => simp
      | cons c l ih => simp [ih]
    have hcell : ∀ i j, i < Nx → j < Ny → ((((List.finRange 4).filter fun f => F.onBoundary loc (rectCell Ny i j) f).map fun f => (rectCell Ny i j, f)).map G).sum =
        if j = m then G (rectCell Ny i m, fc) else 0 := by
      intro i j hi hj
      have hfil : ((List.finRange 4).filter fun f => F.onBoundary loc (rectCell Ny i j) f) = if j = m then [fc] else [] := by
        rw [List.filter_congr (q := fun f => decide (j = m ∧ f = fc)) fun f _ => by rw [Bool.eq_iff_iff, hon i j hi hj, decide_eq_true_iff]]
        split_ifs with hc
        · simp only [hc, true_and]
          exact (by decide : ∀ fc : Fin 4, (List.finRange 4).filter (fun f => decide (f = fc)) = [fc]) fc
        · rw [List.filter_eq_nil_iff]
          intro f _ hf
          rw [decide_eq_true_iff] at hf
          exact hc hf.1
      rw [hfil]
      split_ifs with hc
      · simp [hc]
      · simp
    unfold Fem.selected
    rw [hflat, pd_rect.sum_cells]
    refine sum_congr rfl fun i hi => ?_
    rw [sum_congr rfl fun j hj => hcell i j (mem_range.mp hi) (mem_range.mp hj), sum_ite_eq' (range Ny) m, if_pos (mem_range.mpr hm)]
  constructor
  · refine key pdBottom 0 0 hG.ny (fun i j hi hj => (pd_loc hG i j hi hj).2.2.1) rfl fun j hj f' h1 h2 => ?_
    fin_cases f' <;> simp [quadAxis, quadSide] at h1 h2 ⊢
    exact h2
  · refine key (pdTop Ly) (Ny - 1) 3 (by have := hG.ny; omega) (fun i j hi hj => ?_) rfl fun j hj f' h1 h2 => ?_
    · rw [(pd_loc hG i j hi hj).2.2.2]
      have := hG.ny
      show j = Ny ↔ j = Ny - 1 + 1
      omega
    · fin_cases f' <;> simp [quadAxis, quadSide] at h1 h2 ⊢ <;> omega
/-- The residual of the program paired with a test field: form minus load. -/
theorem pd_work (hG : PdGrid Nx Ny Lx Ly) (u v R : ℕ → Fin 1 → ℝ) (hR : (pdFem Nx Ny Lx Ly f g g').computeResidual u = .ok R) :
    ∑ n ∈ range ((Nx + 1) * (Ny + 1)), R n 0 * v n 0 = pdForm Nx Ny (Lx / Nx) (Ly / Ny) (pdGrid Ny fun n => u n 0) (pdGrid Ny fun n => v n 0) - pdLoad Nx Ny Lx Ly f g g' (pdGrid Ny fun n => v n 0) := by
  have hw := C71_virtual_work (pdFem Nx Ny Lx Ly f g g') pd_rect.mesh u v R hR
  have hz : ∀ (l : List (Fin 4 → ℕ)) (H : (Fin 4 → ℕ) → ℝ), (l.zipIdx.map fun p => H p.1) = l.map H := fun l H => List.ext_getElem (by simp) fun j h1 h2 => by simp
  have hz' : ∀ (l : List ((Fin 4 → ℕ) × Fin 4)) (H : (Fin 4 → ℕ) × Fin 4 → ℝ), (l.zipIdx.map fun p => H p.1) = l.map H := fun l H => List.ext_getElem (by simp) fun j h1 h2 => by simp
  have hp : Fem.pairs (pdFem Nx Ny Lx Ly f g g').neumann = [(pdBottom, fun _ _ x _ => g x), (pdTop Ly, fun _ _ x _ => g' x)] := rfl
  have hc : Fem.pairs (pdFem Nx Ny Lx Ly f g g').cauchy = [] := rfl
  have hl : ∑ n ∈ range (pdFem Nx Ny Lx Ly f g g').numTotal, ∑ i, R n i * v n i = ∑ n ∈ range ((Nx + 1) * (Ny + 1)), R n 0 * v n 0 := by
    simp only [Finset.univ_unique, Finset.sum_singleton, Fin.default_eq_zero]
    rfl
  rw [hl] at hw
  rw [hw, hp, hc]
  simp only [List.map_nil, List.sum_nil, add_zero, List.map_cons, List.sum_cons]
  have hs : ∀ k q A, (pdFem Nx Ny Lx Ly f g g').stress k q A = A := fun _ _ _ => rfl
  have hm : ∀ k q w i, (pdFem Nx Ny Lx Ly f g g').massAt k q w i = 0 := fun _ _ _ _ => rfl
  simp only [hs, hm, zero_mul, sum_const_zero, add_zero]
  rw [hz _ fun c => ∑ q, (∑ k, ∑ d, (pdFem Nx Ny Lx Ly f g g').gradAt u c q k d * (pdFem Nx Ny Lx Ly f g g').gradAt v c q k d) * (pdFem Nx Ny Lx Ly f g g').JxW c q,
    hz' _ fun p => ∑ q, (∑ i, g ((pdFem Nx Ny Lx Ly f g g').xFace p q) * (pdFem Nx Ny Lx Ly f g g').uFace v p q i) * (pdFem Nx Ny Lx Ly f g g').nansonScale p.1 p.2 q,
    hz' _ fun p => ∑ q, (∑ i, g' ((pdFem Nx Ny Lx Ly f g g').xFace p q) * (pdFem Nx Ny Lx Ly f g g').uFace v p q i) * (pdFem Nx Ny Lx Ly f g g').nansonScale p.1 p.2 q,
    (pd_selected hG _).1, (pd_selected hG _).2, pd_rect.sum_cells, pd_rect.sum_cells]
  have e1 : ∑ i ∈ range Nx, ∑ j ∈ range Ny, (∑ q, (∑ k, ∑ d, (pdFem Nx Ny Lx Ly f g g').gradAt u (rectCell Ny i j) q k d * (pdFem Nx Ny Lx Ly f g g').gradAt v (rectCell Ny i j) q k d) *
      (pdFem Nx Ny Lx Ly f g g').JxW (rectCell Ny i j) q) = pdForm Nx Ny (Lx / Nx) (Ly / Ny) (pdGrid Ny fun n => u n 0) (pdGrid Ny fun n => v n 0) :=
    sum_congr rfl fun i _ => sum_congr rfl fun j hj => pd_cell_form hG u v i j (mem_range.mp hj)
  have e2 : ∑ i ∈ range Nx, ∑ j ∈ range Ny, (∑ q, (∑ k, (pdFem Nx Ny Lx Ly f g g').load (rectCell Ny i j) q k * (pdFem Nx Ny Lx Ly f g g').uAt v (rectCell Ny i j) q k) *
      (pdFem Nx Ny Lx Ly f g g').JxW (rectCell Ny i j) q) = pdSource Nx Ny (Lx / Nx) (Ly / Ny) f (pdGrid Ny fun n => v n 0) :=
    sum_congr rfl fun i _ => sum_congr rfl fun j hj => pd_source v i j (mem_range.mp hj)
  have hny : ((Ny - 1 : ℕ) : ℝ) + 1 = Ny := by
    rw [Nat.cast_sub hG.ny]
    norm_num
  have hN : (Ny : ℝ) ≠ 0 := by exact_mod_cast hG.ny.ne'
  have e3 : ∑ i ∈ range Nx, (∑ q, (∑ k, g ((pdFem Nx Ny Lx Ly f g g').xFace (rectCell Ny i 0, 0) q) * (pdFem Nx Ny Lx Ly f g g').uFace v (rectCell Ny i 0, 0) q k) *
      (pdFem Nx Ny Lx Ly f g g').nansonScale (rectCell Ny i 0) 0 q) = pdSide Nx (Lx / Nx) 0 0 g (pdGrid Ny fun n => v n 0) := by
    refine sum_congr rfl fun i _ => ?_
    simp only [Finset.univ_unique, Finset.sum_singleton, Fin.default_eq_zero, fun q => (pd_face (f := f) (g := g) (g' := g') hG v i 0 hG.ny q).1.1, fun q => (pd_face (f := f) (g := g) (g' := g') hG v i 0 hG.ny q).1.2,
      fun q => (pd_face (f := f) (g := g) (g' := g') hG v i 0 hG.ny q).2.2 0 (.inl rfl), Nat.cast_zero, zero_mul]
    exact sum_gauss1 fun s => g ![(i + s) * (Lx / Nx), 0] * (pdGrid Ny (fun n => v n 0) i 0 * (1 - s) + pdGrid Ny (fun n => v n 0) (i + 1) 0 * s) * ((Lx / Nx) / 2)
  have e4 : ∑ i ∈ range Nx, (∑ q, (∑ k, g' ((pdFem Nx Ny Lx Ly f g g').xFace (rectCell Ny i (Ny - 1), 3) q) * (pdFem Nx Ny Lx Ly f g g').uFace v (rectCell Ny i (Ny - 1), 3) q k) *
      (pdFem Nx Ny Lx Ly f g g').nansonScale (rectCell Ny i (Ny - 1)) 3 q) = pdSide Nx (Lx / Nx) Ly Ny g' (pdGrid Ny fun n => v n 0) := by
    refine sum_congr rfl fun i _ => ?_
    have hlt : Ny - 1 < Ny := by have := hG.ny; omega
    have hsub : Ny - 1 + 1 = Ny := by have := hG.ny; omega
    simp only [Finset.univ_unique, Finset.sum_singleton, Fin.default_eq_zero, fun q => (pd_face (f := f) (g := g) (g' := g') hG v i (Ny - 1) hlt q).2.1.1, fun q => (pd_face (f := f) (g := g) (g' := g') hG v i (Ny - 1) hlt q).2.1.2,
      fun q => (pd_face (f := f) (g := g) (g' := g') hG v i (Ny - 1) hlt q).2.2 3 (.inr rfl), hny, hsub, mul_div_cancel₀ Ly hN]
    exact sum_gauss1 fun s => g' ![(i + s) * (Lx / Nx), Ly] * (pdGrid Ny (fun n => v n 0) i Ny * (1 - s) + pdGrid Ny (fun n => v n 0) (i + 1) Ny * s) * ((Lx / Nx) / 2)
  rw [e1, e2, e3, e4]
  unfold pdLoad
  ring

theorem pd_ok (hG : PdGrid Nx Ny Lx Ly) (u : ℕ → Fin 1 → ℝ) : ∃ R, (pdFem Nx Ny Lx Ly f g g').computeResidual u = .ok R := by
  have hx : 0 < Lx / Nx := div_pos hG.lx (by exact_mod_cast hG.nx)
  have hy : 0 < Ly / Ny := div_pos hG.ly (by exact_mod_cast hG.ny)
  refine (C13_returns _ _).mpr ⟨?_, fun m h => ?_, fun m h => ?_, fun lv h => ?_, fun lv h => ?_⟩
  · exact List.ne_nil_of_mem ((pd_rect.mem_cells (rectCell Ny 0 0)).mpr ⟨0, 0, hG.nx, hG.ny, rfl⟩)
  · cases h
  · cases h
  · cases h
  · cases h
    refine ⟨le_refl _, fun l _ p hp q => ?_⟩
    obtain ⟨c, hc, hp⟩ := List.mem_flatMap.mp hp
    obtain ⟨f, -, rfl⟩ := List.mem_map.mp hp
    obtain ⟨i, j, hi, hj, rfl⟩ := (pd_rect.mem_cells c).mp hc
    rw [pd_rect.faceJacobian _ pd_faces i j hj, Matrix.det_diagonal, Fin.prod_univ_two]
    exact (mul_pos hx hy).ne'

theorem pdForm_congr {hx hy : ℝ} {U U' V V' : ℕ → ℕ → ℝ} (hU : ∀ i ≤ Nx, ∀ j ≤ Ny, U i j = U' i j) (hV : ∀ i ≤ Nx, ∀ j ≤ Ny, V i j = V' i j) : pdForm Nx Ny hx hy U V = pdForm Nx Ny hx hy U' V' := by
  refine sum_congr rfl fun i hi => sum_congr rfl fun j hj => ?_
  have hi' := mem_range.mp hi
  have hj' := mem_range.mp hj
  unfold pdCell pdDx pdDy
  rw [hU i (by omega) j (by omega), hU (i + 1) (by omega) j (by omega), hU i (by omega) (j + 1) (by omega), hU (i + 1) (by omega) (j + 1) (by omega),
    hV i (by omega) j (by omega), hV (i + 1) (by omega) j (by omega), hV i (by omega) (j + 1) (by omega), hV (i + 1) (by omega) (j + 1) (by omega)]

theorem pdLoad_congr {V V' : ℕ → ℕ → ℝ} (hV : ∀ i ≤ Nx, ∀ j ≤ Ny, V i j = V' i j) : pdLoad Nx Ny Lx Ly f g g' V = pdLoad Nx Ny Lx Ly f g g' V' := by
  have h1 : pdSource Nx Ny (Lx / Nx) (Ly / Ny) f V = pdSource Nx Ny (Lx / Nx) (Ly / Ny) f V' := by
    refine sum_congr rfl fun i hi => sum_congr rfl fun j hj => sum_congr rfl fun b _ => sum_congr rfl fun b' _ => ?_
    have hi' := mem_range.mp hi
    have hj' := mem_range.mp hj
    unfold pdVal
    rw [hV i (by omega) j (by omega), hV (i + 1) (by omega) j (by omega), hV i (by omega) (j + 1) (by omega), hV (i + 1) (by omega) (j + 1) (by omega)]
  have h2 : ∀ y m g, m ≤ Ny → pdSide Nx (Lx / Nx) y m g V = pdSide Nx (Lx / Nx) y m g V' := by
    intro y m g hm
    refine sum_congr rfl fun i hi => sum_congr rfl fun b _ => ?_
    have hi' := mem_range.mp hi
    rw [hV i (by omega) m hm, hV (i + 1) (by omega) m hm]
  unfold pdLoad
  rw [h1, h2 0 0 g (by omega), h2 Ly Ny g' le_rfl]

/-- What the Dirichlet data prescribe: zero at the nodes of the two vertical sides, nothing elsewhere. -/
theorem pd_prescribed (hG : PdGrid Nx Ny Lx Ly) (ns cs : List (List ℕ)) (ws : List (List ℝ)) (hbc : dirichletBC ((Nx + 1) * (Ny + 1)) (pdFem Nx Ny Lx Ly f g g').points (some (pdInfo Lx)) = .ok (ns, cs, ws))
    (i j : ℕ) (hi : i ≤ Nx) (hj : j ≤ Ny) (c : Fin 1) :
    (FreeAt ((pdFem Nx Ny Lx Ly f g g').toProb (groupsOf ns cs ws)).prescriptions (1 * (i * (Ny + 1) + j) + c) ↔ i ≠ 0 ∧ i ≠ Nx) ∧
    (∀ v, LastAt ((pdFem Nx Ny Lx Ly f g g').toProb (groupsOf ns cs ws)).prescriptions (1 * (i * (Ny + 1) + j) + c) v → v = 0) ∧
    (i = 0 ∨ i = Nx → LastAt ((pdFem Nx Ny Lx Ly f g g').toProb (groupsOf ns cs ws)).prescriptions (1 * (i * (Ny + 1) + j) + c) 0) := by
  obtain rfl : c = 0 := Subsingleton.elim _ _
  set P := (pdFem Nx Ny Lx Ly f g g').toProb (groupsOf ns cs ws)
  have hlt : i * (Ny + 1) + j < (Nx + 1) * (Ny + 1) := Verif.Mesh.idx2_lt (by omega) (by omega)
  have hz := zero_prescriptions P _ _ _ _ _ (by simp [pdInfo]) ns cs ws hbc rfl
  have hu := (user_prescriptions P (pdFem Nx Ny Lx Ly f g g').points _ _ _ (by intro v hv; show v < 1; simp [pdInfo] at hv; omega) ns cs ws hbc rfl (i * (Ny + 1) + j) 0 hlt (show 0 < 1 by norm_num)).1
  have hloc := pd_loc (f := f) (g := g) (g' := g') hG i j hi hj
  have hfree : FreeAt P.prescriptions (1 * (i * (Ny + 1) + j) + 0) ↔ i ≠ 0 ∧ i ≠ Nx := by
    refine hu.trans ?_
    constructor
    · intro h
      have h1 := h (pdLeft, 0, fun _ => 0) (by simp [pdInfo])
      have h2 := h (pdRight Lx, 0, fun _ => 0) (by simp [pdInfo])
      exact ⟨fun e => h1 ⟨hloc.1.mpr e, rfl⟩, fun e => h2 ⟨hloc.2.1.mpr e, rfl⟩⟩
    · rintro ⟨h1, h2⟩ t ht ⟨h3, -⟩
      simp only [pdInfo, List.zip_cons_cons, List.zip_nil_left, List.mem_cons, List.not_mem_nil, or_false] at ht
      rcases ht with rfl | rfl
      · exact h1 (hloc.1.mp h3)
      · exact h2 (hloc.2.1.mp h3)
  have hlast : ∀ v, LastAt P.prescriptions (1 * (i * (Ny + 1) + j) + 0) v → v = 0 := by
    rintro v ⟨l1, l2, e, -⟩
    exact hz _ (e ▸ List.mem_append_right _ List.mem_cons_self)
  refine ⟨hfree, hlast, fun h => ?_⟩
  cases hl : lastVal P.prescriptions (1 * (i * (Ny + 1) + j) + 0) with
  | none =>
    obtain ⟨h1, h2⟩ := hfree.mp ((lastVal_none _ _).mp hl)
    rcases h with h | h
    · exact absurd h h1
    · exact absurd h h2
  | some v =>
    have h1 := (lastVal_some _ _ _).mp hl
    rw [hlast v h1] at h1
    exact h1

/-- A grid function as a nodal array. -/
def pdNodal (Ny : ℕ) (V : ℕ → ℕ → ℝ) (n : ℕ) (_ : Fin 1) : ℝ := V (n / (Ny + 1)) (n % (Ny + 1))

theorem pdNodal_grid (V : ℕ → ℕ → ℝ) (i j : ℕ) (hj : j ≤ Ny) : pdGrid Ny (fun n => pdNodal Ny V n 0) i j = V i j := by
  unfold pdGrid pdNodal
  show V ((i * (Ny + 1) + j) / (Ny + 1)) ((i * (Ny + 1) + j) % (Ny + 1)) = V i j
  rw [show (i * (Ny + 1) + j) % (Ny + 1) = j by rw [Nat.add_comm, Nat.add_mul_mod_self_right, Nat.mod_eq_of_lt (Nat.lt_succ_of_le hj)], Nat.add_comm (i * (Ny + 1)) j, Nat.add_mul_div_right _ _ (Nat.succ_pos Ny), Nat.div_eq_of_lt (Nat.lt_succ_of_le hj), zero_add]

/-- **C129 (weak form).** What the program solves is the Galerkin problem: a nodal array is a discrete solution of the program iff it solves the grid problem. -/
theorem C129_weak (hG : PdGrid Nx Ny Lx Ly) (ns cs : List (List ℕ)) (ws : List (List ℝ)) (hbc : dirichletBC ((Nx + 1) * (Ny + 1)) (pdFem Nx Ny Lx Ly f g g').points (some (pdInfo Lx)) = .ok (ns, cs, ws))
    (s : ℕ → Fin 1 → ℝ) :
    (pdFem Nx Ny Lx Ly f g g').Solves ((pdFem Nx Ny Lx Ly f g g').toProb (groupsOf ns cs ws)).prescriptions s ↔ PdSolves Nx Ny Lx Ly f g g' (pdGrid Ny fun n => s n 0) := by
  constructor
  · rintro ⟨R, hR, h⟩
    refine ⟨fun j hj => ?_, fun V hV => ?_⟩
    · have h0 := fun i hi (he : i = 0 ∨ i = Nx) => (h (i * (Ny + 1) + j) (Verif.Mesh.idx2_lt (by omega) (by omega)) 0).1 0 ((pd_prescribed hG ns cs ws hbc i j hi hj 0).2.2 he)
      exact ⟨h0 0 (by omega) (.inl rfl), h0 Nx le_rfl (.inr rfl)⟩
    · have hw := pd_work hG s (pdNodal Ny V) R hR
      have hz : ∑ n ∈ range ((Nx + 1) * (Ny + 1)), R n 0 * pdNodal Ny V n 0 = 0 := by
        refine sum_eq_zero fun n hn => ?_
        obtain ⟨i, j, hi, hj, rfl⟩ := Verif.Mesh.idx2_surj (mem_range.mp hn)
        have hg := pdNodal_grid V i j (Nat.lt_succ_iff.mp hj)
        have hg' : pdNodal Ny V (i * (Ny + 1) + j) 0 = V i j := hg
        by_cases hfix : i ≠ 0 ∧ i ≠ Nx
        · rw [(h _ (mem_range.mp hn) 0).2 ((pd_prescribed hG ns cs ws hbc i j (by omega) (by omega) 0).1.mpr hfix), zero_mul]
        · have : V i j = 0 := by
            rcases Nat.eq_zero_or_pos i with rfl | hpos
            · exact (hV j (by omega)).1
            · have : i = Nx := by
                by_contra hne
                exact hfix ⟨by omega, hne⟩
              rw [this]
              exact (hV j (by omega)).2
          rw [hg', this, mul_zero]
      rw [hz] at hw
      rw [pdForm_congr (fun _ _ _ _ => rfl) fun i _ j hj => pdNodal_grid V i j hj, pdLoad_congr fun i _ j hj => pdNodal_grid V i j hj] at hw
      linarith
  · intro h
    obtain ⟨R, hR⟩ := pd_ok (f := f) (g := g) (g' := g') hG s
    refine ⟨R, hR, fun n hn c => ?_⟩
    obtain rfl : c = 0 := Subsingleton.elim _ _
    obtain ⟨i, j, hi, hj, rfl⟩ := Verif.Mesh.idx2_surj (show n < (Nx + 1) * (Ny + 1) from hn)
    have hp := pd_prescribed hG ns cs ws hbc i j (by omega) (by omega) 0
    constructor
    · intro v hv
      rw [hp.2.1 v hv]
      have hnf : ¬ (i ≠ 0 ∧ i ≠ Nx) := fun hf => by
        have := (lastVal_none _ _).mpr (hp.1.mpr hf)
        rw [(lastVal_some _ _ _).mpr hv] at this
        cases this
      rcases Nat.eq_zero_or_pos i with rfl | hpos
      · exact (h.held j (by omega)).1
      · have : i = Nx := by
          by_contra hne
          exact hnf ⟨by omega, hne⟩
        subst this
        exact (h.held j (by omega)).2
    · intro hf
      obtain ⟨h1, h2⟩ := hp.1.mp hf
      have hw := pd_work hG s (fun n _ => if n = i * (Ny + 1) + j then 1 else 0) R hR
      have hheld : PdHeld Nx Ny (pdGrid Ny fun n => if n = i * (Ny + 1) + j then (1 : ℝ) else 0) := by
        intro j' hj'
        constructor
        · refine if_neg fun e => h1 ?_
          exact (Verif.Mesh.idx_inj (show j' < Ny + 1 by omega) hj e).1.symm
        · refine if_neg fun e => h2 ?_
          exact (Verif.Mesh.idx_inj (show j' < Ny + 1 by omega) hj e).1.symm
      have hn' : i * (Ny + 1) + j < (Nx + 1) * (Ny + 1) := hn
      rw [h.weak _ hheld, sub_self] at hw
      simpa [hn'] using hw

/-- The discrete problem of the program is determined. -/
theorem pd_determined (hG : PdGrid Nx Ny Lx Ly) (ns cs : List (List ℕ)) (ws : List (List ℝ)) (hbc : dirichletBC ((Nx + 1) * (Ny + 1)) (pdFem Nx Ny Lx Ly f g g').points (some (pdInfo Lx)) = .ok (ns, cs, ws)) :
    (pdFem Nx Ny Lx Ly f g g').Determined ((pdFem Nx Ny Lx Ly f g g').toProb (groupsOf ns cs ws)).prescriptions := by
  intro u v Ru Rv hu hv hfix hfree n hn c
  obtain rfl : c = 0 := Subsingleton.elim _ _
  have hx0 : 0 < Lx / Nx := div_pos hG.lx (by exact_mod_cast hG.nx)
  have hy0 : 0 < Ly / Ny := div_pos hG.ly (by exact_mod_cast hG.ny)
  have w1 := pd_work hG u (fun n i => u n i - v n i) Ru hu
  have w2 := pd_work hG v (fun n i => u n i - v n i) Rv hv
  have hform : pdForm Nx Ny (Lx / Nx) (Ly / Ny) (pdGrid Ny fun n => u n 0 - v n 0) (pdGrid Ny fun n => u n 0 - v n 0) = pdForm Nx Ny (Lx / Nx) (Ly / Ny) (pdGrid Ny fun n => u n 0) (pdGrid Ny fun n => u n 0 - v n 0) -
      pdForm Nx Ny (Lx / Nx) (Ly / Ny) (pdGrid Ny fun n => v n 0) (pdGrid Ny fun n => u n 0 - v n 0) := pdForm_sub _ _ _
  have heq : ∑ n ∈ range ((Nx + 1) * (Ny + 1)), Ru n 0 * (u n 0 - v n 0) = ∑ n ∈ range ((Nx + 1) * (Ny + 1)), Rv n 0 * (u n 0 - v n 0) := by
    refine sum_congr rfl fun n hn => ?_
    by_cases hf : FreeAt ((pdFem Nx Ny Lx Ly f g g').toProb (groupsOf ns cs ws)).prescriptions (1 * n + (0 : Fin 1))
    · rw [hfree n (mem_range.mp hn) 0 hf]
    · rw [hfix n (mem_range.mp hn) 0 hf, sub_self, mul_zero, mul_zero]
  have hheld : PdHeld Nx Ny (pdGrid Ny fun n => u n 0 - v n 0) := by
    have key : ∀ i j, i ≤ Nx → j ≤ Ny → i = 0 ∨ i = Nx → pdGrid Ny (fun n => u n 0 - v n 0) i j = 0 := by
      intro i j hi hj he
      have := hfix (i * (Ny + 1) + j) (Verif.Mesh.idx2_lt (by omega) (by omega)) 0 fun hf => by
        obtain ⟨a, b⟩ := (pd_prescribed hG ns cs ws hbc i j hi hj 0).1.mp hf
        rcases he with he | he
        · exact a he
        · exact b he
      exact sub_eq_zero.mpr this
    exact fun j hj => ⟨key 0 j (by omega) hj (.inl rfl), key Nx j le_rfl hj (.inr rfl)⟩
  obtain ⟨i, j, hi, hj, rfl⟩ := Verif.Mesh.idx2_surj (show n < (Nx + 1) * (Ny + 1) from hn)
  have := pdForm_zero hG.ny hx0 hy0 _ hheld (by linarith) i (by omega) j (by omega)
  exact sub_eq_zero.mp this

/-- **C129 (program).** The demo on a rectangle of any size and number of cells, any source and fluxes: the Dirichlet data are accepted; with any exact linear solver (one exists) the linear branch of `solver`
returns the Galerkin solution, and that is the only one. -/
theorem C129_program (hG : PdGrid Nx Ny Lx Ly) : ∃ ns cs ws, dirichletBC ((Nx + 1) * (Ny + 1)) (pdFem Nx Ny Lx Ly f g g').points (some (pdInfo Lx)) = .ok (ns, cs, ws) ∧ ∀ usePetsc,
    (∃ lin, ((pdFem Nx Ny Lx Ly f g g').toProb (groupsOf ns cs ws)).ExactFor usePetsc lin) ∧
    ∀ lin, ((pdFem Nx Ny Lx Ly f g g').toProb (groupsOf ns cs ws)).ExactFor usePetsc lin → ∀ (precond : Bool) (guess : Option (ℕ → ℝ)) (fuel : ℕ),
      ∃ u, ((pdFem Nx Ny Lx Ly f g g').toProb (groupsOf ns cs ws)).rowSolver realArith lin true precond usePetsc guess fuel = .ok u ∧ PdSolves Nx Ny Lx Ly f g g' (pdGrid Ny u) ∧
        ∀ W, PdSolves Nx Ny Lx Ly f g g' W → ∀ i ≤ Nx, ∀ j ≤ Ny, pdGrid Ny u i j = W i j := by
  obtain ⟨⟨ns, cs, ws⟩, hbc⟩ := (C17_accepted ((Nx + 1) * (Ny + 1)) (pdFem Nx Ny Lx Ly f g g').points (pdInfo Lx).1 (pdInfo Lx).2.1 (pdInfo Lx).2.2).1.mpr ⟨rfl, rfl⟩
  refine ⟨ns, cs, ws, hbc, fun usePetsc => ?_⟩
  have hwf : ((pdFem Nx Ny Lx Ly f g g').toProb (groupsOf ns cs ws)).WF :=
    C19_groups_wf ((pdFem Nx Ny Lx Ly f g g').toProb (groupsOf ns cs ws)) (show 0 < 1 by decide) ((Nx + 1) * (Ny + 1)) (pdFem Nx Ny Lx Ly f g g').points _ _ _ ns cs ws hbc rfl
  obtain ⟨R, hR⟩ := pd_ok (f := f) (g := g) (g' := g') hG fun _ _ => 0
  have hlin : (pdFem Nx Ny Lx Ly f g g').Linear := by
    refine ⟨fun tm h k q => ?_, fun mm h => ?_, fun lv h => ?_⟩
    · cases h
      exact ⟨differentiable_id, fun x y => by show x + y + 0 = x + y; rw [add_zero]⟩
    · cases h
    · cases h
  obtain ⟨h1, h2⟩ := C87_solution (pdFem Nx Ny Lx Ly f g g') hlin (groupsOf ns cs ws) hwf pd_rect.mesh ⟨_, R, hR⟩ (pd_determined hG ns cs ws hbc) usePetsc
  refine ⟨h1, fun lin hl precond guess fuel => ?_⟩
  obtain ⟨u, hu, hs, -⟩ := h2 lin hl precond guess fuel
  have hsol := (C129_weak hG ns cs ws hbc _).mp hs
  have e : (pdGrid Ny fun n => u (1 * n + ((0 : Fin 1) : ℕ))) = pdGrid Ny u := by
    funext i j
    simp [pdGrid]
  rw [e] at hsol
  exact ⟨u, hu, hsol, fun W hW => pdSolves_unique hG hsol hW⟩

theorem pd_sum_grid (a b : ℕ) (f : ℕ → ℝ) : ∑ n ∈ range (a * b), f n = ∑ i ∈ range a, ∑ j ∈ range b, f (i * b + j) := by
  induction a with
  | zero => simp
  | succ a ih => rw [Nat.succ_mul, Finset.sum_range_add, sum_range_succ, ih]

/-- **C129 (balance).** For a solution, the residuals at the two held sides add up to minus the total of source and fluxes: what enters leaves through the sides. -/
theorem C129_balance (hG : PdGrid Nx Ny Lx Ly) (s R : ℕ → Fin 1 → ℝ) (hR : (pdFem Nx Ny Lx Ly f g g').computeResidual s = .ok R) (hs : PdSolves Nx Ny Lx Ly f g g' (pdGrid Ny fun n => s n 0)) :
    ∑ j ∈ range (Ny + 1), (R j 0 + R (Nx * (Ny + 1) + j) 0) = -((∑ i ∈ range Nx, ∑ j ∈ range Ny, ∑ b : Bool, ∑ b' : Bool, f ![(i + gaussPoint b) * (Lx / Nx), (j + gaussPoint b') * (Ly / Ny)] * (Lx / Nx * (Ly / Ny) / 4)) +
      ∑ i ∈ range Nx, ∑ b : Bool, (g ![(i + gaussPoint b) * (Lx / Nx), 0] + g' ![(i + gaussPoint b) * (Lx / Nx), Ly]) * (Lx / Nx / 2)) := by
  set H : ℕ → ℕ → ℝ := fun i _ => if i = 0 ∨ i = Nx then 1 else 0 with hH
  have hw := pd_work hG s (pdNodal Ny H) R hR
  have h1 : ∑ n ∈ range ((Nx + 1) * (Ny + 1)), R n 0 * pdNodal Ny H n 0 = ∑ j ∈ range (Ny + 1), (R j 0 + R (Nx * (Ny + 1) + j) 0) := by
    rw [pd_sum_grid, sum_comm]
    refine sum_congr rfl fun j hj => ?_
    have hg : ∀ i, pdNodal Ny H (i * (Ny + 1) + j) 0 = H i j := fun i => pdNodal_grid H i j (Nat.lt_succ_iff.mp (mem_range.mp hj))
    have hN := hG.nx
    rw [sum_congr rfl fun i _ => by rw [hg i], sum_eq_add_of_mem 0 Nx (mem_range.mpr (by omega)) (mem_range.mpr (by omega)) (by omega) fun i _ hi => by simp [hH, hi.1, hi.2]]
    simp [hH]
  have hc : PdHeld Nx Ny fun i j => H i j - 1 := fun j hj => by simp [hH]
  have hk := hs.weak _ hc
  have e1 : pdForm Nx Ny (Lx / Nx) (Ly / Ny) (pdGrid Ny fun n => s n 0) (fun i j => H i j - 1) = pdForm Nx Ny (Lx / Nx) (Ly / Ny) (pdGrid Ny fun n => s n 0) H := by
    refine sum_congr rfl fun i _ => sum_congr rfl fun j _ => ?_
    unfold pdCell pdDx pdDy
    ring
  rw [e1, pdLoad_sub] at hk
  rw [h1, pdForm_congr (fun _ _ _ _ => rfl) fun i _ j hj => pdNodal_grid H i j hj, pdLoad_congr fun i _ j hj => pdNodal_grid H i j hj] at hw
  have e2 : pdLoad Nx Ny Lx Ly f g g' (fun _ _ => 1) = (∑ i ∈ range Nx, ∑ j ∈ range Ny, ∑ b : Bool, ∑ b' : Bool, f ![(i + gaussPoint b) * (Lx / Nx), (j + gaussPoint b') * (Ly / Ny)] * (Lx / Nx * (Ly / Ny) / 4)) +
      ∑ i ∈ range Nx, ∑ b : Bool, (g ![(i + gaussPoint b) * (Lx / Nx), 0] + g' ![(i + gaussPoint b) * (Lx / Nx), Ly]) * (Lx / Nx / 2) := by
    unfold pdLoad pdSource pdSide
    rw [add_assoc, ← sum_add_distrib]
    congr 1
    · refine sum_congr rfl fun i _ => sum_congr rfl fun j _ => sum_congr rfl fun b _ => sum_congr rfl fun b' _ => ?_
      unfold pdVal
      ring
    · refine sum_congr rfl fun i _ => ?_
      rw [← sum_add_distrib]
      refine sum_congr rfl fun b _ => ?_
      ring
  rw [← e2]
  linarith

end

theorem pd_integral_quadratic (a b c : ℝ) : ∫ t in (0 : ℝ)..1, (a + b * t + c * t ^ 2) = a + b / 2 + c / 3 := by
  rw [intervalIntegral.integral_add (by apply Continuous.intervalIntegrable; fun_prop) (by apply Continuous.intervalIntegrable; fun_prop),
    intervalIntegral.integral_add (by apply Continuous.intervalIntegrable; fun_prop) (by apply Continuous.intervalIntegrable; fun_prop),
    intervalIntegral.integral_const_mul, intervalIntegral.integral_const_mul, integral_id, integral_pow, intervalIntegral.integral_const]
  norm_num
  ring

/-- **C129 (exactness).** The form of the weak statement is the Dirichlet form of the bilinear interpolants, integrated exactly: the cell contribution is the double integral of `∇U·∇V` over the cell,
written in local coordinates. -/
theorem C129_exact (hx hy : ℝ) (hx0 : hx ≠ 0) (hy0 : hy ≠ 0) (U V : ℕ → ℕ → ℝ) (i j : ℕ) :
    ∫ s in (0 : ℝ)..1, ∫ t in (0 : ℝ)..1, (deriv (fun s' => pdVal U i j s' t) s / hx * (deriv (fun s' => pdVal V i j s' t) s / hx) + deriv (fun t' => pdVal U i j s t') t / hy * (deriv (fun t' => pdVal V i j s t') t / hy)) * (hx * hy) =
      pdCell hx hy U V i j := by
  have d1 : ∀ (W : ℕ → ℕ → ℝ) (s t : ℝ), deriv (fun s' => pdVal W i j s' t) s = pdDx W i j + (pdDx W i (j + 1) - pdDx W i j) * t := by
    intro W s t
    have e : (fun s' => pdVal W i j s' t) = fun s' => (pdDx W i j + (pdDx W i (j + 1) - pdDx W i j) * t) * s' + (W i j * (1 - t) + W i (j + 1) * t) := by
      funext s'
      unfold pdVal pdDx
      ring
    rw [e]
    simp
  have d2 : ∀ (W : ℕ → ℕ → ℝ) (s t : ℝ), deriv (fun t' => pdVal W i j s t') t = pdDy W i j + (pdDy W (i + 1) j - pdDy W i j) * s := by
    intro W s t
    have e : (fun t' => pdVal W i j s t') = fun t' => (pdDy W i j + (pdDy W (i + 1) j - pdDy W i j) * s) * t' + (W i j * (1 - s) + W (i + 1) j * s) := by
      funext t'
      unfold pdVal pdDy
      ring
    rw [e]
    simp
  simp only [d1, d2]
  have inner : ∀ s : ℝ, ∫ t in (0 : ℝ)..1, ((pdDx U i j + (pdDx U i (j + 1) - pdDx U i j) * t) / hx * ((pdDx V i j + (pdDx V i (j + 1) - pdDx V i j) * t) / hx) +
      (pdDy U i j + (pdDy U (i + 1) j - pdDy U i j) * s) / hy * ((pdDy V i j + (pdDy V (i + 1) j - pdDy V i j) * s) / hy)) * (hx * hy) =
      ((pdDx U i j * pdDx V i j + (pdDx U i j * (pdDx V i (j + 1) - pdDx V i j) + (pdDx U i (j + 1) - pdDx U i j) * pdDx V i j) / 2 + (pdDx U i (j + 1) - pdDx U i j) * (pdDx V i (j + 1) - pdDx V i j) / 3) * (hy / hx) +
        pdDy U i j * pdDy V i j * (hx / hy)) + (pdDy U i j * (pdDy V (i + 1) j - pdDy V i j) + (pdDy U (i + 1) j - pdDy U i j) * pdDy V i j) * (hx / hy) * s +
        (pdDy U (i + 1) j - pdDy U i j) * (pdDy V (i + 1) j - pdDy V i j) * (hx / hy) * s ^ 2 := by
    intro s
    have e : ∀ t : ℝ, ((pdDx U i j + (pdDx U i (j + 1) - pdDx U i j) * t) / hx * ((pdDx V i j + (pdDx V i (j + 1) - pdDx V i j) * t) / hx) +
      (pdDy U i j + (pdDy U (i + 1) j - pdDy U i j) * s) / hy * ((pdDy V i j + (pdDy V (i + 1) j - pdDy V i j) * s) / hy)) * (hx * hy) =
      (pdDx U i j * pdDx V i j * (hy / hx) + (pdDy U i j + (pdDy U (i + 1) j - pdDy U i j) * s) * (pdDy V i j + (pdDy V (i + 1) j - pdDy V i j) * s) * (hx / hy)) +
        (pdDx U i j * (pdDx V i (j + 1) - pdDx V i j) + (pdDx U i (j + 1) - pdDx U i j) * pdDx V i j) * (hy / hx) * t + (pdDx U i (j + 1) - pdDx U i j) * (pdDx V i (j + 1) - pdDx V i j) * (hy / hx) * t ^ 2 := by
      intro t
      field_simp
      ring
    simp only [e]
    rw [pd_integral_quadratic]
    ring
  simp only [inner]
  rw [pd_integral_quadratic]
  unfold pdCell
  ring

/-- **C129 (demo).** The file's data, 32 x 32 cells on the unit square: the program returns the Galerkin solution; it is symmetric about the horizontal midline and
nowhere below the solution with the same fluxes and no source. -/
theorem C129_demo : ∃ ns cs ws, dirichletBC (33 * 33) (pdFem 32 32 1 1 pdBody pdFlux pdFlux).points (some (pdInfo 1)) = .ok (ns, cs, ws) ∧
    ∀ lin, ((pdFem 32 32 1 1 pdBody pdFlux pdFlux).toProb (groupsOf ns cs ws)).ExactFor true lin → ∀ fuel,
      ∃ u, ((pdFem 32 32 1 1 pdBody pdFlux pdFlux).toProb (groupsOf ns cs ws)).rowSolver realArith lin true true true none fuel = .ok u ∧ PdSolves 32 32 1 1 (fun x => 10 * Real.exp (-((x 0 - 0.5) ^ 2 + (x 1 - 0.5) ^ 2) / 0.02)) (fun x => Real.sin (5 * x 0)) (fun x => Real.sin (5 * x 0)) (pdGrid 32 u) ∧
        (∀ i ≤ 32, ∀ j ≤ 32, pdGrid 32 u i (32 - j) = pdGrid 32 u i j) ∧
        ∀ W, PdSolves 32 32 1 1 (fun _ => 0) (fun x => Real.sin (5 * x 0)) (fun x => Real.sin (5 * x 0)) W → ∀ i ≤ 32, ∀ j ≤ 32, W i j ≤ pdGrid 32 u i j := by
  have hG : PdGrid 32 32 1 1 := ⟨by norm_num, by norm_num, by norm_num, by norm_num, by norm_num, by norm_num⟩
  obtain ⟨ns, cs, ws, hbc, h⟩ := C129_program (f := pdBody) (g := pdFlux) (g' := pdFlux) hG
  refine ⟨ns, cs, ws, hbc, fun lin hl fuel => ?_⟩
  obtain ⟨u, h1, h2, -⟩ := (h true).2 lin hl true none fuel
  refine ⟨u, h1, h2, ?_, fun W hW => ?_⟩
  · refine C129_symmetry hG (fun x y => ?_) (fun x => rfl) h2
    unfold pdBody
    simp only [Matrix.cons_val_zero, Matrix.cons_val_one]
    have e : (1 - y - 0.5) ^ 2 = (y - 0.5) ^ 2 := by norm_num; ring
    rw [e]
  · exact C129_comparison hG (by norm_num) (by norm_num) (fun x => by unfold pdBody; positivity) (fun _ => le_refl _) (fun _ => le_refl _) hW h2

end Verif.Fem
