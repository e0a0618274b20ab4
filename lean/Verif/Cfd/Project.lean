import Verif.Cfd.Am3dProps
import Mathlib.LinearAlgebra.FiniteDimensional.Basic

/-!
# C145: what the pressure correction of the melt pool solver achieves

`velocity_eqn.update` (jax_am/cfd/cfd_am.py 556-590) predicts a velocity, solves a pressure problem with the compact two-point differences of the diffusion solver and
corrects the cell velocities with the central differences of `gradient` (cfd_am.py 82-92). `update_convective_terms` (cfd_am.py 254-259) interpolates the
corrected cell velocities to the faces again. The specification below only speaks of differences and averages along grid lines.
-/
namespace Verif.Cfd.Project
open Verif Verif.Cfd Finset

/-! ## Specification: lines of cells -/

/-- Difference quotient across face `i` of a line of `n` cells (face `i` lies between cells `i - 1` and `i`); no difference across the walls. -/
noncomputable def slope (n : ℕ) (d : ℝ) (p : ℕ → ℝ) (i : ℕ) : ℝ := if 0 < i ∧ i < n then (p i - p (i - 1)) / d else 0

/-- Mean of the two cells next to a face; zero on the walls. -/
noncomputable def mean (n : ℕ) (u : ℕ → ℝ) (i : ℕ) : ℝ := if 0 < i ∧ i < n then (u i + u (i - 1)) / 2 else 0

/-- A quarter of the third difference across a face, the end cells being repeated beyond the walls; zero on the walls. -/
noncomputable def third (n : ℕ) (d : ℝ) (p : ℕ → ℝ) (i : ℕ) : ℝ :=
  if 0 < i ∧ i < n then (p (min (i + 1) (n - 1)) - 3 * p i + 3 * p (i - 1) - p (i - 2)) / (4 * d) else 0

/-- A quantity on the faces of the three directions. -/
abbrev Faces := Fin 3 → ℕ → ℕ → ℕ → ℝ

/-- A rule for lines applied in the three directions of a scalar grid. -/
noncomputable def onLines (φ : ℕ → ℝ → (ℕ → ℝ) → ℕ → ℝ) (n : Fin 3 → ℕ) (d : Fin 3 → ℝ) (P : ℕ → ℕ → ℕ → ℝ) : Faces :=
  ![fun i j k => φ (n 0) (d 0) (fun t => P t j k) i, fun i j k => φ (n 1) (d 1) (fun t => P i t k) j, fun i j k => φ (n 2) (d 2) (fun t => P i j t) k]

/-- Face velocities of a cell velocity: mean of the normal components, none through the walls. -/
noncomputable def faceMeans (n : Fin 3 → ℕ) (V : ℕ → ℕ → ℕ → Fin 3 → ℝ) : Faces :=
  ![fun i j k => mean (n 0) (fun t => V t j k 0) i, fun i j k => mean (n 1) (fun t => V i t k 1) j, fun i j k => mean (n 2) (fun t => V i j t 2) k]

/-- Net outflow of a cell per volume. -/
noncomputable def outflow (d : Fin 3 → ℝ) (F : Faces) (i j k : ℕ) : ℝ :=
  (F 0 (i + 1) j k - F 0 i j k) / d 0 + (F 1 i (j + 1) k - F 1 i j k) / d 1 + (F 2 i j (k + 1) - F 2 i j k) / d 2

/-- Mean of the two faces of a cell in each direction. -/
noncomputable def cellMeans (F : Faces) (i j k : ℕ) : Fin 3 → ℝ :=
  ![(F 0 i j k + F 0 (i + 1) j k) / 2, (F 1 i j k + F 1 i (j + 1) k) / 2, (F 2 i j k + F 2 i j (k + 1)) / 2]

/-- Sum of the squared velocities of all cells (twice the kinetic energy per mass of a cell). -/
noncomputable def cellEnergy (n : Fin 3 → ℕ) (V : ℕ → ℕ → ℕ → Fin 3 → ℝ) : ℝ :=
  ∑ i ∈ range (n 0), ∑ j ∈ range (n 1), ∑ k ∈ range (n 2), (V i j k 0 ^ 2 + V i j k 1 ^ 2 + V i j k 2 ^ 2)

/-- Sum of the squared values on all faces. -/
noncomputable def faceEnergy (n : Fin 3 → ℕ) (F : Faces) : ℝ :=
  (∑ i ∈ range (n 0 + 1), ∑ j ∈ range (n 1), ∑ k ∈ range (n 2), F 0 i j k ^ 2)
    + (∑ i ∈ range (n 0), ∑ j ∈ range (n 1 + 1), ∑ k ∈ range (n 2), F 1 i j k ^ 2)
    + ∑ i ∈ range (n 0), ∑ j ∈ range (n 1), ∑ k ∈ range (n 2 + 1), F 2 i j k ^ 2

/-! ## Lines -/

theorem slope_zero (n : ℕ) (d : ℝ) (p : ℕ → ℝ) : slope n d p 0 = 0 := by simp [slope]
theorem slope_end (n : ℕ) (d : ℝ) (p : ℕ → ℝ) : slope n d p n = 0 := by simp [slope]
theorem mean_zero (n : ℕ) (u : ℕ → ℝ) : mean n u 0 = 0 := by simp [mean]
theorem mean_end (n : ℕ) (u : ℕ → ℝ) : mean n u n = 0 := by simp [mean]

/-- Averaging to cells is the transpose of averaging to faces. -/
theorem line_transpose (n : ℕ) (u s : ℕ → ℝ) (h0 : s 0 = 0) (hn : s n = 0) :
    ∑ i ∈ range n, u i * ((s i + s (i + 1)) / 2) = ∑ i ∈ range (n + 1), mean n u i * s i := by
  have e1 : ∑ i ∈ range n, u i * s i = ∑ i ∈ range (n + 1), u i * s i := by rw [sum_range_succ, hn]; ring
  have e2 : ∑ i ∈ range n, u i * s (i + 1) = ∑ i ∈ range (n + 1), u (i - 1) * s i := by
    rw [sum_range_succ']; simp [h0]
  have e3 : ∀ i ∈ range (n + 1), mean n u i * s i = (u i * s i + u (i - 1) * s i) / 2 := by
    intro i hi
    unfold mean
    by_cases h : 0 < i ∧ i < n
    · rw [if_pos h]; ring
    · rw [if_neg h]
      have : s i = 0 := by
        rw [mem_range] at hi
        rcases Nat.eq_zero_or_pos i with h1 | h1
        · rw [h1, h0]
        · have : i = n := by omega
          rw [this, hn]
      rw [this]; ring
  rw [sum_congr rfl e3, ← sum_div, sum_add_distrib, ← e1, ← e2, ← sum_add_distrib, sum_div]
  exact sum_congr rfl fun i _ => by ring

/-- The mean over a cell's two faces does not increase the sum of squares. -/
theorem line_contract (n : ℕ) (s : ℕ → ℝ) : ∑ i ∈ range n, ((s i + s (i + 1)) / 2) ^ 2 ≤ ∑ i ∈ range (n + 1), s i ^ 2 := by
  have e1 : ∑ i ∈ range n, s i ^ 2 ≤ ∑ i ∈ range (n + 1), s i ^ 2 := by
    rw [sum_range_succ]; nlinarith [sq_nonneg (s n)]
  have e2 : ∑ i ∈ range n, s (i + 1) ^ 2 ≤ ∑ i ∈ range (n + 1), s i ^ 2 := by
    rw [sum_range_succ']; nlinarith [sq_nonneg (s 0)]
  have e3 : ∑ i ∈ range n, ((s i + s (i + 1)) / 2) ^ 2 ≤ ∑ i ∈ range n, (s i ^ 2 + s (i + 1) ^ 2) / 2 :=
    sum_le_sum fun i _ => by nlinarith [sq_nonneg (s i - s (i + 1))]
  rw [← sum_div, sum_add_distrib] at e3
  linarith

/-- Summation by parts on a line. -/
theorem line_parts (n : ℕ) (d : ℝ) (p F : ℕ → ℝ) (h0 : F 0 = 0) (hn : F n = 0) :
    ∑ i ∈ range n, p i * ((F (i + 1) - F i) / d) = - ∑ i ∈ range (n + 1), F i * slope n d p i := by
  have e1 : ∑ i ∈ range n, p i * (F i / d) = ∑ i ∈ range (n + 1), p i * (F i / d) := by rw [sum_range_succ, hn]; ring
  have e2 : ∑ i ∈ range n, p i * (F (i + 1) / d) = ∑ i ∈ range (n + 1), p (i - 1) * (F i / d) := by
    rw [sum_range_succ']; simp [h0]
  have e3 : ∀ i ∈ range (n + 1), F i * slope n d p i = p i * (F i / d) - p (i - 1) * (F i / d) := by
    intro i hi
    unfold slope
    by_cases h : 0 < i ∧ i < n
    · rw [if_pos h]; ring
    · rw [if_neg h]
      have : F i = 0 := by
        rw [mem_range] at hi
        rcases Nat.eq_zero_or_pos i with h1 | h1
        · rw [h1, h0]
        · have : i = n := by omega
          rw [this, hn]
      rw [this]; ring
  rw [sum_congr rfl e3, sum_sub_distrib, ← e1, ← e2, ← sum_sub_distrib, ← sum_neg_distrib]
  exact sum_congr rfl fun i _ => by ring

/-- Averaging the slopes to the cells and back to the faces adds a quarter of the third difference. -/
theorem mean_slope (n : ℕ) (d : ℝ) (hd : d ≠ 0) (p : ℕ → ℝ) (i : ℕ) :
    mean n (fun t => (slope n d p t + slope n d p (t + 1)) / 2) i = slope n d p i + third n d p i := by
  unfold mean third
  by_cases h : 0 < i ∧ i < n
  · simp only [if_pos h]
    obtain ⟨m, rfl⟩ : ∃ m, i = m + 1 := ⟨i - 1, by omega⟩
    simp only [Nat.add_sub_cancel]
    have a1 : slope n d p (m + 1) = (p (m + 1) - p m) / d := by unfold slope; rw [if_pos h]; rfl
    have a2 : slope n d p (m + 1 + 1) = (p (min (m + 1 + 1) (n - 1)) - p (m + 1)) / d := by
      unfold slope
      by_cases h2 : m + 2 < n
      · rw [if_pos ⟨by omega, h2⟩, min_eq_left (by omega)]; rfl
      · rw [if_neg (by omega)]
        have : n - 1 = m + 1 := by omega
        rw [this, min_eq_right (by omega)]; simp
    have a3 : slope n d p m = (p m - p (m + 1 - 2)) / d := by
      unfold slope
      rcases Nat.eq_zero_or_pos m with h2 | h2
      · subst h2; simp
      · rw [if_pos ⟨h2, by omega⟩]
        have : m + 1 - 2 = m - 1 := by omega
        rw [this]
    rw [a1, a2, a3]
    field_simp
    ring
  · simp only [if_neg h]
    unfold slope; rw [if_neg h]; ring

/-! ## Boxes -/

/-- Sum over the cells of a box. -/
noncomputable def cells (n : Fin 3 → ℕ) (f : ℕ → ℕ → ℕ → ℝ) : ℝ := ∑ i ∈ range (n 0), ∑ j ∈ range (n 1), ∑ k ∈ range (n 2), f i j k

/-- Sum of the products of two quantities over all faces. -/
noncomputable def faceDot (n : Fin 3 → ℕ) (F G : Faces) : ℝ :=
  (∑ i ∈ range (n 0 + 1), ∑ j ∈ range (n 1), ∑ k ∈ range (n 2), F 0 i j k * G 0 i j k)
    + (∑ i ∈ range (n 0), ∑ j ∈ range (n 1 + 1), ∑ k ∈ range (n 2), F 1 i j k * G 1 i j k)
    + ∑ i ∈ range (n 0), ∑ j ∈ range (n 1), ∑ k ∈ range (n 2 + 1), F 2 i j k * G 2 i j k

/-- Nothing passes the walls. -/
def Closed (n : Fin 3 → ℕ) (F : Faces) : Prop :=
  (∀ j k, F 0 0 j k = 0 ∧ F 0 (n 0) j k = 0) ∧ (∀ i k, F 1 i 0 k = 0 ∧ F 1 i (n 1) k = 0) ∧ ∀ i j, F 2 i j 0 = 0 ∧ F 2 i j (n 2) = 0

theorem faceDot_self (n : Fin 3 → ℕ) (F : Faces) : faceDot n F F = faceEnergy n F := by
  unfold faceDot faceEnergy
  simp only [sq]

theorem swap0 (a b c : ℕ) (f : ℕ → ℕ → ℕ → ℝ) :
    ∑ i ∈ range a, ∑ j ∈ range b, ∑ k ∈ range c, f i j k = ∑ j ∈ range b, ∑ k ∈ range c, ∑ i ∈ range a, f i j k := by
  rw [sum_comm]
  exact sum_congr rfl fun j _ => sum_comm

theorem swap1 (a b c : ℕ) (f : ℕ → ℕ → ℕ → ℝ) :
    ∑ i ∈ range a, ∑ j ∈ range b, ∑ k ∈ range c, f i j k = ∑ i ∈ range a, ∑ k ∈ range c, ∑ j ∈ range b, f i j k :=
  sum_congr rfl fun i _ => sum_comm

theorem closed_slopes (n : Fin 3 → ℕ) (d : Fin 3 → ℝ) (P : ℕ → ℕ → ℕ → ℝ) : Closed n (onLines slope n d P) :=
  ⟨fun j k => ⟨slope_zero (n 0) (d 0) fun t => P t j k, slope_end (n 0) (d 0) fun t => P t j k⟩, fun i k => ⟨slope_zero (n 1) (d 1) fun t => P i t k, slope_end (n 1) (d 1) fun t => P i t k⟩,
    fun i j => ⟨slope_zero (n 2) (d 2) fun t => P i j t, slope_end (n 2) (d 2) fun t => P i j t⟩⟩

theorem closed_means (n : Fin 3 → ℕ) (V : ℕ → ℕ → ℕ → Fin 3 → ℝ) : Closed n (faceMeans n V) :=
  ⟨fun j k => ⟨mean_zero (n 0) fun t => V t j k 0, mean_end (n 0) fun t => V t j k 0⟩, fun i k => ⟨mean_zero (n 1) fun t => V i t k 1, mean_end (n 1) fun t => V i t k 1⟩,
    fun i j => ⟨mean_zero (n 2) fun t => V i j t 2, mean_end (n 2) fun t => V i j t 2⟩⟩

theorem box_transpose (n : Fin 3 → ℕ) (V : ℕ → ℕ → ℕ → Fin 3 → ℝ) (F : Faces) (hF : Closed n F) :
    cells n (fun i j k => V i j k 0 * cellMeans F i j k 0 + V i j k 1 * cellMeans F i j k 1 + V i j k 2 * cellMeans F i j k 2) = faceDot n (faceMeans n V) F := by
  have h0 : ∑ i ∈ range (n 0), ∑ j ∈ range (n 1), ∑ k ∈ range (n 2), V i j k 0 * cellMeans F i j k 0
      = ∑ i ∈ range (n 0 + 1), ∑ j ∈ range (n 1), ∑ k ∈ range (n 2), faceMeans n V 0 i j k * F 0 i j k := by
    rw [swap0 (n 0) (n 1) (n 2), swap0 (n 0 + 1) (n 1) (n 2)]
    exact sum_congr rfl fun j _ => sum_congr rfl fun k _ => line_transpose (n 0) (fun t => V t j k 0) (fun t => F 0 t j k) (hF.1 j k).1 (hF.1 j k).2
  have h1 : ∑ i ∈ range (n 0), ∑ j ∈ range (n 1), ∑ k ∈ range (n 2), V i j k 1 * cellMeans F i j k 1
      = ∑ i ∈ range (n 0), ∑ j ∈ range (n 1 + 1), ∑ k ∈ range (n 2), faceMeans n V 1 i j k * F 1 i j k := by
    rw [swap1 (n 0) (n 1) (n 2), swap1 (n 0) (n 1 + 1) (n 2)]
    exact sum_congr rfl fun i _ => sum_congr rfl fun k _ => line_transpose (n 1) (fun t => V i t k 1) (fun t => F 1 i t k) (hF.2.1 i k).1 (hF.2.1 i k).2
  have h2 : ∑ i ∈ range (n 0), ∑ j ∈ range (n 1), ∑ k ∈ range (n 2), V i j k 2 * cellMeans F i j k 2
      = ∑ i ∈ range (n 0), ∑ j ∈ range (n 1), ∑ k ∈ range (n 2 + 1), faceMeans n V 2 i j k * F 2 i j k :=
    sum_congr rfl fun i _ => sum_congr rfl fun j _ => line_transpose (n 2) (fun t => V i j t 2) (fun t => F 2 i j t) (hF.2.2 i j).1 (hF.2.2 i j).2
  unfold cells faceDot
  rw [← h0, ← h1, ← h2]
  simp only [← sum_add_distrib]

theorem box_parts (n : Fin 3 → ℕ) (d : Fin 3 → ℝ) (P : ℕ → ℕ → ℕ → ℝ) (F : Faces) (hF : Closed n F) :
    cells n (fun i j k => P i j k * outflow d F i j k) = -faceDot n F (onLines slope n d P) := by
  have h0 : ∑ i ∈ range (n 0), ∑ j ∈ range (n 1), ∑ k ∈ range (n 2), P i j k * ((F 0 (i + 1) j k - F 0 i j k) / d 0)
      = -∑ i ∈ range (n 0 + 1), ∑ j ∈ range (n 1), ∑ k ∈ range (n 2), F 0 i j k * onLines slope n d P 0 i j k := by
    rw [swap0 (n 0) (n 1) (n 2), swap0 (n 0 + 1) (n 1) (n 2), ← sum_neg_distrib]
    refine sum_congr rfl fun j _ => ?_
    rw [← sum_neg_distrib]
    exact sum_congr rfl fun k _ => line_parts (n 0) (d 0) (fun t => P t j k) (fun t => F 0 t j k) (hF.1 j k).1 (hF.1 j k).2
  have h1 : ∑ i ∈ range (n 0), ∑ j ∈ range (n 1), ∑ k ∈ range (n 2), P i j k * ((F 1 i (j + 1) k - F 1 i j k) / d 1)
      = -∑ i ∈ range (n 0), ∑ j ∈ range (n 1 + 1), ∑ k ∈ range (n 2), F 1 i j k * onLines slope n d P 1 i j k := by
    rw [swap1 (n 0) (n 1) (n 2), swap1 (n 0) (n 1 + 1) (n 2), ← sum_neg_distrib]
    refine sum_congr rfl fun i _ => ?_
    rw [← sum_neg_distrib]
    exact sum_congr rfl fun k _ => line_parts (n 1) (d 1) (fun t => P i t k) (fun t => F 1 i t k) (hF.2.1 i k).1 (hF.2.1 i k).2
  have h2 : ∑ i ∈ range (n 0), ∑ j ∈ range (n 1), ∑ k ∈ range (n 2), P i j k * ((F 2 i j (k + 1) - F 2 i j k) / d 2)
      = -∑ i ∈ range (n 0), ∑ j ∈ range (n 1), ∑ k ∈ range (n 2 + 1), F 2 i j k * onLines slope n d P 2 i j k := by
    rw [← sum_neg_distrib]
    refine sum_congr rfl fun i _ => ?_
    rw [← sum_neg_distrib]
    exact sum_congr rfl fun j _ => line_parts (n 2) (d 2) (fun t => P i j t) (fun t => F 2 i j t) (hF.2.2 i j).1 (hF.2.2 i j).2
  have e : cells n (fun i j k => P i j k * outflow d F i j k)
      = (∑ i ∈ range (n 0), ∑ j ∈ range (n 1), ∑ k ∈ range (n 2), P i j k * ((F 0 (i + 1) j k - F 0 i j k) / d 0))
        + (∑ i ∈ range (n 0), ∑ j ∈ range (n 1), ∑ k ∈ range (n 2), P i j k * ((F 1 i (j + 1) k - F 1 i j k) / d 1))
        + ∑ i ∈ range (n 0), ∑ j ∈ range (n 1), ∑ k ∈ range (n 2), P i j k * ((F 2 i j (k + 1) - F 2 i j k) / d 2) := by
    unfold cells outflow
    simp only [← sum_add_distrib]
    exact sum_congr rfl fun i _ => sum_congr rfl fun j _ => sum_congr rfl fun k _ => by ring
  rw [e, h0, h1, h2]
  unfold faceDot
  ring

theorem box_contract (n : Fin 3 → ℕ) (F : Faces) : cellEnergy n (cellMeans F) ≤ faceEnergy n F := by
  have h0 : ∑ i ∈ range (n 0), ∑ j ∈ range (n 1), ∑ k ∈ range (n 2), cellMeans F i j k 0 ^ 2
      ≤ ∑ i ∈ range (n 0 + 1), ∑ j ∈ range (n 1), ∑ k ∈ range (n 2), F 0 i j k ^ 2 := by
    rw [swap0 (n 0) (n 1) (n 2), swap0 (n 0 + 1) (n 1) (n 2)]
    exact sum_le_sum fun j _ => sum_le_sum fun k _ => line_contract (n 0) (fun t => F 0 t j k)
  have h1 : ∑ i ∈ range (n 0), ∑ j ∈ range (n 1), ∑ k ∈ range (n 2), cellMeans F i j k 1 ^ 2
      ≤ ∑ i ∈ range (n 0), ∑ j ∈ range (n 1 + 1), ∑ k ∈ range (n 2), F 1 i j k ^ 2 := by
    rw [swap1 (n 0) (n 1) (n 2), swap1 (n 0) (n 1 + 1) (n 2)]
    exact sum_le_sum fun i _ => sum_le_sum fun k _ => line_contract (n 1) (fun t => F 1 i t k)
  have h2 : ∑ i ∈ range (n 0), ∑ j ∈ range (n 1), ∑ k ∈ range (n 2), cellMeans F i j k 2 ^ 2
      ≤ ∑ i ∈ range (n 0), ∑ j ∈ range (n 1), ∑ k ∈ range (n 2 + 1), F 2 i j k ^ 2 :=
    sum_le_sum fun i _ => sum_le_sum fun j _ => line_contract (n 2) (fun t => F 2 i j t)
  have e : cellEnergy n (cellMeans F) = (∑ i ∈ range (n 0), ∑ j ∈ range (n 1), ∑ k ∈ range (n 2), cellMeans F i j k 0 ^ 2)
      + (∑ i ∈ range (n 0), ∑ j ∈ range (n 1), ∑ k ∈ range (n 2), cellMeans F i j k 1 ^ 2)
      + ∑ i ∈ range (n 0), ∑ j ∈ range (n 1), ∑ k ∈ range (n 2), cellMeans F i j k 2 ^ 2 := by
    unfold cellEnergy
    simp only [← sum_add_distrib]
  rw [e]
  unfold faceEnergy
  linarith

/-- Energy of the corrected velocity. -/
theorem energy_expand (n : Fin 3 → ℕ) (V W : ℕ → ℕ → ℕ → Fin 3 → ℝ) (c : ℝ) :
    cellEnergy n (fun i j k a => V i j k a - c * W i j k a)
      = cellEnergy n V - 2 * c * cells n (fun i j k => V i j k 0 * W i j k 0 + V i j k 1 * W i j k 1 + V i j k 2 * W i j k 2) + c ^ 2 * cellEnergy n W := by
  unfold cellEnergy cells
  simp only [mul_sum, ← sum_sub_distrib, ← sum_add_distrib]
  exact sum_congr rfl fun i _ => sum_congr rfl fun j _ => sum_congr rfl fun k _ => by ring

/-- The algebra of the correction: with a pressure solving the compact equation, the energy drops by at least the energy of the pressure slopes. -/
theorem correct_energy (n : Fin 3 → ℕ) (d : Fin 3 → ℝ) (V : ℕ → ℕ → ℕ → Fin 3 → ℝ) (P : ℕ → ℕ → ℕ → ℝ) (c : ℝ)
    (hP : ∀ i < n 0, ∀ j < n 1, ∀ k < n 2, outflow d (faceMeans n V) i j k = c * outflow d (onLines slope n d P) i j k) :
    cellEnergy n (fun i j k a => V i j k a - c * cellMeans (onLines slope n d P) i j k a) + c ^ 2 * faceEnergy n (onLines slope n d P) ≤ cellEnergy n V := by
  have hc := closed_slopes n d P
  have e1 : faceDot n (faceMeans n V) (onLines slope n d P) = c * faceEnergy n (onLines slope n d P) := by
    have h1 := box_parts n d P (faceMeans n V) (closed_means n V)
    have h2 := box_parts n d P (onLines slope n d P) hc
    rw [faceDot_self] at h2
    have h3 : cells n (fun i j k => P i j k * outflow d (faceMeans n V) i j k) = c * cells n (fun i j k => P i j k * outflow d (onLines slope n d P) i j k) := by
      unfold cells
      simp only [mul_sum]
      refine sum_congr rfl fun i hi => sum_congr rfl fun j hj => sum_congr rfl fun k hk => ?_
      rw [hP i (mem_range.mp hi) j (mem_range.mp hj) k (mem_range.mp hk)]; ring
    rw [h1, h2] at h3
    linarith
  rw [energy_expand, box_transpose n V _ hc, e1]
  have := box_contract n (onLines slope n d P)
  nlinarith [sq_nonneg c]

/-- The face velocities of the corrected cell velocity. -/
theorem correct_faces (n : Fin 3 → ℕ) (d : Fin 3 → ℝ) (hd : ∀ a, d a ≠ 0) (V : ℕ → ℕ → ℕ → Fin 3 → ℝ) (P : ℕ → ℕ → ℕ → ℝ) (c : ℝ) (a : Fin 3) (i j k : ℕ) :
    faceMeans n (fun i j k a => V i j k a - c * cellMeans (onLines slope n d P) i j k a) a i j k
      = faceMeans n V a i j k - c * (onLines slope n d P a i j k + onLines third n d P a i j k) := by
  have key : ∀ (m : ℕ) (e : ℝ) (he : e ≠ 0) (u p : ℕ → ℝ) (t : ℕ), mean m (fun t => u t - c * ((slope m e p t + slope m e p (t + 1)) / 2)) t
      = mean m u t - c * (slope m e p t + third m e p t) := by
    intro m e he u p t
    rw [← mean_slope m e he p t]
    unfold mean
    by_cases h : 0 < t ∧ t < m
    · simp only [if_pos h]; ring
    · simp only [if_neg h]; ring
  fin_cases a
  · exact key (n 0) (d 0) (hd 0) (fun t => V t j k 0) (fun t => P t j k) i
  · exact key (n 1) (d 1) (hd 1) (fun t => V i t k 1) (fun t => P i t k) j
  · exact key (n 2) (d 2) (hd 2) (fun t => V i j t 2) (fun t => P i j t) k

theorem outflow_sub (d : Fin 3 → ℝ) (F G : Faces) (c : ℝ) (i j k : ℕ) :
    outflow d (fun a i j k => F a i j k - c * G a i j k) i j k = outflow d F i j k - c * outflow d G i j k := by
  unfold outflow; ring

theorem outflow_add (d : Fin 3 → ℝ) (F G : Faces) (i j k : ℕ) :
    outflow d (fun a i j k => F a i j k + G a i j k) i j k = outflow d F i j k + outflow d G i j k := by
  unfold outflow; ring

/-! ## The operators of the code -/

/-- `get_face_vels` with the conditions of the melt pool gives the means on the faces. -/
theorem faceVels_means (a : AmArgs) (T : Arr3 (Fin 1 → ℝ)) (vel : Arr3 (Fin 3 → ℝ)) (n : Fin 3 → ℕ) (hn : ∀ d, 0 < n d)
    (h0 : vel.n0 = n 0) (h1 : vel.n1 = n 1) (h2 : vel.n2 = n 2) (dX : Fin 3 → ℝ) (vf : Fin 3 → Arr3 ℝ) (h : faceVels vel dX (some (velBCs a T)) = some vf) :
    (∀ i ≤ n 0, ∀ j < n 1, ∀ k < n 2, (vf 0).get i j k = faceMeans n vel.get 0 i j k) ∧
    (∀ i < n 0, ∀ j ≤ n 1, ∀ k < n 2, (vf 1).get i j k = faceMeans n vel.get 1 i j k) ∧
    (∀ i < n 0, ∀ j < n 1, ∀ k ≤ n 2, (vf 2).get i j k = faceMeans n vel.get 2 i j k) := by
  obtain ⟨vf', hvf', w0, w1, w2⟩ := C53_faceVels_noflow vel dX (velBCs a T) (by rw [h0]; exact hn 0) (by rw [h1]; exact hn 1) (by rw [h2]; exact hn 2)
    (fun s => rfl) (fun s x y hs => by unfold velBCs; simp [hs]; rfl) (fun x y => by simp [velBCs, marangoniEffect])
  rw [h] at hvf'
  injection hvf' with hvf'
  subst hvf'
  rw [h0, h1, h2] at w0 w1 w2
  unfold faceVels at h
  obtain ⟨gc, -, h⟩ := Option.map_eq_some_iff.mp h
  refine ⟨fun i hi j hj k hk => ?_, fun i hi j hj k hk => ?_, fun i hi j hj k hk => ?_⟩
  · show _ = mean (n 0) (fun t => vel.get t j k 0) i
    unfold mean
    by_cases hc : 0 < i ∧ i < n 0
    · rw [if_pos hc, ← h]
      have e1 : i + 1 ≤ vel.n0 := by omega
      have e2 : i ≤ vel.n0 := by omega
      have e3 : i ≠ 0 := by omega
      have e4 : i < vel.n0 := by omega
      simp [pad0, e1, e2, e3, e4]
    · rw [if_neg hc]
      rcases Nat.eq_zero_or_pos i with h3 | h3
      · rw [h3]; exact (w0 j hj k hk).1
      · have : i = n 0 := by omega
        rw [this]; exact (w0 j hj k hk).2
  · show _ = mean (n 1) (fun t => vel.get i t k 1) j
    unfold mean
    by_cases hc : 0 < j ∧ j < n 1
    · rw [if_pos hc, ← h]
      have e1 : j + 1 ≤ vel.n1 := by omega
      have e2 : j ≤ vel.n1 := by omega
      have e3 : j ≠ 0 := by omega
      have e4 : j < vel.n1 := by omega
      simp [pad1, e1, e2, e3, e4]
    · rw [if_neg hc]
      rcases Nat.eq_zero_or_pos j with h3 | h3
      · rw [h3]; exact (w1 i hi k hk).1
      · have : j = n 1 := by omega
        rw [this]; exact (w1 i hi k hk).2
  · show _ = mean (n 2) (fun t => vel.get i j t 2) k
    unfold mean
    by_cases hc : 0 < k ∧ k < n 2
    · rw [if_pos hc, ← h]
      have e1 : k + 1 ≤ vel.n2 := by omega
      have e2 : k ≤ vel.n2 := by omega
      have e3 : k ≠ 0 := by omega
      have e4 : k < vel.n2 := by omega
      simp [pad2', e1, e2, e3, e4]
    · rw [if_neg hc]
      rcases Nat.eq_zero_or_pos k with h3 | h3
      · rw [h3]; exact (w2 i hi j hj).1
      · have : k = n 2 := by omega
        rw [this]; exact (w2 i hi j hj).2

/-- `gradient` is the mean of the two slopes of a cell. -/
theorem gradient_means (n : Fin 3 → ℕ) (d : Fin 3 → ℝ) (P : ℕ → ℕ → ℕ → ℝ) (g : Arr3 (Fin 3 → ℝ))
    (h : gradient (⟨n 0, n 1, n 2, fun i j k _ => P i j k⟩ : Arr3 (Fin 1 → ℝ)) d none = some g) :
    ∀ i < n 0, ∀ j < n 1, ∀ k < n 2, ∀ a, g.get i j k a = cellMeans (onLines slope n d P) i j k a := by
  intro i hi j hj k hk a
  obtain ⟨gc, hgc, hv⟩ := defaultGC (⟨n 0, n 1, n 2, fun i j k _ => P i j k⟩ : Arr3 (Fin 1 → ℝ)) d
  unfold gradient at h
  rw [hgc] at h
  injection h with h
  subst h
  have key : ∀ (m : ℕ) (e : ℝ) (p : ℕ → ℝ) (t : ℕ) (_ : t < m) (lo hi' : ℝ) (_ : lo = p 0) (_ : hi' = p (m - 1)),
      ((if t + 1 < m then p (t + 1) else hi') - p t + (p t - (if t = 0 then lo else p (t - 1)))) / e / 2 = (slope m e p t + slope m e p (t + 1)) / 2 := by
    intro m e p t ht lo hi' hlo hhi
    have s1 : slope m e p t = (p t - (if t = 0 then lo else p (t - 1))) / e := by
      unfold slope
      rcases Nat.eq_zero_or_pos t with h | h
      · subst h; simp [hlo]
      · rw [if_pos ⟨h, ht⟩, if_neg h.ne']
    have s2 : slope m e p (t + 1) = ((if t + 1 < m then p (t + 1) else hi') - p t) / e := by
      unfold slope
      by_cases h : t + 1 < m
      · rw [if_pos ⟨by omega, h⟩, if_pos h]; rfl
      · rw [if_neg (by omega), if_neg h, hhi, show m - 1 = t by omega]; simp
    rw [s1, s2]; ring
  fin_cases a
  · exact key (n 0) (d 0) (fun t => P t j k) i hi _ _ (by rw [hv]; rfl) (by rw [hv]; rfl)
  · exact key (n 1) (d 1) (fun t => P i t k) j hj _ _ (by rw [hv]; rfl) (by rw [hv]; rfl)
  · exact key (n 2) (d 2) (fun t => P i j t) k hk _ _ (by rw [hv]; rfl) (by rw [hv]; rfl)

/-- A pressure without residual solves the compact equation. -/
theorem pressure_outflow (b : Box) (hn : ∀ d, 0 < b.n d) (hL : ∀ d, 0 < b.L d) (divv : ℕ → ℝ) (p : Poisson 6) (hp : presPoisson b.mesh divv = .ok p)
    (x R : ℕ → ℝ) (hR : p.computeResidual x = .ok R) (h0 : ∀ n < b.mesh.N, R n = 0) :
    ∀ i < b.n 0, ∀ j < b.n 1, ∀ k < b.n 2,
      outflow b.dX (onLines slope b.n b.dX (unflat b x).get) i j k = divv ((i * b.n 1 + j) * b.n 2 + k) := by
  intro i hi j hj k hk
  have hd : ∀ a, b.dX a ≠ 0 := fun a => (div_pos (hL a) (by exact_mod_cast hn a)).ne'
  obtain ⟨p', hp', hmsh, hbt, hlin⟩ := presPoisson_linear b.mesh divv
  rw [hp] at hp'
  injection hp' with hp'
  subst hp'
  have hR2 := residual_none p hbt x
  rw [hR] at hR2
  injection hR2 with hR2
  set q := (i * b.n 1 + j) * b.n 2 + k with hq
  have hqN : q < b.mesh.N := by
    have h1 : i * b.n 1 + j < b.n 0 * b.n 1 := by
      calc i * b.n 1 + j < i * b.n 1 + b.n 1 := by omega
        _ = (i + 1) * b.n 1 := by ring
        _ ≤ b.n 0 * b.n 1 := Nat.mul_le_mul_right _ hi
    show q < b.n 0 * b.n 1 * b.n 2
    calc q < (i * b.n 1 + j) * b.n 2 + b.n 2 := by omega
      _ = (i * b.n 1 + j + 1) * b.n 2 := by ring
      _ ≤ b.n 0 * b.n 1 * b.n 2 := Nat.mul_le_mul_right _ h1
  have hrow := h0 q hqN
  rw [hR2] at hrow
  simp only [hlin.src_eq] at hrow
  have hconn : ∀ c, p.msh.conn q c = (cellConn3 (b.n 0) (b.n 1) (b.n 2)).get q c := by intro c; rw [hmsh]; rfl
  have hD : p.msh.D = D3 b.dX := by
    rw [hmsh]; show D3 (dX3 ![b.n 0, b.n 1, b.n 2] ![b.L 0, b.L 1, b.L 2]) = _
    congr 1; funext a; fin_cases a <;> rfl
  have hS : p.msh.dS = dS3 b.dX := by
    rw [hmsh]; show dS3 (dX3 ![b.n 0, b.n 1, b.n 2] ![b.L 0, b.L 1, b.L 2]) = _
    congr 1; funext a; fin_cases a <;> rfl
  have hV : p.msh.dV = dV3 b.dX := by
    rw [hmsh]; show dV3 (dX3 ![b.n 0, b.n 1, b.n 2] ![b.L 0, b.L 1, b.L 2]) = _
    congr 1; funext a; fin_cases a <;> rfl
  have hmu : ∀ u v, p.faceMu u v = 1 := by intro u v; simp [Poisson.faceMu, hlin.flag, hlin.mu_eq]
  unfold Poisson.laplaceKernel at hrow
  simp only [hD, hS, hV, hmu] at hrow
  have hc := fun c => (hconn c).trans (congrFun (conn3_get (b.n 0) (b.n 1) (b.n 2) hi hj hk) c)
  have e0 := hd 0
  have e1 := hd 1
  have e2 := hd 2
  have up : ∀ (m : ℕ) (e : ℝ) (pp : ℕ → ℝ) (t : ℕ), t < m → slope m e pp (t + 1) = (pp (if t + 1 < m then t + 1 else t) - pp t) / e := by
    intro m e pp t ht
    unfold slope
    by_cases h : t + 1 < m
    · rw [if_pos ⟨by omega, h⟩, if_pos h]; rfl
    · rw [if_neg (by omega), if_neg h]; simp
  have down : ∀ (m : ℕ) (e : ℝ) (pp : ℕ → ℝ) (t : ℕ), t < m → slope m e pp t = (pp t - pp (if t = 0 then 0 else t - 1)) / e := by
    intro m e pp t ht
    unfold slope
    rcases Nat.eq_zero_or_pos t with h | h
    · subst h; simp
    · rw [if_pos ⟨h, ht⟩, if_neg h.ne']
  have E : outflow b.dX (onLines slope b.n b.dX (unflat b x).get) i j k =
      ((x (((if i + 1 < b.n 0 then i + 1 else i) * b.n 1 + j) * b.n 2 + k) - x q) / b.dX 0 - (x q - x (((if i = 0 then 0 else i - 1) * b.n 1 + j) * b.n 2 + k)) / b.dX 0) / b.dX 0
      + ((x ((i * b.n 1 + (if j + 1 < b.n 1 then j + 1 else j)) * b.n 2 + k) - x q) / b.dX 1 - (x q - x ((i * b.n 1 + (if j = 0 then 0 else j - 1)) * b.n 2 + k)) / b.dX 1) / b.dX 1
      + ((x ((i * b.n 1 + j) * b.n 2 + (if k + 1 < b.n 2 then k + 1 else k)) - x q) / b.dX 2 - (x q - x ((i * b.n 1 + j) * b.n 2 + (if k = 0 then 0 else k - 1))) / b.dX 2) / b.dX 2 := by
    have a0 := up (b.n 0) (b.dX 0) (fun t => (unflat b x).get t j k) i hi
    have a1 := up (b.n 1) (b.dX 1) (fun t => (unflat b x).get i t k) j hj
    have a2 := up (b.n 2) (b.dX 2) (fun t => (unflat b x).get i j t) k hk
    have d0 := down (b.n 0) (b.dX 0) (fun t => (unflat b x).get t j k) i hi
    have d1 := down (b.n 1) (b.dX 1) (fun t => (unflat b x).get i t k) j hj
    have d2 := down (b.n 2) (b.dX 2) (fun t => (unflat b x).get i j t) k hk
    unfold outflow
    show (slope (b.n 0) (b.dX 0) (fun t => (unflat b x).get t j k) (i + 1) - slope (b.n 0) (b.dX 0) (fun t => (unflat b x).get t j k) i) / b.dX 0
      + (slope (b.n 1) (b.dX 1) (fun t => (unflat b x).get i t k) (j + 1) - slope (b.n 1) (b.dX 1) (fun t => (unflat b x).get i t k) j) / b.dX 1
      + (slope (b.n 2) (b.dX 2) (fun t => (unflat b x).get i j t) (k + 1) - slope (b.n 2) (b.dX 2) (fun t => (unflat b x).get i j t) k) / b.dX 2 = _
    rw [a0, a1, a2, d0, d1, d2]
    rfl
  rw [E]
  simp only [Fin.sum_univ_succ, Fin.sum_univ_zero] at hrow
  have c0 : p.msh.conn q 0 = q := hc 0
  have c1 : p.msh.conn q (Fin.succ 0) = ((if i = 0 then 0 else i - 1) * b.n 1 + j) * b.n 2 + k := hc 1
  have c2 : p.msh.conn q (Fin.succ 0).succ = ((if i + 1 < b.n 0 then i + 1 else i) * b.n 1 + j) * b.n 2 + k := hc 2
  have c3 : p.msh.conn q (Fin.succ 0).succ.succ = (i * b.n 1 + (if j = 0 then 0 else j - 1)) * b.n 2 + k := hc 3
  have c4 : p.msh.conn q (Fin.succ 0).succ.succ.succ = (i * b.n 1 + (if j + 1 < b.n 1 then j + 1 else j)) * b.n 2 + k := hc 4
  have c5 : p.msh.conn q (Fin.succ 0).succ.succ.succ.succ = (i * b.n 1 + j) * b.n 2 + (if k = 0 then 0 else k - 1) := hc 5
  have c6 : p.msh.conn q (Fin.succ 0).succ.succ.succ.succ.succ = (i * b.n 1 + j) * b.n 2 + (if k + 1 < b.n 2 then k + 1 else k) := hc 6
  rw [c0, c1, c2, c3, c4, c5, c6] at hrow
  generalize x (((if i = 0 then 0 else i - 1) * b.n 1 + j) * b.n 2 + k) = y1 at hrow ⊢
  generalize x (((if i + 1 < b.n 0 then i + 1 else i) * b.n 1 + j) * b.n 2 + k) = y2 at hrow ⊢
  generalize x ((i * b.n 1 + (if j = 0 then 0 else j - 1)) * b.n 2 + k) = y3 at hrow ⊢
  generalize x ((i * b.n 1 + (if j + 1 < b.n 1 then j + 1 else j)) * b.n 2 + k) = y4 at hrow ⊢
  generalize x ((i * b.n 1 + j) * b.n 2 + (if k = 0 then 0 else k - 1)) = y5 at hrow ⊢
  generalize x ((i * b.n 1 + j) * b.n 2 + (if k + 1 < b.n 2 then k + 1 else k)) = y6 at hrow ⊢
  generalize x q = y0 at hrow ⊢
  have hrow' : -((y1 - y0) / (-b.dX 0) * 1 * (-b.dX 1 * b.dX 2) + ((y2 - y0) / b.dX 0 * 1 * (b.dX 1 * b.dX 2)
      + ((y3 - y0) / (-b.dX 1) * 1 * (-b.dX 2 * b.dX 0) + ((y4 - y0) / b.dX 1 * 1 * (b.dX 2 * b.dX 0)
      + ((y5 - y0) / (-b.dX 2) * 1 * (-b.dX 0 * b.dX 1) + ((y6 - y0) / b.dX 2 * 1 * (b.dX 0 * b.dX 1) + 0))))))
      - (0 * y0 + -divv q) * (b.dX 0 * b.dX 1 * b.dX 2) = 0 := hrow
  field_simp at hrow' ⊢
  linarith

/-! ## The correction of the code -/

/-- The linear solver returned a solution of the system of `p` it was given. -/
def Solves (ls : LinSolve) (p : Poisson 6) : Prop :=
  ∀ A R0, p.newtonUpdate (fun _ => 0) = .ok A → p.computeResidual (fun _ => 0) = .ok R0 →
    ∀ n < p.msh.N, Poisson.linearized p.msh A (ls (Poisson.linearized p.msh A) fun n => -R0 n) n = -R0 n

/-- The linear solver solves every pressure system whose right hand side sums to zero (the others have no solution, C67). -/
def SolvesPressure (b : Box) (ls : LinSolve) : Prop :=
  ∀ divv : ℕ → ℝ, ∑ n ∈ range b.mesh.N, divv n = 0 → ∀ p, presPoisson b.mesh divv = .ok p → Solves ls p

theorem faceMeans_congr (n : Fin 3 → ℕ) (V W : ℕ → ℕ → ℕ → Fin 3 → ℝ) (h : ∀ i < n 0, ∀ j < n 1, ∀ k < n 2, ∀ c, V i j k c = W i j k c) :
    (∀ i ≤ n 0, ∀ j < n 1, ∀ k < n 2, faceMeans n V 0 i j k = faceMeans n W 0 i j k) ∧
    (∀ i < n 0, ∀ j ≤ n 1, ∀ k < n 2, faceMeans n V 1 i j k = faceMeans n W 1 i j k) ∧
    (∀ i < n 0, ∀ j < n 1, ∀ k ≤ n 2, faceMeans n V 2 i j k = faceMeans n W 2 i j k) := by
  have key : ∀ (m : ℕ) (u w : ℕ → ℝ) (t : ℕ), (∀ t < m, u t = w t) → mean m u t = mean m w t := by
    intro m u w t h
    unfold mean
    by_cases hc : 0 < t ∧ t < m
    · rw [if_pos hc, if_pos hc, h t hc.2, h (t - 1) (by omega)]
    · rw [if_neg hc, if_neg hc]
  exact ⟨fun i _ j hj k hk => key (n 0) _ _ i fun t ht => h t ht j hj k hk 0, fun i hi j _ k hk => key (n 1) _ _ j fun t ht => h i hi t ht k hk 1,
    fun i hi j hj k _ => key (n 2) _ _ k fun t ht => h i hi j hj t ht 2⟩

theorem outflow_congr (n : Fin 3 → ℕ) (d : Fin 3 → ℝ) (F G : Faces)
    (h : (∀ i ≤ n 0, ∀ j < n 1, ∀ k < n 2, F 0 i j k = G 0 i j k) ∧ (∀ i < n 0, ∀ j ≤ n 1, ∀ k < n 2, F 1 i j k = G 1 i j k) ∧
      (∀ i < n 0, ∀ j < n 1, ∀ k ≤ n 2, F 2 i j k = G 2 i j k)) :
    ∀ i < n 0, ∀ j < n 1, ∀ k < n 2, outflow d F i j k = outflow d G i j k := by
  intro i hi j hj k hk
  unfold outflow
  rw [h.1 i hi.le j hj k hk, h.1 (i + 1) hi j hj k hk, h.2.1 i hi j hj.le k hk, h.2.1 i hi (j + 1) hj k hk, h.2.2 i hi j hj k hk.le, h.2.2 i hi j hj (k + 1) hk]

theorem cellEnergy_congr (n : Fin 3 → ℕ) (V W : ℕ → ℕ → ℕ → Fin 3 → ℝ) (h : ∀ i < n 0, ∀ j < n 1, ∀ k < n 2, ∀ c, V i j k c = W i j k c) :
    cellEnergy n V = cellEnergy n W := by
  unfold cellEnergy
  refine sum_congr rfl fun i hi => sum_congr rfl fun j hj => sum_congr rfl fun k hk => ?_
  simp only [h i (mem_range.mp hi) j (mem_range.mp hj) k (mem_range.mp hk)]

/-- **C145 (what the pressure correction achieves).** Let `V` be the predicted velocity and the pressure solve be exact. There is a pressure `P` such that
the returned velocity is `V` minus `dt/rho` times the cell means of the pressure slopes, the returned pressure gradient is the old one plus these means, and
* face velocities corrected with the slopes themselves would leave no outflow from any cell,
* the face velocities the code computes from the returned velocity leave exactly the outflow of `-dt/rho` times the third differences of `P`,
* the energy of the returned velocity plus that of the correction is at most the energy of `V`. -/
theorem C145_correction (a : AmArgs) (hn : ∀ d, 0 < a.loc.n d) (hL : ∀ d, 0 < a.loc.L d) (hdt : a.dt ≠ 0) (hrho : a.rho ≠ 0) (ls : LinSolve)
    (hls : SolvesPressure a.loc ls) (vel0 conv0 gradp0 : Arr3 (Fin 3 → ℝ)) (fl T : Arr3 (Fin 1 → ℝ)) (vel gradp : Arr3 (Fin 3 → ℝ)) (bcs : BCs ℝ 3)
    (h : velUpdate a ls vel0 conv0 gradp0 fl T = some (vel, bcs, gradp)) :
    ∃ (V : ℕ → ℕ → ℕ → Fin 3 → ℝ) (P : ℕ → ℕ → ℕ → ℝ),
      (∀ c, ∃ u, predict a ls vel0 conv0 gradp0 fl T c = .ok u ∧ ∀ i j k, V i j k c = u ((i * a.loc.n 1 + j) * a.loc.n 2 + k)) ∧
      (∀ i < a.loc.n 0, ∀ j < a.loc.n 1, ∀ k < a.loc.n 2, ∀ c,
        vel.get i j k c = V i j k c - a.dt / a.rho * cellMeans (onLines slope a.loc.n a.loc.dX P) i j k c ∧
        gradp.get i j k c = gradp0.get i j k c + cellMeans (onLines slope a.loc.n a.loc.dX P) i j k c) ∧
      (∀ i < a.loc.n 0, ∀ j < a.loc.n 1, ∀ k < a.loc.n 2,
        outflow a.loc.dX (fun e i j k => faceMeans a.loc.n V e i j k - a.dt / a.rho * onLines slope a.loc.n a.loc.dX P e i j k) i j k = 0) ∧
      (∀ dX, ∃ vf, faceVels vel dX (some bcs) = some vf ∧ ∀ i < a.loc.n 0, ∀ j < a.loc.n 1, ∀ k < a.loc.n 2,
        outflow a.loc.dX (fun e => (vf e).get) i j k = -(a.dt / a.rho) * outflow a.loc.dX (onLines third a.loc.n a.loc.dX P) i j k) ∧
      cellEnergy a.loc.n vel.get + (a.dt / a.rho) ^ 2 * faceEnergy a.loc.n (onLines slope a.loc.n a.loc.dX P) ≤ cellEnergy a.loc.n V := by
  have hd : ∀ e, a.loc.dX e ≠ 0 := fun e => (div_pos (hL e) (by exact_mod_cast hn e)).ne'
  have hm := a.loc.valid hn hL
  unfold velUpdate at h
  simp only [Option.bind_eq_bind, Option.bind_eq_some_iff] at h
  obtain ⟨u, hu, v, hv, w, hw, vf, hvf, pr, hpr, g, hg, h⟩ := h
  have ok : ∀ {x : Except PErr (ℕ → ℝ)} {y}, x.toOption = some y → x = .ok y := by
    intro x y hx
    cases x with
    | error e => cases hx
    | ok z => injection hx with hx; rw [hx]
  replace hu := ok hu
  replace hv := ok hv
  replace hw := ok hw
  replace hpr := ok hpr
  set Vel : Arr3 (Fin 3 → ℝ) := Arr3.stack ![unflat a.loc u, unflat a.loc v, unflat a.loc w] with hVel
  obtain ⟨vf', hvf', hsum⟩ := C67_divergence_sums_to_zero a hn Vel rfl rfl rfl T
  rw [hvf] at hvf'
  injection hvf' with hvf'
  subst hvf'
  obtain ⟨p, hp, hmsh, -, hlin⟩ := presPoisson_linear a.loc.mesh (divVel a.loc vf a.dt a.rho).flatten.get
  have hm' : p.msh.Valid opp := by rw [hmsh]; exact hm
  obtain ⟨U, R, hU, hR, hR0⟩ := C68_solver_linear hm' hlin ls (hls _ hsum p hp)
  have hprU : pr = U := by
    rw [hp] at hpr
    have : solverLinear p ls false = .ok pr := hpr
    rw [hU] at this
    injection this with this
    exact this.symm
  subst hprU
  have hpo := pressure_outflow a.loc hn hL _ p hp pr R hR (by rw [← hmsh]; exact hR0)
  set P : ℕ → ℕ → ℕ → ℝ := (unflat a.loc pr).get with hP
  set S := onLines slope a.loc.n a.loc.dX P with hS
  have hgm := gradient_means a.loc.n a.loc.dX P g hg
  have hfm := faceVels_means a T Vel a.loc.n hn rfl rfl rfl a.loc.dX vf hvf
  injection h with h
  injection h with h1 h
  injection h with h2 h3
  have hpred : ∀ i < a.loc.n 0, ∀ j < a.loc.n 1, ∀ k < a.loc.n 2, outflow a.loc.dX (faceMeans a.loc.n Vel.get) i j k = a.dt / a.rho * outflow a.loc.dX S i j k := by
    intro i hi j hj k hk
    rw [hpo i hi j hj k hk]
    have e : (divVel a.loc vf a.dt a.rho).flatten.get ((i * a.loc.n 1 + j) * a.loc.n 2 + k) = (divVel a.loc vf a.dt a.rho).get i j k :=
      Verif.Mesh.Arr3.flatten_get (divVel a.loc vf a.dt a.rho) hj hk
    rw [e, ← outflow_congr a.loc.n a.loc.dX (fun e => (vf e).get) _ hfm i hi j hj k hk]
    show outflow a.loc.dX (fun e => (vf e).get) i j k = a.dt / a.rho * (outflow a.loc.dX (fun e => (vf e).get) i j k / a.dt * a.rho)
    field_simp
  have hvel : ∀ i < a.loc.n 0, ∀ j < a.loc.n 1, ∀ k < a.loc.n 2, ∀ c, vel.get i j k c = Vel.get i j k c - a.dt / a.rho * cellMeans S i j k c := by
    intro i hi j hj k hk c
    rw [← h1, ← hgm i hi j hj k hk c]
    show Vel.get i j k c - a.dt * g.get i j k c / a.rho = _
    ring
  refine ⟨Vel.get, P, ?_, ?_, ?_, ?_, ?_⟩
  · intro c
    fin_cases c
    · exact ⟨u, hu, fun i j k => rfl⟩
    · exact ⟨v, hv, fun i j k => rfl⟩
    · exact ⟨w, hw, fun i j k => rfl⟩
  · intro i hi j hj k hk c
    refine ⟨hvel i hi j hj k hk c, ?_⟩
    rw [← h3, ← hgm i hi j hj k hk c]
  · intro i hi j hj k hk
    rw [outflow_sub, hpred i hi j hj k hk, sub_self]
  · intro dX
    have hsz : vel.n0 = a.loc.n 0 ∧ vel.n1 = a.loc.n 1 ∧ vel.n2 = a.loc.n 2 := by rw [← h1]; exact ⟨rfl, rfl, rfl⟩
    obtain ⟨vf', hvf', -⟩ := C53_faceVels_noflow vel dX (velBCs a T) (by rw [hsz.1]; exact hn 0) (by rw [hsz.2.1]; exact hn 1) (by rw [hsz.2.2]; exact hn 2)
      (fun s => rfl) (fun s x y hs => by unfold velBCs; simp [hs]; rfl) (fun x y => by simp [velBCs, marangoniEffect])
    refine ⟨vf', by rw [← h2]; exact hvf', fun i hi j hj k hk => ?_⟩
    have hfm' := faceVels_means a T vel a.loc.n hn hsz.1 hsz.2.1 hsz.2.2 dX vf' hvf'
    rw [outflow_congr a.loc.n a.loc.dX (fun e => (vf' e).get) _ hfm' i hi j hj k hk,
      outflow_congr a.loc.n a.loc.dX _ _ (faceMeans_congr a.loc.n vel.get _ hvel) i hi j hj k hk]
    have e : faceMeans a.loc.n (fun i j k c => Vel.get i j k c - a.dt / a.rho * cellMeans S i j k c)
        = fun e i j k => faceMeans a.loc.n Vel.get e i j k - a.dt / a.rho * (fun e i j k => S e i j k + onLines third a.loc.n a.loc.dX P e i j k : Faces) e i j k := by
      funext e i j k
      exact correct_faces a.loc.n a.loc.dX hd Vel.get P (a.dt / a.rho) e i j k
    rw [e, outflow_sub, outflow_add, hpred i hi j hj k hk]
    ring
  · rw [cellEnergy_congr a.loc.n vel.get _ hvel]
    exact correct_energy a.loc.n a.loc.dX Vel.get P (a.dt / a.rho) hpred

/-! ## The prediction -/

/-- The linear solver solves every diffusion system with a proper reaction term (C68: such a system has exactly one solution). -/
def SolvesVelocity (b : Box) (ls : LinSolve) : Prop :=
  ∀ (p : Poisson 6) (mu : ℝ) (r s : ℕ → ℝ), p.msh = b.mesh → 0 ≤ mu → (∀ n < b.mesh.N, r n < 0) → LinearProblem p mu r s → Solves ls p

/-- The surface tension exerts no force on the free surface. -/
def NoTraction (a : AmArgs) (T : Arr3 (Fin 1 → ℝ)) : Prop :=
  ∀ t < a.loc.n 0 * a.loc.n 1, ∀ c, (marangoniEffect a (topOf T)).flatten.get t c = 0

/-- Energy inequality of one linear system with zero boundary values: the reaction dominates. -/
theorem linear_energy {p : Poisson 6} (hm : p.msh.Valid opp) {mu : ℝ} (hmu : 0 ≤ mu) {r s : ℕ → ℝ} (h : LinearProblem p mu r s)
    (hbv : ∀ i, ∀ t < p.msh.surfNum i, p.bcValue i t = 0) (U R : ℕ → ℝ) (hR : p.computeResidual U = .ok R) (h0 : ∀ n < p.msh.N, R n = 0) :
    ∑ n ∈ range p.msh.N, -r n * U n ^ 2 ≤ ∑ n ∈ range p.msh.N, s n * U n := by
  obtain ⟨R', hR', hrow⟩ := linear_residual hm h U
  rw [hR] at hR'
  injection hR' with hR'
  subst hR'
  have hb : ∀ n, p.bdry (fun _ => mu) (fun _ => 0) n = 0 := by
    intro n
    unfold Poisson.bdry
    cases hty : p.bcType with
    | none => rfl
    | some ty =>
      refine sum_eq_zero fun i _ => sum_eq_zero fun t ht => ?_
      unfold Poisson.bflux
      rw [hbv i t (mem_range.mp ht)]
      simp
  obtain ⟨A, hA, hA'⟩ := linear_row hm h (fun _ => 0)
  obtain ⟨A', hA2, hpsd⟩ := C54_psd hm h (fun _ => 0)
  rw [hA] at hA2
  injection hA2 with hA2
  subst hA2
  have e := (hpsd U).1
  have e1 : ∑ n ∈ range p.msh.N, U n * Poisson.linearized p.msh A U n = p.msh.dV * ∑ n ∈ range p.msh.N, s n * U n := by
    rw [mul_sum]
    refine sum_congr rfl fun n hn => ?_
    have hn' := mem_range.mp hn
    have h1 := hrow n hn'
    rw [h0 n hn', hb] at h1
    rw [hA' U n hn']
    have : rowOp p mu r U n = s n * p.msh.dV := by linarith
    rw [this]; ring
  have e2 : p.msh.dV * ∑ n ∈ range p.msh.N, -r n * U n ^ 2 ≤ ∑ n ∈ range p.msh.N, (p.diagOf (fun _ => mu) n - r n * p.msh.dV) * U n ^ 2 := by
    rw [mul_sum]
    refine sum_le_sum fun n _ => ?_
    have := mul_nonneg (diag_nonneg (p := p) hm hmu n) (sq_nonneg (U n))
    nlinarith
  have e3 : 0 ≤ mu * (1 / 2 * ∑ n ∈ range p.msh.N, ∑ s : Fin 6, (p.msh.dS s / p.msh.D s) * (U n - U (p.msh.conn n s.succ)) ^ 2) :=
    mul_nonneg hmu (mul_nonneg (by norm_num) (sum_nonneg fun n _ => sum_nonneg fun s _ => mul_nonneg (hm.pos s).le (sq_nonneg _)))
  have : p.msh.dV * ∑ n ∈ range p.msh.N, -r n * U n ^ 2 ≤ p.msh.dV * ∑ n ∈ range p.msh.N, s n * U n := by
    rw [← e1, e]; linarith
  exact le_of_mul_le_mul_left this hm.dV_pos

/-- The drag of the solid: coefficient of the velocity in the source of the prediction (cfd_am.py 533-535), per density. -/
noncomputable def drag (fl : ℝ) : ℝ := 1e7 * (1 - fl) ^ 2 / (fl ^ 3 + 1e-5)

theorem drag_nonneg {fl : ℝ} (h : 0 ≤ fl) : 0 ≤ drag fl := by
  unfold drag
  exact div_nonneg (mul_nonneg (by norm_num) (sq_nonneg _)) (add_nonneg (pow_nonneg h 3) (by norm_num))

theorem drag_solid : drag 0 = 10 ^ 12 := by norm_num [drag]

theorem drag_liquid : drag 1 = 0 := by norm_num [drag]

/-- What the prediction would be without viscosity and drag. -/
noncomputable def free (a : AmArgs) (vel0 conv0 gradp0 : Arr3 (Fin 3 → ℝ)) (i j k : ℕ) (c : Fin 3) : ℝ :=
  vel0.get i j k c - a.dt * conv0.get i j k c - a.dt / a.rho * gradp0.get i j k c

theorem sum_sq_flat (b : Box) (x : ℕ → ℝ) (G : ℕ → ℕ → ℕ → ℝ) (h : ∀ i < b.n 0, ∀ j < b.n 1, ∀ k < b.n 2, x ((i * b.n 1 + j) * b.n 2 + k) = G i j k) :
    ∑ n ∈ range (b.n 0 * b.n 1 * b.n 2), x n ^ 2 = ∑ i ∈ range (b.n 0), ∑ j ∈ range (b.n 1), ∑ k ∈ range (b.n 2), G i j k ^ 2 := by
  have h1 : ∀ (A B : ℕ) (g : ℕ → ℝ), ∑ n ∈ range (A * B), g n = ∑ i ∈ range A, ∑ j ∈ range B, g (i * B + j) := by
    intro A B g
    induction A with
    | zero => simp
    | succ A ih => rw [Nat.succ_mul, sum_range_add, ih, sum_range_succ]
  rw [h1, h1]
  refine sum_congr rfl fun i hi => sum_congr rfl fun j hj => sum_congr rfl fun k hk => ?_
  rw [h i (mem_range.mp hi) j (mem_range.mp hj) k (mem_range.mp hk)]

/-- Cells of a flattened number. -/
theorem split_cell (b : Box) (hn : ∀ d, 0 < b.n d) (n : ℕ) (h : n < b.n 0 * b.n 1 * b.n 2) :
    ∃ i j k, i < b.n 0 ∧ j < b.n 1 ∧ k < b.n 2 ∧ n = (i * b.n 1 + j) * b.n 2 + k := by
  refine ⟨n / b.n 2 / b.n 1, n / b.n 2 % b.n 1, n % b.n 2, ?_, Nat.mod_lt _ (hn 1), Nat.mod_lt _ (hn 2), ?_⟩
  · rw [Nat.div_div_eq_div_mul, Nat.div_lt_iff_lt_mul (Nat.mul_pos (hn 2) (hn 1))]
    calc n < b.n 0 * b.n 1 * b.n 2 := h
      _ = b.n 0 * (b.n 2 * b.n 1) := by ring
  · rw [Nat.div_add_mod' (n / b.n 2) (b.n 1), Nat.div_add_mod' n (b.n 2)]

/-- Shape of the local mesh in the last two directions (those the flattening depends on). -/
def Sized {m : ℕ} (b : Box) (f : Arr3 (Fin m → ℝ)) : Prop := f.n1 = b.n 1 ∧ f.n2 = b.n 2

theorem flat_cell {m : ℕ} (b : Box) (f : Arr3 (Fin m → ℝ)) (e : Fin m) (hs : Sized b f) (i j k : ℕ) (hj : j < b.n 1) (hk : k < b.n 2) :
    flat f e ((i * b.n 1 + j) * b.n 2 + k) = f.get i j k e := by
  have := Verif.Mesh.Arr3.flatten_get f (i := i) (j := j) (k := k) (by rw [hs.1]; exact hj) (by rw [hs.2]; exact hk)
  rw [hs.1, hs.2] at this
  exact congrFun this e

/-- The predicted velocity solves its linear system. -/
theorem predict_solved (a : AmArgs) (hn : ∀ d, 0 < a.loc.n d) (hL : ∀ d, 0 < a.loc.L d) (hdt : 0 < a.dt) (hrho : 0 < a.rho) (hv : 0 ≤ a.visco) (ls : LinSolve)
    (hls : SolvesVelocity a.loc ls) (vel0 conv0 gradp0 : Arr3 (Fin 3 → ℝ)) (fl T : Arr3 (Fin 1 → ℝ)) (sf : Sized a.loc fl)
    (hfl : ∀ i < a.loc.n 0, ∀ j < a.loc.n 1, ∀ k < a.loc.n 2, 0 ≤ fl.get i j k 0)
    (hT : NoTraction a T) (c : Fin 3) (u : ℕ → ℝ) (hu : predict a ls vel0 conv0 gradp0 fl T c = .ok u) :
    ∃ p R, p.msh = a.loc.mesh ∧ LinearProblem p a.visco (fun n => -(a.rho / a.dt) - 1e7 * a.rho * (1 - flat fl 0 n) ^ 2 / (flat fl 0 n ^ 3 + 1e-5))
      (fun n => a.rho / a.dt * flat vel0 c n - a.rho * flat conv0 c n - flat gradp0 c n) ∧
      (∀ i, ∀ t < p.msh.surfNum i, p.bcValue i t = 0) ∧ p.computeResidual u = .ok R ∧ ∀ n < p.msh.N, R n = 0 := by
  have hm := a.loc.valid hn hL
  obtain ⟨p, hp, hmsh, hlin⟩ := velPoisson_linear a.loc.mesh a.visco a.rho a.dt (flat vel0 c) (flat conv0 c) (flat gradp0 c) (flat fl 0) (some (velBcType c))
    (fun ty h i => by injection h with h; subst h; unfold velBcType; split_ifs <;> simp) (velBcValue a T c)
  have hm' : p.msh.Valid opp := by rw [hmsh]; exact hm
  have hreact : ∀ n < a.loc.n 0 * a.loc.n 1 * a.loc.n 2, 0 ≤ 1e7 * a.rho * (1 - flat fl 0 n) ^ 2 / (flat fl 0 n ^ 3 + 1e-5) := by
    intro n hn'
    obtain ⟨i, j, k, hi, hj, hk, rfl⟩ := split_cell a.loc hn n hn'
    rw [flat_cell a.loc fl 0 sf i j k hj hk]
    have h1 := hfl i hi j hj k hk
    exact div_nonneg (mul_nonneg (by positivity) (sq_nonneg _)) (add_nonneg (pow_nonneg h1 3) (by norm_num))
  have hpos : 0 < a.rho / a.dt := div_pos hrho hdt
  have hsolve : Solves ls p := hls p _ _ _ hmsh hv (fun n hn' => by
    have h1 := hreact n hn'
    linarith) hlin
  obtain ⟨U, R, hU, hR, hR0⟩ := C68_solver_linear hm' hlin ls hsolve
  have huU : u = U := by
    unfold predict at hu
    rw [hp] at hu
    have : solverLinear p ls false = .ok u := hu
    rw [hU] at this
    injection this with this
    exact this.symm
  subst huU
  refine ⟨p, R, hmsh, hlin, fun i t ht => ?_, hR, hR0⟩
  have hpb : p.bcValue = velBcValue a T c := by
    have : velPoisson a.loc.mesh a.visco a.rho a.dt (flat vel0 c) (flat conv0 c) (flat gradp0 c) (flat fl 0) (some (velBcType c)) (velBcValue a T c) = .ok p := hp
    unfold velPoisson poissonInit at this
    injection this with this
    rw [← this]
  rw [hpb]
  unfold velBcValue
  by_cases h5 : i = 5
  · rw [if_pos h5]
    have : p.msh.surfNum i = a.loc.n 1 * a.loc.n 0 := by rw [hmsh, h5]; rfl
    rw [this, mul_comm] at ht
    rw [hT t ht c, zero_mul]
  · rw [if_neg h5]

/-- One component of the prediction. -/
theorem predict_energy (a : AmArgs) (hn : ∀ d, 0 < a.loc.n d) (hL : ∀ d, 0 < a.loc.L d) (hdt : 0 < a.dt) (hrho : 0 < a.rho) (hv : 0 ≤ a.visco) (ls : LinSolve)
    (hls : SolvesVelocity a.loc ls) (vel0 conv0 gradp0 : Arr3 (Fin 3 → ℝ)) (fl T : Arr3 (Fin 1 → ℝ))
    (sv : Sized a.loc vel0) (sc : Sized a.loc conv0) (sg : Sized a.loc gradp0) (sf : Sized a.loc fl)
    (delta : ℝ) (hdel : 0 ≤ delta) (hfl : ∀ i < a.loc.n 0, ∀ j < a.loc.n 1, ∀ k < a.loc.n 2, 0 ≤ fl.get i j k 0 ∧ delta ≤ drag (fl.get i j k 0))
    (hT : NoTraction a T) (c : Fin 3) (u : ℕ → ℝ) (hu : predict a ls vel0 conv0 gradp0 fl T c = .ok u) :
    (1 + delta * a.dt) ^ 2 * ∑ n ∈ range (a.loc.n 0 * a.loc.n 1 * a.loc.n 2), u n ^ 2
      ≤ ∑ i ∈ range (a.loc.n 0), ∑ j ∈ range (a.loc.n 1), ∑ k ∈ range (a.loc.n 2), free a vel0 conv0 gradp0 i j k c ^ 2 := by
  obtain ⟨p, R, hmsh, hlin, hbv, hR, hR0⟩ := predict_solved a hn hL hdt hrho hv ls hls vel0 conv0 gradp0 fl T sf (fun i hi j hj k hk => (hfl i hi j hj k hk).1) hT c u hu
  have hm' : p.msh.Valid opp := by rw [hmsh]; exact a.loc.valid hn hL
  have hN : p.msh.N = a.loc.n 0 * a.loc.n 1 * a.loc.n 2 := by rw [hmsh]; rfl
  have hreact : ∀ n < a.loc.n 0 * a.loc.n 1 * a.loc.n 2, a.rho / a.dt * (1 + delta * a.dt) ≤
      -(-(a.rho / a.dt) - 1e7 * a.rho * (1 - flat fl 0 n) ^ 2 / (flat fl 0 n ^ 3 + 1e-5)) := by
    intro n hn'
    obtain ⟨i, j, k, hi, hj, hk, rfl⟩ := split_cell a.loc hn n hn'
    rw [flat_cell a.loc fl 0 sf i j k hj hk]
    have h1 := (hfl i hi j hj k hk).2
    have h2 : a.rho * delta ≤ a.rho * drag (fl.get i j k 0) := mul_le_mul_of_nonneg_left h1 hrho.le
    have h3 : a.rho * drag (fl.get i j k 0) = 1e7 * a.rho * (1 - fl.get i j k 0) ^ 2 / (fl.get i j k 0 ^ 3 + 1e-5) := by unfold drag; ring
    have h4 : a.rho / a.dt * (1 + delta * a.dt) = a.rho / a.dt + a.rho * delta := by field_simp
    rw [h4, ← h3]; linarith
  have hk0 : 0 < 1 + delta * a.dt := by have := mul_nonneg hdel hdt.le; linarith
  have hpos : 0 < a.rho / a.dt := div_pos hrho hdt
  have hen := linear_energy hm' hv hlin hbv u R hR hR0
  rw [hN] at hen
  set S := ∑ n ∈ range (a.loc.n 0 * a.loc.n 1 * a.loc.n 2), u n ^ 2 with hS
  let w : ℕ → ℝ := fun n => flat vel0 c n - a.dt * flat conv0 c n - a.dt / a.rho * flat gradp0 c n
  have hw : ∑ n ∈ range (a.loc.n 0 * a.loc.n 1 * a.loc.n 2), w n ^ 2
      = ∑ i ∈ range (a.loc.n 0), ∑ j ∈ range (a.loc.n 1), ∑ k ∈ range (a.loc.n 2), free a vel0 conv0 gradp0 i j k c ^ 2 := by
    refine sum_sq_flat a.loc w (fun i j k => free a vel0 conv0 gradp0 i j k c) fun i hi j hj k hk => ?_
    show flat vel0 c _ - a.dt * flat conv0 c _ - a.dt / a.rho * flat gradp0 c _ = _
    rw [flat_cell a.loc vel0 c sv i j k hj hk, flat_cell a.loc conv0 c sc i j k hj hk, flat_cell a.loc gradp0 c sg i j k hj hk]
    rfl
  rw [← hw]
  have e1 : a.rho / a.dt * (1 + delta * a.dt) * S ≤ ∑ n ∈ range (a.loc.n 0 * a.loc.n 1 * a.loc.n 2),
      -(-(a.rho / a.dt) - 1e7 * a.rho * (1 - flat fl 0 n) ^ 2 / (flat fl 0 n ^ 3 + 1e-5)) * u n ^ 2 := by
    rw [hS, mul_sum]
    exact sum_le_sum fun n hn' => mul_le_mul_of_nonneg_right (hreact n (mem_range.mp hn')) (sq_nonneg _)
  have e2 : ∑ n ∈ range (a.loc.n 0 * a.loc.n 1 * a.loc.n 2), (a.rho / a.dt * flat vel0 c n - a.rho * flat conv0 c n - flat gradp0 c n) * u n
      = a.rho / a.dt * ∑ n ∈ range (a.loc.n 0 * a.loc.n 1 * a.loc.n 2), w n * u n := by
    rw [mul_sum]
    refine sum_congr rfl fun n _ => ?_
    show _ = a.rho / a.dt * ((flat vel0 c n - a.dt * flat conv0 c n - a.dt / a.rho * flat gradp0 c n) * u n)
    field_simp
  have e3 : (1 + delta * a.dt) * S ≤ ∑ n ∈ range (a.loc.n 0 * a.loc.n 1 * a.loc.n 2), w n * u n := by
    have := (e1.trans hen).trans_eq e2
    rw [mul_assoc] at this
    exact le_of_mul_le_mul_left this hpos
  have e4 : 2 * (1 + delta * a.dt) * ∑ n ∈ range (a.loc.n 0 * a.loc.n 1 * a.loc.n 2), w n * u n
      ≤ ∑ n ∈ range (a.loc.n 0 * a.loc.n 1 * a.loc.n 2), w n ^ 2 + (1 + delta * a.dt) ^ 2 * S := by
    rw [hS, mul_sum, mul_sum, ← sum_add_distrib]
    exact sum_le_sum fun n _ => by nlinarith [sq_nonneg (w n - (1 + delta * a.dt) * u n)]
  nlinarith

/-- **C145 (energy of a step).** Without surface traction a velocity update never creates energy: the energy of the returned velocity plus that of the pressure
correction is at most the energy of the freely advanced velocity, divided by `(1 + delta dt)²` if every cell has at least the drag `delta`. -/
theorem C145_step_energy (a : AmArgs) (hn : ∀ d, 0 < a.loc.n d) (hL : ∀ d, 0 < a.loc.L d) (hdt : 0 < a.dt) (hrho : 0 < a.rho) (hv : 0 ≤ a.visco) (ls : LinSolve)
    (hlv : SolvesVelocity a.loc ls) (hlp : SolvesPressure a.loc ls) (vel0 conv0 gradp0 : Arr3 (Fin 3 → ℝ)) (fl T : Arr3 (Fin 1 → ℝ))
    (sv : Sized a.loc vel0) (sc : Sized a.loc conv0) (sg : Sized a.loc gradp0) (sf : Sized a.loc fl)
    (delta : ℝ) (hdel : 0 ≤ delta) (hfl : ∀ i < a.loc.n 0, ∀ j < a.loc.n 1, ∀ k < a.loc.n 2, 0 ≤ fl.get i j k 0 ∧ delta ≤ drag (fl.get i j k 0))
    (hT : NoTraction a T) (vel gradp : Arr3 (Fin 3 → ℝ)) (bcs : BCs ℝ 3) (h : velUpdate a ls vel0 conv0 gradp0 fl T = some (vel, bcs, gradp)) :
    ∃ P, (∀ i < a.loc.n 0, ∀ j < a.loc.n 1, ∀ k < a.loc.n 2, ∀ c,
        gradp.get i j k c = gradp0.get i j k c + cellMeans (onLines slope a.loc.n a.loc.dX P) i j k c) ∧
      (1 + delta * a.dt) ^ 2 * (cellEnergy a.loc.n vel.get + (a.dt / a.rho) ^ 2 * faceEnergy a.loc.n (onLines slope a.loc.n a.loc.dX P))
        ≤ cellEnergy a.loc.n (free a vel0 conv0 gradp0) := by
  obtain ⟨V, P, hV, hvel, -, -, hE⟩ := C145_correction a hn hL hdt.ne' hrho.ne' ls hlp vel0 conv0 gradp0 fl T vel gradp bcs h
  refine ⟨P, fun i hi j hj k hk c => (hvel i hi j hj k hk c).2, ?_⟩
  have hcomp : ∀ c, (1 + delta * a.dt) ^ 2 * ∑ i ∈ range (a.loc.n 0), ∑ j ∈ range (a.loc.n 1), ∑ k ∈ range (a.loc.n 2), V i j k c ^ 2
      ≤ ∑ i ∈ range (a.loc.n 0), ∑ j ∈ range (a.loc.n 1), ∑ k ∈ range (a.loc.n 2), free a vel0 conv0 gradp0 i j k c ^ 2 := by
    intro c
    obtain ⟨u, hu, hVu⟩ := hV c
    have := predict_energy a hn hL hdt hrho hv ls hlv vel0 conv0 gradp0 fl T sv sc sg sf delta hdel hfl hT c u hu
    rwa [sum_sq_flat a.loc u (fun i j k => V i j k c) fun i _ j _ k _ => (hVu i j k).symm] at this
  have hsplit : ∀ W : ℕ → ℕ → ℕ → Fin 3 → ℝ, cellEnergy a.loc.n W = (∑ i ∈ range (a.loc.n 0), ∑ j ∈ range (a.loc.n 1), ∑ k ∈ range (a.loc.n 2), W i j k 0 ^ 2)
      + (∑ i ∈ range (a.loc.n 0), ∑ j ∈ range (a.loc.n 1), ∑ k ∈ range (a.loc.n 2), W i j k 1 ^ 2)
      + ∑ i ∈ range (a.loc.n 0), ∑ j ∈ range (a.loc.n 1), ∑ k ∈ range (a.loc.n 2), W i j k 2 ^ 2 := by
    intro W
    unfold cellEnergy
    simp only [← sum_add_distrib]
  have h1 : (1 + delta * a.dt) ^ 2 * cellEnergy a.loc.n V ≤ cellEnergy a.loc.n (free a vel0 conv0 gradp0) := by
    rw [hsplit V, hsplit (free a vel0 conv0 gradp0)]
    have h0 := hcomp 0
    have h1 := hcomp 1
    have h2 := hcomp 2
    linarith
  exact (mul_le_mul_of_nonneg_left hE (sq_nonneg _)).trans h1

theorem faceEnergy_nonneg (n : Fin 3 → ℕ) (F : Faces) : 0 ≤ faceEnergy n F := by
  unfold faceEnergy
  refine add_nonneg (add_nonneg ?_ ?_) ?_ <;>
    exact sum_nonneg fun i _ => sum_nonneg fun j _ => sum_nonneg fun k _ => sq_nonneg _

theorem cellEnergy_nonneg (n : Fin 3 → ℕ) (V : ℕ → ℕ → ℕ → Fin 3 → ℝ) : 0 ≤ cellEnergy n V :=
  sum_nonneg fun i _ => sum_nonneg fun j _ => sum_nonneg fun k _ => by positivity

theorem cellEnergy_zero (n : Fin 3 → ℕ) (V : ℕ → ℕ → ℕ → Fin 3 → ℝ) (h : cellEnergy n V ≤ 0) : ∀ i < n 0, ∀ j < n 1, ∀ k < n 2, ∀ c, V i j k c = 0 := by
  intro i hi j hj k hk c
  have h0 : cellEnergy n V = 0 := le_antisymm h (cellEnergy_nonneg n V)
  unfold cellEnergy at h0
  rw [sum_eq_zero_iff_of_nonneg fun i _ => sum_nonneg fun j _ => sum_nonneg fun k _ => by positivity] at h0
  have h1 := h0 i (mem_range.mpr hi)
  rw [sum_eq_zero_iff_of_nonneg fun j _ => sum_nonneg fun k _ => by positivity] at h1
  have h2 := h1 j (mem_range.mpr hj)
  rw [sum_eq_zero_iff_of_nonneg fun k _ => by positivity] at h2
  have h3 := h2 k (mem_range.mpr hk)
  have a0 := sq_nonneg (V i j k 0)
  have a1 := sq_nonneg (V i j k 1)
  have a2 := sq_nonneg (V i j k 2)
  have z0 : V i j k 0 ^ 2 = 0 := by linarith
  have z1 : V i j k 1 ^ 2 = 0 := by linarith
  have z2 : V i j k 2 ^ 2 = 0 := by linarith
  fin_cases c
  · exact (pow_eq_zero_iff two_ne_zero).mp z0
  · exact (pow_eq_zero_iff two_ne_zero).mp z1
  · exact (pow_eq_zero_iff two_ne_zero).mp z2

/-- **C145 (rest is kept).** Without traction a fluid at rest, whose convection and pressure gradient vanish, stays exactly at rest and its pressure gradient stays zero. -/
theorem C145_rest (a : AmArgs) (hn : ∀ d, 0 < a.loc.n d) (hL : ∀ d, 0 < a.loc.L d) (hdt : 0 < a.dt) (hrho : 0 < a.rho) (hv : 0 ≤ a.visco) (ls : LinSolve)
    (hlv : SolvesVelocity a.loc ls) (hlp : SolvesPressure a.loc ls) (vel0 conv0 gradp0 : Arr3 (Fin 3 → ℝ)) (fl T : Arr3 (Fin 1 → ℝ))
    (sv : Sized a.loc vel0) (sc : Sized a.loc conv0) (sg : Sized a.loc gradp0) (sf : Sized a.loc fl)
    (hfl : ∀ i < a.loc.n 0, ∀ j < a.loc.n 1, ∀ k < a.loc.n 2, 0 ≤ fl.get i j k 0) (hT : NoTraction a T)
    (h0 : ∀ i < a.loc.n 0, ∀ j < a.loc.n 1, ∀ k < a.loc.n 2, ∀ c, vel0.get i j k c = 0 ∧ conv0.get i j k c = 0 ∧ gradp0.get i j k c = 0)
    (vel gradp : Arr3 (Fin 3 → ℝ)) (bcs : BCs ℝ 3) (h : velUpdate a ls vel0 conv0 gradp0 fl T = some (vel, bcs, gradp)) :
    ∀ i < a.loc.n 0, ∀ j < a.loc.n 1, ∀ k < a.loc.n 2, ∀ c, vel.get i j k c = 0 ∧ gradp.get i j k c = 0 := by
  obtain ⟨P, hg, hE⟩ := C145_step_energy a hn hL hdt hrho hv ls hlv hlp vel0 conv0 gradp0 fl T sv sc sg sf 0 le_rfl
    (fun i hi j hj k hk => ⟨hfl i hi j hj k hk, drag_nonneg (hfl i hi j hj k hk)⟩) hT vel gradp bcs h
  have hz : cellEnergy a.loc.n (free a vel0 conv0 gradp0) = 0 := by
    rw [cellEnergy_congr a.loc.n _ (fun _ _ _ _ => 0) fun i hi j hj k hk c => by
      obtain ⟨e1, e2, e3⟩ := h0 i hi j hj k hk c
      unfold free
      rw [e1, e2, e3]; ring]
    simp [cellEnergy]
  rw [hz] at hE
  have hc2 : 0 < (a.dt / a.rho) ^ 2 := pow_pos (div_pos hdt hrho) 2
  have n1 := cellEnergy_nonneg a.loc.n vel.get
  have n2 := faceEnergy_nonneg a.loc.n (onLines slope a.loc.n a.loc.dX P)
  have n3 := mul_nonneg hc2.le n2
  have hE' : cellEnergy a.loc.n vel.get + (a.dt / a.rho) ^ 2 * faceEnergy a.loc.n (onLines slope a.loc.n a.loc.dX P) ≤ 0 := by
    simpa using hE
  have z1 : cellEnergy a.loc.n vel.get ≤ 0 := by linarith
  have z2 : faceEnergy a.loc.n (onLines slope a.loc.n a.loc.dX P) ≤ 0 := by
    by_contra hc
    push Not at hc
    have := mul_pos hc2 hc
    linarith
  have z3 := (box_contract a.loc.n (onLines slope a.loc.n a.loc.dX P)).trans z2
  intro i hi j hj k hk c
  refine ⟨cellEnergy_zero _ _ z1 i hi j hj k hk c, ?_⟩
  rw [hg i hi j hj k hk c, (h0 i hi j hj k hk c).2.2, cellEnergy_zero _ _ z3 i hi j hj k hk c, add_zero]

/-! ## When there is no traction -/

/-- **C145 (no traction).** The surface tension exerts no force where the top layer of the window is solid, and none if its temperature is uniform. -/
theorem C145_no_traction (a : AmArgs) (hn : ∀ d, 0 < a.loc.n d) (T : Arr3 (Fin 1 → ℝ)) (s0 : T.n0 = a.loc.n 0) (s1 : T.n1 = a.loc.n 1) (s2 : T.n2 = a.loc.n 2)
    (h : (a.Ts < a.Tl ∧ ∀ i < a.loc.n 0, ∀ j < a.loc.n 1, T.get i j (a.loc.n 2 - 1) 0 ≤ a.Ts) ∨
      ∃ C, ∀ i < a.loc.n 0, ∀ j < a.loc.n 1, T.get i j (a.loc.n 2 - 1) 0 = C) : NoTraction a T := by
  intro t ht c
  have hj : t % a.loc.n 1 < a.loc.n 1 := Nat.mod_lt _ (hn 1)
  have hi : t / a.loc.n 1 < a.loc.n 0 := by rwa [Nat.div_lt_iff_lt_mul (hn 1)]
  have e : (marangoniEffect a (topOf T)).flatten.get t = (marangoniEffect a (topOf T)).get (t / T.n1) (t % T.n1) := rfl
  rw [e, s1]
  set i := t / a.loc.n 1
  set j := t % a.loc.n 1
  rcases h with ⟨hTs, h⟩ | ⟨C, h⟩
  · have hf : fluidFrac a.Ts a.Tl ((topOf T).get i j 0) = 0 := by
      refine ((C56_fluid_frac a.Ts a.Tl hTs).2.1 _).mpr ?_
      show T.get i j (T.n2 - 1) 0 ≤ a.Ts
      rw [s2]; exact h i hi j hj
    unfold marangoniEffect
    fin_cases c
    · simp [hf]
    · simp [hf]
    · rfl
  · have hp : ∀ n m : ℕ, 0 < n → padIdx n m < n := by
      intro n m hnm; unfold padIdx; split_ifs <;> omega
    have hc : ∀ x y, (pad2 (topOf T)).get x y 0 = C := by
      intro x y
      show T.get (padIdx T.n0 x) (padIdx T.n1 y) (T.n2 - 1) 0 = C
      rw [s0, s1, s2]
      exact h _ (hp _ _ (hn 0)) _ (hp _ _ (hn 1))
    unfold marangoniEffect
    fin_cases c
    · simp [hc]
    · simp [hc]
    · rfl

/-! ## Linear solvers that solve exist -/

/-- A row operator that is injective on the cells is onto. -/
theorem onto_of_injective (N : ℕ) (L : (ℕ → ℝ) → ℕ → ℝ) (hadd : ∀ x y, ∀ n < N, L (fun k => x k + y k) n = L x n + L y n)
    (hsmul : ∀ (s : ℝ) x, ∀ n < N, L (fun k => s * x k) n = s * L x n)
    (hinj : ∀ x, (∀ n, N ≤ n → x n = 0) → (∀ n < N, L x n = 0) → ∀ n < N, x n = 0) (b : ℕ → ℝ) : ∃ x, ∀ n < N, L x n = b n := by
  let ext : (Fin N → ℝ) → ℕ → ℝ := fun v n => if h : n < N then v ⟨n, h⟩ else 0
  have ext_add : ∀ v w, ext (v + w) = fun k => ext v k + ext w k := by
    intro v w; funext k; show (if h : k < N then _ else _) = (if h : k < N then _ else _) + (if h : k < N then _ else _)
    split_ifs
    · rfl
    · ring
  have ext_smul : ∀ (s : ℝ) v, ext (s • v) = fun k => s * ext v k := by
    intro s v; funext k; show (if h : k < N then _ else _) = s * (if h : k < N then _ else _)
    split_ifs
    · rfl
    · ring
  let M : (Fin N → ℝ) →ₗ[ℝ] (Fin N → ℝ) :=
    { toFun := fun v i => L (ext v) i
      map_add' := fun v w => by funext i; show L (ext (v + w)) i = _; rw [ext_add]; exact hadd _ _ i i.2
      map_smul' := fun s v => by funext i; show L (ext (s • v)) i = _; rw [ext_smul]; exact hsmul _ _ i i.2 }
  have hM : Function.Injective M := by
    rw [injective_iff_map_eq_zero]
    intro v hv
    funext i
    have := hinj (ext v) (fun n hn => dif_neg (by omega)) (fun n hn => congrFun hv ⟨n, hn⟩) i i.2
    rwa [show ext v i = v i from dif_pos i.2] at this
  obtain ⟨v, hv⟩ := (LinearMap.injective_iff_surjective.mp hM) (fun i => b i)
  exact ⟨ext v, fun n hn => congrFun hv ⟨n, hn⟩⟩

theorem rowOp_add (p : Poisson 6) (mu : ℝ) (r x y : ℕ → ℝ) (n : ℕ) : rowOp p mu r (fun k => x k + y k) n = rowOp p mu r x n + rowOp p mu r y n := by
  unfold rowOp
  have : ∑ s : Fin 6, mu * (p.msh.dS s / p.msh.D s) * (x n + y n - (x (p.msh.conn n s.succ) + y (p.msh.conn n s.succ)))
      = (∑ s : Fin 6, mu * (p.msh.dS s / p.msh.D s) * (x n - x (p.msh.conn n s.succ))) + ∑ s : Fin 6, mu * (p.msh.dS s / p.msh.D s) * (y n - y (p.msh.conn n s.succ)) := by
    rw [← sum_add_distrib]; exact sum_congr rfl fun s _ => by ring
  rw [this]; ring

theorem rowOp_smul (p : Poisson 6) (mu : ℝ) (r : ℕ → ℝ) (e : ℝ) (x : ℕ → ℝ) (n : ℕ) : rowOp p mu r (fun k => e * x k) n = e * rowOp p mu r x n := by
  unfold rowOp
  have : ∑ s : Fin 6, mu * (p.msh.dS s / p.msh.D s) * (e * x n - e * x (p.msh.conn n s.succ))
      = e * ∑ s : Fin 6, mu * (p.msh.dS s / p.msh.D s) * (x n - x (p.msh.conn n s.succ)) := by
    rw [mul_sum]; exact sum_congr rfl fun s _ => by ring
  rw [this]; ring

/-- A system with a reaction term has a solution for every right hand side. -/
theorem velocity_onto {p : Poisson 6} (hm : p.msh.Valid opp) {mu : ℝ} (hmu : 0 ≤ mu) {r s : ℕ → ℝ} (hr : ∀ n < p.msh.N, r n < 0) (h : LinearProblem p mu r s)
    (b : ℕ → ℝ) : ∃ x, ∀ n < p.msh.N, rowOp p mu r x n = b n := by
  refine onto_of_injective p.msh.N (rowOp p mu r) (fun x y n _ => rowOp_add p mu r x y n) (fun e x n _ => rowOp_smul p mu r e x n) ?_ b
  intro x _ hx
  obtain ⟨A, hA, hA'⟩ := linear_row hm h (fun _ => 0)
  obtain ⟨A', hA2, hpsd⟩ := C54_psd hm h (fun _ => 0)
  rw [hA] at hA2
  injection hA2 with hA2
  subst hA2
  have e := (hpsd x).1
  rw [sum_eq_zero fun n hn => by rw [hA' x n (mem_range.mp hn), hx n (mem_range.mp hn), mul_zero]] at e
  have e3 : 0 ≤ mu * (1 / 2 * ∑ n ∈ range p.msh.N, ∑ s : Fin 6, (p.msh.dS s / p.msh.D s) * (x n - x (p.msh.conn n s.succ)) ^ 2) :=
    mul_nonneg hmu (mul_nonneg (by norm_num) (sum_nonneg fun n _ => sum_nonneg fun s _ => mul_nonneg (hm.pos s).le (sq_nonneg _)))
  have hpos : ∀ n ∈ range p.msh.N, 0 < p.diagOf (fun _ => mu) n - r n * p.msh.dV := by
    intro n hn
    have h1 := diag_nonneg (p := p) hm hmu n
    have h2 := mul_pos (neg_pos.mpr (hr n (mem_range.mp hn))) hm.dV_pos
    linarith
  have e4 : ∀ n ∈ range p.msh.N, 0 ≤ (p.diagOf (fun _ => mu) n - r n * p.msh.dV) * x n ^ 2 := fun n hn => mul_nonneg (hpos n hn).le (sq_nonneg _)
  have e5 : ∑ n ∈ range p.msh.N, (p.diagOf (fun _ => mu) n - r n * p.msh.dV) * x n ^ 2 = 0 := le_antisymm (by linarith) (sum_nonneg e4)
  intro n hn
  have := (sum_eq_zero_iff_of_nonneg e4).mp e5 n (mem_range.mpr hn)
  rcases mul_eq_zero.mp this with h0 | h0
  · exact absurd h0 (hpos n (mem_range.mpr hn)).ne'
  · exact (pow_eq_zero_iff two_ne_zero).mp h0

/-- A pressure system has a solution if its right hand side sums to zero. -/
theorem pressure_onto (b : Box) (hn : ∀ d, 0 < b.n d) (hL : ∀ d, 0 < b.L d) (divv : ℕ → ℝ) (p : Poisson 6) (hp : presPoisson b.mesh divv = .ok p)
    (f : ℕ → ℝ) (hf : ∑ n ∈ range b.mesh.N, f n = 0) : ∃ x, ∀ n < b.mesh.N, rowOp p 1 (fun _ => 0) x n = f n := by
  have hm := b.valid hn hL
  obtain ⟨p', hp', hmsh, hbt, hlin⟩ := presPoisson_linear b.mesh divv
  rw [hp] at hp'
  injection hp' with hp'
  subst hp'
  have hm' : p.msh.Valid opp := by rw [hmsh]; exact hm
  have hN : b.mesh.N = b.n 0 * b.n 1 * b.n 2 := rfl
  have hNpos : 0 < b.mesh.N := Nat.mul_pos (Nat.mul_pos (hn 0) (hn 1)) (hn 2)
  have hdiag : ∀ n, p.diagOf (fun _ => (1 : ℝ)) n = 0 := by intro n; unfold Poisson.diagOf; rw [hbt]
  have hsum : ∀ x : ℕ → ℝ, ∑ n ∈ range b.mesh.N, rowOp p 1 (fun _ => 0) x n = 0 := by
    intro x
    have := green hm' x (fun _ => 1)
    simp only [one_mul, sub_self, mul_zero, sum_const_zero] at this
    rw [hmsh] at this
    refine Eq.trans (sum_congr rfl fun n _ => ?_) this
    unfold rowOp
    rw [hdiag, hmsh]
    simp
  have hinj : ∀ x : ℕ → ℝ, (∀ n < b.mesh.N, rowOp p 1 (fun _ => 0) x n + ∑ k ∈ range b.mesh.N, x k = 0) →
      ∑ k ∈ range b.mesh.N, x k = 0 := by
    intro x hx
    have h1 : ∑ n ∈ range b.mesh.N, (rowOp p 1 (fun _ => 0) x n + ∑ k ∈ range b.mesh.N, x k) = 0 :=
      sum_eq_zero fun n hn' => hx n (mem_range.mp hn')
    rw [sum_add_distrib, hsum, zero_add, sum_const, card_range, nsmul_eq_mul] at h1
    rcases mul_eq_zero.mp h1 with h2 | h2
    · exact absurd (by exact_mod_cast h2) hNpos.ne'
    · exact h2
  obtain ⟨x, hx⟩ := onto_of_injective b.mesh.N (fun x n => rowOp p 1 (fun _ => 0) x n + ∑ k ∈ range b.mesh.N, x k)
    (fun x y n _ => by rw [rowOp_add, sum_add_distrib]; ring)
    (fun e x n _ => by rw [rowOp_smul, ← mul_sum]; ring)
    (fun x _ hx => by
      have h0 := hinj x hx
      have hrow : ∀ n < b.mesh.N, rowOp p 1 (fun _ => 0) x n = 0 := fun n hn' => by have := hx n hn'; rw [h0] at this; linarith
      obtain ⟨R, hR, hR'⟩ := linear_residual hm' hlin x
      obtain ⟨R0, hR0, hR0'⟩ := linear_residual hm' hlin (fun _ => 0)
      obtain ⟨C, hC⟩ := C67_pressure_unique (b.n 0) (b.n 1) (b.n 2) (b.L 0) (b.L 1) (b.L 2) (hn 0) (hn 1) (hn 2) (hL 0) (hL 1) (hL 2) divv p hp
        (fun _ => 0) x R0 R hR0 hR (fun n hn' => by
          have hn2 : n < p.msh.N := by rw [hmsh]; exact hn'
          rw [hR' n hn2, hR0' n hn2, hrow n hn']
          simp [rowOp])
      have h1 : ∑ k ∈ range b.mesh.N, x k = b.mesh.N * C := by
        have hk : ∀ k ∈ range b.mesh.N, x k = C := fun k hk => (hC k (mem_range.mp hk)).trans (zero_add C)
        rw [sum_congr rfl hk, sum_const, card_range, nsmul_eq_mul]
      rw [h0] at h1
      have hC0 : C = 0 := by
        rcases mul_eq_zero.mp h1.symm with h2 | h2
        · exact absurd (by exact_mod_cast h2) hNpos.ne'
        · exact h2
      intro n hn'
      rw [hC n hn', hC0, add_zero]) f
  have h1 : ∑ n ∈ range b.mesh.N, (rowOp p 1 (fun _ => 0) x n + ∑ k ∈ range b.mesh.N, x k) = 0 := by
    rw [sum_congr rfl fun n hn' => hx n (mem_range.mp hn'), hf]
  rw [sum_add_distrib, hsum, zero_add, sum_const, card_range, nsmul_eq_mul] at h1
  have h2 : ∑ k ∈ range b.mesh.N, x k = 0 := by
    rcases mul_eq_zero.mp h1 with h2 | h2
    · exact absurd (by exact_mod_cast h2) hNpos.ne'
    · exact h2
  refine ⟨x, fun n hn' => ?_⟩
  have := hx n hn'
  rw [h2, add_zero] at this
  exact this

open Classical in
/-- Some solution of the rows of the first `N` cells, if there is one. -/
noncomputable def pick (N : ℕ) : LinSolve := fun A f => if h : ∃ x : ℕ → ℝ, ∀ n < N, A x n = f n then h.choose else fun _ => 0

theorem pick_spec (N : ℕ) (A : (ℕ → ℝ) → ℕ → ℝ) (f : ℕ → ℝ) (h : ∃ x : ℕ → ℝ, ∀ n < N, A x n = f n) : ∀ n < N, A (pick N A f) n = f n := by
  unfold pick
  rw [dif_pos h]
  exact h.choose_spec

/-- **C145 (the assumption on the linear solver can be met).** On every box there is a linear solver that solves all velocity and all pressure systems. -/
theorem C145_solver_exists (b : Box) (hn : ∀ d, 0 < b.n d) (hL : ∀ d, 0 < b.L d) : ∃ ls : LinSolve, SolvesVelocity b ls ∧ SolvesPressure b ls := by
  have hm := b.valid hn hL
  refine ⟨pick b.mesh.N, ?_, ?_⟩
  · intro p mu r s hmsh hmu hr h A R0 hA hR0 n hn'
    have hm' : p.msh.Valid opp := by rw [hmsh]; exact hm
    obtain ⟨A', hA', hrow⟩ := linear_row hm' h (fun _ => 0)
    rw [hA] at hA'
    injection hA' with hA'
    subst hA'
    obtain ⟨x, hx⟩ := velocity_onto hm' hmu (by rw [hmsh]; exact hr) h (fun n => -R0 n)
    have hex : ∃ x : ℕ → ℝ, ∀ n < b.mesh.N, Poisson.linearized p.msh A x n = (fun n => -R0 n) n :=
      ⟨x, fun n hn' => by rw [← hmsh] at hn'; rw [hrow x n hn', hx n hn']⟩
    exact pick_spec b.mesh.N _ _ hex n (by rw [← hmsh]; exact hn')
  · intro divv hdiv p hp A R0 hA hR0 n hn'
    obtain ⟨p', hp', hmsh, hbt, h⟩ := presPoisson_linear b.mesh divv
    rw [hp] at hp'
    injection hp' with hp'
    subst hp'
    have hm' : p.msh.Valid opp := by rw [hmsh]; exact hm
    obtain ⟨A', hA', hrow⟩ := linear_row hm' h (fun _ => 0)
    rw [hA] at hA'
    injection hA' with hA'
    subst hA'
    obtain ⟨R', hR', hRr⟩ := linear_residual hm' h (fun _ => 0)
    rw [hR0] at hR'
    injection hR' with hR'
    subst hR'
    have hR0n : ∀ n < b.mesh.N, R0 n = divv n * b.mesh.dV := by
      intro n hn'
      rw [← hmsh] at hn'
      rw [hRr n hn', ← hmsh]
      have hb : p.bdry (fun _ => (1 : ℝ)) (fun _ => 0) n = 0 := by unfold Poisson.bdry; rw [hbt]
      rw [hb]
      simp [rowOp]
    obtain ⟨x, hx⟩ := pressure_onto b hn hL divv p hp (fun n => -R0 n) (by
      have hk : ∀ n ∈ range b.mesh.N, -R0 n = -(divv n * b.mesh.dV) := fun n hn' => by rw [hR0n n (mem_range.mp hn')]
      rw [sum_congr rfl hk, sum_neg_distrib, ← sum_mul, hdiv]; ring)
    have hex : ∃ x : ℕ → ℝ, ∀ n < b.mesh.N, Poisson.linearized p.msh A x n = (fun n => -R0 n) n :=
      ⟨x, fun n hn' => (hrow x n (by rw [hmsh]; exact hn')).trans (hx n hn')⟩
    exact pick_spec b.mesh.N _ _ hex n (by rw [← hmsh]; exact hn')

/-! ## Runs that never melt -/

/-- `div` with face velocities that vanish on the faces of the cells. -/
theorem div_zero_vel {m : ℕ} (n : Fin 3 → ℕ) (f : Arr3 (Fin m → ℝ)) (vf : Fin 3 → Arr3 ℝ) (dX : Fin 3 → ℝ) (theta : ℝ) (r : Arr3 (Fin m → ℝ))
    (h : div f vf dX theta none = some r)
    (hv : (∀ i ≤ n 0, ∀ j < n 1, ∀ k < n 2, (vf 0).get i j k = 0) ∧ (∀ i < n 0, ∀ j ≤ n 1, ∀ k < n 2, (vf 1).get i j k = 0) ∧
      (∀ i < n 0, ∀ j < n 1, ∀ k ≤ n 2, (vf 2).get i j k = 0)) :
    ∀ i < n 0, ∀ j < n 1, ∀ k < n 2, ∀ c, r.get i j k c = 0 := by
  intro i hi j hj k hk c
  unfold div at h
  obtain ⟨gc, -, rfl⟩ := Option.map_eq_some_iff.mp h
  show (_ * (vf 0).get (i + 1) j k - _ * (vf 0).get i j k) / dX 0 + (_ * (vf 1).get i (j + 1) k - _ * (vf 1).get i j k) / dX 1
    + (_ * (vf 2).get i j (k + 1) - _ * (vf 2).get i j k) / dX 2 = 0
  rw [hv.1 i hi.le j hj k hk, hv.1 (i + 1) hi j hj k hk, hv.2.1 i hi j hj.le k hk, hv.2.1 i hi (j + 1) hj k hk, hv.2.2 i hi j hj k hk.le, hv.2.2 i hi j hj (k + 1) hk]
  ring

/-- A field of the size of the domain that vanishes in its cells. -/
def Blank {m : ℕ} (b : Box) (f : Arr3 (Fin m → ℝ)) : Prop :=
  (f.n0 = b.n 0 ∧ f.n1 = b.n 1 ∧ f.n2 = b.n 2) ∧ ∀ i < b.n 0, ∀ j < b.n 1, ∀ k < b.n 2, ∀ c, f.get i j k c = 0

theorem blank_slice {m : ℕ} (a : AmArgs) (t : ℝ) (hle : ∀ d, a.loc.n d ≤ a.g.n d) (f : Arr3 (Fin m → ℝ)) (h : Blank a.g f) : Blank a.loc (sliceW f (movingBox a t)) := by
  have hw := C57_window a t (hle 0) (hle 1) (hle 2)
  obtain ⟨p0, p1, p2, -, p4, p5, p6⟩ := hw 0
  obtain ⟨q0, q1, q2, -, q4, q5, q6⟩ := hw 1
  obtain ⟨r0, r1, r2, -, r4, r5, r6⟩ := hw 2
  refine ⟨⟨?_, ?_, ?_⟩, fun i hi j hj k hk c => ?_⟩
  · show pyLen f.n0 _ _ = _; rw [h.1.1]; exact p6
  · show pyLen f.n1 _ _ = _; rw [h.1.2.1]; exact q6
  · show pyLen f.n2 _ _ = _; rw [h.1.2.2]; exact r6
  · show f.get (pyIdx f.n0 _ + i) (pyIdx f.n1 _ + j) (pyIdx f.n2 _ + k) c = 0
    rw [h.1.1, h.1.2.1, h.1.2.2, p4, q4, r4]
    exact h.2 _ (by omega) _ (by omega) _ (by omega) c

theorem blank_set {m : ℕ} (a : AmArgs) (t : ℝ) (hle : ∀ d, a.loc.n d ≤ a.g.n d) (f v : Arr3 (Fin m → ℝ)) (h : Blank a.g f)
    (hv : ∀ i < a.loc.n 0, ∀ j < a.loc.n 1, ∀ k < a.loc.n 2, ∀ c, v.get i j k c = 0) : Blank a.g (setW f (movingBox a t) v) := by
  have hw := C57_window a t (hle 0) (hle 1) (hle 2)
  obtain ⟨p0, p1, p2, -, p4, p5, p6⟩ := hw 0
  obtain ⟨q0, q1, q2, -, q4, q5, q6⟩ := hw 1
  obtain ⟨r0, r1, r2, -, r4, r5, r6⟩ := hw 2
  refine ⟨h.1, fun i hi j hj k hk c => ?_⟩
  unfold setW
  simp only
  rw [h.1.1, h.1.2.1, h.1.2.2, p4, p5, q4, q5, r4, r5]
  split_ifs with hc
  · exact hv _ (by omega) _ (by omega) _ (by omega) c
  · exact h.2 i hi j hj k hk c

/-- **C145 (no flow without melting).** As long as no cell exceeds the solidus, velocity, pressure gradient and convective terms of a run stay exactly zero, whatever the
temperature equation does and wherever the window moves: the run is pure heat conduction. -/
theorem C145_unmolten_run (a : AmArgs) (hn : ∀ d, 0 < a.loc.n d) (hL : ∀ d, 0 < a.loc.L d) (hle : ∀ d, a.loc.n d ≤ a.g.n d) (hdt : 0 < a.dt) (hrho : 0 < a.rho)
    (hv : 0 ≤ a.visco) (hTT : a.Ts < a.Tl) (ls : LinSolve) (hlv : SolvesVelocity a.loc ls) (hlp : SolvesPressure a.loc ls) (eqnT : TempStep)
    (hsz : ∀ A B C t T, eqnT A B C t = some T → T.n0 = a.g.n 0 ∧ T.n1 = a.g.n 1 ∧ T.n2 = a.g.n 2)
    (s : ℕ → AmState) (hrun : AmRun a eqnT (velUpdate a ls) s) (m : ℕ)
    (hcold : ∀ q, 1 ≤ q → q ≤ m → ∀ i < a.g.n 0, ∀ j < a.g.n 1, ∀ k < a.g.n 2, (s q).T.get i j k 0 ≤ a.Ts) :
    Blank a.g (s m).vel ∧ Blank a.g (s m).conv ∧ Blank a.g (s m).gradp ∧ Blank a.g (s m).convT := by
  induction m with
  | zero =>
    rw [hrun.1]
    exact ⟨⟨⟨rfl, rfl, rfl⟩, fun _ _ _ _ _ _ _ => rfl⟩, ⟨⟨rfl, rfl, rfl⟩, fun _ _ _ _ _ _ _ => rfl⟩, ⟨⟨rfl, rfl, rfl⟩, fun _ _ _ _ _ _ _ => rfl⟩,
      ⟨⟨rfl, rfl, rfl⟩, fun _ _ _ _ _ _ _ => rfl⟩⟩
  | succ m ih =>
    obtain ⟨b1, b2, b3, b4⟩ := ih fun q h1 h2 => hcold q h1 (by omega)
    obtain ⟨Q, T, vel, bcs, gradp, vf, convT, conv, -, hT, hs, hvel, hvf, hcT, hc, hnext⟩ := step_spec (hrun.2 m)
    have hTs := hsz _ _ _ _ _ hT
    have hTm : (s (m + 1)).T = T := by rw [hnext]
    have hcT' : ∀ i < a.g.n 0, ∀ j < a.g.n 1, ∀ k < a.g.n 2, T.get i j k 0 ≤ a.Ts := by rw [← hTm]; exact hcold (m + 1) (by omega) le_rfl
    have hw := C57_window a (s m).t (hle 0) (hle 1) (hle 2)
    obtain ⟨p0, p1, p2, -, p4, p5, p6⟩ := hw 0
    obtain ⟨q0, q1, q2, -, q4, q5, q6⟩ := hw 1
    obtain ⟨r0, r1, r2, -, r4, r5, r6⟩ := hw 2
    have hwin : ∀ i < a.loc.n 0, ∀ j < a.loc.n 1, ∀ k < a.loc.n 2, (sliceW T (movingBox a (s m).t)).get i j k 0 ≤ a.Ts := by
      intro i hi j hj k hk
      show T.get (pyIdx T.n0 _ + i) (pyIdx T.n1 _ + j) (pyIdx T.n2 _ + k) 0 ≤ _
      rw [hTs.1, hTs.2.1, hTs.2.2, p4, q4, r4]
      exact hcT' _ (by omega) _ (by omega) _ (by omega)
    have hs0 : (sliceW T (movingBox a (s m).t)).n0 = a.loc.n 0 := by show pyLen T.n0 _ _ = _; rw [hTs.1]; exact p6
    have hs1 : (sliceW T (movingBox a (s m).t)).n1 = a.loc.n 1 := by show pyLen T.n1 _ _ = _; rw [hTs.2.1]; exact q6
    have hs2 : (sliceW T (movingBox a (s m).t)).n2 = a.loc.n 2 := by show pyLen T.n2 _ _ = _; rw [hTs.2.2]; exact r6
    have htr : NoTraction a (sliceW T (movingBox a (s m).t)) :=
      C145_no_traction a hn _ hs0 hs1 hs2 (Or.inl ⟨hTT, fun i hi j hj => hwin i hi j hj _ (by have := hn 2; omega)⟩)
    have c1 := blank_slice a (s m).t hle _ b1
    have c2 := blank_slice a (s m).t hle _ b2
    have c3 := blank_slice a (s m).t hle _ b3
    have hrest := C145_rest a hn hL hdt hrho hv ls hlv hlp _ _ _
      (sliceW ⟨T.n0, T.n1, T.n2, fun i j k c => fluidFrac a.Ts a.Tl (T.get i j k c)⟩ (movingBox a (s m).t)) _ c1.1.2 c2.1.2 c3.1.2 ⟨hs1, hs2⟩
      (fun i _ j _ k _ => ((C56_fluid_frac a.Ts a.Tl hTT).1 _).1) htr
      (fun i hi j hj k hk c => ⟨c1.2 i hi j hj k hk c, c2.2 i hi j hj k hk c, c3.2 i hi j hj k hk c⟩) vel gradp bcs hvel
    obtain ⟨r, hr, r0', r1', r2', rb⟩ := C67_velUpdate_total a hn hL ls (sliceW (s m).vel (movingBox a (s m).t)) (sliceW (s m).conv (movingBox a (s m).t))
      (sliceW (s m).gradp (movingBox a (s m).t)) (sliceW ⟨T.n0, T.n1, T.n2, fun i j k c => fluidFrac a.Ts a.Tl (T.get i j k c)⟩ (movingBox a (s m).t)) (sliceW T (movingBox a (s m).t))
    rw [hvel] at hr
    injection hr with hr
    subst hr
    simp only at r0' r1' r2' rb
    rw [rb] at hvf
    have hfm := faceVels_means a _ vel a.loc.n hn r0' r1' r2' a.g.dX vf hvf
    have hfc := faceMeans_congr a.loc.n vel.get (fun _ _ _ _ => 0) (fun i hi j hj k hk c => (hrest i hi j hj k hk c).1)
    have hz : ∀ t n, mean n (fun _ => (0 : ℝ)) t = 0 := by intro t n; simp [mean]
    have hvz : (∀ i ≤ a.loc.n 0, ∀ j < a.loc.n 1, ∀ k < a.loc.n 2, (vf 0).get i j k = 0) ∧ (∀ i < a.loc.n 0, ∀ j ≤ a.loc.n 1, ∀ k < a.loc.n 2, (vf 1).get i j k = 0) ∧
      (∀ i < a.loc.n 0, ∀ j < a.loc.n 1, ∀ k ≤ a.loc.n 2, (vf 2).get i j k = 0) :=
      ⟨fun i hi j hj k hk => (hfm.1 i hi j hj k hk).trans ((hfc.1 i hi j hj k hk).trans (hz _ _)),
        fun i hi j hj k hk => (hfm.2.1 i hi j hj k hk).trans ((hfc.2.1 i hi j hj k hk).trans (hz _ _)),
        fun i hi j hj k hk => (hfm.2.2 i hi j hj k hk).trans ((hfc.2.2 i hi j hj k hk).trans (hz _ _))⟩
    rw [hnext]
    exact ⟨blank_set a _ hle _ _ b1 fun i hi j hj k hk c => (hrest i hi j hj k hk c).1, blank_set a _ hle _ _ b2 (div_zero_vel a.loc.n _ vf _ _ _ hc hvz),
      blank_set a _ hle _ _ b3 fun i hi j hj k hk c => (hrest i hi j hj k hk c).2, blank_set a _ hle _ _ b4 (div_zero_vel a.loc.n _ vf _ _ _ hcT hvz)⟩

/-! ## The divergence that remains -/

/-- **C145 (two cells: half remains).** On a local mesh of 2 × 1 × 1 cells the correction removes exactly half of the outflow. -/
theorem C145_half (a : AmArgs) (hbox : a.loc.n = ![2, 1, 1]) (hL : ∀ d, 0 < a.loc.L d) (hdt : a.dt ≠ 0) (hrho : a.rho ≠ 0) (ls : LinSolve)
    (hls : SolvesPressure a.loc ls) (vel0 conv0 gradp0 : Arr3 (Fin 3 → ℝ)) (fl T : Arr3 (Fin 1 → ℝ)) (vel gradp : Arr3 (Fin 3 → ℝ)) (bcs : BCs ℝ 3)
    (h : velUpdate a ls vel0 conv0 gradp0 fl T = some (vel, bcs, gradp)) (dX : Fin 3 → ℝ) :
    ∃ u vf, predict a ls vel0 conv0 gradp0 fl T 0 = .ok u ∧ faceVels vel dX (some bcs) = some vf ∧
      outflow a.loc.dX (fun e => (vf e).get) 0 0 0 = 1 / 2 * ((u 0 + u 1) / 2 / a.loc.dX 0) := by
  have n0 : a.loc.n 0 = 2 := by rw [hbox]; rfl
  have n1 : a.loc.n 1 = 1 := by rw [hbox]; rfl
  have n2 : a.loc.n 2 = 1 := by rw [hbox]; rfl
  have hn : ∀ d, 0 < a.loc.n d := by intro d; fin_cases d <;> simp [hbox]
  obtain ⟨V, P, hV, -, hmac, hout, -⟩ := C145_correction a hn hL hdt hrho ls hls vel0 conv0 gradp0 fl T vel gradp bcs h
  obtain ⟨u, hu, hVu⟩ := hV 0
  obtain ⟨vf, hvf, hvf'⟩ := hout dX
  refine ⟨u, vf, hu, hvf, ?_⟩
  have hd : a.loc.dX 0 ≠ 0 := (div_pos (hL 0) (by exact_mod_cast hn 0)).ne'
  have h1 := hmac 0 (hn 0) 0 (hn 1) 0 (hn 2)
  rw [outflow_sub] at h1
  rw [hvf' 0 (hn 0) 0 (hn 1) 0 (hn 2)]
  have e1 : outflow a.loc.dX (faceMeans a.loc.n V) 0 0 0 = (u 0 + u 1) / 2 / a.loc.dX 0 := by
    unfold outflow faceMeans mean
    simp [n0, n1, n2, hVu]
    ring
  have e2 : outflow a.loc.dX (onLines slope a.loc.n a.loc.dX P) 0 0 0 = (P 1 0 0 - P 0 0 0) / a.loc.dX 0 / a.loc.dX 0 := by
    unfold outflow onLines slope
    simp [n0, n1, n2]
  have e3 : outflow a.loc.dX (onLines third a.loc.n a.loc.dX P) 0 0 0 = -(1 / 2) * ((P 1 0 0 - P 0 0 0) / a.loc.dX 0 / a.loc.dX 0) := by
    unfold outflow onLines third
    simp [n0, n1, n2]
    field_simp
    ring
  rw [e3, ← e2, ← e1]
  linarith

/-- **C145 (the returned velocity is not divergence free).** Two liquid or solid cells moving with unit speed towards a wall, no convection, no pressure, no traction, exact
linear solves: after the step the interpolated face velocities still leave an outflow, and the convective term of a uniform temperature `C ≠ 0` is not zero. -/
theorem C145_divergence_remains (a : AmArgs) (hbox : a.loc.n = ![2, 1, 1]) (hL : ∀ d, 0 < a.loc.L d) (hdt : 0 < a.dt) (hrho : 0 < a.rho) (hv : 0 ≤ a.visco)
    (ls : LinSolve) (hlv : SolvesVelocity a.loc ls) (hlp : SolvesPressure a.loc ls) (fl T : Arr3 (Fin 1 → ℝ)) (sf : Sized a.loc fl)
    (hfl : ∀ i < a.loc.n 0, ∀ j < a.loc.n 1, ∀ k < a.loc.n 2, 0 ≤ fl.get i j k 0) (hT : NoTraction a T) (C : ℝ) (hC : C ≠ 0) (hTC : ∀ i j k, T.get i j k = fun _ => C) :
    ∃ vel bcs gradp vf convT, velUpdate a ls ⟨2, 1, 1, fun _ _ _ => ![1, 0, 0]⟩ ⟨2, 1, 1, fun _ _ _ _ => 0⟩ ⟨2, 1, 1, fun _ _ _ _ => 0⟩ fl T = some (vel, bcs, gradp) ∧
      faceVels vel a.loc.dX (some bcs) = some vf ∧ 0 < outflow a.loc.dX (fun e => (vf e).get) 0 0 0 ∧
      div T vf a.loc.dX (1 / 8) none = some convT ∧ convT.get 0 0 0 0 ≠ 0 := by
  have n0 : a.loc.n 0 = 2 := by rw [hbox]; rfl
  have n1 : a.loc.n 1 = 1 := by rw [hbox]; rfl
  have n2 : a.loc.n 2 = 1 := by rw [hbox]; rfl
  have hn : ∀ d, 0 < a.loc.n d := by intro d; fin_cases d <;> simp [hbox]
  have hd : 0 < a.loc.dX 0 := div_pos (hL 0) (by exact_mod_cast hn 0)
  obtain ⟨⟨vel, bcs, gradp⟩, h, -⟩ := C67_velUpdate_total a hn hL ls ⟨2, 1, 1, fun _ _ _ => ![1, 0, 0]⟩ ⟨2, 1, 1, fun _ _ _ _ => 0⟩ ⟨2, 1, 1, fun _ _ _ _ => 0⟩ fl T
  obtain ⟨u, vf, hu, hvf, hout⟩ := C145_half a hbox hL hdt.ne' hrho.ne' ls hlp _ _ _ fl T vel gradp bcs h a.loc.dX
  obtain ⟨convT, hcT, hcT'⟩ := C53_div_const T vf a.loc.dX (1 / 8) (fun _ => C) hTC 0 0 0 0
  obtain ⟨p, R, hmsh, hlin, hbv, hR, hR0⟩ := predict_solved a hn hL hdt hrho hv ls hlv _ _ _ fl T sf hfl hT 0 u hu
  have hm' : p.msh.Valid opp := by rw [hmsh]; exact a.loc.valid hn hL
  have hN : p.msh.N = 2 := by rw [hmsh]; show a.loc.n 0 * a.loc.n 1 * a.loc.n 2 = 2; rw [n0, n1, n2]
  obtain ⟨R', hR', hrow⟩ := linear_residual hm' hlin u
  rw [hR] at hR'
  injection hR' with hR'
  subst hR'
  have hb : ∀ n, p.bdry (fun _ => a.visco) (fun _ => 0) n = 0 := by
    intro n
    unfold Poisson.bdry
    cases hty : p.bcType with
    | none => rfl
    | some ty =>
      refine sum_eq_zero fun i _ => sum_eq_zero fun t ht => ?_
      unfold Poisson.bflux
      rw [hbv i t (mem_range.mp ht)]
      simp
  have hflat1 : ∀ n < 2, flat (⟨2, 1, 1, fun _ _ _ => ![1, 0, 0]⟩ : Arr3 (Fin 3 → ℝ)) 0 n = 1 := fun n _ => rfl
  have hflat0 : ∀ n < 2, flat (⟨2, 1, 1, fun _ _ _ _ => 0⟩ : Arr3 (Fin 3 → ℝ)) 0 n = 0 := fun n _ => rfl
  have hpos : 0 < a.rho / a.dt := div_pos hrho hdt
  have hdV := hm'.dV_pos
  -- the two rows, `w` the conductance between the cells
  have row : ∀ n < 2, ∃ kap, 0 < kap ∧ a.rho / a.dt * p.msh.dV = (∑ s : Fin 6, a.visco * (p.msh.dS s / p.msh.D s) * (u n - u (p.msh.conn n s.succ))) + kap * u n := by
    intro n hn'
    have h1 := hrow n (by rw [hN]; exact hn')
    rw [hR0 n (by rw [hN]; exact hn'), hb, hflat1 n hn', hflat0 n hn'] at h1
    have hdr : 0 ≤ 1e7 * a.rho * (1 - flat fl 0 n) ^ 2 / (flat fl 0 n ^ 3 + 1e-5) := by
      obtain ⟨i, j, k, hi, hj, hk, rfl⟩ := split_cell a.loc hn n (by rw [n0, n1, n2]; exact hn')
      rw [flat_cell a.loc fl 0 sf i j k hj hk]
      exact div_nonneg (mul_nonneg (by positivity) (sq_nonneg _)) (add_nonneg (pow_nonneg (hfl i hi j hj k hk) 3) (by norm_num))
    have hdg := diag_nonneg (p := p) hm' hv n
    refine ⟨(a.rho / a.dt + 1e7 * a.rho * (1 - flat fl 0 n) ^ 2 / (flat fl 0 n ^ 3 + 1e-5)) * p.msh.dV + p.diagOf (fun _ => a.visco) n, ?_, ?_⟩
    · have := mul_pos (show 0 < a.rho / a.dt + 1e7 * a.rho * (1 - flat fl 0 n) ^ 2 / (flat fl 0 n ^ 3 + 1e-5) by linarith) hdV
      linarith
    · unfold rowOp at h1
      linarith
  obtain ⟨k0, hk0, r0⟩ := row 0 (by norm_num)
  obtain ⟨k1, hk1, r1⟩ := row 1 (by norm_num)
  have hcn : ∀ q c, p.msh.conn q c = (cellConn3 2 1 1).get q c := by intro q c; rw [hmsh]; show (cellConn3 (a.loc.n 0) (a.loc.n 1) (a.loc.n 2)).get q c = _; rw [n0, n1, n2]
  have c0 := conn3_get 2 1 1 (i := 0) (j := 0) (k := 0) (by norm_num) (by norm_num) (by norm_num)
  have c1 := conn3_get 2 1 1 (i := 1) (j := 0) (k := 0) (by norm_num) (by norm_num) (by norm_num)
  have s0 : ∀ s : Fin 6, u 0 - u (p.msh.conn 0 s.succ) = if s = 1 then u 0 - u 1 else 0 := by
    intro s; rw [hcn]
    have := congrFun c0 s.succ
    simp only [Nat.zero_mul, Nat.zero_add, Nat.add_zero] at this
    rw [this]
    fin_cases s <;> simp
  have s1 : ∀ s : Fin 6, u 1 - u (p.msh.conn 1 s.succ) = if s = 0 then u 1 - u 0 else 0 := by
    intro s; rw [hcn]
    have := congrFun c1 s.succ
    simp only [Nat.one_mul, Nat.add_zero] at this
    rw [this]
    fin_cases s <;> simp
  rw [sum_congr rfl fun s _ => by rw [s0 s]] at r0
  rw [sum_congr rfl fun s _ => by rw [s1 s]] at r1
  simp only [mul_ite, mul_zero, sum_ite_eq', mem_univ, if_true] at r0 r1
  have w0 := mul_nonneg hv (hm'.pos 0).le
  have w1 := mul_nonneg hv (hm'.pos 1).le
  have hb0 := mul_pos hpos hdV
  have hsumpos : 0 < u 0 + u 1 := by
    rcases le_total (u 0) (u 1) with hle | hle
    · have : 0 < k0 * u 0 := by nlinarith
      have h2 : 0 < u 0 := (mul_pos_iff_of_pos_left hk0).mp this
      linarith
    · have : 0 < k1 * u 1 := by nlinarith
      have h2 : 0 < u 1 := (mul_pos_iff_of_pos_left hk1).mp this
      linarith
  have hop : 0 < outflow a.loc.dX (fun e => (vf e).get) 0 0 0 := by
    rw [hout]
    have := div_pos (div_pos hsumpos two_pos) hd
    linarith
  refine ⟨vel, bcs, gradp, vf, convT, h, hvf, hop, hcT, ?_⟩
  rw [hcT']
  exact mul_ne_zero hC hop.ne'

/-- Two cubes of side 1 in a domain of 4 × 2 × 2 cubes, unit density, time step and viscosity. -/
noncomputable def sample : AmArgs := ⟨⟨![4, 2, 2], ![4, 2, 2]⟩, ⟨![2, 1, 1], ![2, 1, 1]⟩, ![0, 1, 2], 1, 10, 3, 1, 1, 1, 0, 1, 1, 1, 300, 1200, 1000, 1, 1, 1, 1⟩

theorem sample_pos : (∀ d, 0 < sample.loc.n d) ∧ (∀ d, 0 < sample.loc.L d) ∧ ∀ d, sample.loc.n d ≤ sample.g.n d := by
  refine ⟨fun d => ?_, fun d => ?_, fun d => ?_⟩
  · fin_cases d <;> decide
  · fin_cases d <;> simp [sample]
  · fin_cases d <;> decide

/-- Concrete case of the remaining divergence: all hypotheses hold for two liquid cells at 1500 K. -/
example : ∃ (ls : LinSolve) (vel : Arr3 (Fin 3 → ℝ)) (bcs : BCs ℝ 3) (gradp : Arr3 (Fin 3 → ℝ)) (vf : Fin 3 → Arr3 ℝ),
    velUpdate sample ls ⟨2, 1, 1, fun _ _ _ => ![1, 0, 0]⟩ ⟨2, 1, 1, fun _ _ _ _ => 0⟩ ⟨2, 1, 1, fun _ _ _ _ => 0⟩ ⟨2, 1, 1, fun _ _ _ _ => 1⟩ ⟨2, 1, 1, fun _ _ _ _ => 1500⟩
      = some (vel, bcs, gradp) ∧ faceVels vel sample.loc.dX (some bcs) = some vf ∧ 0 < outflow sample.loc.dX (fun e => (vf e).get) 0 0 0 := by
  obtain ⟨ls, hlv, hlp⟩ := C145_solver_exists sample.loc sample_pos.1 sample_pos.2.1
  have htr : NoTraction sample ⟨2, 1, 1, fun _ _ _ _ => 1500⟩ := C145_no_traction sample sample_pos.1 _ rfl rfl rfl (Or.inr ⟨1500, fun _ _ _ _ => rfl⟩)
  obtain ⟨vel, bcs, gradp, vf, -, h1, h2, h3, -⟩ := C145_divergence_remains sample rfl sample_pos.2.1 one_pos one_pos zero_le_one ls hlv hlp
    ⟨2, 1, 1, fun _ _ _ _ => 1⟩ ⟨2, 1, 1, fun _ _ _ _ => 1500⟩ ⟨rfl, rfl⟩ (fun _ _ _ _ _ _ => zero_le_one) htr 1500 (by norm_num) (fun _ _ _ => rfl)
  exact ⟨ls, vel, bcs, gradp, vf, h1, h2, h3⟩

/-- Concrete case of a run without melting: the temperature is held at 900 K below the solidus of 1000 K; after 50 steps nothing moves. -/
example : ∃ (ls : LinSolve) (s : ℕ → AmState), AmRun sample (fun _ _ _ _ => some ⟨4, 2, 2, fun _ _ _ _ => 900⟩) (velUpdate sample ls) s ∧ Blank sample.g (s 50).vel := by
  obtain ⟨ls, hlv, hlp⟩ := C145_solver_exists sample.loc sample_pos.1 sample_pos.2.1
  obtain ⟨s, hs⟩ := AmRun_exists sample (by decide) sample_pos.1 sample_pos.2.1 sample_pos.2.2 ls (fun _ _ _ _ => some ⟨4, 2, 2, fun _ _ _ _ => 900⟩) (fun _ _ _ _ => rfl)
  refine ⟨ls, s, hs, ?_⟩
  refine (C145_unmolten_run sample sample_pos.1 sample_pos.2.1 sample_pos.2.2 one_pos one_pos zero_le_one ?_ ls hlv hlp _ ?_ s hs 50 ?_).1
  · norm_num [sample]
  · intro A B C t T h
    injection h with h
    subst h
    exact ⟨rfl, rfl, rfl⟩
  · intro q h1 _ i _ j _ k _
    obtain ⟨m, rfl⟩ : ∃ m, q = m + 1 := ⟨q - 1, by omega⟩
    obtain ⟨Q, T, vel, bcs, gradp, vf, convT, conv, -, hT, -, -, -, -, -, hn⟩ := step_spec (hs.2 m)
    rw [hn]
    injection hT with hT
    subst hT
    norm_num [sample]

/-- A line of four cells: the third difference of the squares is 0 in the middle, not at the ends. -/
example : third 4 1 (fun i => (i : ℝ) ^ 2) 2 = 0 ∧ third 4 1 (fun i => (i : ℝ) ^ 2) 1 = 1 / 4 ∧ third 4 1 (fun i => (i : ℝ) ^ 2) 0 = 0 := by
  refine ⟨?_, ?_, ?_⟩ <;> norm_num [third]

end Verif.Cfd.Project
