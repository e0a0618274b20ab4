import Verif.Fem.BridgeRect
import Verif.Fem.EigenOptRect

/-!
# C162: supports and loads of the building and the tree (applications/fem/aesthetic/building.py, tree.py)

Two fixed corners of one cell hold a rectangle; one fixed node does not.
-/
namespace Verif.Fem.TreeTop
open Verif.Fem Verif.Fem.FlexTop Verif.Fem.BodyTop Finset

/-! ## Model -/

/-- `fixed_location` (building.py 99-100). -/
noncomputable def buildingFixed : Loc 2 := fun point => isclose (point 1) 0 1e-5

/-- `load_location` (building.py 102-105). -/
noncomputable def buildingLoad (Lx : ℝ) : Loc 2 := fun point => isclose (point 0) 0 1e-5 || isclose (point 0) Lx 1e-5

/-- `neumann_val` (building.py 110-114). -/
noncomputable def buildingTraction (Ly : ℝ) (point : Fin 2 → ℝ) : Fin 2 → ℝ := ![10 * point 1 / Ly, 0]

/-- The stress of building.py 43-60: as in bridge.py with `Emax = 1e5`. -/
noncomputable def buildingStress (u_grad : Fin 2 → Fin 2 → ℝ) (theta : ℕ → ℝ) : Fin 2 → Fin 2 → ℝ := planeStress (simpModulus (1e-3 * 1e5) 1e5 3 (theta 0)) 0.3 u_grad

/-- `fixed_location` (tree.py 89-93). -/
noncomputable def treeFixed (Lx : ℝ) : Loc 2 := fun point => open Classical in isclose (point 1) 0 1e-5 && decide (0.45 * Lx ≤ point 0) && decide (point 0 ≤ 0.55 * Lx)

/-- `load_location` (tree.py 98-99). -/
noncomputable def treeLoad (Ly : ℝ) : Loc 2 := fun point => isclose (point 1) Ly 1e-5

/-- `neumann_val` (tree.py 104-105). -/
def treeTraction (_ : Fin 2 → ℝ) : Fin 2 → ℝ := ![0, -1]

/-- The stress of tree.py 34-51: as in bridge.py with `Emax = 1`. -/
noncomputable def treeStress (u_grad : Fin 2 → Fin 2 → ℝ) (theta : ℕ → ℝ) : Fin 2 → Fin 2 → ℝ := planeStress (simpModulus (1e-3 * 1) 1 3 (theta 0)) 0.3 u_grad

/-! ## Two corners of one cell -/

section
variable {nq nf nfq : ℕ} {F : Fem 4 nq nf nfq 2 2} {Nx Ny : ℕ} {Lx Ly : ℝ} (h : OnRect F Nx Ny Lx Ly) (hNx : 0 < Nx) (hNy : 0 < Ny) (hLx : 0 < Lx) (hLy : 0 < Ly)
include h hNx hNy hLx hLy

theorem cells_held (Z : ℕ → Prop) (i j : ℕ) (hi : i < Nx) (hj : j < Ny) (a b : Fin 4) (hab : a ≠ b) (ha : Z (rectCell Ny i j a)) (hb : Z (rectCell Ny i j b)) :
    ∀ i' < Nx, ∀ j' < Ny, ∀ p, F.Held Z (rectCell Ny i' j' p) := by
  have e := edge_cell h hNx hNy hLx hLy Z
  have h0 : ∀ p, F.Held Z (rectCell Ny i j p) := e i j hi hj a b hab (.fixed _ ha) (.fixed _ hb)
  have right : ∀ i, i + 1 < Nx → ∀ j < Ny, (∀ p, F.Held Z (rectCell Ny i j p)) → ∀ p, F.Held Z (rectCell Ny (i + 1) j p) := fun i hi j hj hp => e (i + 1) j hi hj 0 3 (by decide)
    (by have := hp 1; simpa [rectCell, Verif.Mesh.quadCorner] using this) (by have := hp 2; simpa [rectCell, Verif.Mesh.quadCorner] using this)
  have left : ∀ i, i + 1 < Nx → ∀ j < Ny, (∀ p, F.Held Z (rectCell Ny (i + 1) j p)) → ∀ p, F.Held Z (rectCell Ny i j p) := fun i hi j hj hp => e i j (by omega) hj 1 2 (by decide)
    (by have := hp 0; simpa [rectCell, Verif.Mesh.quadCorner] using this) (by have := hp 3; simpa [rectCell, Verif.Mesh.quadCorner] using this)
  have up : ∀ i < Nx, ∀ j, j + 1 < Ny → (∀ p, F.Held Z (rectCell Ny i j p)) → ∀ p, F.Held Z (rectCell Ny i (j + 1) p) := fun i hi j hj hp => e i (j + 1) hi hj 0 1 (by decide)
    (by have := hp 3; simpa [rectCell, Verif.Mesh.quadCorner] using this) (by have := hp 2; simpa [rectCell, Verif.Mesh.quadCorner] using this)
  have down : ∀ i < Nx, ∀ j, j + 1 < Ny → (∀ p, F.Held Z (rectCell Ny i (j + 1) p)) → ∀ p, F.Held Z (rectCell Ny i j p) := fun i hi j hj hp => e i j hi (by omega) 3 2 (by decide)
    (by have := hp 0; simpa [rectCell, Verif.Mesh.quadCorner] using this) (by have := hp 1; simpa [rectCell, Verif.Mesh.quadCorner] using this)
  have toZero : ∀ k ≤ i, ∀ p, F.Held Z (rectCell Ny (i - k) j p) := by
    intro k
    induction k with
    | zero => exact fun _ => h0
    | succ k ih =>
      intro hk
      have e : i - k = i - (k + 1) + 1 := by omega
      exact left (i - (k + 1)) (by omega) j hj (e ▸ ih (by omega))
  have row : ∀ i' < Nx, ∀ p, F.Held Z (rectCell Ny i' j p) := by
    intro i'
    induction i' with
    | zero => exact fun _ => by simpa using toZero i le_rfl
    | succ k ih => exact fun hk => right k hk j hj (ih (by omega))
  intro i' hi'
  have colZero : ∀ k ≤ j, ∀ p, F.Held Z (rectCell Ny i' (j - k) p) := by
    intro k
    induction k with
    | zero => exact fun _ => row i' hi'
    | succ k ih =>
      intro hk
      have e : j - k = j - (k + 1) + 1 := by omega
      exact down i' hi' (j - (k + 1)) (by omega) (e ▸ ih (by omega))
  intro j'
  induction j' with
  | zero => exact fun _ => by simpa using colZero j le_rfl
  | succ k ih => exact fun hk => up i' hi' k hk (ih (by omega))

theorem nodes_held (Z : ℕ → Prop) (i j : ℕ) (hi : i < Nx) (hj : j < Ny) (a b : Fin 4) (hab : a ≠ b) (ha : Z (rectCell Ny i j a)) (hb : Z (rectCell Ny i j b)) (n : ℕ) (hn : n < F.numTotal) : F.Held Z n := by
  rw [h.num] at hn
  obtain ⟨k, l, hk, hl, rfl⟩ := Verif.Mesh.idx2_surj hn
  have key := cells_held h hNx hNy hLx hLy Z i j hi hj a b hab ha hb
  by_cases hk' : k < Nx <;> by_cases hl' : l < Ny
  · simpa [rectCell, Verif.Mesh.quadCorner] using key k hk' l hl' 0
  · obtain rfl : l = Ny := by omega
    have := key k hk' (l - 1) (by omega) 3
    simp [rectCell, Verif.Mesh.quadCorner] at this
    rwa [show l - 1 + 1 = l by omega] at this
  · obtain rfl : k = Nx := by omega
    have := key (k - 1) (by omega) l hl' 1
    simp [rectCell, Verif.Mesh.quadCorner] at this
    rwa [show k - 1 + 1 = k by omega] at this
  · obtain rfl : k = Nx := by omega
    obtain rfl : l = Ny := by omega
    have := key (k - 1) (by omega) (l - 1) (by omega) 2
    simp [rectCell, Verif.Mesh.quadCorner] at this
    rwa [show k - 1 + 1 = k by omega, show l - 1 + 1 = l by omega] at this

end

/-- **C162 (two corners).** A rectangle of any size and number of cells: conditions that fix both components at two corners of one cell, wherever it lies, hold the whole body. -/
theorem C162_clamped {Nx Ny : ℕ} {Lx Ly : ℝ} (hNx : 0 < Nx) (hNy : 0 < Ny) (hLx : 0 < Lx) (hLy : 0 < Ly) (loc : Loc 2) (t : (Fin 2 → ℝ) → Fin 2 → ℝ) (fixed : Loc 2) (i j : ℕ) (hi : i < Nx) (hj : j < Ny)
    (a b : Fin 4) (hab : a ≠ b) (ha : fixed ((exampleFem Nx Ny Lx Ly loc t).points (rectCell Ny i j a)) = true) (hb : fixed ((exampleFem Nx Ny Lx Ly loc t).points (rectCell Ny i j b)) = true) :
    ∃ ns cs ws, dirichletBC (exampleFem Nx Ny Lx Ly loc t).numTotal (exampleFem Nx Ny Lx Ly loc t).points (some (exampleInfo fixed)) = .ok (ns, cs, ws) ∧
      Clamped (exampleFem Nx Ny Lx Ly loc t) (groupsOf ns cs ws) := by
  set F := exampleFem Nx Ny Lx Ly loc t with hFdef
  have hR : OnRect F Nx Ny Lx Ly := example_rect loc t
  obtain ⟨⟨ns, cs, ws⟩, hbc⟩ := (C17_accepted F.numTotal F.points (exampleInfo fixed).1 (exampleInfo fixed).2.1 (exampleInfo fixed).2.2).1.mpr ⟨rfl, rfl⟩
  refine ⟨ns, cs, ws, hbc, ?_, ?_, ?_, ?_⟩
  · exact C19_groups_wf (F.toProb (groupsOf ns cs ws)) (show 0 < 2 by decide) F.numTotal F.points _ _ _ ns cs ws hbc rfl
  · exact zero_prescriptions (F.toProb (groupsOf ns cs ws)) F.numTotal F.points _ _ _ (by simp [exampleInfo]) ns cs ws hbc rfl
  · have key : ∀ p, fixed (F.points (rectCell Ny i j p)) = true → rectCell Ny i j p < F.numTotal ∧ ∀ c : Fin 2, ¬ FreeAt (F.toProb (groupsOf ns cs ws)).prescriptions (2 * rectCell Ny i j p + c) := by
      intro p hfix
      have hlt : rectCell Ny i j p < F.numTotal := hR.mesh _ ((hR.mem_cells _).mpr ⟨i, j, hi, hj, rfl⟩) p
      refine ⟨hlt, fun c hf => ?_⟩
      have hu := (user_prescriptions (F.toProb (groupsOf ns cs ws)) F.points _ _ _ (by simp [exampleInfo]; exact ⟨by show (0 : ℕ) < 2; decide, by show (1 : ℕ) < 2; decide⟩) ns cs ws hbc rfl _ c hlt c.isLt).1.mp hf
      fin_cases c
      · exact hu (fixed, 0, fun _ => 0) (by simp [exampleInfo]) ⟨hfix, rfl⟩
      · exact hu (fixed, 1, fun _ => 0) (by simp [exampleInfo]) ⟨hfix, rfl⟩
    exact fun n hn => nodes_held hR hNx hNy hLx hLy _ i j hi hj a b hab (key a ha) (key b hb) n hn
  · refine C88_rigid_quad4 _ (example_tables loc t) fun c hc => ?_
    obtain ⟨i, j, hi, hj, rfl⟩ := (hR.mem_cells c).mp hc
    refine ⟨![(i : ℝ) * (Lx / Nx), (j : ℝ) * (Ly / Ny)], ![Lx / Nx, Ly / Ny], fun a => ?_, fun p a => hR.corner i j hj p a⟩
    fin_cases a
    · exact (div_pos hLx (by exact_mod_cast hNx)).ne'
    · exact (div_pos hLy (by exact_mod_cast hNy)).ne'

/-! ## The two programs -/

theorem building_law : DensityLaw buildingStress (fun theta => simpModulus (1e-3 * 1e5) 1e5 3 (theta 0)) (planeStress 1 0.3) (1e-3 * 1e5) 1e5 :=
  simp_density _ _ _ _ _ (by norm_num) (by norm_num) (C102_plane 0.3 (by norm_num) (by norm_num)) fun g theta => planeStress_scale _ _ g

theorem tree_law : DensityLaw treeStress (fun theta => simpModulus (1e-3 * 1) 1 3 (theta 0)) (planeStress 1 0.3) (1e-3 * 1) 1 :=
  simp_density _ _ _ _ _ (by norm_num) (by norm_num) (C102_plane 0.3 (by norm_num) (by norm_num)) fun g theta => planeStress_scale _ _ g

/-- **C162 (supports).** The ground of the building holds it on every mesh; the foot of the tree (the tenth of the lower side around its middle) holds it for 20 or more cells over the width (the default is 200) and for 11, 13, 15, 17, 19. -/
theorem C162_supports {Nx Ny : ℕ} {Lx Ly : ℝ} (hNx : 0 < Nx) (hNy : 0 < Ny) (hLx : 0 < Lx) (hLy : 0 < Ly) (loc : Loc 2) (t : (Fin 2 → ℝ) → Fin 2 → ℝ) :
    (∃ ns cs ws, dirichletBC (exampleFem Nx Ny Lx Ly loc t).numTotal (exampleFem Nx Ny Lx Ly loc t).points (some (exampleInfo buildingFixed)) = .ok (ns, cs, ws) ∧ Clamped (exampleFem Nx Ny Lx Ly loc t) (groupsOf ns cs ws)) ∧
    ((20 ≤ Nx ∨ (Odd Nx ∧ 11 ≤ Nx)) → ∃ ns cs ws, dirichletBC (exampleFem Nx Ny Lx Ly loc t).numTotal (exampleFem Nx Ny Lx Ly loc t).points (some (exampleInfo (treeFixed Lx))) = .ok (ns, cs, ws) ∧
      Clamped (exampleFem Nx Ny Lx Ly loc t) (groupsOf ns cs ws)) := by
  have hR : OnRect (exampleFem Nx Ny Lx Ly loc t) Nx Ny Lx Ly := example_rect loc t
  have hN : (0 : ℝ) < Nx := by exact_mod_cast hNx
  have foot : ∀ i (p : Fin 4), p = 0 ∨ p = 1 → (exampleFem Nx Ny Lx Ly loc t).points (rectCell Ny i 0 p) 1 = 0 ∧ (exampleFem Nx Ny Lx Ly loc t).points (rectCell Ny i 0 p) 0 = (i + Verif.Mesh.quadCorner p 0) * (Lx / Nx) := by
    intro i p hp
    rw [hR.corner i 0 hNy, hR.corner i 0 hNy]
    constructor
    · rcases hp with rfl | rfl <;> simp [Verif.Mesh.quadCorner]
    · simp
      ring
  constructor
  · refine C162_clamped hNx hNy hLx hLy loc t buildingFixed 0 0 hNx hNy 0 1 (by decide) ?_ ?_
    · rw [buildingFixed, isclose_iff, (foot 0 0 (.inl rfl)).1]; norm_num
    · rw [buildingFixed, isclose_iff, (foot 0 1 (.inr rfl)).1]; norm_num
  · intro h20
    obtain ⟨i, h1, h2, hlt⟩ : ∃ i : ℕ, (0.45 * Nx : ℝ) ≤ i ∧ (i : ℝ) + 1 ≤ 0.55 * Nx ∧ i < Nx := by
      rcases Nat.even_or_odd Nx with ⟨k, hk⟩ | ⟨k, hk⟩
      · have h3 : 10 ≤ k := by
          rcases h20 with h | ⟨h, -⟩
          · omega
          · exact absurd h (Nat.not_odd_iff_even.mpr ⟨k, hk⟩)
        have h4 : (10 : ℝ) ≤ k := by exact_mod_cast h3
        refine ⟨k, ?_, ?_, by omega⟩ <;> rw [hk] <;> push_cast <;> linarith
      · have h3 : 5 ≤ k := by
          rcases h20 with h | ⟨-, h⟩ <;> omega
        have h4 : (5 : ℝ) ≤ k := by exact_mod_cast h3
        refine ⟨k, ?_, ?_, by omega⟩ <;> rw [hk] <;> push_cast <;> linarith
    have ok : ∀ p : Fin 4, p = 0 ∨ p = 1 → treeFixed Lx ((exampleFem Nx Ny Lx Ly loc t).points (rectCell Ny i 0 p)) = true := by
      intro p hp
      obtain ⟨f1, f0⟩ := foot i p hp
      have q0 : (0 : ℝ) ≤ Verif.Mesh.quadCorner p 0 := Nat.cast_nonneg _
      have q1 : (Verif.Mesh.quadCorner p 0 : ℝ) ≤ 1 := by exact_mod_cast quadCorner_le p 0
      have c0 : isclose ((exampleFem Nx Ny Lx Ly loc t).points (rectCell Ny i 0 p) 1) 0 1e-5 = true := by rw [isclose_iff, f1]; norm_num
      have e : ((i : ℝ) + Verif.Mesh.quadCorner p 0) * (Lx / Nx) = Lx * (((i : ℝ) + Verif.Mesh.quadCorner p 0) / Nx) := by ring
      have c1 : 0.45 * Lx ≤ (exampleFem Nx Ny Lx Ly loc t).points (rectCell Ny i 0 p) 0 := by
        rw [f0, e, mul_comm]
        refine mul_le_mul_of_nonneg_left ?_ hLx.le
        rw [le_div_iff₀ hN]
        linarith
      have c2 : (exampleFem Nx Ny Lx Ly loc t).points (rectCell Ny i 0 p) 0 ≤ 0.55 * Lx := by
        rw [f0, e, mul_comm (0.55 : ℝ)]
        refine mul_le_mul_of_nonneg_left ?_ hLx.le
        rw [div_le_iff₀ hN]
        linarith
      unfold treeFixed
      simp only [c0, c1, c2, decide_true, Bool.and_self]
    exact C162_clamped hNx hNy hLx hLy loc t (treeFixed Lx) i 0 hlt hNy 0 1 (by decide) (ok 0 (.inl rfl)) (ok 1 (.inr rfl))

/-! ## Too few cells under the tree -/

section
variable {Nx Ny : ℕ} {Lx Ly : ℝ} (hNx : 0 < Nx) (hNy : 0 < Ny) (hLx : 0 < Lx) (hLy : 0 < Ly)
include hNx hNy hLx hLy

theorem rigid_work (loc : Loc 2) (t : (Fin 2 → ℝ) → Fin 2 → ℝ) (e : ℕ → ℝ) (v u : ℕ → Fin 2 → ℝ) (a b w : ℝ) (hv : IsRigid (exampleFem Nx Ny Lx Ly loc t) a b w v) :
    totalWork (exampleFem Nx Ny Lx Ly loc t) (planeStress 1 0.3) e v u = 0 := by
  have hR := example_rect (Nx := Nx) (Ny := Ny) (Lx := Lx) (Ly := Ly) loc t
  have ht := example_tables (Nx := Nx) (Ny := Ny) (Lx := Lx) (Ly := Ly) loc t
  unfold totalWork
  refine List.sum_eq_zero fun x hx => ?_
  obtain ⟨⟨c, k⟩, hp, rfl⟩ := List.mem_map.mp hx
  have hc := zipIdx_mem hp
  have h0 := (cell_rigid hR ht hNx hNy hLx hLy v c hc).mpr ⟨(a, b, w), fun p => hv _ (hR.mesh c hc p)⟩
  have hvol := rect_vol hR ht hNx hNy hLx hLy c hc
  have h1 : ∀ q i j, (exampleFem Nx Ny Lx Ly loc t).gradAt v c q i j + (exampleFem Nx Ny Lx Ly loc t).gradAt v c q j i = 0 := by
    intro q
    have h2 := (sum_eq_zero_iff_of_nonneg fun q _ => mul_nonneg (planeLaw.nonneg ((exampleFem Nx Ny Lx Ly loc t).gradAt v c q)) (hvol q).le).mp h0 q (mem_univ q)
    exact planeLaw.strict _ ((mul_eq_zero.mp h2).resolve_right (hvol q).ne')
  refine mul_eq_zero_of_right _ (sum_eq_zero fun q _ => ?_)
  have hz : planeStress 1 0.3 ((exampleFem Nx Ny Lx Ly loc t).gradAt v c q) = 0 := by
    have z0 := h1 q 0 0
    have z1 := h1 q 1 1
    have z2 := h1 q 0 1
    have y0 : (exampleFem Nx Ny Lx Ly loc t).gradAt v c q 0 0 = 0 := by linarith
    have y1 : (exampleFem Nx Ny Lx Ly loc t).gradAt v c q 1 1 = 0 := by linarith
    have y2 : (exampleFem Nx Ny Lx Ly loc t).gradAt v c q 1 0 = -(exampleFem Nx Ny Lx Ly loc t).gradAt v c q 0 1 := by linarith
    funext i j
    fin_cases i <;> fin_cases j <;> simp [planeStress, y0, y1, y2]
  rw [hz]
  simp

theorem tree_top (hfine : 1e-5 + 1e-5 * Ly < Ly / Ny) (j : ℕ) (hj : j ≤ Ny) (x : ℝ) : treeLoad Ly ![x, (j : ℝ) * (Ly / Ny)] = true ↔ j = Ny := by
  have hN : (0 : ℝ) < Ny := by exact_mod_cast hNy
  have e : (Ny : ℝ) * (Ly / Ny) = Ly := by field_simp
  simp only [treeLoad, isclose_iff, Matrix.cons_val_one, Matrix.cons_val_zero]
  rw [abs_of_pos hLy]
  constructor
  · intro h
    by_contra hne
    have h1 : (j : ℝ) + 1 ≤ Ny := by exact_mod_cast (by omega : j + 1 ≤ Ny)
    have h2 := mul_le_mul_of_nonneg_right h1 (div_pos hLy hN).le
    have h3 := neg_abs_le ((j : ℝ) * (Ly / Ny) - Ly)
    linarith
  · rintro rfl
    rw [e, sub_self, abs_zero]
    positivity

/-- **C162 (load).** The traction of the tree acts on the upper edges of the upper cells and on nothing else; a uniform traction `t` there has the resultant `t·Lx` (for the tree: `Lx` downwards). -/
theorem C162_load (hfine : 1e-5 + 1e-5 * Ly < Ly / Ny) (tr : (Fin 2 → ℝ) → Fin 2 → ℝ) :
    (∀ i j, i < Nx → j < Ny → ∀ f, (exampleFem Nx Ny Lx Ly (treeLoad Ly) tr).onBoundary (treeLoad Ly) (rectCell Ny i j) f = true ↔ j + 1 = Ny ∧ f = 3) ∧
    ∀ t v : Fin 2 → ℝ, tractionWork (exampleFem Nx Ny Lx Ly (treeLoad Ly) tr) (treeLoad Ly) (fun _ => t) (fun _ => v) = (∑ i, t i * v i) * Lx := by
  set F := exampleFem Nx Ny Lx Ly (treeLoad Ly) tr with hF
  have h : OnRect F Nx Ny Lx Ly := example_rect _ _
  have ht := example_faces (Nx := Nx) (Ny := Ny) (Lx := Lx) (Ly := Ly) (treeLoad Ly) tr
  have hon : ∀ i j, i < Nx → j < Ny → ∀ f, F.onBoundary (treeLoad Ly) (rectCell Ny i j) f = true ↔ j + 1 = Ny ∧ f = 3 := by
    intro i j hi hj f
    have hp : ∀ p, treeLoad Ly (F.coos (rectCell Ny i j) p) = true ↔ j + Verif.Mesh.quadCorner p 1 = Ny := fun p => by
      have hq := quadCorner_le p 1
      show treeLoad Ly (F.points ((i + Verif.Mesh.quadCorner p 0) * (Ny + 1) + (j + Verif.Mesh.quadCorner p 1))) = true ↔ _
      rw [h.point _ _ (by omega)]
      exact tree_top hNx hNy hLx hLy hfine _ (by omega) _
    unfold Fem.onBoundary
    rw [List.all_eq_true]
    simp only [hp, faceInds_quad4 F (gaussRule 1) ht]
    constructor
    · intro hall
      fin_cases f
      · have h1 := hall 0 rfl
        simp [Verif.Mesh.quadCorner] at h1
        omega
      · have h1 := hall 0 rfl
        simp [Verif.Mesh.quadCorner] at h1
        omega
      · have h1 := hall 1 rfl
        simp [Verif.Mesh.quadCorner] at h1
        omega
      · have h1 := hall 2 rfl
        simp [Verif.Mesh.quadCorner] at h1
        exact ⟨h1, rfl⟩
    · rintro ⟨h1, rfl⟩ p hpp
      fin_cases p <;> simp [Verif.Mesh.quadCorner, quadAxis, quadSide] at hpp ⊢ <;> omega
  refine ⟨hon, fun t v => ?_⟩
  have hconst : ∀ i j f q, j < Ny → (∑ a, t a * F.uFace (fun _ => v) (rectCell Ny i j, f) q a) * F.nansonScale (rectCell Ny i j) f q = (∑ a, t a * v a) * ((gaussRule 1).w q * ![Ly / Ny, Lx / Nx] (quadAxis f)) := by
    intro i j f q hj
    rw [nansonScale_rect F h (gaussRule 1) ht hNx hNy hLx hLy i j hj]
    congr 1
    refine sum_congr rfl fun a _ => ?_
    congr 1
    unfold Fem.uFace
    rw [← mul_sum, faceTables_valSum F "QUAD4" (by decide) quad4 getElements_quad4 (by decide) (gaussRule 1) ht, mul_one]
  unfold tractionWork Fem.selected
  have hflat : ∀ (l : List (Fin 4 → ℕ)) (G : (Fin 4 → ℕ) → List ((Fin 4 → ℕ) × Fin 4)) (H : (Fin 4 → ℕ) × Fin 4 → ℝ), ((l.flatMap G).map H).sum = (l.map fun c => ((G c).map H).sum).sum := by
    intro l G H
    induction l with
    | nil => simp
    | cons c l ih => simp [ih]
  rw [hflat]
  have hcell : ∀ i j, i < Nx → j < Ny → ((((List.finRange 4).filter fun f => F.onBoundary (treeLoad Ly) (rectCell Ny i j) f).map fun f => (rectCell Ny i j, f)).map
      fun p => ∑ q, (∑ a, t a * F.uFace (fun _ => v) p q a) * F.nansonScale p.1 p.2 q).sum = if j + 1 = Ny then (∑ a, t a * v a) * (Lx / Nx) else 0 := by
    intro i j hi hj
    have hfil : ((List.finRange 4).filter fun f => F.onBoundary (treeLoad Ly) (rectCell Ny i j) f) = if j + 1 = Ny then [3] else [] := by
      rw [List.filter_congr (q := fun f => decide (j + 1 = Ny ∧ f = 3)) fun f _ => by rw [Bool.eq_iff_iff, hon i j hi hj, decide_eq_true_iff]]
      split_ifs with hc
      · simp only [hc, true_and]
        decide
      · rw [List.filter_eq_nil_iff]
        intro f _ hf
        rw [decide_eq_true_iff] at hf
        exact hc hf.1
    rw [hfil]
    split_ifs with hc
    · simp only [List.map_cons, List.map_nil, List.sum_cons, List.sum_nil, add_zero, hconst i j 3 _ hj]
      rw [← mul_sum, ← sum_mul, gaussRule_sum]
      simp [quadAxis]
    · simp
  rw [h.sum_cells]
  rw [sum_congr rfl fun i hi => sum_congr rfl fun j hj => hcell i j (mem_range.mp hi) (mem_range.mp hj)]
  have hrow : ∑ j ∈ range Ny, (if j + 1 = Ny then (∑ a, t a * v a) * (Lx / Nx) else 0) = (∑ a, t a * v a) * (Lx / Nx) := by
    rw [sum_eq_single (Ny - 1)]
    · rw [if_pos (by omega)]
    · exact fun j _ hj => if_neg (by omega)
    · exact fun hj => absurd (mem_range.mpr (by omega)) hj
  simp only [hrow, sum_const, card_range, nsmul_eq_mul]
  have hN : (Nx : ℝ) ≠ 0 := by exact_mod_cast hNx.ne'
  field_simp

omit hNx hNy hLx hLy in
theorem fixed_iff (x : Fin 2 → ℝ) : treeFixed Lx x = true ↔ |x 1| ≤ 1e-5 ∧ 0.45 * Lx ≤ x 0 ∧ x 0 ≤ 0.55 * Lx := by
  simp [treeFixed, isclose_iff, and_assoc]

theorem foot_node (hfine : 1e-5 < Ly / Ny) (i j : ℕ) (hi : i ≤ Nx) : treeFixed Lx ![(i : ℝ) * (Lx / Nx), (j : ℝ) * (Ly / Ny)] = true ↔ j = 0 ∧ 9 * Nx ≤ 20 * i ∧ 20 * i ≤ 11 * Nx := by
  have hN : (0 : ℝ) < Nx := by exact_mod_cast hNx
  have hM : (0 : ℝ) < Ny := by exact_mod_cast hNy
  have hy : 0 < Ly / Ny := div_pos hLy hM
  simp only [fixed_iff, Matrix.cons_val_zero, Matrix.cons_val_one]
  have e : (i : ℝ) * (Lx / Nx) = Lx * (i / Nx) := by ring
  have a1 : 0.45 * Lx ≤ (i : ℝ) * (Lx / Nx) ↔ 9 * Nx ≤ 20 * i := by
    rw [e, mul_comm, mul_le_mul_iff_right₀ hLx, le_div_iff₀ hN]
    constructor
    · intro h
      have : (9 * Nx : ℝ) ≤ 20 * i := by linarith
      exact_mod_cast this
    · intro h
      have : (9 * Nx : ℝ) ≤ 20 * i := by exact_mod_cast h
      linarith
  have a2 : (i : ℝ) * (Lx / Nx) ≤ 0.55 * Lx ↔ 20 * i ≤ 11 * Nx := by
    rw [e, mul_comm (0.55 : ℝ), mul_le_mul_iff_right₀ hLx, div_le_iff₀ hN]
    constructor
    · intro h
      have : (20 * i : ℝ) ≤ 11 * Nx := by linarith
      exact_mod_cast this
    · intro h
      have : (20 * i : ℝ) ≤ 11 * Nx := by exact_mod_cast h
      linarith
  rw [a1, a2]
  refine and_congr_left fun _ => ?_
  rw [abs_of_nonneg (by positivity)]
  constructor
  · intro h
    by_contra hne
    have h1 : (1 : ℝ) ≤ j := by exact_mod_cast Nat.one_le_iff_ne_zero.mpr hne
    have h2 := mul_le_mul_of_nonneg_right h1 hy.le
    linarith
  · rintro rfl
    norm_num

/-- **C162 (no foot).** With 1, 3, 5, 7 or 9 cells over the width no node lies in the foot of the tree: the conditions are accepted, and then the discrete problem has no solution, whatever the densities. -/
theorem C162_unheld (hfine : 1e-5 + 1e-5 * Ly < Ly / Ny) (hodd : Odd Nx) (h9 : Nx ≤ 9) {m : ℕ} (flex : List ℕ) (hnd : flex.Nodup) (hlen : flex.length = m) :
    ∃ ns cs ws, dirichletBC (exampleFem Nx Ny Lx Ly (treeLoad Ly) treeTraction).numTotal (exampleFem Nx Ny Lx Ly (treeLoad Ly) treeTraction).points (some (exampleInfo (treeFixed Lx))) = .ok (ns, cs, ws) ∧
      ∀ (p : Fin m → ℝ) (u : ℕ → Fin 2 → ℝ), ¬ (topFem (exampleFem Nx Ny Lx Ly (treeLoad Ly) treeTraction) treeStress flex (rowParams p)).Solves
        ((exampleFem Nx Ny Lx Ly (treeLoad Ly) treeTraction).toProb (groupsOf ns cs ws)).prescriptions u := by
  set F := exampleFem Nx Ny Lx Ly (treeLoad Ly) treeTraction with hFdef
  have hR : OnRect F Nx Ny Lx Ly := example_rect _ _
  have hld : Loaded F (treeLoad Ly) treeTraction := C105_loaded hNx hNy hLx hLy _ _
  obtain ⟨⟨ns, cs, ws⟩, hbc⟩ := (C17_accepted F.numTotal F.points (exampleInfo (treeFixed Lx)).1 (exampleInfo (treeFixed Lx)).2.1 (exampleInfo (treeFixed Lx)).2.2).1.mpr ⟨rfl, rfl⟩
  refine ⟨ns, cs, ws, hbc, fun p u hu => ?_⟩
  have hfree : ∀ n < F.numTotal, ∀ c : Fin 2, FreeAt (F.toProb (groupsOf ns cs ws)).prescriptions (2 * n + c) := by
    intro n hn c
    refine (user_prescriptions (F.toProb (groupsOf ns cs ws)) F.points _ _ _ (by simp [exampleInfo]; exact ⟨by show (0 : ℕ) < 2; decide, by show (1 : ℕ) < 2; decide⟩) ns cs ws hbc rfl n c hn c.isLt).1.mpr ?_
    have hno : treeFixed Lx (F.points n) ≠ true := by
      rw [hR.num] at hn
      obtain ⟨i, j, hi, hj, rfl⟩ := Verif.Mesh.idx2_surj hn
      rw [hR.point i j (by omega)]
      intro hc
      obtain ⟨-, h1, h2⟩ := (foot_node hNx hNy hLx hLy (by linarith) i j (by omega)).mp hc
      obtain ⟨k, hk⟩ := hodd
      rcases Nat.lt_or_ge i (k + 1) with h3 | h3 <;> omega
    intro t ht
    have h1 : t.1 = treeFixed Lx := by
      simp [exampleInfo] at ht
      rcases ht with rfl | rfl <;> rfl
    rw [h1]
    exact fun h => hno h.1
  rw [flexFem_eq F tree_law flex hnd hlen] at hu
  have h1 := Verif.Fem.solves_test F hld _ _ u (fun _ => ![0, 1]) hu fun n hn i hf => absurd (hfree n hn i) hf
  rw [totalWork_symm F planeLaw, rigid_work hNx hNy hLx hLy _ _ _ _ _ 0 1 0 (fun n _ => by simp)] at h1
  have h2 := (C162_load hNx hNy hLx hLy hfine treeTraction).2 ![0, -1] ![0, 1]
  have h3 : tractionWork F (treeLoad Ly) treeTraction (fun _ => ![0, 1]) = tractionWork F (treeLoad Ly) (fun _ => ![0, -1]) (fun _ => ![0, 1]) := rfl
  rw [h3, h2, Fin.sum_univ_two] at h1
  simp at h1
  linarith

/-- The rotation about the middle of the lower side. -/
noncomputable def turn (F : Fem 4 (2 ^ 2) 4 (2 ^ 1) 2 2) (Lx : ℝ) (s : ℝ) : ℕ → Fin 2 → ℝ := fun n => ![-(s * F.points n 1), s * (F.points n 0 - Lx / 2)]

/-- **C162 (pivot).** With an even number of cells below 20 the foot of the tree is one node: the discrete problem then never has exactly one solution, since with every solution all rotations of it about that node are
solutions as well. -/
theorem C162_pivot (hfine : 1e-5 < Ly / Ny) (heven : Even Nx) (h20 : Nx < 20) {m : ℕ} (flex : List ℕ) (hnd : flex.Nodup) (hlen : flex.length = m) :
    ∃ ns cs ws, dirichletBC (exampleFem Nx Ny Lx Ly (treeLoad Ly) treeTraction).numTotal (exampleFem Nx Ny Lx Ly (treeLoad Ly) treeTraction).points (some (exampleInfo (treeFixed Lx))) = .ok (ns, cs, ws) ∧
      ∀ (p : Fin m → ℝ) (u : ℕ → Fin 2 → ℝ), (topFem (exampleFem Nx Ny Lx Ly (treeLoad Ly) treeTraction) treeStress flex (rowParams p)).Solves
          ((exampleFem Nx Ny Lx Ly (treeLoad Ly) treeTraction).toProb (groupsOf ns cs ws)).prescriptions u →
        ∀ s, (topFem (exampleFem Nx Ny Lx Ly (treeLoad Ly) treeTraction) treeStress flex (rowParams p)).Solves
          ((exampleFem Nx Ny Lx Ly (treeLoad Ly) treeTraction).toProb (groupsOf ns cs ws)).prescriptions (u + turn (exampleFem Nx Ny Lx Ly (treeLoad Ly) treeTraction) Lx s) := by
  set F := exampleFem Nx Ny Lx Ly (treeLoad Ly) treeTraction with hFdef
  have hR : OnRect F Nx Ny Lx Ly := example_rect _ _
  have hld : Loaded F (treeLoad Ly) treeTraction := C105_loaded hNx hNy hLx hLy _ _
  obtain ⟨⟨ns, cs, ws⟩, hbc⟩ := (C17_accepted F.numTotal F.points (exampleInfo (treeFixed Lx)).1 (exampleInfo (treeFixed Lx)).2.1 (exampleInfo (treeFixed Lx)).2.2).1.mpr ⟨rfl, rfl⟩
  refine ⟨ns, cs, ws, hbc, fun p u hu s => ?_⟩
  rw [flexFem_eq F tree_law flex hnd hlen] at hu ⊢
  set e := fun k => simpE (1e-3 * 1) 1 3 p (flex.idxOf k) with he
  set pres := (F.toProb (groupsOf ns cs ws)).prescriptions with hpres
  have hzero : ∀ n < F.numTotal, ∀ c : Fin 2, ¬ FreeAt pres (2 * n + c) → turn F Lx s n c = 0 := by
    intro n hn c hf
    have hfix : treeFixed Lx (F.points n) = true := by
      by_contra hno
      refine hf ((user_prescriptions (F.toProb (groupsOf ns cs ws)) F.points _ _ _ (by simp [exampleInfo]; exact ⟨by show (0 : ℕ) < 2; decide, by show (1 : ℕ) < 2; decide⟩) ns cs ws hbc rfl n c hn c.isLt).1.mpr ?_)
      intro t ht
      have h1 : t.1 = treeFixed Lx := by
        simp [exampleInfo] at ht
        rcases ht with rfl | rfl <;> rfl
      rw [h1]
      exact fun h => hno h.1
    rw [hR.num] at hn
    obtain ⟨i, j, hi, hj, rfl⟩ := Verif.Mesh.idx2_surj hn
    unfold turn
    rw [hR.point i j (by omega)] at hfix ⊢
    obtain ⟨rfl, h1, h2⟩ := (foot_node hNx hNy hLx hLy hfine i j (by omega)).mp hfix
    obtain ⟨k, hk⟩ := heven
    have hik : i = k := by omega
    have hN : (Nx : ℝ) ≠ 0 := by exact_mod_cast hNx.ne'
    have e2 : (i : ℝ) * (Lx / Nx) - Lx / 2 = 0 := by
      have : (Nx : ℝ) = 2 * i := by rw [hik, hk]; push_cast; ring
      have hi0 : (i : ℝ) ≠ 0 := fun h => hN (by rw [this, h, mul_zero])
      rw [this]
      field_simp
      ring
    fin_cases c
    · simp
    · simp [e2]
  obtain ⟨R, hRu, hs⟩ := hu
  have hRv := scaled_returns F (C := planeStress 1 0.3) hld e (u + turn F Lx s)
  refine ⟨_, hRv, fun n hn i => ⟨fun v hv => ?_, fun hf => ?_⟩⟩
  · have hnf : ¬ FreeAt pres (2 * n + i) := by
      obtain ⟨l1, l2, hl, -⟩ := hv
      intro hf
      exact hf (2 * n + i, v) (by rw [hl]; simp) rfl
    show u n i + turn F Lx s n i = v
    rw [hzero n hn i hnf, add_zero]
    exact (hs n hn i).1 v hv
  · set δ : ℕ → Fin 2 → ℝ := fun k c => if k = n ∧ c = i then 1 else 0 with hδ
    have pick : ∀ S : ℕ → Fin 2 → ℝ, ∑ k ∈ range F.numTotal, ∑ c, S k c * δ k c = S n i := by
      intro S
      rw [sum_eq_single n, sum_eq_single i]
      · simp [hδ]
      · intro c _ hc
        simp [hδ, hc]
      · exact fun h => absurd (mem_univ _) h
      · intro k _ hk
        exact sum_eq_zero fun c _ => by simp [hδ, hk]
      · exact fun h => absurd (mem_range.mpr hn) h
    have b1 := Verif.Fem.balance F (C := planeStress 1 0.3) hld e u δ R hRu
    have b2 := Verif.Fem.balance F (C := planeStress 1 0.3) hld e _ δ _ hRv
    rw [pick] at b1 b2
    have hrig : IsRigid F 0 (-(s * (Lx / 2))) s (turn F Lx s) := fun k _ => by
      simp only [turn]
      constructor
      · simp
      · simp; ring
    rw [totalWork_symm F planeLaw, totalWork_add F planeLaw, totalWork_symm F planeLaw e δ (turn F Lx s), rigid_work hNx hNy hLx hLy _ _ e _ δ _ _ _ hrig, add_zero, totalWork_symm F planeLaw, ← b1, (hs n hn i).2 hf] at b2
    exact b2

end

/-- **C162 (program).** Building and tree on rectangles of any size and number of cells (the tree with enough cells): for all densities `p ≥ 0` reverse mode returns the derivative of the compliance, without positive
entries, the compliance is not negative and full material has the least one. -/
theorem C162_program {Nx Ny : ℕ} {Lx Ly : ℝ} (hNx : 0 < Nx) (hNy : 0 < Ny) (hLx : 0 < Lx) (hLy : 0 < Ly) (m : ℕ) (lin : ℕ → LinCall ℝ → ℕ → ℝ) (hlin : ExactLin ((Nx + 1) * (Ny + 1) * 2) lin) (fuel : ℕ) :
    let good (F : Fem 4 (2 ^ 2) 4 (2 ^ 1) 2 2) (t : (Fin 2 → ℝ) → Fin 2 → ℝ) (fixed : Loc 2) (stress : (Fin 2 → Fin 2 → ℝ) → (ℕ → ℝ) → Fin 2 → Fin 2 → ℝ) (flex : List ℕ) : Prop :=
      ∃ ns cs ws, dirichletBC F.numTotal F.points (some (exampleInfo fixed)) = .ok (ns, cs, ws) ∧
        let D := flexProb F stress (groupsOf ns cs ws) flex m
        ∀ p : Fin m → ℝ, (∀ j, 0 ≤ p j) → ∃ g : Fin m → ℝ, D.revGrad lin true false fuel (complianceObj F t) p = .ok g ∧
          HasFDerivAt (D.objective lin true false fuel (complianceObj F t)) (∑ j, g j • (ContinuousLinearMap.proj j : (Fin m → ℝ) →L[ℝ] ℝ)) p ∧ (∀ j, g j ≤ 0) ∧
          0 ≤ D.objective lin true false fuel (complianceObj F t) p ∧
          ((∀ j, p j ≤ 1) → D.objective lin true false fuel (complianceObj F t) (fun _ => 1) ≤ D.objective lin true false fuel (complianceObj F t) p)
    let B := exampleFem Nx Ny Lx Ly (buildingLoad Lx) (buildingTraction Ly)
    let T := exampleFem Nx Ny Lx Ly (treeLoad Ly) treeTraction
    (m = B.cells.length → good B (buildingTraction Ly) buildingFixed buildingStress (flexInds B (buildingFlex Lx Ly))) ∧
    ((20 ≤ Nx ∨ (Odd Nx ∧ 11 ≤ Nx)) → m = T.cells.length → good T treeTraction (treeFixed Lx) treeStress (List.range m)) := by
  intro good B T
  constructor
  · intro hm
    obtain ⟨ns, cs, ws, hbc, hcl⟩ := (C162_supports hNx hNy hLx hLy (buildingLoad Lx) (buildingTraction Ly)).1
    have hld : Loaded B (buildingLoad Lx) (buildingTraction Ly) := C105_loaded hNx hNy hLx hLy _ _
    have hgen := flexInds_sorted B (buildingFlex Lx Ly)
    have hlen : (flexInds B (buildingFlex Lx Ly)).length = m := by rw [C161_building, List.length_range, hm]
    refine ⟨ns, cs, ws, hbc, fun p hp => ?_⟩
    obtain ⟨u, g, -, -, h3, h4, h5⟩ := C160_gradient B building_law hld _ hgen.2 (by norm_num) (groupsOf ns cs ws) hcl hlen hgen.1 p hp lin hlin false fuel
    obtain ⟨k1, -, -, k4⟩ := C160_bounds B building_law hld _ hgen.2 (by norm_num) (groupsOf ns cs ws) hcl hlen hgen.1 p hp lin hlin false fuel
    exact ⟨g, h3, h4, fun j => (h5 j).2, k1, k4⟩
  · intro hN hm
    obtain ⟨ns, cs, ws, hbc, hcl⟩ := (C162_supports hNx hNy hLx hLy (treeLoad Ly) treeTraction).2 hN
    have hld : Loaded T (treeLoad Ly) treeTraction := C105_loaded hNx hNy hLx hLy _ _
    refine ⟨ns, cs, ws, hbc, fun p hp => ?_⟩
    obtain ⟨u, g, -, -, h3, h4, h5⟩ := C160_gradient T tree_law hld _ List.nodup_range (by norm_num) (groupsOf ns cs ws) hcl List.length_range (fun k hk => hm ▸ List.mem_range.mp hk) p hp lin hlin false fuel
    obtain ⟨k1, -, -, k4⟩ := C160_bounds T tree_law hld _ List.nodup_range (by norm_num) (groupsOf ns cs ws) hcl List.length_range (fun k hk => hm ▸ List.mem_range.mp hk) p hp lin hlin false fuel
    exact ⟨g, h3, h4, fun j => (h5 j).2, k1, k4⟩

/-- The default of the file, 200 × 200 cells on the unit square: held, with a load of 1 downwards. -/
example : (∃ ns cs ws, dirichletBC (exampleFem 200 200 1 1 (treeLoad 1) treeTraction).numTotal (exampleFem 200 200 1 1 (treeLoad 1) treeTraction).points (some (exampleInfo (treeFixed 1))) = .ok (ns, cs, ws) ∧
      Clamped (exampleFem 200 200 1 1 (treeLoad 1) treeTraction) (groupsOf ns cs ws)) ∧
    ∀ v : Fin 2 → ℝ, tractionWork (exampleFem 200 200 1 1 (treeLoad 1) treeTraction) (treeLoad 1) treeTraction (fun _ => v) = -v 1 := by
  refine ⟨(C162_supports (by norm_num) (by norm_num) (by norm_num) (by norm_num) _ _).2 (.inl (by norm_num)), fun v => ?_⟩
  refine ((C162_load (by norm_num) (by norm_num) (by norm_num) (by norm_num) (by norm_num) treeTraction).2 ![0, -1] v).trans ?_
  rw [Fin.sum_univ_two]
  simp

/-! ## The wind on the building -/

section
variable {Nx Ny : ℕ} {Lx Ly : ℝ} (hNx : 0 < Nx) (hNy : 0 < Ny) (hLx : 0 < Lx) (hLy : 0 < Ly)
include hNx hNy hLx hLy

theorem building_sides (hfine : 1e-5 + 1e-5 * Lx < Lx / Nx) (i : ℕ) (hi : i ≤ Nx) (y : ℝ) : buildingLoad Lx ![(i : ℝ) * (Lx / Nx), y] = true ↔ i = 0 ∨ i = Nx := by
  have hN : (0 : ℝ) < Nx := by exact_mod_cast hNx
  have e : (Nx : ℝ) * (Lx / Nx) = Lx := by field_simp
  have hx := div_pos hLx hN
  simp only [buildingLoad, Bool.or_eq_true, isclose_iff, Matrix.cons_val_zero, abs_zero, mul_zero, add_zero, sub_zero]
  rw [abs_of_pos hLx, abs_of_nonneg (by positivity : 0 ≤ (i : ℝ) * (Lx / Nx))]
  refine or_congr ⟨fun h => ?_, ?_⟩ ⟨fun h => ?_, ?_⟩
  · by_contra hne
    have h1 : (1 : ℝ) ≤ i := by exact_mod_cast Nat.one_le_iff_ne_zero.mpr hne
    have h2 := mul_le_mul_of_nonneg_right h1 hx.le
    have h3 : 0 < 1e-5 * Lx := by positivity
    linarith
  · rintro rfl
    norm_num
  · by_contra hne
    have h1 : (i : ℝ) + 1 ≤ Nx := by exact_mod_cast (by omega : i + 1 ≤ Nx)
    have h2 := mul_le_mul_of_nonneg_right h1 hx.le
    have h3 := neg_abs_le ((i : ℝ) * (Lx / Nx) - Lx)
    linarith
  · rintro rfl
    rw [e, sub_self, abs_zero]
    positivity

omit hNx hLx hLy in
theorem side_height (loc : Loc 2) (t : (Fin 2 → ℝ) → Fin 2 → ℝ) (i j : ℕ) (hj : j < Ny) (f : Fin 4) (hf : f = 1 ∨ f = 2) (q : Fin (2 ^ 1)) :
    (exampleFem Nx Ny Lx Ly loc t).xFace (rectCell Ny i j, f) q 1 = (j + (gaussRule 1).pt q 0) * (Ly / Ny) := by
  have hR := example_rect (Nx := Nx) (Ny := Ny) (Lx := Lx) (Ly := Ly) loc t
  have ht := example_faces (Nx := Nx) (Ny := Ny) (Lx := Lx) (Ly := Ly) loc t
  have hp : facePoint quad4 f ((gaussRule 1).pt q) 1 = (gaussRule 1).pt q 0 := by
    rcases hf with rfl | rfl <;> simp [facePoint, quad4, basixFacets, vertexCoord, basixVertices, basisFn, lag, List.zipIdx, List.range_succ]
  unfold Fem.xFace
  simp only [ht.vals, hR.corner i j hj, shapeVal_quad4, Fin.sum_univ_four, hp]
  simp [Verif.Mesh.quadCorner, lin]
  ring

/-- **C162 (wind).** The traction of the building acts on the outer edges of the left and of the right cells and on nothing else, on both sides in the same direction; its resultant is `10·Ly` to the right. -/
theorem C162_wind (hfine : 1e-5 + 1e-5 * Lx < Lx / Nx) (tr : (Fin 2 → ℝ) → Fin 2 → ℝ) :
    (∀ i j, i < Nx → j < Ny → ∀ f, (exampleFem Nx Ny Lx Ly (buildingLoad Lx) tr).onBoundary (buildingLoad Lx) (rectCell Ny i j) f = true ↔ (i = 0 ∧ f = 1) ∨ (i + 1 = Nx ∧ f = 2) ∨ (Nx = 1 ∧ (f = 0 ∨ f = 3))) ∧
    (1 < Nx → ∀ v : Fin 2 → ℝ, tractionWork (exampleFem Nx Ny Lx Ly (buildingLoad Lx) tr) (buildingLoad Lx) (buildingTraction Ly) (fun _ => v) = 10 * Ly * v 0) := by
  set F := exampleFem Nx Ny Lx Ly (buildingLoad Lx) tr with hF
  have h : OnRect F Nx Ny Lx Ly := example_rect _ _
  have ht := example_faces (Nx := Nx) (Ny := Ny) (Lx := Lx) (Ly := Ly) (buildingLoad Lx) tr
  have hon : ∀ i j, i < Nx → j < Ny → ∀ f, F.onBoundary (buildingLoad Lx) (rectCell Ny i j) f = true ↔ (i = 0 ∧ f = 1) ∨ (i + 1 = Nx ∧ f = 2) ∨ (Nx = 1 ∧ (f = 0 ∨ f = 3)) := by
    intro i j hi hj f
    have hp : ∀ p, buildingLoad Lx (F.coos (rectCell Ny i j) p) = true ↔ i + Verif.Mesh.quadCorner p 0 = 0 ∨ i + Verif.Mesh.quadCorner p 0 = Nx := fun p => by
      have hq := quadCorner_le p 1
      have hq0 := quadCorner_le p 0
      show buildingLoad Lx (F.points ((i + Verif.Mesh.quadCorner p 0) * (Ny + 1) + (j + Verif.Mesh.quadCorner p 1))) = true ↔ _
      rw [h.point _ _ (by omega)]
      exact building_sides hNx hNy hLx hLy hfine _ (by omega) _
    unfold Fem.onBoundary
    rw [List.all_eq_true]
    simp only [hp, faceInds_quad4 F (gaussRule 1) ht]
    constructor
    · intro hall
      fin_cases f
      · have h1 := hall 0 rfl
        have h2 := hall 1 rfl
        simp [Verif.Mesh.quadCorner] at h1 h2 ⊢
        omega
      · have h1 := hall 0 rfl
        simp [Verif.Mesh.quadCorner] at h1 ⊢
        omega
      · have h1 := hall 2 rfl
        simp [Verif.Mesh.quadCorner] at h1 ⊢
        omega
      · have h1 := hall 2 rfl
        have h2 := hall 3 rfl
        simp [Verif.Mesh.quadCorner] at h1 h2 ⊢
        omega
    · rintro (⟨h1, rfl⟩ | ⟨h1, rfl⟩ | ⟨h1, rfl | rfl⟩) p hpp <;>
        fin_cases p <;> simp [Verif.Mesh.quadCorner, quadAxis, quadSide] at hpp ⊢ <;> omega
  refine ⟨hon, fun hN1 v => ?_⟩
  have hface : ∀ i j f, f = 1 ∨ f = 2 → j < Ny → (∑ q, (∑ a, buildingTraction Ly (F.xFace (rectCell Ny i j, f) q) a * F.uFace (fun _ => v) (rectCell Ny i j, f) q a) * F.nansonScale (rectCell Ny i j) f q) =
      10 * v 0 * Ly / Ny ^ 2 * (j + 1 / 2) := by
    intro i j f hf hj
    have hu : ∀ q a, F.uFace (fun _ => v) (rectCell Ny i j, f) q a = v a := by
      intro q a
      unfold Fem.uFace
      rw [← mul_sum, faceTables_valSum F "QUAD4" (by decide) quad4 getElements_quad4 (by decide) (gaussRule 1) ht, mul_one]
    have hax : (![Ly / Ny, Lx / Nx] : Fin 2 → ℝ) (quadAxis f) = Ly / Ny := by rcases hf with rfl | rfl <;> rfl
    have hx := fun q => side_height (Nx := Nx) (Lx := Lx) (Ly := Ly) hNy (buildingLoad Lx) tr i j hj f hf q
    simp only [hu, nansonScale_rect F h (gaussRule 1) ht hNx hNy hLx hLy i j hj, hax, Fin.sum_univ_two, buildingTraction, Matrix.cons_val_zero, Matrix.cons_val_one, zero_mul, add_zero]
    rw [sum_congr rfl fun q _ => by rw [hx q]]
    have hg := gauss_add
    have hs : ∑ q : Fin (2 ^ 1), (gaussRule 1).pt q 0 = 1 := by
      show ∑ q : Fin 2, gaussPoint ((q : ℕ).testBit 0) = 1
      rw [Fin.sum_univ_two]
      simp
      linarith
    have hN : (0 : ℝ) < Ny := by exact_mod_cast hNy
    have e : ∀ q : Fin (2 ^ 1), 10 * ((j + (gaussRule 1).pt q 0) * (Ly / Ny)) / Ly * v 0 * ((gaussRule 1).w q * (Ly / Ny)) = 5 * v 0 * Ly / Ny ^ 2 * j + 5 * v 0 * Ly / Ny ^ 2 * (gaussRule 1).pt q 0 := by
      intro q
      simp only [gaussRule]
      field_simp
      ring
    rw [sum_congr rfl fun q _ => e q, sum_add_distrib, ← mul_sum, ← mul_sum, hs, sum_const, card_univ, Fintype.card_fin]
    simp
    ring
  unfold tractionWork Fem.selected
  have hflat : ∀ (l : List (Fin 4 → ℕ)) (G : (Fin 4 → ℕ) → List ((Fin 4 → ℕ) × Fin 4)) (H : (Fin 4 → ℕ) × Fin 4 → ℝ), ((l.flatMap G).map H).sum = (l.map fun c => ((G c).map H).sum).sum := by
    intro l G H
    induction l with
    | nil => simp
    | cons c l ih => simp [ih]
  rw [hflat]
  have hcell : ∀ i j, i < Nx → j < Ny → ((((List.finRange 4).filter fun f => F.onBoundary (buildingLoad Lx) (rectCell Ny i j) f).map fun f => (rectCell Ny i j, f)).map
      fun p => ∑ q, (∑ a, buildingTraction Ly (F.xFace p q) a * F.uFace (fun _ => v) p q a) * F.nansonScale p.1 p.2 q).sum = ((if i = 0 then 1 else 0) + if i + 1 = Nx then 1 else 0) * (10 * v 0 * Ly / Ny ^ 2 * (j + 1 / 2)) := by
    intro i j hi hj
    have hfil : ((List.finRange 4).filter fun f => F.onBoundary (buildingLoad Lx) (rectCell Ny i j) f) = if i = 0 then [1] else if i + 1 = Nx then [2] else [] := by
      rw [List.filter_congr (q := fun f => decide ((i = 0 ∧ f = 1) ∨ (i + 1 = Nx ∧ f = 2))) fun f _ => by
        rw [Bool.eq_iff_iff, hon i j hi hj, decide_eq_true_iff]
        constructor
        · rintro (h1 | h1 | h1)
          · exact .inl h1
          · exact .inr h1
          · omega
        · rintro (h1 | h1)
          · exact .inl h1
          · exact .inr (.inl h1)]
      split_ifs with h0 h1
      · have : ¬ (i + 1 = Nx) := by omega
        simp only [h0, this, true_and, false_and, or_false]
        have : ¬ (0 + 1 = Nx) := by omega
        simp only [this, false_and, or_false]
        decide
      · simp only [h0, h1, true_and, false_and, false_or]
        decide
      · simp [h0, h1]
    rw [hfil]
    split_ifs with h0 h1 h1
    · omega
    · simp only [List.map_cons, List.map_nil, List.sum_cons, List.sum_nil, add_zero, hface i j 1 (.inl rfl) hj, one_mul]
    · simp only [List.map_cons, List.map_nil, List.sum_cons, List.sum_nil, add_zero, zero_add, hface i j 2 (.inr rfl) hj, one_mul]
    · simp
  rw [h.sum_cells]
  rw [sum_congr rfl fun i hi => sum_congr rfl fun j hj => hcell i j (mem_range.mp hi) (mem_range.mp hj)]
  simp only [← mul_sum, ← sum_mul]
  have hi : ∑ i ∈ range Nx, (((if i = 0 then 1 else 0) + if i + 1 = Nx then 1 else 0) : ℝ) = 2 := by
    rw [sum_add_distrib, sum_eq_single 0, sum_eq_single (Nx - 1)]
    · rw [if_pos rfl, if_pos (by omega)]
      norm_num
    · exact fun i _ hi => if_neg (by omega)
    · exact fun hi => absurd (mem_range.mpr (by omega)) hi
    · exact fun i _ hi => if_neg hi
    · exact fun hi => absurd (mem_range.mpr hNx) hi
  have hj : ∀ n : ℕ, ∑ j ∈ range n, ((j : ℝ) + 1 / 2) = n ^ 2 / 2 := by
    intro n
    induction n with
    | zero => simp
    | succ n ih =>
      rw [sum_range_succ, ih]
      push_cast
      ring
  rw [hi, hj]
  have hN : (0 : ℝ) < Ny := by exact_mod_cast hNy
  field_simp

end

end Verif.Fem.TreeTop
