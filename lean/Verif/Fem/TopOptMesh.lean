import Verif.Fem.TopOptGrad

/-!
# C105: the mesh, clamp and load of the topology optimisation example (demos/fem/topology_optimization/example.py 73-102)
-/
namespace Verif.Fem
open Finset

variable {nq nf nfq vec : ℕ}

/-- The cell at grid position `(i, j)` of `rectangle_mesh` (common.py 58-73). -/
def rectCell (Ny i j : ℕ) (p : Fin 4) : ℕ := (i + Verif.Mesh.quadCorner p 0) * (Ny + 1) + (j + Verif.Mesh.quadCorner p 1)

/-- Specification: the object is built on `rectangle_mesh`. -/
structure OnRect (F : Fem 4 nq nf nfq 2 vec) (Nx Ny : ℕ) (Lx Ly : ℝ) : Prop where
  points : F.points = (Verif.Mesh.rectangleMesh Nx Ny Lx Ly).points.get
  cells : F.cells = (Verif.Mesh.rectangleMesh Nx Ny Lx Ly).cells.toList
  num : F.numTotal = (Nx + 1) * (Ny + 1)

theorem quadCorner_le (p : Fin 4) (a : Fin 2) : Verif.Mesh.quadCorner p a ≤ 1 := by
  revert p a; decide

theorem quadCorner_nodes (p : Fin 4) (a : Fin 2) : ((meshioNodes "QUAD4").getD p []).getD a 0 = 2 * Verif.Mesh.quadCorner p a := by
  revert p a; decide +kernel

section
variable {F : Fem 4 nq nf nfq 2 vec} {Nx Ny : ℕ} {Lx Ly : ℝ} (h : OnRect F Nx Ny Lx Ly)
include h

theorem OnRect.point (i j : ℕ) (hj : j ≤ Ny) : F.points (i * (Ny + 1) + j) = ![(i : ℝ) * (Lx / Nx), (j : ℝ) * (Ly / Ny)] := by
  rw [h.points]
  exact Verif.Mesh.rectangleMesh_point Nx Ny Lx Ly (Nat.lt_succ_of_le hj)

theorem OnRect.mem_cells (c : Fin 4 → ℕ) : c ∈ F.cells ↔ ∃ i j, i < Nx ∧ j < Ny ∧ c = rectCell Ny i j := by
  have hc : ∀ i j, j < Ny → (Verif.Mesh.rectangleMesh Nx Ny Lx Ly).cells.get (i * Ny + j) = rectCell Ny i j := by
    intro i j hj
    rw [Verif.Mesh.rectangleMesh_cell Nx Ny Lx Ly hj]
    funext p
    fin_cases p <;> rfl
  rw [h.cells]
  simp only [Arr1.toList, List.mem_map, List.mem_range]
  constructor
  · rintro ⟨t, ht, rfl⟩
    obtain ⟨i, j, hi, hj, rfl⟩ := Verif.Mesh.idx2_surj (show t < Nx * Ny from ht)
    exact ⟨i, j, hi, hj, hc i j hj⟩
  · rintro ⟨i, j, hi, hj, rfl⟩
    exact ⟨i * Ny + j, Verif.Mesh.idx2_lt hi hj, hc i j hj⟩

theorem OnRect.corner (i j : ℕ) (hj : j < Ny) (p : Fin 4) (a : Fin 2) :
    F.points (rectCell Ny i j p) a = ![(i : ℝ) * (Lx / Nx), (j : ℝ) * (Ly / Ny)] a + Verif.Mesh.quadCorner p a * ![Lx / Nx, Ly / Ny] a := by
  unfold rectCell
  rw [h.point _ _ (by have := quadCorner_le p 1; omega)]
  fin_cases a <;> simp <;> ring

theorem OnRect.mesh : ∀ c ∈ F.cells, ∀ a, c a < F.numTotal := by
  intro c hc p
  obtain ⟨i, j, hi, hj, rfl⟩ := (h.mem_cells c).mp hc
  rw [h.num]
  have h0 := quadCorner_le p 0
  have h1 := quadCorner_le p 1
  exact Verif.Mesh.idx2_lt (by omega) (by omega)

theorem OnRect.jacobian (rule : QuadRule nq) (ht : CellTables F quad4 rule) (i j : ℕ) (hj : j < Ny) (q : Fin nq) :
    F.jacobian (rectCell Ny i j) q = Matrix.diagonal ![Lx / Nx, Ly / Ny] := by
  refine jacobian_brick F "QUAD4" (by decide) quad4 getElements_quad4 (by decide) (by decide) rule.pt ⟨ht.vals, ht.grads⟩ _ _ ![(i : ℝ) * (Lx / Nx), (j : ℝ) * (Ly / Ny)] ?_ q
  intro p a
  rw [h.corner i j hj, quadCorner_nodes]
  push_cast
  ring

theorem OnRect.faceJacobian (rule : QuadRule nfq) (ht : FaceTables F quad4 rule) (i j : ℕ) (hj : j < Ny) (f : Fin nf) (q : Fin nfq) :
    F.faceJacobian (rectCell Ny i j) f q = Matrix.diagonal ![Lx / Nx, Ly / Ny] := by
  let F' : Fem 4 nfq nf nfq 2 vec := ⟨F.numTotal, F.points, F.cells, fun q n => F.faceShapeVals f q n, fun q n b => F.faceShapeGradsRef f q n b, fun _ => 0, F.faceShapeVals,
    F.faceShapeGradsRef, F.faceWeights, F.faceNormals, F.faceInds, none, none, none, none, none, none, none, none⟩
  exact jacobian_brick F' "QUAD4" (by decide) quad4 getElements_quad4 (by decide) (by decide) (fun q => facePoint quad4 f (rule.pt q)) ⟨fun q n => ht.vals f q n, fun q n b => ht.grads f q n b⟩
    (rectCell Ny i j) ![Lx / Nx, Ly / Ny] ![(i : ℝ) * (Lx / Nx), (j : ℝ) * (Ly / Ny)] (fun p a => by
      rw [show F'.points = F.points from rfl, h.corner i j hj, quadCorner_nodes]
      push_cast
      ring) q

end

/-- **C88 (elements).** QUAD4 rectangles (edges along the axes, any lengths) with the 2x2 rule have no deformation of zero strain apart from rigid motions. -/
theorem C88_rigid_quad4 (F : Fem 4 (2 ^ 2) nf nfq 2 2) (ht : CellTables F quad4 (gaussRule 2))
    (hrect : ∀ c ∈ F.cells, ∃ o h : Fin 2 → ℝ, (∀ a, h a ≠ 0) ∧ ∀ p a, F.points (c p) a = o a + Verif.Mesh.quadCorner p a * h a) : F.RigidModes := by
  intro c hc w hw
  obtain ⟨o, h, hne, hpt⟩ := hrect c hc
  have hjac : ∀ q, F.jacobian c q = Matrix.diagonal h := fun q =>
    jacobian_brick F "QUAD4" (by decide) quad4 getElements_quad4 (by decide) (by decide) (gaussRule 2).pt ⟨ht.vals, ht.grads⟩ c h o (fun p a => by rw [hpt, quadCorner_nodes]; push_cast; ring) q
  have hinv : (Matrix.diagonal h : Matrix (Fin 2) (Fin 2) ℝ)⁻¹ = Matrix.diagonal fun a => (h a)⁻¹ := by
    refine Matrix.inv_eq_right_inv ?_
    rw [Matrix.diagonal_mul_diagonal, ← Matrix.diagonal_one]
    congr 1
    funext a
    exact mul_inv_cancel₀ (hne a)
  have hgrad : ∀ q a d, F.shapeGrad c q a d = shapeGradRef quad4 a ((gaussRule 2).pt q) d * (h d)⁻¹ := by
    intro q a d
    simp only [Fem.shapeGrad, hjac, hinv, Matrix.diagonal_apply, mul_ite, mul_zero, sum_ite_eq', mem_univ, if_true, ht.grads]
  have hi : ∀ a, (h a)⁻¹ ≠ 0 := fun a => inv_ne_zero (hne a)
  have hs : ∀ (v : Fin 2 → Bool) (i j : Fin 2), ∃ x : ℕ → ℝ, (∀ a : Fin 2, x a = gaussPoint (v a)) ∧
      (∑ a, w a i * shapeGradRef quad4 a x j) * (h j)⁻¹ + (∑ a, w a j * shapeGradRef quad4 a x i) * (h i)⁻¹ = 0 := by
    intro v i j
    obtain ⟨q, hq⟩ := gauss_pt2 v
    refine ⟨(gaussRule 2).pt q, hq, ?_⟩
    have := hw q i j
    simp only [hgrad] at this
    rw [sum_mul, sum_mul]
    simpa only [mul_assoc] using this
  have g0 : ∀ (i : Fin 2) (x : ℕ → ℝ), ∑ a, w a i * shapeGradRef quad4 a x (0 : Fin 2) = (w 1 i - w 0 i) * (1 - x 1) + (w 2 i - w 3 i) * x 1 := by
    intro i x
    simp only [fun a => (shapeGradRef_quad4 a x).1, Fin.sum_univ_four]
    simp [Verif.Mesh.quadCorner, lin, slope]
    ring
  have g1 : ∀ (i : Fin 2) (x : ℕ → ℝ), ∑ a, w a i * shapeGradRef quad4 a x (1 : Fin 2) = (w 3 i - w 0 i) * (1 - x 0) + (w 2 i - w 1 i) * x 0 := by
    intro i x
    simp only [fun a => (shapeGradRef_quad4 a x).2, Fin.sum_univ_four]
    simp [Verif.Mesh.quadCorner, lin, slope]
    ring
  obtain ⟨a1, a2⟩ := lin_zero (w 1 0 - w 0 0) (w 2 0 - w 3 0) fun b => by
    obtain ⟨x, hx, h1⟩ := hs ![b, b] 0 0
    rw [g0] at h1
    have e1 := hx 1
    simp at e1
    rw [← e1]
    exact (mul_eq_zero.mp (show ((w 1 0 - w 0 0) * (1 - x 1) + (w 2 0 - w 3 0) * x 1) * (h 0)⁻¹ = 0 by linarith)).resolve_right (hi 0)
  obtain ⟨b1, b2⟩ := lin_zero (w 3 1 - w 0 1) (w 2 1 - w 1 1) fun b => by
    obtain ⟨x, hx, h1⟩ := hs ![b, b] 1 1
    rw [g1] at h1
    have e1 := hx 0
    simp at e1
    rw [← e1]
    exact (mul_eq_zero.mp (show ((w 3 1 - w 0 1) * (1 - x 0) + (w 2 1 - w 1 1) * x 0) * (h 1)⁻¹ = 0 by linarith)).resolve_right (hi 1)
  have hsh : (w 3 0 - w 0 0) * (h 1)⁻¹ + (w 1 1 - w 0 1) * (h 0)⁻¹ = 0 := by
    obtain ⟨x, hx, h1⟩ := hs ![true, true] 0 1
    rw [g0, g1] at h1
    have e1 : w 2 0 - w 1 0 = w 3 0 - w 0 0 := by linarith
    have e2 : w 2 1 - w 3 1 = w 1 1 - w 0 1 := by linarith
    rw [e1, e2] at h1
    linear_combination h1
  refine ⟨fun i j => (w (![1, 3] j) i - w 0 i) * (h j)⁻¹, fun i => w 0 i - ∑ d, (w (![1, 3] d) i - w 0 i) * (h d)⁻¹ * o d, fun i j => ?_, fun p i => ?_⟩
  · fin_cases i <;> fin_cases j <;> simp [a1, b1] <;> linarith
  · have hk : ∀ d, (w (![1, 3] d) i - w 0 i) * (h d)⁻¹ * (o d + Verif.Mesh.quadCorner p d * h d)
        = (w (![1, 3] d) i - w 0 i) * (h d)⁻¹ * o d + Verif.Mesh.quadCorner p d * (w (![1, 3] d) i - w 0 i) := by
      intro d
      have := hne d
      field_simp
    simp only [hpt, hk, sum_add_distrib]
    have hfin : w p i - w 0 i = ∑ d : Fin 2, (Verif.Mesh.quadCorner p d : ℝ) * (w (![1, 3] d) i - w 0 i) := by
      rw [Fin.sum_univ_two]
      fin_cases p <;> fin_cases i <;> simp [Verif.Mesh.quadCorner] <;> linarith
    linarith

/-- One held column of nodes holds the whole rectangle. -/
theorem rect_held {F : Fem 4 nq nf nfq 2 2} {Nx Ny : ℕ} {Lx Ly : ℝ} (h : OnRect F Nx Ny Lx Ly) (hNy : 0 < Ny) (hLy : 0 < Ly) (Z : ℕ → Prop)
    (hZ : ∀ j ≤ Ny, Z j) (i : ℕ) (hi : i ≤ Nx) : ∀ j ≤ Ny, F.Held Z (i * (Ny + 1) + j) := by
  induction i with
  | zero => exact fun j hj => .fixed _ (by simpa using hZ j hj)
  | succ i ih =>
    intro j hj
    have ih' := ih (by omega)
    -- the cell to the left of the node, below or above
    obtain ⟨j0, p, hj0, hp⟩ : ∃ j0 p, j0 < Ny ∧ (i + 1) * (Ny + 1) + j = rectCell Ny i j0 p := by
      by_cases hlt : j < Ny
      · exact ⟨j, 1, hlt, rfl⟩
      · obtain rfl : j = Ny := by omega
        refine ⟨j - 1, 2, by omega, ?_⟩
        show (i + 1) * (j + 1) + j = (i + 1) * (j + 1) + (j - 1 + 1)
        omega
    rw [hp]
    refine Fem.Held.cell (rectCell Ny i j0) {0, 3} p ((h.mem_cells _).mpr ⟨i, j0, by omega, hj0, rfl⟩) ⟨0, by simp⟩ ?_ ?_
    · rintro b (rfl | rfl)
      · exact ih' j0 (by omega)
      · exact ih' (j0 + 1) (by omega)
    · have hset : {x | ∃ b ∈ ({0, 3} : Set (Fin 4)), x = F.points (rectCell Ny i j0 b)} = {F.points (rectCell Ny i j0 0), F.points (rectCell Ny i j0 3)} := by
        ext x
        simp
      rw [hset]
      refine spans_plane _ _ fun e => ?_
      have e1 := congrFun e 1
      rw [h.corner i j0 hj0, h.corner i j0 hj0] at e1
      have : (0 : ℝ) < Ly / Ny := div_pos hLy (by exact_mod_cast hNy)
      simp [Verif.Mesh.quadCorner] at e1
      rcases e1 with e1 | e1
      · exact hLy.ne' e1
      · omega

theorem zero_prescriptions {E : Type} {dim : ℕ} (P : Prob ℝ E) (numTotal : ℕ) (points : ℕ → Fin dim → ℝ) (locs : List (Loc dim)) (vecs : List ℕ) (vals : List ((Fin dim → ℝ) → ℝ)) (hz : ∀ v ∈ vals, ∀ x, v x = 0)
    (N C : List (List ℕ)) (W : List (List ℝ)) (h : dirichletBC numTotal points (some (locs, vecs, vals)) = .ok (N, C, W)) (hP : P.groups = groupsOf N C W) : ∀ p ∈ P.prescriptions, p.2 = 0 := by
  intro p hp
  unfold Prob.prescriptions at hp
  rw [hP] at hp
  obtain ⟨g, hg, hp⟩ := List.mem_flatMap.mp hp
  obtain ⟨t, ht, rfl⟩ := List.mem_map.mp hg
  have hw : p.2 ∈ t.2.2 := (List.of_mem_zip (show (p.1, p.2) ∈ _ from hp)).2
  have htW : t.2.2 ∈ W := (List.of_mem_zip (show (t.2.1, t.2.2) ∈ C.zip W from (List.of_mem_zip (show (t.1, t.2) ∈ _ from ht)).2)).2
  obtain ⟨i, hi, hti⟩ := List.getElem_of_mem htW
  obtain ⟨h1, h2⟩ := (C17_accepted numTotal points locs vecs vals).1.mp ⟨_, h⟩
  obtain ⟨-, -, lW, hall⟩ := C17_dirichlet numTotal points locs vecs vals N C W h
  have l1 : i < locs.length := by omega
  obtain ⟨ns, cs, ws, -, -, hws, -, -, -, -, hval⟩ := hall i (locs[i]) (vecs[i]'(by omega)) (vals[i]'(by omega)) (List.getElem?_eq_getElem _) (List.getElem?_eq_getElem _) (List.getElem?_eq_getElem _)
  rw [List.getElem?_eq_getElem hi, hti] at hws
  injection hws with hws
  rw [hws] at hw
  have key : ∀ (val : (Fin dim → ℝ) → ℝ), (∀ x, val x = 0) → ∀ (l : List ℕ) (l' : List ℝ), List.Forall₂ (fun n w => w = val (points n)) l l' → ∀ w ∈ l', w = 0 := by
    intro val hv0 l l' hf
    induction hf with
    | nil => simp
    | cons hab _ ih =>
      intro w hw
      rcases List.mem_cons.mp hw with rfl | hw
      · rw [hab, hv0]
      · exact ih w hw
  exact key _ (hz _ (List.getElem_mem _)) _ _ hval _ hw

/-! ## The example -/

/-- `np.isclose(a, b, atol=atol)` with its default `rtol=1e-5`. -/
noncomputable def isclose (a b atol : ℝ) : Bool := open Classical in decide (|a - b| ≤ atol + 1e-5 * |b|)

theorem isclose_iff (a b atol : ℝ) : isclose a b atol = true ↔ |a - b| ≤ atol + 1e-5 * |b| := decide_eq_true_iff

/-- `fixed_location` (example.py 79-80). -/
noncomputable def fixedLocation : Loc 2 := fun point => isclose (point 0) 0 1e-5

/-- `load_location` (example.py 82-83). -/
noncomputable def loadLocation (Lx Ly : ℝ) : Loc 2 := fun point => isclose (point 0) Lx 1e-5 && isclose (point 1) 0 (0.1 * Ly + 1e-5)

/-- `neumann_val` (example.py 88-89). -/
def neumannVal : (Fin 2 → ℝ) → Fin 2 → ℝ := fun _ => ![0, -100]

/-- The object of example.py 73-93 for any number of cells, any size and any load; `Elasticity(mesh, vec=2, dim=2, ele_type='QUAD4', ...)`, before the parameters are set. -/
noncomputable def exampleFem (Nx Ny : ℕ) (Lx Ly : ℝ) (loc : Loc 2) (t : (Fin 2 → ℝ) → Fin 2 → ℝ) : Fem 4 (2 ^ 2) 4 (2 ^ 1) 2 2 :=
  { Fem.ofElement 4 4 2 2 quad4 (gaussRule 2) (gaussRule 1) ((Nx + 1) * (Ny + 1)) (Verif.Mesh.rectangleMesh Nx Ny Lx Ly).points.get (Verif.Mesh.rectangleMesh Nx Ny Lx Ly).cells.toList with
    neumann := some ([loc], [fun _ _ => t]) }

/-- The Dirichlet data of example.py 91: `[[fixed_location]*2, [0, 1], [dirichlet_val]*2]`. -/
noncomputable def exampleInfo (fixed : Loc 2) : List (Loc 2) × List ℕ × List ((Fin 2 → ℝ) → ℝ) := (List.replicate 2 fixed, [0, 1], List.replicate 2 fun _ => 0)

section
variable {Nx Ny : ℕ} {Lx Ly : ℝ} (hNx : 0 < Nx) (hNy : 0 < Ny) (hLx : 0 < Lx) (hLy : 0 < Ly) (loc : Loc 2) (t : (Fin 2 → ℝ) → Fin 2 → ℝ)

theorem example_rect : OnRect (exampleFem Nx Ny Lx Ly loc t) Nx Ny Lx Ly := ⟨rfl, rfl, rfl⟩

theorem example_tables : CellTables (exampleFem Nx Ny Lx Ly loc t) quad4 (gaussRule 2) := ⟨fun _ _ => rfl, fun _ _ _ => rfl, fun _ => rfl⟩

theorem example_faces : FaceTables (exampleFem Nx Ny Lx Ly loc t) quad4 (gaussRule 1) :=
  ⟨fun _ _ _ => rfl, fun _ _ _ _ => rfl, fun _ _ => rfl, fun _ _ => rfl, fun f => by
    show List.map Fin.val (List.filterMap _ _) = _
    revert f
    decide +kernel⟩

include hNx hNy hLx hLy in
/-- **C105 (mesh).** A rectangle of any size and any number of cells, any load: the object is sound. -/
theorem C105_loaded : Loaded (exampleFem Nx Ny Lx Ly loc t) loc t := by
  have hR := example_rect (Nx := Nx) (Ny := Ny) (Lx := Lx) (Ly := Ly) loc t
  have hx : 0 < Lx / Nx := div_pos hLx (by exact_mod_cast hNx)
  have hy : 0 < Ly / Ny := div_pos hLy (by exact_mod_cast hNy)
  have hd : 0 < (Matrix.diagonal ![Lx / Nx, Ly / Ny]).det := by
    rw [Matrix.det_diagonal, Fin.prod_univ_two]
    exact mul_pos hx hy
  refine ⟨rfl, rfl, rfl, rfl, hR.mesh, ?_, ?_, ?_⟩
  · exact List.length_pos_of_mem ((hR.mem_cells (rectCell Ny 0 0)).mpr ⟨0, 0, hNx, hNy, rfl⟩)
  · intro p hp q
    obtain ⟨c, hc, hp⟩ := List.mem_flatMap.mp hp
    obtain ⟨f, -, rfl⟩ := List.mem_map.mp hp
    obtain ⟨i, j, hi, hj, rfl⟩ := (hR.mem_cells c).mp hc
    rw [hR.faceJacobian _ (example_faces loc t) i j hj]
    exact hd.ne'
  · intro c hc q
    obtain ⟨i, j, hi, hj, rfl⟩ := (hR.mem_cells c).mp hc
    unfold Fem.JxW
    rw [hR.jacobian _ (example_tables loc t) i j hj]
    exact mul_pos hd (gauss_w_pos 2 q)

include hNx hNy hLx hLy in
/-- **C105 (clamp).** Clamping both components at the nodes accepted by a predicate which holds on the left edge: the conditions are accepted, well-formed, zero, and hold the whole body. -/
theorem C105_clamped (fixed : Loc 2) (hfix : ∀ x : Fin 2 → ℝ, x 0 = 0 → fixed x = true) :
    ∃ ns cs ws, dirichletBC (exampleFem Nx Ny Lx Ly loc t).numTotal (exampleFem Nx Ny Lx Ly loc t).points (some (exampleInfo fixed)) = .ok (ns, cs, ws) ∧
      Clamped (exampleFem Nx Ny Lx Ly loc t) (groupsOf ns cs ws) := by
  set F := exampleFem Nx Ny Lx Ly loc t with hFdef
  have hR : OnRect F Nx Ny Lx Ly := example_rect loc t
  obtain ⟨⟨ns, cs, ws⟩, hbc⟩ := (C17_accepted F.numTotal F.points (exampleInfo fixed).1 (exampleInfo fixed).2.1 (exampleInfo fixed).2.2).1.mpr ⟨rfl, rfl⟩
  refine ⟨ns, cs, ws, hbc, ?_, ?_, ?_, ?_⟩
  · exact C19_groups_wf (F.toProb (groupsOf ns cs ws)) (show 0 < 2 by decide) F.numTotal F.points _ _ _ ns cs ws hbc rfl
  · exact zero_prescriptions (F.toProb (groupsOf ns cs ws)) F.numTotal F.points _ _ _ (by simp [exampleInfo]) ns cs ws hbc rfl
  · intro n hn
    rw [hR.num] at hn
    obtain ⟨i, j, hi, hj, rfl⟩ := Verif.Mesh.idx2_surj hn
    refine rect_held hR hNy hLy _ (fun j hj => ?_) i (by omega) j (by omega)
    have hlt : j < F.numTotal := by
      rw [hR.num]
      have := Verif.Mesh.idx2_lt (show 0 < Nx + 1 by omega) (show j < Ny + 1 by omega)
      simpa using this
    refine ⟨hlt, fun c hf => ?_⟩
    have hx : F.points j 0 = 0 := by
      have := congrFun (hR.point 0 j hj) 0
      simpa using this
    have hu := (user_prescriptions (F.toProb (groupsOf ns cs ws)) F.points _ _ _ (by simp [exampleInfo]; exact ⟨by show (0 : ℕ) < 2; decide, by show (1 : ℕ) < 2; decide⟩) ns cs ws hbc rfl j c hlt c.isLt).1.mp hf
    fin_cases c
    · exact hu (fixed, 0, fun _ => 0) (by simp [exampleInfo]) ⟨hfix _ hx, rfl⟩
    · exact hu (fixed, 1, fun _ => 0) (by simp [exampleInfo]) ⟨hfix _ hx, rfl⟩
  · refine C88_rigid_quad4 _ (example_tables loc t) fun c hc => ?_
    obtain ⟨i, j, hi, hj, rfl⟩ := (hR.mem_cells c).mp hc
    refine ⟨![(i : ℝ) * (Lx / Nx), (j : ℝ) * (Ly / Ny)], ![Lx / Nx, Ly / Ny], fun a => ?_, fun p a => hR.corner i j hj p a⟩
    fin_cases a
    · exact (div_pos hLx (by exact_mod_cast hNx)).ne'
    · exact (div_pos hLy (by exact_mod_cast hNy)).ne'

end

/-! ## The load -/

/-- Specification: axis of the normal of face `f` of the QUAD4 cell, and which of the two parallel faces. -/
def quadAxis : Fin 4 → Fin 2 := ![1, 0, 0, 1]
def quadSide : Fin 4 → ℕ := ![0, 0, 1, 1]

theorem faceInds_quad4 (F : Fem 4 nq 4 nfq 2 vec) (rule : QuadRule nfq) (ht : FaceTables F quad4 rule) (f : Fin 4) (p : Fin 4) :
    p ∈ F.faceInds f ↔ Verif.Mesh.quadCorner p (quadAxis f) = quadSide f := by
  have h := ht.inds f
  have k : ∀ (f : Fin 4) (p : Fin 4), (p : ℕ) ∈ ((faceInds quad4).getD []).getD f [] ↔ Verif.Mesh.quadCorner p (quadAxis f) = quadSide f := by decide +kernel
  rw [← k, ← h]
  exact (List.mem_map_of_injective Fin.val_injective).symm

theorem nansonScale_rect (F : Fem 4 nq 4 nfq 2 vec) {Nx Ny : ℕ} {Lx Ly : ℝ} (h : OnRect F Nx Ny Lx Ly) (rule : QuadRule nfq) (ht : FaceTables F quad4 rule) (hNx : 0 < Nx) (hNy : 0 < Ny) (hLx : 0 < Lx) (hLy : 0 < Ly)
    (i j : ℕ) (hj : j < Ny) (f : Fin 4) (q : Fin nfq) : F.nansonScale (rectCell Ny i j) f q = rule.w q * ![Ly / Ny, Lx / Nx] (quadAxis f) := by
  have hx : 0 < Lx / Nx := div_pos hLx (by exact_mod_cast hNx)
  have hy : 0 < Ly / Ny := div_pos hLy (by exact_mod_cast hNy)
  have hh : ∀ a, 0 < (![Lx / Nx, Ly / Ny] : Fin 2 → ℝ) a := by intro a; fin_cases a; exacts [hx, hy]
  unfold Fem.nansonScale
  have hinv : (Matrix.diagonal ![Lx / Nx, Ly / Ny] : Matrix (Fin 2) (Fin 2) ℝ)⁻¹ = Matrix.diagonal fun a => (![Lx / Nx, Ly / Ny] a)⁻¹ := by
    refine Matrix.inv_eq_right_inv ?_
    rw [Matrix.diagonal_mul_diagonal, ← Matrix.diagonal_one]
    exact congrArg _ (funext fun a => mul_inv_cancel₀ (hh a).ne')
  rw [h.faceJacobian rule ht i j hj, hinv, Matrix.det_diagonal, ht.weights]
  have hs : sizeJacobian quad4.cell f = 1 := by
    fin_cases f <;> simp [sizeJacobian, quad4, cellDim, basixVertices, sum_range_succ, facetJacobian, vertexCoord, basixFacets, cross]
  have hn : ∑ d, (∑ b, F.faceNormals f b * (Matrix.diagonal (fun a => (![Lx / Nx, Ly / Ny] a)⁻¹) : Matrix (Fin 2) (Fin 2) ℝ) b d) ^ 2 = ((![Lx / Nx, Ly / Ny] (quadAxis f))⁻¹) ^ 2 := by
    have hd : ∀ d, ∑ b, F.faceNormals f b * (Matrix.diagonal (fun a => (![Lx / Nx, Ly / Ny] a)⁻¹) : Matrix (Fin 2) (Fin 2) ℝ) b d = F.faceNormals f d * (![Lx / Nx, Ly / Ny] d)⁻¹ := by
      intro d
      rw [sum_eq_single d (fun b _ hb => by rw [Matrix.diagonal_apply_ne _ hb, mul_zero]) (fun h => absurd (mem_univ d) h), Matrix.diagonal_apply_eq]
    simp only [hd, ht.normals, Fin.sum_univ_two]
    fin_cases f <;> simp [quad4, facetNormals, quadAxis]
  rw [hn, Real.sqrt_sq (inv_pos.mpr (hh _)).le, hs, mul_one, Fin.prod_univ_two]
  fin_cases f <;> simp [quadAxis] <;> field_simp

theorem OnRect.sum_cells {F : Fem 4 nq nf nfq 2 vec} {Nx Ny : ℕ} {Lx Ly : ℝ} (h : OnRect F Nx Ny Lx Ly) (G : (Fin 4 → ℕ) → ℝ) : (F.cells.map G).sum = ∑ i ∈ range Nx, ∑ j ∈ range Ny, G (rectCell Ny i j) := by
  have hc : ∀ i j, j < Ny → (Verif.Mesh.rectangleMesh Nx Ny Lx Ly).cells.get (i * Ny + j) = rectCell Ny i j := by
    intro i j hj
    rw [Verif.Mesh.rectangleMesh_cell Nx Ny Lx Ly hj]
    funext p
    fin_cases p <;> rfl
  have hr : ∀ (n : ℕ) (f : ℕ → ℝ), ((List.range n).map f).sum = ∑ t ∈ range n, f t := fun n f => by
    induction n with
    | zero => simp
    | succ n ih => simp [List.range_succ, sum_range_succ, ih]
  rw [h.cells]
  simp only [Arr1.toList, List.map_map]
  rw [hr, ← sum_product']
  symm
  refine sum_bij (fun g _ => g.1 * Ny + g.2) ?_ ?_ ?_ ?_
  · intro g hg
    rw [mem_product, mem_range, mem_range] at hg
    exact mem_range.mpr (Verif.Mesh.idx2_lt hg.1 hg.2)
  · intro g hg g' hg' e
    rw [mem_product, mem_range, mem_range] at hg hg'
    obtain ⟨h0, h1⟩ := Verif.Mesh.idx_inj hg.2 hg'.2 e
    exact Prod.ext h0 h1
  · intro t ht
    obtain ⟨i, j, hi, hj, rfl⟩ := Verif.Mesh.idx2_surj (show t < Nx * Ny from mem_range.mp ht)
    exact ⟨(i, j), mem_product.mpr ⟨mem_range.mpr hi, mem_range.mpr hj⟩, rfl⟩
  · intro g hg
    rw [mem_product, mem_range, mem_range] at hg
    exact congrArg G (hc g.1 g.2 hg.2).symm

/-- **C105 (load).** The load region contains of all grid nodes exactly those of the right edge up to row `k`: the traction acts on the lowest `k` edges of the right side and on nothing else, and its
resultant is the traction times the length `k·Ly/Ny` (`v` is a rigid translation; the traction work is what `compute_compliance` returns). -/
theorem C105_load (F : Fem 4 nq 4 nfq 2 2) {Nx Ny : ℕ} {Lx Ly : ℝ} (h : OnRect F Nx Ny Lx Ly) (rule : QuadRule nfq) (hw : ∑ q, rule.w q = 1) (ht : FaceTables F quad4 rule) (hNx : 0 < Nx) (hNy : 0 < Ny)
    (hLx : 0 < Lx) (hLy : 0 < Ly) (loc : Loc 2) (k : ℕ) (hk : k ≤ Ny) (hloc : ∀ i j, i ≤ Nx → j ≤ Ny → (loc (F.points (i * (Ny + 1) + j)) = true ↔ i = Nx ∧ j ≤ k)) :
    (∀ i j, i < Nx → j < Ny → ∀ f, F.onBoundary loc (rectCell Ny i j) f = true ↔ i + 1 = Nx ∧ j < k ∧ f = 2) ∧
    ∀ t v : Fin 2 → ℝ, tractionWork F loc (fun _ => t) (fun _ => v) = (∑ i, t i * v i) * (k * (Ly / Ny)) := by
  have hon : ∀ i j, i < Nx → j < Ny → ∀ f, F.onBoundary loc (rectCell Ny i j) f = true ↔ i + 1 = Nx ∧ j < k ∧ f = 2 := by
    intro i j hi hj f
    have hp : ∀ p, loc (F.coos (rectCell Ny i j) p) = true ↔ i + Verif.Mesh.quadCorner p 0 = Nx ∧ j + Verif.Mesh.quadCorner p 1 ≤ k := fun p =>
      hloc _ _ (by have := quadCorner_le p 0; omega) (by have := quadCorner_le p 1; omega)
    unfold Fem.onBoundary
    rw [List.all_eq_true]
    simp only [hp, faceInds_quad4 F rule ht]
    constructor
    · intro hall
      fin_cases f
      · have h1 := hall 0 rfl
        have h2 := hall 1 rfl
        simp [Verif.Mesh.quadCorner] at h1 h2
        omega
      · have h1 := hall 0 rfl
        simp [Verif.Mesh.quadCorner] at h1
        omega
      · have h1 := hall 2 rfl
        simp [Verif.Mesh.quadCorner] at h1
        exact ⟨h1.1, by omega, rfl⟩
      · have h1 := hall 2 rfl
        have h2 := hall 3 rfl
        simp [Verif.Mesh.quadCorner] at h1 h2
        omega
    · rintro ⟨h1, h2, rfl⟩ p hpp
      fin_cases p <;> simp [Verif.Mesh.quadCorner, quadAxis, quadSide] at hpp ⊢ <;> omega
  refine ⟨hon, fun t v => ?_⟩
  have hconst : ∀ i j f q, j < Ny → (∑ a, t a * F.uFace (fun _ => v) (rectCell Ny i j, f) q a) * F.nansonScale (rectCell Ny i j) f q = (∑ a, t a * v a) * (rule.w q * ![Ly / Ny, Lx / Nx] (quadAxis f)) := by
    intro i j f q hj
    rw [nansonScale_rect F h rule ht hNx hNy hLx hLy i j hj]
    congr 1
    refine sum_congr rfl fun a _ => ?_
    congr 1
    unfold Fem.uFace
    rw [← mul_sum, faceTables_valSum F "QUAD4" (by decide) quad4 getElements_quad4 (by decide) rule ht, mul_one]
  unfold tractionWork Fem.selected
  have hflat : ∀ (l : List (Fin 4 → ℕ)) (G : (Fin 4 → ℕ) → List ((Fin 4 → ℕ) × Fin 4)) (H : (Fin 4 → ℕ) × Fin 4 → ℝ), ((l.flatMap G).map H).sum = (l.map fun c => ((G c).map H).sum).sum := by
    intro l G H
    induction l with
    | nil => simp
    | cons c l ih => simp [ih]
  rw [hflat]
  have hcell : ∀ i j, i < Nx → j < Ny → ((((List.finRange 4).filter fun f => F.onBoundary loc (rectCell Ny i j) f).map fun f => (rectCell Ny i j, f)).map
      fun p => ∑ q, (∑ a, t a * F.uFace (fun _ => v) p q a) * F.nansonScale p.1 p.2 q).sum = if i + 1 = Nx ∧ j < k then (∑ a, t a * v a) * (Ly / Ny) else 0 := by
    intro i j hi hj
    have hfil : ((List.finRange 4).filter fun f => F.onBoundary loc (rectCell Ny i j) f) = if i + 1 = Nx ∧ j < k then [2] else [] := by
      rw [List.filter_congr (q := fun f => decide (i + 1 = Nx ∧ j < k ∧ f = 2)) fun f _ => by rw [Bool.eq_iff_iff, hon i j hi hj, decide_eq_true_iff]]
      split_ifs with hc
      · simp only [hc.1, hc.2, true_and]
        decide
      · rw [List.filter_eq_nil_iff]
        intro f _ hf
        rw [decide_eq_true_iff] at hf
        exact hc ⟨hf.1, hf.2.1⟩
    rw [hfil]
    split_ifs with hc
    · simp only [List.map_cons, List.map_nil, List.sum_cons, List.sum_nil, add_zero, hconst i j 2 _ hj]
      rw [← mul_sum, ← sum_mul, hw]
      simp [quadAxis]
    · simp
  rw [h.sum_cells]
  rw [sum_congr rfl fun i hi => sum_congr rfl fun j hj => hcell i j (mem_range.mp hi) (mem_range.mp hj)]
  obtain ⟨n, rfl⟩ : ∃ n, Nx = n + 1 := ⟨Nx - 1, by omega⟩
  rw [sum_range_succ]
  have hz : ∀ i ∈ range n, ∑ j ∈ range Ny, (if i + 1 = n + 1 ∧ j < k then (∑ a, t a * v a) * (Ly / Ny) else 0) = 0 := fun i hi =>
    sum_eq_zero fun j _ => if_neg fun hc => by have := mem_range.mp hi; omega
  rw [sum_eq_zero hz, zero_add, ← sum_filter]
  have hf : ((range Ny).filter fun j => n + 1 = n + 1 ∧ j < k) = range k := by
    ext j
    simp only [mem_filter, mem_range, true_and]
    omega
  rw [hf, sum_const, card_range, nsmul_eq_mul]
  ring

/-! ## The file's numbers: 60 x 30 cells on 60 x 30, clamped on the left, loaded at the lower right corner -/

theorem fixedLocation_left (x : Fin 2 → ℝ) (h : x 0 = 0) : fixedLocation x = true := by
  rw [fixedLocation, isclose_iff, h]
  norm_num

theorem loadLocation_demo (i j : ℕ) (hi : i ≤ 60) (hj : j ≤ 30) :
    loadLocation 60 30 ((exampleFem 60 30 60 30 (loadLocation 60 30) neumannVal).points (i * (30 + 1) + j)) = true ↔ i = 60 ∧ j ≤ 3 := by
  rw [(example_rect (Nx := 60) (Ny := 30) (Lx := 60) (Ly := 30) (loadLocation 60 30) neumannVal).point i j hj]
  simp only [loadLocation, Bool.and_eq_true, isclose_iff, Matrix.cons_val_zero, Matrix.cons_val_one]
  have hi' : (i : ℝ) ≤ 60 := by exact_mod_cast hi
  have e1 : |(i : ℝ) * (60 / (60 : ℕ)) - 60| = 60 - i := by
    push_cast
    rw [div_self (by norm_num), mul_one, abs_of_nonpos (by linarith)]
    ring
  have e2 : |(j : ℝ) * (30 / (30 : ℕ)) - 0| = j := by
    push_cast
    rw [div_self (by norm_num), mul_one, sub_zero, abs_of_nonneg (by positivity)]
  rw [e1, e2, abs_of_pos (by norm_num : (0 : ℝ) < 60), abs_zero]
  constructor
  · rintro ⟨h1, h2⟩
    constructor
    · by_contra hne
      have : (i : ℝ) ≤ 59 := by exact_mod_cast (by omega : i ≤ 59)
      norm_num at h1
      linarith
    · by_contra hne
      have : (4 : ℝ) ≤ j := by exact_mod_cast (by omega : 4 ≤ j)
      norm_num at h2
      linarith
  · rintro ⟨rfl, h2⟩
    have : (j : ℝ) ≤ 3 := by exact_mod_cast h2
    norm_num
    linarith

/-- **C105 (program).** The program of example.py on a rectangle of any size and number of cells, clamped at least on its left edge, any load, with exact linear solves, for all densities `p ≥ 0`: the forward
solve returns the solution of the discrete problem, reverse mode returns the derivative of the compliance, its entries are `-3·(Emax - Emin)·p_j²` times the elastic work of cell `j` for modulus one, none
positive; the objective is non-negative, falls when densities grow, and full material has the least compliance of all densities in the unit interval. -/
theorem C105_program {Nx Ny : ℕ} {Lx Ly : ℝ} (hNx : 0 < Nx) (hNy : 0 < Ny) (hLx : 0 < Lx) (hLy : 0 < Ly) (loc : Loc 2) (t : (Fin 2 → ℝ) → Fin 2 → ℝ) (fixed : Loc 2) (hfix : ∀ x : Fin 2 → ℝ, x 0 = 0 → fixed x = true)
    (m : ℕ) (hm : m = Nx * Ny) (lin : ℕ → LinCall ℝ → ℕ → ℝ) (hlin : ExactLin ((Nx + 1) * (Ny + 1) * 2) lin) (usePetsc : Bool) (fuel : ℕ) :
    ∃ ns cs ws, dirichletBC ((Nx + 1) * (Ny + 1)) (Verif.Mesh.rectangleMesh Nx Ny Lx Ly).points.get (some (exampleInfo fixed)) = .ok (ns, cs, ws) ∧
      let F := exampleFem Nx Ny Lx Ly loc t
      let D := topProb F demoStress (groupsOf ns cs ws) m
      (∀ p : Fin m → ℝ, (∀ j, 0 ≤ p j) →
        ∃ (u : ℕ → ℝ) (g : Fin m → ℝ), D.fwdPred lin true usePetsc fuel p = .ok u ∧
          (topFem F demoStress (List.range m) (rowParams p)).Solves (F.toProb (groupsOf ns cs ws)).prescriptions (fun n i => u (2 * n + i)) ∧
          D.revGrad lin true usePetsc fuel (complianceObj F t) p = .ok g ∧
          HasFDerivAt (D.objective lin true usePetsc fuel (complianceObj F t)) (∑ j, g j • (ContinuousLinearMap.proj j : (Fin m → ℝ) →L[ℝ] ℝ)) p ∧
          ∀ j : Fin m, g j = -(3 * (70e3 - 1e-3 * 70e3) * p j ^ 2 * cellWork F (planeStress 1 0.3) (fun n i => u (2 * n + i)) (fun n i => u (2 * n + i)) (rectCell Ny (j / Ny) (j % Ny))) ∧ g j ≤ 0) ∧
      ∀ p p' : Fin m → ℝ, (∀ j, 0 ≤ p j) → (∀ j, p j ≤ p' j) →
        0 ≤ D.objective lin true usePetsc fuel (complianceObj F t) p' ∧
        D.objective lin true usePetsc fuel (complianceObj F t) p' ≤ D.objective lin true usePetsc fuel (complianceObj F t) p ∧
        ((∀ j, p j ≤ 1) → D.objective lin true usePetsc fuel (complianceObj F t) (fun _ => 1) ≤ D.objective lin true usePetsc fuel (complianceObj F t) p) := by
  obtain ⟨ns, cs, ws, hbc, hcl⟩ := C105_clamped hNx hNy hLx hLy loc t fixed hfix
  have hld := C105_loaded hNx hNy hLx hLy loc t
  refine ⟨ns, cs, ws, hbc, ?_⟩
  intro F D
  have hlen : F.cells.length = m := by
    show (List.map _ (List.range (Nx * Ny))).length = m
    rw [List.length_map, List.length_range, hm]
  have hlaw := (C102_materials (dim := 2)).1
  refine ⟨fun p hp => ?_, fun p p' hp hle => C104_full F hlaw hld (by norm_num) (groupsOf ns cs ws) hcl hlen p p' hp hle lin hlin usePetsc fuel⟩
  obtain ⟨u, g, h1, h2, h3, h4, h5⟩ := C104_simp F hlaw hld (by norm_num) (groupsOf ns cs ws) hcl hlen p hp lin hlin usePetsc fuel
  refine ⟨u, g, h1, h2, h3, h4, fun j => ⟨?_, (h5 j).2⟩⟩
  have hc : F.cells[(j : ℕ)]'(by rw [hlen]; exact j.isLt) = rectCell Ny (j / Ny) (j % Ny) := by
    have hd : (j : ℕ) = j / Ny * Ny + j % Ny := (Nat.div_add_mod' _ _).symm
    have hcell : F.cells = (Verif.Mesh.rectangleMesh Nx Ny Lx Ly).cells.toList := rfl
    have e : F.cells[(j : ℕ)]'(by rw [hlen]; exact j.isLt) = (Verif.Mesh.rectangleMesh Nx Ny Lx Ly).cells.get j := by
      simp only [hcell, Arr1.toList, List.getElem_map, List.getElem_range]
    rw [e]
    conv_lhs => rw [hd]
    rw [Verif.Mesh.rectangleMesh_cell Nx Ny Lx Ly (Nat.mod_lt _ hNy)]
    funext p
    fin_cases p <;> rfl
  rw [(h5 j).1, show F.cells[j]'(by rw [hlen]; exact j.isLt) = rectCell Ny (j / Ny) (j % Ny) from hc]
  norm_num

theorem demo_force (F : Fem 4 nq nf nfq 2 2) (loc : Loc 2) (hld : Loaded F loc neumannVal) (v : Fin 2 → ℝ) (h : tractionWork F loc neumannVal (fun _ => v) = -300 * v 1) :
    computeCompliance F neumannVal (fun _ => v) = .ok (-300 * v 1) := by
  rw [(C103_compliance F loc [] _ hld.neumann neumannVal _).1 hld.faces, h]

/-- **C105 (example).** The file's numbers (1800 cells) meet the assumptions, and the load is a force of 300 downwards: `compute_compliance` of a rigid translation `v` is `-300 v₁`. -/
theorem C105_example (lin : ℕ → LinCall ℝ → ℕ → ℝ) (hlin : ExactLin (61 * 31 * 2) lin) (usePetsc : Bool) (fuel : ℕ) :
    (∀ v : Fin 2 → ℝ, computeCompliance (exampleFem 60 30 60 30 (loadLocation 60 30) neumannVal) neumannVal (fun _ => v) = .ok (-300 * v 1)) ∧
    ∃ ns cs ws, dirichletBC (61 * 31) (Verif.Mesh.rectangleMesh 60 30 (60 : ℝ) 30).points.get (some (exampleInfo fixedLocation)) = .ok (ns, cs, ws) ∧
      ∀ p : Fin 1800 → ℝ, (∀ j, 0 ≤ p j) → ∃ g : Fin 1800 → ℝ,
        (topProb (exampleFem 60 30 60 30 (loadLocation 60 30) neumannVal) demoStress (groupsOf ns cs ws) 1800).revGrad lin true usePetsc fuel
          (complianceObj (exampleFem 60 30 60 30 (loadLocation 60 30) neumannVal) neumannVal) p = .ok g ∧
        HasFDerivAt ((topProb (exampleFem 60 30 60 30 (loadLocation 60 30) neumannVal) demoStress (groupsOf ns cs ws) 1800).objective lin true usePetsc fuel
          (complianceObj (exampleFem 60 30 60 30 (loadLocation 60 30) neumannVal) neumannVal)) (∑ j, g j • (ContinuousLinearMap.proj j : (Fin 1800 → ℝ) →L[ℝ] ℝ)) p ∧
        ∀ j, g j ≤ 0 := by
  have hld := C105_loaded (Nx := 60) (Ny := 30) (Lx := 60) (Ly := 30) (by norm_num) (by norm_num) (by norm_num) (by norm_num) (loadLocation 60 30) neumannVal
  constructor
  · intro v
    refine demo_force _ _ hld v ?_
    have := (C105_load _ (example_rect (loadLocation 60 30) neumannVal) (gaussRule 1) (gaussRule_sum 1) (example_faces (loadLocation 60 30) neumannVal) (by norm_num) (by norm_num) (by norm_num) (by norm_num) (loadLocation 60 30) 3 (by norm_num)
      fun i j hi hj => loadLocation_demo i j hi hj).2 ![0, -100] v
    refine Eq.trans this ?_
    rw [Fin.sum_univ_two]
    simp
    ring
  · obtain ⟨ns, cs, ws, hbc, h, -⟩ := C105_program (Nx := 60) (Ny := 30) (Lx := 60) (Ly := 30) (by norm_num) (by norm_num) (by norm_num) (by norm_num) (loadLocation 60 30) neumannVal fixedLocation fixedLocation_left
      1800 (by norm_num) lin hlin usePetsc fuel
    refine ⟨ns, cs, ws, hbc, fun p hp => ?_⟩
    obtain ⟨u, g, -, -, h3, h4, h5⟩ := h p hp
    exact ⟨g, h3, h4, fun j => (h5 j).2⟩

/-- An exact linear solver exists. -/
example : ExactLin (61 * 31 * 2) (chosenLin (61 * 31 * 2)) := chosenLin_exact _

end Verif.Fem
