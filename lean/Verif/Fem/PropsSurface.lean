import Verif.Fem.Box
import Verif.Fem.Models

/-!
# C83: surface integrals of `Mechanics` (models.py 41-101)
-/
namespace Verif.Fem
open Finset

variable {nn nq nf nfq dim vec : ℕ}

/-- Specification: total of the face scales of the selected faces. -/
noncomputable def Fem.selectedArea (F : Fem nn nq nf nfq dim vec) (loc : Loc dim) : ℝ := ((F.selected loc).map fun p => ∑ q, F.nansonScale p.1 p.2 q).sum

/-- Gradient of the nodal field at a face quadrature point. -/
noncomputable def Fem.gradFace (F : Fem nn nq nf nfq dim vec) (sol : ℕ → Fin vec → ℝ) (p : (Fin nn → ℕ) × Fin nf) (q : Fin nfq) (i : Fin vec) (d : Fin dim) : ℝ :=
  ∑ n, sol (p.1 n) i * F.faceShapeGrad p.1 p.2 q n d

theorem surfaceIntegral_ok_iff (F : Fem nn nq nf nfq dim vec) (loc : Loc dim) (P : Prop) [Decidable P] (err : FemErr) (h : (Fin nfq → Fin vec → Fin dim → ℝ) → Fin nfq → Fin vec → ℝ)
    (sol : ℕ → Fin vec → ℝ) (T : Fin vec → ℝ) :
    F.surfaceIntegral loc (fun gs => if P then .ok (gs.map h) else .error err) sol = .ok T ↔
      P ∧ F.FacesOk loc ∧ T = fun i => ((F.selected loc).map fun p => ∑ q, h (F.gradFace sol p) q i * F.nansonScale p.1 p.2 q).sum := by
  unfold Fem.surfaceIntegral
  dsimp only [bind, Except.bind, pure, Except.pure]
  rw [selectFaces_boundaryInds]
  cases hg : F.getFaceShapeGrads (F.selected loc) with
  | error e =>
    simp only [reduceCtorEq, false_iff, not_and]
    intro _ hok
    have := (getFaceShapeGrads_ok_iff F (F.selected loc) _).mpr ⟨hok, rfl⟩
    rw [this] at hg
    cases hg
  | ok g =>
    obtain ⟨hok, rfl⟩ := (getFaceShapeGrads_ok_iff F _ _).mp hg
    by_cases hP : P
    · simp only [hP, if_true, true_and, zip_map_self, List.map_map, List.zip_map', Function.comp_def]
      constructor
      · intro hT
        injection hT with hT
        exact ⟨hok, hT.symm⟩
      · rintro ⟨-, rfl⟩
        rfl
    · simp [hP]

theorem faceGrad_dual (F : Fem nn nq nf nfq dim vec) (c : Fin nn → ℕ) (f : Fin nf) (q : Fin nfq) (hdet : (F.faceJacobian c f q).det ≠ 0) (a d : Fin dim) :
    ∑ n, F.points (c n) a * F.faceShapeGrad c f q n d = if a = d then 1 else 0 := by
  have h : ∑ n, F.points (c n) a * F.faceShapeGrad c f q n d = (F.faceJacobian c f q * (F.faceJacobian c f q)⁻¹) a d := by
    simp only [Fem.faceShapeGrad, mul_sum, Matrix.mul_apply, Fem.faceJacobian, Matrix.of_apply, Fem.coos, sum_mul]
    rw [sum_comm]
    exact sum_congr rfl fun b _ => sum_congr rfl fun n _ => by ring
  rw [h, Matrix.mul_nonsing_inv _ (isUnit_iff_ne_zero.mpr hdet), Matrix.one_apply]

/-- Face gradients of an affine field are exact. -/
theorem gradFace_affine (F : Fem nn nq nf nfq dim vec) (hsum : ∀ f q b, ∑ n, F.faceShapeGradsRef f q n b = 0) (A : Fin vec → Fin dim → ℝ) (b : Fin vec → ℝ) (sol : ℕ → Fin vec → ℝ)
    (p : (Fin nn → ℕ) × Fin nf) (hsol : ∀ n i, sol (p.1 n) i = ∑ d, A i d * F.points (p.1 n) d + b i) (q : Fin nfq) (hdet : (F.faceJacobian p.1 p.2 q).det ≠ 0) :
    F.gradFace sol p q = A := by
  funext i d
  have hz : ∑ n, F.faceShapeGrad p.1 p.2 q n d = 0 := by
    simp only [Fem.faceShapeGrad]
    rw [sum_comm]
    simp only [← sum_mul, hsum, zero_mul, sum_const_zero]
  simp only [Fem.gradFace, hsol, add_mul, sum_add_distrib, ← mul_sum, hz, mul_zero, add_zero, sum_mul]
  rw [sum_comm]
  simp only [mul_assoc, ← mul_sum, faceGrad_dual F p.1 p.2 q hdet]
  simp

theorem list_sum_mul {α : Type*} (l : List α) (r : ℝ) (f : α → ℝ) : (l.map fun a => r * f a).sum = r * (l.map f).sum := by
  induction l with
  | nil => simp
  | cons a l ih => simp [ih, mul_add]

/-- **C83 (surface area).** `compute_surface_area` returns exactly if no selected face has a singular Jacobian (and there is a space dimension); the value is the sum of the face scales of the
selected faces (their areas by C81), the same in every component and independent of the solution passed in. -/
theorem C83_area (F : Fem nn nq nf nfq dim vec) (loc : Loc dim) (sol : ℕ → Fin vec → ℝ) (S : Fin vec → ℝ) :
    F.surfaceArea loc sol = .ok S ↔ dim ≠ 0 ∧ (∀ p ∈ F.selected loc, ∀ q, (F.faceJacobian p.1 p.2 q).det ≠ 0) ∧ S = fun _ => F.selectedArea loc := by
  have h := surfaceIntegral_ok_iff F loc (dim ≠ 0) .index (fun _ _ _ => 1) sol S
  simp only [one_mul] at h
  simp only [ne_eq, ite_not] at h
  exact h

/-- **C83 (traction).** For every mesh, element with vanishing gradient sums, stress function and affine displacement `A x + b`: `compute_traction` returns (in three dimensions, no singular
face) the third column of the stress at `A`, times the area of the selected faces, whatever their normals are. -/
theorem C83_traction (F : Fem nn nq nf nfq 3 vec) (hsum : ∀ f q b, ∑ n, F.faceShapeGradsRef f q n b = 0) (stress : (Fin vec → Fin 3 → ℝ) → Fin vec → Fin 3 → ℝ) (loc : Loc 3)
    (A : Fin vec → Fin 3 → ℝ) (b : Fin vec → ℝ) (sol : ℕ → Fin vec → ℝ) (hsol : ∀ c ∈ F.cells, ∀ n i, sol (c n) i = ∑ d, A i d * F.points (c n) d + b i)
    (hdet : ∀ p ∈ F.selected loc, ∀ q, (F.faceJacobian p.1 p.2 q).det ≠ 0) :
    F.computeTraction stress loc sol = .ok fun i => stress A i 2 * F.selectedArea loc := by
  refine (surfaceIntegral_ok_iff F loc (3 = 3) .shape (fun g q i => ∑ d, stress (g q) i d * (if (d : ℕ) = 2 then 1 else 0)) sol _).mpr ⟨rfl, hdet, ?_⟩
  funext i
  unfold Fem.selectedArea
  rw [← list_sum_mul]
  refine (sum_map_congr fun p hp => ?_).symm
  rw [mul_sum]
  refine sum_congr rfl fun q _ => ?_
  rw [gradFace_affine F hsum A b sol p (hsol p.1 (selected_mem F hp)) q (hdet p hp q)]
  simp [Fin.sum_univ_three]

/-- In every other space dimension `compute_traction` raises or nothing is computed. -/
theorem C83_traction_dim (F : Fem nn nq nf nfq dim vec) (hdim : dim ≠ 3) (stress : (Fin vec → Fin dim → ℝ) → Fin vec → Fin dim → ℝ) (loc : Loc dim) (sol : ℕ → Fin vec → ℝ) (T : Fin vec → ℝ) :
    F.computeTraction stress loc sol ≠ .ok T := fun h => hdim ((surfaceIntegral_ok_iff F loc (dim = 3) .shape _ sol T).mp h).1

/-! ## Sides of the box -/

theorem selected_sum (F : Fem nn nq nf nfq dim vec) (loc : Loc dim) (G : (Fin nn → ℕ) × Fin nf → ℝ) :
    ((F.selected loc).map G).sum = (F.cells.map fun c => ∑ f, if F.onBoundary loc c f = true then G (c, f) else 0).sum := by
  unfold Fem.selected
  induction F.cells with
  | nil => simp
  | cons c l ih =>
    simp only [List.flatMap_cons, List.map_append, List.sum_append, ih, List.map_cons, List.sum_cons, List.map_map]
    congr 1
    have : ∀ (L : List (Fin nf)), ((L.filter fun f => F.onBoundary loc c f).map (G ∘ fun f => (c, f))).sum = (L.map fun f => if F.onBoundary loc c f = true then G (c, f) else 0).sum := by
      intro L
      induction L with
      | nil => simp
      | cons f L ih =>
        by_cases hf : F.onBoundary loc c f = true
        · simp [List.filter_cons, hf, ih]
        · simp [List.filter_cons, hf, ih]
    rw [this, ← List.sum_ofFn, List.ofFn_eq_map]

/-- The side `s` (first or last grid plane) of the box in direction `a`: the cells at the side are selected with the one face that lies in it. -/
theorem selected_sum_box (F : Fem 8 nq 6 nfq 3 vec) {N : Fin 3 → ℕ} {L : Fin 3 → ℝ} (h : OnBox F N L) (rule : QuadRule nfq) (ht : FaceTables F hex8 rule) (loc : Loc 3) (a : Fin 3) (s : ℕ)
    (hs : s = 0 ∨ s = N a) (hNa : 0 < N a) (hloc : ∀ m : Fin 3 → ℕ, (∀ b, m b ≤ N b) → (loc (F.points (gridNode N m)) = true ↔ m a = s)) (G : (Fin 8 → ℕ) × Fin 6 → ℝ) :
    ∃ f, hexAxis f = a ∧ hexSide f = (if s = 0 then 0 else 1) ∧
    ((F.selected loc).map G).sum = ∑ g ∈ (boxGrid N).filter (fun g => g a = s - 1), G (boxCell N g, f) := by
  have hex : ∀ (a : Fin 3) (t : ℕ), t ≤ 1 → ∃ f, hexAxis f = a ∧ hexSide f = t ∧ ∀ f', hexAxis f' = a → hexSide f' = t → f' = f := by
    intro a t ht
    interval_cases t
    · revert a; decide
    · revert a; decide
  obtain ⟨f, hf1, hf2, hf3⟩ := hex a (if s = 0 then 0 else 1) (by split_ifs <;> omega)
  refine ⟨f, hf1, hf2, ?_⟩
  rw [selected_sum, h.sum_cells, sum_filter]
  refine sum_congr rfl fun g hg => ?_
  have hga := (mem_boxGrid N g).mp hg a
  have hle : ∀ f, hexSide f ≤ 1 := by decide
  have hon : ∀ f', F.onBoundary loc (boxCell N g) f' = true ↔ f' = f ∧ g a = s - 1 := by
    intro f'
    rw [onBoundary_box F h rule ht loc a s hloc g hg]
    have := hle f'
    constructor
    · rintro ⟨h1, h2⟩
      have : hexSide f' = if s = 0 then 0 else 1 := by split_ifs <;> omega
      exact ⟨hf3 f' h1 this, by split_ifs at this <;> omega⟩
    · rintro ⟨rfl, h2⟩
      refine ⟨hf1, ?_⟩
      rw [hf2]
      split_ifs <;> omega
  simp only [hon]
  by_cases hgs : g a = s - 1
  · simp [hgs]
  · simp [hgs]

/-- **C83 (box sides).** HEX8 on `box_mesh`: a location function that picks the grid points of one of the six sides gives exactly the area of that side, for every face rule whose weights
add up to one. -/
theorem C83_box_area (F : Fem 8 nq 6 nfq 3 vec) (N : Fin 3 → ℕ) (L : Fin 3 → ℝ) (h : OnBox F N L) (hN : ∀ a, 0 < N a) (hL : ∀ a, 0 < L a) (rule : QuadRule nfq)
    (ht : FaceTables F hex8 rule) (hw : ∑ q, rule.w q = 1) (loc : Loc 3) (a : Fin 3) (s : ℕ) (hs : s = 0 ∨ s = N a)
    (hloc : ∀ m : Fin 3 → ℕ, (∀ b, m b ≤ N b) → (loc (F.points (gridNode N m)) = true ↔ m a = s)) (sol : ℕ → Fin vec → ℝ) :
    F.surfaceArea loc sol = .ok fun _ => ∏ b ∈ univ.erase a, L b := by
  have hne : ∀ b, (N b : ℝ) ≠ 0 := fun b => by exact_mod_cast (hN b).ne'
  refine (C83_area F loc sol _).mpr ⟨by omega, ?_, ?_⟩
  · intro p hp q
    obtain ⟨g, hg, hpg⟩ := (h.mem_cells p.1).mp (selected_mem F hp)
    rw [hpg, h.faceJacobian rule ht g hg, Matrix.det_diagonal]
    exact prod_ne_zero_iff.mpr fun b _ => div_ne_zero (hL b).ne' (hne b)
  · funext i
    obtain ⟨f, hf, -, hsum⟩ := selected_sum_box F h rule ht loc a s hs (hN a) hloc fun p => ∑ q, F.nansonScale p.1 p.2 q
    unfold Fem.selectedArea
    rw [hsum, sum_congr rfl fun g hg => sum_congr rfl fun q _ => nansonScale_box F h rule ht hN hL g (mem_filter.mp hg).1 f q]
    simp only [← sum_mul, hw, one_mul, sum_const, hf]
    rw [card_slab N a _ (by have := hN a; omega), nsmul_eq_mul]
    push_cast
    rw [← prod_mul_distrib]
    exact prod_congr rfl fun b _ => by field_simp [hne b]

theorem faceTables_gradSum (F : Fem nn nq nf nfq dim vec) (name : String) (hn : name ∈ lagrangeNames) (e : Elem) (he : getElements name = some e) (hnn : nn = (meshioNodes name).length)
    (rule : QuadRule nfq) (ht : FaceTables F e rule) (f : Fin nf) (q : Fin nfq) (b : Fin dim) : ∑ n, F.faceShapeGradsRef f q n b = 0 := by
  simp only [ht.grads]
  rw [Fin.sum_univ_eq_sum_range (fun n => shapeGradRef e n (facePoint e f (rule.pt q)) b), hnn]
  exact (C09_gradients name hn e he _ _).1

theorem faceTables_valSum (F : Fem nn nq nf nfq dim vec) (name : String) (hn : name ∈ lagrangeNames) (e : Elem) (he : getElements name = some e) (hnn : nn = (meshioNodes name).length)
    (rule : QuadRule nfq) (ht : FaceTables F e rule) (f : Fin nf) (q : Fin nfq) : ∑ n, F.faceShapeVals f q n = 1 := by
  simp only [ht.vals]
  rw [Fin.sum_univ_eq_sum_range (fun n => shapeVal e n (facePoint e f (rule.pt q))), hnn]
  exact C09_partition name hn e he _

/-- **C83 (box, force).** On any side of the box (direction `a`), for an affine displacement, `compute_traction` returns the third stress column times the area of the side: the force on
the upper side `z = Lz`; on `z = 0` it is the force with the wrong sign, on the other four sides it uses the wrong column. -/
theorem C83_box_traction (F : Fem 8 nq 6 nfq 3 vec) (N : Fin 3 → ℕ) (L : Fin 3 → ℝ) (h : OnBox F N L) (hN : ∀ a, 0 < N a) (hL : ∀ a, 0 < L a) (rule : QuadRule nfq)
    (ht : FaceTables F hex8 rule) (hw : ∑ q, rule.w q = 1) (loc : Loc 3) (a : Fin 3) (s : ℕ) (hs : s = 0 ∨ s = N a)
    (hloc : ∀ m : Fin 3 → ℕ, (∀ b, m b ≤ N b) → (loc (F.points (gridNode N m)) = true ↔ m a = s)) (stress : (Fin vec → Fin 3 → ℝ) → Fin vec → Fin 3 → ℝ)
    (A : Fin vec → Fin 3 → ℝ) (b : Fin vec → ℝ) (sol : ℕ → Fin vec → ℝ) (hsol : ∀ c ∈ F.cells, ∀ n i, sol (c n) i = ∑ d, A i d * F.points (c n) d + b i) :
    F.computeTraction stress loc sol = .ok fun i => stress A i 2 * ∏ b ∈ univ.erase a, L b := by
  obtain ⟨-, hdet, harea⟩ := (C83_area F loc (vec := vec) sol _).mp (C83_box_area F N L h hN hL rule ht hw loc a s hs hloc sol)
  rw [C83_traction F (faceTables_gradSum F "HEX8" (by decide) hex8 getElements_hex8 (by decide) rule ht) stress loc A b sol hsol hdet]
  congr 1
  funext i
  rw [← congrFun harea i]

/-- **C83 (box, load).** A constant Neumann value `t` on one side of the box puts the total load `t · area` on the nodes. -/
theorem C83_box_load (F : Fem 8 nq 6 nfq 3 vec) (N : Fin 3 → ℕ) (L : Fin 3 → ℝ) (h : OnBox F N L) (hN : ∀ a, 0 < N a) (hL : ∀ a, 0 < L a) (rule : QuadRule nfq)
    (hnum : F.numTotal = (N 0 + 1) * (N 1 + 1) * (N 2 + 1))
    (ht : FaceTables F hex8 rule) (hw : ∑ q, rule.w q = 1) (loc : Loc 3) (a : Fin 3) (s : ℕ) (hs : s = 0 ∨ s = N a)
    (hloc : ∀ m : Fin 3 → ℕ, (∀ b, m b ≤ N b) → (loc (F.points (gridNode N m)) = true ↔ m a = s)) (t : Fin vec → ℝ) (i : Fin vec) :
    ∑ n ∈ range F.numTotal, F.neumannTerm loc (fun _ _ _ => t) n i = t i * ∏ b ∈ univ.erase a, L b := by
  obtain ⟨-, -, harea⟩ := (C83_area F loc (vec := vec) (fun _ _ => 0) _).mp (C83_box_area F N L h hN hL rule ht hw loc a s hs hloc _)
  rw [congrFun harea i]
  unfold Fem.neumannTerm Fem.selectedArea
  rw [list_sum_sum, ← list_sum_mul]
  have hz : ∀ (l : List ((Fin 8 → ℕ) × Fin 6)) (G : (Fin 8 → ℕ) × Fin 6 → ℝ), (l.map G).sum = (l.zipIdx.map fun p => G p.1).sum := by
    intro l G
    conv_lhs => rw [← List.zipIdx_map_fst 0 l, List.map_map]
    rfl
  rw [hz]
  refine sum_map_congr fun p hp => ?_
  have hsel : p.1 ∈ F.selected loc := List.mem_of_getElem? (List.mem_zipIdx_iff_getElem?.mp (show (p.1, p.2) ∈ (F.selected loc).zipIdx from hp))
  obtain ⟨g, hg, hpg⟩ := (h.mem_cells p.1.1).mp (selected_mem F hsel)
  have hlt : ∀ a, p.1.1 a < F.numTotal := fun a => by
    rw [hpg, hnum]
    rw [mem_boxGrid] at hg
    exact gridNode_lt _ _ fun b => by have := hg b; have := hexCorner_le a b; omega
  simp only [nodal_eq]
  rw [sum_nodal _ _ hlt, sum_comm, mul_sum]
  refine sum_congr rfl fun q _ => ?_
  rw [← sum_mul, ← sum_mul, faceTables_valSum F "HEX8" (by decide) hex8 getElements_hex8 (by decide) rule ht, one_mul]

/-- The hypotheses hold, with a location function of the usual kind: the object of the 2x1x3 mesh of the box 4x3x6 with the rules of basix; the upper side has area 12, and an affine displacement
with stress `diag(7, 0, 5)` gives the force `(0, 0, 5·12)` on the upper side, the same on the lower side, and `(0, 0, 5·18)` on the side `x = 4`, where the force is `(7·18, 0, 0)`. -/
noncomputable def boxExample : Fem 8 8 6 4 3 3 :=
  Fem.ofElement 8 6 3 3 hex8 (gaussRule 3) (gaussRule 2) 24 (Verif.Mesh.boxMesh 2 1 3 (4 : ℝ) 3 6).points.get (Verif.Mesh.boxMesh 2 1 3 (4 : ℝ) 3 6).cells.toList

theorem ofElement_hex8_face {nq nfq : ℕ} (rule : QuadRule nq) (frule : QuadRule nfq) (nt) (p) (c) :
    FaceTables (Fem.ofElement 8 6 3 vec hex8 rule frule nt p c) hex8 frule :=
  ⟨fun _ _ _ => rfl, fun _ _ _ _ => rfl, fun _ _ => rfl, fun _ _ => rfl, fun f => by
    show List.map Fin.val (List.filterMap _ _) = _
    revert f
    decide +kernel⟩

theorem gaussRule_sum (d : ℕ) : ∑ q, (gaussRule d).w q = 1 := by
  simp [gaussRule]

theorem boxExample_onBox : OnBox boxExample ![2, 1, 3] ![4, 3, 6] := ⟨rfl, rfl⟩

example (sol : ℕ → Fin 3 → ℝ) (A : Fin 3 → Fin 3 → ℝ) (hsol : ∀ n i, sol n i = ∑ d, A i d * boxExample.points n d) :
    boxExample.surfaceArea (fun x => decide (6 - 1 / 100 < x 2)) sol = .ok (fun _ => 12) ∧
    boxExample.computeTraction (fun _ i d => if i = d then ![7, 0, 5] i else 0) (fun x => decide (6 - 1 / 100 < x 2)) sol = .ok ![0, 0, 60] ∧
    boxExample.computeTraction (fun _ i d => if i = d then ![7, 0, 5] i else 0) (fun x => decide (4 - 1 / 100 < x 0)) sol = .ok ![0, 0, 90] := by
  have ht : FaceTables boxExample hex8 (gaussRule 2) := ofElement_hex8_face _ _ _ _ _
  have hN : ∀ a, 0 < (![2, 1, 3] : Fin 3 → ℕ) a := by decide
  have hL : ∀ a, 0 < (![4, 3, 6] : Fin 3 → ℝ) a := by intro a; fin_cases a <;> norm_num
  have hup : ∀ m : Fin 3 → ℕ, (∀ b, m b ≤ (![2, 1, 3] : Fin 3 → ℕ) b) →
      ((fun x : Fin 3 → ℝ => decide (6 - 1 / 100 < x 2)) (boxExample.points (gridNode ![2, 1, 3] m)) = true ↔ m 2 = 3) := by
    intro m hm
    have h2 := hm 2
    simp only [boxExample_onBox.point m hm, decide_eq_true_eq]
    simp at h2 ⊢
    interval_cases m 2 <;> norm_num
  have hx : ∀ m : Fin 3 → ℕ, (∀ b, m b ≤ (![2, 1, 3] : Fin 3 → ℕ) b) →
      ((fun x : Fin 3 → ℝ => decide (4 - 1 / 100 < x 0)) (boxExample.points (gridNode ![2, 1, 3] m)) = true ↔ m 0 = 2) := by
    intro m hm
    have h2 := hm 0
    simp only [boxExample_onBox.point m hm, decide_eq_true_eq]
    simp at h2 ⊢
    interval_cases m 0 <;> norm_num
  have e2 : ∏ b ∈ univ.erase (2 : Fin 3), (![4, 3, 6] : Fin 3 → ℝ) b = 12 := by
    rw [show univ.erase (2 : Fin 3) = {0, 1} by decide, prod_pair (by decide)]; norm_num
  have e0 : ∏ b ∈ univ.erase (0 : Fin 3), (![4, 3, 6] : Fin 3 → ℝ) b = 18 := by
    rw [show univ.erase (0 : Fin 3) = {1, 2} by decide, prod_pair (by decide)]; show (3 : ℝ) * 6 = 18; norm_num
  have hs : ∀ c ∈ boxExample.cells, ∀ n i, sol (c n) i = ∑ d, A i d * boxExample.points (c n) d + (fun _ => 0) i := fun c _ n i => by rw [hsol, add_zero]
  refine ⟨?_, ?_, ?_⟩
  · rw [C83_box_area boxExample _ _ boxExample_onBox hN hL _ ht (gaussRule_sum 2) _ 2 3 (Or.inr rfl) hup, e2]
  · rw [C83_box_traction boxExample _ _ boxExample_onBox hN hL _ ht (gaussRule_sum 2) _ 2 3 (Or.inr rfl) hup _ A _ sol hs, e2]
    congr 1
    funext i
    fin_cases i <;> simp
    norm_num
  · rw [C83_box_traction boxExample _ _ boxExample_onBox hN hL _ ht (gaussRule_sum 2) _ 0 2 (Or.inr rfl) hx _ A _ sol hs, e0]
    congr 1
    funext i
    fin_cases i <;> simp
    norm_num

end Verif.Fem
