import Verif.Fem.PropsNanson
import Verif.Fem.PropsGeom

/-!
# C81 (continued) and C82: linear simplices, `check_mesh_TET4`, `get_meshio_cell_type`
-/
namespace Verif.Fem
open Finset

variable {nn nq nf nfq dim vec : ℕ}

/-! ## Two dimensions -/

theorem facet_rot (cell : CellType) (hc : cellDim cell = 2) (f : ℕ) (hf : f < (basixFacets cell).length) :
    ∃ ε : ℝ, (ε = 1 ∨ ε = -1) ∧ facetJacobian cell f 0 0 = -(ε * (sizeJacobian cell f * ((facetNormals cell).getD f []).getD 1 0)) ∧
      facetJacobian cell f 0 1 = ε * (sizeJacobian cell f * ((facetNormals cell).getD f []).getD 0 0) := by
  have h2 : (0 : ℝ) < Real.sqrt 2 := Real.sqrt_pos.mpr (by norm_num)
  have e2 : Real.sqrt 2 * (Real.sqrt 2)⁻¹ = 1 := mul_inv_cancel₀ h2.ne'
  have hq : Real.sqrt (1 + 1) = Real.sqrt 2 := by norm_num
  cases cell
  · exact absurd hc (by decide)
  · simp only [basixFacets, List.length_cons, List.length_nil] at hf
    interval_cases f <;>
    first
    | (refine ⟨1, Or.inl rfl, ?_⟩
       simp [sizeJacobian, cellDim, basixVertices, sum_range_succ, facetJacobian, vertexCoord, basixFacets, facetNormals, hq, e2] <;> done)
    | (refine ⟨-1, Or.inr rfl, ?_⟩
       simp [sizeJacobian, cellDim, basixVertices, sum_range_succ, facetJacobian, vertexCoord, basixFacets, facetNormals, hq, e2] <;> done)
  · simp only [basixFacets, List.length_cons, List.length_nil] at hf
    interval_cases f <;>
    first
    | (refine ⟨1, Or.inl rfl, ?_⟩
       simp [sizeJacobian, cellDim, basixVertices, sum_range_succ, facetJacobian, vertexCoord, basixFacets, facetNormals, hq, e2] <;> done)
    | (refine ⟨-1, Or.inr rfl, ?_⟩
       simp [sizeJacobian, cellDim, basixVertices, sum_range_succ, facetJacobian, vertexCoord, basixFacets, facetNormals, hq, e2] <;> done)
  · exact absurd hc (by decide)
  · exact absurd hc (by decide)

/-- **C81 (length element).** The same in two dimensions: weight times the length of the tangent vector of the physical edge, with the sign of the determinant. -/
theorem C81_length_element (F : Fem nn nq nf nfq 2 vec) (name : String) (hn : name ∈ lagrangeNames) (e : Elem) (he : getElements name = some e)
    (hnn : nn = (meshioNodes name).length) (hdim : cellDim e.cell = 2) (rule : QuadRule nfq) (ht : FaceTables F e rule) (c : Fin nn → ℕ) (f : Fin nf)
    (hf : (f : ℕ) < (basixFacets e.cell).length) (q : Fin nfq) (hdet : (F.faceJacobian c f q).det ≠ 0) :
    F.nansonScale c f q = SignType.sign (F.faceJacobian c f q).det * (rule.w q * len (faceTangent F e c f (rule.pt q) 0)) := by
  have hT : faceTangent F e c f (rule.pt q) 0 = fun d => ∑ b : Fin 2, F.faceJacobian c f q d b * facetJacobian e.cell f 0 b := by
    funext d
    exact faceTangent_eq F name hn e he hnn hdim.symm rule ht c f hf q 0 (by omega) d
  obtain ⟨ε, hε, hr0, hr1⟩ := facet_rot e.cell hdim f hf
  set J := F.faceJacobian c f q with hJ
  set n : Fin 2 → ℝ := fun d => ∑ b, F.faceNormals f b * J⁻¹ b d with hnd
  have h0 : faceTangent F e c f (rule.pt q) 0 0 = -((ε * sizeJacobian e.cell f * J.det) * n 1) := by
    rw [hT, hnd]
    simp only [Fin.sum_univ_two, inv_apply_adj, Matrix.adjugate_fin_two, ht.normals]
    simp only [Fin.coe_ofNat_eq_mod, Nat.zero_mod, Nat.mod_succ, hr0, hr1, Matrix.of_apply, Matrix.cons_val_zero, Matrix.cons_val_one]
    field_simp
    ring
  have h1 : faceTangent F e c f (rule.pt q) 0 1 = (ε * sizeJacobian e.cell f * J.det) * n 0 := by
    rw [hT, hnd]
    simp only [Fin.sum_univ_two, inv_apply_adj, Matrix.adjugate_fin_two, ht.normals]
    simp only [Fin.coe_ofNat_eq_mod, Nat.zero_mod, Nat.mod_succ, hr0, hr1, Matrix.of_apply, Matrix.cons_val_zero, Matrix.cons_val_one]
    field_simp
    ring
  have hlen : len (faceTangent F e c f (rule.pt q) 0) = |ε * sizeJacobian e.cell f * J.det| * len n := by
    rw [← len_smul]
    unfold len
    congr 1
    rw [Fin.sum_univ_two, Fin.sum_univ_two, h0, h1]
    ring
  have hs : 0 ≤ sizeJacobian e.cell f := by unfold sizeJacobian; split_ifs <;> exact Real.sqrt_nonneg _
  have habs : |ε * sizeJacobian e.cell f * J.det| = sizeJacobian e.cell f * (SignType.sign J.det * J.det) := by
    have : |ε| = 1 := by rcases hε with rfl | rfl <;> simp
    rw [abs_mul, abs_mul, this, one_mul, abs_of_nonneg hs, sign_mul_self]
  have hss : ((SignType.sign J.det : ℝ)) * SignType.sign J.det = 1 := by
    rcases lt_or_gt_of_ne hdet with h | h
    · simp [sign_neg h]
    · simp [sign_pos h]
  rw [hlen, habs, Fem.nansonScale, ht.weights]
  show len n * J.det * _ = _
  linear_combination (-(len n * J.det * (rule.w q * sizeJacobian e.cell f))) * hss

/-! ## TET4 and TRI3 -/

/-- The element of `TET4`. -/
def tet4 : Elem := ⟨.P, .tetrahedron, .triangle, 0, 1, [0, 1, 2, 3]⟩
/-- The element of `TRI3`. -/
def tri3 : Elem := ⟨.P, .triangle, .interval, 0, 1, [0, 1, 2]⟩

theorem getElements_tet4 : getElements "TET4" = some tet4 := by decide
theorem getElements_tri3 : getElements "TRI3" = some tri3 := by decide

theorem shapeVal_tet4 (n : Fin 4) (x : ℕ → ℝ) : shapeVal tet4 n x = ![1 - x 0 - x 1 - x 2, x 0, x 1, x 2] n := by
  rw [shapeVal_eq "TET4" tet4 getElements_tet4 n (by simp [meshioNodes_TET4]), meshioNodes_TET4]
  fin_cases n <;> simp [tet4, basisFn, bary, List.range_succ]
  ring

theorem shapeVal_tri3 (n : Fin 3) (x : ℕ → ℝ) : shapeVal tri3 n x = ![1 - x 0 - x 1, x 0, x 1] n := by
  rw [shapeVal_eq "TRI3" tri3 getElements_tri3 n (by simp [meshioNodes_TRI3]), meshioNodes_TRI3]
  fin_cases n <;> simp [tri3, basisFn, bary, List.range_succ]
  ring

theorem shapeGradRef_tet4 (n : Fin 4) (x : ℕ → ℝ) (b : Fin 3) : shapeGradRef tet4 n x b = ![![-1, -1, -1], ![1, 0, 0], ![0, 1, 0], ![0, 0, 1]] n b := by
  unfold shapeGradRef
  simp only [shapeVal_tet4]
  fin_cases n <;> fin_cases b <;> simp [Function.update_apply]

theorem shapeGradRef_tri3 (n : Fin 3) (x : ℕ → ℝ) (b : Fin 2) : shapeGradRef tri3 n x b = ![![-1, -1], ![1, 0], ![0, 1]] n b := by
  unfold shapeGradRef
  simp only [shapeVal_tri3]
  fin_cases n <;> fin_cases b <;> simp [Function.update_apply]

/-- Specification: the vertices of the face opposite to vertex `f`. -/
def tetFace : Fin 4 → Fin 3 → Fin 4 := ![![1, 2, 3], ![0, 2, 3], ![0, 1, 3], ![0, 1, 2]]

/-- Specification: the end points of the edge opposite to vertex `f`. -/
def triFace : Fin 3 → Fin 2 → Fin 3 := ![![1, 2], ![0, 2], ![0, 1]]

theorem physFace_tet4 (F : Fem 4 nq nf nfq 3 vec) (c : Fin 4 → ℕ) (f : Fin 4) (s : ℕ → ℝ) (d : Fin 3) :
    physFace F tet4 c f s d = F.points (c (tetFace f 0)) d + s 0 * (F.points (c (tetFace f 1)) d - F.points (c (tetFace f 0)) d)
      + s 1 * (F.points (c (tetFace f 2)) d - F.points (c (tetFace f 0)) d) := by
  have hf : ((f : ℕ)) < (basixFacets tet4.cell).length := f.2
  unfold physFace
  simp only [shapeVal_tet4, Fin.sum_univ_four, facePoint_affine "TET4" tet4 getElements_tet4 f hf]
  fin_cases f <;>
  · simp [tet4, cellDim, basixVertices, sum_range_succ, facetBase, facetJacobian, vertexCoord, basixFacets, tetFace]
    ring

theorem faceTangent_tet4 (F : Fem 4 nq nf nfq 3 vec) (c : Fin 4 → ℕ) (f : Fin 4) (s : ℕ → ℝ) (k : Fin 2) (d : Fin 3) :
    faceTangent F tet4 c f s k d = F.points (c (tetFace f k.succ)) d - F.points (c (tetFace f 0)) d := by
  unfold faceTangent
  simp only [physFace_tet4]
  fin_cases k <;> simp [Function.update_apply]

theorem physFace_tri3 (F : Fem 3 nq nf nfq 2 vec) (c : Fin 3 → ℕ) (f : Fin 3) (s : ℕ → ℝ) (d : Fin 2) :
    physFace F tri3 c f s d = F.points (c (triFace f 0)) d + s 0 * (F.points (c (triFace f 1)) d - F.points (c (triFace f 0)) d) := by
  have hf : ((f : ℕ)) < (basixFacets tri3.cell).length := f.2
  unfold physFace
  simp only [shapeVal_tri3, Fin.sum_univ_three, facePoint_affine "TRI3" tri3 getElements_tri3 f hf]
  fin_cases f <;>
  · simp [tri3, cellDim, basixVertices, sum_range_succ, facetBase, facetJacobian, vertexCoord, basixFacets, triFace]
    ring

theorem faceTangent_tri3 (F : Fem 3 nq nf nfq 2 vec) (c : Fin 3 → ℕ) (f : Fin 3) (s : ℕ → ℝ) (d : Fin 2) :
    faceTangent F tri3 c f s 0 d = F.points (c (triFace f 1)) d - F.points (c (triFace f 0)) d := by
  unfold faceTangent
  simp only [physFace_tri3]
  simp [Function.update_apply]

/-! ## `check_mesh_TET4` -/

/-- `quality` (generate_mesh.py 60-66). -/
noncomputable def tetQuality (p : Fin 4 → Fin 3 → ℝ) : ℝ :=
  let v1 := fun d => p 1 d - p 0 d
  let v2 := fun d => p 2 d - p 0 d
  let v12 := cross3 v1 v2
  let v3 := fun d => p 3 d - p 0 d
  ∑ d, v12 d * v3 d

/-- `check_mesh_TET4` (generate_mesh.py 58-68): one number per cell. -/
noncomputable def checkMeshTET4 (points : ℕ → Fin 3 → ℝ) (cells : List (Fin 4 → ℕ)) : List ℝ := cells.map fun c => tetQuality fun n => points (c n)

theorem det_of_grads_tet4 (p : Fin 4 → Fin 3 → ℝ) :
    (Matrix.of fun i j : Fin 3 => ∑ n : Fin 4, p n i * (![![-1, -1, -1], ![1, 0, 0], ![0, 1, 0], ![0, 0, 1]] n j : ℝ)).det = tetQuality p := by
  rw [Matrix.det_fin_three]
  simp [Fin.sum_univ_four, tetQuality, cross3, Fin.sum_univ_three]
  ring

theorem jacobian_det_tet4 (F : Fem 4 nq nf nfq 3 vec) (rule : QuadRule nq) (ht : CellTables F tet4 rule) (c : Fin 4 → ℕ) (q : Fin nq) :
    (F.jacobian c q).det = tetQuality fun n => F.points (c n) := by
  rw [← det_of_grads_tet4]
  congr 1
  ext i j
  simp only [Fem.jacobian, Fem.coos, ht.grads, Matrix.of_apply, shapeGradRef_tet4]

theorem faceJacobian_det_tet4 (F : Fem 4 nq nf nfq 3 vec) (rule : QuadRule nfq) (ht : FaceTables F tet4 rule) (c : Fin 4 → ℕ) (f : Fin nf) (q : Fin nfq) :
    (F.faceJacobian c f q).det = tetQuality fun n => F.points (c n) := by
  rw [← det_of_grads_tet4]
  congr 1
  ext i j
  simp only [Fem.faceJacobian, Fem.coos, ht.grads, Matrix.of_apply, shapeGradRef_tet4]

theorem faceInds_tet4 (F : Fem 4 nq 4 nfq 3 vec) (rule : QuadRule nfq) (ht : FaceTables F tet4 rule) (f : Fin 4) : F.faceInds f = List.ofFn (tetFace f) := by
  have h := ht.inds f
  have k : ∀ f : Fin 4, (((faceInds tet4).getD []).getD f []) = (List.ofFn (tetFace f)).map Fin.val := by decide +kernel
  rw [k] at h
  exact List.map_injective_iff.mpr Fin.val_injective h

theorem faceInds_tri3 (F : Fem 3 nq 3 nfq 2 vec) (rule : QuadRule nfq) (ht : FaceTables F tri3 rule) (f : Fin 3) : F.faceInds f = List.ofFn (triFace f) := by
  have h := ht.inds f
  have k : ∀ f : Fin 3, (((faceInds tri3).getD []).getD f []) = (List.ofFn (triFace f)).map Fin.val := by decide +kernel
  rw [k] at h
  exact List.map_injective_iff.mpr Fin.val_injective h

/-- **C81 (tetrahedra).** On any mesh of TET4 cells the face scales of a cell that is not flat add up to the triangle area of the face opposite to the vertex, with the sign of the
cell's quality. -/
theorem C81_tet4 (F : Fem 4 nq 4 nfq 3 vec) (rule : QuadRule nfq) (ht : FaceTables F tet4 rule) (hw : ∑ q, rule.w q = 1 / 2) (c : Fin 4 → ℕ) (f : Fin 4)
    (hq : tetQuality (fun n => F.points (c n)) ≠ 0) :
    F.faceInds f = List.ofFn (tetFace f) ∧ ∑ q, F.nansonScale c f q = SignType.sign (tetQuality fun n => F.points (c n)) *
      (len (cross3 (fun d => F.points (c (tetFace f 1)) d - F.points (c (tetFace f 0)) d) (fun d => F.points (c (tetFace f 2)) d - F.points (c (tetFace f 0)) d)) / 2) := by
  have h : ∀ q, F.nansonScale c f q = rule.w q * (SignType.sign (tetQuality fun n => F.points (c n)) *
      (len (cross3 (fun d => F.points (c (tetFace f 1)) d - F.points (c (tetFace f 0)) d) (fun d => F.points (c (tetFace f 2)) d - F.points (c (tetFace f 0)) d)))) := by
    intro q
    have hd := faceJacobian_det_tet4 F rule ht c f q
    rw [C81_area_element F "TET4" (by decide) tet4 getElements_tet4 (by decide) (by decide) rule ht c f f.2 q (by rw [hd]; exact hq), hd]
    have h0 : faceTangent F tet4 c f (rule.pt q) 0 = fun d => F.points (c (tetFace f 1)) d - F.points (c (tetFace f 0)) d := by
      funext d; exact faceTangent_tet4 F c f _ 0 d
    have h1 : faceTangent F tet4 c f (rule.pt q) 1 = fun d => F.points (c (tetFace f 2)) d - F.points (c (tetFace f 0)) d := by
      funext d; exact faceTangent_tet4 F c f _ 1 d
    rw [h0, h1]
    ring
  refine ⟨faceInds_tet4 F rule ht f, ?_⟩
  simp only [h, ← sum_mul, hw]
  ring

/-- Specification: twice the signed area of a triangle. -/
def triQuality (p : Fin 3 → Fin 2 → ℝ) : ℝ := (p 1 0 - p 0 0) * (p 2 1 - p 0 1) - (p 1 1 - p 0 1) * (p 2 0 - p 0 0)

theorem det_of_grads_tri3 (p : Fin 3 → Fin 2 → ℝ) :
    (Matrix.of fun i j : Fin 2 => ∑ n : Fin 3, p n i * (![![-1, -1], ![1, 0], ![0, 1]] n j : ℝ)).det = triQuality p := by
  rw [Matrix.det_fin_two]
  simp [Fin.sum_univ_three, triQuality]
  ring

/-- **C81 (triangles).** The same for the edges of TRI3 cells. -/
theorem C81_tri3 (F : Fem 3 nq 3 nfq 2 vec) (rule : QuadRule nfq) (ht : FaceTables F tri3 rule) (hw : ∑ q, rule.w q = 1) (c : Fin 3 → ℕ) (f : Fin 3)
    (hq : triQuality (fun n => F.points (c n)) ≠ 0) :
    F.faceInds f = List.ofFn (triFace f) ∧ ∑ q, F.nansonScale c f q = SignType.sign (triQuality fun n => F.points (c n)) *
      len (fun d => F.points (c (triFace f 1)) d - F.points (c (triFace f 0)) d) := by
  have h : ∀ q, F.nansonScale c f q = rule.w q * (SignType.sign (triQuality fun n => F.points (c n)) *
      len (fun d => F.points (c (triFace f 1)) d - F.points (c (triFace f 0)) d)) := by
    intro q
    have hd : (F.faceJacobian c f q).det = triQuality fun n => F.points (c n) := by
      rw [← det_of_grads_tri3]
      congr 1
      ext i j
      simp only [Fem.faceJacobian, Fem.coos, ht.grads, Matrix.of_apply, shapeGradRef_tri3]
    rw [C81_length_element F "TRI3" (by decide) tri3 getElements_tri3 (by decide) (by decide) rule ht c f f.2 q (by rw [hd]; exact hq), hd]
    have h0 : faceTangent F tri3 c f (rule.pt q) 0 = fun d => F.points (c (triFace f 1)) d - F.points (c (triFace f 0)) d := by
      funext d; exact faceTangent_tri3 F c f _ d
    rw [h0]
    ring
  refine ⟨faceInds_tri3 F rule ht f, ?_⟩
  simp only [h, ← sum_mul, hw]
  ring

/-- **C82.** `check_mesh_TET4` on any mesh of TET4 cells: the quality of a cell is six times the sum of its `JxW`, the object can be built exactly if no quality is zero, and (for positive
weights) all `JxW` are positive exactly if all qualities are. -/
theorem C82_check_mesh (F : Fem 4 nq nf nfq 3 vec) (rule : QuadRule nq) (ht : CellTables F tet4 rule) (hw : ∑ q, rule.w q = 1 / 6) :
    checkMeshTET4 F.points F.cells = F.cells.map (fun c => 6 * ∑ q, F.JxW c q) ∧
    ((∃ G, F.getShapeGrads = .ok G) ↔ 0 ∉ checkMeshTET4 F.points F.cells) ∧
    ((∀ q, 0 < rule.w q) → ((∀ c ∈ F.cells, ∀ q, 0 < F.JxW c q) ↔ ∀ x ∈ checkMeshTET4 F.points F.cells, 0 < x)) := by
  have hJ : ∀ c q, F.JxW c q = tetQuality (fun n => F.points (c n)) * rule.w q := by
    intro c q
    rw [Fem.JxW, jacobian_det_tet4 F rule ht, ht.weights]
  have hpos : 0 < nq := by
    rcases Nat.eq_zero_or_pos nq with h | h
    · subst h; norm_num at hw
    · exact h
  refine ⟨?_, ?_, ?_⟩
  · refine List.map_congr_left fun c _ => ?_
    simp only [hJ, ← mul_sum, hw]
    ring
  · constructor
    · rintro ⟨G, hG⟩ h0
      obtain ⟨c, hc, h⟩ := List.mem_map.mp h0
      exact ((getShapeGrads_ok_iff F G).mp hG).1 c hc ⟨0, hpos⟩ ((jacobian_det_tet4 F rule ht c _).trans h)
    · intro h0
      refine ⟨_, (getShapeGrads_ok_iff F _).mpr ⟨fun c hc q h => h0 (List.mem_map.mpr ⟨c, hc, ?_⟩), rfl⟩⟩
      rw [← jacobian_det_tet4 F rule ht c q, h]
  · intro hwp
    constructor
    · intro h x hx
      obtain ⟨c, hc, rfl⟩ := List.mem_map.mp hx
      have := h c hc ⟨0, hpos⟩
      rw [hJ] at this
      exact pos_of_mul_pos_left this (hwp _).le
    · intro h c hc q
      rw [hJ]
      exact mul_pos (h _ (List.mem_map.mpr ⟨c, hc, rfl⟩)) (hwp q)

/-! ## `get_meshio_cell_type` -/

/-- `get_meshio_cell_type` (generate_mesh.py 71-95); `none` is `NotImplementedError`. -/
def meshioCellType (s : String) : Option String :=
  if s = "TET4" then some "tetra" else if s = "TET10" then some "tetra10" else if s = "HEX8" then some "hexahedron"
  else if s = "HEX27" then some "hexahedron27" else if s = "HEX20" then some "hexahedron20" else if s = "TRI3" then some "triangle"
  else if s = "TRI6" then some "triangle6" else if s = "QUAD4" then some "quad" else if s = "QUAD8" then some "quad8" else none

/-- Specification: number of nodes per cell of the meshio type (meshio `num_nodes_per_cell`). -/
def meshioNumNodes : List (String × ℕ) :=
  [("triangle", 3), ("triangle6", 6), ("quad", 4), ("quad8", 8), ("tetra", 4), ("tetra10", 10), ("hexahedron", 8), ("hexahedron20", 20), ("hexahedron27", 27)]

/-- **C82 (cell types).** The meshio name exists for exactly the names `get_elements` accepts; different elements get different names, and the cell block has as many columns as the element
has nodes. -/
theorem C82_cell_type (s : String) :
    ((meshioCellType s).isSome ↔ (getElements s).isSome) ∧ (∀ s' m, meshioCellType s = some m → meshioCellType s' = some m → s = s') ∧
    ∀ m, meshioCellType s = some m → (m, (meshioNodes s).length) ∈ meshioNumNodes := by
  have hin : ∀ t, (meshioCellType t).isSome → t ∈ supported := by
    intro t ht
    unfold meshioCellType at ht
    simp only [supported]
    split_ifs at ht <;> simp_all
  have hsup : ∀ t ∈ supported, (getElements t).isSome ∧ (meshioCellType t).isSome := by decide +kernel
  refine ⟨⟨fun h => (hsup s (hin s h)).1, fun h => ?_⟩, ?_, ?_⟩
  · obtain ⟨e, he⟩ := Option.isSome_iff_exists.mp h
    refine (hsup s ?_).2
    exact getElements_cases (fun name hn e _ => hn) s e he
  · intro s' m h1 h2
    have k : ∀ t ∈ supported, ∀ t' ∈ supported, meshioCellType t = meshioCellType t' → t = t' := by decide +kernel
    exact k s (hin s (by rw [h1]; rfl)) s' (hin s' (by rw [h2]; rfl)) (h1.trans h2.symm)
  · intro m h
    have k : ∀ t ∈ supported, ∀ m ∈ meshioCellType t, (m, (meshioNodes t).length) ∈ meshioNumNodes := by decide +kernel
    exact k s (hin s (by rw [h]; rfl)) m h

/-! ## Instances -/

/-- The object of one tetrahedron with the one-point rules of basix. -/
noncomputable def tetExample (p : ℕ → Fin 3 → ℝ) : Fem 4 1 4 1 3 1 := Fem.ofElement 4 4 3 1 tet4 (centreRule 3) (centreRule 2) 4 p [![0, 1, 2, 3]]

theorem tetExample_cell (p) : CellTables (tetExample p) tet4 (centreRule 3) := ⟨fun _ _ => rfl, fun _ _ _ => rfl, fun _ => rfl⟩

theorem tetExample_face (p) : FaceTables (tetExample p) tet4 (centreRule 2) :=
  ⟨fun _ _ _ => rfl, fun _ _ _ _ => rfl, fun _ _ => rfl, fun _ _ => rfl, fun f => by
    show List.map Fin.val (List.filterMap _ _) = _
    revert f
    decide +kernel⟩

/-- Tetrahedron with legs 2, 3, 4: volume 4; the face opposite to the origin has area `√61`; with two vertices exchanged the volume and the area come out negative. -/
example (p : ℕ → Fin 3 → ℝ) (h0 : p 0 = ![0, 0, 0]) (h1 : p 1 = ![2, 0, 0]) (h2 : p 2 = ![0, 3, 0]) (h3 : p 3 = ![0, 0, 4]) :
    ∑ q, (tetExample p).nansonScale ![0, 1, 2, 3] 0 q = Real.sqrt 61 ∧ ∑ q, (tetExample p).nansonScale ![0, 2, 1, 3] 0 q = -Real.sqrt 61 ∧
    (checkMeshTET4 (tetExample p).points (tetExample p).cells) = [24] := by
  have hw : ∑ q, (centreRule 2).w q = 1 / 2 := by simp [centreRule]
  have hs : Real.sqrt (12 ^ 2 + 8 ^ 2 + 6 ^ 2) = 2 * Real.sqrt 61 := by
    rw [show (12 ^ 2 + 8 ^ 2 + 6 ^ 2 : ℝ) = 2 ^ 2 * 61 by norm_num, Real.sqrt_mul (by norm_num), Real.sqrt_sq (by norm_num)]
  have hp : (tetExample p).points = p := rfl
  have q1 : tetQuality (fun n => p (![0, 1, 2, 3] n)) = 24 := by
    simp [tetQuality, cross3, Fin.sum_univ_three, h0, h1, h2, h3]; norm_num
  have q2 : tetQuality (fun n => p (![0, 2, 1, 3] n)) = -24 := by
    simp [tetQuality, cross3, Fin.sum_univ_three, h0, h1, h2, h3]; norm_num
  refine ⟨?_, ?_, ?_⟩
  · rw [(C81_tet4 _ _ (tetExample_face p) hw _ 0 (by rw [hp, q1]; norm_num)).2, hp, q1, sign_pos (by norm_num)]
    simp [len, cross3, tetFace, Fin.sum_univ_three, h1, h2, h3]
    norm_num at hs ⊢
    linarith
  · rw [(C81_tet4 _ _ (tetExample_face p) hw _ 0 (by rw [hp, q2]; norm_num)).2, hp, q2, sign_neg (by norm_num)]
    simp [len, cross3, tetFace, Fin.sum_univ_three, h1, h2, h3]
    norm_num at hs ⊢
    linarith
  · simp only [checkMeshTET4, hp]
    show [tetQuality (fun n => p (![0, 1, 2, 3] n))] = [24]
    rw [q1]

/-- The hypotheses of the triangle version: the edge of a 3-4-5 triangle opposite to the right angle has length 5. -/
example (p : ℕ → Fin 2 → ℝ) (h0 : p 0 = ![0, 0]) (h1 : p 1 = ![3, 0]) (h2 : p 2 = ![0, 4]) :
    ∑ q, (Fem.ofElement 3 3 2 1 tri3 (centreRule 2) (centreRule 1) 3 p [![0, 1, 2]] : Fem 3 1 3 1 2 1).nansonScale ![0, 1, 2] 0 q = 5 := by
  set F : Fem 3 1 3 1 2 1 := Fem.ofElement 3 3 2 1 tri3 (centreRule 2) (centreRule 1) 3 p [![0, 1, 2]]
  have ht : FaceTables F tri3 (centreRule 1) := ⟨fun _ _ _ => rfl, fun _ _ _ _ => rfl, fun _ _ => rfl, fun _ _ => rfl, fun f => by
    show List.map Fin.val (List.filterMap _ _) = _
    revert f
    decide +kernel⟩
  have hp : F.points = p := rfl
  have q1 : triQuality (fun n => p (![0, 1, 2] n)) = 12 := by
    simp [triQuality, h0, h1, h2]; norm_num
  rw [(C81_tri3 F _ ht (by simp [centreRule]) _ 0 (by rw [hp, q1]; norm_num)).2, hp, q1, sign_pos (by norm_num)]
  simp [len, triFace, h1, h2]
  rw [show (3 ^ 2 + 4 ^ 2 : ℝ) = 5 ^ 2 by norm_num, Real.sqrt_sq (by norm_num)]

example : meshioCellType "HEX20" = some "hexahedron20" ∧ meshioCellType "QUAD9" = none := by decide

end Verif.Fem
