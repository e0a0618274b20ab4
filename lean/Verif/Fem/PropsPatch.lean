import Verif.Fem.PropsSurface

/-!
# C84: surface terms act only on nodes of the selected faces; C85: the patch test
-/
namespace Verif.Fem
open Finset

variable {nn nq nf nfq dim vec : ℕ}

/-! ## C84 -/

/-- The elements all of whose nodes are corners. -/
def linearNames : List String := ["HEX8", "TET4", "QUAD4", "TRI3"]

/-- On a linear element a local node outside the face list `f` has shape value zero on the face. -/
theorem faceVals_off (F : Fem nn nq nf nfq dim vec) (name : String) (hn : name ∈ linearNames) (e : Elem) (he : getElements name = some e) (hnn : nn = (meshioNodes name).length)
    (rule : QuadRule nfq) (ht : FaceTables F e rule) (f : Fin nf) (hf : (f : ℕ) < (basixFacets e.cell).length) (q : Fin nfq) (a : Fin nn) (ha : a ∉ F.faceInds f) : F.faceShapeVals f q a = 0 := by
  have hl : name ∈ lagrangeNames := by
    have : ∀ s ∈ linearNames, s ∈ lagrangeNames := by decide
    exact this name hn
  have hcorner : meshioCorners name = meshioNodes name := by
    have : ∀ s ∈ linearNames, meshioCorners s = meshioNodes s := by decide
    exact this name hn
  obtain ⟨fs, hfs, hall⟩ := C09_faces name e he
  have hlen : (facetPlane e.cell).length = (basixFacets e.cell).length := by cases e.cell <;> rfl
  have hf1 : (f : ℕ) < fs.length := by rw [hall.length_eq, hlen]; exact hf
  have hf2 : (f : ℕ) < (facetPlane e.cell).length := by rw [hlen]; exact hf
  obtain ⟨-, hmem⟩ := (List.forall₂_iff_get.mp hall).2 f hf1 hf2
  have hinds := ht.inds f
  rw [hfs, Option.getD_some, List.getD_eq_getElem?_getD, List.getElem?_eq_getElem hf1, Option.getD_some] at hinds
  have hmem' := hmem a
  rw [List.get_eq_getElem, ← hinds, List.mem_map_of_injective Fin.val_injective, hcorner] at hmem'
  rw [ht.vals]
  refine C80_local name hl e he f _ (List.getElem?_eq_getElem hf2) a (hnn ▸ a.2) ?_ _
  by_contra hon
  exact ha (hmem'.mpr ⟨hnn ▸ a.2, by simpa using hon⟩)

/-- **C84.** On a mesh of linear elements a surface condition (Neumann or Cauchy) contributes nothing to a node at which its location function is false. -/
theorem C84_surface_support (F : Fem nn nq nf nfq dim vec) (name : String) (hn : name ∈ linearNames) (e : Elem) (he : getElements name = some e) (hnn : nn = (meshioNodes name).length)
    (hnf : nf = (basixFacets e.cell).length) (rule : QuadRule nfq) (ht : FaceTables F e rule) (loc : Loc dim) (n : ℕ) (hloc : loc (F.points n) = false) (i : Fin vec) :
    (∀ g : ℕ → Fin nfq → (Fin dim → ℝ) → Fin vec → ℝ, ((F.selected loc).zipIdx.map fun p => nodal n p.1.1 fun a =>
      ∑ q, F.faceShapeVals p.1.2 q a * g p.2 q (F.xFace p.1 q) i * F.nansonScale p.1.1 p.1.2 q).sum = 0) ∧
    ∀ (cm : (Fin vec → ℝ) → Fin vec → ℝ) (sol : ℕ → Fin vec → ℝ), ((F.selected loc).map fun p => nodal n p.1 fun a =>
      ∑ q, cm (F.uFace sol p q) i * F.faceShapeVals p.2 q a * F.nansonScale p.1 p.2 q).sum = 0 := by
  have key : ∀ p ∈ F.selected loc, ∀ a, p.1 a = n → ∀ q, F.faceShapeVals p.2 q a = 0 := by
    intro p hp a ha q
    refine faceVals_off F name hn e he hnn rule ht p.2 (hnf ▸ p.2.2) q a fun hmem => ?_
    obtain ⟨k, hk, hsel⟩ := (C13_selected F loc p).mp hp
    obtain ⟨h1, h2⟩ := hsel
    have h3 := h2 a hmem
    obtain ⟨h4, h5⟩ := List.getElem?_eq_some_iff.mp hk
    rw [h5, ha, hloc] at h3
    exact absurd h3 (by simp)
  constructor
  · intro g
    refine List.sum_eq_zero fun x hx => ?_
    obtain ⟨p, hp, rfl⟩ := List.mem_map.mp hx
    have hsel : p.1 ∈ F.selected loc := List.mem_of_getElem? (List.mem_zipIdx_iff_getElem?.mp (show (p.1, p.2) ∈ (F.selected loc).zipIdx from hp))
    refine sum_eq_zero fun a ha => sum_eq_zero fun q _ => ?_
    rw [key p.1 hsel a (mem_filter.mp ha).2, zero_mul, zero_mul]
  · intro cm sol
    refine List.sum_eq_zero fun x hx => ?_
    obtain ⟨p, hp, rfl⟩ := List.mem_map.mp hx
    refine sum_eq_zero fun a ha => sum_eq_zero fun q _ => ?_
    rw [key p hp a (mem_filter.mp ha).2, mul_zero, zero_mul]

/-! ## C85 -/

/-- Specification: the integral of the gradient of the test function of node `n`. -/
noncomputable def Fem.nodeVector (F : Fem nn nq nf nfq dim vec) (n : ℕ) (d : Fin dim) : ℝ := (F.cells.map fun c => nodal n c fun a => ∑ q, F.shapeGrad c q a d * F.JxW c q).sum

theorem gradAt_affine (F : Fem nn nq nf nfq dim vec) (hsum : ∀ q b, ∑ n, F.shapeGradsRef q n b = 0) (A : Fin vec → Fin dim → ℝ) (b : Fin vec → ℝ) (sol : ℕ → Fin vec → ℝ)
    (c : Fin nn → ℕ) (hsol : ∀ n i, sol (c n) i = ∑ d, A i d * F.points (c n) d + b i) (q : Fin nq) (hdet : (F.jacobian c q).det ≠ 0) : F.gradAt sol c q = A := by
  funext i d
  simp only [Fem.gradAt, hsol, add_mul, sum_add_distrib, ← mul_sum, grad_sum_zero F hsum c q d, mul_zero, add_zero, sum_mul]
  rw [sum_comm]
  have := grad_dual F c q hdet
  simp only [mul_assoc, ← mul_sum, this]
  simp

theorem nodal_smul (n : ℕ) (c : Fin nn → ℕ) (r : ℝ) (v : Fin nn → ℝ) : nodal n c (fun a => r * v a) = r * nodal n c v := by
  unfold nodal; rw [mul_sum]

theorem nodal_sum {ι : Type*} (s : Finset ι) (n : ℕ) (c : Fin nn → ℕ) (v : ι → Fin nn → ℝ) : nodal n c (fun a => ∑ d ∈ s, v d a) = ∑ d ∈ s, nodal n c (v d) := by
  unfold nodal; rw [sum_comm]

/-- Residual of an affine field on any mesh: the constant stress times the node vectors, minus the loads. -/
theorem residual_affine (F : Fem nn nq nf nfq dim vec) (hsum : ∀ q b, ∑ n, F.shapeGradsRef q n b = 0) (hdet : ∀ c ∈ F.cells, ∀ q, (F.jacobian c q).det ≠ 0)
    (hmass : F.massMap = none) (hsrc : F.source = none) (hbody : F.bodyVar = none) (hcauchy : F.cauchy = none)
    (A T : Fin vec → Fin dim → ℝ) (b : Fin vec → ℝ) (hT : ∀ k q, F.stress k q A = T) (sol R : ℕ → Fin vec → ℝ)
    (hsol : ∀ c ∈ F.cells, ∀ n i, sol (c n) i = ∑ d, A i d * F.points (c n) d + b i) (h : F.computeResidual sol = .ok R) (n : ℕ) (i : Fin vec) :
    R n i = ∑ d, T i d * F.nodeVector n d - ((Fem.pairs F.neumann).map fun lv => ((F.selected lv.1).zipIdx.map fun p => nodal n p.1.1 fun a =>
          ∑ q, F.faceShapeVals p.1.2 q a * lv.2 p.2 q (F.xFace p.1 q) i * F.nansonScale p.1.1 p.1.2 q).sum).sum := by
  have hload : ∀ c q, F.load c q i = 0 := by intro c q; simp [Fem.load, hsrc, hbody]
  have hvol : ∀ p ∈ F.cells.zipIdx, (nodal n p.1 fun a => F.volTerm sol p.1 p.2 a i) = ∑ d, T i d * nodal n p.1 fun a => ∑ q, F.shapeGrad p.1 q a d * F.JxW p.1 q := by
    intro p hp
    have hc : p.1 ∈ F.cells := List.mem_of_getElem? (List.mem_zipIdx_iff_getElem?.mp (show (p.1, p.2) ∈ F.cells.zipIdx from hp))
    have : (fun a => F.volTerm sol p.1 p.2 a i) = fun a => ∑ d, T i d * ∑ q, F.shapeGrad p.1 q a d * F.JxW p.1 q := by
      funext a
      unfold Fem.volTerm
      have hm : ∀ q, F.massAt p.2 q (F.uAt sol p.1 q) i = 0 := by intro q; simp [Fem.massAt, hmass]
      simp only [hm, zero_mul, add_zero, gradAt_affine F hsum A b sol p.1 (hsol p.1 hc) _ (hdet p.1 hc _), hT, sum_mul, mul_sum]
      rw [sum_comm]
      exact sum_congr rfl fun d _ => sum_congr rfl fun q _ => by ring
    rw [this, nodal_sum]
    exact sum_congr rfl fun d _ => nodal_smul _ _ _ _
  rw [C13_residual F sol R h n i, sum_map_congr hvol]
  have hc0 : Fem.pairs F.cauchy = [] := by rw [hcauchy]; rfl
  have hl0 : (F.cells.map fun c => nodal n c fun a => ∑ q, F.shapeVals q a * F.load c q i * F.JxW c q).sum = 0 := by
    refine List.sum_eq_zero fun x hx => ?_
    obtain ⟨c, -, rfl⟩ := List.mem_map.mp hx
    simp [nodal, hload]
  rw [hc0, hl0]
  have hv : (F.cells.zipIdx.map fun p => ∑ d, T i d * nodal n p.1 fun a => ∑ q, F.shapeGrad p.1 q a d * F.JxW p.1 q).sum = ∑ d, T i d * F.nodeVector n d := by
    unfold Fem.nodeVector
    have hz : ∀ (G : (Fin nn → ℕ) → ℝ), (F.cells.map G).sum = (F.cells.zipIdx.map fun p => G p.1).sum := by
      intro G
      conv_lhs => rw [← List.zipIdx_map_fst 0 F.cells, List.map_map]
      rfl
    rw [← hz fun c => ∑ d, T i d * nodal n c fun a => ∑ q, F.shapeGrad c q a d * F.JxW c q]
    induction F.cells with
    | nil => simp
    | cons c l ih => simp only [List.map_cons, List.sum_cons, ih, mul_add, sum_add_distrib]
  rw [hv]
  simp

/-! ### The box -/

/-- Contributions of the cells of the box to the node at grid position `m`: at most one cell per local node number. -/
theorem box_nodal (N m : Fin 3 → ℕ) (hm : ∀ a, m a ≤ N a) (v : (Fin 3 → ℕ) → Fin 8 → ℝ) :
    ∑ g ∈ boxGrid N, nodal (gridNode N m) (boxCell N g) (v g)
      = ∑ p, if ∀ a, Verif.Mesh.hexCorner p a ≤ m a ∧ m a < N a + Verif.Mesh.hexCorner p a then v (fun a => m a - Verif.Mesh.hexCorner p a) p else 0 := by
  unfold nodal
  simp only [sum_filter]
  rw [sum_comm]
  refine sum_congr rfl fun p _ => ?_
  have hiff : ∀ g ∈ boxGrid N, (boxCell N g p = gridNode N m ↔ g = (fun a => m a - Verif.Mesh.hexCorner p a) ∧ ∀ a, Verif.Mesh.hexCorner p a ≤ m a) := by
    intro g hg
    rw [mem_boxGrid] at hg
    constructor
    · intro e
      have he := gridNode_inj N _ m (fun b => by have := hg b; have := hexCorner_le p b; omega) hm e
      refine ⟨funext fun a => ?_, fun a => ?_⟩ <;>
      · have : g a + Verif.Mesh.hexCorner p a = m a := congrFun he a
        omega
    · rintro ⟨rfl, h⟩
      unfold boxCell
      congr 1
      funext a
      exact Nat.sub_add_cancel (h a)
  split_ifs with h
  · rw [sum_eq_single (fun a => m a - Verif.Mesh.hexCorner p a)]
    · rw [if_pos]
      refine (hiff _ ((mem_boxGrid _ _).mpr fun a => ?_)).mpr ⟨rfl, fun a => (h a).1⟩
      have := h a
      omega
    · intro g hg hne
      rw [if_neg fun e => hne ((hiff g hg).mp e).1]
    · intro hnot
      exact absurd ((mem_boxGrid _ _).mpr fun a => by have := h a; omega) hnot
  · refine sum_eq_zero fun g hg => if_neg fun e => h fun a => ?_
    obtain ⟨rfl, h2⟩ := (hiff g hg).mp e
    have h3 : m a - Verif.Mesh.hexCorner p a < N a := (mem_boxGrid _ _).mp hg a
    have h4 := h2 a
    exact ⟨h4, by omega⟩

theorem OnBox.shapeGrad {F : Fem 8 nq nf nfq 3 vec} {N : Fin 3 → ℕ} {L : Fin 3 → ℝ} (h : OnBox F N L) (rule : QuadRule nq) (ht : CellTables F hex8 rule) (hN : ∀ a, 0 < N a) (hL : ∀ a, 0 < L a)
    (g : Fin 3 → ℕ) (hg : g ∈ boxGrid N) (q : Fin nq) (n : Fin 8) (d : Fin 3) : F.shapeGrad (boxCell N g) q n d = shapeGradRef hex8 n (rule.pt q) d * (L d / N d)⁻¹ := by
  have hinv : (Matrix.diagonal fun a => L a / N a : Matrix (Fin 3) (Fin 3) ℝ)⁻¹ = Matrix.diagonal fun a => (L a / N a)⁻¹ := by
    refine Matrix.inv_eq_right_inv ?_
    rw [Matrix.diagonal_mul_diagonal, ← Matrix.diagonal_one]
    exact congrArg _ (funext fun a => mul_inv_cancel₀ (div_ne_zero (hL a).ne' (by exact_mod_cast (hN a).ne')))
  unfold Fem.shapeGrad
  rw [h.jacobian rule ht g hg, hinv, sum_eq_single d (fun b _ hb => by rw [Matrix.diagonal_apply_ne _ hb, mul_zero]) (fun h => absurd (mem_univ d) h), Matrix.diagonal_apply_eq, ht.grads]

theorem OnBox.JxW {F : Fem 8 nq nf nfq 3 vec} {N : Fin 3 → ℕ} {L : Fin 3 → ℝ} (h : OnBox F N L) (rule : QuadRule nq) (ht : CellTables F hex8 rule)
    (g : Fin 3 → ℕ) (hg : g ∈ boxGrid N) (q : Fin nq) : F.JxW (boxCell N g) q = (∏ a, (L a / N a)) * rule.w q := by
  unfold Fem.JxW
  rw [h.jacobian rule ht g hg, Matrix.det_diagonal, ht.weights]

/-- **C85 (patch test, box, any rule).** HEX8 on `box_mesh` with any quadrature rule, any stress function without space dependence at the gradient `A`, no mass term, body load or Cauchy condition,
and Neumann conditions whose location functions are false at the node: the residual of every affine field is zero at every interior node. -/
theorem C85_patch_box (F : Fem 8 nq 6 nfq 3 vec) (N : Fin 3 → ℕ) (L : Fin 3 → ℝ) (hbox : OnBox F N L) (hN : ∀ a, 0 < N a) (hL : ∀ a, 0 < L a) (rule : QuadRule nq) (ht : CellTables F hex8 rule)
    (frule : QuadRule nfq) (hft : FaceTables F hex8 frule) (hmass : F.massMap = none) (hsrc : F.source = none) (hbody : F.bodyVar = none) (hcauchy : F.cauchy = none)
    (A T : Fin vec → Fin 3 → ℝ) (b : Fin vec → ℝ) (hT : ∀ k q, F.stress k q A = T) (sol R : ℕ → Fin vec → ℝ)
    (hsol : ∀ c ∈ F.cells, ∀ n i, sol (c n) i = ∑ d, A i d * F.points (c n) d + b i) (h : F.computeResidual sol = .ok R)
    (m : Fin 3 → ℕ) (hm : ∀ a, 0 < m a ∧ m a < N a) (hloc : ∀ lv ∈ Fem.pairs F.neumann, lv.1 (F.points (gridNode N m)) = false) (i : Fin vec) : R (gridNode N m) i = 0 := by
  have hsum := (Tabulated.sums (F := F) (name := "HEX8") (by decide) getElements_hex8 (by decide) (pts := rule.pt) ⟨ht.vals, ht.grads⟩).1
  have hdet : ∀ c ∈ F.cells, ∀ q, (F.jacobian c q).det ≠ 0 := by
    intro c hc q
    obtain ⟨g, hg, rfl⟩ := (hbox.mem_cells c).mp hc
    rw [hbox.jacobian rule ht g hg, Matrix.det_diagonal]
    exact prod_ne_zero_iff.mpr fun b _ => div_ne_zero (hL b).ne' (by exact_mod_cast (hN b).ne')
  rw [residual_affine F hsum hdet hmass hsrc hbody hcauchy A T b hT sol R hsol h]
  have h1 : ((Fem.pairs F.neumann).map fun lv => ((F.selected lv.1).zipIdx.map fun p => nodal (gridNode N m) p.1.1 fun a =>
          ∑ q, F.faceShapeVals p.1.2 q a * lv.2 p.2 q (F.xFace p.1 q) i * F.nansonScale p.1.1 p.1.2 q).sum).sum = 0 := by
    refine List.sum_eq_zero fun x hx => ?_
    obtain ⟨lv, hlv, rfl⟩ := List.mem_map.mp hx
    exact (C84_surface_support F "HEX8" (by decide) hex8 getElements_hex8 (by decide) (by decide) frule hft lv.1 _ (hloc lv hlv) i).1 lv.2
  have h2 : ∀ d, F.nodeVector (gridNode N m) d = 0 := by
    intro d
    unfold Fem.nodeVector
    rw [hbox.sum_cells, sum_congr rfl fun g hg => show nodal (gridNode N m) (boxCell N g) (fun a => ∑ q, F.shapeGrad (boxCell N g) q a d * F.JxW (boxCell N g) q) =
      nodal (gridNode N m) (boxCell N g) (fun a => ∑ q, shapeGradRef hex8 a (rule.pt q) d * (L d / N d)⁻¹ * ((∏ a, (L a / N a)) * rule.w q)) by
        simp only [hbox.shapeGrad rule ht hN hL g hg, hbox.JxW rule ht g hg], box_nodal N m fun a => (hm a).2.le]
    rw [sum_congr rfl fun p _ => if_pos fun a => by have := hm a; have := hexCorner_le p a; omega, sum_comm]
    refine sum_eq_zero fun q _ => ?_
    rw [← sum_mul, ← sum_mul, ← sum_congr rfl fun p _ => ht.grads q p d, hsum, zero_mul, zero_mul]
  rw [h1, sum_eq_zero fun d _ => by rw [h2, mul_zero], sub_zero]

end Verif.Fem
