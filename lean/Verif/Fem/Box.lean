import Verif.Fem.PropsTables
import Verif.Fem.PropsGeom
import Verif.Fem.Assembly
import Mathlib.Data.Fintype.Pi
import Mathlib.Data.Fintype.BigOperators

/-!
# HEX8 objects on `box_mesh`: infrastructure for C83-C85
-/
namespace Verif.Fem
open Finset

variable {nq nf nfq vec : ℕ}

/-- The element of `HEX8`. -/
def hex8 : Elem := ⟨.P, .hexahedron, .quadrilateral, 2, 1, [0, 1, 3, 2, 4, 5, 7, 6]⟩

theorem getElements_hex8 : getElements "HEX8" = some hex8 := by decide

/-- Node number of the grid position `m` of a grid with `N` cells per direction. -/
def gridNode (N : Fin 3 → ℕ) (m : Fin 3 → ℕ) : ℕ := (m 0 * (N 1 + 1) + m 1) * (N 2 + 1) + m 2

/-- The cell at grid position `g`. -/
def boxCell (N : Fin 3 → ℕ) (g : Fin 3 → ℕ) : Fin 8 → ℕ := fun p => gridNode N fun a => g a + Verif.Mesh.hexCorner p a

/-- Grid positions of the cells. -/
def boxGrid (N : Fin 3 → ℕ) : Finset (Fin 3 → ℕ) := Fintype.piFinset fun a => range (N a)

theorem mem_boxGrid (N g : Fin 3 → ℕ) : g ∈ boxGrid N ↔ ∀ a, g a < N a := by simp [boxGrid]

/-- The object belongs to `box_mesh(Nx, Ny, Nz, Lx, Ly, Lz)`. -/
structure OnBox (F : Fem 8 nq nf nfq 3 vec) (N : Fin 3 → ℕ) (L : Fin 3 → ℝ) : Prop where
  points : F.points = (Verif.Mesh.boxMesh (N 0) (N 1) (N 2) (L 0) (L 1) (L 2)).points.get
  cells : F.cells = (Verif.Mesh.boxMesh (N 0) (N 1) (N 2) (L 0) (L 1) (L 2)).cells.toList

theorem hexCorner_le (p : Fin 8) (a : Fin 3) : Verif.Mesh.hexCorner p a ≤ 1 := by
  revert p a; decide

theorem gridNode_inj (N m m' : Fin 3 → ℕ) (h : ∀ a, m a ≤ N a) (h' : ∀ a, m' a ≤ N a) (e : gridNode N m = gridNode N m') : m = m' := by
  obtain ⟨h0, h1, h2⟩ := Verif.Mesh.idx3_inj (Nat.lt_succ_of_le (h 1)) (Nat.lt_succ_of_le (h 2)) (Nat.lt_succ_of_le (h' 1)) (Nat.lt_succ_of_le (h' 2)) e
  funext a
  fin_cases a
  · exact h0
  · exact h1
  · exact h2

theorem gridNode_lt (N m : Fin 3 → ℕ) (h : ∀ a, m a ≤ N a) : gridNode N m < (N 0 + 1) * (N 1 + 1) * (N 2 + 1) :=
  Verif.Mesh.idx3_lt (Nat.lt_succ_of_le (h 0)) (Nat.lt_succ_of_le (h 1)) (Nat.lt_succ_of_le (h 2))

theorem gridNode_surj (N : Fin 3 → ℕ) (t : ℕ) (h : t < (N 0 + 1) * (N 1 + 1) * (N 2 + 1)) : ∃ m : Fin 3 → ℕ, (∀ a, m a ≤ N a) ∧ t = gridNode N m := by
  obtain ⟨i, j, k, hi, hj, hk, rfl⟩ := Verif.Mesh.idx3_surj h
  refine ⟨![i, j, k], fun a => ?_, rfl⟩
  fin_cases a
  · exact Nat.le_of_lt_succ hi
  · exact Nat.le_of_lt_succ hj
  · exact Nat.le_of_lt_succ hk

variable {F : Fem 8 nq nf nfq 3 vec} {N : Fin 3 → ℕ} {L : Fin 3 → ℝ}

theorem OnBox.point (h : OnBox F N L) (m : Fin 3 → ℕ) (hm : ∀ a, m a ≤ N a) (a : Fin 3) : F.points (gridNode N m) a = m a * (L a / N a) := by
  rw [h.points, gridNode, Verif.Mesh.boxMesh_point _ _ _ _ _ _ (Nat.lt_succ_of_le (hm 1)) (Nat.lt_succ_of_le (hm 2))]
  fin_cases a <;> rfl

theorem box_cell_get (N : Fin 3 → ℕ) (L : Fin 3 → ℝ) (g : Fin 3 → ℕ) (hg : ∀ a, g a < N a) :
    (Verif.Mesh.boxMesh (N 0) (N 1) (N 2) (L 0) (L 1) (L 2)).cells.get ((g 0 * N 1 + g 1) * N 2 + g 2) = boxCell N g := by
  rw [Verif.Mesh.boxMesh_cell _ _ _ _ _ _ (hg 1) (hg 2)]
  funext p
  fin_cases p <;> rfl

theorem OnBox.sum_cells (h : OnBox F N L) {V : Type*} [AddCommMonoid V] (G : (Fin 8 → ℕ) → V) : (F.cells.map G).sum = ∑ g ∈ boxGrid N, G (boxCell N g) := by
  rw [h.cells]
  simp only [Arr1.toList, List.map_map, Verif.Mesh.boxMesh_cells_n]
  have hr : ∀ (n : ℕ) (f : ℕ → V), ((List.range n).map f).sum = ∑ t ∈ range n, f t := fun n f => by
    induction n with
    | zero => simp
    | succ n ih => simp [List.range_succ, sum_range_succ, ih]
  rw [hr]
  symm
  refine sum_bij (fun g _ => (g 0 * N 1 + g 1) * N 2 + g 2) ?_ ?_ ?_ ?_
  · intro g hg
    rw [mem_boxGrid] at hg
    exact mem_range.mpr (Verif.Mesh.idx3_lt (hg 0) (hg 1) (hg 2))
  · intro g hg g' hg' e
    rw [mem_boxGrid] at hg hg'
    obtain ⟨h0, h1, h2⟩ := Verif.Mesh.idx3_inj (hg 1) (hg 2) (hg' 1) (hg' 2) e
    funext a
    fin_cases a
    exacts [h0, h1, h2]
  · intro t ht
    obtain ⟨i, j, k, hi, hj, hk, rfl⟩ := Verif.Mesh.idx3_surj (mem_range.mp ht)
    exact ⟨![i, j, k], (mem_boxGrid _ _).mpr (by intro a; fin_cases a; exacts [hi, hj, hk]), rfl⟩
  · intro g hg
    rw [mem_boxGrid] at hg
    exact congrArg G (box_cell_get N L g hg).symm

theorem OnBox.mem_cells (h : OnBox F N L) (c : Fin 8 → ℕ) : c ∈ F.cells ↔ ∃ g ∈ boxGrid N, c = boxCell N g := by
  rw [h.cells]
  simp only [Arr1.toList, List.mem_map, List.mem_range, Verif.Mesh.boxMesh_cells_n]
  constructor
  · rintro ⟨t, ht, rfl⟩
    obtain ⟨i, j, k, hi, hj, hk, rfl⟩ := Verif.Mesh.idx3_surj ht
    have hg : ∀ a, (![i, j, k] : Fin 3 → ℕ) a < N a := by intro a; fin_cases a; exacts [hi, hj, hk]
    exact ⟨![i, j, k], (mem_boxGrid _ _).mpr hg, box_cell_get N L _ hg⟩
  · rintro ⟨g, hg, rfl⟩
    rw [mem_boxGrid] at hg
    exact ⟨_, Verif.Mesh.idx3_lt (hg 0) (hg 1) (hg 2), box_cell_get N L g hg⟩

theorem OnBox.corner (h : OnBox F N L) (g : Fin 3 → ℕ) (hg : g ∈ boxGrid N) (p : Fin 8) (a : Fin 3) :
    F.points (boxCell N g p) a = (g a + Verif.Mesh.hexCorner p a : ℕ) * (L a / N a) := by
  rw [mem_boxGrid] at hg
  exact h.point _ (fun b => by have := hg b; have := hexCorner_le p b; omega) a

theorem hexCorner_nodes (p : Fin 8) (a : Fin 3) : ((meshioNodes "HEX8").getD p []).getD a 0 = 2 * Verif.Mesh.hexCorner p a := by
  revert p a; decide +kernel

theorem OnBox.jacobian (h : OnBox F N L) (rule : QuadRule nq) (ht : CellTables F hex8 rule) (g : Fin 3 → ℕ) (hg : g ∈ boxGrid N) (q : Fin nq) :
    F.jacobian (boxCell N g) q = Matrix.diagonal fun a => L a / N a := by
  refine jacobian_brick F "HEX8" (by decide) hex8 getElements_hex8 (by decide) (by decide) rule.pt ⟨ht.vals, ht.grads⟩ _ _ (fun a => (g a : ℝ) * (L a / N a)) ?_ q
  intro p a
  rw [h.corner g hg, hexCorner_nodes]
  push_cast
  ring

theorem OnBox.faceJacobian (h : OnBox F N L) (rule : QuadRule nfq) (ht : FaceTables F hex8 rule) (g : Fin 3 → ℕ) (hg : g ∈ boxGrid N) (f : Fin nf) (q : Fin nfq) :
    F.faceJacobian (boxCell N g) f q = Matrix.diagonal fun a => L a / N a := by
  let F' : Fem 8 nfq nf nfq 3 vec := ⟨F.numTotal, F.points, F.cells, fun q n => F.faceShapeVals f q n, fun q n b => F.faceShapeGradsRef f q n b, fun _ => 0, F.faceShapeVals,
    F.faceShapeGradsRef, F.faceWeights, F.faceNormals, F.faceInds, none, none, none, none, none, none, none, none⟩
  have hj := jacobian_brick F' "HEX8" (by decide) hex8 getElements_hex8 (by decide) (by decide) (fun q => facePoint hex8 f (rule.pt q)) ⟨fun q n => ht.vals f q n, fun q n b => ht.grads f q n b⟩
    (boxCell N g) (fun a => L a / N a) (fun a => (g a : ℝ) * (L a / N a)) (fun p a => by
      rw [show F'.points = F.points from rfl, h.corner g hg, hexCorner_nodes]
      push_cast
      ring) q
  exact hj

/-! ## Faces of the brick -/

/-- Specification: axis of the normal of face `f` of the HEX8 cell. -/
def hexAxis : Fin 6 → Fin 3 := ![2, 1, 0, 0, 1, 2]
/-- Specification: which of the two parallel faces. -/
def hexSide : Fin 6 → ℕ := ![0, 0, 0, 1, 1, 1]

theorem faceInds_hex8 (F : Fem 8 nq 6 nfq 3 vec) (rule : QuadRule nfq) (ht : FaceTables F hex8 rule) (f : Fin 6) (p : Fin 8) :
    p ∈ F.faceInds f ↔ Verif.Mesh.hexCorner p (hexAxis f) = hexSide f := by
  have h := ht.inds f
  have k : ∀ (f : Fin 6) (p : Fin 8), (p : ℕ) ∈ ((faceInds hex8).getD []).getD f [] ↔ Verif.Mesh.hexCorner p (hexAxis f) = hexSide f := by decide +kernel
  rw [← k, ← h]
  exact (List.mem_map_of_injective Fin.val_injective).symm

theorem onBoundary_box (F : Fem 8 nq 6 nfq 3 vec) {N L} (h : OnBox F N L) (rule : QuadRule nfq) (ht : FaceTables F hex8 rule) (loc : Loc 3) (a : Fin 3) (s : ℕ)
    (hloc : ∀ m : Fin 3 → ℕ, (∀ b, m b ≤ N b) → (loc (F.points (gridNode N m)) = true ↔ m a = s)) (g : Fin 3 → ℕ) (hg : g ∈ boxGrid N) (f : Fin 6) :
    F.onBoundary loc (boxCell N g) f = true ↔ hexAxis f = a ∧ g a + hexSide f = s := by
  rw [mem_boxGrid] at hg
  unfold Fem.onBoundary
  rw [List.all_eq_true]
  have hp : ∀ p, loc (F.coos (boxCell N g) p) = true ↔ g a + Verif.Mesh.hexCorner p a = s := fun p =>
    hloc _ fun b => by have := hg b; have := hexCorner_le p b; omega
  simp only [hp, faceInds_hex8 F rule ht]
  constructor
  · intro hall
    by_cases hf : hexAxis f = a
    · subst hf
      have : ∀ f, ∃ p, Verif.Mesh.hexCorner p (hexAxis f) = hexSide f := by decide
      obtain ⟨p, hp⟩ := this f
      exact ⟨rfl, hp ▸ hall p hp⟩
    · have : ∀ f a, hexAxis f ≠ a → ∃ p p', Verif.Mesh.hexCorner p (hexAxis f) = hexSide f ∧ Verif.Mesh.hexCorner p' (hexAxis f) = hexSide f ∧
        Verif.Mesh.hexCorner p a = 0 ∧ Verif.Mesh.hexCorner p' a = 1 := by decide
      obtain ⟨p, p', h1, h2, h3, h4⟩ := this f a hf
      have e1 := hall p h1
      have e2 := hall p' h2
      omega
  · rintro ⟨rfl, hs⟩ p hp
    rw [hp]
    exact hs

theorem nansonScale_box (F : Fem 8 nq 6 nfq 3 vec) {N L} (h : OnBox F N L) (rule : QuadRule nfq) (ht : FaceTables F hex8 rule) (hN : ∀ a, 0 < N a) (hL : ∀ a, 0 < L a) (g : Fin 3 → ℕ)
    (hg : g ∈ boxGrid N) (f : Fin 6) (q : Fin nfq) :
    F.nansonScale (boxCell N g) f q = rule.w q * ∏ b ∈ univ.erase (hexAxis f), (L b / N b) := by
  have hh : ∀ a, 0 < L a / N a := fun a => div_pos (hL a) (by exact_mod_cast hN a)
  unfold Fem.nansonScale
  have hinv : (Matrix.diagonal fun a => L a / N a : Matrix (Fin 3) (Fin 3) ℝ)⁻¹ = Matrix.diagonal fun a => (L a / N a)⁻¹ := by
    refine Matrix.inv_eq_right_inv ?_
    rw [Matrix.diagonal_mul_diagonal, ← Matrix.diagonal_one]
    exact congrArg _ (funext fun a => mul_inv_cancel₀ (hh a).ne')
  rw [h.faceJacobian rule ht g hg, hinv, Matrix.det_diagonal, ht.weights]
  have hs : sizeJacobian hex8.cell f = 1 := by
    fin_cases f <;> simp [sizeJacobian, hex8, cellDim, basixVertices, sum_range_succ, facetJacobian, vertexCoord, basixFacets, cross]
  have hn : ∑ d, (∑ b, F.faceNormals f b * (Matrix.diagonal (fun a => (L a / N a)⁻¹) : Matrix (Fin 3) (Fin 3) ℝ) b d) ^ 2 = ((L (hexAxis f) / N (hexAxis f))⁻¹) ^ 2 := by
    have hd : ∀ d, ∑ b, F.faceNormals f b * (Matrix.diagonal (fun a => (L a / N a)⁻¹) : Matrix (Fin 3) (Fin 3) ℝ) b d = F.faceNormals f d * (L d / N d)⁻¹ := by
      intro d
      rw [sum_eq_single d (fun b _ hb => by rw [Matrix.diagonal_apply_ne _ hb, mul_zero]) (fun h => absurd (mem_univ d) h), Matrix.diagonal_apply_eq]
    simp only [hd, ht.normals, Fin.sum_univ_three]
    fin_cases f <;> simp [hex8, facetNormals, hexAxis]
  rw [hn, Real.sqrt_sq (inv_pos.mpr (hh _)).le, hs, mul_one, ← Finset.mul_prod_erase univ (fun a => L a / N a) (mem_univ (hexAxis f)), inv_mul_cancel_left₀ (hh _).ne', mul_comm]

theorem card_slab (N : Fin 3 → ℕ) (a : Fin 3) (s : ℕ) (hs : s < N a) : ((boxGrid N).filter fun g => g a = s).card = ∏ b ∈ univ.erase a, N b := by
  have : (boxGrid N).filter (fun g => g a = s) = Fintype.piFinset (Function.update (fun b => range (N b)) a {s}) := by
    ext g
    simp only [mem_filter, mem_boxGrid, Fintype.mem_piFinset]
    constructor
    · rintro ⟨h, rfl⟩ b
      by_cases hb : b = a
      · subst hb; simp
      · simp [Function.update_of_ne hb, h b]
    · intro h
      have ha : g a = s := by simpa using h a
      refine ⟨fun b => ?_, ha⟩
      by_cases hb : b = a
      · subst hb; rw [ha]; exact hs
      · simpa [Function.update_of_ne hb] using h b
  rw [this, Fintype.card_piFinset, ← Finset.mul_prod_erase univ _ (mem_univ a)]
  simp only [Function.update_self, card_singleton, one_mul]
  refine prod_congr rfl fun b hb => ?_
  rw [Function.update_of_ne (ne_of_mem_erase hb), card_range]

end Verif.Fem
