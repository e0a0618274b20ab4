import Verif.Fem.TopOptMesh
import Verif.Fem.PropsSurface
import Verif.Fem.ActiveBox

/-!
# Boundary sets of the thermo-mechanical demo (C107)

demos/fem/thermal_mechanical/example.py picks its boundary faces with `np.isclose(.., atol=1e-5)` (lines 177-188). The part is `0.5 x 0.2 x 0.05` millimetres with cells of `1e-5` metres (lines 172-173), so
the tolerance reaches the next layer of nodes.
-/
namespace Verif.Fem
open Finset

variable {nq nfq vec : ℕ}

/-! ## Model -/

/-- `top` (example.py 177-178). -/
noncomputable def tmTop (Lz : ℝ) : Loc 3 := fun point => isclose (point 2) Lz 1e-5

/-- `bottom` (example.py 180-181). -/
noncomputable def tmBottom : Loc 3 := fun point => isclose (point 2) 0 1e-5

/-- `walls` (example.py 183-188). -/
noncomputable def tmWalls (Lx Ly : ℝ) : Loc 3 := fun point =>
  let left := isclose (point 0) 0 1e-5
  let right := isclose (point 0) Lx 1e-5
  let front := isclose (point 1) 0 1e-5
  let back := isclose (point 1) Ly 1e-5
  left || right || front || back

/-- `Nx, Ny, Nz` and `Lx, Ly, Lz` (example.py 172-173). -/
def tmN : Fin 3 → ℕ := ![50, 20, 5]
noncomputable def tmL : Fin 3 → ℝ := ![0.5e-3, 0.2e-3, 0.05e-3]

/-! ## Faces picked by conditions on grid planes -/

variable {F : Fem 8 nq 6 nfq 3 vec} {N : Fin 3 → ℕ} {L : Fin 3 → ℝ}

theorem onBoundary_corners (h : OnBox F N L) (rule : QuadRule nfq) (ht : FaceTables F hex8 rule) (loc : Loc 3) (P : (Fin 3 → ℕ) → Prop)
    (hloc : ∀ m : Fin 3 → ℕ, (∀ b, m b ≤ N b) → (loc (F.points (gridNode N m)) = true ↔ P m)) (g : Fin 3 → ℕ) (hg : g ∈ boxGrid N) (f : Fin 6) :
    F.onBoundary loc (boxCell N g) f = true ↔ ∀ p, Verif.Mesh.hexCorner p (hexAxis f) = hexSide f → P fun a => g a + Verif.Mesh.hexCorner p a := by
  rw [mem_boxGrid] at hg
  unfold Fem.onBoundary
  rw [List.all_eq_true]
  have hp : ∀ p, loc (F.coos (boxCell N g) p) = true ↔ P fun a => g a + Verif.Mesh.hexCorner p a := fun p =>
    hloc _ fun b => by have := hg b; have := hexCorner_le p b; omega
  simp only [hp, faceInds_hex8 F rule ht]

/-- A condition on one coordinate. -/
theorem onBoundary_layers (h : OnBox F N L) (rule : QuadRule nfq) (ht : FaceTables F hex8 rule) (loc : Loc 3) (a : Fin 3) (P : ℕ → Prop)
    (hloc : ∀ m : Fin 3 → ℕ, (∀ b, m b ≤ N b) → (loc (F.points (gridNode N m)) = true ↔ P (m a))) (g : Fin 3 → ℕ) (hg : g ∈ boxGrid N) (f : Fin 6) :
    F.onBoundary loc (boxCell N g) f = true ↔ if hexAxis f = a then P (g a + hexSide f) else P (g a) ∧ P (g a + 1) := by
  rw [onBoundary_corners h rule ht loc (fun m => P (m a)) hloc g hg f]
  split_ifs with hax
  · subst hax
    have ex : ∀ f, ∃ p, Verif.Mesh.hexCorner p (hexAxis f) = hexSide f := by decide +kernel
    constructor
    · intro hP
      obtain ⟨p, hp⟩ := ex f
      have : P (g (hexAxis f) + Verif.Mesh.hexCorner p (hexAxis f)) := hP p hp
      rwa [hp] at this
    · intro hP p hp
      show P (g (hexAxis f) + Verif.Mesh.hexCorner p (hexAxis f))
      rwa [hp]
  · have ex : ∀ f a, hexAxis f ≠ a → ∀ t < 2, ∃ p, Verif.Mesh.hexCorner p (hexAxis f) = hexSide f ∧ Verif.Mesh.hexCorner p a = t := by decide +kernel
    constructor
    · intro hP
      obtain ⟨p, hp, h0⟩ := ex f a hax 0 (by norm_num)
      obtain ⟨p', hp', h1⟩ := ex f a hax 1 (by norm_num)
      have e0 := hP p hp
      have e1 := hP p' hp'
      simp only [h0, h1, add_zero] at e0 e1
      exact ⟨e0, e1⟩
    · rintro ⟨e0, e1⟩ p -
      show P (g a + Verif.Mesh.hexCorner p a)
      have := hexCorner_le p a
      interval_cases hc : Verif.Mesh.hexCorner p a
      · exact e0
      · exact e1

/-- One of two conditions on two coordinates. -/
theorem onBoundary_two (h : OnBox F N L) (rule : QuadRule nfq) (ht : FaceTables F hex8 rule) (loc : Loc 3) (P Q : ℕ → Prop)
    (hloc : ∀ m : Fin 3 → ℕ, (∀ b, m b ≤ N b) → (loc (F.points (gridNode N m)) = true ↔ P (m 0) ∨ Q (m 1))) (g : Fin 3 → ℕ) (hg : g ∈ boxGrid N) (f : Fin 6) :
    F.onBoundary loc (boxCell N g) f = true ↔
      (if hexAxis f = 0 then P (g 0 + hexSide f) else P (g 0) ∧ P (g 0 + 1)) ∨ (if hexAxis f = 1 then Q (g 1 + hexSide f) else Q (g 1) ∧ Q (g 1 + 1)) := by
  rw [onBoundary_corners h rule ht loc (fun m => P (m 0) ∨ Q (m 1)) hloc g hg f]
  have ex0 : ∀ (f : Fin 6) (s t : Fin 2), (hexAxis f = 0 → (s : ℕ) = hexSide f) → (hexAxis f = 1 → (t : ℕ) = hexSide f) →
      ∃ p, Verif.Mesh.hexCorner p (hexAxis f) = hexSide f ∧ Verif.Mesh.hexCorner p 0 = s ∧ Verif.Mesh.hexCorner p 1 = t := by decide +kernel
  have ex : ∀ f, ∀ s < 2, ∀ t < 2, (hexAxis f = 0 → s = hexSide f) → (hexAxis f = 1 → t = hexSide f) →
      ∃ p, Verif.Mesh.hexCorner p (hexAxis f) = hexSide f ∧ Verif.Mesh.hexCorner p 0 = s ∧ Verif.Mesh.hexCorner p 1 = t := fun f s hs t ht => ex0 f ⟨s, hs⟩ ⟨t, ht⟩
  have hs : ∀ f, hexSide f < 2 := by decide
  constructor
  · intro hP
    have key : ∀ s < 2, ∀ t < 2, (hexAxis f = 0 → s = hexSide f) → (hexAxis f = 1 → t = hexSide f) → P (g 0 + s) ∨ Q (g 1 + t) := by
      intro s hs t ht h0 h1
      obtain ⟨p, hp, e0, e1⟩ := ex f s hs t ht h0 h1
      have := hP p hp
      simpa only [e0, e1] using this
    by_contra hne
    push Not at hne
    obtain ⟨h1, h2⟩ := hne
    have ⟨s, hs2, hsax, hsP⟩ : ∃ s < 2, (hexAxis f = 0 → s = hexSide f) ∧ ¬ P (g 0 + s) := by
      by_cases hax : hexAxis f = 0
      · rw [if_pos hax] at h1
        exact ⟨hexSide f, hs f, fun _ => rfl, h1⟩
      · rw [if_neg hax] at h1
        by_cases h : P (g 0)
        · exact ⟨1, by norm_num, fun h => absurd h hax, fun h' => h1 ⟨h, h'⟩⟩
        · exact ⟨0, by norm_num, fun h => absurd h hax, h⟩
    have ⟨t, ht2, htax, htQ⟩ : ∃ t < 2, (hexAxis f = 1 → t = hexSide f) ∧ ¬ Q (g 1 + t) := by
      by_cases hax : hexAxis f = 1
      · rw [if_pos hax] at h2
        exact ⟨hexSide f, hs f, fun _ => rfl, h2⟩
      · rw [if_neg hax] at h2
        by_cases h : Q (g 1)
        · exact ⟨1, by norm_num, fun h => absurd h hax, fun h' => h2 ⟨h, h'⟩⟩
        · exact ⟨0, by norm_num, fun h => absurd h hax, h⟩
    rcases key s hs2 t ht2 hsax htax with h | h
    · exact hsP h
    · exact htQ h
  · intro hPQ p hp
    have hle0 := hexCorner_le p 0
    have hle1 := hexCorner_le p 1
    rcases hPQ with hP | hQ
    · left
      show P (g 0 + Verif.Mesh.hexCorner p 0)
      split_ifs at hP with hax
      · rw [hax] at hp; rwa [hp]
      · interval_cases hc : Verif.Mesh.hexCorner p 0
        · exact hP.1
        · exact hP.2
    · right
      show Q (g 1 + Verif.Mesh.hexCorner p 1)
      split_ifs at hQ with hax
      · rw [hax] at hp; rwa [hp]
      · interval_cases hc : Verif.Mesh.hexCorner p 1
        · exact hQ.1
        · exact hQ.2

/-! ## The three location functions at the grid nodes -/

theorem abs_grid (h : ℝ) (hh : 0 < h) (m n : ℕ) (tol : ℝ) (h1 : h ≤ tol) (h2 : tol < 2 * h) : |(m : ℝ) * h - n * h| ≤ tol ↔ m ≤ n + 1 ∧ n ≤ m + 1 := by
  rw [← sub_mul, abs_mul, abs_of_pos hh]
  constructor
  · intro h3
    have h4 : |(m : ℝ) - n| < 2 := by
      by_contra hne
      push Not at hne
      nlinarith
    have h5 := abs_lt.mp h4
    constructor
    · have : (m : ℝ) < n + 2 := by linarith
      have : m < n + 2 := by exact_mod_cast this
      omega
    · have : (n : ℝ) < m + 2 := by linarith
      have : n < m + 2 := by exact_mod_cast this
      omega
  · rintro ⟨h3, h4⟩
    have h3' : (m : ℝ) ≤ n + 1 := by exact_mod_cast h3
    have h4' : (n : ℝ) ≤ m + 1 := by exact_mod_cast h4
    have : |(m : ℝ) - n| ≤ 1 := abs_le.mpr ⟨by linarith, by linarith⟩
    nlinarith

/-- Tolerance against grid: the spacing in direction `a` is at most the tolerance, which is less than two spacings, at the far side (`1e-5 + 1e-5 L`) and at the near side (`1e-5`). -/
structure Coarse (N : Fin 3 → ℕ) (L : Fin 3 → ℝ) (a : Fin 3) : Prop where
  cells : 2 ≤ N a
  size : 0 < L a
  near : L a / N a ≤ 1e-5
  far : 1e-5 + 1e-5 * L a < 2 * (L a / N a)

theorem isclose_far (h : OnBox F N L) (a : Fin 3) (hc : Coarse N L a) (m : Fin 3 → ℕ) (hm : ∀ b, m b ≤ N b) : isclose (F.points (gridNode N m) a) (L a) 1e-5 = true ↔ N a ≤ m a + 1 := by
  have hN := hc.cells
  have hn : (N a : ℝ) ≠ 0 := by exact_mod_cast (show N a ≠ 0 by omega)
  have hL := hc.size
  rw [isclose_iff, h.point m hm a, abs_of_pos hL]
  have e : (m a : ℝ) * (L a / N a) - L a = m a * (L a / N a) - N a * (L a / N a) := by field_simp
  rw [e, abs_grid _ (div_pos hL (by exact_mod_cast (show 0 < N a by omega))) _ _ _ (hc.near.trans (by nlinarith)) hc.far]
  have := hm a
  omega

theorem isclose_near (h : OnBox F N L) (a : Fin 3) (hc : Coarse N L a) (m : Fin 3 → ℕ) (hm : ∀ b, m b ≤ N b) : isclose (F.points (gridNode N m) a) 0 1e-5 = true ↔ m a ≤ 1 := by
  have hN := hc.cells
  have hL := hc.size
  have hf := hc.far
  rw [isclose_iff, h.point m hm a, abs_zero, mul_zero, add_zero]
  have e : (m a : ℝ) * (L a / N a) - 0 = m a * (L a / N a) - (0 : ℕ) * (L a / N a) := by push_cast; ring
  rw [e, abs_grid _ (div_pos hL (by exact_mod_cast (show 0 < N a by omega))) _ _ _ hc.near (by nlinarith)]
  omega

/-- The numbers of the demo. -/
theorem tm_coarse (a : Fin 3) : Coarse tmN tmL a := by
  fin_cases a <;> (constructor <;> norm_num [tmN, tmL])

/-- **C107 (nodes).** The location functions accept two layers of nodes where one is meant: for every side, the nodes on it and the nodes next to it. -/
theorem C107_nodes (h : OnBox F N L) (hc : ∀ a, Coarse N L a) (m : Fin 3 → ℕ) (hm : ∀ b, m b ≤ N b) :
    (tmTop (L 2) (F.points (gridNode N m)) = true ↔ m 2 = N 2 ∨ m 2 = N 2 - 1) ∧
    (tmBottom (F.points (gridNode N m)) = true ↔ m 2 = 0 ∨ m 2 = 1) ∧
    (tmWalls (L 0) (L 1) (F.points (gridNode N m)) = true ↔ (m 0 = 0 ∨ m 0 = 1 ∨ m 0 = N 0 - 1 ∨ m 0 = N 0) ∨ m 1 = 0 ∨ m 1 = 1 ∨ m 1 = N 1 - 1 ∨ m 1 = N 1) := by
  have h0 := hm 0
  have h1 := hm 1
  have h2 := hm 2
  have c0 := (hc 0).cells
  have c1 := (hc 1).cells
  have c2 := (hc 2).cells
  refine ⟨?_, ?_, ?_⟩
  · unfold tmTop
    rw [isclose_far h 2 (hc 2) m hm]
    omega
  · unfold tmBottom
    rw [isclose_near h 2 (hc 2) m hm]
    omega
  · unfold tmWalls
    simp only [Bool.or_eq_true]
    rw [isclose_near h 0 (hc 0) m hm, isclose_far h 0 (hc 0) m hm, isclose_near h 1 (hc 1) m hm, isclose_far h 1 (hc 1) m hm]
    omega

theorem mem_boundaryInds_box (h : OnBox F N L) (loc : Loc 3) (g : Fin 3 → ℕ) (hg : g ∈ boxGrid N) (f : Fin 6) : (boxIndex N g, f) ∈ F.boundaryInds loc ↔ F.onBoundary loc (boxCell N g) f = true := by
  have hg' := (mem_boxGrid N g).mp hg
  have hlt : boxIndex N g < F.cells.length := by rw [h.cells]; exact boxIndex_lt N L g hg'
  have hget : F.cells[boxIndex N g] = boxCell N g := by
    have := boxIndex_cell N L g hg'
    rw [← h.cells, List.getD_eq_getElem?_getD, List.getElem?_eq_getElem hlt, Option.getD_some] at this
    exact this
  rw [C16_mem]
  unfold FaceSelected Fem.onBoundary
  rw [List.all_eq_true]
  constructor
  · rintro ⟨_, hb⟩ v hv
    have : loc (F.points (F.cells[boxIndex N g] v)) = true := hb v hv
    rwa [hget] at this
  · intro hb
    refine ⟨hlt, fun v hv => ?_⟩
    show loc (F.points (F.cells[boxIndex N g] v)) = true
    rw [hget]
    exact hb v hv

/-- **C107 (top).** `top` selects all six faces of every cell of the upper layer, and of the layer below the upper side of every cell; nothing else. -/
theorem C107_top (h : OnBox F N L) (rule : QuadRule nfq) (ht : FaceTables F hex8 rule) (hc : ∀ a, Coarse N L a) (g : Fin 3 → ℕ) (hg : g ∈ boxGrid N) (f : Fin 6) :
    (boxIndex N g, f) ∈ F.boundaryInds (tmTop (L 2)) ↔ g 2 = N 2 - 1 ∨ g 2 = N 2 - 2 ∧ f = 5 := by
  rw [mem_boundaryInds_box h _ g hg, onBoundary_layers h rule ht _ 2 (fun k => k = N 2 ∨ k = N 2 - 1) (fun m hm => (C107_nodes h hc m hm).1) g hg]
  have := (mem_boxGrid N g).mp hg 2
  have := (hc 2).cells
  have hz : ∀ f, hexAxis f = 2 → f = 0 ∧ hexSide f = 0 ∨ f = 5 ∧ hexSide f = 1 := by decide
  have hz' : hexAxis 5 = 2 := rfl
  split_ifs with hf
  · rcases hz f hf with ⟨rfl, e⟩ | ⟨rfl, e⟩ <;> rw [e] <;> simp only [Fin.reduceEq, and_true, and_false, or_false] <;> omega
  · have h5 : f ≠ 5 := fun e => hf (e ▸ hz')
    simp only [h5, and_false, or_false]
    omega

/-- **C107 (walls).** `walls` selects: in the two outer columns of cells in a direction every face; in the next ones only the faces looking outwards in that direction; nothing else. -/
theorem C107_walls (h : OnBox F N L) (rule : QuadRule nfq) (ht : FaceTables F hex8 rule) (hc : ∀ a, Coarse N L a) (h4 : ∀ a, 4 ≤ N a) (g : Fin 3 → ℕ) (hg : g ∈ boxGrid N) (f : Fin 6) :
    (boxIndex N g, f) ∈ F.boundaryInds (tmWalls (L 0) (L 1)) ↔
      (g 0 = 0 ∨ g 0 = N 0 - 1 ∨ g 0 = 1 ∧ f = 2 ∨ g 0 = N 0 - 2 ∧ f = 3) ∨ (g 1 = 0 ∨ g 1 = N 1 - 1 ∨ g 1 = 1 ∧ f = 1 ∨ g 1 = N 1 - 2 ∧ f = 4) := by
  rw [mem_boundaryInds_box h _ g hg, onBoundary_two h rule ht _ (fun k => k = 0 ∨ k = 1 ∨ k = N 0 - 1 ∨ k = N 0) (fun k => k = 0 ∨ k = 1 ∨ k = N 1 - 1 ∨ k = N 1)
    (fun m hm => (C107_nodes h hc m hm).2.2) g hg]
  have := (mem_boxGrid N g).mp hg 0
  have := (mem_boxGrid N g).mp hg 1
  have := h4 0
  have := h4 1
  refine or_congr ?_ ?_
  · fin_cases f <;> simp [hexAxis, hexSide] <;> omega
  · fin_cases f <;> simp [hexAxis, hexSide] <;> omega

/-! ## Heat through the selected faces -/

/-- Position of a quadrature point of a face. -/
theorem xFace_box (h : OnBox F N L) (rule : QuadRule nfq) (ht : FaceTables F hex8 rule) (g : Fin 3 → ℕ) (hg : g ∈ boxGrid N) (f : Fin 6) (q : Fin nfq) (a : Fin 3) :
    F.xFace (boxCell N g, f) q a = (g a + facePoint hex8 f (rule.pt q) a) * (L a / N a) := by
  unfold Fem.xFace
  have h1 := faceTables_valSum F "HEX8" (by decide) hex8 getElements_hex8 (by decide) rule ht f q
  have h2 := C09_linear "HEX8" (by decide) hex8 getElements_hex8 (facePoint hex8 f (rule.pt q)) a (by fin_cases a <;> decide)
  rw [show (meshioNodes "HEX8").length = 8 by decide, sum_range] at h2
  simp only [h.corner g hg]
  have h3 : ∑ n : Fin 8, (Verif.Mesh.hexCorner n a : ℝ) * F.faceShapeVals f q n = facePoint hex8 f (rule.pt q) a := by
    rw [← h2]
    refine sum_congr rfl fun n _ => ?_
    rw [ht.vals, hexCorner_nodes]
    push_cast
    ring
  calc _ = (g a : ℝ) * (L a / N a) * ∑ n, F.faceShapeVals f q n + (L a / N a) * ∑ n : Fin 8, (Verif.Mesh.hexCorner n a : ℝ) * F.faceShapeVals f q n := by
        rw [mul_sum, mul_sum, ← sum_add_distrib]
        refine sum_congr rfl fun n _ => ?_
        push_cast
        ring
    _ = _ := by rw [h1, h3]; ring

/-- The heat flow into the part through the faces picked by `loc`, for the flux `γ`: the sum of the nodal loads. -/
noncomputable def heatFlow (F : Fem 8 nq 6 nfq 3 1) (loc : Loc 3) (γ : (Fin 3 → ℝ) → ℝ) : ℝ := ∑ n ∈ range F.numTotal, F.neumannTerm loc (fun _ _ x _ => γ x) n 0

theorem heatFlow_faces {F : Fem 8 nq 6 nfq 3 1} (h : OnBox F N L) (rule : QuadRule nfq) (ht : FaceTables F hex8 rule) (hnum : F.numTotal = (N 0 + 1) * (N 1 + 1) * (N 2 + 1)) (loc : Loc 3)
    (γ : (Fin 3 → ℝ) → ℝ) :
    heatFlow F loc γ = ∑ g ∈ boxGrid N, ∑ f, if F.onBoundary loc (boxCell N g) f = true then ∑ q, γ (F.xFace (boxCell N g, f) q) * F.nansonScale (boxCell N g) f q else 0 := by
  unfold heatFlow Fem.neumannTerm
  rw [list_sum_sum, ← h.sum_cells (fun c => ∑ f, if F.onBoundary loc c f = true then ∑ q, γ (F.xFace (c, f) q) * F.nansonScale c f q else 0),
    ← selected_sum F loc (fun p => ∑ q, γ (F.xFace p q) * F.nansonScale p.1 p.2 q)]
  have hz : ∀ (l : List ((Fin 8 → ℕ) × Fin 6)) (G : (Fin 8 → ℕ) × Fin 6 → ℝ), (l.map G).sum = (l.zipIdx.map fun p => G p.1).sum := by
    intro l G
    conv_lhs => rw [← List.zipIdx_map_fst 0 l, List.map_map]
    rfl
  rw [hz]
  refine sum_map_congr fun p hp => ?_
  have hsel : p.1 ∈ F.selected loc := List.mem_of_getElem? (List.mem_zipIdx_iff_getElem?.mp (show (p.1, p.2) ∈ (F.selected loc).zipIdx from hp))
  obtain ⟨g, hg, hpg⟩ := (h.mem_cells p.1.1).mp (selected_mem F hsel)
  have hlt : ∀ a, p.1.1 a < F.numTotal := fun a => by
    rw [hpg, hnum]
    rw [mem_boxGrid] at hg
    exact gridNode_lt _ _ fun b => by have := hg b; have := hexCorner_le a b; omega
  simp only [nodal_eq]
  rw [sum_nodal _ _ hlt, sum_comm]
  refine sum_congr rfl fun q _ => ?_
  rw [← sum_mul, ← sum_mul, faceTables_valSum F "HEX8" (by decide) hex8 getElements_hex8 (by decide) rule ht, one_mul]
  rfl

open Classical in
/-- What `top` is meant to be: the upper side. -/
noncomputable def exactTop (Lz : ℝ) : Loc 3 := fun point => decide (point 2 = Lz)

theorem exactTop_nodes (h : OnBox F N L) (hc : Coarse N L 2) (m : Fin 3 → ℕ) (hm : ∀ b, m b ≤ N b) : exactTop (L 2) (F.points (gridNode N m)) = true ↔ m 2 = N 2 := by
  have hn : (N 2 : ℝ) ≠ 0 := by exact_mod_cast (show N 2 ≠ 0 by have := hc.cells; omega)
  have hL := hc.size.ne'
  unfold exactTop
  rw [decide_eq_true_eq, h.point m hm 2]
  constructor
  · intro e
    have : (m 2 : ℝ) = N 2 := by
      field_simp at e
      exact e
    exact_mod_cast this
  · intro e
    rw [e]
    field_simp

/-- The heat through one face. -/
noncomputable def faceHeat (F : Fem 8 nq 6 nfq 3 1) (N : Fin 3 → ℕ) (γ : (Fin 3 → ℝ) → ℝ) (g : Fin 3 → ℕ) (f : Fin 6) : ℝ := ∑ q, γ (F.xFace (boxCell N g, f) q) * F.nansonScale (boxCell N g) f q

theorem sum_slab (hc : Coarse N L 2) (G : (Fin 3 → ℕ) → Fin 6 → ℝ) (c : (Fin 3 → ℕ) → Fin 6 → Prop) [∀ g f, Decidable (c g f)]
    (hiff : ∀ g ∈ boxGrid N, ∀ f, c g f ↔ g 2 = N 2 - 1 ∨ g 2 = N 2 - 2 ∧ f = 5) :
    ∑ g ∈ boxGrid N, ∑ f, (if c g f then G g f else 0) = ∑ g ∈ (boxGrid N).filter (fun g => g 2 = N 2 - 1), ∑ f, G g f + ∑ g ∈ (boxGrid N).filter (fun g => g 2 = N 2 - 2), G g 5 := by
  rw [sum_filter, sum_filter, ← sum_add_distrib]
  refine sum_congr rfl fun g hg => ?_
  have h2 := hc.cells
  by_cases h1 : g 2 = N 2 - 1
  · have h2' : ¬ g 2 = N 2 - 2 := by omega
    rw [if_pos h1, if_neg h2', add_zero]
    exact sum_congr rfl fun f _ => if_pos ((hiff g hg f).mpr (.inl h1))
  · rw [if_neg h1, zero_add]
    by_cases h3 : g 2 = N 2 - 2
    · rw [if_pos h3]
      have : ∀ f, (if c g f then G g f else 0) = if f = 5 then G g f else 0 := fun f => by
        by_cases hf : f = 5
        · rw [if_pos hf, if_pos ((hiff g hg f).mpr (.inr ⟨h3, hf⟩))]
        · rw [if_neg hf, if_neg]
          rw [hiff g hg f]
          rintro (h | ⟨-, h⟩)
          · exact h1 h
          · exact hf h
      simp only [this, sum_ite_eq', mem_univ, if_true]
    · rw [if_neg h3]
      refine sum_eq_zero fun f _ => if_neg ?_
      rw [hiff g hg f]
      rintro (h | ⟨h, -⟩)
      · exact h1 h
      · exact h3 h

theorem sum_shift (s t : ℕ) (hs : s < N 2) (ht : t < N 2) (H : ℕ → ℕ → ℝ) :
    ∑ g ∈ (boxGrid N).filter (fun g => g 2 = s), H (g 0) (g 1) = ∑ g ∈ (boxGrid N).filter (fun g => g 2 = t), H (g 0) (g 1) := by
  refine sum_nbij' (fun g => Function.update g 2 t) (fun g => Function.update g 2 s) ?_ ?_ ?_ ?_ ?_
  · intro g hg
    rw [mem_filter, mem_boxGrid] at hg ⊢
    exact ⟨fun a => by by_cases ha : a = 2 <;> simp [ha, ht, hg.1], by simp⟩
  · intro g hg
    rw [mem_filter, mem_boxGrid] at hg ⊢
    exact ⟨fun a => by by_cases ha : a = 2 <;> simp [ha, hs, hg.1], by simp⟩
  · intro g hg
    rw [mem_filter] at hg
    simp [← hg.2]
  · intro g hg
    rw [mem_filter] at hg
    simp [← hg.2]
  · intro g _
    simp

/-- The heat through the upper or lower face of a cell, for a flux depending on `x` and `y`: it does not depend on the height. -/
theorem faceHeat_flat {F : Fem 8 nq 6 nfq 3 1} (h : OnBox F N L) (rule : QuadRule nfq) (ht : FaceTables F hex8 rule) (hc : ∀ a, Coarse N L a) (γ : ℝ → ℝ → ℝ) (g : Fin 3 → ℕ) (hg : g ∈ boxGrid N) (f : Fin 6)
    (hf : f = 0 ∨ f = 5) :
    faceHeat F N (fun x => γ (x 0) (x 1)) g f = ∑ q, γ ((g 0 + rule.pt q 0) * (L 0 / N 0)) ((g 1 + rule.pt q 1) * (L 1 / N 1)) * (rule.w q * ((L 0 / N 0) * (L 1 / N 1))) := by
  unfold faceHeat
  have hN : ∀ a, 0 < N a := fun a => by have := (hc a).cells; omega
  refine sum_congr rfl fun q _ => ?_
  show γ (F.xFace (boxCell N g, f) q 0) (F.xFace (boxCell N g, f) q 1) * _ = _
  rw [nansonScale_box F h rule ht hN (fun a => (hc a).size) g hg f q, xFace_box h rule ht g hg, xFace_box h rule ht g hg]
  have hpt : ∀ a : Fin 3, facePoint hex8 f (rule.pt q) a = if a = hexAxis f then (hexSide f : ℝ) else rule.pt q (if (a : ℕ) = 0 ∨ (a : ℕ) = 1 ∧ hexAxis f = 0 then 0 else 1) := by
    intro a
    rw [facePoint_affine "HEX8" hex8 getElements_hex8 f f.2]
    fin_cases f <;> fin_cases a <;> simp [hex8, cellDim, basixVertices, sum_range_succ, facetBase, facetJacobian, vertexCoord, basixFacets, hexAxis, hexSide]
  have hax : hexAxis f = 2 := by rcases hf with rfl | rfl <;> rfl
  have he : (univ.erase (2 : Fin 3)) = {0, 1} := by decide
  rw [hpt 0, hpt 1, hax, he, prod_pair (by decide)]
  simp

theorem heatFlow_top {F : Fem 8 nq 6 nfq 3 1} (h : OnBox F N L) (rule : QuadRule nfq) (ht : FaceTables F hex8 rule) (hnum : F.numTotal = (N 0 + 1) * (N 1 + 1) * (N 2 + 1)) (hc : ∀ a, Coarse N L a)
    (γ : (Fin 3 → ℝ) → ℝ) :
    heatFlow F (tmTop (L 2)) γ = ∑ g ∈ (boxGrid N).filter (fun g => g 2 = N 2 - 1), ∑ f, faceHeat F N γ g f + ∑ g ∈ (boxGrid N).filter (fun g => g 2 = N 2 - 2), faceHeat F N γ g 5 := by
  rw [heatFlow_faces h rule ht hnum]
  exact sum_slab (hc 2) (faceHeat F N γ) (fun g f => F.onBoundary (tmTop (L 2)) (boxCell N g) f = true) fun g hg f => by
    rw [← mem_boundaryInds_box h _ g hg]
    exact C107_top h rule ht hc g hg f

theorem heatFlow_exact {F : Fem 8 nq 6 nfq 3 1} (h : OnBox F N L) (rule : QuadRule nfq) (ht : FaceTables F hex8 rule) (hnum : F.numTotal = (N 0 + 1) * (N 1 + 1) * (N 2 + 1)) (hc : ∀ a, Coarse N L a)
    (γ : (Fin 3 → ℝ) → ℝ) :
    heatFlow F (exactTop (L 2)) γ = ∑ g ∈ (boxGrid N).filter (fun g => g 2 = N 2 - 1), faceHeat F N γ g 5 := by
  rw [heatFlow_faces h rule ht hnum, sum_filter]
  refine sum_congr rfl fun g hg => ?_
  have h2 := (hc 2).cells
  have hg2 := (mem_boxGrid N g).mp hg 2
  have hb : ∀ f, F.onBoundary (exactTop (L 2)) (boxCell N g) f = true ↔ g 2 = N 2 - 1 ∧ f = 5 := fun f => by
    rw [onBoundary_box F h rule ht _ 2 (N 2) (exactTop_nodes h (hc 2)) g hg]
    have hz : ∀ f, hexAxis f = 2 ↔ f = 0 ∨ f = 5 := by decide
    have h0 : hexSide 0 = 0 := rfl
    have h5 : hexSide 5 = 1 := rfl
    rw [hz f]
    constructor
    · rintro ⟨rfl | rfl, e⟩
      · omega
      · exact ⟨by omega, rfl⟩
    · rintro ⟨e, rfl⟩
      exact ⟨.inr rfl, by omega⟩
  simp only [hb]
  split_ifs with h1
  · simp only [h1, true_and, sum_ite_eq', mem_univ, if_true]
    rfl
  · simp [h1]

/-- **C107 (heat).** For every flux that is not negative and depends on `x` and `y` only (such as that of the laser), at least three times the heat that passes the upper side enters the part. -/
theorem C107_heat {F : Fem 8 nq 6 nfq 3 1} (h : OnBox F N L) (rule : QuadRule nfq) (ht : FaceTables F hex8 rule) (hw : ∀ q, 0 ≤ rule.w q) (hnum : F.numTotal = (N 0 + 1) * (N 1 + 1) * (N 2 + 1))
    (hc : ∀ a, Coarse N L a) (γ : ℝ → ℝ → ℝ) (hγ : ∀ x y, 0 ≤ γ x y) :
    3 * heatFlow F (exactTop (L 2)) (fun x => γ (x 0) (x 1)) ≤ heatFlow F (tmTop (L 2)) (fun x => γ (x 0) (x 1)) := by
  have hN : ∀ a, 0 < N a := fun a => by have := (hc a).cells; omega
  have h2 := (hc 2).cells
  rw [heatFlow_top h rule ht hnum hc, heatFlow_exact h rule ht hnum hc]
  have hsh : ∑ g ∈ (boxGrid N).filter (fun g => g 2 = N 2 - 2), faceHeat F N (fun x => γ (x 0) (x 1)) g 5 = ∑ g ∈ (boxGrid N).filter (fun g => g 2 = N 2 - 1), faceHeat F N (fun x => γ (x 0) (x 1)) g 5 := by
    rw [sum_congr rfl fun g hg => faceHeat_flat h rule ht hc γ g (mem_of_mem_filter g hg) 5 (.inr rfl)]
    rw [sum_congr rfl fun g hg => faceHeat_flat h rule ht hc γ g (mem_of_mem_filter g hg) 5 (.inr rfl)]
    exact sum_shift (N 2 - 2) (N 2 - 1) (by omega) (by omega)
      fun i j => ∑ q, γ ((i + rule.pt q 0) * (L 0 / N 0)) ((j + rule.pt q 1) * (L 1 / N 1)) * (rule.w q * ((L 0 / N 0) * (L 1 / N 1)))
  have hnn : ∀ g ∈ boxGrid N, ∀ f, 0 ≤ faceHeat F N (fun x => γ (x 0) (x 1)) g f := fun g hg f => by
    refine sum_nonneg fun q _ => mul_nonneg (hγ _ _) ?_
    rw [nansonScale_box F h rule ht hN (fun a => (hc a).size) g hg f q]
    exact mul_nonneg (hw q) (prod_nonneg fun b _ => div_nonneg (hc b).size.le (Nat.cast_nonneg _))
  have hup : ∑ g ∈ (boxGrid N).filter (fun g => g 2 = N 2 - 1), 2 * faceHeat F N (fun x => γ (x 0) (x 1)) g 5 ≤ ∑ g ∈ (boxGrid N).filter (fun g => g 2 = N 2 - 1), ∑ f, faceHeat F N (fun x => γ (x 0) (x 1)) g f := by
    refine sum_le_sum fun g hg => ?_
    have hg' := mem_of_mem_filter g hg
    have e : faceHeat F N (fun x => γ (x 0) (x 1)) g 0 = faceHeat F N (fun x => γ (x 0) (x 1)) g 5 := by
      rw [faceHeat_flat h rule ht hc γ g hg' 0 (.inl rfl), faceHeat_flat h rule ht hc γ g hg' 5 (.inr rfl)]
    rw [Fin.sum_univ_six, e]
    have := hnn g hg' 1
    have := hnn g hg' 2
    have := hnn g hg' 3
    have := hnn g hg' 4
    linarith
  rw [hsh]
  rw [← mul_sum] at hup
  linarith

/-- **C107 (constant flux).** A constant flux `t` on the upper side puts `t · (3 Lx Ly + 2 hz (Nx Ly + Ny Lx))` into the part, where `t · Lx Ly` is meant. -/
theorem C107_flux {F : Fem 8 nq 6 nfq 3 1} (h : OnBox F N L) (rule : QuadRule nfq) (ht : FaceTables F hex8 rule) (hw : ∑ q, rule.w q = 1) (hnum : F.numTotal = (N 0 + 1) * (N 1 + 1) * (N 2 + 1))
    (hc : ∀ a, Coarse N L a) (t : ℝ) :
    heatFlow F (exactTop (L 2)) (fun _ => t) = t * (L 0 * L 1) ∧
    heatFlow F (tmTop (L 2)) (fun _ => t) = t * (3 * (L 0 * L 1) + 2 * (L 2 / N 2) * (N 0 * L 1 + N 1 * L 0)) := by
  have hN : ∀ a, 0 < N a := fun a => by have := (hc a).cells; omega
  have h2 := (hc 2).cells
  have hne : ∀ a, (N a : ℝ) ≠ 0 := fun a => by exact_mod_cast (hN a).ne'
  have hface : ∀ g ∈ boxGrid N, ∀ f, faceHeat F N (fun _ => t) g f = t * ∏ b ∈ univ.erase (hexAxis f), (L b / N b) := fun g hg f => by
    unfold faceHeat
    rw [sum_congr rfl fun q _ => by rw [nansonScale_box F h rule ht hN (fun a => (hc a).size) g hg f q], ← mul_sum, ← sum_mul, hw, one_mul]
  have e2 : (univ.erase (2 : Fin 3)) = {0, 1} := by decide
  have e1 : (univ.erase (1 : Fin 3)) = {0, 2} := by decide
  have e0 : (univ.erase (0 : Fin 3)) = {1, 2} := by decide
  have hcard : ∀ s < N 2, ((((boxGrid N).filter fun g => g 2 = s).card : ℕ) : ℝ) = N 0 * N 1 := fun s hs => by
    rw [card_slab N 2 s hs, e2, prod_pair (by decide)]
    push_cast
    ring
  have h5 : ∀ s < N 2, ∑ g ∈ (boxGrid N).filter (fun g => g 2 = s), faceHeat F N (fun _ => t) g 5 = t * (L 0 * L 1) := fun s hs => by
    rw [sum_congr rfl fun g hg => hface g (mem_of_mem_filter g hg) 5, sum_const, nsmul_eq_mul, hcard s hs, show hexAxis 5 = 2 from rfl, e2, prod_pair (by decide)]
    have := hne 0
    have := hne 1
    field_simp
  refine ⟨?_, ?_⟩
  · rw [heatFlow_exact h rule ht hnum hc, h5 _ (by omega)]
  · rw [heatFlow_top h rule ht hnum hc, h5 _ (by omega)]
    rw [sum_congr rfl fun g hg => sum_congr rfl fun f _ => hface g (mem_of_mem_filter g hg) f, sum_const, nsmul_eq_mul, hcard _ (by omega), Fin.sum_univ_six,
      show hexAxis 0 = 2 from rfl, show hexAxis 1 = 1 from rfl, show hexAxis 2 = 0 from rfl, show hexAxis 3 = 0 from rfl, show hexAxis 4 = 1 from rfl, show hexAxis 5 = 2 from rfl, e0, e1, e2,
      prod_pair (by decide), prod_pair (by decide), prod_pair (by decide)]
    have := hne 0
    have := hne 1
    have := hne 2
    field_simp
    ring

/-- The object of a box mesh: elements of degree one, the rules of basix. -/
noncomputable def boxFem (N : Fin 3 → ℕ) (L : Fin 3 → ℝ) (vec : ℕ) : Fem 8 8 6 4 3 vec :=
  Fem.ofElement 8 6 3 vec hex8 (gaussRule 3) (gaussRule 2) ((N 0 + 1) * (N 1 + 1) * (N 2 + 1)) (Verif.Mesh.boxMesh (N 0) (N 1) (N 2) (L 0) (L 1) (L 2)).points.get
    (Verif.Mesh.boxMesh (N 0) (N 1) (N 2) (L 0) (L 1) (L 2)).cells.toList

theorem boxFem_onBox (N : Fin 3 → ℕ) (L : Fin 3 → ℝ) (vec : ℕ) : OnBox (boxFem N L vec) N L := ⟨rfl, rfl⟩

theorem boxFem_faces (N : Fin 3 → ℕ) (L : Fin 3 → ℝ) (vec : ℕ) : FaceTables (boxFem N L vec) hex8 (gaussRule 2) := ofElement_hex8_face _ _ _ _ _

theorem boxFem_num (N : Fin 3 → ℕ) (L : Fin 3 → ℝ) (vec : ℕ) : (boxFem N L vec).numTotal = (N 0 + 1) * (N 1 + 1) * (N 2 + 1) := rfl

/-- **C107 (demo).** On the mesh of the demo: `top` takes all faces of the 1000 upper cells and the upper faces of the next layer; a constant flux enters seven times; three times is the least for the laser. -/
theorem C107_demo :
    (∀ g ∈ boxGrid tmN, ∀ f, (boxIndex tmN g, f) ∈ (boxFem tmN tmL 1).boundaryInds (tmTop (tmL 2)) ↔ g 2 = 4 ∨ g 2 = 3 ∧ f = 5) ∧
    (∀ t, heatFlow (boxFem tmN tmL 1) (tmTop (tmL 2)) (fun _ => t) = 7 * heatFlow (boxFem tmN tmL 1) (exactTop (tmL 2)) (fun _ => t)) ∧
    ∀ γ : ℝ → ℝ → ℝ, (∀ x y, 0 ≤ γ x y) → 3 * heatFlow (boxFem tmN tmL 1) (exactTop (tmL 2)) (fun x => γ (x 0) (x 1)) ≤ heatFlow (boxFem tmN tmL 1) (tmTop (tmL 2)) (fun x => γ (x 0) (x 1)) := by
  have ht := boxFem_faces tmN tmL 1
  have hb := boxFem_onBox tmN tmL 1
  have hn := boxFem_num tmN tmL 1
  refine ⟨fun g hg f => C107_top hb _ ht tm_coarse g hg f, fun t => ?_, fun γ hγ => C107_heat hb _ ht (fun q => (gauss_w_pos 2 q).le) hn tm_coarse γ hγ⟩
  obtain ⟨h1, h2⟩ := C107_flux hb _ ht (gaussRule_sum 2) hn tm_coarse t
  rw [h1, h2]
  have a0 : tmL 0 = 0.5e-3 := rfl
  have a1 : tmL 1 = 0.2e-3 := rfl
  have a2 : tmL 2 = 0.05e-3 := rfl
  have b0 : tmN 0 = 50 := rfl
  have b1 : tmN 1 = 20 := rfl
  have b2 : tmN 2 = 5 := rfl
  rw [a0, a1, a2, b0, b1, b2]
  norm_num
  ring

/-- With a tolerance below the spacing the selection is the upper side. -/
example : isclose ((0.04e-3 : ℝ)) 0.05e-3 1e-5 = true ∧ ¬ isclose ((0.04e-3 : ℝ)) 0.05e-3 1e-6 = true := by
  constructor
  · rw [isclose_iff, abs_le]
    norm_num
  · rw [isclose_iff, abs_le]
    norm_num

end Verif.Fem
