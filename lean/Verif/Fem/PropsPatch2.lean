import Verif.Fem.PropsPatch

/-!
# C85 (continued): the patch test with tractions on the sides of the box
-/
namespace Verif.Fem
open Finset

variable {nq nf nfq vec : ℕ}

/-- The linear factor of a corner. -/
def lin (t : ℕ) (x : ℝ) : ℝ := if t = 1 then x else 1 - x

/-- Its slope. -/
def slope (t : ℕ) : ℝ := if t = 1 then 1 else -1

theorem shapeVal_hex8 (p : Fin 8) (x : ℕ → ℝ) : shapeVal hex8 p x = ∏ a : Fin 3, lin (Verif.Mesh.hexCorner p a) (x a) := by
  rw [shapeVal_eq "HEX8" hex8 getElements_hex8 p (by simp [meshioNodes_HEX8]), meshioNodes_HEX8]
  fin_cases p <;> simp [hex8, basisFn, lag, List.range_succ, lin, Fin.prod_univ_three, Verif.Mesh.hexCorner] <;> ring

theorem lin_update (t : ℕ) (r : ℝ) : HasDerivAt (lin t) (slope t) r := by
  unfold lin slope
  split_ifs
  · exact hasDerivAt_id r
  · simpa using (hasDerivAt_id r).const_sub 1

theorem shapeGradRef_hex8 (p : Fin 8) (x : ℕ → ℝ) (d : Fin 3) :
    shapeGradRef hex8 p x d = slope (Verif.Mesh.hexCorner p d) * ∏ a ∈ univ.erase d, lin (Verif.Mesh.hexCorner p a) (x a) := by
  unfold shapeGradRef
  simp only [shapeVal_hex8]
  have : (fun s => ∏ a : Fin 3, lin (Verif.Mesh.hexCorner p a) (Function.update x (d : ℕ) s a))
      = fun s => lin (Verif.Mesh.hexCorner p d) s * ∏ a ∈ univ.erase d, lin (Verif.Mesh.hexCorner p a) (x a) := by
    funext s
    rw [← mul_prod_erase univ _ (mem_univ d), Function.update_self]
    congr 1
    refine prod_congr rfl fun a ha => ?_
    rw [Function.update_of_ne fun h => ne_of_mem_erase ha (Fin.ext h)]
  rw [this]
  exact ((lin_update _ _).mul_const _).deriv

theorem gauss_add : gaussPoint true + gaussPoint false = 1 := by
  unfold gaussPoint; simp; ring

theorem lin_gauss (t : ℕ) : lin t (gaussPoint true) + lin t (gaussPoint false) = 1 := by
  have := gauss_add
  unfold lin
  split_ifs <;> linarith

theorem sum_bits3 (ψ : Fin 3 → Bool → ℝ) : ∑ q : Fin (2 ^ 3), ∏ a : Fin 3, ψ a ((q : ℕ).testBit (3 - 1 - a)) = ∏ a, (ψ a true + ψ a false) := by
  rw [show ∑ q : Fin (2 ^ 3), ∏ a : Fin 3, ψ a ((q : ℕ).testBit (3 - 1 - a)) = ∑ q : Fin 8, ∏ a : Fin 3, ψ a ((q : ℕ).testBit (3 - 1 - a)) from rfl]
  simp [Fin.sum_univ_eight, Fin.prod_univ_three, Nat.testBit, Nat.shiftRight_eq_div_pow]
  ring

theorem sum_corners (ψ : Fin 3 → ℕ → ℝ) : ∑ p : Fin 8, ∏ a : Fin 3, ψ a (Verif.Mesh.hexCorner p a) = ∏ a, (ψ a 0 + ψ a 1) := by
  simp [Fin.sum_univ_eight, Fin.prod_univ_three, Verif.Mesh.hexCorner]
  ring

/-- Factor of direction `a` at a Gauss point, with direction `d` left out. -/
noncomputable def gaussFactor (p : Fin 8) (d a : Fin 3) (b : Bool) : ℝ := if a = d then 1 else lin (Verif.Mesh.hexCorner p a) (gaussPoint b)

/-- The 2x2x2 rule integrates the gradient components of the shape functions exactly. -/
theorem gauss_grad (p : Fin 8) (d : Fin 3) : ∑ q, shapeGradRef hex8 p ((gaussRule 3).pt q) d * (gaussRule 3).w q = slope (Verif.Mesh.hexCorner p d) / 4 := by
  have h : ∀ q, shapeGradRef hex8 p ((gaussRule 3).pt q) d * (gaussRule 3).w q = slope (Verif.Mesh.hexCorner p d) / 8 *
      ∏ a : Fin 3, gaussFactor p d a ((q : ℕ).testBit (3 - 1 - a)) := by
    intro q
    rw [shapeGradRef_hex8, ← mul_prod_erase univ _ (mem_univ d)]
    rw [prod_congr rfl fun a ha => show lin (Verif.Mesh.hexCorner p a) ((gaussRule 3).pt q a) = gaussFactor p d a ((q : ℕ).testBit (3 - 1 - (a : ℕ))) by
      rw [gaussFactor, if_neg (ne_of_mem_erase ha)]; rfl]
    have h1 : ∀ b, gaussFactor p d d b = 1 := fun b => if_pos rfl
    rw [h1]
    simp only [gaussRule]
    norm_num
    ring
  rw [sum_congr rfl fun q _ => h q, ← mul_sum, sum_bits3, ← mul_prod_erase univ _ (mem_univ d), prod_eq_one fun a ha => by
    simp only [gaussFactor, if_neg (ne_of_mem_erase ha)]; exact lin_gauss _]
  have h1 : ∀ b, gaussFactor p d d b = 1 := fun b => if_pos rfl
  rw [h1, h1]
  ring

/-- The 2x2 rule on a face of the cube integrates the shape functions of its corners to a quarter. -/
theorem gauss_face (f : Fin 6) (p : Fin 8) :
    ∑ q, shapeVal hex8 p (facePoint hex8 f ((gaussRule 2).pt q)) * (gaussRule 2).w q = if Verif.Mesh.hexCorner p (hexAxis f) = hexSide f then 1 / 4 else 0 := by
  have hc : ∀ p a, Verif.Mesh.hexCorner p a = 0 ∨ Verif.Mesh.hexCorner p a = 1 := by decide
  have key : ∀ t t' : ℕ, ∑ q : Fin (2 ^ 2), lin t ((gaussRule 2).pt q 0) * lin t' ((gaussRule 2).pt q 1) * (gaussRule 2).w q = 1 / 4 := by
    intro t t'
    rw [show ∀ f : Fin (2 ^ 2) → ℝ, ∑ q, f q = ∑ q : Fin 4, f q from fun _ => rfl]
    simp [Fin.sum_univ_four, gaussRule, Nat.testBit, Nat.shiftRight_eq_div_pow]
    linear_combination (1 / 4 : ℝ) * (lin t (gaussPoint true) + lin t (gaussPoint false)) * lin_gauss t' + (1 / 4 : ℝ) * lin_gauss t
  have hpt : ∀ q (a : Fin 3), facePoint hex8 f ((gaussRule 2).pt q) a = if a = hexAxis f then (hexSide f : ℝ) else (gaussRule 2).pt q (if (a : ℕ) = 0 ∨ (a : ℕ) = 1 ∧ hexAxis f = 0 then 0 else 1) := by
    intro q a
    rw [facePoint_affine "HEX8" hex8 getElements_hex8 f f.2]
    fin_cases f <;> fin_cases a <;> simp [hex8, cellDim, basixVertices, sum_range_succ, facetBase, facetJacobian, vertexCoord, basixFacets, hexAxis, hexSide]
  simp only [shapeVal_hex8, hpt]
  have hs : hexSide f = 0 ∨ hexSide f = 1 := (show ∀ f, hexSide f = 0 ∨ hexSide f = 1 by decide) f
  have hside : lin (Verif.Mesh.hexCorner p (hexAxis f)) (hexSide f : ℝ) = if Verif.Mesh.hexCorner p (hexAxis f) = hexSide f then 1 else 0 := by
    rcases hc p (hexAxis f) with h | h <;> rcases hs with h' | h' <;> simp [lin, h, h']
  have hprod : ∀ q, ∏ a : Fin 3, lin (Verif.Mesh.hexCorner p a) (if a = hexAxis f then (hexSide f : ℝ) else (gaussRule 2).pt q (if (a : ℕ) = 0 ∨ (a : ℕ) = 1 ∧ hexAxis f = 0 then 0 else 1))
      = (if Verif.Mesh.hexCorner p (hexAxis f) = hexSide f then 1 else 0) *
        (lin (Verif.Mesh.hexCorner p (if hexAxis f = 0 then 1 else 0)) ((gaussRule 2).pt q 0) * lin (Verif.Mesh.hexCorner p (if hexAxis f = 2 then 1 else 2)) ((gaussRule 2).pt q 1)) := by
    intro q
    rw [← hside, Fin.prod_univ_three]
    have : hexAxis f = 0 ∨ hexAxis f = 1 ∨ hexAxis f = 2 := (show ∀ f, hexAxis f = 0 ∨ hexAxis f = 1 ∨ hexAxis f = 2 by decide) f
    rcases this with h | h | h <;> simp [h] <;> ring
  simp only [hprod, mul_assoc, ← mul_sum]
  simp only [← mul_assoc]
  rw [key]
  split_ifs <;> simp

/-! ## Node vectors and side loads of the box -/

/-- Number of cell layers that touch the grid plane `m a` (one at the sides, two inside). -/
def layers (N m : Fin 3 → ℕ) (a : Fin 3) : ℝ := (if m a < N a then 1 else 0) + if 1 ≤ m a then 1 else 0

/-- Whether there is a cell having the node as corner with offset `t` in direction `a`. -/
def okLayer (N m : Fin 3 → ℕ) (a : Fin 3) (t : ℕ) : ℝ := if t ≤ m a ∧ m a < N a + t then 1 else 0

/-- The same with the slope in direction `d`. -/
def gradLayer (d : Fin 3) (N m : Fin 3 → ℕ) (a : Fin 3) (t : ℕ) : ℝ := (if a = d then slope t else 1) * okLayer N m a t

/-- The same restricted to the offset `σ` in direction `d`. -/
def faceLayer (d : Fin 3) (σ : ℕ) (N m : Fin 3 → ℕ) (a : Fin 3) (t : ℕ) : ℝ := (if a = d then (if t = σ then 1 else 0) else 1) * okLayer N m a t

theorem okLayer_add (N m : Fin 3 → ℕ) (hm : ∀ a, m a ≤ N a) (a : Fin 3) : okLayer N m a 0 + okLayer N m a 1 = layers N m a := by
  have := hm a
  simp only [okLayer, layers, Nat.zero_le, true_and, add_zero]
  simp only [show (1 ≤ m a ∧ m a < N a + 1) ↔ 1 ≤ m a by omega]

theorem valid_iff (N m : Fin 3 → ℕ) (p : Fin 8) (r : ℝ) :
    (if ∀ a, Verif.Mesh.hexCorner p a ≤ m a ∧ m a < N a + Verif.Mesh.hexCorner p a then r else 0)
      = r * ∏ a, okLayer N m a (Verif.Mesh.hexCorner p a) := by
  by_cases h : ∀ a, Verif.Mesh.hexCorner p a ≤ m a ∧ m a < N a + Verif.Mesh.hexCorner p a
  · rw [if_pos h, prod_eq_one fun a _ => show okLayer N m a _ = 1 from if_pos (h a), mul_one]
  · rw [if_neg h]
    push Not at h
    obtain ⟨a, ha⟩ := h
    rw [prod_eq_zero (mem_univ a) (show okLayer N m a _ = 0 from if_neg fun h => absurd (ha h.1) (by omega)), mul_zero]

theorem slope_zero : slope 0 = -1 := by simp [slope]
theorem slope_one : slope 1 = 1 := by simp [slope]

variable {F : Fem 8 (2 ^ 3) 6 (2 ^ 2) 3 vec} {N : Fin 3 → ℕ} {L : Fin 3 → ℝ}

/-- Specification: a quarter of the area of the cell faces across direction `d`, times the number of layers in the other directions. -/
noncomputable def share (N : Fin 3 → ℕ) (L : Fin 3 → ℝ) (m : Fin 3 → ℕ) (d : Fin 3) : ℝ := (∏ b ∈ univ.erase d, (L b / N b * layers N m b)) / 4

theorem OnBox.nodeVector (h : OnBox F N L) (ht : CellTables F hex8 (gaussRule 3)) (hN : ∀ a, 0 < N a) (hL : ∀ a, 0 < L a) (m : Fin 3 → ℕ) (hm : ∀ a, m a ≤ N a) (d : Fin 3) :
    F.nodeVector (gridNode N m) d = share N L m d * ((if 1 ≤ m d then 1 else 0) - if m d < N d then 1 else 0) := by
  unfold Fem.nodeVector
  have hne : ∀ a, L a / (N a : ℝ) ≠ 0 := fun a => div_ne_zero (hL a).ne' (by exact_mod_cast (hN a).ne')
  have hcell : ∀ g ∈ boxGrid N, nodal (gridNode N m) (boxCell N g) (fun a => ∑ q, F.shapeGrad (boxCell N g) q a d * F.JxW (boxCell N g) q) =
      nodal (gridNode N m) (boxCell N g) (fun p => (∏ b ∈ univ.erase d, L b / N b) * (slope (Verif.Mesh.hexCorner p d) / 4)) := by
    intro g hg
    congr 1
    funext p
    rw [← gauss_grad, mul_sum]
    refine sum_congr rfl fun q _ => ?_
    rw [h.shapeGrad _ ht hN hL g hg, h.JxW _ ht g hg, ← mul_prod_erase univ _ (mem_univ d)]
    rw [show shapeGradRef hex8 p ((gaussRule 3).pt q) d * (L d / N d)⁻¹ * ((L d / N d * ∏ x ∈ univ.erase d, L x / N x) * (gaussRule 3).w q)
      = ((L d / N d)⁻¹ * (L d / N d)) * ((∏ x ∈ univ.erase d, L x / N x) * (shapeGradRef hex8 p ((gaussRule 3).pt q) d * (gaussRule 3).w q)) by ring, inv_mul_cancel₀ (hne d), one_mul]
  rw [h.sum_cells, sum_congr rfl hcell, box_nodal N m hm]
  simp only [valid_iff]
  have hprod : ∀ p : Fin 8, (∏ b ∈ univ.erase d, L b / N b) * (slope (Verif.Mesh.hexCorner p d) / 4) *
      ∏ a, okLayer N m a (Verif.Mesh.hexCorner p a)
      = (∏ b ∈ univ.erase d, L b / N b) / 4 *
        ∏ a, gradLayer d N m a (Verif.Mesh.hexCorner p a) := by
    intro p
    rw [← mul_prod_erase univ (fun a => okLayer N m a (Verif.Mesh.hexCorner p a)) (mem_univ d),
      ← mul_prod_erase univ (fun a => gradLayer d N m a (Verif.Mesh.hexCorner p a)) (mem_univ d)]
    rw [prod_congr rfl fun a ha => show gradLayer d N m a (Verif.Mesh.hexCorner p a)
      = okLayer N m a (Verif.Mesh.hexCorner p a) by
        simp only [gradLayer, if_neg (ne_of_mem_erase ha), one_mul]]
    simp only [gradLayer, if_true]
    ring
  rw [sum_congr rfl fun p _ => hprod p, ← mul_sum, sum_corners, ← mul_prod_erase univ _ (mem_univ d)]
  rw [prod_congr rfl fun a ha => show gradLayer d N m a 0
      + gradLayer d N m a 1 = layers N m a by
        simp only [gradLayer, if_neg (ne_of_mem_erase ha), one_mul]; exact okLayer_add N m hm a]
  have hmd := hm d
  simp only [gradLayer, okLayer, if_true, slope_zero, slope_one, Nat.zero_le, true_and, add_zero]
  simp only [show (1 ≤ m d ∧ m d < N d + 1) ↔ 1 ≤ m d by omega]
  unfold share
  rw [prod_mul_distrib]
  ring

/-- Load of a constant traction `t` on the side `s` of direction `a` at a node. -/
theorem OnBox.sideLoad (h : OnBox F N L) (ht : FaceTables F hex8 (gaussRule 2)) (hN : ∀ a, 0 < N a) (hL : ∀ a, 0 < L a) (loc : Loc 3) (a : Fin 3) (s : ℕ) (hs : s = 0 ∨ s = N a)
    (hloc : ∀ m : Fin 3 → ℕ, (∀ b, m b ≤ N b) → (loc (F.points (gridNode N m)) = true ↔ m a = s)) (t : Fin vec → ℝ) (m : Fin 3 → ℕ) (hm : ∀ a, m a ≤ N a) (i : Fin vec) :
    ((F.selected loc).zipIdx.map fun p => nodal (gridNode N m) p.1.1 fun b => ∑ q, F.faceShapeVals p.1.2 q b * t i * F.nansonScale p.1.1 p.1.2 q).sum
      = t i * (share N L m a * if m a = s then 1 else 0) := by
  have hz : ∀ (G : (Fin 8 → ℕ) × Fin 6 → ℝ), ((F.selected loc).zipIdx.map fun p => G p.1).sum = ((F.selected loc).map G).sum := by
    intro G
    conv_rhs => rw [← List.zipIdx_map_fst 0 (F.selected loc), List.map_map]
    rfl
  rw [hz fun p => nodal (gridNode N m) p.1 fun b => ∑ q, F.faceShapeVals p.2 q b * t i * F.nansonScale p.1 p.2 q]
  by_cases hms : m a = s
  · obtain ⟨f, hf1, hf2, hsum⟩ := selected_sum_box F h _ ht loc a s hs (hN a) hloc fun p => nodal (gridNode N m) p.1 fun b => ∑ q, F.faceShapeVals p.2 q b * t i * F.nansonScale p.1 p.2 q
    rw [hsum, sum_filter]
    have hcell : ∀ g ∈ boxGrid N, (if g a = s - 1 then nodal (gridNode N m) (boxCell N g) (fun b => ∑ q, F.faceShapeVals f q b * t i * F.nansonScale (boxCell N g) f q) else 0) =
        nodal (gridNode N m) (boxCell N g) (fun p => if g a = s - 1 then t i * (∏ b ∈ univ.erase a, L b / N b) * (if Verif.Mesh.hexCorner p a = hexSide f then 1 / 4 else 0) else 0) := by
      intro g hg
      split_ifs with hga
      · congr 1
        funext p
        rw [← hf1, ← gauss_face, mul_sum]
        refine sum_congr rfl fun q _ => ?_
        rw [nansonScale_box F h _ ht hN hL g hg, ht.vals]
        ring
      · simp [nodal]
    rw [sum_congr rfl hcell, box_nodal N m hm]
    simp only [valid_iff]
    have hprod : ∀ p : Fin 8, (if m a - Verif.Mesh.hexCorner p a = s - 1 then t i * (∏ b ∈ univ.erase a, L b / N b) * (if Verif.Mesh.hexCorner p a = hexSide f then 1 / 4 else 0) else 0) *
        ∏ a, okLayer N m a (Verif.Mesh.hexCorner p a)
        = t i * (∏ b ∈ univ.erase a, L b / N b) / 4 *
          ∏ a', faceLayer a (hexSide f) N m a' (Verif.Mesh.hexCorner p a') := by
      intro p
      rw [← mul_prod_erase univ (fun a => okLayer N m a (Verif.Mesh.hexCorner p a)) (mem_univ a),
        ← mul_prod_erase univ (fun a' => faceLayer a (hexSide f) N m a'
          (Verif.Mesh.hexCorner p a')) (mem_univ a)]
      rw [prod_congr rfl fun a' ha => show faceLayer a (hexSide f) N m a'
          (Verif.Mesh.hexCorner p a') = okLayer N m a' (Verif.Mesh.hexCorner p a') by
          simp only [faceLayer, if_neg (ne_of_mem_erase ha), one_mul]]
      simp only [faceLayer, if_true]
      have hle := hexCorner_le p a
      by_cases hside : Verif.Mesh.hexCorner p a = hexSide f
      · rw [if_pos hside, if_pos hside, if_pos]
        · ring
        · rw [hside, hf2, hms]
          split_ifs <;> omega
      · rw [if_neg hside, if_neg hside]
        simp
    rw [sum_congr rfl fun p _ => hprod p, ← mul_sum, sum_corners, ← mul_prod_erase univ _ (mem_univ a)]
    rw [prod_congr rfl fun a' ha => show faceLayer a (hexSide f) N m a' 0
        + faceLayer a (hexSide f) N m a' 1 = layers N m a' by
          simp only [faceLayer, if_neg (ne_of_mem_erase ha), one_mul]; exact okLayer_add N m hm a']
    have hone : (faceLayer a (hexSide f) N m a 0
        + faceLayer a (hexSide f) N m a 1) = 1 := by
      have hNa := hN a
      simp only [faceLayer, okLayer, if_true, hf2]
      by_cases h0 : s = 0
      · simp only [h0, if_true]
        rw [if_pos (by omega)]
        simp
      · simp only [h0, if_false]
        rw [if_pos (show 1 ≤ m a ∧ m a < N a + 1 by omega)]
        simp
    rw [hone, if_pos hms]
    unfold share
    rw [prod_mul_distrib]
    ring
  · rw [if_neg hms, ← hz fun p => nodal (gridNode N m) p.1 fun b => ∑ q, F.faceShapeVals p.2 q b * t i * F.nansonScale p.1 p.2 q]
    rw [(C84_surface_support F "HEX8" (by decide) hex8 getElements_hex8 (by decide) (by decide) _ ht loc (gridNode N m) (by
      rw [← Bool.not_eq_true, hloc m hm]; exact hms) i).1 fun _ _ _ => t]
    ring

/-- The grid plane of a side of the box. -/
def sidePlane (N : Fin 3 → ℕ) (s : Fin 3 × Bool) : ℕ := if s.2 then N s.1 else 0

/-- **C85 (patch test with tractions).** HEX8 on `box_mesh` with the 2x2x2 and 2x2 rules, any stress function without space dependence at the gradient `A`; Neumann values `T·n` (`T` the
stress at `A`, `n` the outward normal) on a set of sides of the box: the residual of the affine field is zero at every node all of whose sides are in that set. -/
theorem C85_patch_traction (F : Fem 8 (2 ^ 3) 6 (2 ^ 2) 3 vec) (N : Fin 3 → ℕ) (L : Fin 3 → ℝ) (hbox : OnBox F N L) (hN : ∀ a, 0 < N a) (hL : ∀ a, 0 < L a)
    (ht : CellTables F hex8 (gaussRule 3)) (hft : FaceTables F hex8 (gaussRule 2)) (hmass : F.massMap = none) (hsrc : F.source = none) (hbody : F.bodyVar = none) (hcauchy : F.cauchy = none)
    (A T : Fin vec → Fin 3 → ℝ) (b : Fin vec → ℝ) (hT : ∀ k q, F.stress k q A = T) (sides : List (Fin 3 × Bool)) (hnd : sides.Nodup) (loc : Fin 3 × Bool → Loc 3)
    (hloc : ∀ s ∈ sides, ∀ m : Fin 3 → ℕ, (∀ b, m b ≤ N b) → (loc s (F.points (gridNode N m)) = true ↔ m s.1 = sidePlane N s))
    (hneu : F.neumann = some (sides.map loc, sides.map fun s _ _ _ i => if s.2 then T i s.1 else -T i s.1)) (sol R : ℕ → Fin vec → ℝ)
    (hsol : ∀ c ∈ F.cells, ∀ n i, sol (c n) i = ∑ d, A i d * F.points (c n) d + b i) (h : F.computeResidual sol = .ok R)
    (m : Fin 3 → ℕ) (hm : ∀ a, m a ≤ N a) (hon : ∀ s, m s.1 = sidePlane N s → s ∈ sides) (i : Fin vec) : R (gridNode N m) i = 0 := by
  have hsum := (Tabulated.sums (F := F) (name := "HEX8") (by decide) getElements_hex8 (by decide) (pts := (gaussRule 3).pt) ⟨ht.vals, ht.grads⟩).1
  have hdet : ∀ c ∈ F.cells, ∀ q, (F.jacobian c q).det ≠ 0 := by
    intro c hc q
    obtain ⟨g, hg, rfl⟩ := (hbox.mem_cells c).mp hc
    rw [hbox.jacobian _ ht g hg, Matrix.det_diagonal]
    exact prod_ne_zero_iff.mpr fun b _ => div_ne_zero (hL b).ne' (by exact_mod_cast (hN b).ne')
  rw [residual_affine F hsum hdet hmass hsrc hbody hcauchy A T b hT sol R hsol h, hneu]
  have hpairs : Fem.pairs (some (sides.map loc, sides.map fun s (_ : ℕ) (_ : Fin (2 ^ 2)) (_ : Fin 3 → ℝ) i => if s.2 then T i s.1 else -T i s.1))
      = sides.map fun s => (loc s, fun (_ : ℕ) (_ : Fin (2 ^ 2)) (_ : Fin 3 → ℝ) i => if s.2 then T i s.1 else -T i s.1) := by
    show List.zip _ _ = _
    rw [List.zip_map']
  rw [hpairs, List.map_map]
  simp only [Function.comp_def]
  rw [sum_map_congr fun s hs => hbox.sideLoad hft hN hL (loc s) s.1 (sidePlane N s) (by unfold sidePlane; split_ifs <;> simp) (hloc s hs)
    (fun i => if s.2 then T i s.1 else -T i s.1) m hm i, ← List.sum_toFinset _ hnd]
  have hall : ∑ s ∈ sides.toFinset, (if s.2 = true then T i s.1 else -T i s.1) * (share N L m s.1 * if m s.1 = sidePlane N s then 1 else 0)
      = ∑ s : Fin 3 × Bool, (if s.2 = true then T i s.1 else -T i s.1) * (share N L m s.1 * if m s.1 = sidePlane N s then 1 else 0) := by
    refine sum_subset (subset_univ _) fun s _ hs => ?_
    rw [if_neg fun hms => hs (List.mem_toFinset.mpr (hon s hms)), mul_zero, mul_zero]
  rw [hall, Fintype.sum_prod_type, ← sum_sub_distrib]
  refine sum_eq_zero fun d _ => ?_
  rw [Fintype.sum_bool, hbox.nodeVector ht hN hL m hm]
  have h1 := hN d
  have h2 := hm d
  simp only [sidePlane, if_true, Bool.false_eq_true, if_false]
  rcases Nat.lt_or_ge (m d) (N d) with h3 | h3 <;> rcases Nat.eq_zero_or_pos (m d) with h4 | h4
  · rw [if_neg (by omega), if_pos h3, if_neg (by omega), if_pos h4]; ring
  · rw [if_pos (by omega), if_pos h3, if_neg (by omega), if_neg (by omega)]; ring
  · omega
  · rw [if_pos (by omega), if_neg (by omega), if_pos (by omega), if_neg (by omega)]; ring

/-- The statement is not vacuous: an elastic bar (2x1x3 cells, size 4x3x6) stretched by tractions on five sides (all but `z = 0`), with any linear stress function; the hypotheses on the node hold
for all nodes with `m 2 > 0`, for instance the corner `(2, 1, 3)` and the middle of an edge. -/
example (stress : (Fin 3 → Fin 3 → ℝ) → Fin 3 → Fin 3 → ℝ) (A : Fin 3 → Fin 3 → ℝ) (sol : ℕ → Fin 3 → ℝ) (hsol : ∀ n i, sol n i = ∑ d, A i d * boxExample.points n d) :
    let loc : Fin 3 × Bool → Loc 3 := fun s x => if s.2 then decide (![4, 3, 6] s.1 - 1 / 100 < x s.1) else decide (x s.1 < 1 / 100)
    let sides : List (Fin 3 × Bool) := [(0, true), (0, false), (1, true), (1, false), (2, true)]
    let F : Fem 8 8 6 4 3 3 := { boxExample with
      tensorMap := some fun _ _ => stress
      neumann := some (sides.map loc, sides.map fun s _ _ _ i => if s.2 then stress A i s.1 else -stress A i s.1) }
    ∃ R, F.computeResidual sol = .ok R ∧ ∀ m : Fin 3 → ℕ, (∀ a, m a ≤ ![2, 1, 3] a) → 0 < m 2 → ∀ i, R (gridNode ![2, 1, 3] m) i = 0 := by
  intro loc sides F
  have hbox : OnBox F ![2, 1, 3] ![4, 3, 6] := ⟨rfl, rfl⟩
  have ht : CellTables F hex8 (gaussRule 3) := ⟨fun _ _ => rfl, fun _ _ _ => rfl, fun _ => rfl⟩
  have hft : FaceTables F hex8 (gaussRule 2) := by
    have h := ofElement_hex8_face (vec := 3) (gaussRule 3) (gaussRule 2) 24 (Verif.Mesh.boxMesh 2 1 3 (4 : ℝ) 3 6).points.get (Verif.Mesh.boxMesh 2 1 3 (4 : ℝ) 3 6).cells.toList
    exact ⟨h.vals, h.grads, h.weights, h.normals, h.inds⟩
  have hN : ∀ a, 0 < (![2, 1, 3] : Fin 3 → ℕ) a := by decide
  have hL : ∀ a, 0 < (![4, 3, 6] : Fin 3 → ℝ) a := by intro a; fin_cases a <;> norm_num
  have hface : ∀ l, ∀ p ∈ F.selected l, ∀ q, (F.faceJacobian p.1 p.2 q).det ≠ 0 := by
    intro l p hp q
    obtain ⟨g, hg, hpg⟩ := (hbox.mem_cells p.1).mp (selected_mem F hp)
    rw [hpg, hbox.faceJacobian _ hft g hg, Matrix.det_diagonal]
    exact prod_ne_zero_iff.mpr fun b _ => div_ne_zero (hL b).ne' (by exact_mod_cast (hN b).ne')
  have hret : ∃ R, F.computeResidual sol = .ok R := by
    refine (C13_returns F sol).mpr ⟨?_, ?_, ?_, ?_, ?_⟩
    · show (Verif.Mesh.boxMesh 2 1 3 (4 : ℝ) 3 6).cells.toList ≠ []
      intro h0
      have : (Verif.Mesh.boxMesh 2 1 3 (4 : ℝ) 3 6).cells.toList.length = 6 := by simp [Arr1.toList, Verif.Mesh.boxMesh_cells_n]
      rw [h0] at this
      cases this
    · intro k hk; cases hk
    · intro k hk; cases hk
    · intro k hk; cases hk
    · intro lv hlv
      injection hlv with hlv
      subst hlv
      exact ⟨by simp, fun l _ => hface l⟩
  obtain ⟨R, hR⟩ := hret
  refine ⟨R, hR, fun m hm h2 i => ?_⟩
  refine C85_patch_traction F _ _ hbox hN hL ht hft rfl rfl rfl rfl A (stress A) (fun _ => 0) (fun _ _ => rfl) sides (by decide) loc ?_ rfl sol R
    (fun c _ n i => by rw [hsol, add_zero]) hR m hm ?_ i
  · intro s _ m hm
    rw [show loc s (F.points (gridNode ![2, 1, 3] m)) = if s.2 then decide (![4, 3, 6] s.1 - 1 / 100 < F.points (gridNode ![2, 1, 3] m) s.1)
      else decide (F.points (gridNode ![2, 1, 3] m) s.1 < 1 / 100) from rfl, hbox.point m hm]
    have hms := hm s.1
    obtain ⟨a, u⟩ := s
    fin_cases a <;> cases u <;> simp [sidePlane] at hms ⊢
    · interval_cases m 0 <;> norm_num
    · interval_cases m 0 <;> norm_num
    · interval_cases m 1 <;> norm_num
    · interval_cases m 1 <;> norm_num
    · interval_cases m 2 <;> norm_num
    · interval_cases m 2 <;> norm_num
  · rintro ⟨a, u⟩ hs
    fin_cases a <;> cases u <;> simp [sidePlane, sides] at hs ⊢
    omega

end Verif.Fem
