import Verif.Fem.Tables
import Verif.Fem.BasisProps
import Mathlib.Analysis.Calculus.FDeriv.Pi
import Mathlib.Analysis.Calculus.FDeriv.Mul

/-!
# C80: the reference facets
-/
namespace Verif.Fem
open Finset

variable {nn nq nf nfq dim vec : ℕ}

/-- The face cell that belongs to a cell. -/
def faceCellOf : CellType → CellType
  | .hexahedron => .quadrilateral
  | .tetrahedron => .triangle
  | _ => .interval

theorem elem_faceCell (name : String) (e : Elem) (he : getElements name = some e) : e.faceCell = faceCellOf e.cell ∧ e.cell ≠ .interval := by
  revert name e
  refine getElements_cases fun name hn e he => ?_
  simp only [supported, List.mem_cons, List.not_mem_nil, or_false] at hn
  rcases hn with rfl | rfl | rfl | rfl | rfl | rfl | rfl | rfl | rfl <;>
  · injection (show some _ = some e from he) with he
    subst he
    decide

/-- The first vertex of a facet. -/
def facetBase (cell : CellType) (f : ℕ) : ℕ := ((basixFacets cell).getD f []).getD 0 0

/-- The vertices of a face of the cube form a parallelogram. -/
theorem hex_parallelogram (f : ℕ) (hf : f < 6) (a : ℕ) :
    let v := fun k => vertexCoord .hexahedron (((basixFacets .hexahedron).getD f []).getD k 0) a
    v 0 - v 1 - v 2 + v 3 = 0 := by
  have hnat : ∀ f < 6, ∀ a < 3,
      let v := fun k => ((basixVertices .hexahedron).getD (((basixFacets .hexahedron).getD f []).getD k 0) []).getD a 0
      v 0 + v 3 = v 1 + v 2 := by decide +kernel
  have hlen : ∀ f < 6, ∀ k < 4, ((basixVertices .hexahedron).getD (((basixFacets .hexahedron).getD f []).getD k 0) []).length = 3 := by decide +kernel
  intro v
  by_cases ha : a < 3
  · have h := hnat f hf a ha
    have h' : ((_ + _ : ℕ) : ℝ) = ((_ + _ : ℕ) : ℝ) := congrArg Nat.cast h
    push_cast at h'
    simp only [v, vertexCoord]
    linarith
  · have hz : ∀ k < 4, v k = 0 := by
      intro k hk
      have := hlen f hf k hk
      simp only [v, vertexCoord]
      rw [List.getD_eq_getElem?_getD, List.getElem?_eq_none (by omega)]
      simp
    rw [hz 0 (by omega), hz 1 (by omega), hz 2 (by omega), hz 3 (by omega)]
    ring

/-- The map of the code from face coordinates to cell coordinates is affine, with the facet Jacobian as its linear part. -/
theorem facePoint_affine (name : String) (e : Elem) (he : getElements name = some e) (f : ℕ) (hf : f < (basixFacets e.cell).length) (s : ℕ → ℝ) (a : ℕ) :
    facePoint e f s a = vertexCoord e.cell (facetBase e.cell f) a + ∑ k ∈ range (cellDim e.cell - 1), s k * facetJacobian e.cell f k a := by
  obtain ⟨h1, h2⟩ := elem_faceCell name e he
  obtain ⟨fam, cell, fc, go, deg, ro⟩ := e
  simp only at h1 h2 hf ⊢
  subst h1
  cases cell
  · exact absurd rfl h2
  case hexahedron =>
    have hp := hex_parallelogram f hf a
    simp only [basixFacets, List.length_cons, List.length_nil] at hf
    interval_cases f <;>
    · simp [basixFacets] at hp
      simp [facePoint, basixFacets, faceCellOf, cellDim, basixVertices, facetJacobian, facetBase, basisFn, lag, List.range_succ, sum_range_succ,
        List.zipIdx_cons]
      linear_combination (s 0 * s 1) * hp
  all_goals
    simp only [basixFacets, List.length_cons, List.length_nil] at hf
    interval_cases f <;>
    · simp [facePoint, basixFacets, faceCellOf, cellDim, basixVertices, facetJacobian, facetBase, basisFn, lag, bary, List.range_succ, sum_range_succ,
        List.zipIdx_cons]
      ring

/-- **C80 (plane).** Every face quadrature point, whatever the face rule, lies on the facet it belongs to. -/
theorem C80_plane (name : String) (e : Elem) (he : getElements name = some e) (f : ℕ) (pl : List ℤ × ℤ) (hpl : (facetPlane e.cell)[f]? = some pl) (s : ℕ → ℝ) :
    ∑ a ∈ range (cellDim e.cell), (pl.1.getD a 0 : ℝ) * facePoint e f s a = (pl.2 : ℝ) / 2 := by
  have hf : f < (basixFacets e.cell).length := by
    have h := (List.getElem?_eq_some_iff.mp hpl).1
    revert h
    cases e.cell <;> simp [facetPlane, basixFacets]
  simp only [facePoint_affine name e he f hf]
  obtain ⟨h1, h2⟩ := elem_faceCell name e he
  obtain ⟨fam, cell, fc, go, deg, ro⟩ := e
  simp only at h1 h2 hf hpl ⊢
  cases cell
  · exact absurd rfl h2
  all_goals
    simp only [basixFacets, List.length_cons, List.length_nil] at hf
    interval_cases f <;>
    · simp only [facetPlane, List.getElem?_cons_zero, List.getElem?_cons_succ, Option.some.injEq] at hpl
      subst hpl
      simp [facetBase, basixFacets, cellDim, basixVertices, facetJacobian, sum_range_succ, vertexCoord]
      try ring

set_option maxHeartbeats 1000000 in
/-- **C80 (normals).** The tabulated normals have unit length, are constant along their facet and point outwards: every vertex off the facet is strictly behind it. -/
theorem C80_normals (cell : CellType) (f : ℕ) (hf : f < (basixFacets cell).length) :
    let n : ℕ → ℝ := fun a => ((facetNormals cell).getD f []).getD a 0
    ∑ a ∈ range (cellDim cell), n a ^ 2 = 1 ∧ ∃ h : ℝ, ∀ v < (basixVertices cell).length,
      (v ∈ (basixFacets cell).getD f [] → ∑ a ∈ range (cellDim cell), n a * vertexCoord cell v a = h) ∧
      (v ∉ (basixFacets cell).getD f [] → ∑ a ∈ range (cellDim cell), n a * vertexCoord cell v a < h) := by
  have h2 : (0 : ℝ) < Real.sqrt 2 := Real.sqrt_pos.mpr (by norm_num)
  have h3 : (0 : ℝ) < Real.sqrt 3 := Real.sqrt_pos.mpr (by norm_num)
  have e2 : Real.sqrt 2 ^ 2 = 2 := Real.sq_sqrt (by norm_num)
  have e3 : Real.sqrt 3 ^ 2 = 3 := Real.sq_sqrt (by norm_num)
  dsimp only
  refine ⟨?_, ∑ a ∈ range (cellDim cell), ((facetNormals cell).getD f []).getD a 0 * vertexCoord cell (facetBase cell f) a, ?_⟩
  · cases cell <;> simp only [basixFacets, List.length_cons, List.length_nil] at hf <;> interval_cases f <;>
      simp [facetNormals, cellDim, basixVertices, sum_range_succ, e2, e3] <;> norm_num
  · intro v hv
    cases cell <;> simp only [basixFacets, basixVertices, List.length_cons, List.length_nil] at hf hv <;> interval_cases f <;> interval_cases v <;>
      simp [facetNormals, cellDim, basixVertices, basixFacets, facetBase, vertexCoord, sum_range_succ, h2, h3]

theorem lag_zero (deg p : ℕ) (hp : p ≠ 0) : lag deg p (0 : ℝ) = 0 := by
  unfold lag; split_ifs <;> simp_all

theorem lag_one (deg p : ℕ) (hp : p ≠ 2) (hle : p ≤ 2) (hdeg : deg = 1 → p = 0) : lag deg p (1 : ℝ) = 0 := by
  unfold lag
  by_cases h : deg = 1
  · rw [if_pos h, if_pos (hdeg h)]; norm_num
  · rw [if_neg h]
    split_ifs
    · norm_num
    · norm_num
    · omega

theorem bary_zero (deg p : ℕ) (hp : p ≠ 0) : bary deg p (0 : ℝ) = 0 := by
  unfold bary; split_ifs <;> simp_all

/-- Index of the factor of the shape function which vanishes on the plane. -/
def Kills (tensor : Bool) (deg : ℕ) (pl : List ℤ × ℤ) (node : List ℕ) (k : ℕ) : Prop :=
  pl.1 = (List.range node.length).map (fun a => if a = k then (1 : ℤ) else 0) ∧
    (pl.2 = 0 ∧ node.getD k 0 ≠ 0 ∨ tensor = true ∧ pl.2 = 2 ∧ node.getD k 0 ≠ 2 ∧ node.getD k 0 ≤ 2 ∧ (deg = 1 → node.getD k 0 = 0))

instance (tensor : Bool) (deg : ℕ) (pl : List ℤ × ℤ) (node : List ℕ) (k : ℕ) : Decidable (Kills tensor deg pl node k) := by
  unfold Kills; infer_instance

/-- whether the cell is an interval product. -/
def isTensor : CellType → Bool
  | .triangle | .tetrahedron => false
  | _ => true

theorem kills_exists (name : String) (hn : name ∈ lagrangeNames) (e : Elem) (he : getElements name = some e) :
    ∀ pl ∈ facetPlane e.cell, ∀ node ∈ meshioNodes name, node.length = cellDim e.cell ∧ (onPlane pl node = false →
      (∃ k ∈ List.range node.length, Kills (isTensor e.cell) e.degree pl node k) ∨
      isTensor e.cell = false ∧ pl = ((List.range node.length).map fun _ => 1, 2) ∧ 2 - node.sum ≠ 0) := by
  simp only [lagrangeNames, List.mem_cons, List.not_mem_nil, or_false] at hn
  rcases hn with rfl | rfl | rfl | rfl | rfl | rfl | rfl <;>
  · injection (show some _ = some e from he) with he
    subst he
    decide +kernel

/-- **C80 (locality).** For every Lagrange element the shape function of a node which is not on the facet vanishes at every point of the facet; so face integrals
only reach the nodes of the face. -/
theorem C80_local (name : String) (hn : name ∈ lagrangeNames) (e : Elem) (he : getElements name = some e) (f : ℕ) (pl : List ℤ × ℤ)
    (hpl : (facetPlane e.cell)[f]? = some pl) (p : ℕ) (hp : p < (meshioNodes name).length) (hoff : onPlane pl ((meshioNodes name).getD p []) = false) (s : ℕ → ℝ) :
    shapeVal e p (facePoint e f s) = 0 := by
  have hplane := C80_plane name e he f pl hpl s
  rw [shapeVal_eq name e he p hp]
  have hmem : (meshioNodes name).getD p [] ∈ meshioNodes name := by
    rw [List.getD_eq_getElem?_getD, List.getElem?_eq_getElem hp]; exact List.getElem_mem hp
  generalize (meshioNodes name).getD p [] = node at hoff hmem
  obtain ⟨hlen, hk⟩ := kills_exists name hn e he pl (List.mem_of_getElem? hpl) node hmem
  rw [← hlen] at hplane
  have hcoord : ∀ k ∈ List.range node.length, pl.1 = (List.range node.length).map (fun a => if a = k then (1 : ℤ) else 0) →
      facePoint e f s k = (pl.2 : ℝ) / 2 := by
    intro k hk h
    rw [← hplane, sum_eq_single k]
    · rw [h]; simp [List.mem_range.mp hk]
    · intro b hb hbk
      rw [h]; simp [Finset.mem_range.mp hb, hbk]
    · intro hne; exact absurd (Finset.mem_range.mpr (List.mem_range.mp hk)) hne
  rcases hk hoff with ⟨k, hk, h1, h2⟩ | ⟨ht, rfl, hs⟩
  · have hx := hcoord k hk h1
    cases hc : isTensor e.cell with
    | true =>
      have hb : basisFn e.cell e.degree node (facePoint e f s) = ((List.range node.length).map fun k => lag e.degree (node.getD k 0) (facePoint e f s k)).prod := by
        cases h : e.cell <;> simp_all [isTensor, basisFn]
      rw [hb]
      refine List.prod_eq_zero (List.mem_map.mpr ⟨k, hk, ?_⟩)
      rcases h2 with ⟨h2, h3⟩ | ⟨-, h2, h3, h4, h5⟩
      · rw [hx, h2]; simpa using lag_zero e.degree _ h3
      · rw [hx, h2]; simpa using lag_one e.degree _ h3 h4 h5
    | false =>
      have hb : basisFn e.cell e.degree node (facePoint e f s) = bary e.degree (2 - node.sum) (1 - ((List.range node.length).map (facePoint e f s)).sum)
          * ((List.range node.length).map fun k => bary e.degree (node.getD k 0) (facePoint e f s k)).prod := by
        cases h : e.cell <;> simp_all [isTensor, basisFn]
      rw [hb]
      refine mul_eq_zero_of_right _ (List.prod_eq_zero (List.mem_map.mpr ⟨k, hk, ?_⟩))
      rcases h2 with ⟨h2, h3⟩ | ⟨h, -⟩
      · rw [hx, h2]; simpa using bary_zero e.degree _ h3
      · rw [hc] at h; exact absurd h (by decide)
  · have hb : basisFn e.cell e.degree node (facePoint e f s) = bary e.degree (2 - node.sum) (1 - ((List.range node.length).map (facePoint e f s)).sum)
          * ((List.range node.length).map fun k => bary e.degree (node.getD k 0) (facePoint e f s k)).prod := by
      cases h : e.cell <;> simp_all [isTensor, basisFn]
    rw [hb]
    have hsum : ((List.range node.length).map (facePoint e f s)).sum = 1 := by
      have : ((List.range node.length).map (facePoint e f s)).sum = ∑ a ∈ range node.length, facePoint e f s a := rfl
      rw [this]
      have h1 : ∑ a ∈ range node.length, facePoint e f s a = ((2 : ℤ) : ℝ) / 2 := by
        rw [← hplane]
        refine sum_congr rfl fun a ha => ?_
        simp [Finset.mem_range.mp ha]
      rw [h1]; norm_num
    rw [hsum, sub_self, bary_zero _ _ hs, zero_mul]

/-- Measure of a reference cell. -/
noncomputable def refMeasure : CellType → ℝ
  | .interval | .quadrilateral | .hexahedron => 1
  | .triangle => 1 / 2
  | .tetrahedron => 1 / 6

/-- **C80 (measures).** The facet measures of the code and the normals satisfy the divergence theorem on the reference cell: the measure-weighted normals add up to zero,
and the distances of the facets give the volume. -/
theorem C80_measures (cell : CellType) (hc : cell ≠ .interval) :
    let A : ℕ → ℝ := fun f => sizeJacobian cell f * refMeasure (faceCellOf cell)
    let n : ℕ → ℕ → ℝ := fun f a => ((facetNormals cell).getD f []).getD a 0
    (∀ f < (basixFacets cell).length, 0 < A f) ∧ (∀ a, ∑ f ∈ range (basixFacets cell).length, A f * n f a = 0) ∧
      ∑ f ∈ range (basixFacets cell).length, A f * ∑ a ∈ range (cellDim cell), n f a * vertexCoord cell (facetBase cell f) a = cellDim cell * refMeasure cell := by
  have h2 : (0 : ℝ) < Real.sqrt 2 := Real.sqrt_pos.mpr (by norm_num)
  have h3 : (0 : ℝ) < Real.sqrt 3 := Real.sqrt_pos.mpr (by norm_num)
  have e2 : Real.sqrt 2 * (Real.sqrt 2)⁻¹ = 1 := mul_inv_cancel₀ h2.ne'
  have e3 : Real.sqrt 3 * (Real.sqrt 3)⁻¹ = 1 := mul_inv_cancel₀ h3.ne'
  have key : ∀ f < (basixFacets cell).length, sizeJacobian cell f = if cell = .triangle ∧ f = 0 then Real.sqrt 2 else if cell = .tetrahedron ∧ f = 0 then Real.sqrt 3 else 1 := by
    intro f hf
    cases cell
    · exact absurd rfl hc
    all_goals
      simp only [basixFacets, List.length_cons, List.length_nil] at hf
      interval_cases f <;> simp [sizeJacobian, cellDim, basixVertices, sum_range_succ, facetJacobian, vertexCoord, basixFacets, cross] <;> norm_num
  dsimp only
  refine ⟨fun f hf => ?_, fun a => ?_, ?_⟩
  · rw [key f hf]
    refine mul_pos ?_ (by cases cell <;> simp [faceCellOf, refMeasure])
    split_ifs <;> positivity
  · rw [sum_congr rfl fun f hf => by rw [key f (Finset.mem_range.mp hf)]]
    cases cell
    · exact absurd rfl hc
    all_goals
      rcases a with _ | _ | _ | a <;> simp [basixFacets, sum_range_succ, facetNormals, faceCellOf, refMeasure] <;> try linarith
  · rw [sum_congr rfl fun f hf => by rw [key f (Finset.mem_range.mp hf)]]
    cases cell
    · exact absurd rfl hc
    all_goals
      simp [basixFacets, sum_range_succ, facetNormals, faceCellOf, refMeasure, cellDim, basixVertices, vertexCoord, facetBase] <;> try linarith

/-- Concrete case: the sloping edge of the triangle has length `√2` and normal `(1,1)/√2`; a face point of it is on the line `x + y = 1`. -/
example : sizeJacobian .triangle 0 = Real.sqrt 2 ∧ ((facetNormals .triangle).getD 0 []).getD 0 0 = 1 / Real.sqrt 2 := by
  constructor
  · simp [sizeJacobian, cellDim, basixVertices, sum_range_succ, facetJacobian, vertexCoord, basixFacets]; norm_num
  · simp [facetNormals]
example (s : ℕ → ℝ) (e : Elem) (he : getElements "TRI6" = some e) (hc : e.cell = .triangle) : facePoint e 0 s 0 + facePoint e 0 s 1 = 1 := by
  have h := C80_plane "TRI6" e he 0 ([1, 1], 2) (by rw [hc]; decide) s
  rw [hc, show cellDim .triangle = 2 by decide] at h
  simpa [sum_range_succ] using h
end Verif.Fem
