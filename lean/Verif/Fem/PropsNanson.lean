import Verif.Fem.PropsTables
import Verif.Fem.Assembly
import Mathlib.LinearAlgebra.Matrix.Adjugate
import Mathlib.Analysis.Calculus.Deriv.Comp
import Mathlib.Analysis.Calculus.Deriv.Prod

/-!
# C81: the face scale is the area element of the physical face
-/
namespace Verif.Fem
open Finset

variable {nn nq nf nfq dim vec : ℕ}

/-! ## The chain rule for shape functions -/

theorem basisFn_congr (cell : CellType) (deg : ℕ) (node : List ℕ) (x y : ℕ → ℝ) (h : ∀ k < node.length, x k = y k) :
    basisFn cell deg node x = basisFn cell deg node y := by
  have h1 : ((List.range node.length).map x).sum = ((List.range node.length).map y).sum :=
    congrArg _ (List.map_congr_left fun k hk => h k (List.mem_range.mp hk))
  have h2 : ∀ g : ℕ → ℝ → ℝ, ((List.range node.length).map fun k => g k (x k)).prod = ((List.range node.length).map fun k => g k (y k)).prod :=
    fun g => congrArg _ (List.map_congr_left fun k hk => by rw [h k (List.mem_range.mp hk)])
  cases cell <;> simp only [basisFn]
  · exact h2 fun k => lag deg (node.getD k 0)
  · rw [h1, h2 fun k => bary deg (node.getD k 0)]
  · exact h2 fun k => lag deg (node.getD k 0)
  · rw [h1, h2 fun k => bary deg (node.getD k 0)]
  · exact h2 fun k => lag deg (node.getD k 0)

section
variable {V : Type*} [NormedAddCommGroup V] [NormedSpace ℝ V]

theorem differentiable_list_prod' (L : List ℕ) (f : ℕ → V → ℝ) (hf : ∀ k, Differentiable ℝ (f k)) :
    Differentiable ℝ (fun s => (L.map fun k => f k s).prod) := by
  induction L with
  | nil => simp
  | cons a l ih => simp only [List.map_cons, List.prod_cons]; exact (hf a).mul ih

theorem differentiable_list_sum' (L : List ℕ) (f : ℕ → V → ℝ) (hf : ∀ k, Differentiable ℝ (f k)) :
    Differentiable ℝ (fun s => (L.map fun k => f k s).sum) := by
  induction L with
  | nil => simp
  | cons a l ih => simp only [List.map_cons, List.sum_cons]; exact (hf a).add ih

theorem differentiable_basisFn' (c : CellType) (d : ℕ) (node : List ℕ) (x : V → ℕ → ℝ) (hx : ∀ k, Differentiable ℝ fun s => x s k) :
    Differentiable ℝ (fun s => basisFn c d node (x s)) := by
  have h1 : Differentiable ℝ (fun s => ((List.range node.length).map fun k => lag d (node.getD k 0) (x s k)).prod) :=
    differentiable_list_prod' _ _ fun k => (differentiable_lag d (node.getD k 0)).comp (hx k)
  have h2 : Differentiable ℝ (fun s => bary d (2 - node.sum) (1 - ((List.range node.length).map (x s)).sum)
      * ((List.range node.length).map fun k => bary d (node.getD k 0) (x s k)).prod) := by
    refine Differentiable.mul ?_ (differentiable_list_prod' _ _ fun k => (differentiable_bary d (node.getD k 0)).comp (hx k))
    exact (differentiable_bary d (2 - node.sum)).comp ((differentiable_const _).sub (differentiable_list_sum' _ (fun k s => x s k) hx))
  cases c
  · exact h1
  · exact h2
  · exact h1
  · exact h2
  · exact h1
end

/-- Chain rule for a basis function along a curve. -/
theorem basisFn_curve (cell : CellType) (deg : ℕ) (node : List ℕ) (γ : ℝ → ℕ → ℝ) (v : ℕ → ℝ) (t : ℝ) (hγ : ∀ k, HasDerivAt (fun r => γ r k) (v k) t) :
    HasDerivAt (fun r => basisFn cell deg node (γ r))
      (∑ b ∈ range node.length, deriv (fun r => basisFn cell deg node (Function.update (γ t) b r)) (γ t b) * v b) t := by
  set d := node.length with hd
  set pad : (Fin d → ℝ) → ℕ → ℝ := fun y k => if h : k < d then y ⟨k, h⟩ else 0 with hpad
  set G : (Fin d → ℝ) → ℝ := fun y => basisFn cell deg node (pad y) with hG
  have hdiff : Differentiable ℝ G := by
    refine differentiable_basisFn' cell deg node pad fun k => ?_
    by_cases h : k < d
    · simp only [hpad, dif_pos h]; fun_prop
    · simp only [hpad, dif_neg h]; exact differentiable_const _
  have hrestrict : ∀ x : ℕ → ℝ, basisFn cell deg node x = G fun k => x k := by
    intro x
    refine basisFn_congr _ _ _ _ _ fun k hk => ?_
    simp only [hpad, dif_pos (hd ▸ hk : k < d)]
  have hcurve : ∀ (δ : ℝ → ℕ → ℝ) (w : ℕ → ℝ) (r : ℝ), (∀ k, HasDerivAt (fun r => δ r k) (w k) r) →
      HasDerivAt (fun r => basisFn cell deg node (δ r)) (fderiv ℝ G (fun k : Fin d => δ r k) fun k => w k) r := by
    intro δ w r hδ
    simp only [hrestrict]
    have h1 : HasDerivAt (fun r => fun k : Fin d => δ r k) (fun k : Fin d => w k) r := hasDerivAt_pi.mpr fun k : Fin d => hδ k
    exact HasFDerivAt.comp_hasDerivAt r (hdiff (fun k : Fin d => δ r k)).hasFDerivAt h1
  have hpartial : ∀ b : Fin d, deriv (fun r => basisFn cell deg node (Function.update (γ t) b r)) (γ t b) = fderiv ℝ G (fun k : Fin d => γ t k) (Pi.single b 1) := by
    intro b
    have h := hcurve (fun r => Function.update (γ t) b r) (Pi.single (b : ℕ) 1) (γ t b) (fun k => by
      by_cases hk : k = b
      · subst hk; simp only [Function.update_self, Pi.single_eq_same]; exact hasDerivAt_id _
      · simp only [Function.update_of_ne hk, Pi.single_eq_of_ne hk]; exact hasDerivAt_const _ _)
    rw [h.deriv]
    simp only [Function.update_eq_self]
    congr 1
    funext k
    by_cases hk : k = b
    · subst hk; simp
    · rw [Pi.single_eq_of_ne hk, Pi.single_eq_of_ne (fun h => hk (Fin.ext h))]
  have h := hcurve γ v t hγ
  convert h using 1
  rw [← Fin.sum_univ_eq_sum_range (fun b => deriv (fun r => basisFn cell deg node (Function.update (γ t) b r)) (γ t b) * v b)]
  simp only [hpartial]
  conv_rhs => rw [pi_eq_sum_univ' fun k : Fin d => v k]
  rw [map_sum]
  refine sum_congr rfl fun b _ => ?_
  rw [map_smul, smul_eq_mul, mul_comm]

/-- Chain rule for a shape function: the tabulated reference gradient contracted with the velocity of the point. -/
theorem shapeVal_curve (name : String) (hn : name ∈ lagrangeNames) (e : Elem) (he : getElements name = some e) (p : ℕ) (hp : p < (meshioNodes name).length)
    (γ : ℝ → ℕ → ℝ) (v : ℕ → ℝ) (t : ℝ) (hγ : ∀ k, HasDerivAt (fun r => γ r k) (v k) t) :
    HasDerivAt (fun r => shapeVal e p (γ r)) (∑ b ∈ range (cellDim e.cell), shapeGradRef e p (γ t) b * v b) t := by
  have hmem : (meshioNodes name).getD p [] ∈ meshioNodes name := by
    rw [List.getD_eq_getElem?_getD, List.getElem?_eq_getElem hp]; exact List.getElem_mem hp
  have hne : facetPlane e.cell ≠ [] := by cases e.cell <;> simp [facetPlane]
  obtain ⟨pl, hpl⟩ := List.exists_mem_of_ne_nil _ hne
  have hlen := (kills_exists name hn e he pl hpl _ hmem).1
  simp only [shapeGradRef, shapeVal_eq name e he p hp]
  rw [← hlen]
  exact basisFn_curve e.cell e.degree _ γ v t hγ

/-! ## The physical face -/

/-- Specification: the physical point of face `f` of cell `c` with face coordinates `s`. -/
noncomputable def physFace (F : Fem nn nq nf nfq dim vec) (e : Elem) (c : Fin nn → ℕ) (f : ℕ) (s : ℕ → ℝ) (d : Fin dim) : ℝ :=
  ∑ n : Fin nn, shapeVal e n (facePoint e f s) * F.points (c n) d

/-- Specification: its tangent vector in face direction `k`. -/
noncomputable def faceTangent (F : Fem nn nq nf nfq dim vec) (e : Elem) (c : Fin nn → ℕ) (f : ℕ) (s : ℕ → ℝ) (k : ℕ) (d : Fin dim) : ℝ :=
  deriv (fun t => physFace F e c f (Function.update s k t) d) (s k)

/-- The tangent vector is the Jacobian of the element map applied to the column of the facet Jacobian. -/
theorem faceTangent_eq (F : Fem nn nq nf nfq dim vec) (name : String) (hn : name ∈ lagrangeNames) (e : Elem) (he : getElements name = some e)
    (hnn : nn = (meshioNodes name).length) (hdim : dim = cellDim e.cell) (rule : QuadRule nfq) (ht : FaceTables F e rule) (c : Fin nn → ℕ) (f : Fin nf)
    (hf : (f : ℕ) < (basixFacets e.cell).length) (q : Fin nfq) (k : ℕ) (hk : k < cellDim e.cell - 1) (d : Fin dim) :
    faceTangent F e c f (rule.pt q) k d = ∑ b : Fin dim, F.faceJacobian c f q d b * facetJacobian e.cell f k b := by
  have hpt : ∀ a, HasDerivAt (fun t => facePoint e f (Function.update (rule.pt q) k t) a) (facetJacobian e.cell f k a) (rule.pt q k) := by
    intro a
    simp only [facePoint_affine name e he f hf]
    have h1 : ∀ j ∈ range (cellDim e.cell - 1), HasDerivAt (fun t => Function.update (rule.pt q) k t j * facetJacobian e.cell f j a)
        ((if j = k then 1 else 0) * facetJacobian e.cell f j a) (rule.pt q k) := by
      intro j _
      refine HasDerivAt.mul_const ?_ _
      by_cases hj : j = k
      · subst hj; simp only [Function.update_self, if_true]; exact hasDerivAt_id _
      · simp only [Function.update_of_ne hj, if_neg hj]; exact hasDerivAt_const _ _
    have h2 := (HasDerivAt.fun_sum h1).const_add (vertexCoord e.cell (facetBase e.cell f) a)
    have h3 : ∑ i ∈ range (cellDim e.cell - 1), (if i = k then (1 : ℝ) else 0) * facetJacobian e.cell f i a = facetJacobian e.cell f k a := by
      rw [sum_eq_single k (fun j _ hj => by rw [if_neg hj, zero_mul]) (fun h => absurd (mem_range.mpr hk) h), if_pos rfl, one_mul]
    rw [← h3]
    exact h2
  have hsv : ∀ n : Fin nn, HasDerivAt (fun t => shapeVal e n (facePoint e f (Function.update (rule.pt q) k t)))
      (∑ b ∈ range (cellDim e.cell), shapeGradRef e n (facePoint e f (rule.pt q)) b * facetJacobian e.cell f k b) (rule.pt q k) := by
    intro n
    have h := shapeVal_curve name hn e he n (by rw [← hnn]; exact n.2) (fun t => facePoint e f (Function.update (rule.pt q) k t)) (facetJacobian e.cell f k) (rule.pt q k) hpt
    simpa only [Function.update_eq_self] using h
  have h := HasDerivAt.fun_sum (u := univ) fun n (_ : n ∈ univ) => (hsv n).mul_const (F.points (c n) d)
  unfold faceTangent physFace
  rw [h.deriv]
  subst hdim
  simp only [Fem.faceJacobian, Matrix.of_apply, Fem.coos, ht.grads, sum_mul]
  rw [sum_comm, ← Fin.sum_univ_eq_sum_range (fun b => ∑ n : Fin nn, shapeGradRef e n (facePoint e f (rule.pt q)) b * facetJacobian e.cell f k b * F.points (c n) d)]
  exact sum_congr rfl fun b _ => sum_congr rfl fun n _ => by ring

/-- Cross product of vectors with three components. -/
def cross3 (u v : Fin 3 → ℝ) : Fin 3 → ℝ := ![u 1 * v 2 - u 2 * v 1, u 2 * v 0 - u 0 * v 2, u 0 * v 1 - u 1 * v 0]

/-- Euclidean length. -/
noncomputable def len {m : ℕ} (u : Fin m → ℝ) : ℝ := Real.sqrt (∑ d, u d ^ 2)

theorem len_smul {m : ℕ} (r : ℝ) (u : Fin m → ℝ) : len (fun d => r * u d) = |r| * len u := by
  unfold len
  rw [← Real.sqrt_sq_eq_abs, ← Real.sqrt_mul (sq_nonneg r), mul_sum]
  simp only [mul_pow]

/-- Cofactor identity. -/
theorem cross_mulVec (J : Matrix (Fin 3) (Fin 3) ℝ) (u v : Fin 3 → ℝ) (d : Fin 3) :
    cross3 (fun i => ∑ b, J i b * u b) (fun i => ∑ b, J i b * v b) d = ∑ b, cross3 u v b * J.adjugate b d := by
  rw [Matrix.adjugate_fin_three]
  fin_cases d <;> simp [cross3, Fin.sum_univ_three] <;> ring

theorem inv_apply_adj (J : Matrix (Fin dim) (Fin dim) ℝ) (b d : Fin dim) : J⁻¹ b d = J.det⁻¹ * J.adjugate b d := by
  rw [Matrix.inv_def, Matrix.smul_apply, Ring.inverse_eq_inv', smul_eq_mul]

/-- The cross product of the facet Jacobian's columns is the size times the outward normal, up to sign. -/
theorem facet_cross (cell : CellType) (hc : cellDim cell = 3) (f : ℕ) (hf : f < (basixFacets cell).length) :
    ∃ ε : ℝ, (ε = 1 ∨ ε = -1) ∧ ∀ a : Fin 3, cross3 (fun a => facetJacobian cell f 0 a) (fun a => facetJacobian cell f 1 a) a
      = ε * (sizeJacobian cell f * ((facetNormals cell).getD f []).getD a 0) := by
  have h3 : (0 : ℝ) < Real.sqrt 3 := Real.sqrt_pos.mpr (by norm_num)
  have e3 : Real.sqrt 3 * (Real.sqrt 3)⁻¹ = 1 := mul_inv_cancel₀ h3.ne'
  have hq : Real.sqrt (1 + 1 + 1) = Real.sqrt 3 := by norm_num
  cases cell
  · exact absurd hc (by decide)
  · exact absurd hc (by decide)
  · exact absurd hc (by decide)
  all_goals
    simp only [basixFacets, List.length_cons, List.length_nil] at hf
    interval_cases f <;>
    first
    | (refine ⟨1, Or.inl rfl, fun a => ?_⟩
       fin_cases a <;> simp [cross3, sizeJacobian, cellDim, basixVertices, sum_range_succ, facetJacobian, vertexCoord, basixFacets, cross, facetNormals, hq, e3] <;> done)
    | (refine ⟨-1, Or.inr rfl, fun a => ?_⟩
       fin_cases a <;> simp [cross3, sizeJacobian, cellDim, basixVertices, sum_range_succ, facetJacobian, vertexCoord, basixFacets, cross, facetNormals, hq, e3] <;> done)

/-- **C81 (area element).** For every Lagrange element in three dimensions, every cell and every face quadrature point whose Jacobian is not singular, the face scale of the code is
the quadrature weight times the area element `|∂₀X × ∂₁X|` of the physical face, with the sign of the Jacobian determinant. -/
theorem C81_area_element (F : Fem nn nq nf nfq 3 vec) (name : String) (hn : name ∈ lagrangeNames) (e : Elem) (he : getElements name = some e)
    (hnn : nn = (meshioNodes name).length) (hdim : cellDim e.cell = 3) (rule : QuadRule nfq) (ht : FaceTables F e rule) (c : Fin nn → ℕ) (f : Fin nf)
    (hf : (f : ℕ) < (basixFacets e.cell).length) (q : Fin nfq) (hdet : (F.faceJacobian c f q).det ≠ 0) :
    F.nansonScale c f q = SignType.sign (F.faceJacobian c f q).det * (rule.w q * len (cross3 (faceTangent F e c f (rule.pt q) 0) (faceTangent F e c f (rule.pt q) 1))) := by
  have hT : ∀ k < 2, faceTangent F e c f (rule.pt q) k = fun d => ∑ b : Fin 3, F.faceJacobian c f q d b * facetJacobian e.cell f k b := by
    intro k hk
    funext d
    exact faceTangent_eq F name hn e he hnn hdim.symm rule ht c f hf q k (by omega) d
  obtain ⟨ε, hε, hcr⟩ := facet_cross e.cell hdim f hf
  have hvec : cross3 (faceTangent F e c f (rule.pt q) 0) (faceTangent F e c f (rule.pt q) 1)
      = fun d => (ε * sizeJacobian e.cell f * (F.faceJacobian c f q).det) * ∑ b, F.faceNormals f b * (F.faceJacobian c f q)⁻¹ b d := by
    funext d
    rw [hT 0 (by omega), hT 1 (by omega), cross_mulVec _ (fun b => facetJacobian e.cell f 0 b) (fun b => facetJacobian e.cell f 1 b), mul_sum]
    refine sum_congr rfl fun b _ => ?_
    rw [hcr, inv_apply_adj, ht.normals]
    field_simp
  have hs : 0 ≤ sizeJacobian e.cell f := by unfold sizeJacobian; split_ifs <;> exact Real.sqrt_nonneg _
  rw [hvec, len_smul, Fem.nansonScale, ht.weights]
  have habs : |ε * sizeJacobian e.cell f * (F.faceJacobian c f q).det| = sizeJacobian e.cell f * (SignType.sign (F.faceJacobian c f q).det * (F.faceJacobian c f q).det) := by
    have : |ε| = 1 := by rcases hε with rfl | rfl <;> simp
    rw [abs_mul, abs_mul, this, one_mul, abs_of_nonneg hs, sign_mul_self]
  rw [habs]
  have hss : ((SignType.sign (F.faceJacobian c f q).det : ℝ)) * SignType.sign (F.faceJacobian c f q).det = 1 := by
    rcases lt_or_gt_of_ne hdet with h | h
    · simp [sign_neg h]
    · simp [sign_pos h]
  unfold len
  linear_combination (-(Real.sqrt (∑ d, (∑ b, F.faceNormals f b * (F.faceJacobian c f q)⁻¹ b d) ^ 2) * (F.faceJacobian c f q).det * (rule.w q * sizeJacobian e.cell f))) * hss

end Verif.Fem
