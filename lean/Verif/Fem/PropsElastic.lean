import Verif.Fem.PropsLinear2
import Verif.Fem.PropsPatch2
import Verif.Fem.ModelsProps

/-!
# C88: linear elasticity, where the stress sees only the symmetric part of the gradient: rigid motions, uniqueness, bars under tractions
-/
namespace Verif.Fem
open Finset

variable {nn nq nf nfq dim vec : ℕ}

/-- Specification: every nodal field on a cell whose symmetric gradient vanishes at all quadrature points is a rigid motion (skew part plus translation). -/
def Fem.RigidModes (F : Fem nn nq nf nfq dim dim) : Prop :=
  ∀ c ∈ F.cells, ∀ w : Fin nn → Fin dim → ℝ, (∀ q i j, ∑ a, w a i * F.shapeGrad c q a j + ∑ a, w a j * F.shapeGrad c q a i = 0) →
    ∃ (W : Fin dim → Fin dim → ℝ) (t : Fin dim → ℝ), (∀ i j, W i j = -W j i) ∧ ∀ a i, w a i = ∑ d, W i d * F.points (c a) d + t i

/-- Specification: a set of points at which only the zero rotation is constant (two points in the plane, three points not on a line in space). -/
def Spans (S : Set (Fin dim → ℝ)) : Prop :=
  ∀ W : Fin dim → Fin dim → ℝ, (∀ i j, W i j = -W j i) → (∀ x ∈ S, ∀ y ∈ S, ∀ i, ∑ d, W i d * (x d - y d) = 0) → W = 0

theorem spans_plane (x y : Fin 2 → ℝ) (hne : x ≠ y) : Spans {x, y} := by
  intro W hW h
  have h0 := h x (by simp) y (by simp) 0
  have h1 := h x (by simp) y (by simp) 1
  simp only [Fin.sum_univ_two] at h0 h1
  have d0 := hW 0 0
  have d1 := hW 1 1
  have e := hW 1 0
  have z0 : W 0 0 = 0 := by linarith
  have z1 : W 1 1 = 0 := by linarith
  rw [z0] at h0
  rw [z1, e] at h1
  have z : W 0 1 = 0 := by
    by_contra hz
    have a0 : x 1 - y 1 = 0 := by
      refine (mul_eq_zero.mp (?_ : W 0 1 * (x 1 - y 1) = 0)).resolve_left hz
      linarith
    have a1 : x 0 - y 0 = 0 := by
      refine (mul_eq_zero.mp (?_ : W 0 1 * (x 0 - y 0) = 0)).resolve_left hz
      linarith
    refine hne (funext fun d => ?_)
    fin_cases d
    · exact sub_eq_zero.mp a1
    · exact sub_eq_zero.mp a0
  funext i j
  fin_cases i <;> fin_cases j <;> simp [z0, z1, z, e]

theorem spans_space (x y z : Fin 3 → ℝ) (hne : cross3 (fun d => y d - x d) (fun d => z d - x d) ≠ 0) : Spans {x, y, z} := by
  intro W hW h
  set u : Fin 3 → ℝ := fun d => y d - x d with hu
  set v : Fin 3 → ℝ := fun d => z d - x d with hv
  have hU := h y (by simp) x (by simp)
  have hV := h z (by simp) x (by simp)
  simp only [Fin.sum_univ_three] at hU hV
  have d0 := hW 0 0
  have d1 := hW 1 1
  have d2 := hW 2 2
  have z0 : W 0 0 = 0 := by linarith
  have z1 : W 1 1 = 0 := by linarith
  have z2 : W 2 2 = 0 := by linarith
  have e1 := hW 1 0
  have e2 := hW 2 0
  have e3 := hW 2 1
  have u0 := hU 0
  have u1 := hU 1
  have u2 := hU 2
  have v0 := hV 0
  have v1 := hV 1
  have v2 := hV 2
  rw [z0] at u0 v0
  rw [e1, z1] at u1 v1
  rw [e2, e3, z2] at u2 v2
  change 0 * u 0 + W 0 1 * u 1 + W 0 2 * u 2 = 0 at u0
  change -W 0 1 * u 0 + 0 * u 1 + W 1 2 * u 2 = 0 at u1
  change -W 0 2 * u 0 + -W 1 2 * u 1 + 0 * u 2 = 0 at u2
  change 0 * v 0 + W 0 1 * v 1 + W 0 2 * v 2 = 0 at v0
  change -W 0 1 * v 0 + 0 * v 1 + W 1 2 * v 2 = 0 at v1
  change -W 0 2 * v 0 + -W 1 2 * v 1 + 0 * v 2 = 0 at v2
  have hcross : ∃ i, cross3 u v i ≠ 0 := by
    by_contra hall
    push Not at hall
    exact hne (funext hall)
  have key : W 0 1 = 0 ∧ W 0 2 = 0 ∧ W 1 2 = 0 := by
    obtain ⟨i, hi⟩ := hcross
    have hz : ∀ a : ℝ, a * cross3 u v i = 0 → a = 0 := fun a ha => (mul_eq_zero.mp ha).resolve_right hi
    fin_cases i
    · refine ⟨hz _ ?_, hz _ ?_, hz _ ?_⟩
      · show W 0 1 * (u 1 * v 2 - u 2 * v 1) = 0
        linear_combination v 2 * u0 - u 2 * v0
      · show W 0 2 * (u 1 * v 2 - u 2 * v 1) = 0
        linear_combination u 1 * v0 - v 1 * u0
      · show W 1 2 * (u 1 * v 2 - u 2 * v 1) = 0
        linear_combination (-v 2 * u2 + u 2 * v2 - u 0 * v0 + v 0 * u0 + u 1 * v1 - v 1 * u1) / 2
    · refine ⟨hz _ ?_, hz _ ?_, hz _ ?_⟩
      · show W 0 1 * (u 2 * v 0 - u 0 * v 2) = 0
        linear_combination v 2 * u1 - u 2 * v1
      · show W 0 2 * (u 2 * v 0 - u 0 * v 2) = 0
        linear_combination (v 0 * u0 - u 0 * v0 - u 2 * v2 + v 2 * u2 + u 1 * v1 - v 1 * u1) / 2
      · show W 1 2 * (u 2 * v 0 - u 0 * v 2) = 0
        linear_combination v 0 * u1 - u 0 * v1
    · refine ⟨hz _ ?_, hz _ ?_, hz _ ?_⟩
      · show W 0 1 * (u 0 * v 1 - u 1 * v 0) = 0
        linear_combination (-v 0 * u0 + u 0 * v0 - u 2 * v2 + v 2 * u2 + u 1 * v1 - v 1 * u1) / 2
      · show W 0 2 * (u 0 * v 1 - u 1 * v 0) = 0
        linear_combination -v 1 * u2 + u 1 * v2
      · show W 1 2 * (u 0 * v 1 - u 1 * v 0) = 0
        linear_combination -u 0 * v2 + v 0 * u2
  obtain ⟨k1, k2, k3⟩ := key
  funext i j
  fin_cases i <;> fin_cases j <;> simp [z0, z1, z2, k1, k2, k3, e1, e2, e3]

/-- Specification: the nodes held by the set `Z` of fixed nodes: the fixed nodes themselves, and all nodes of a cell with enough held nodes to exclude rotations. -/
inductive Fem.Held (F : Fem nn nq nf nfq dim dim) (Z : ℕ → Prop) : ℕ → Prop
  | fixed (n : ℕ) : Z n → Fem.Held F Z n
  | cell (c : Fin nn → ℕ) (S : Set (Fin nn)) (a : Fin nn) : c ∈ F.cells → S.Nonempty → (∀ b ∈ S, Fem.Held F Z (c b)) → Spans {x | ∃ b ∈ S, x = F.points (c b)} → Fem.Held F Z (c a)

/-- **C88 (uniqueness).** A monotone problem in which equal work means equal symmetric gradients, on a mesh of cells without deformation modes of zero strain; all nodes are held by the fixed ones.
Two fields with the same values at the fixed degrees of freedom and the same residual at the others are equal at all nodes. (A node counts as fixed when all its components are prescribed.) -/
theorem C88_unique (F : Fem nn nq nf nfq dim dim) (hF : F.Monotone)
    (hstrict : ∀ k q A B, ∑ i, ∑ d, (F.stress k q A i d - F.stress k q B i d) * (A i d - B i d) = 0 → ∀ i j, A i j + A j i = B i j + B j i) (hrigid : F.RigidModes)
    (fixed : ℕ → Fin dim → Prop) (hheld : ∀ n < F.numTotal, F.Held (fun n => ∀ i, fixed n i) n)
    (u v Ru Rv : ℕ → Fin dim → ℝ) (hu : F.computeResidual u = .ok Ru) (hv : F.computeResidual v = .ok Rv)
    (hfix : ∀ n i, fixed n i → u n i = v n i) (hfree : ∀ n < F.numTotal, ∀ i, ¬ fixed n i → Ru n i = Rv n i) (n : ℕ) (hn : n < F.numTotal) (i : Fin dim) : u n i = v n i := by
  have hsym : ∀ c ∈ F.cells, ∀ q i j, ∑ a, (u (c a) i - v (c a) i) * F.shapeGrad c q a j + ∑ a, (u (c a) j - v (c a) j) * F.shapeGrad c q a i = 0 := by
    intro c hc q i j
    obtain ⟨k, hk⟩ := List.getElem?_of_mem hc
    have h1 := hstrict k q _ _ (energy_zero F hF u v Ru Rv hu hv (fun n hn i => by
      by_cases hf : fixed n i
      · exact .inl (hfix n i hf)
      · exact .inr (hfree n hn i hf)) k c hk q) i j
    have h2 := congrFun (congrFun (gradAt_sub F u v c q) i) j
    have h3 := congrFun (congrFun (gradAt_sub F u v c q) j) i
    simp only [Fem.gradAt, Pi.sub_apply] at h1 h2 h3
    linarith
  have hall : ∀ n, F.Held (fun n => ∀ i, fixed n i) n → ∀ i, u n i - v n i = 0 := by
    intro n h
    induction h with
    | fixed n hz => exact fun i => sub_eq_zero.mpr (hfix n i (hz i))
    | cell c S a hc hne _ hspan ih =>
      obtain ⟨W, t, hW, hw⟩ := hrigid c hc (fun a i => u (c a) i - v (c a) i) (hsym c hc)
      have hW0 : W = 0 := hspan W hW fun x hx y hy i => by
        obtain ⟨b, hb, rfl⟩ := hx
        obtain ⟨b', hb', rfl⟩ := hy
        have h1 := hw b i
        have h2 := hw b' i
        simp only [ih b hb i] at h1
        simp only [ih b' hb' i] at h2
        simp only [mul_sub, sum_sub_distrib]
        linarith
      obtain ⟨b, hb⟩ := hne
      intro i
      have h1 := hw b i
      have h2 := hw a i
      simp only [ih b hb i, hW0, Pi.zero_apply, zero_mul, sum_const_zero, zero_add] at h1
      simp only [hW0, Pi.zero_apply, zero_mul, sum_const_zero, zero_add, ← h1] at h2
      exact h2
  exact sub_eq_zero.mp (hall n (hheld n hn) i)

/-! ## Elements whose only modes without strain are the rigid motions -/

/-- On a TET4 cell a nodal field is affine, with the gradient of the element. -/
theorem tet4_affine (F : Fem 4 nq nf nfq 3 vec) (rule : QuadRule nq) (ht : CellTables F tet4 rule) (c : Fin 4 → ℕ) (q : Fin nq) (hdet : (F.jacobian c q).det ≠ 0) (w : Fin 4 → ℝ) (a : Fin 4) :
    w a - w 0 = ∑ d, (∑ n, w n * F.shapeGrad c q n d) * (F.points (c a) d - F.points (c 0) d) := by
  have hJ : ∀ d b, F.jacobian c q d b = F.points (c b.succ) d - F.points (c 0) d := by
    intro d b
    simp only [Fem.jacobian, Fem.coos, Matrix.of_apply, ht.grads, shapeGradRef_tet4, Fin.sum_univ_four]
    fin_cases b <;> simp <;> ring
  have hg : ∀ b : Fin 3, ∑ n, w n * F.shapeGradsRef q n b = w b.succ - w 0 := by
    intro b
    simp only [ht.grads, shapeGradRef_tet4, Fin.sum_univ_four]
    fin_cases b <;> simp <;> ring
  have hmain : ∀ b : Fin 3, w b.succ - w 0 = ∑ d, (∑ n, w n * F.shapeGrad c q n d) * (F.points (c b.succ) d - F.points (c 0) d) := by
    intro b
    have h1 : (fun d => ∑ n, w n * F.shapeGrad c q n d) = Matrix.vecMul (fun b => w b.succ - w 0) (F.jacobian c q)⁻¹ := by
      funext d
      simp only [Fem.shapeGrad, mul_sum, Matrix.vecMul, dotProduct, ← hg, sum_mul]
      rw [sum_comm]
      exact sum_congr rfl fun _ _ => sum_congr rfl fun _ _ => by ring
    have h2 : Matrix.vecMul (fun d => ∑ n, w n * F.shapeGrad c q n d) (F.jacobian c q) = fun b => w b.succ - w 0 := by
      rw [h1, Matrix.vecMul_vecMul, Matrix.nonsing_inv_mul _ (isUnit_iff_ne_zero.mpr hdet), Matrix.vecMul_one]
    have h3 := congrFun h2 b
    simp only [Matrix.vecMul, dotProduct, hJ] at h3
    exact h3.symm
  refine Fin.cases ?_ hmain a
  simp

theorem tri3_affine (F : Fem 3 nq nf nfq 2 vec) (rule : QuadRule nq) (ht : CellTables F tri3 rule) (c : Fin 3 → ℕ) (q : Fin nq) (hdet : (F.jacobian c q).det ≠ 0) (w : Fin 3 → ℝ) (a : Fin 3) :
    w a - w 0 = ∑ d, (∑ n, w n * F.shapeGrad c q n d) * (F.points (c a) d - F.points (c 0) d) := by
  have hJ : ∀ d b, F.jacobian c q d b = F.points (c b.succ) d - F.points (c 0) d := by
    intro d b
    simp only [Fem.jacobian, Fem.coos, Matrix.of_apply, ht.grads, shapeGradRef_tri3, Fin.sum_univ_three]
    fin_cases b <;> simp <;> ring
  have hg : ∀ b : Fin 2, ∑ n, w n * F.shapeGradsRef q n b = w b.succ - w 0 := by
    intro b
    simp only [ht.grads, shapeGradRef_tri3, Fin.sum_univ_three]
    fin_cases b <;> simp <;> ring
  have hmain : ∀ b : Fin 2, w b.succ - w 0 = ∑ d, (∑ n, w n * F.shapeGrad c q n d) * (F.points (c b.succ) d - F.points (c 0) d) := by
    intro b
    have h1 : (fun d => ∑ n, w n * F.shapeGrad c q n d) = Matrix.vecMul (fun b => w b.succ - w 0) (F.jacobian c q)⁻¹ := by
      funext d
      simp only [Fem.shapeGrad, mul_sum, Matrix.vecMul, dotProduct, ← hg, sum_mul]
      rw [sum_comm]
      exact sum_congr rfl fun _ _ => sum_congr rfl fun _ _ => by ring
    have h2 : Matrix.vecMul (fun d => ∑ n, w n * F.shapeGrad c q n d) (F.jacobian c q) = fun b => w b.succ - w 0 := by
      rw [h1, Matrix.vecMul_vecMul, Matrix.nonsing_inv_mul _ (isUnit_iff_ne_zero.mpr hdet), Matrix.vecMul_one]
    have h3 := congrFun h2 b
    simp only [Matrix.vecMul, dotProduct, hJ] at h3
    exact h3.symm
  refine Fin.cases ?_ hmain a
  simp

/-- **C88 (elements).** TET4 cells of any shape, any rule with at least one point. -/
theorem C88_rigid_tet4 (F : Fem 4 nq nf nfq 3 3) (rule : QuadRule nq) (ht : CellTables F tet4 rule) (hq : 0 < nq) (hdet : ∀ c ∈ F.cells, ∀ q, (F.jacobian c q).det ≠ 0) : F.RigidModes := by
  intro c hc w h
  set q : Fin nq := ⟨0, hq⟩
  refine ⟨fun i d => ∑ n, w n i * F.shapeGrad c q n d, fun i => w 0 i - ∑ d, (∑ n, w n i * F.shapeGrad c q n d) * F.points (c 0) d, fun i j => eq_neg_of_add_eq_zero_left (h q i j), fun a i => ?_⟩
  have := tet4_affine F rule ht c q (hdet c hc q) (fun n => w n i) a
  simp only [mul_sub, sum_sub_distrib] at this
  linarith

/-- **C88 (elements).** The same for TRI3 cells. -/
theorem C88_rigid_tri3 (F : Fem 3 nq nf nfq 2 2) (rule : QuadRule nq) (ht : CellTables F tri3 rule) (hq : 0 < nq) (hdet : ∀ c ∈ F.cells, ∀ q, (F.jacobian c q).det ≠ 0) : F.RigidModes := by
  intro c hc w h
  set q : Fin nq := ⟨0, hq⟩
  refine ⟨fun i d => ∑ n, w n i * F.shapeGrad c q n d, fun i => w 0 i - ∑ d, (∑ n, w n i * F.shapeGrad c q n d) * F.points (c 0) d, fun i j => eq_neg_of_add_eq_zero_left (h q i j), fun a i => ?_⟩
  have := tri3_affine F rule ht c q (hdet c hc q) (fun n => w n i) a
  simp only [mul_sub, sum_sub_distrib] at this
  linarith

/-- **C88 (elements).** HEX8 bricks (edges along the axes, any lengths) with the 2x2x2 rule. -/
theorem C88_rigid_hex8 (F : Fem 8 (2 ^ 3) nf nfq 3 3) (ht : CellTables F hex8 (gaussRule 3))
    (hbrick : ∀ c ∈ F.cells, ∃ o h : Fin 3 → ℝ, (∀ a, h a ≠ 0) ∧ ∀ p a, F.points (c p) a = o a + Verif.Mesh.hexCorner p a * h a) : F.RigidModes := by
  intro c hc w hw
  obtain ⟨o, h, hne, hpt⟩ := hbrick c hc
  have hjac : ∀ q, F.jacobian c q = Matrix.diagonal h := fun q =>
    jacobian_brick F "HEX8" (by decide) hex8 getElements_hex8 (by decide) (by decide) (gaussRule 3).pt ⟨ht.vals, ht.grads⟩ c h o (fun p a => by rw [hpt, hexCorner_nodes]; push_cast; ring) q
  have hinv : (Matrix.diagonal h : Matrix (Fin 3) (Fin 3) ℝ)⁻¹ = Matrix.diagonal fun a => (h a)⁻¹ := by
    refine Matrix.inv_eq_right_inv ?_
    rw [Matrix.diagonal_mul_diagonal, ← Matrix.diagonal_one]
    congr 1
    funext a
    exact mul_inv_cancel₀ (hne a)
  have hgrad : ∀ q a d, F.shapeGrad c q a d = shapeGradRef hex8 a ((gaussRule 3).pt q) d * (h d)⁻¹ := by
    intro q a d
    simp only [Fem.shapeGrad, hjac, hinv, Matrix.diagonal_apply, mul_ite, mul_zero, sum_ite_eq', mem_univ, if_true, ht.grads]
  have hs : ∀ (v : Fin 3 → Bool) (i j : Fin 3), ∃ x : ℕ → ℝ, (∀ a : Fin 3, x a = gaussPoint (v a)) ∧
      (∑ a, w a i * shapeGradRef hex8 a x j) * (h j)⁻¹ + (∑ a, w a j * shapeGradRef hex8 a x i) * (h i)⁻¹ = 0 := by
    intro v i j
    obtain ⟨q, hq⟩ := gauss_pt3 v
    refine ⟨(gaussRule 3).pt q, hq, ?_⟩
    have := hw q i j
    simp only [hgrad] at this
    rw [sum_mul, sum_mul]
    simpa only [mul_assoc] using this
  have hi : ∀ a, (h a)⁻¹ ≠ 0 := fun a => inv_ne_zero (hne a)
  have hdiag : ∀ (v : Fin 3 → Bool) (i : Fin 3), ∃ x : ℕ → ℝ, (∀ a : Fin 3, x a = gaussPoint (v a)) ∧ ∑ a, w a i * shapeGradRef hex8 a x i = 0 := by
    intro v i
    obtain ⟨x, hx, h1⟩ := hs v i i
    exact ⟨x, hx, (mul_eq_zero.mp (show (∑ a, w a i * shapeGradRef hex8 a x i) * (h i)⁻¹ = 0 by linarith)).resolve_right (hi i)⟩
  obtain ⟨a1, a2, a3, a4⟩ := bilin_zero (w 1 0 - w 0 0) (w 2 0 - w 3 0) (w 5 0 - w 4 0) (w 6 0 - w 7 0) fun b b' => by
    obtain ⟨x, hx, h1⟩ := hdiag ![b, b, b'] 0
    rw [(hex8_grads (fun a => w a 0) x).1] at h1
    have e1 := hx 1
    have e2 := hx 2
    simp at e1 e2
    rw [← e1, ← e2]
    exact h1
  obtain ⟨b1, b2, b3, b4⟩ := bilin_zero (w 3 1 - w 0 1) (w 2 1 - w 1 1) (w 7 1 - w 4 1) (w 6 1 - w 5 1) fun b b' => by
    obtain ⟨x, hx, h1⟩ := hdiag ![b, b, b'] 1
    rw [(hex8_grads (fun a => w a 1) x).2.1] at h1
    have e1 := hx 0
    have e2 := hx 2
    simp at e1 e2
    rw [← e1, ← e2]
    exact h1
  obtain ⟨c1, c2, c3, c4⟩ := bilin_zero (w 4 2 - w 0 2) (w 5 2 - w 1 2) (w 7 2 - w 3 2) (w 6 2 - w 2 2) fun b b' => by
    obtain ⟨x, hx, h1⟩ := hdiag ![b, b', b'] 2
    rw [(hex8_grads (fun a => w a 2) x).2.2] at h1
    have e1 := hx 0
    have e2 := hx 1
    simp at e1 e2
    rw [← e1, ← e2]
    exact h1
  rw [sub_eq_zero] at a1 a2 a3 a4 b1 b2 b3 b4 c1 c2 c3 c4
  obtain ⟨s1, s2⟩ := lin_zero ((w 3 0 - w 0 0) * (h 1)⁻¹ + (w 1 1 - w 0 1) * (h 0)⁻¹) ((w 7 0 - w 4 0) * (h 1)⁻¹ + (w 5 1 - w 4 1) * (h 0)⁻¹) fun b => by
    obtain ⟨x, hx, h1⟩ := hs ![b, b, b] 0 1
    rw [(hex8_grads (fun a => w a 0) x).2.1, (hex8_grads (fun a => w a 1) x).1] at h1
    simp only [a1, a2, a3, a4, b1, b2, b3, b4] at h1
    have e2 := hx 2
    simp at e2
    rw [← e2]
    linear_combination h1
  obtain ⟨s3, s4⟩ := lin_zero ((w 4 0 - w 0 0) * (h 2)⁻¹ + (w 1 2 - w 0 2) * (h 0)⁻¹) ((w 7 0 - w 3 0) * (h 2)⁻¹ + (w 2 2 - w 3 2) * (h 0)⁻¹) fun b => by
    obtain ⟨x, hx, h1⟩ := hs ![b, b, b] 0 2
    rw [(hex8_grads (fun a => w a 0) x).2.2, (hex8_grads (fun a => w a 2) x).1] at h1
    simp only [a1, a2, a3, a4, c1, c2, c3, c4] at h1
    have e2 := hx 1
    simp at e2
    rw [← e2]
    linear_combination h1
  obtain ⟨s5, s6⟩ := lin_zero ((w 4 1 - w 0 1) * (h 2)⁻¹ + (w 3 2 - w 0 2) * (h 1)⁻¹) ((w 5 1 - w 1 1) * (h 2)⁻¹ + (w 2 2 - w 1 2) * (h 1)⁻¹) fun b => by
    obtain ⟨x, hx, h1⟩ := hs ![b, b, b] 1 2
    rw [(hex8_grads (fun a => w a 1) x).2.2, (hex8_grads (fun a => w a 2) x).2.1] at h1
    simp only [b1, b2, b3, b4, c1, c2, c3, c4] at h1
    have e2 := hx 0
    simp at e2
    rw [← e2]
    linear_combination h1
  have hDa : w 7 0 - w 4 0 - w 3 0 + w 0 0 = 0 := by
    refine (mul_eq_zero.mp (?_ : (w 7 0 - w 4 0 - w 3 0 + w 0 0) * ((h 1)⁻¹ * (h 2)⁻¹) = 0)).resolve_right (mul_ne_zero (hi 1) (hi 2))
    linear_combination ((h 2)⁻¹ * (s2 - s1) + (h 1)⁻¹ * (s4 - s3) - (h 0)⁻¹ * (s6 - s5)) / 2
  have hDb : w 5 1 - w 4 1 - w 1 1 + w 0 1 = 0 := by
    refine (mul_eq_zero.mp (?_ : (w 5 1 - w 4 1 - w 1 1 + w 0 1) * (h 0)⁻¹ = 0)).resolve_right (hi 0)
    linear_combination s2 - s1 - (h 1)⁻¹ * hDa
  have hDc : w 2 2 - w 3 2 - w 1 2 + w 0 2 = 0 := by
    refine (mul_eq_zero.mp (?_ : (w 2 2 - w 3 2 - w 1 2 + w 0 2) * (h 0)⁻¹ = 0)).resolve_right (hi 0)
    linear_combination s4 - s3 - (h 2)⁻¹ * hDa
  refine ⟨fun i j => (w (![1, 3, 4] j) i - w 0 i) * (h j)⁻¹, fun i => w 0 i - ∑ d, (w (![1, 3, 4] d) i - w 0 i) * (h d)⁻¹ * o d, fun i j => ?_, fun p i => ?_⟩
  · fin_cases i <;> fin_cases j <;> simp [a1, b1, c1] <;> linarith
  · have hk : ∀ d, (w (![1, 3, 4] d) i - w 0 i) * (h d)⁻¹ * (o d + Verif.Mesh.hexCorner p d * h d)
        = (w (![1, 3, 4] d) i - w 0 i) * (h d)⁻¹ * o d + Verif.Mesh.hexCorner p d * (w (![1, 3, 4] d) i - w 0 i) := by
      intro d
      have := hne d
      field_simp
    simp only [hpt, hk, sum_add_distrib]
    have hfin : w p i - w 0 i = ∑ d : Fin 3, (Verif.Mesh.hexCorner p d : ℝ) * (w (![1, 3, 4] d) i - w 0 i) := by
      rw [Fin.sum_univ_three]
      fin_cases p <;> fin_cases i <;> simp [Verif.Mesh.hexCorner] <;> linarith
    linarith

end Verif.Fem
