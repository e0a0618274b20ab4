import Verif.Fem.Work
import Verif.Fem.PropsPatch2
import Verif.Fem.PropsSimplex
import Verif.Fem.ModelsProps
import Mathlib.Logic.Relation

/-!
# C86: the discrete problem has at most one solution
-/
namespace Verif.Fem
open Finset

variable {nn nq nf nfq dim vec : ℕ}

theorem list_sum_eq_zero {α : Type*} (l : List α) (f : α → ℝ) (h0 : ∀ a ∈ l, 0 ≤ f a) (h : (l.map f).sum = 0) : ∀ a ∈ l, f a = 0 := by
  induction l with
  | nil => simp
  | cons b l ih =>
    simp only [List.map_cons, List.sum_cons] at h
    have h1 : 0 ≤ f b := h0 b (by simp)
    have h2 : 0 ≤ (l.map f).sum := List.sum_nonneg fun x hx => by
      obtain ⟨a, ha, rfl⟩ := List.mem_map.mp hx
      exact h0 a (by simp [ha])
    intro a ha
    rcases List.mem_cons.mp ha with rfl | ha
    · linarith
    · exact ih (fun a ha => h0 a (by simp [ha])) (by linarith) a ha

theorem gradAt_sub (F : Fem nn nq nf nfq dim vec) (u v : ℕ → Fin vec → ℝ) (c : Fin nn → ℕ) (q : Fin nq) : F.gradAt (fun n i => u n i - v n i) c q = fun i d => F.gradAt u c q i d - F.gradAt v c q i d := by
  funext i d
  simp only [Fem.gradAt, sub_mul, sum_sub_distrib]

theorem uAt_sub (F : Fem nn nq nf nfq dim vec) (u v : ℕ → Fin vec → ℝ) (c : Fin nn → ℕ) (q : Fin nq) : F.uAt (fun n i => u n i - v n i) c q = fun i => F.uAt u c q i - F.uAt v c q i := by
  funext i
  simp only [Fem.uAt, sub_mul, sum_sub_distrib]

theorem uFace_sub (F : Fem nn nq nf nfq dim vec) (u v : ℕ → Fin vec → ℝ) (p : (Fin nn → ℕ) × Fin nf) (q : Fin nfq) : F.uFace (fun n i => u n i - v n i) p q = fun i => F.uFace u p q i - F.uFace v p q i := by
  funext i
  simp only [Fem.uFace, sub_mul, sum_sub_distrib]

/-- Specification: the data of the problem are monotone (the tangent is positive semidefinite): positive volumes and face areas, monotone stress, mass and Cauchy maps. -/
structure Fem.Monotone (F : Fem nn nq nf nfq dim vec) : Prop where
  mesh : ∀ c ∈ F.cells, ∀ a, c a < F.numTotal
  vol : ∀ c ∈ F.cells, ∀ q, 0 < F.JxW c q
  stress : ∀ k q A B, 0 ≤ ∑ i, ∑ d, (F.stress k q A i d - F.stress k q B i d) * (A i d - B i d)
  mass : ∀ k q a b, 0 ≤ ∑ i, (F.massAt k q a i - F.massAt k q b i) * (a i - b i)
  cauchy : ∀ lv ∈ Fem.pairs F.cauchy, (∀ a b, 0 ≤ ∑ i, (lv.2 a i - lv.2 b i) * (a i - b i)) ∧ ∀ p ∈ F.selected lv.1, ∀ q, 0 ≤ F.nansonScale p.1 p.2 q

/-- Two fields that agree at the fixed degrees of freedom and have the same residual at the others: the stress difference does no work on the gradient difference, at any quadrature point. -/
theorem energy_zero (F : Fem nn nq nf nfq dim vec) (hF : F.Monotone) (u v Ru Rv : ℕ → Fin vec → ℝ) (hu : F.computeResidual u = .ok Ru) (hv : F.computeResidual v = .ok Rv)
    (huv : ∀ n < F.numTotal, ∀ i, u n i = v n i ∨ Ru n i = Rv n i) (k : ℕ) (c : Fin nn → ℕ) (hk : F.cells[k]? = some c) (q : Fin nq) :
    ∑ i, ∑ d, (F.stress k q (F.gradAt u c q) i d - F.stress k q (F.gradAt v c q) i d) * (F.gradAt u c q i d - F.gradAt v c q i d) = 0 := by
  have h1 := C71_virtual_work F hF.mesh u (fun n i => u n i - v n i) Ru hu
  have h2 := C71_virtual_work F hF.mesh v (fun n i => u n i - v n i) Rv hv
  have h0 : ∑ n ∈ range F.numTotal, ∑ i, Ru n i * (u n i - v n i) = ∑ n ∈ range F.numTotal, ∑ i, Rv n i * (u n i - v n i) := by
    refine sum_congr rfl fun n hn => sum_congr rfl fun i _ => ?_
    rcases huv n (Finset.mem_range.mp hn) i with h | h <;> rw [h]
    ring
  rw [h1, h2] at h0
  simp only [gradAt_sub, uAt_sub, uFace_sub] at h0
  set X : (Fin nn → ℕ) × ℕ → ℝ := fun p => ∑ q, ((∑ i, ∑ d, (F.stress p.2 q (F.gradAt u p.1 q) i d - F.stress p.2 q (F.gradAt v p.1 q) i d) * (F.gradAt u p.1 q i d - F.gradAt v p.1 q i d))
          + ∑ i, (F.massAt p.2 q (F.uAt u p.1 q) i - F.massAt p.2 q (F.uAt v p.1 q) i) * (F.uAt u p.1 q i - F.uAt v p.1 q i)) * F.JxW p.1 q with hX
  set Y : Loc dim × ((Fin vec → ℝ) → Fin vec → ℝ) → ℝ := fun lv => ((F.selected lv.1).map fun p => ∑ q, (∑ i, (lv.2 (F.uFace u p q) i - lv.2 (F.uFace v p q) i) * (F.uFace u p q i - F.uFace v p q i))
      * F.nansonScale p.1 p.2 q).sum with hY
  have hlsub : ∀ {α : Type} (l : List α) (f g h : α → ℝ), (∀ a ∈ l, f a - g a = h a) → (l.map f).sum - (l.map g).sum = (l.map h).sum := by
    intro α l f g h he
    induction l with
    | nil => simp
    | cons a l ih =>
      simp only [List.map_cons, List.sum_cons]
      rw [← ih fun b hb => he b (by simp [hb]), ← he a (by simp)]
      ring
  have hXeq := hlsub F.cells.zipIdx
    (fun p => ∑ q, ((∑ i, ∑ d, F.stress p.2 q (F.gradAt u p.1 q) i d * (F.gradAt u p.1 q i d - F.gradAt v p.1 q i d)) + ∑ i, F.massAt p.2 q (F.uAt u p.1 q) i * (F.uAt u p.1 q i - F.uAt v p.1 q i)) * F.JxW p.1 q)
    (fun p => ∑ q, ((∑ i, ∑ d, F.stress p.2 q (F.gradAt v p.1 q) i d * (F.gradAt u p.1 q i d - F.gradAt v p.1 q i d)) + ∑ i, F.massAt p.2 q (F.uAt v p.1 q) i * (F.uAt u p.1 q i - F.uAt v p.1 q i)) * F.JxW p.1 q)
    X (fun p _ => by
      rw [hX, ← sum_sub_distrib]
      refine sum_congr rfl fun q _ => ?_
      simp only [sub_mul (F.stress _ _ _ _ _), sub_mul (F.massAt _ _ _ _), sum_sub_distrib]
      ring)
  have hYeq := hlsub (Fem.pairs F.cauchy)
    (fun lv => ((F.selected lv.1).map fun p => ∑ q, (∑ i, lv.2 (F.uFace u p q) i * (F.uFace u p q i - F.uFace v p q i)) * F.nansonScale p.1 p.2 q).sum)
    (fun lv => ((F.selected lv.1).map fun p => ∑ q, (∑ i, lv.2 (F.uFace v p q) i * (F.uFace u p q i - F.uFace v p q i)) * F.nansonScale p.1 p.2 q).sum)
    Y (fun lv _ => by
      refine hlsub _ _ _ _ fun p _ => ?_
      rw [← sum_sub_distrib]
      refine sum_congr rfl fun q _ => ?_
      simp only [sub_mul (lv.2 _ _), sum_sub_distrib]
      ring)
  have hsum : (F.cells.zipIdx.map X).sum + ((Fem.pairs F.cauchy).map Y).sum = 0 := by linarith
  have hterm : ∀ p ∈ F.cells.zipIdx, ∀ q, 0 ≤ (∑ i, ∑ d, (F.stress p.2 q (F.gradAt u p.1 q) i d - F.stress p.2 q (F.gradAt v p.1 q) i d) * (F.gradAt u p.1 q i d - F.gradAt v p.1 q i d)) ∧
      0 ≤ (∑ i, (F.massAt p.2 q (F.uAt u p.1 q) i - F.massAt p.2 q (F.uAt v p.1 q) i) * (F.uAt u p.1 q i - F.uAt v p.1 q i)) ∧ 0 < F.JxW p.1 q :=
    fun p hp q => ⟨hF.stress _ _ _ _, hF.mass _ _ _ _, hF.vol _ (zipIdx_mem hp) q⟩
  have hXn : ∀ p ∈ F.cells.zipIdx, 0 ≤ X p := fun p hp => sum_nonneg fun q _ => by
    obtain ⟨a, b, c⟩ := hterm p hp q
    exact mul_nonneg (add_nonneg a b) c.le
  have hYn : ∀ lv ∈ Fem.pairs F.cauchy, 0 ≤ Y lv := fun lv hlv => List.sum_nonneg fun x hx => by
    obtain ⟨p, hp, rfl⟩ := List.mem_map.mp hx
    exact sum_nonneg fun q _ => mul_nonneg ((hF.cauchy lv hlv).1 _ _) ((hF.cauchy lv hlv).2 p hp q)
  have hXs : 0 ≤ (F.cells.zipIdx.map X).sum := List.sum_nonneg fun x hx => by
    obtain ⟨p, hp, rfl⟩ := List.mem_map.mp hx
    exact hXn p hp
  have hYs : 0 ≤ ((Fem.pairs F.cauchy).map Y).sum := List.sum_nonneg fun x hx => by
    obtain ⟨p, hp, rfl⟩ := List.mem_map.mp hx
    exact hYn p hp
  have hmem : (c, k) ∈ F.cells.zipIdx := List.mem_zipIdx_iff_getElem?.mpr hk
  have hz := list_sum_eq_zero _ X hXn (by linarith) (c, k) hmem
  have hq := (sum_eq_zero_iff_of_nonneg fun q _ => by
    obtain ⟨a, b, c⟩ := hterm (c, k) hmem q
    exact mul_nonneg (add_nonneg a b) c.le).mp hz q (mem_univ q)
  obtain ⟨a, b, w⟩ := hterm (c, k) hmem q
  have := (mul_eq_zero.mp hq).resolve_right w.ne'
  linarith

/-- Two nodes of a common cell. -/
def Fem.Adj (F : Fem nn nq nf nfq dim vec) (n m : ℕ) : Prop := ∃ c ∈ F.cells, ∃ a b, c a = n ∧ c b = m

/-- Specification: a nodal field whose gradient vanishes at all quadrature points of a cell is constant on the cell (no spurious zero-energy modes). -/
def Fem.NoModes (F : Fem nn nq nf nfq dim vec) : Prop :=
  ∀ c ∈ F.cells, ∀ w : Fin nn → ℝ, (∀ q d, ∑ a, w a * F.shapeGrad c q a d = 0) → ∀ a b, w a = w b

/-- **C86 (uniqueness).** For a monotone problem whose stress is strictly monotone, on a mesh of elements without spurious modes in which every node is connected, for each component, to a fixed one:
two fields with the same values at the fixed degrees of freedom and the same residual at the free ones are equal at all nodes. -/
theorem C86_unique (F : Fem nn nq nf nfq dim vec) (hF : F.Monotone) (hstrict : ∀ k q A B, A ≠ B → 0 < ∑ i, ∑ d, (F.stress k q A i d - F.stress k q B i d) * (A i d - B i d))
    (hmodes : F.NoModes) (fixed : ℕ → Fin vec → Prop) (hconn : ∀ n < F.numTotal, ∀ i, ∃ m, fixed m i ∧ Relation.ReflTransGen F.Adj n m)
    (u v Ru Rv : ℕ → Fin vec → ℝ) (hu : F.computeResidual u = .ok Ru) (hv : F.computeResidual v = .ok Rv)
    (hfix : ∀ n i, fixed n i → u n i = v n i) (hfree : ∀ n < F.numTotal, ∀ i, ¬ fixed n i → Ru n i = Rv n i) (n : ℕ) (hn : n < F.numTotal) (i : Fin vec) : u n i = v n i := by
  have hgrad : ∀ c ∈ F.cells, ∀ q, F.gradAt u c q = F.gradAt v c q := by
    intro c hc q
    obtain ⟨k, hk⟩ := List.getElem?_of_mem hc
    by_contra hne
    refine absurd (energy_zero F hF u v Ru Rv hu hv (fun n hn i => ?_) k c hk q) (hstrict k q _ _ hne).ne'
    by_cases hf : fixed n i
    · exact .inl (hfix n i hf)
    · exact .inr (hfree n hn i hf)
  have hadj : ∀ n m, F.Adj n m → u n i - v n i = u m i - v m i := by
    rintro _ _ ⟨c, hc, a, b, rfl, rfl⟩
    refine hmodes c hc (fun a => u (c a) i - v (c a) i) (fun q d => ?_) a b
    have := congrFun (congrFun (gradAt_sub F u v c q) i) d
    rw [hgrad c hc q, sub_self] at this
    exact this
  obtain ⟨m, hm, hpath⟩ := hconn n hn i
  have hp : ∀ m, Relation.ReflTransGen F.Adj n m → u n i - v n i = u m i - v m i := by
    intro m h
    induction h with
    | refl => rfl
    | tail _ h ih => exact ih.trans (hadj _ _ h)
  have := hp m hpath
  have h3 := hfix m i hm
  linarith

/-! ## Elements without spurious modes -/

theorem grad_ref_zero (F : Fem nn nq nf nfq dim vec) (c : Fin nn → ℕ) (q : Fin nq) (hdet : (F.jacobian c q).det ≠ 0) (w : Fin nn → ℝ) (h : ∀ d, ∑ a, w a * F.shapeGrad c q a d = 0)
    (b : Fin dim) : ∑ a, w a * F.shapeGradsRef q a b = 0 := by
  set g : Fin dim → ℝ := fun b => ∑ a, w a * F.shapeGradsRef q a b with hg
  have h1 : Matrix.vecMul g (F.jacobian c q)⁻¹ = 0 := by
    funext d
    have := h d
    simp only [Fem.shapeGrad, mul_sum] at this
    rw [sum_comm] at this
    simp only [Matrix.vecMul, dotProduct, hg, sum_mul, Pi.zero_apply]
    rw [← this]
    exact sum_congr rfl fun _ _ => sum_congr rfl fun _ _ => by ring
  have h2 : Matrix.vecMul (Matrix.vecMul g (F.jacobian c q)⁻¹) (F.jacobian c q) = 0 := by rw [h1, Matrix.zero_vecMul]
  rw [Matrix.vecMul_vecMul, Matrix.nonsing_inv_mul _ (isUnit_iff_ne_zero.mpr hdet), Matrix.vecMul_one] at h2
  exact congrFun h2 b

theorem gauss_ne : gaussPoint true ≠ gaussPoint false := by
  have : (0 : ℝ) < 1 / Real.sqrt 3 := by positivity
  unfold gaussPoint
  simp only [if_true, Bool.false_eq_true, if_false]
  intro h
  linarith

/-- A linear function that vanishes at both Gauss points is zero. -/
theorem lin_zero (p q : ℝ) (h : ∀ b, p * (1 - gaussPoint b) + q * gaussPoint b = 0) : p = 0 ∧ q = 0 := by
  have h1 := h true
  have h2 := h false
  have hne := sub_ne_zero.mpr gauss_ne
  have h3 : (q - p) * (gaussPoint true - gaussPoint false) = 0 := by linear_combination h1 - h2
  have h4 : q = p := sub_eq_zero.mp ((mul_eq_zero.mp h3).resolve_right hne)
  subst h4
  constructor <;> linear_combination h1

/-- A bilinear function that vanishes at the four Gauss points is zero. -/
theorem bilin_zero (A B C D : ℝ) (h : ∀ b b', A * ((1 - gaussPoint b) * (1 - gaussPoint b')) + B * (gaussPoint b * (1 - gaussPoint b')) + C * ((1 - gaussPoint b) * gaussPoint b')
      + D * (gaussPoint b * gaussPoint b') = 0) : A = 0 ∧ B = 0 ∧ C = 0 ∧ D = 0 := by
  have h1 : ∀ b, A * (1 - gaussPoint b) + B * gaussPoint b = 0 ∧ C * (1 - gaussPoint b) + D * gaussPoint b = 0 :=
    fun b => lin_zero _ _ fun b' => by linear_combination h b b'
  obtain ⟨a, b⟩ := lin_zero A B fun b => (h1 b).1
  obtain ⟨c, d⟩ := lin_zero C D fun b => (h1 b).2
  exact ⟨a, b, c, d⟩

/-- The Gauss point with given bits. -/
theorem gauss_pt3 (b : Fin 3 → Bool) : ∃ q, ∀ a : Fin 3, (gaussRule 3).pt q a = gaussPoint (b a) := by
  refine ⟨⟨(if b 0 then 4 else 0) + (if b 1 then 2 else 0) + (if b 2 then 1 else 0), ?_⟩, fun a => ?_⟩
  · cases b 0 <;> cases b 1 <;> cases b 2 <;> decide
  · simp only [gaussRule]
    congr 1
    fin_cases a <;> simp <;> cases b 0 <;> cases b 1 <;> cases b 2 <;> decide

theorem gauss_pt2 (b : Fin 2 → Bool) : ∃ q, ∀ a : Fin 2, (gaussRule 2).pt q a = gaussPoint (b a) := by
  refine ⟨⟨(if b 0 then 2 else 0) + (if b 1 then 1 else 0), ?_⟩, fun a => ?_⟩
  · cases b 0 <;> cases b 1 <;> decide
  · simp only [gaussRule]
    congr 1
    fin_cases a <;> simp <;> cases b 0 <;> cases b 1 <;> decide

/-- **C86 (elements).** TET4 cells with at least one quadrature point have no spurious modes. -/
theorem C86_modes_tet4 (F : Fem 4 nq nf nfq 3 vec) (rule : QuadRule nq) (ht : CellTables F tet4 rule) (hq : 0 < nq) (hdet : ∀ c ∈ F.cells, ∀ q, (F.jacobian c q).det ≠ 0) : F.NoModes := by
  intro c hc w h
  have h0 := fun b => grad_ref_zero F c ⟨0, hq⟩ (hdet c hc _) w (h _) b
  simp only [ht.grads, shapeGradRef_tet4, Fin.sum_univ_four] at h0
  have e0 := h0 0
  have e1 := h0 1
  have e2 := h0 2
  simp at e0 e1 e2
  have k : ∀ a, w a = w 0 := by
    intro a
    fin_cases a <;> simp <;> linarith
  intro a b
  rw [k a, k b]

/-- **C86 (elements).** The same for TRI3. -/
theorem C86_modes_tri3 (F : Fem 3 nq nf nfq 2 vec) (rule : QuadRule nq) (ht : CellTables F tri3 rule) (hq : 0 < nq) (hdet : ∀ c ∈ F.cells, ∀ q, (F.jacobian c q).det ≠ 0) : F.NoModes := by
  intro c hc w h
  have h0 := fun b => grad_ref_zero F c ⟨0, hq⟩ (hdet c hc _) w (h _) b
  simp only [ht.grads, shapeGradRef_tri3, Fin.sum_univ_three] at h0
  have e0 := h0 0
  have e1 := h0 1
  simp at e0 e1
  have k : ∀ a, w a = w 0 := by
    intro a
    fin_cases a <;> simp <;> linarith
  intro a b
  rw [k a, k b]

/-- Gradient components of a trilinear function at a point. -/
theorem hex8_grads (w : Fin 8 → ℝ) (x : ℕ → ℝ) :
    (∑ a, w a * shapeGradRef hex8 a x (0 : Fin 3) = (w 1 - w 0) * ((1 - x 1) * (1 - x 2)) + (w 2 - w 3) * (x 1 * (1 - x 2)) + (w 5 - w 4) * ((1 - x 1) * x 2) + (w 6 - w 7) * (x 1 * x 2)) ∧
    (∑ a, w a * shapeGradRef hex8 a x (1 : Fin 3) = (w 3 - w 0) * ((1 - x 0) * (1 - x 2)) + (w 2 - w 1) * (x 0 * (1 - x 2)) + (w 7 - w 4) * ((1 - x 0) * x 2) + (w 6 - w 5) * (x 0 * x 2)) ∧
    ∑ a, w a * shapeGradRef hex8 a x (2 : Fin 3) = (w 4 - w 0) * ((1 - x 0) * (1 - x 1)) + (w 5 - w 1) * (x 0 * (1 - x 1)) + (w 7 - w 3) * ((1 - x 0) * x 1) + (w 6 - w 2) * (x 0 * x 1) := by
  have e0 : (univ.erase (0 : Fin 3)) = {1, 2} := by decide
  have e1 : (univ.erase (1 : Fin 3)) = {0, 2} := by decide
  have e2 : (univ.erase (2 : Fin 3)) = {0, 1} := by decide
  simp only [shapeGradRef_hex8, e0, e1, e2]
  refine ⟨?_, ?_, ?_⟩ <;>
  · simp [Fin.sum_univ_eight, Verif.Mesh.hexCorner, lin, slope]
    ring

/-- **C86 (elements).** HEX8 cells with the 2x2x2 rule, whatever their shape, have no spurious modes. -/
theorem C86_modes_hex8 (F : Fem 8 (2 ^ 3) nf nfq 3 vec) (ht : CellTables F hex8 (gaussRule 3)) (hdet : ∀ c ∈ F.cells, ∀ q, (F.jacobian c q).det ≠ 0) : F.NoModes := by
  intro c hc w h
  have h0 : ∀ (b : Fin 3) (v : Fin 3 → Bool), ∃ x : ℕ → ℝ, (∀ a : Fin 3, x a = gaussPoint (v a)) ∧ ∑ a, w a * shapeGradRef hex8 a x b = 0 := by
    intro b v
    obtain ⟨q, hq⟩ := gauss_pt3 v
    refine ⟨(gaussRule 3).pt q, hq, ?_⟩
    have := grad_ref_zero F c q (hdet c hc _) w (h _) b
    simpa only [ht.grads] using this
  obtain ⟨a1, a2, a3, a4⟩ := bilin_zero (w 1 - w 0) (w 2 - w 3) (w 5 - w 4) (w 6 - w 7) fun b b' => by
    obtain ⟨x, hx, h1⟩ := h0 0 ![b, b, b']
    rw [(hex8_grads w x).1] at h1
    have e1 := hx 1
    have e2 := hx 2
    simp at e1 e2
    rw [← e1, ← e2]
    exact h1
  obtain ⟨b1, b2, b3, b4⟩ := bilin_zero (w 3 - w 0) (w 2 - w 1) (w 7 - w 4) (w 6 - w 5) fun b b' => by
    obtain ⟨x, hx, h1⟩ := h0 1 ![b, b, b']
    rw [(hex8_grads w x).2.1] at h1
    have e1 := hx 0
    have e2 := hx 2
    simp at e1 e2
    rw [← e1, ← e2]
    exact h1
  obtain ⟨c1, c2, c3, c4⟩ := bilin_zero (w 4 - w 0) (w 5 - w 1) (w 7 - w 3) (w 6 - w 2) fun b b' => by
    obtain ⟨x, hx, h1⟩ := h0 2 ![b, b', b']
    rw [(hex8_grads w x).2.2] at h1
    have e1 := hx 0
    have e2 := hx 1
    simp at e1 e2
    rw [← e1, ← e2]
    exact h1
  have k : ∀ a, w a = w 0 := by
    intro a
    fin_cases a <;> simp <;> linarith
  intro a b
  rw [k a, k b]

/-- The element of `QUAD4`. -/
def quad4 : Elem := ⟨.P, .quadrilateral, .interval, 2, 1, [0, 1, 3, 2]⟩

theorem getElements_quad4 : getElements "QUAD4" = some quad4 := by decide

theorem shapeVal_quad4 (p : Fin 4) (x : ℕ → ℝ) : shapeVal quad4 p x = lin (Verif.Mesh.quadCorner p 0) (x 0) * lin (Verif.Mesh.quadCorner p 1) (x 1) := by
  rw [shapeVal_eq "QUAD4" quad4 getElements_quad4 p (by simp [meshioNodes_QUAD4]), meshioNodes_QUAD4]
  fin_cases p <;> simp [quad4, basisFn, lag, List.range_succ, lin, Verif.Mesh.quadCorner]

theorem shapeGradRef_quad4 (p : Fin 4) (x : ℕ → ℝ) :
    shapeGradRef quad4 p x (0 : Fin 2) = slope (Verif.Mesh.quadCorner p 0) * lin (Verif.Mesh.quadCorner p 1) (x 1) ∧
    shapeGradRef quad4 p x (1 : Fin 2) = slope (Verif.Mesh.quadCorner p 1) * lin (Verif.Mesh.quadCorner p 0) (x 0) := by
  unfold shapeGradRef
  simp only [shapeVal_quad4]
  constructor
  · simp only [Fin.coe_ofNat_eq_mod, Nat.zero_mod, Function.update_self, Function.update_of_ne (show (1 : ℕ) ≠ 0 by decide)]
    exact ((lin_update _ _).mul_const _).deriv
  · simp only [Fin.coe_ofNat_eq_mod, Nat.mod_succ, Function.update_self, Function.update_of_ne (show (0 : ℕ) ≠ 1 by decide)]
    rw [mul_comm]
    exact ((lin_update _ _).const_mul _).deriv

/-- **C86 (elements).** QUAD4 cells with the 2x2 rule have no spurious modes. -/
theorem C86_modes_quad4 (F : Fem 4 (2 ^ 2) nf nfq 2 vec) (ht : CellTables F quad4 (gaussRule 2)) (hdet : ∀ c ∈ F.cells, ∀ q, (F.jacobian c q).det ≠ 0) : F.NoModes := by
  intro c hc w h
  have h0 : ∀ (b : Fin 2) (v : Fin 2 → Bool), ∃ x : ℕ → ℝ, (∀ a : Fin 2, x a = gaussPoint (v a)) ∧ ∑ a, w a * shapeGradRef quad4 a x b = 0 := by
    intro b v
    obtain ⟨q, hq⟩ := gauss_pt2 v
    refine ⟨(gaussRule 2).pt q, hq, ?_⟩
    have := grad_ref_zero F c q (hdet c hc _) w (h _) b
    simpa only [ht.grads] using this
  obtain ⟨a1, a2⟩ := lin_zero (w 1 - w 0) (w 2 - w 3) fun b => by
    obtain ⟨x, hx, h1⟩ := h0 0 ![b, b]
    simp only [fun a => (shapeGradRef_quad4 a x).1, Fin.sum_univ_four] at h1
    have e1 := hx 1
    simp [Verif.Mesh.quadCorner, lin, slope] at e1 h1
    rw [← e1]
    linear_combination h1
  obtain ⟨b1, b2⟩ := lin_zero (w 3 - w 0) (w 2 - w 1) fun b => by
    obtain ⟨x, hx, h1⟩ := h0 1 ![b, b]
    simp only [fun a => (shapeGradRef_quad4 a x).2, Fin.sum_univ_four] at h1
    have e1 := hx 0
    simp [Verif.Mesh.quadCorner, lin, slope] at e1 h1
    rw [← e1]
    linear_combination h1
  have k : ∀ a, w a = w 0 := by
    intro a
    fin_cases a <;> simp <;> linarith
  intro a b
  rw [k a, k b]

/-- With one quadrature point in the middle of a QUAD4 cell the statement fails: the hourglass pattern `1, -1, 1, -1` has no gradient there, on a cell of any shape. -/
example (points : ℕ → Fin 2 → ℝ) : ¬ (Fem.ofElement 4 4 2 1 quad4 (⟨fun _ _ => 1 / 2, fun _ => 1⟩ : QuadRule 1) (gaussRule 1) 4 points [fun a => a]).NoModes := by
  intro h
  have := h (fun a => a) (List.mem_singleton.mpr rfl) ![1, -1, 1, -1] (fun q d => ?_) 0 1
  · norm_num at this
  · show ∑ a : Fin 4, ![1, -1, 1, -1] a * ∑ b : Fin 2, shapeGradRef quad4 a (fun _ => 1 / 2) b * _ = 0
    simp only [Fin.sum_univ_two, Fin.sum_univ_four]
    have e0 := fun a => (shapeGradRef_quad4 a fun _ => (1 : ℝ) / 2).1
    have e1 := fun a => (shapeGradRef_quad4 a fun _ => (1 : ℝ) / 2).2
    rw [e0, e0, e0, e0, e1, e1, e1, e1]
    simp [Verif.Mesh.quadCorner, lin, slope]
    ring

end Verif.Fem
