import Verif.Fem.PeriodicExample

/-!
# C86, C157: the quadratic triangle and tetrahedron have no spurious modes
-/
namespace Verif.Fem
open Finset

/-- The element `TRI6` (basis.py 84-89). -/
def tri6 : Elem := ⟨.P, .triangle, .interval, 2, 2, [0, 1, 2, 5, 3, 4]⟩

theorem getElements_tri6 : getElements "TRI6" = some tri6 := by decide

/-- The three points of `basix.make_quadrature(triangle, 2)` (basis.py 117), as used by `TRI6`. -/
noncomputable def tri6Rule : QuadRule 3 where
  pt := fun q k => if q = 0 then 1 / 6 else if q = 1 then (if k = 0 then 1 / 6 else 2 / 3) else if k = 0 then 2 / 3 else 1 / 6
  w := fun _ => 1 / 6

theorem shapeVal_tri6 (n : Fin 6) (x : ℕ → ℝ) : shapeVal tri6 n x =
    ![(1 - x 0 - x 1) * (2 * (1 - x 0 - x 1) - 1), x 0 * (2 * x 0 - 1), x 1 * (2 * x 1 - 1), 4 * (1 - x 0 - x 1) * x 0, 4 * x 0 * x 1, 4 * (1 - x 0 - x 1) * x 1] n := by
  rw [shapeVal_eq "TRI6" tri6 getElements_tri6 n (by simp [meshioNodes_TRI6]), meshioNodes_TRI6]
  fin_cases n <;> simp [tri6, basisFn, bary, List.range_succ] <;> ring

theorem shapeGradRef_tri6 (n : Fin 6) (x : ℕ → ℝ) (b : Fin 2) : shapeGradRef tri6 n x b =
    ![![-(4 * (1 - x 0 - x 1) - 1), -(4 * (1 - x 0 - x 1) - 1)], ![4 * x 0 - 1, 0], ![0, 4 * x 1 - 1], ![4 * (1 - x 0 - x 1) - 4 * x 0, -4 * x 0], ![4 * x 1, 4 * x 0], ![-4 * x 1, 4 * (1 - x 0 - x 1) - 4 * x 1]] n b := by
  unfold shapeGradRef
  simp only [shapeVal_tri6]
  fin_cases n <;> fin_cases b <;> simp (disch := fun_prop) [Function.update_apply, deriv_fun_mul, deriv_fun_sub, deriv_fun_add] <;> ring

/-- An affine function of two variables that vanishes at three points not on a line is zero. -/
theorem affine_zero2 (a b c : ℝ) (p0 p1 p2 : ℕ → ℝ) (h : (p1 0 - p0 0) * (p2 1 - p0 1) - (p2 0 - p0 0) * (p1 1 - p0 1) ≠ 0) (h0 : a + b * p0 0 + c * p0 1 = 0) (h1 : a + b * p1 0 + c * p1 1 = 0) (h2 : a + b * p2 0 + c * p2 1 = 0) :
    a = 0 ∧ b = 0 ∧ c = 0 := by
  have hb : b = 0 := by
    refine (mul_eq_zero.mp (?_ : b * ((p1 0 - p0 0) * (p2 1 - p0 1) - (p2 0 - p0 0) * (p1 1 - p0 1)) = 0)).resolve_right h
    linear_combination (p2 1 - p0 1) * (h1 - h0) - (p1 1 - p0 1) * (h2 - h0)
  have hc : c = 0 := by
    refine (mul_eq_zero.mp (?_ : c * ((p1 0 - p0 0) * (p2 1 - p0 1) - (p2 0 - p0 0) * (p1 1 - p0 1)) = 0)).resolve_right h
    linear_combination (p1 0 - p0 0) * (h2 - h0) - (p2 0 - p0 0) * (h1 - h0)
  rw [hb, hc] at h0
  exact ⟨by linarith, hb, hc⟩

/-- **C86 (no spurious modes, TRI6).** With three quadrature points not on a line the quadratic triangle, curved or not, has no spurious modes. -/
theorem C86_modes_tri6 (F : Fem 6 nq nf nfq 2 vec) (rule : QuadRule nq) (ht : CellTables F tri6 rule) (q0 q1 q2 : Fin nq)
    (hq : (rule.pt q1 0 - rule.pt q0 0) * (rule.pt q2 1 - rule.pt q0 1) - (rule.pt q2 0 - rule.pt q0 0) * (rule.pt q1 1 - rule.pt q0 1) ≠ 0) (hdet : ∀ c ∈ F.cells, ∀ q, (F.jacobian c q).det ≠ 0) : F.NoModes := by
  intro c hc w h
  have h0 := fun q b => grad_ref_zero F c q (hdet c hc q) w (h q) b
  simp only [ht.grads, shapeGradRef_tri6, Fin.sum_univ_six] at h0
  have hx : ∀ q, (-3 * w 0 - w 1 + 4 * w 3) + (4 * w 0 + 4 * w 1 - 8 * w 3) * rule.pt q 0 + (4 * w 0 - 4 * w 3 + 4 * w 4 - 4 * w 5) * rule.pt q 1 = 0 := fun q => by
    have := h0 q 0
    simp at this
    linarith
  have hy : ∀ q, (-3 * w 0 - w 2 + 4 * w 5) + (4 * w 0 - 4 * w 3 + 4 * w 4 - 4 * w 5) * rule.pt q 0 + (4 * w 0 + 4 * w 2 - 8 * w 5) * rule.pt q 1 = 0 := fun q => by
    have := h0 q 1
    simp at this
    linarith
  obtain ⟨x1, x2, x3⟩ := affine_zero2 _ _ _ _ _ _ hq (hx q0) (hx q1) (hx q2)
  obtain ⟨y1, y2, y3⟩ := affine_zero2 _ _ _ _ _ _ hq (hy q0) (hy q1) (hy q2)
  have e : ∀ a, w a = w 0 := fun a => by
    fin_cases a <;> simp <;> linarith
  intro a b
  rw [e a, e b]

/-- The three points of the rule of `TRI6` are not on a line. -/
theorem tri6Rule_points : (tri6Rule.pt 1 0 - tri6Rule.pt 0 0) * (tri6Rule.pt 2 1 - tri6Rule.pt 0 1) - (tri6Rule.pt 2 0 - tri6Rule.pt 0 0) * (tri6Rule.pt 1 1 - tri6Rule.pt 0 1) ≠ 0 := by
  simp [tri6Rule]
  norm_num

/-! ## TET10 -/

/-- The element `TET10` (basis.py 58-63). -/
def tet10 : Elem := ⟨.P, .tetrahedron, .triangle, 2, 2, [0, 1, 2, 3, 9, 6, 8, 7, 5, 4]⟩

theorem getElements_tet10 : getElements "TET10" = some tet10 := by decide

/-- The four points of `basix.make_quadrature(tetrahedron, 2)` (basis.py 117), as used by `TET10`. -/
noncomputable def tet10Rule : QuadRule 4 where
  pt := fun q k => if (q : ℕ) = k + 1 then (5 + 3 * Real.sqrt 5) / 20 else (5 - Real.sqrt 5) / 20
  w := fun _ => 1 / 24

theorem shapeVal_tet10 (n : Fin 10) (x : ℕ → ℝ) : shapeVal tet10 n x =
    ![(1 - x 0 - x 1 - x 2) * (2 * (1 - x 0 - x 1 - x 2) - 1), x 0 * (2 * x 0 - 1), x 1 * (2 * x 1 - 1), x 2 * (2 * x 2 - 1), 4 * (1 - x 0 - x 1 - x 2) * x 0, 4 * x 0 * x 1, 4 * (1 - x 0 - x 1 - x 2) * x 1,
      4 * (1 - x 0 - x 1 - x 2) * x 2, 4 * x 0 * x 2, 4 * x 1 * x 2] n := by
  rw [shapeVal_eq "TET10" tet10 getElements_tet10 n (by simp [meshioNodes_TET10]), meshioNodes_TET10]
  fin_cases n <;> simp [tet10, basisFn, bary, List.range_succ] <;> ring

theorem shapeGradRef_tet10 (n : Fin 10) (x : ℕ → ℝ) (b : Fin 3) : shapeGradRef tet10 n x b =
    ![![-(4 * (1 - x 0 - x 1 - x 2) - 1), -(4 * (1 - x 0 - x 1 - x 2) - 1), -(4 * (1 - x 0 - x 1 - x 2) - 1)], ![4 * x 0 - 1, 0, 0], ![0, 4 * x 1 - 1, 0], ![0, 0, 4 * x 2 - 1],
      ![4 * (1 - x 0 - x 1 - x 2) - 4 * x 0, -4 * x 0, -4 * x 0], ![4 * x 1, 4 * x 0, 0], ![-4 * x 1, 4 * (1 - x 0 - x 1 - x 2) - 4 * x 1, -4 * x 1],
      ![-4 * x 2, -4 * x 2, 4 * (1 - x 0 - x 1 - x 2) - 4 * x 2], ![4 * x 2, 0, 4 * x 0], ![0, 4 * x 2, 4 * x 1]] n b := by
  unfold shapeGradRef
  simp only [shapeVal_tet10]
  fin_cases n <;> fin_cases b <;> simp (disch := fun_prop) [Function.update_apply, deriv_fun_mul, deriv_fun_sub, deriv_fun_add] <;> ring

/-- Specification: only the zero affine function of three variables vanishes at all points of the rule. -/
def Spanning3 (rule : QuadRule nq) : Prop := ∀ a b c d : ℝ, (∀ q, a + b * rule.pt q 0 + c * rule.pt q 1 + d * rule.pt q 2 = 0) → a = 0 ∧ b = 0 ∧ c = 0 ∧ d = 0

theorem tet10Rule_spanning : Spanning3 tet10Rule := by
  intro a b c d h
  have hs : 0 < Real.sqrt 5 := by positivity
  set s := Real.sqrt 5 with hsd
  have h0 := h 0
  have h1 := h 1
  have h2 := h 2
  have h3 := h 3
  simp [tet10Rule] at h0 h1 h2 h3
  rw [← hsd] at h0 h1 h2 h3
  have hb : b = 0 := (mul_eq_zero.mp (by linarith : b * s = 0)).resolve_right hs.ne'
  have hc : c = 0 := (mul_eq_zero.mp (by linarith : c * s = 0)).resolve_right hs.ne'
  have hd : d = 0 := (mul_eq_zero.mp (by linarith : d * s = 0)).resolve_right hs.ne'
  rw [hb, hc, hd] at h0
  exact ⟨by linarith, hb, hc, hd⟩

/-- **C86 (no spurious modes, TET10).** If the quadrature points span the affine functions, the quadratic tetrahedron, curved or not, has no spurious modes. -/
theorem C86_modes_tet10 (F : Fem 10 nq nf nfq 3 vec) (rule : QuadRule nq) (ht : CellTables F tet10 rule) (hq : Spanning3 rule) (hdet : ∀ c ∈ F.cells, ∀ q, (F.jacobian c q).det ≠ 0) : F.NoModes := by
  intro c hc w h
  have h0 := fun q b => grad_ref_zero F c q (hdet c hc q) w (h q) b
  simp only [ht.grads, shapeGradRef_tet10, Fin.sum_univ_succ, Fin.sum_univ_zero] at h0
  have hx := hq (-3 * w 0 - w 1 + 4 * w 4) (4 * w 0 + 4 * w 1 - 8 * w 4) (4 * w 0 - 4 * w 4 + 4 * w 5 - 4 * w 6) (4 * w 0 - 4 * w 4 - 4 * w 7 + 4 * w 8) fun q => by
    have := h0 q 0
    simp at this
    linarith
  have hy := hq (-3 * w 0 - w 2 + 4 * w 6) (4 * w 0 - 4 * w 4 + 4 * w 5 - 4 * w 6) (4 * w 0 + 4 * w 2 - 8 * w 6) (4 * w 0 - 4 * w 6 - 4 * w 7 + 4 * w 9) fun q => by
    have := h0 q 1
    simp at this
    linarith
  have hz := hq (-3 * w 0 - w 3 + 4 * w 7) (4 * w 0 - 4 * w 4 - 4 * w 7 + 4 * w 8) (4 * w 0 - 4 * w 6 - 4 * w 7 + 4 * w 9) (4 * w 0 + 4 * w 3 - 8 * w 7) fun q => by
    have := h0 q 2
    simp at this
    linarith
  obtain ⟨x1, x2, x3, x4⟩ := hx
  obtain ⟨y1, y2, y3, y4⟩ := hy
  obtain ⟨z1, z2, z3, z4⟩ := hz
  have e : ∀ a, w a = w 0 := fun a => by
    fin_cases a <;> simp <;> linarith
  intro a b
  rw [e a, e b]

/-! ## The element of the periodic example -/

/-- **C157 (uniqueness for the file).** With the element of the file, `TRI6` (example.py 58), and its quadrature rule there are no spurious modes: the conditions of `C157_unique` hold on every mesh of quadratic triangles with positive volumes that is
connected with the bottom or the top. -/
theorem C157_tri6 (F : Fem 6 3 nf nfq 2 1) (ht : CellTables F tri6 tri6Rule) (hst : ∀ k q A i d, F.stress k q A i d = A i d) (hm : ∀ k q a i, F.massAt k q a i = 0) (hc : Fem.pairs F.cauchy = [])
    (hn : ∀ c ∈ F.cells, ∀ a, c a < F.numTotal) (hv : ∀ c ∈ F.cells, ∀ q, 0 < (F.jacobian c q).det)
    (hconn : ∀ n < F.numTotal, ∃ m < F.numTotal, (pdBottom (F.points m) = true ∨ pdTop 1 (F.points m) = true) ∧ Relation.ReflTransGen F.Adj n m) : PeriodicExample.PoissonMesh F where
  stress := hst
  mass := hm
  cauchy := hc
  nodes := hn
  vol := fun c hc q => by
    unfold Fem.JxW
    rw [ht.weights]
    exact mul_pos (hv c hc q) (by simp [tri6Rule])
  modes := C86_modes_tri6 F _ ht 0 1 2 tri6Rule_points fun c hc q => (hv c hc q).ne'
  conn := hconn

/-- The reference triangle as a mesh: the jacobian is the identity. -/
noncomputable def refTri6 : Fem 6 3 3 2 2 1 := Fem.ofElement 6 3 2 1 tri6 tri6Rule (gaussRule 1) 6 (fun n d => (![![0, 0], ![1, 0], ![0, 1], ![1 / 2, 0], ![1 / 2, 1 / 2], ![0, 1 / 2]] : Fin 6 → Fin 2 → ℝ) (Fin.ofNat 6 n) d) [![0, 1, 2, 3, 4, 5]]

example : refTri6.NoModes := by
  have ht : CellTables refTri6 tri6 tri6Rule := ⟨fun _ _ => rfl, fun _ _ _ => rfl, fun _ => rfl⟩
  refine C86_modes_tri6 refTri6 _ ht 0 1 2 tri6Rule_points fun c hc q => ?_
  have hc' : c = ![0, 1, 2, 3, 4, 5] := List.mem_singleton.mp hc
  subst hc'
  have : refTri6.jacobian ![0, 1, 2, 3, 4, 5] q = 1 := by
    ext d b
    simp only [Fem.jacobian, Fem.coos, ht.grads, Matrix.of_apply, shapeGradRef_tri6, Fin.sum_univ_six]
    fin_cases d <;> fin_cases b <;> simp [refTri6, Fem.ofElement, Fin.ofNat] <;> ring
  rw [this, Matrix.det_one]
  norm_num

end Verif.Fem
