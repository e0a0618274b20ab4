import Verif.Fem.PoissonDemo
import Verif.Fem.PropsTangent

/-!
# C156: the Poisson problem with a quadratic Cauchy boundary condition (applications/fem/cauchy_bc/example.py)
-/
namespace Verif.Fem.CauchyExample
open Finset Verif.Fem

/-! ## Model -/

/-- `body_force` (example.py 68-72). -/
noncomputable def cbBody : (Fin 2 → ℝ) → ℝ := fun x => x 0 * Real.sin (5 * Real.pi * x 1) + 1 * Real.exp (-((x 0 - 0.5) * (x 0 - 0.5) + (x 1 - 0.5) * (x 1 - 0.5)) / 0.02)

/-- `cauchy_map` (example.py 89-90). -/
def cauchyMap (u : ℝ) : ℝ := 5 * u ^ 2

/-- `LinearPoisson(mesh, 1, 2, 'TRI3', ..., cauchy_bc_info=[[left, right], [cauchy_map]*2], source_info=f)` (example.py 96-99; the location functions of lines 74-78 are those of the Poisson demo) on any mesh of triangles, with any source and
any Cauchy map. -/
noncomputable def cbFem (N : ℕ) (points : ℕ → Fin 2 → ℝ) (cells : List (Fin 3 → ℕ)) (f : (Fin 2 → ℝ) → ℝ) (m : ℝ → ℝ) : Fem 3 1 3 1 2 1 :=
  { Fem.ofElement 3 3 2 1 tri3 (centreRule 2) (centreRule 1) N points cells with
    tensorMap := some fun _ _ => poissonMap
    source := some fun x _ => f x
    cauchy := some ([pdLeft, pdRight 1], [fun u i => m (u i), fun u i => m (u i)]) }

/-- The nodes of `dirichlet_bc_info` (example.py 80-84, 92-94). -/
def Held (points : ℕ → Fin 2 → ℝ) (n : ℕ) : Prop := pdBottom (points n) = true ∨ pdTop 1 (points n) = true

/-! ## Specification -/

/-- A mesh of positively oriented triangles in which every node is connected with a held one. -/
structure TriMesh (N : ℕ) (points : ℕ → Fin 2 → ℝ) (cells : List (Fin 3 → ℕ)) : Prop where
  nonempty : cells ≠ []
  nodes : ∀ c ∈ cells, ∀ a, c a < N
  oriented : ∀ c ∈ cells, 0 < triQuality fun n => points (c n)
  conn : ∀ n < N, ∃ m, Held points m ∧ Relation.ReflTransGen (fun n m => ∃ c ∈ cells, ∃ a b, c a = n ∧ c b = m) n m

/-- The edge `f` of the cell `c` lies on the left or the right side: both its nodes do. -/
def Side (points : ℕ → Fin 2 → ℝ) (c : Fin 3 → ℕ) (f : Fin 3) : Prop :=
  (∀ e, pdLeft (points (c (triFace f e))) = true) ∨ ∀ e, pdRight 1 (points (c (triFace f e))) = true

/-- The mean of the two nodal values is not negative on any edge of the left and right sides. -/
def SideNonneg (points : ℕ → Fin 2 → ℝ) (cells : List (Fin 3 → ℕ)) (u : ℕ → Fin 1 → ℝ) : Prop :=
  ∀ c ∈ cells, ∀ f, Side points c f → 0 ≤ (u (c (triFace f 0)) 0 + u (c (triFace f 1)) 0) / 2

/-- A solution: residual zero at the nodes that are not held, the value one at the others. -/
def Solves (F : Fem 3 1 3 1 2 1) (points : ℕ → Fin 2 → ℝ) (u : ℕ → Fin 1 → ℝ) : Prop :=
  (∀ n, Held points n → u n 0 = 1) ∧ ∃ R, F.computeResidual u = .ok R ∧ ∀ n < F.numTotal, ¬ Held points n → R n 0 = 0

/-! ## Facts on the object -/

section facts
variable {N : ℕ} {points : ℕ → Fin 2 → ℝ} {cells : List (Fin 3 → ℕ)} {f : (Fin 2 → ℝ) → ℝ} {m : ℝ → ℝ}

theorem tables : CellTables (cbFem N points cells f m) tri3 (centreRule 2) := ⟨fun _ _ => rfl, fun _ _ _ => rfl, fun _ => rfl⟩

theorem faces : FaceTables (cbFem N points cells f m) tri3 (centreRule 1) :=
  ⟨fun _ _ _ => rfl, fun _ _ _ _ => rfl, fun _ _ => rfl, fun _ _ => rfl, fun f => by
    show List.map Fin.val (List.filterMap _ _) = _
    revert f
    decide +kernel⟩

theorem det_cell (c : Fin 3 → ℕ) (q : Fin 1) : ((cbFem N points cells f m).jacobian c q).det = triQuality fun n => points (c n) := by
  rw [← det_of_grads_tri3]
  congr 1
  ext i j
  simp only [Fem.jacobian, Fem.coos, tables.grads, Matrix.of_apply, shapeGradRef_tri3]
  rfl

theorem det_face (c : Fin 3 → ℕ) (e : Fin 3) (q : Fin 1) : ((cbFem N points cells f m).faceJacobian c e q).det = triQuality fun n => points (c n) := by
  rw [← det_of_grads_tri3]
  congr 1
  ext i j
  simp only [Fem.faceJacobian, Fem.coos, faces.grads, Matrix.of_apply, shapeGradRef_tri3]
  rfl

theorem JxW_eq (c : Fin 3 → ℕ) (q : Fin 1) : (cbFem N points cells f m).JxW c q = (triQuality fun n => points (c n)) / 2 := by
  unfold Fem.JxW
  rw [det_cell]
  show _ * (centreRule 2).w q = _
  simp [centreRule]
  ring

theorem scale_eq (c : Fin 3 → ℕ) (e : Fin 3) (q : Fin 1) (h : 0 < triQuality fun n => points (c n)) : (cbFem N points cells f m).nansonScale c e q = len (fun d => points (c (triFace e 1)) d - points (c (triFace e 0)) d) := by
  have := (C81_tri3 (cbFem N points cells f m) _ faces (by simp [centreRule]) c e h.ne').2
  rw [Fin.sum_univ_one, sign_pos (show 0 < triQuality fun n => (cbFem N points cells f m).points (c n) from h)] at this
  rw [Subsingleton.elim q 0, this]
  simp
  rfl

/-- The one quadrature point of an edge is its midpoint. -/
theorem uFace_eq (u : ℕ → Fin 1 → ℝ) (c : Fin 3 → ℕ) (e : Fin 3) (q : Fin 1) : (cbFem N points cells f m).uFace u (c, e) q 0 = (u (c (triFace e 0)) 0 + u (c (triFace e 1)) 0) / 2 := by
  have hf : ((e : ℕ)) < (basixFacets tri3.cell).length := e.2
  unfold Fem.uFace
  simp only [faces.vals, shapeVal_tri3, Fin.sum_univ_three, facePoint_affine "TRI3" tri3 getElements_tri3 e hf]
  fin_cases e <;>
  · simp [tri3, cellDim, basixVertices, sum_range_succ, facetBase, facetJacobian, vertexCoord, basixFacets, triFace, centreRule]
    ring

theorem onBoundary_iff (loc : Loc 2) (c : Fin 3 → ℕ) (e : Fin 3) : (cbFem N points cells f m).onBoundary loc c e = true ↔ ∀ k, loc (points (c (triFace e k))) = true := by
  unfold Fem.onBoundary
  rw [faceInds_tri3 _ _ faces e, List.all_eq_true]
  simp only [List.mem_ofFn, forall_exists_index, forall_apply_eq_imp_iff]
  rfl

theorem mem_selected {loc : Loc 2} {p : (Fin 3 → ℕ) × Fin 3} (h : p ∈ (cbFem N points cells f m).selected loc) : p.1 ∈ cells ∧ ∀ k, loc (points (p.1 (triFace p.2 k))) = true := by
  unfold Fem.selected at h
  rw [List.mem_flatMap] at h
  obtain ⟨c, hc, hp⟩ := h
  rw [List.mem_map] at hp
  obtain ⟨e, he, rfl⟩ := hp
  exact ⟨hc, (onBoundary_iff loc c e).mp (List.mem_filter.mp he).2⟩

theorem mem_side {lv : Loc 2 × ((Fin 1 → ℝ) → Fin 1 → ℝ)} (hlv : lv ∈ Fem.pairs (cbFem N points cells f m).cauchy) {p : (Fin 3 → ℕ) × Fin 3} (h : p ∈ (cbFem N points cells f m).selected lv.1) :
    lv.2 = (fun u i => m (u i)) ∧ p.1 ∈ cells ∧ Side points p.1 p.2 := by
  have hlv' : lv ∈ [(pdLeft, fun (u : Fin 1 → ℝ) i => m (u i)), (pdRight 1, fun (u : Fin 1 → ℝ) i => m (u i))] := hlv
  have := mem_selected h
  simp only [List.mem_cons, List.not_mem_nil, or_false] at hlv'
  rcases hlv' with rfl | rfl
  · exact ⟨rfl, this.1, Or.inl this.2⟩
  · exact ⟨rfl, this.1, Or.inr this.2⟩

/-- The residual is always computed. -/
theorem returns (hM : TriMesh N points cells) (u : ℕ → Fin 1 → ℝ) : ∃ R, (cbFem N points cells f m).computeResidual u = .ok R := by
  rw [C13_returns]
  refine ⟨hM.nonempty, fun m hm => (by cases hm), fun m hm => (by cases hm), fun lv hlv => ?_, fun lv hlv => (by cases hlv)⟩
  obtain rfl := Option.some.inj hlv
  refine ⟨by simp, by simp, fun l _ p hp q => ?_⟩
  rw [det_face]
  exact (hM.oriented _ (mem_selected hp).1).ne'

theorem noModes (hM : TriMesh N points cells) : (cbFem N points cells f m).NoModes :=
  C86_modes_tri3 _ _ tables (by norm_num) fun c hc q => by rw [det_cell]; exact (hM.oriented c hc).ne'

theorem len_nonneg (v : Fin 2 → ℝ) : 0 ≤ len v := Real.sqrt_nonneg _

theorem monotone (hM : TriMesh N points cells) (hm : Monotone m) : (cbFem N points cells f m).Monotone where
  mesh := hM.nodes
  vol := fun c hc q => by rw [JxW_eq]; exact half_pos (hM.oriented c hc)
  stress := fun k q A B => sum_nonneg fun i _ => sum_nonneg fun d _ => mul_self_nonneg (A i d - B i d)
  mass := fun k q a b => sum_nonneg fun i _ => by
    show 0 ≤ ((0 : ℝ) - 0) * _
    simp
  cauchy := fun lv hlv => by
    refine ⟨fun a b => ?_, fun p hp q => ?_⟩
    · have hlv' : lv ∈ [(pdLeft, fun (u : Fin 1 → ℝ) i => m (u i)), (pdRight 1, fun (u : Fin 1 → ℝ) i => m (u i))] := hlv
      have h2 : lv.2 = fun (u : Fin 1 → ℝ) i => m (u i) := by
        simp only [List.mem_cons, List.not_mem_nil, or_false] at hlv'
        rcases hlv' with rfl | rfl <;> rfl
      rw [h2]
      refine sum_nonneg fun i _ => ?_
      rcases le_total (a i) (b i) with h | h
      · exact mul_nonneg_of_nonpos_of_nonpos (sub_nonpos.mpr (hm h)) (sub_nonpos.mpr h)
      · exact mul_nonneg (sub_nonneg.mpr (hm h)) (sub_nonneg.mpr h)
    · rw [show p = (p.1, p.2) from rfl, scale_eq _ _ _ (hM.oriented _ (mem_selected hp).1)]
      exact len_nonneg _

/-- Two Cauchy maps that agree at the values on the sides give the same residual. -/
theorem residual_congr {m' : ℝ → ℝ} (u R R' : ℕ → Fin 1 → ℝ) (hR : (cbFem N points cells f m).computeResidual u = .ok R) (hR' : (cbFem N points cells f m').computeResidual u = .ok R')
    (h : ∀ c ∈ cells, ∀ e, Side points c e → m ((u (c (triFace e 0)) 0 + u (c (triFace e 1)) 0) / 2) = m' ((u (c (triFace e 0)) 0 + u (c (triFace e 1)) 0) / 2)) (n : ℕ) (i : Fin 1) : R n i = R' n i := by
  rw [C13_residual _ u R hR n i, C13_residual _ u R' hR' n i]
  congr 1
  congr 1
  congr 1
  have key : ∀ (loc : Loc 2), (∀ c e, (∀ k, loc (points (c (triFace e k))) = true) → Side points c e) →
      (((cbFem N points cells f m).selected loc).map fun p => nodal n p.1 fun a => ∑ q, m ((cbFem N points cells f m).uFace u p q i) * (cbFem N points cells f m).faceShapeVals p.2 q a * (cbFem N points cells f m).nansonScale p.1 p.2 q).sum
      = (((cbFem N points cells f m).selected loc).map fun p => nodal n p.1 fun a => ∑ q, m' ((cbFem N points cells f m).uFace u p q i) * (cbFem N points cells f m).faceShapeVals p.2 q a * (cbFem N points cells f m).nansonScale p.1 p.2 q).sum := by
    intro loc hloc
    refine congrArg List.sum (List.map_congr_left fun p hp => ?_)
    have hp' := mem_selected hp
    congr 1
    funext a
    refine sum_congr rfl fun q _ => ?_
    rw [Subsingleton.elim i 0, show p = (p.1, p.2) from rfl, uFace_eq, h p.1 hp'.1 p.2 (hloc _ _ hp'.2)]
  show (List.map _ [(pdLeft, _), (pdRight 1, _)]).sum = (List.map _ [(pdLeft, _), (pdRight 1, _)]).sum
  simp only [List.map_cons, List.map_nil, List.sum_cons, List.sum_nil]
  exact congrArg₂ (· + ·) (key pdLeft fun c e hk => Or.inl hk) (congrArg (· + 0) (key (pdRight 1) fun c e hk => Or.inr hk))

end facts

/-! ## Uniqueness among the solutions with nonnegative side values -/

section props
variable {N : ℕ} {points : ℕ → Fin 2 → ℝ} {cells : List (Fin 3 → ℕ)} {f : (Fin 2 → ℝ) → ℝ}

/-- **C156 (uniqueness).** On every such mesh and for every source there is at most one solution whose edge means on the left and right sides are not negative. -/
theorem C156_unique (hM : TriMesh N points cells) (u v : ℕ → Fin 1 → ℝ) (hu : Solves (cbFem N points cells f cauchyMap) points u) (hv : Solves (cbFem N points cells f cauchyMap) points v)
    (hu0 : SideNonneg points cells u) (hv0 : SideNonneg points cells v) : ∀ n < N, u n 0 = v n 0 := by
  let m : ℝ → ℝ := fun x => 5 * max x 0 ^ 2
  have hm : Monotone m := fun a b hab => by
    show 5 * max a 0 ^ 2 ≤ 5 * max b 0 ^ 2
    have h1 : max a 0 ≤ max b 0 := max_le_max_right 0 hab
    have h2 : 0 ≤ max a 0 := le_max_right _ _
    nlinarith
  obtain ⟨hu1, Ru, hRu, hu2⟩ := hu
  obtain ⟨hv1, Rv, hRv, hv2⟩ := hv
  obtain ⟨Ru', hRu'⟩ := returns (f := f) (m := m) hM u
  obtain ⟨Rv', hRv'⟩ := returns (f := f) (m := m) hM v
  have eu := residual_congr u Ru Ru' hRu hRu' fun c hc e he => by
    show 5 * _ ^ 2 = 5 * max _ 0 ^ 2
    rw [max_eq_left (hu0 c hc e he)]
  have ev := residual_congr v Rv Rv' hRv hRv' fun c hc e he => by
    show 5 * _ ^ 2 = 5 * max _ 0 ^ 2
    rw [max_eq_left (hv0 c hc e he)]
  intro n hn
  refine C86_unique (cbFem N points cells f m) (monotone hM hm) (fun k q A B hAB => ?_) (noModes hM) (fun n _ => Held points n) (fun n hn i => hM.conn n hn) u v Ru' Rv' hRu' hRv' (fun n i h => ?_) (fun n hn i h => ?_) n hn 0
  · show 0 < ∑ i, ∑ d, (A i d - B i d) * (A i d - B i d)
    refine lt_of_le_of_ne (sum_nonneg fun i _ => sum_nonneg fun d _ => mul_self_nonneg _) fun h0 => hAB ?_
    funext i d
    have h1 := (sum_eq_zero_iff_of_nonneg fun i _ => sum_nonneg fun d _ => mul_self_nonneg _).mp h0.symm i (mem_univ _)
    have h2 := (sum_eq_zero_iff_of_nonneg fun d _ => mul_self_nonneg _).mp h1 d (mem_univ _)
    exact sub_eq_zero.mp (mul_self_eq_zero.mp h2)
  · rw [Subsingleton.elim i 0, hu1 n h, hv1 n h]
  · rw [← eu, ← ev, Subsingleton.elim i 0, hu2 n hn h, hv2 n hn h]

theorem gradAt_line (F : Fem 3 1 3 1 2 1) (s v : ℕ → Fin 1 → ℝ) (t : ℝ) (c : Fin 3 → ℕ) (q : Fin 1) (i : Fin 1) (d : Fin 2) : F.gradAt (s + t • v) c q i d = F.gradAt s c q i d + t * F.gradAt v c q i d := by
  simp only [Fem.gradAt, Pi.add_apply, Pi.smul_apply, smul_eq_mul, mul_sum, ← sum_add_distrib]
  exact sum_congr rfl fun a _ => by ring

theorem uFace_line (F : Fem 3 1 3 1 2 1) (s v : ℕ → Fin 1 → ℝ) (t : ℝ) (p : (Fin 3 → ℕ) × Fin 3) (q : Fin 1) (i : Fin 1) : F.uFace (s + t • v) p q i = F.uFace s p q i + t * F.uFace v p q i := by
  simp only [Fem.uFace, Pi.add_apply, Pi.smul_apply, smul_eq_mul, mul_sum, ← sum_add_distrib]
  exact sum_congr rfl fun a _ => by ring

/-- A field with vanishing gradients that vanishes at the held nodes vanishes. -/
theorem connected (hM : TriMesh N points cells) (m : ℝ → ℝ) (v : ℕ → Fin 1 → ℝ) (hv : ∀ n, Held points n → v n 0 = 0) (hg : ∀ c ∈ cells, ∀ q d, (cbFem N points cells f m).gradAt v c q 0 d = 0) : ∀ n < N, v n 0 = 0 := by
  intro n hn
  obtain ⟨k, hk, hpath⟩ := hM.conn n hn
  have hp : ∀ k, Relation.ReflTransGen (fun n m => ∃ c ∈ cells, ∃ a b, c a = n ∧ c b = m) n k → v n 0 = v k 0 := by
    intro k h
    induction h with
    | refl => rfl
    | tail _ h ih =>
      obtain ⟨c, hc, a, b, rfl, rfl⟩ := h
      exact ih.trans (noModes (f := f) (m := m) hM c hc (fun a => v (c a) 0) (fun q d => hg c hc q d) a b)
  rw [hp k hpath, hv k hk]

theorem listSum_nonneg {α : Type*} (l : List α) (g : α → ℝ) (h : ∀ a ∈ l, 0 ≤ g a) : 0 ≤ (l.map g).sum := List.sum_nonneg fun y hy => by
  obtain ⟨a, ha, rfl⟩ := List.mem_map.mp hy
  exact h a ha

/-- **C156 (tangent).** At every field whose edge means on the sides are not negative, the matrix of `newton_update` is positive definite on the fields that vanish at the held nodes, so that the linear problem of the Newton step has one solution. -/
theorem C156_tangent (hM : TriMesh N points cells) (s R : ℕ → Fin 1 → ℝ) (hs : SideNonneg points cells s) (I J : List ℕ) (V : List ℝ) (h : (cbFem N points cells f cauchyMap).newtonUpdate s = .ok (R, I, J, V))
    (v : ℕ → Fin 1 → ℝ) (hv : ∀ n, Held points n → v n 0 = 0) (hne : ∃ n < N, v n 0 ≠ 0) : 0 < ∑ n ∈ range N, cooMul I J V (fun d => v d 0) n * v n 0 := by
  set F := cbFem N points cells f cauchyMap with hF
  have hpairs : Fem.pairs F.cauchy = [(pdLeft, fun (u : Fin 1 → ℝ) i => cauchyMap (u i)), (pdRight 1, fun (u : Fin 1 → ℝ) i => cauchyMap (u i))] := rfl
  obtain ⟨Rf, hRf, -, hd⟩ := C14_tangent_smooth F (fun tm htm k q => by
      obtain rfl := Option.some.inj htm
      exact differentiable_id) (fun mm hmm => by cases hmm) (fun lv hlv => by
      have h2 : lv.2 = fun (u : Fin 1 → ℝ) i => cauchyMap (u i) := by
        rw [hpairs] at hlv
        simp only [List.mem_cons, List.not_mem_nil, or_false] at hlv
        rcases hlv with rfl | rfl <;> rfl
      rw [h2]
      unfold cauchyMap
      fun_prop) s R I J V h
  have hd' := hd v (fun d => v d 0) fun m j => by rw [Subsingleton.elim j 0]; simp
  have hL : HasDerivAt (fun t : ℝ => ∑ n ∈ range N, ∑ i, Rf (s + t • v) n i * v n i) (∑ n ∈ range N, cooMul I J V (fun d => v d 0) n * v n 0) 0 := by
    have : ∀ n ∈ range N, HasDerivAt (fun t : ℝ => ∑ i, Rf (s + t • v) n i * v n i) (cooMul I J V (fun d => v d 0) n * v n 0) 0 := fun n _ => by
      have := (hd' n 0).mul_const (v n 0)
      simpa using this
    exact HasDerivAt.fun_sum this
  -- the derivative of the work
  let Bc : ℝ := (cells.zipIdx.map fun p => ∑ q, ((∑ i, ∑ d, F.gradAt v p.1 q i d * F.gradAt v p.1 q i d) + 0) * F.JxW p.1 q).sum
  let Bf : ℝ := ((Fem.pairs F.cauchy).map fun lv => ((F.selected lv.1).map fun p => ∑ q, (∑ i, 10 * F.uFace s p q i * F.uFace v p q i * F.uFace v p q i) * F.nansonScale p.1 p.2 q).sum).sum
  have hR : HasDerivAt (fun t : ℝ => ∑ n ∈ range N, ∑ i, Rf (s + t • v) n i * v n i) (Bc + Bf - 0 - 0) 0 := by
    have hw := fun t : ℝ => C71_virtual_work F hM.nodes (s + t • v) v (Rf (s + t • v)) (hRf _)
    refine HasDerivAt.congr_of_eventuallyEq ?_ (Filter.Eventually.of_forall hw)
    refine ((HasDerivAt.add ?_ ?_).sub (hasDerivAt_const _ _)).sub (hasDerivAt_const _ _)
    · refine HasDerivAt.list_sum _ _ _ _ fun p _ => HasDerivAt.fun_sum fun q _ => HasDerivAt.mul_const ?_ _
      refine HasDerivAt.add (HasDerivAt.fun_sum fun i _ => HasDerivAt.fun_sum fun d _ => ?_) ?_
      · show HasDerivAt (fun t : ℝ => F.gradAt (s + t • v) p.1 q i d * F.gradAt v p.1 q i d) _ 0
        simp only [gradAt_line]
        have := (((hasDerivAt_id (0 : ℝ)).mul_const (F.gradAt v p.1 q i d)).const_add (F.gradAt s p.1 q i d)).mul_const (F.gradAt v p.1 q i d)
        simpa using this
      · show HasDerivAt (fun t : ℝ => ∑ i, (0 : ℝ) * F.uAt v p.1 q i) 0 0
        simp only [zero_mul, sum_const_zero]
        exact hasDerivAt_const _ _
    · refine HasDerivAt.list_sum _ _ _ _ fun lv hlv => HasDerivAt.list_sum _ _ _ _ fun p hp => HasDerivAt.fun_sum fun q _ => HasDerivAt.mul_const (HasDerivAt.fun_sum fun i _ => HasDerivAt.mul_const ?_ _) _
      rw [(mem_side hlv hp).1]
      show HasDerivAt (fun t : ℝ => 5 * F.uFace (s + t • v) p q i ^ 2) _ 0
      simp only [uFace_line]
      have := ((((hasDerivAt_id (0 : ℝ)).mul_const (F.uFace v p q i)).const_add (F.uFace s p q i)).pow 2).const_mul 5
      refine this.congr_deriv ?_
      simp
      ring
  rw [hL.unique hR, sub_zero, sub_zero]
  have hBf : 0 ≤ Bf := listSum_nonneg _ _ fun lv hlv => listSum_nonneg _ _ fun p hp => sum_nonneg fun q _ => by
    obtain ⟨-, hc, hside⟩ := mem_side hlv hp
    refine mul_nonneg (sum_nonneg fun i _ => ?_) ?_
    · rw [Subsingleton.elim i 0, mul_assoc]
      refine mul_nonneg (mul_nonneg (by norm_num) ?_) (mul_self_nonneg _)
      rw [show p = (p.1, p.2) from rfl, hF, uFace_eq]
      exact hs _ hc _ hside
    · rw [hF, scale_eq _ _ _ (hM.oriented _ hc)]
      exact len_nonneg _
  have hterm : ∀ p ∈ cells.zipIdx, 0 ≤ ∑ q, ((∑ i, ∑ d, F.gradAt v p.1 q i d * F.gradAt v p.1 q i d) + 0) * F.JxW p.1 q := fun p hp => sum_nonneg fun q _ => by
    have hc : p.1 ∈ cells := zipIdx_mem hp
    have h1 : 0 ≤ ∑ i, ∑ d, F.gradAt v p.1 q i d * F.gradAt v p.1 q i d := sum_nonneg fun i _ => sum_nonneg fun d _ => mul_self_nonneg _
    have h2 : 0 < F.JxW p.1 q := by rw [hF, JxW_eq]; exact half_pos (hM.oriented _ hc)
    rw [add_zero]
    exact mul_nonneg h1 h2.le
  have hBc0 : 0 ≤ Bc := listSum_nonneg _ _ hterm
  have hBc : Bc ≠ 0 := fun h0 => by
    have hz := list_sum_eq_zero _ _ hterm h0
    obtain ⟨n, hn, hvn⟩ := hne
    refine hvn (connected (f := f) hM cauchyMap v hv (fun c hc q d => ?_) n hn)
    obtain ⟨k, hk⟩ := List.getElem?_of_mem hc
    have hmem : (c, k) ∈ cells.zipIdx := List.mem_zipIdx_iff_getElem?.mpr hk
    have h1 := hz _ hmem
    have h2 : 0 < F.JxW c 0 := by rw [hF, JxW_eq]; exact half_pos (hM.oriented _ hc)
    rw [Fin.sum_univ_one, add_zero, Fin.sum_univ_one] at h1
    have h3 := (mul_eq_zero.mp h1).resolve_right h2.ne'
    have h4 := (sum_eq_zero_iff_of_nonneg fun d _ => mul_self_nonneg _).mp h3 d (mem_univ _)
    rw [Subsingleton.elim q 0]
    exact mul_self_eq_zero.mp h4
  have := lt_of_le_of_ne hBc0 hBc.symm
  linarith

end props

/-! ## Two solutions -/

/-- One triangle: `(0, 0)`, `(1, 0)`, `(0, 1/2)`. -/
noncomputable def wPoints (n : ℕ) : Fin 2 → ℝ := if n = 1 then ![1, 0] else if n = 2 then ![0, 1 / 2] else ![0, 0]

@[inherit_doc wPoints]
noncomputable def wFem : Fem 3 1 3 1 2 1 := cbFem 3 wPoints [![0, 1, 2]] (fun _ => 0) cauchyMap

/-- The nodal values: one, and `a` at the third node. -/
noncomputable def wField (a : ℝ) : ℕ → Fin 1 → ℝ := fun n _ => if n = 2 then a else 1

theorem wHeld (n : ℕ) : Held wPoints n ↔ n ≠ 2 := by
  unfold Held pdBottom pdTop
  rw [isclose_iff, isclose_iff]
  by_cases h1 : n = 1
  · subst h1; simp [wPoints]; norm_num
  · by_cases h2 : n = 2
    · subst h2; simp [wPoints]; norm_num
    · simp [wPoints, h1, h2]; norm_num

theorem wMesh : TriMesh 3 wPoints [![0, 1, 2]] where
  nonempty := by simp
  nodes := fun c hc a => by
    rw [List.mem_singleton] at hc
    subst hc
    fin_cases a <;> simp
  oriented := fun c hc => by
    rw [List.mem_singleton] at hc
    subst hc
    simp [triQuality, wPoints]
  conn := fun n hn => ⟨0, (wHeld 0).mpr (by norm_num), Relation.ReflTransGen.single ⟨_, List.mem_singleton.mpr rfl, ⟨n, hn⟩, 0, by
    have : n = 0 ∨ n = 1 ∨ n = 2 := by omega
    rcases this with rfl | rfl | rfl <;> rfl, rfl⟩⟩

theorem wGrad (w : ℕ → Fin 1 → ℝ) (q : Fin 1) : wFem.gradAt w ![0, 1, 2] q 0 0 = w 1 0 - w 0 0 ∧ wFem.gradAt w ![0, 1, 2] q 0 1 = 2 * (w 2 0 - w 0 0) := by
  have hdet : (wFem.jacobian ![0, 1, 2] q).det ≠ 0 := by
    unfold wFem
    rw [det_cell]
    exact (wMesh.oriented _ (List.mem_singleton.mpr rfl)).ne'
  have h := fun a => tri3_affine wFem (centreRule 2) tables ![0, 1, 2] q hdet (fun n => w (![0, 1, 2] n) 0) a
  have hg : ∀ d, (∑ n, w ((![0, 1, 2] : Fin 3 → ℕ) n) 0 * wFem.shapeGrad ![0, 1, 2] q n d) = wFem.gradAt w ![0, 1, 2] q 0 d := fun d => rfl
  simp only [hg, Fin.sum_univ_two] at h
  have h1 := h 1
  have h2 := h 2
  simp [wFem, cbFem, Fem.ofElement, wPoints] at h1 h2
  constructor
  · exact h1.symm
  · change _ = wFem.gradAt w ![0, 1, 2] q 0 1 * _ at h2
    linarith

theorem wLeft (n : ℕ) : pdLeft (wPoints n) = true ↔ n ≠ 1 := by
  unfold pdLeft
  rw [isclose_iff]
  by_cases h1 : n = 1
  · subst h1; simp [wPoints]; norm_num
  · by_cases h2 : n = 2
    · subst h2; simp [wPoints]; norm_num
    · simp [wPoints, h1, h2]; norm_num

theorem wRight (n : ℕ) : pdRight 1 (wPoints n) = true ↔ n = 1 := by
  unfold pdRight
  rw [isclose_iff]
  by_cases h1 : n = 1
  · subst h1; simp [wPoints]; norm_num
  · by_cases h2 : n = 2
    · subst h2; simp [wPoints]; norm_num
    · simp [wPoints, h1, h2]; norm_num

theorem wSelLeft : wFem.selected pdLeft = [(![0, 1, 2], 1)] := by
  have : ∀ e, wFem.onBoundary pdLeft ![0, 1, 2] e = decide (e = 1) := fun e => by
    rw [Bool.eq_iff_iff, wFem, onBoundary_iff, decide_eq_true_iff]
    simp only [wLeft]
    revert e
    decide
  show List.flatMap _ [![0, 1, 2]] = _
  rw [List.flatMap_singleton]
  simp only [this]
  rfl

theorem wSelRight : wFem.selected (pdRight 1) = [] := by
  have : ∀ e, wFem.onBoundary (pdRight 1) ![0, 1, 2] e = false := fun e => by
    rw [← Bool.not_eq_true, wFem, onBoundary_iff]
    simp only [wRight]
    revert e
    decide
  show List.flatMap _ [![0, 1, 2]] = _
  rw [List.flatMap_singleton]
  simp only [this]
  rfl

theorem wResidual (a : ℝ) (R : ℕ → Fin 1 → ℝ) (hR : wFem.computeResidual (wField a) = .ok R) : R 2 0 = a - 1 + 5 / 16 * (1 + a) ^ 2 := by
  have h := C71_virtual_work wFem wMesh.nodes (wField a) (fun n _ => if n = 2 then 1 else 0) R hR
  set v : ℕ → Fin 1 → ℝ := fun n _ => if n = 2 then 1 else 0 with hv
  have e0 : ∑ n ∈ range wFem.numTotal, ∑ i, R n i * v n i = R 2 0 := by
    show ∑ n ∈ range 3, ∑ i, R n i * v n i = R 2 0
    simp [sum_range_succ, hv]
  have hq : (triQuality fun n => wPoints ((![0, 1, 2] : Fin 3 → ℕ) n)) = 1 / 2 := by simp [triQuality, wPoints]
  have e1 : (wFem.cells.zipIdx.map fun p => ∑ q, ((∑ i, ∑ d, wFem.stress p.2 q (wFem.gradAt (wField a) p.1 q) i d * wFem.gradAt v p.1 q i d) + ∑ i, wFem.massAt p.2 q (wFem.uAt (wField a) p.1 q) i * wFem.uAt v p.1 q i) * wFem.JxW p.1 q).sum = a - 1 := by
    show ([((![0, 1, 2] : Fin 3 → ℕ), 0)].map _).sum = _
    rw [List.map_singleton, List.sum_singleton, Fin.sum_univ_one, Fin.sum_univ_one, Fin.sum_univ_one, Fin.sum_univ_two]
    show (wFem.gradAt (wField a) ![0, 1, 2] 0 0 0 * wFem.gradAt v ![0, 1, 2] 0 0 0 + wFem.gradAt (wField a) ![0, 1, 2] 0 0 1 * wFem.gradAt v ![0, 1, 2] 0 0 1 + 0 * wFem.uAt v ![0, 1, 2] 0 0) * wFem.JxW ![0, 1, 2] 0 = _
    rw [(wGrad _ _).1, (wGrad _ _).1, (wGrad _ _).2, (wGrad _ _).2, wFem, JxW_eq, hq]
    simp [wField, hv]
    ring
  have e2 : ((Fem.pairs wFem.cauchy).map fun lv => ((wFem.selected lv.1).map fun p => ∑ q, (∑ i, lv.2 (wFem.uFace (wField a) p q) i * wFem.uFace v p q i) * wFem.nansonScale p.1 p.2 q).sum).sum = 5 / 16 * (1 + a) ^ 2 := by
    show ([(pdLeft, fun (u : Fin 1 → ℝ) i => cauchyMap (u i)), (pdRight 1, fun (u : Fin 1 → ℝ) i => cauchyMap (u i))].map _).sum = _
    rw [List.map_cons, List.map_singleton, List.sum_cons, List.sum_singleton]
    show ((wFem.selected pdLeft).map _).sum + ((wFem.selected (pdRight 1)).map _).sum = _
    rw [wSelLeft, wSelRight, List.map_singleton, List.sum_singleton, List.map_nil, List.sum_nil, Fin.sum_univ_one, Fin.sum_univ_one]
    show cauchyMap (wFem.uFace (wField a) (![0, 1, 2], 1) 0 0) * wFem.uFace v (![0, 1, 2], 1) 0 0 * wFem.nansonScale ![0, 1, 2] 1 0 + 0 = _
    rw [wFem, uFace_eq, uFace_eq, scale_eq _ _ _ (by rw [hq]; norm_num)]
    have hl : len (fun d => wPoints ((![0, 1, 2] : Fin 3 → ℕ) (triFace 1 1)) d - wPoints ((![0, 1, 2] : Fin 3 → ℕ) (triFace 1 0)) d) = 1 / 2 := by
      unfold len
      rw [Fin.sum_univ_two]
      simp [triFace, wPoints]
    rw [hl]
    simp [cauchyMap, triFace, wField, hv]
    ring
  have e3 : (wFem.cells.map fun c => ∑ q, (∑ i, wFem.load c q i * wFem.uAt v c q i) * wFem.JxW c q).sum = 0 := by
    show ([(![0, 1, 2] : Fin 3 → ℕ)].map _).sum = _
    rw [List.map_singleton, List.sum_singleton, Fin.sum_univ_one, Fin.sum_univ_one]
    show (0 * _) * _ = (0 : ℝ)
    ring
  rw [e0, e1, e2, e3] at h
  rw [h]
  show _ - 0 - 0 = _
  ring

theorem wSolves (a : ℝ) (h : a - 1 + 5 / 16 * (1 + a) ^ 2 = 0) : Solves wFem wPoints (wField a) := by
  refine ⟨fun n hn => if_neg ((wHeld n).mp hn), ?_⟩
  obtain ⟨R, hR⟩ := returns (f := fun _ => 0) (m := cauchyMap) wMesh (wField a)
  refine ⟨R, hR, fun n _ hn => ?_⟩
  rw [wHeld, not_not] at hn
  rw [hn, wResidual a R hR, h]

/-- **C156 (second solutions).** The map `5 u²` decreases for negative values: on one triangle without source the problem has two solutions, one with a positive and one with a negative value at the free node. -/
theorem C156_two : ∃ a b : ℝ, 0 < a ∧ b < 0 ∧ Solves wFem wPoints (wField a) ∧ Solves wFem wPoints (wField b) ∧ SideNonneg wPoints [![0, 1, 2]] (wField a) := by
  have h0 : (0 : ℝ) ≤ 7 / 2 := by norm_num
  have hs := Real.sq_sqrt h0
  have h1 : (13 / 8 : ℝ) < Real.sqrt (7 / 2) := Real.lt_sqrt_of_sq_lt (by norm_num)
  refine ⟨8 / 5 * (-1 + Real.sqrt (7 / 2)) - 1, 8 / 5 * (-1 - Real.sqrt (7 / 2)) - 1, by linarith, by linarith, wSolves _ (by nlinarith), wSolves _ (by nlinarith), fun c hc f _ => ?_⟩
  have hpos : ∀ n, 0 ≤ wField (8 / 5 * (-1 + Real.sqrt (7 / 2)) - 1) n 0 := fun n => by
    unfold wField
    by_cases hn : n = 2
    · rw [if_pos hn]; linarith
    · rw [if_neg hn]; norm_num
  exact div_nonneg (add_nonneg (hpos _) (hpos _)) (by norm_num)

/-- The one triangle is such a mesh: with the source of the file (example.py 68-72) there is at most one solution with nonnegative edge means, and without source there is exactly one. -/
example (u v : ℕ → Fin 1 → ℝ) (hu : Solves (cbFem 3 wPoints [![0, 1, 2]] cbBody cauchyMap) wPoints u) (hv : Solves (cbFem 3 wPoints [![0, 1, 2]] cbBody cauchyMap) wPoints v)
    (hu0 : SideNonneg wPoints [![0, 1, 2]] u) (hv0 : SideNonneg wPoints [![0, 1, 2]] v) : u 2 0 = v 2 0 :=
  C156_unique wMesh u v hu hv hu0 hv0 2 (by norm_num)

example : ∃ a, ∀ u, Solves wFem wPoints u → SideNonneg wPoints [![0, 1, 2]] u → u 2 0 = a := by
  obtain ⟨a, _, -, -, ha, -, ha0⟩ := C156_two
  exact ⟨a, fun u hu hu0 => (C156_unique wMesh u _ hu ha hu0 ha0 2 (by norm_num)).trans (if_pos rfl)⟩

end Verif.Fem.CauchyExample
