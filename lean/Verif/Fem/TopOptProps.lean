import Verif.Fem.TopOpt

/-!
# C103: compliance and its gradient

Everything here is about the discrete problem the code solves: the work of the tractions equals the elastic energy, more material never makes the body softer, and the gradient which reverse mode through
`ad_wrapper` returns is minus the derivative of the modulus times the energy of the cell.
-/
namespace Verif.Fem
open Finset Filter Topology

variable {nn nq nf nfq dim vec : ℕ}

/-! ## Specification -/

/-- Specification: the traction work on a field, `∫ t · u`, by the quadrature of the faces. -/
noncomputable def tractionWork (F : Fem nn nq nf nfq dim vec) (loc : Loc dim) (t : (Fin dim → ℝ) → Fin vec → ℝ) (u : ℕ → Fin vec → ℝ) : ℝ :=
  ((F.selected loc).map fun p => ∑ q, (∑ i, t (F.xFace p q) i * F.uFace u p q i) * F.nansonScale p.1 p.2 q).sum

/-- Specification: the work `∫_c C(∇u) : ∇v` of the law `C` in one cell. -/
noncomputable def cellWork (F : Fem nn nq nf nfq dim dim) (C : (Fin dim → Fin dim → ℝ) → Fin dim → Fin dim → ℝ) (u v : ℕ → Fin dim → ℝ) (c : Fin nn → ℕ) : ℝ :=
  ∑ q, (∑ i, ∑ d, C (F.gradAt u c q) i d * F.gradAt v c q i d) * F.JxW c q

/-- Specification: `∑ₖ eₖ ∫_cₖ C(∇u) : ∇v`. -/
noncomputable def totalWork (F : Fem nn nq nf nfq dim dim) (C : (Fin dim → Fin dim → ℝ) → Fin dim → Fin dim → ℝ) (e : ℕ → ℝ) (u v : ℕ → Fin dim → ℝ) : ℝ :=
  (F.cells.zipIdx.map fun p => e p.2 * cellWork F C u v p.1).sum

/-- The problem with modulus `e k` in cell `k`. -/
def scaledFem (F : Fem nn nq nf nfq dim dim) (C : (Fin dim → Fin dim → ℝ) → Fin dim → Fin dim → ℝ) (e : ℕ → ℝ) : Fem nn nq nf nfq dim dim :=
  { F with tensorMap := some fun k _ g => e k • C g, lapRows := some F.cells.length, massMap := none, massRows := none }

theorem topFem_eq (F : Fem nn nq nf nfq dim dim) (stress : (Fin dim → Fin dim → ℝ) → (ℕ → ℝ) → Fin dim → Fin dim → ℝ) (E : (ℕ → ℝ) → ℝ) (C : (Fin dim → Fin dim → ℝ) → Fin dim → Fin dim → ℝ)
    (h : ∀ g theta, stress g theta = E theta • C g) (flex : List ℕ) (params : ℕ → ℕ → ℝ) : topFem F stress flex params = scaledFem F C fun k => E (fullParams flex params k) := by
  simp only [topFem, scaledFem, h]

/-- Specification: a mesh with one loaded boundary and nothing else: no volume loads, no Cauchy conditions. -/
structure Loaded (F : Fem nn nq nf nfq dim dim) (loc : Loc dim) (t : (Fin dim → ℝ) → Fin dim → ℝ) : Prop where
  neumann : F.neumann = some ([loc], [fun _ _ => t])
  cauchy : F.cauchy = none
  source : F.source = none
  body : F.bodyVar = none
  mesh : ∀ c ∈ F.cells, ∀ a, c a < F.numTotal
  cells : 0 < F.cells.length
  faces : F.FacesOk loc
  vol : ∀ c ∈ F.cells, ∀ q, 0 < F.JxW c q

/-- **C103 (compliance).** `compute_compliance` returns the traction work on the first Neumann boundary whenever the face Jacobians are invertible, and fails otherwise. -/
theorem C103_compliance (F : Fem nn nq nf nfq dim vec) (loc : Loc dim) (locs vals) (hn : F.neumann = some (loc :: locs, vals)) (t : (Fin dim → ℝ) → Fin vec → ℝ) (sol : ℕ → Fin vec → ℝ) :
    (F.FacesOk loc → computeCompliance F t sol = .ok (tractionWork F loc t sol)) ∧ (¬ F.FacesOk loc → computeCompliance F t sol = .error .singular) := by
  unfold computeCompliance
  rw [hn]
  dsimp only
  rw [selectFaces_boundaryInds]
  constructor
  · intro h
    rw [(getFaceShapeGrads_ok_iff F _ _).mpr ⟨h, rfl⟩]
    show Except.ok _ = Except.ok _
    congr 1
    unfold tractionWork Fem.surfaceQuadPoints
    simp only [List.map_map, List.zip_map']
    congr 1
    refine List.map_congr_left fun p _ => ?_
    simp only [Function.comp]
    refine sum_congr rfl fun q _ => ?_
    rw [sum_mul]
    rfl
  · intro h
    unfold Fem.FacesOk at h
    push Not at h
    unfold Fem.getFaceShapeGrads
    rw [if_pos h]
    rfl

section
variable (F : Fem nn nq nf nfq dim dim) (C : (Fin dim → Fin dim → ℝ) → Fin dim → Fin dim → ℝ)

theorem gradAt_add (u v : ℕ → Fin vec → ℝ) (F : Fem nn nq nf nfq dim vec) (c : Fin nn → ℕ) (q : Fin nq) : F.gradAt (u + v) c q = F.gradAt u c q + F.gradAt v c q := by
  funext i d
  simp [Fem.gradAt, add_mul, sum_add_distrib]

theorem gradAt_smul (a : ℝ) (u : ℕ → Fin vec → ℝ) (F : Fem nn nq nf nfq dim vec) (c : Fin nn → ℕ) (q : Fin nq) : F.gradAt (a • u) c q = a • F.gradAt u c q := by
  funext i d
  simp [Fem.gradAt, mul_sum, mul_assoc]

variable {C} (hC : ElasticLaw C)
include hC

theorem cellWork_add (u v w : ℕ → Fin dim → ℝ) (c : Fin nn → ℕ) : cellWork F C u (v + w) c = cellWork F C u v c + cellWork F C u w c := by
  simp only [cellWork, gradAt_add, Pi.add_apply, mul_add, sum_add_distrib, add_mul]

theorem cellWork_smul (a : ℝ) (u v : ℕ → Fin dim → ℝ) (c : Fin nn → ℕ) : cellWork F C u (a • v) c = a * cellWork F C u v c := by
  simp only [cellWork, gradAt_smul, Pi.smul_apply, smul_eq_mul, mul_sum, sum_mul]
  refine sum_congr rfl fun q _ => sum_congr rfl fun i _ => sum_congr rfl fun d _ => by ring

theorem cellWork_symm (u v : ℕ → Fin dim → ℝ) (c : Fin nn → ℕ) : cellWork F C u v c = cellWork F C v u c := by
  simp only [cellWork]
  exact sum_congr rfl fun q _ => by rw [hC.symm]

theorem cellWork_nonneg (hvol : ∀ q, 0 < F.JxW c q) (u : ℕ → Fin dim → ℝ) : 0 ≤ cellWork F C u u c := sum_nonneg fun q _ => mul_nonneg (hC.nonneg _) (hvol q).le

theorem totalWork_add (e : ℕ → ℝ) (u v w : ℕ → Fin dim → ℝ) : totalWork F C e u (v + w) = totalWork F C e u v + totalWork F C e u w := by
  simp only [totalWork, cellWork_add F hC, mul_add, List.sum_map_add]

theorem totalWork_smul (e : ℕ → ℝ) (a : ℝ) (u v : ℕ → Fin dim → ℝ) : totalWork F C e u (a • v) = a * totalWork F C e u v := by
  simp only [totalWork, cellWork_smul F hC, ← List.sum_map_mul_left]
  congr 1
  exact List.map_congr_left fun p _ => by ring

theorem totalWork_symm (e : ℕ → ℝ) (u v : ℕ → Fin dim → ℝ) : totalWork F C e u v = totalWork F C e v u := by
  simp only [totalWork, fun c => cellWork_symm F hC u v c]

theorem totalWork_nonneg (hvol : ∀ c ∈ F.cells, ∀ q, 0 < F.JxW c q) (e : ℕ → ℝ) (he : ∀ k, 0 ≤ e k) (u : ℕ → Fin dim → ℝ) : 0 ≤ totalWork F C e u u := by
  refine List.sum_nonneg fun x hx => ?_
  obtain ⟨p, hp, rfl⟩ := List.mem_map.mp hx
  exact mul_nonneg (he _) (cellWork_nonneg F hC (hvol _ (zipIdx_mem hp)) u)

theorem totalWork_mono (hvol : ∀ c ∈ F.cells, ∀ q, 0 < F.JxW c q) (e e' : ℕ → ℝ) (he : ∀ k, e k ≤ e' k) (u : ℕ → Fin dim → ℝ) : totalWork F C e u u ≤ totalWork F C e' u u := by
  refine List.sum_le_sum fun p hp => ?_
  exact mul_le_mul_of_nonneg_right (he _) (cellWork_nonneg F hC (hvol _ (zipIdx_mem hp)) u)

omit hC in
/-- The residual of the scaled problem, tested with any field: elastic work minus traction work. -/
theorem balance {loc : Loc dim} {t : (Fin dim → ℝ) → Fin dim → ℝ} (hF : Loaded F loc t) (e : ℕ → ℝ) (u v R : ℕ → Fin dim → ℝ) (h : (scaledFem F C e).computeResidual u = .ok R) :
    ∑ n ∈ range F.numTotal, ∑ i, R n i * v n i = totalWork F C e u v - tractionWork F loc t v := by
  have h1 := C71_virtual_work (scaledFem F C e) hF.mesh u v R h
  have hc : (scaledFem F C e).cauchy = none := hF.cauchy
  have hn : (scaledFem F C e).neumann = some ([loc], [fun _ _ => t]) := hF.neumann
  have hl : ∀ c q i, (scaledFem F C e).load c q i = 0 := by
    intro c q i
    have hs : (scaledFem F C e).source = none := hF.source
    have hb : (scaledFem F C e).bodyVar = none := hF.body
    simp [Fem.load, hs, hb]
  rw [hc, hn] at h1
  refine Eq.trans h1 ?_
  simp only [hl, zero_mul, sum_const_zero, List.map_const', List.sum_replicate, smul_zero, Fem.pairs, Option.elim_none, Option.elim_some, List.map_nil, List.sum_nil, add_zero, sub_zero,
    List.zip_cons_cons, List.zip_nil_left, List.map_cons, List.sum_cons]
  congr 1
  · unfold totalWork
    congr 1
    refine List.map_congr_left fun p _ => ?_
    unfold cellWork
    rw [mul_sum]
    refine sum_congr rfl fun q _ => ?_
    have hm : ∀ i, (scaledFem F C e).massAt p.2 q ((scaledFem F C e).uAt u p.1 q) i = 0 := fun i => rfl
    simp only [hm, zero_mul, sum_const_zero, add_zero]
    rw [← mul_assoc, mul_sum]
    congr 1
    refine sum_congr rfl fun i _ => ?_
    rw [mul_sum]
    refine sum_congr rfl fun d _ => ?_
    rw [← mul_assoc]
    rfl
  · unfold tractionWork
    rw [← zipIdx_fst (F.selected loc), List.map_map]
    rfl

omit hC in
/-- At a solution with zero prescribed values, tested with a field that vanishes where values are prescribed. -/
theorem solves_test {loc : Loc dim} {t : (Fin dim → ℝ) → Fin dim → ℝ} (hF : Loaded F loc t) (e : ℕ → ℝ) (pres : List (ℕ × ℝ)) (u v : ℕ → Fin dim → ℝ) (h : (scaledFem F C e).Solves pres u)
    (hv : ∀ n < F.numTotal, ∀ i : Fin dim, ¬ FreeAt pres (dim * n + i) → v n i = 0) : totalWork F C e u v = tractionWork F loc t v := by
  obtain ⟨R, hR, hs⟩ := h
  have h1 := balance F (C := C) hF e u v R hR
  have h0 : ∑ n ∈ range F.numTotal, ∑ i, R n i * v n i = 0 := by
    refine sum_eq_zero fun n hn => sum_eq_zero fun i _ => ?_
    by_cases hf : FreeAt pres (dim * n + i)
    · rw [(hs n (mem_range.mp hn) i).2 hf, zero_mul]
    · rw [hv n (mem_range.mp hn) i hf, mul_zero]
  linarith

omit hC in
theorem solves_zero (e : ℕ → ℝ) (pres : List (ℕ × ℝ)) (hz : ∀ p ∈ pres, p.2 = 0) (u : ℕ → Fin dim → ℝ) (h : (scaledFem F C e).Solves pres u) :
    ∀ n < F.numTotal, ∀ i : Fin dim, ¬ FreeAt pres (dim * n + i) → u n i = 0 := by
  intro n hn i hf
  obtain ⟨R, -, hs⟩ := h
  rcases free_or_last pres (dim * n + i) with h1 | ⟨v, hv⟩
  · exact absurd h1 hf
  · rw [(hs n hn i).1 v hv]
    obtain ⟨l1, l2, hl, -⟩ := hv
    exact hz (dim * n + i, v) (by rw [hl]; simp)

/-- **C103 (energy).** With zero prescribed displacements the compliance of a solution is the elastic energy stored in the cells (twice the energy in the usual normalisation), so it is not negative. -/
theorem C103_energy {loc : Loc dim} {t : (Fin dim → ℝ) → Fin dim → ℝ} (hF : Loaded F loc t) (e : ℕ → ℝ) (he : ∀ k, 0 ≤ e k) (pres : List (ℕ × ℝ)) (hz : ∀ p ∈ pres, p.2 = 0) (u : ℕ → Fin dim → ℝ)
    (h : (scaledFem F C e).Solves pres u) :
    tractionWork F loc t u = (F.cells.zipIdx.map fun p => e p.2 * cellWork F C u u p.1).sum ∧ 0 ≤ tractionWork F loc t u := by
  have h1 := solves_test F hF e pres u u h (solves_zero F e pres hz u h)
  exact ⟨h1.symm, h1 ▸ totalWork_nonneg F hC hF.vol e he u⟩

/-- Solutions for two sets of moduli: the exact difference of the compliances. -/
theorem compliance_diff {loc : Loc dim} {t : (Fin dim → ℝ) → Fin dim → ℝ} (hF : Loaded F loc t) (e e' : ℕ → ℝ) (pres : List (ℕ × ℝ)) (hz : ∀ p ∈ pres, p.2 = 0) (u u' : ℕ → Fin dim → ℝ)
    (h : (scaledFem F C e).Solves pres u) (h' : (scaledFem F C e').Solves pres u') :
    tractionWork F loc t u' - tractionWork F loc t u = -(F.cells.zipIdx.map fun p => (e' p.2 - e p.2) * cellWork F C u u' p.1).sum := by
  have h1 := solves_test F hF e pres u u' h (solves_zero F e' pres hz u' h')
  have h2 := solves_test F hF e' pres u' u h' (solves_zero F e pres hz u h)
  rw [totalWork_symm F hC] at h2
  rw [← h1, ← h2]
  unfold totalWork
  generalize F.cells.zipIdx = l
  induction l with
  | nil => simp
  | cons p l ih =>
    simp only [List.map_cons, List.sum_cons]
    linear_combination ih

/-- **C103 (more material, stiffer body).** If no modulus decreases, the compliance does not increase. -/
theorem C103_monotone {loc : Loc dim} {t : (Fin dim → ℝ) → Fin dim → ℝ} (hF : Loaded F loc t) (e e' : ℕ → ℝ) (he : ∀ k, 0 ≤ e k) (hle : ∀ k, e k ≤ e' k) (pres : List (ℕ × ℝ)) (hz : ∀ p ∈ pres, p.2 = 0)
    (u u' : ℕ → Fin dim → ℝ) (h : (scaledFem F C e).Solves pres u) (h' : (scaledFem F C e').Solves pres u') : tractionWork F loc t u' ≤ tractionWork F loc t u := by
  have h1 := solves_test F hF e pres u u' h (solves_zero F e' pres hz u' h')
  have h2 := solves_test F hF e pres u u h (solves_zero F e pres hz u h)
  have h3 := solves_test F hF e' pres u' u' h' (solves_zero F e' pres hz u' h')
  have h4 := totalWork_nonneg F hC hF.vol e he (u' + (-1 : ℝ) • u)
  have h5 := totalWork_mono F hC hF.vol e e' hle u'
  rw [totalWork_add F hC, totalWork_smul F hC, totalWork_symm F hC e (u' + (-1 : ℝ) • u) u', totalWork_symm F hC e (u' + (-1 : ℝ) • u) u, totalWork_add F hC, totalWork_smul F hC,
    totalWork_add F hC, totalWork_smul F hC, totalWork_symm F hC e u' u] at h4
  linarith

end

/-! ## Existence and uniqueness of the solutions -/

section
variable [NeZero dim] (F : Fem nn nq nf nfq dim dim) {C : (Fin dim → Fin dim → ℝ) → Fin dim → Fin dim → ℝ} (hC : ElasticLaw C)
include hC

theorem law_zero : C 0 = 0 := by
  have := hC.smul 0 0
  simpa using this

theorem law_sub (A B : Fin dim → Fin dim → ℝ) : C (fun i d => A i d - B i d) = C A - C B := by
  have h1 : (fun i d => A i d - B i d) = A + (-1 : ℝ) • B := by
    funext i d
    simp [sub_eq_add_neg]
  rw [h1, hC.add, hC.smul]
  simp [sub_eq_add_neg]

theorem law_differentiable : Differentiable ℝ C := by
  let L : (Fin dim → Fin dim → ℝ) →ₗ[ℝ] (Fin dim → Fin dim → ℝ) := ⟨⟨C, hC.add⟩, hC.smul⟩
  exact (LinearMap.toContinuousLinearMap L).differentiable

theorem scaled_linear (hc : F.cauchy = none) (e : ℕ → ℝ) : (scaledFem F C e).Linear := by
  refine ⟨fun tm h k q => ?_, fun mm h => by simp [scaledFem] at h, fun lv hlv => ?_⟩
  · have : tm = fun k _ g => e k • C g := (Option.some.inj h).symm
    subst this
    refine ⟨(law_differentiable hC).const_smul (e k), fun x y => ?_⟩
    show e k • C (x + y) + e k • C 0 = e k • C x + e k • C y
    rw [hC.add, law_zero hC, smul_zero, add_zero, smul_add]
  · have : (scaledFem F C e).cauchy = none := hc
    simp [this, Fem.pairs] at hlv

/-- **C103 (uniqueness).** Positive moduli, cells without zero-strain deformations, and all nodes held by the clamped ones: the discrete problem is uniquely solvable. -/
theorem C103_determined {loc : Loc dim} {t : (Fin dim → ℝ) → Fin dim → ℝ} (hF : Loaded F loc t) (e : ℕ → ℝ) (he : ∀ k, 0 < e k) (hrigid : F.RigidModes) (pres : List (ℕ × ℝ))
    (hheld : ∀ n < F.numTotal, F.Held (fun n => n < F.numTotal ∧ ∀ i : Fin dim, ¬ FreeAt pres (dim * n + i)) n) : (scaledFem F C e).Determined pres := by
  have hs : ∀ k q A B, ∑ i, ∑ d, ((scaledFem F C e).stress k q A i d - (scaledFem F C e).stress k q B i d) * (A i d - B i d) = e k * ∑ i, ∑ d, C (fun i d => A i d - B i d) i d * (A i d - B i d) := by
    intro k q A B
    simp only [law_sub hC, mul_sum, Pi.sub_apply]
    refine sum_congr rfl fun i _ => sum_congr rfl fun d _ => ?_
    show (e k * C A i d - e k * C B i d) * (A i d - B i d) = _
    ring
  have hmono : (scaledFem F C e).Monotone := by
    refine ⟨hF.mesh, hF.vol, fun k q A B => ?_, fun k q a b => ?_, fun lv hlv => ?_⟩
    · rw [hs]
      exact mul_nonneg (he k).le (hC.nonneg _)
    · exact le_of_eq (Eq.symm (sum_eq_zero fun i _ => by show (0 - 0) * _ = (0 : ℝ); ring))
    · have : (scaledFem F C e).cauchy = none := hF.cauchy
      simp [this, Fem.pairs] at hlv
  intro u v Ru Rv hu hv hfix hfree
  have hheld' : ∀ n < (scaledFem F C e).numTotal, (scaledFem F C e).Held (fun n => ∀ i : Fin dim, n < F.numTotal ∧ ¬ FreeAt pres (dim * n + i)) n := by
    intro n hn
    have h1 := hheld n hn
    induction h1 with
    | fixed n h => exact .fixed n fun i => ⟨h.1, h.2 i⟩
    | cell c S a hc hS _ hsp ih => exact .cell c S a hc hS (fun b hb => ih b hb (hF.mesh c hc b)) hsp
  intro n hn i
  refine C88_unique (scaledFem F C e) hmono (fun k q A B h i j => ?_) hrigid (fun n i => n < F.numTotal ∧ ¬ FreeAt pres (dim * n + i)) hheld' u v Ru Rv hu hv
    (fun n i h => hfix n h.1 i h.2) (fun n hn i h => hfree n hn i ?_) n hn i
  · rw [hs] at h
    have := hC.strict _ ((mul_eq_zero.mp h).resolve_left (he k).ne') i j
    linarith
  · by_contra hne
    exact h ⟨hn, hne⟩

end
end Verif.Fem
