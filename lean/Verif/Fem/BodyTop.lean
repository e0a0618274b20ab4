import Verif.Fem.FlexTop

/-!
# C161: topology optimisation under a body force (applications/fem/aesthetic/bridge.py)

The bridge carries a body force in a horizontal band of solid material; the density lives in the cells outside the band, and the compliance is the work of the body force.
-/
namespace Verif.Fem.BodyTop
open Verif.Fem Verif.Fem.FlexTop Finset Filter Topology

variable {nn nq nf nfq dim m : ℕ}

/-! ## Model -/

/-- `compute_compliance` (bridge.py 69-74). Without source function a `None` is called (`unpack` here). -/
noncomputable def bodyCompliance (F : Fem nn nq nf nfq dim dim) (sol : ℕ → Fin dim → ℝ) : Except FemErr ℝ :=
  match F.source with
  | none => .error .unpack
  | some body_force_fn =>
    let body_force := F.quadPoints.map fun x q => body_force_fn (x q)
    let sol_quads := F.convertFromDofToQuad sol
    .ok ((F.cells.zip (body_force.zip sol_quads)).map fun p => ∑ q, ∑ i, p.2.1 q i * p.2.2 q i * F.JxW p.1 q).sum

/-- `J_total` (bridge.py 117-122) as a function of the flat solution vector. -/
noncomputable def bodyObj (F : Fem nn nq nf nfq dim dim) (s : ℕ → ℝ) : ℝ := match bodyCompliance F (fun n i => s (dim * n + i)) with
  | .ok v => v
  | .error _ => 0

/-- The stress of `get_tensor_map` (bridge.py 41-57): plane stress with modulus `E = Emin + (Emax - Emin) theta³`, `Emax = 1e3`. -/
noncomputable def bridgeStress (u_grad : Fin 2 → Fin 2 → ℝ) (theta : ℕ → ℝ) : Fin 2 → Fin 2 → ℝ := planeStress (simpModulus (1e-3 * 1e3) 1e3 3 (theta 0)) 0.3 u_grad

/-- The band of `body_force` and `flex_location` (bridge.py 99, 108). -/
noncomputable def band (Ly : ℝ) (point : Fin 2 → ℝ) : Bool := open Classical in decide (0.3 * Ly ≤ point 1) && decide (point 1 ≤ 0.4 * Ly)

/-- `body_force` (bridge.py 98-102). -/
noncomputable def bodyForce (Ly : ℝ) (point : Fin 2 → ℝ) : Fin 2 → ℝ := ![0, if band Ly point then -1e2 else 0]

/-- `flex_location` (bridge.py 107-108). -/
noncomputable def bridgeFlex (Ly : ℝ) (point : Fin 2 → ℝ) : Bool := !band Ly point

/-! ## Specification -/

/-- Specification: a mesh with a body force and no other load. -/
structure Bodied (F : Fem nn nq nf nfq dim dim) (b : (Fin dim → ℝ) → Fin dim → ℝ) : Prop where
  neumann : F.neumann = none
  cauchy : F.cauchy = none
  source : F.source = some b
  body : F.bodyVar = none
  mesh : ∀ c ∈ F.cells, ∀ a, c a < F.numTotal
  cells : 0 < F.cells.length
  vol : ∀ c ∈ F.cells, ∀ q, 0 < F.JxW c q

/-- Specification: the work `∫ b · u` of the body force, by the quadrature of the cells. -/
noncomputable def bodyWork (F : Fem nn nq nf nfq dim dim) (b : (Fin dim → ℝ) → Fin dim → ℝ) (u : ℕ → Fin dim → ℝ) : ℝ := (F.cells.map fun c => ∑ q, (∑ i, b (F.xAt c q) i * F.uAt u c q i) * F.JxW c q).sum

/-! ## The work of the body force -/

/-- **C161 (compliance).** With a source function the compliance of the program is the work of the body force, whatever the mesh and the field; without source function it raises. -/
theorem C161_compliance (F : Fem nn nq nf nfq dim dim) (sol : ℕ → Fin dim → ℝ) :
    (∀ b, F.source = some b → bodyCompliance F sol = .ok (bodyWork F b sol)) ∧ (F.source = none → bodyCompliance F sol = .error .unpack) := by
  constructor
  · intro b hb
    unfold bodyCompliance
    rw [hb]
    dsimp only
    congr 1
    unfold bodyWork Fem.quadPoints Fem.convertFromDofToQuad
    have h : F.cells = F.cells.map id := (List.map_id _).symm
    rw [List.map_map]
    conv_lhs => enter [1, 2, 1]; rw [h]
    rw [List.zip_map', List.zip_map', List.map_map]
    congr 1
    refine List.map_congr_left fun c _ => ?_
    refine sum_congr rfl fun q _ => ?_
    rw [sum_mul]
    rfl
  · intro hb
    unfold bodyCompliance
    rw [hb]

section
variable (F : Fem nn nq nf nfq dim dim) {b : (Fin dim → ℝ) → Fin dim → ℝ}

theorem bodyWork_add (u v : ℕ → Fin dim → ℝ) : bodyWork F b (u + v) = bodyWork F b u + bodyWork F b v := by
  unfold bodyWork
  rw [← List.sum_map_add]
  congr 1
  refine List.map_congr_left fun c _ => ?_
  rw [← sum_add_distrib]
  refine sum_congr rfl fun q _ => ?_
  rw [← add_mul, ← sum_add_distrib]
  congr 1
  refine sum_congr rfl fun i _ => ?_
  simp only [Fem.uAt, Pi.add_apply, add_mul, sum_add_distrib, mul_add]

theorem bodyWork_smul (a : ℝ) (u : ℕ → Fin dim → ℝ) : bodyWork F b (a • u) = a * bodyWork F b u := by
  unfold bodyWork
  rw [← List.sum_map_mul_left]
  congr 1
  refine List.map_congr_left fun c _ => ?_
  rw [mul_sum]
  refine sum_congr rfl fun q _ => ?_
  rw [← mul_assoc, mul_sum]
  congr 1
  refine sum_congr rfl fun i _ => ?_
  simp only [Fem.uAt, Pi.smul_apply, smul_eq_mul, mul_sum]
  exact sum_congr rfl fun n _ => by ring

variable {C : (Fin dim → Fin dim → ℝ) → Fin dim → Fin dim → ℝ} (hF : Bodied F b)

include hF in
/-- The residual tested with any field: elastic work minus the work of the body force. -/
theorem balance (e : ℕ → ℝ) (u v R : ℕ → Fin dim → ℝ) (h : (scaledFem F C e).computeResidual u = .ok R) :
    ∑ n ∈ range F.numTotal, ∑ i, R n i * v n i = totalWork F C e u v - bodyWork F b v := by
  have h1 := C71_virtual_work (scaledFem F C e) hF.mesh u v R h
  have hc : (scaledFem F C e).cauchy = none := hF.cauchy
  have hn : (scaledFem F C e).neumann = none := hF.neumann
  have hl : ∀ c q i, (scaledFem F C e).load c q i = b (F.xAt c q) i := by
    intro c q i
    have hs : (scaledFem F C e).source = some b := hF.source
    have hb : (scaledFem F C e).bodyVar = none := hF.body
    simp only [Fem.load, hs, hb]
    rfl
  rw [hc, hn] at h1
  refine Eq.trans h1 ?_
  simp only [hl, Fem.pairs, Option.elim_none, List.map_nil, List.sum_nil, add_zero, sub_zero]
  congr 1
  unfold totalWork
  congr 1
  refine List.map_congr_left fun p _ => ?_
  unfold cellWork
  rw [mul_sum]
  refine sum_congr rfl fun q _ => ?_
  have hm : ∀ i, (scaledFem F C e).massAt p.2 q ((scaledFem F C e).uAt u p.1 q) i = 0 := fun i => rfl
  simp only [hm, zero_mul, sum_const_zero, add_zero]
  rw [← mul_assoc, mul_sum]
  congr 1
  refine sum_congr rfl fun i _ => ?_
  rw [mul_sum]
  refine sum_congr rfl fun d _ => ?_
  rw [← mul_assoc]
  rfl

include hF in
theorem solves_test (e : ℕ → ℝ) (pres : List (ℕ × ℝ)) (u v : ℕ → Fin dim → ℝ) (h : (scaledFem F C e).Solves pres u)
    (hv : ∀ n < F.numTotal, ∀ i : Fin dim, ¬ FreeAt pres (dim * n + i) → v n i = 0) : totalWork F C e u v = bodyWork F b v := by
  obtain ⟨R, hR, hs⟩ := h
  have h1 := balance F (C := C) hF e u v R hR
  have h0 : ∑ n ∈ range F.numTotal, ∑ i, R n i * v n i = 0 := by
    refine sum_eq_zero fun n hn => sum_eq_zero fun i _ => ?_
    by_cases hf : FreeAt pres (dim * n + i)
    · rw [(hs n (mem_range.mp hn) i).2 hf, zero_mul]
    · rw [hv n (mem_range.mp hn) i hf, mul_zero]
  linarith

variable (hC : ElasticLaw C)
include hC hF

theorem energy (e : ℕ → ℝ) (he : ∀ k, 0 ≤ e k) (pres : List (ℕ × ℝ)) (hz : ∀ p ∈ pres, p.2 = 0) (u : ℕ → Fin dim → ℝ) (h : (scaledFem F C e).Solves pres u) : 0 ≤ bodyWork F b u := by
  have h1 := solves_test F hF e pres u u h (solves_zero F e pres hz u h)
  exact h1 ▸ totalWork_nonneg F hC hF.vol e he u

theorem diff (e e' : ℕ → ℝ) (pres : List (ℕ × ℝ)) (hz : ∀ p ∈ pres, p.2 = 0) (u u' : ℕ → Fin dim → ℝ) (h : (scaledFem F C e).Solves pres u) (h' : (scaledFem F C e').Solves pres u') :
    bodyWork F b u' - bodyWork F b u = -(F.cells.zipIdx.map fun p => (e' p.2 - e p.2) * cellWork F C u u' p.1).sum := by
  have h1 := solves_test F hF e pres u u' h (solves_zero F e' pres hz u' h')
  have h2 := solves_test F hF e' pres u' u h' (solves_zero F e pres hz u h)
  rw [totalWork_symm F hC] at h2
  rw [← h1, ← h2]
  unfold totalWork
  generalize F.cells.zipIdx = l
  induction l with
  | nil => simp
  | cons p l ih =>
    simp only [List.map_cons, List.sum_cons]
    linear_combination ih

theorem monotone (e e' : ℕ → ℝ) (he : ∀ k, 0 ≤ e k) (hle : ∀ k, e k ≤ e' k) (pres : List (ℕ × ℝ)) (hz : ∀ p ∈ pres, p.2 = 0) (u u' : ℕ → Fin dim → ℝ) (h : (scaledFem F C e).Solves pres u)
    (h' : (scaledFem F C e').Solves pres u') : bodyWork F b u' ≤ bodyWork F b u := by
  have h1 := solves_test F hF e pres u u' h (solves_zero F e' pres hz u' h')
  have h2 := solves_test F hF e pres u u h (solves_zero F e pres hz u h)
  have h3 := solves_test F hF e' pres u' u' h' (solves_zero F e' pres hz u' h')
  have h4 := totalWork_nonneg F hC hF.vol e he (u' + (-1 : ℝ) • u)
  have h5 := totalWork_mono F hC hF.vol e e' hle u'
  rw [totalWork_add F hC, totalWork_smul F hC, totalWork_symm F hC e (u' + (-1 : ℝ) • u) u', totalWork_symm F hC e (u' + (-1 : ℝ) • u) u, totalWork_add F hC, totalWork_smul F hC,
    totalWork_add F hC, totalWork_smul F hC, totalWork_symm F hC e u' u] at h4
  linarith

end

/-! ## The linear systems -/

section
variable [NeZero dim] (F : Fem nn nq nf nfq dim dim) {b : (Fin dim → ℝ) → Fin dim → ℝ} {C : (Fin dim → Fin dim → ℝ) → Fin dim → Fin dim → ℝ} (hF : Bodied F b) (hC : ElasticLaw C)

omit [NeZero dim] in
include hF in
theorem returns (e : ℕ → ℝ) (u : ℕ → Fin dim → ℝ) : (scaledFem F C e).computeResidual u = .ok fun n i => (scaledFem F C e).cellSum u n i - F.bodySum n i := by
  refine (computeResidual_ok_iff _ _ _).mpr ⟨⟨hF.cells, rfl, rfl⟩, ?_, ?_, ?_⟩
  · intro locs vals h
    have : (scaledFem F C e).cauchy = none := hF.cauchy
    rw [this] at h
    cases h
  · intro locs vals h
    have : (scaledFem F C e).neumann = none := hF.neumann
    rw [this] at h
    cases h
  · funext n i
    have hc : (scaledFem F C e).cauchy = none := hF.cauchy
    have hn : (scaledFem F C e).neumann = none := hF.neumann
    simp only [Fem.faceSum, hc, Fem.neumannSum, hn, add_zero, sub_zero]
    rfl

include hF hC in
theorem newton (groups : List (Group ℝ)) (e : (Fin m → ℝ) → ℕ → ℝ) (q : Fin m → ℝ) (x : ℕ → ℝ) :
    ((scaledFem F C (e q)).toProb groups).newton x = .ok ⟨fun d => cooMul (Fem.cooI dim F.cells) (Fem.cooJ dim F.cells) ((tripletFns F C e).map (· q)) x d -
      F.bodySum (d / dim) (Fin.ofNat dim d), Fem.cooI dim F.cells, Fem.cooJ dim F.cells, (tripletFns F C e).map (· q), fun d => ((F.bodyForceFn) + F.neumannSum) (d / dim) (Fin.ofNat dim d)⟩ ∧
    ∃ R, (scaledFem F C (e q)).computeResidual (fun n i => x (dim * n + i)) = .ok R ∧
      ∀ d, R (d / dim) (Fin.ofNat dim d) = cooMul (Fem.cooI dim F.cells) (Fem.cooJ dim F.cells) ((tripletFns F C e).map (· q)) x d - F.bodySum (d / dim) (Fin.ofNat dim d) := by
  obtain ⟨I, J, V, f, load, hJ, hnew, hres⟩ := C87_affine (scaledFem F C (e q)) (scaled_linear F hC hF.cauchy (e q)) groups hF.mesh ⟨0, _, returns F hF (e q) 0⟩
  have hc : (scaledFem F C (e q)).cauchy = none := hF.cauchy
  have h0 : (scaledFem F C (e q)).newtonUpdate 0 = .ok (fun n i => (scaledFem F C (e q)).cellSum 0 n i - F.bodySum n i, Fem.cooI dim F.cells, Fem.cooJ dim F.cells, Fem.cooV ((scaledFem F C (e q)).cellJacs 0)) := by
    refine (newtonUpdate_ok_iff _ _ _ _ _ _).mpr ⟨returns F hF (e q) 0, ?_, ?_, ?_⟩
    · rw [hc]; simp only [Fem.pairs, Option.elim_none, List.flatMap_nil]; simp [Fem.cooI, scaledFem]
    · rw [hc]; simp only [Fem.pairs, Option.elim_none, List.flatMap_nil]; simp [Fem.cooJ, scaledFem]
    · rw [hc]; simp only [Fem.pairs, Option.elim_none, List.flatMap_nil]; simp [Fem.cooV]
  have hneu : (scaledFem F C (e q)).neumannIntegral = .ok F.neumannSum := by
    obtain ⟨-, -, hn, -⟩ := (computeResidual_ok_iff _ _ _).mp (returns F hF (e q) 0)
    exact (neumannIntegral_ok_iff _ _).mpr ⟨hn, rfl⟩
  have hb : (scaledFem F C (e q)).bodyVar = none := hF.body
  have h1 := hnew 0
  simp only [Fem.toProb] at h1
  rw [show (fun (n : ℕ) (i : Fin dim) => (0 : ℕ → ℝ) (dim * n + i)) = 0 from rfl, h0, hneu, hb] at h1
  have h2 := Except.ok.inj h1
  simp only [Newton.mk.injEq] at h2
  obtain ⟨k1, k2, k3, k4, k5⟩ := h2
  have hf : f = fun d => F.bodySum (d / dim) (Fin.ofNat dim d) := by
    funext d
    have h3 := congrFun k1 d
    rw [cellSum_zero F hC] at h3
    have h4 : cooMul I J V 0 d = 0 := by
      unfold cooMul
      refine List.sum_eq_zero fun y hy => ?_
      obtain ⟨p, -, rfl⟩ := List.mem_map.mp hy
      simp
    rw [h4] at h3
    linarith
  subst hf
  subst k2 k3 k4 k5
  rw [triplets_eq]
  refine ⟨hnew x, ?_⟩
  obtain ⟨R, hR, hRv⟩ := hres x
  refine ⟨R, hR, fun d => ?_⟩
  have h5 := hRv (d / dim) (Fin.ofNat dim d)
  rwa [show dim * (d / dim) + (Fin.ofNat dim d : ℕ) = d from Nat.div_add_mod d dim] at h5

/-- The family of linear problems. -/
noncomputable def family (hF : Bodied F b) (hC : ElasticLaw C) (groups : List (Group ℝ)) (hwf : ((scaledFem F C fun _ => 1).toProb groups).WF) (e : (Fin m → ℝ) → ℕ → ℝ) (p : Fin m → ℝ)
    (he : ∀ k, ContDiffAt ℝ 1 (fun q => e q k) p) : LinearFamily (densityProb F C groups e) (F.numTotal * dim) p where
  I := Fem.cooI dim F.cells
  J := Fem.cooJ dim F.cells
  V := tripletFns F C e
  f := fun _ d => F.bodySum (d / dim) (Fin.ofNat dim d)
  load := fun _ d => (F.bodyForceFn + F.neumannSum) (d / dim) (Fin.ofNat dim d)
  size _ := rfl
  wf q := wf_congr ((scaledFem F C fun _ => 1).toProb groups) ((scaledFem F C (e q)).toProb groups) (by rw [toProb_vec, toProb_vec]) (by rw [toProb_groups, toProb_groups]) hwf
  cols := cooJ_mem _ _ hF.mesh
  res q x d := by
    obtain ⟨R, h1, h2⟩ := (newton F hF hC groups e q x).2
    show (match (scaledFem F C (e q)).computeResidual (fun n i => x (dim * n + i)) with | .ok R => _ | .error _ => _) = _
    rw [h1]
    exact h2 d
  newton q x := (newton F hF hC groups e q x).1
  smoothV := by
    intro v hv
    unfold tripletFns at hv
    simp only [List.mem_flatMap, List.mem_map] at hv
    obtain ⟨k, -, n, -, i, -, n', -, i', -, rfl⟩ := hv
    exact (he k.2).mul contDiffAt_const
  smoothF _ _ := contDiffAt_const
  pres d _ := by
    rcases free_or_last ((scaledFem F C fun _ => 1).toProb groups).prescriptions d with h | ⟨v, h⟩
    · refine .inl fun q => ?_
      rw [show ((densityProb F C groups e).prob q).prescriptions = _ from prescriptions_scaled F groups (e q) fun _ => 1]
      exact h
    · refine .inr ⟨fun _ => v, contDiffAt_const, fun q => ?_⟩
      rw [show ((densityProb F C groups e).prob q).prescriptions = _ from prescriptions_scaled F groups (e q) fun _ => 1]
      exact h

include hF hC in
theorem family_determined (groups : List (Group ℝ)) (hwf : ((scaledFem F C fun _ => 1).toProb groups).WF) (e : (Fin m → ℝ) → ℕ → ℝ) (p : Fin m → ℝ)
    (he : ∀ k, ContDiffAt ℝ 1 (fun q => e q k) p) (hdet : (scaledFem F C (e p)).Determined ((scaledFem F C fun _ => 1).toProb groups).prescriptions) :
    (family F hF hC groups hwf e p he).Determined p := by
  have hpre : ((densityProb F C groups e).prob p).prescriptions = ((scaledFem F C fun _ => 1).toProb groups).prescriptions := prescriptions_scaled F groups (e p) fun _ => 1
  intro x hx d hd
  obtain ⟨n, hn, i, rfl⟩ := dof_exists (vec := dim) F.numTotal d hd
  obtain ⟨-, R, hR, hRv⟩ := newton F hF hC groups e p x
  obtain ⟨-, R0, hR0, hRv0⟩ := newton F hF hC groups e p 0
  have hpos : 0 < dim := Nat.pos_of_ne_zero (NeZero.ne dim)
  have hdiv : ∀ n (i : Fin dim), (dim * n + i) / dim = n := fun n i => by rw [Nat.mul_add_div hpos, Nat.div_eq_of_lt i.isLt, add_zero]
  have hmod : ∀ n (i : Fin dim), Fin.ofNat dim (dim * n + i) = i := fun n i => Fin.ext (by simp [Fin.ofNat, Nat.mul_add_mod, Nat.mod_eq_of_lt i.isLt])
  refine hdet _ _ R R0 hR hR0 (fun n hn i hf => ?_) (fun n hn i hf => ?_) n hn i
  · rcases free_or_last ((scaledFem F C fun _ => 1).toProb groups).prescriptions (dim * n + i) with h | ⟨v, h⟩
    · exact absurd h hf
    · exact ((family F hF hC groups hwf e p he).op_last p x _ v (by rw [hpre]; exact h)).symm.trans (hx _ (dof_lt _ n hn i))
  · have h1 := ((family F hF hC groups hwf e p he).op_free p x _ (by rw [hpre]; exact hf)).symm.trans (hx _ (dof_lt _ n hn i))
    have h2 := hRv (dim * n + i)
    have h3 := hRv0 (dim * n + i)
    rw [hdiv, hmod] at h2 h3
    have h4 : cooMul (Fem.cooI dim F.cells) (Fem.cooJ dim F.cells) ((tripletFns F C e).map (· p)) 0 (dim * n + i) = 0 := by
      unfold cooMul
      refine List.sum_eq_zero fun y hy => ?_
      obtain ⟨p, -, rfl⟩ := List.mem_map.mp hy
      simp
    have h5 : cooMul (Fem.cooI dim F.cells) (Fem.cooJ dim F.cells) ((tripletFns F C e).map (· p)) x (dim * n + i) = 0 := h1
    rw [h2, h3, h4, h5]

include hF hC in
/-- Zeros of the modified residual are solutions. -/
theorem con_solves (groups : List (Group ℝ)) (hwf : ((scaledFem F C fun _ => 1).toProb groups).WF) (e : (Fin m → ℝ) → ℕ → ℝ) (q : Fin m → ℝ) (x : Fin (F.numTotal * dim) → ℝ)
    (h : ∀ d : Fin (F.numTotal * dim), (densityProb F C groups e).con (ext x) q d = 0) :
    (scaledFem F C (e q)).Solves ((scaledFem F C fun _ => 1).toProb groups).prescriptions (unflat dim x) := by
  obtain ⟨-, R, hR, hRv⟩ := newton F hF hC groups e q (ext x)
  have hpre : ((densityProb F C groups e).prob q).prescriptions = ((scaledFem F C fun _ => 1).toProb groups).prescriptions := prescriptions_scaled F groups (e q) fun _ => 1
  have hwfq : ((densityProb F C groups e).prob q).WF := wf_congr ((scaledFem F C fun _ => 1).toProb groups) ((scaledFem F C (e q)).toProb groups) (by rw [toProb_vec, toProb_vec]) (by rw [toProb_groups, toProb_groups]) hwf
  have hpos : 0 < dim := Nat.pos_of_ne_zero (NeZero.ne dim)
  have hdiv : ∀ n (i : Fin dim), (dim * n + i) / dim = n := fun n i => by rw [Nat.mul_add_div hpos, Nat.div_eq_of_lt i.isLt, add_zero]
  have hmod : ∀ n (i : Fin dim), Fin.ofNat dim (dim * n + i) = i := fun n i => Fin.ext (by simp [Fin.ofNat, Nat.mul_add_mod, Nat.mod_eq_of_lt i.isLt])
  refine ⟨R, hR, fun n hn i => ⟨fun v hv => ?_, fun hf => ?_⟩⟩
  · have h1 := h ⟨dim * n + i, dof_lt _ n hn i⟩
    have h2 : (densityProb F C groups e).con (ext x) q (dim * n + i) = ext x (dim * n + i) + -v := (C19_components realArith _ hwfq _ _ _).1 v (by rw [hpre]; exact hv)
    rw [h2] at h1
    show ext x (dim * n + i) = v
    linarith
  · have h1 := h ⟨dim * n + i, dof_lt _ n hn i⟩
    have h2 : (densityProb F C groups e).con (ext x) q (dim * n + i) = (densityProb F C groups e).res q (ext x) (dim * n + i) := (C19_components realArith _ hwfq _ _ _).2 (by rw [hpre]; exact hf)
    have h3 : (densityProb F C groups e).res q (ext x) (dim * n + i) = R ((dim * n + i) / dim) (Fin.ofNat dim (dim * n + i)) := by
      show (match (scaledFem F C (e q)).computeResidual (fun n i => ext x (dim * n + i)) with | .ok R => _ | .error _ => _) = _
      rw [hR]
    rw [h2, h3, hdiv, hmod] at h1
    exact h1

omit [NeZero dim] in
include hF in
theorem bodyObj_eq (s : ℕ → ℝ) : bodyObj F s = bodyWork F b fun n i => s (dim * n + i) := by
  unfold bodyObj
  rw [(C161_compliance F _).1 b hF.source]

include hF hC in
/-- Positive moduli, cells without zero-strain deformations, and all nodes held by the clamped ones: the discrete problem is uniquely solvable. -/
theorem determined (e : ℕ → ℝ) (he : ∀ k, 0 < e k) (hrigid : F.RigidModes) (pres : List (ℕ × ℝ))
    (hheld : ∀ n < F.numTotal, F.Held (fun n => n < F.numTotal ∧ ∀ i : Fin dim, ¬ FreeAt pres (dim * n + i)) n) : (scaledFem F C e).Determined pres := by
  have hs : ∀ k q A B, ∑ i, ∑ d, ((scaledFem F C e).stress k q A i d - (scaledFem F C e).stress k q B i d) * (A i d - B i d) = e k * ∑ i, ∑ d, C (fun i d => A i d - B i d) i d * (A i d - B i d) := by
    intro k q A B
    simp only [law_sub hC, mul_sum, Pi.sub_apply]
    refine sum_congr rfl fun i _ => sum_congr rfl fun d _ => ?_
    show (e k * C A i d - e k * C B i d) * (A i d - B i d) = _
    ring
  have hmono : (scaledFem F C e).Monotone := by
    refine ⟨hF.mesh, hF.vol, fun k q A B => ?_, fun k q a b => ?_, fun lv hlv => ?_⟩
    · rw [hs]
      exact mul_nonneg (he k).le (hC.nonneg _)
    · exact le_of_eq (Eq.symm (sum_eq_zero fun i _ => by show (0 - 0) * _ = (0 : ℝ); ring))
    · have : (scaledFem F C e).cauchy = none := hF.cauchy
      simp [this, Fem.pairs] at hlv
  intro u v Ru Rv hu hv hfix hfree
  have hheld' : ∀ n < (scaledFem F C e).numTotal, (scaledFem F C e).Held (fun n => ∀ i : Fin dim, n < F.numTotal ∧ ¬ FreeAt pres (dim * n + i)) n := by
    intro n hn
    have h1 := hheld n hn
    induction h1 with
    | fixed n h => exact .fixed n fun i => ⟨h.1, h.2 i⟩
    | cell c S a hc hS _ hsp ih => exact .cell c S a hc hS (fun b hb => ih b hb (hF.mesh c hc b)) hsp
  intro n hn i
  refine C88_unique (scaledFem F C e) hmono (fun k q A B h i j => ?_) hrigid (fun n i => n < F.numTotal ∧ ¬ FreeAt pres (dim * n + i)) hheld' u v Ru Rv hu hv
    (fun n i h => hfix n h.1 i h.2) (fun n hn i h => hfree n hn i ?_) n hn i
  · rw [hs] at h
    have := hC.strict _ ((mul_eq_zero.mp h).resolve_left (he k).ne') i j
    linarith
  · by_contra hne
    exact h ⟨hn, hne⟩

include hF hC in
/-- **C161 (gradient, any moduli).** As C104, for the work of a body force: forward solve, reverse mode and the derivative of the compliance; its entries need no adjoint solution. -/
theorem C161_moduli (groups : List (Group ℝ)) (hwf : ((scaledFem F C fun _ => 1).toProb groups).WF) (hz : ∀ p ∈ ((scaledFem F C fun _ => 1).toProb groups).prescriptions, p.2 = 0)
    (e : (Fin m → ℝ) → ℕ → ℝ) (p : Fin m → ℝ) (he : ∀ k, ContDiffAt ℝ 1 (fun q => e q k) p)
    (hdet : (scaledFem F C (e p)).Determined ((scaledFem F C fun _ => 1).toProb groups).prescriptions) (lin : ℕ → LinCall ℝ → ℕ → ℝ) (hlin : ExactLin (F.numTotal * dim) lin) (usePetsc : Bool) (fuel : ℕ) :
    ∃ (u : ℕ → ℝ) (g : Fin m → ℝ), (densityProb F C groups e).fwdPred lin true usePetsc fuel p = .ok u ∧
      (scaledFem F C (e p)).Solves ((scaledFem F C fun _ => 1).toProb groups).prescriptions (fun n i => u (dim * n + i)) ∧
      (densityProb F C groups e).revGrad lin true usePetsc fuel (bodyObj F) p = .ok g ∧
      HasFDerivAt ((densityProb F C groups e).objective lin true usePetsc fuel (bodyObj F)) (∑ j, g j • (ContinuousLinearMap.proj j : (Fin m → ℝ) →L[ℝ] ℝ)) p ∧
      ∀ j, g j = -(F.cells.zipIdx.map fun c => fderiv ℝ (fun q => e q c.2) p (Pi.single j 1) * cellWork F C (fun n i => u (dim * n + i)) (fun n i => u (dim * n + i)) c.1).sum := by
  set L := family F hF hC groups hwf e p he with hL
  have hd : L.Determined p := family_determined F hF hC groups hwf e p he hdet
  obtain ⟨u, h1, h2, hsol⟩ := L.C94_linear hd lin hlin usePetsc fuel
  have hJ : Differentiable ℝ fun x : Fin (F.numTotal * dim) → ℝ => bodyObj F (ext x) := by
    have := linear_unflat (N := F.numTotal * dim) (bodyWork F b) (bodyWork_add F) (bodyWork_smul F)
    have heq : (fun x : Fin (F.numTotal * dim) → ℝ => bodyObj F (ext x)) = fun x => bodyWork F b (unflat dim x) := by
      funext x
      exact bodyObj_eq F hF (ext x)
    rw [heq]
    exact this
  obtain ⟨g, hg1, hg2⟩ := L.C94_gradient hd lin hlin usePetsc fuel (bodyObj F) hJ
  have hS : ∀ᶠ q in 𝓝 p, (scaledFem F C (e q)).Solves ((scaledFem F C fun _ => 1).toProb groups).prescriptions (unflat dim (u q)) := by
    filter_upwards [hsol.zero] with q hq
    exact con_solves F hF hC groups hwf e q (u q) hq
  have hSp := hS.self_of_nhds
  refine ⟨ext (u p), g, h2, hSp, hg1, hg2, fun j => ?_⟩
  have hobj : (densityProb F C groups e).objective lin true usePetsc fuel (bodyObj F) =ᶠ[𝓝 p]
      fun q => bodyWork F b (unflat dim (u p)) - (F.cells.zipIdx.map fun c => (e q c.2 - e p c.2) * cellWork F C (unflat dim (u p)) (unflat dim (u q)) c.1).sum := by
    filter_upwards [h1, hS] with q hq hSq
    have h3 := diff F hF hC (e p) (e q) _ hz _ _ hSp hSq
    unfold ParamProb.objective
    rw [hq]
    show bodyObj F (ext (u q)) = _
    rw [bodyObj_eq F hF]
    have h4 : bodyWork F b (fun n i => ext (u q) (dim * n + i)) = bodyWork F b (unflat dim (u q)) := rfl
    rw [h4]
    linarith
  have hder : HasFDerivAt (fun q => bodyWork F b (unflat dim (u p)) - (F.cells.zipIdx.map fun c => (e q c.2 - e p c.2) * cellWork F C (unflat dim (u p)) (unflat dim (u q)) c.1).sum)
      (-(F.cells.zipIdx.map fun c => cellWork F C (unflat dim (u p)) (unflat dim (u p)) c.1 • fderiv ℝ (fun q => e q c.2) p).sum) p := by
    refine HasFDerivAt.const_sub ?_ (bodyWork F b (unflat dim (u p)))
    refine list_hasFDerivAt _ (fun (c : (Fin nn → ℕ) × ℕ) q => (e q c.2 - e p c.2) * cellWork F C (unflat dim (u p)) (unflat dim (u q)) c.1) _ p fun c _ => ?_
    have k1 : HasFDerivAt (fun q => e q c.2 - e p c.2) (fderiv ℝ (fun q => e q c.2) p) p := ((he c.2).differentiableAt (by norm_num)).hasFDerivAt.sub_const _
    have k2 : DifferentiableAt ℝ (fun q => cellWork F C (unflat dim (u p)) (unflat dim (u q)) c.1) p :=
      DifferentiableAt.comp p (g := fun x => cellWork F C (unflat dim (u p)) (unflat dim x) c.1)
        ((linear_unflat (fun v => cellWork F C (unflat dim (u p)) v c.1) (fun v w => cellWork_add F hC _ v w c.1) (fun a v => cellWork_smul F hC a _ v c.1)) (u p)) hsol.diffU
    have k3 := k1.fun_mul k2.hasFDerivAt
    simpa using k3
  have h5 := hg2.unique (hder.congr_of_eventuallyEq hobj)
  have h6 := congrArg (fun T : (Fin m → ℝ) →L[ℝ] ℝ => T (Pi.single j 1)) h5
  simp only [_root_.sum_apply, smul_apply, ContinuousLinearMap.proj_apply, neg_apply, list_clm_apply, smul_eq_mul, Pi.single_apply, mul_ite, mul_one, mul_zero,
    sum_ite_eq', mem_univ, if_true] at h6
  rw [h6]
  congr 2
  refine List.map_congr_left fun c _ => ?_
  rw [mul_comm]
  rfl

end

/-! ## One density per flexible cell -/

theorem position (flex : List ℕ) (hnd : flex.Nodup) (k j : ℕ) (hj : j < flex.length) : flex.idxOf k = j ↔ k = flex[j] := by
  constructor
  · intro h
    have h9 : flex.idxOf k < flex.length := by rw [h]; exact hj
    have h10 := List.getElem_idxOf h9
    simp only [h] at h10
    exact h10.symm
  · intro h
    rw [h]
    exact hnd.idxOf_getElem _ hj

section
variable [NeZero dim] (F : Fem nn nq nf nfq dim dim) {b : (Fin dim → ℝ) → Fin dim → ℝ} {C : (Fin dim → Fin dim → ℝ) → Fin dim → Fin dim → ℝ}
  {stress : (Fin dim → Fin dim → ℝ) → (ℕ → ℝ) → Fin dim → Fin dim → ℝ} {Emin Emax : ℝ} {penal : ℕ}
  (hlaw : DensityLaw stress (fun theta => simpModulus Emin Emax penal (theta 0)) C Emin Emax) (hF : Bodied F b) (flex : List ℕ) (hnd : flex.Nodup)

include hlaw hF hnd in
/-- **C161 (gradient).** Densities `p j ≥ 0` in the cells `flex`, full material elsewhere, a clamped body under a body force: the forward solve returns the discrete solution, reverse mode the derivative of the
work of the body force, and entry `j` is `-penal·(Emax - Emin)·p_j^(penal-1)` times the elastic work (for modulus one) in cell `flex[j]`, never positive. -/
theorem C161_gradient (hE : Emin ≤ Emax) (groups : List (Group ℝ)) (hcl : Clamped F groups) (hlen : flex.length = m) (hin : ∀ k ∈ flex, k < F.cells.length) (p : Fin m → ℝ) (hp : ∀ j, 0 ≤ p j)
    (lin : ℕ → LinCall ℝ → ℕ → ℝ) (hlin : ExactLin (F.numTotal * dim) lin) (usePetsc : Bool) (fuel : ℕ) :
    ∃ (u : ℕ → ℝ) (g : Fin m → ℝ), (flexProb F stress groups flex m).fwdPred lin true usePetsc fuel p = .ok u ∧
      (topFem F stress flex (rowParams p)).Solves (F.toProb groups).prescriptions (fun n i => u (dim * n + i)) ∧
      (flexProb F stress groups flex m).revGrad lin true usePetsc fuel (bodyObj F) p = .ok g ∧
      HasFDerivAt ((flexProb F stress groups flex m).objective lin true usePetsc fuel (bodyObj F)) (∑ j, g j • (ContinuousLinearMap.proj j : (Fin m → ℝ) →L[ℝ] ℝ)) p ∧
      ∀ j : Fin m, g j = -(penal * (Emax - Emin) * p j ^ (penal - 1) * cellWork F C (fun n i => u (dim * n + i)) (fun n i => u (dim * n + i))
        (F.cells[flex[j]'(by rw [hlen]; exact j.isLt)]'(hin _ (List.getElem_mem _)))) ∧ g j ≤ 0 := by
  set e : (Fin m → ℝ) → ℕ → ℝ := fun q k => simpE Emin Emax penal q (flex.idxOf k) with he
  have hpre : ∀ e : ℕ → ℝ, ((scaledFem F C e).toProb groups).prescriptions = (F.toProb groups).prescriptions := scaled_pres F groups
  have hdet : (scaledFem F C (e p)).Determined ((scaledFem F C fun _ => 1).toProb groups).prescriptions := by
    rw [hpre]
    exact determined F hF hlaw.law _ (fun k => simpE_pos hlaw p hp hE _) hcl.rigid _ hcl.held
  obtain ⟨u, g, h1, h2, h3, h4, h5⟩ := C161_moduli F hF hlaw.law groups (wf_congr _ _ (by rw [toProb_vec, toProb_vec]) (by rw [toProb_groups, toProb_groups]) hcl.wf)
    (by rw [hpre]; exact hcl.zero) e p (fun k => simpE_smooth p _) hdet lin hlin usePetsc fuel
  rw [flexProb_eq F hlaw flex hnd hlen, flexFem_eq F hlaw flex hnd hlen]
  rw [hpre] at h2
  refine ⟨u, g, h1, h2, h3, h4, fun j => ?_⟩
  have hj : (j : ℕ) < flex.length := by rw [hlen]; exact j.isLt
  have hc : flex[(j : ℕ)] < F.cells.length := hin _ (List.getElem_mem _)
  have h6 : g j = -(penal * (Emax - Emin) * p j ^ (penal - 1) * cellWork F C (fun n i => u (dim * n + i)) (fun n i => u (dim * n + i)) F.cells[flex[(j : ℕ)]]) := by
    rw [h5 j]
    congr 1
    have h7 := zipIdx_single F.cells (fun c => penal * (Emax - Emin) * p j ^ (penal - 1) * cellWork F C (fun n i => u (dim * n + i)) (fun n i => u (dim * n + i)) c) 0 flex[(j : ℕ)] hc
    rw [zero_add] at h7
    rw [← h7]
    congr 1
    refine List.map_congr_left fun c _ => ?_
    rw [he]
    simp only [simpE_fderiv]
    have h8 := position flex hnd c.2 j hj
    by_cases h9 : c.2 = flex[(j : ℕ)]
    · rw [if_pos (h8.mpr h9), if_pos h9]
    · rw [if_neg fun h => h9 (h8.mp h), if_neg h9, zero_mul]
  refine ⟨h6, ?_⟩
  rw [h6, neg_nonpos]
  exact mul_nonneg (mul_nonneg (mul_nonneg (Nat.cast_nonneg _) (by linarith)) (pow_nonneg (hp j) _)) (cellWork_nonneg F hlaw.law (hF.vol _ (List.getElem_mem hc)) _)

include hlaw hF hnd in
/-- **C161 (bounds).** More density never increases the work of the body force, so it lies between the values of the full and of the empty design. -/
theorem C161_bounds (hE : Emin ≤ Emax) (groups : List (Group ℝ)) (hcl : Clamped F groups) (hlen : flex.length = m) (hin : ∀ k ∈ flex, k < F.cells.length) (p : Fin m → ℝ) (hp : ∀ j, 0 ≤ p j)
    (lin : ℕ → LinCall ℝ → ℕ → ℝ) (hlin : ExactLin (F.numTotal * dim) lin) (usePetsc : Bool) (fuel : ℕ) :
    let J := (flexProb F stress groups flex m).objective lin true usePetsc fuel (bodyObj F)
    0 ≤ J p ∧ (∀ p' : Fin m → ℝ, (∀ j, p j ≤ p' j) → J p' ≤ J p) ∧ J p ≤ J (fun _ => 0) ∧ ((∀ j, p j ≤ 1) → J (fun _ => 1) ≤ J p) := by
  intro J
  have key : ∀ p p' : Fin m → ℝ, (∀ j, 0 ≤ p j) → (∀ j, p j ≤ p' j) → 0 ≤ J p ∧ J p' ≤ J p := by
    intro p p' hp hle
    have hp' : ∀ j, 0 ≤ p' j := fun j => (hp j).trans (hle j)
    obtain ⟨u, g, h1, h2, -⟩ := C161_gradient F hlaw hF flex hnd hE groups hcl hlen hin p hp lin hlin usePetsc fuel
    obtain ⟨u', g', h1', h2', -⟩ := C161_gradient F hlaw hF flex hnd hE groups hcl hlen hin p' hp' lin hlin usePetsc fuel
    rw [flexFem_eq F hlaw flex hnd hlen] at h2 h2'
    have h3 := monotone F hF hlaw.law _ _ (fun k => (simpE_pos hlaw p hp hE _).le) (fun k => simpE_mono p p' hp hle hE _) _ hcl.zero _ _ h2 h2'
    have h4 := energy F hF hlaw.law _ (fun k => (simpE_pos hlaw p hp hE _).le) _ hcl.zero _ h2
    show 0 ≤ ParamProb.objective _ _ _ _ _ _ _ ∧ ParamProb.objective _ _ _ _ _ _ _ ≤ ParamProb.objective _ _ _ _ _ _ _
    unfold ParamProb.objective
    rw [h1, h1']
    show 0 ≤ bodyObj F u ∧ bodyObj F u' ≤ bodyObj F u
    rw [bodyObj_eq F hF, bodyObj_eq F hF]
    exact ⟨h4, h3⟩
  exact ⟨(key p p hp fun _ => le_refl _).1, fun p' h => (key p p' hp h).2, (key (fun _ => 0) p (fun _ => le_refl _) hp).2, fun h => (key p (fun _ => 1) hp h).2⟩

end
end Verif.Fem.BodyTop
