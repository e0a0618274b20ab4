import Verif.Fem.TopOptProps

/-!
# C104: the gradient of the compliance returned by reverse mode through `ad_wrapper`
-/
namespace Verif.Fem
open Finset Filter Topology

variable {nn nq nf nfq dim vec m : ℕ}

/-- The parametrised problem seen by `ad_wrapper` (solver.py 929-948): `set_params` gives cell `k` the modulus `e q k`; `compute_residual` is the residual of core.py. -/
noncomputable def densityProb [NeZero dim] (F : Fem nn nq nf nfq dim dim) (C : (Fin dim → Fin dim → ℝ) → Fin dim → Fin dim → ℝ) (groups : List (Group ℝ)) (e : (Fin m → ℝ) → ℕ → ℝ) :
    ParamProb m FemErr where
  prob q := (scaledFem F C (e q)).toProb groups
  res q x d := match (scaledFem F C (e q)).computeResidual (fun n i => x (dim * n + i)) with
    | .ok R => R (d / dim) (Fin.ofNat dim d)
    | .error _ => 0

section
variable [NeZero dim] (F : Fem nn nq nf nfq dim dim) {C : (Fin dim → Fin dim → ℝ) → Fin dim → Fin dim → ℝ} (hC : ElasticLaw C)
  {loc : Loc dim} {t : (Fin dim → ℝ) → Fin dim → ℝ} (hF : Loaded F loc t)

include hF in
theorem scaled_returns (e : ℕ → ℝ) (u : ℕ → Fin dim → ℝ) :
    (scaledFem F C e).computeResidual u = .ok fun n i => (scaledFem F C e).cellSum u n i - F.neumannSum n i := by
  refine (computeResidual_ok_iff _ _ _).mpr ⟨⟨hF.cells, rfl, rfl⟩, ?_, ?_, ?_⟩
  · intro locs vals h
    have : (scaledFem F C e).cauchy = none := hF.cauchy
    rw [this] at h
    cases h
  · intro locs vals h
    have : (scaledFem F C e).neumann = some ([loc], [fun _ _ => t]) := hF.neumann
    rw [this] at h
    cases h
    refine ⟨fun l hl => ?_, le_refl _⟩
    rw [List.mem_singleton.mp hl]
    exact hF.faces
  · funext n i
    have hc : (scaledFem F C e).cauchy = none := hF.cauchy
    have hs : (scaledFem F C e).source = none := hF.source
    have hb : (scaledFem F C e).bodyVar = none := hF.body
    simp only [Fem.faceSum, hc, Fem.bodySum, hs, hb, add_zero, sub_zero]
    rfl

/-- The triplet values as functions of the parameters: the modulus of the cell times the entry for modulus one. -/
noncomputable def tripletFns (F : Fem nn nq nf nfq dim dim) (C : (Fin dim → Fin dim → ℝ) → Fin dim → Fin dim → ℝ) (e : (Fin m → ℝ) → ℕ → ℝ) : List ((Fin m → ℝ) → ℝ) :=
  F.cells.zipIdx.flatMap fun p => (List.finRange nn).flatMap fun n => (List.finRange dim).flatMap fun i => (List.finRange nn).flatMap fun n' => (List.finRange dim).map fun i' =>
    fun q => e q p.2 * jacOf ((scaledFem F C fun _ => 1).kernel ((scaledFem F C fun _ => 1).cellRow p.2 p.1 0)) (fun _ => 0) n i n' i'

theorem kernel_scaled (e : ℕ → ℝ) (k : ℕ) (c : Fin nn → ℕ) (x : Fin nn → Fin dim → ℝ) :
    (scaledFem F C e).kernel ((scaledFem F C e).cellRow k c 0) x = e k • (scaledFem F C fun _ => 1).kernel ((scaledFem F C fun _ => 1).cellRow k c 0) x := by
  funext n i
  show Fem.laplaceKernel (fun _ g => e k • C g) x (F.shapeGrad c) (F.vGradsJxW c) n i + 0 = e k * (Fem.laplaceKernel (fun _ g => (1 : ℝ) • C g) x (F.shapeGrad c) (F.vGradsJxW c) n i + 0)
  simp only [Fem.laplaceKernel, add_zero, mul_sum, Pi.smul_apply, smul_eq_mul, one_mul, mul_assoc]

theorem triplets_eq (e : (Fin m → ℝ) → ℕ → ℝ) (q : Fin m → ℝ) : (tripletFns F C e).map (· q) = Fem.cooV ((scaledFem F C (e q)).cellJacs 0) := by
  have hj : ∀ p : (Fin nn → ℕ) × ℕ, jacOf ((scaledFem F C (e q)).kernel ((scaledFem F C (e q)).cellRow p.2 p.1 0)) (fun _ => 0) =
      fun n i n' i' => e q p.2 * jacOf ((scaledFem F C fun _ => 1).kernel ((scaledFem F C fun _ => 1).cellRow p.2 p.1 0)) (fun _ => 0) n i n' i' := by
    intro p
    funext n i n' i'
    have : (scaledFem F C (e q)).kernel ((scaledFem F C (e q)).cellRow p.2 p.1 0) = e q p.2 • (scaledFem F C fun _ => 1).kernel ((scaledFem F C fun _ => 1).cellRow p.2 p.1 0) := by
      funext x
      exact kernel_scaled F (e q) p.2 p.1 x
    simp only [jacOf]
    rw [this, fderiv_const_smul_field]
    rfl
  unfold tripletFns Fem.cooV Fem.cellJacs
  rw [List.flatMap_map]
  simp only [List.map_flatMap, List.map_map]
  refine List.flatMap_congr fun p _ => List.flatMap_congr fun n _ => List.flatMap_congr fun i _ => List.flatMap_congr fun n' _ => List.map_congr_left fun i' _ => ?_
  have := congrFun (congrFun (congrFun (congrFun (hj p) n) i) n') i'
  exact this.symm

include hC in
theorem cellSum_zero (e : ℕ → ℝ) (n : ℕ) (i : Fin dim) : (scaledFem F C e).cellSum 0 n i = 0 := by
  unfold Fem.cellSum
  refine List.sum_eq_zero fun x hx => ?_
  obtain ⟨p, -, rfl⟩ := List.mem_map.mp hx
  refine sum_eq_zero fun a _ => ?_
  have h0 : (scaledFem F C e).kernel ((scaledFem F C e).cellRow p.2 p.1 0) (fun n => (0 : ℕ → Fin dim → ℝ) (p.1 n)) a i = 0 := by
    show Fem.laplaceKernel (fun _ g => e p.2 • C g) (fun _ => 0) (F.shapeGrad p.1) (F.vGradsJxW p.1) a i + 0 = 0
    have hg : ∀ q, (fun (i' : Fin dim) (d' : Fin dim) => ∑ n', (fun _ : Fin nn => (0 : Fin dim → ℝ)) n' i' * F.shapeGrad p.1 q n' d') = 0 := by
      intro q
      funext i' d'
      simp
    have h1 : ∀ q, C (fun (i' : Fin dim) (d' : Fin dim) => ∑ n', (fun _ : Fin nn => (0 : Fin dim → ℝ)) n' i' * F.shapeGrad p.1 q n' d') = 0 := fun q => by rw [hg, law_zero hC]
    rw [add_zero]
    unfold Fem.laplaceKernel
    refine sum_eq_zero fun q _ => sum_eq_zero fun d _ => ?_
    have h2 := congrFun (congrFun (h1 q) i) d
    show e p.2 * C (fun (i' : Fin dim) (d' : Fin dim) => ∑ n', (fun _ : Fin nn => (0 : Fin dim → ℝ)) n' i' * F.shapeGrad p.1 q n' d') i d * _ = 0
    rw [h2]
    simp
  rw [h0]
  split_ifs <;> rfl

include hC hF in
/-- What `newton_update` returns: the triplets with the stated values, and the residual of the matrix and the tractions. -/
theorem newton_eq (groups : List (Group ℝ)) (e : (Fin m → ℝ) → ℕ → ℝ) (q : Fin m → ℝ) (x : ℕ → ℝ) :
    ((scaledFem F C (e q)).toProb groups).newton x = .ok ⟨fun d => cooMul (Fem.cooI dim F.cells) (Fem.cooJ dim F.cells) ((tripletFns F C e).map (· q)) x d -
      F.neumannSum (d / dim) (Fin.ofNat dim d), Fem.cooI dim F.cells, Fem.cooJ dim F.cells, (tripletFns F C e).map (· q), fun d => ((F.bodyForceFn) + F.neumannSum) (d / dim) (Fin.ofNat dim d)⟩ ∧
    ∃ R, (scaledFem F C (e q)).computeResidual (fun n i => x (dim * n + i)) = .ok R ∧
      ∀ d, R (d / dim) (Fin.ofNat dim d) = cooMul (Fem.cooI dim F.cells) (Fem.cooJ dim F.cells) ((tripletFns F C e).map (· q)) x d - F.neumannSum (d / dim) (Fin.ofNat dim d) := by
  obtain ⟨I, J, V, f, load, hJ, hnew, hres⟩ := C87_affine (scaledFem F C (e q)) (scaled_linear F hC hF.cauchy (e q)) groups hF.mesh ⟨0, _, scaled_returns F hF (e q) 0⟩
  have hc : (scaledFem F C (e q)).cauchy = none := hF.cauchy
  have h0 : (scaledFem F C (e q)).newtonUpdate 0 = .ok (fun n i => (scaledFem F C (e q)).cellSum 0 n i - F.neumannSum n i, Fem.cooI dim F.cells, Fem.cooJ dim F.cells, Fem.cooV ((scaledFem F C (e q)).cellJacs 0)) := by
    refine (newtonUpdate_ok_iff _ _ _ _ _ _).mpr ⟨scaled_returns F hF (e q) 0, ?_, ?_, ?_⟩
    · rw [hc]; simp only [Fem.pairs, Option.elim_none, List.flatMap_nil]; simp [Fem.cooI, scaledFem]
    · rw [hc]; simp only [Fem.pairs, Option.elim_none, List.flatMap_nil]; simp [Fem.cooJ, scaledFem]
    · rw [hc]; simp only [Fem.pairs, Option.elim_none, List.flatMap_nil]; simp [Fem.cooV]
  have hneu : (scaledFem F C (e q)).neumannIntegral = .ok F.neumannSum := by
    obtain ⟨-, -, hn, -⟩ := (computeResidual_ok_iff _ _ _).mp (scaled_returns F hF (e q) 0)
    exact (neumannIntegral_ok_iff _ _).mpr ⟨hn, rfl⟩
  have hb : (scaledFem F C (e q)).bodyVar = none := hF.body
  have h1 := hnew 0
  simp only [Fem.toProb] at h1
  rw [show (fun (n : ℕ) (i : Fin dim) => (0 : ℕ → ℝ) (dim * n + i)) = 0 from rfl, h0, hneu, hb] at h1
  have h2 := Except.ok.inj h1
  simp only [Newton.mk.injEq] at h2
  obtain ⟨k1, k2, k3, k4, k5⟩ := h2
  have hf : f = fun d => F.neumannSum (d / dim) (Fin.ofNat dim d) := by
    funext d
    have h3 := congrFun k1 d
    rw [cellSum_zero F hC] at h3
    have h4 : cooMul I J V 0 d = 0 := by
      unfold cooMul
      refine List.sum_eq_zero fun y hy => ?_
      obtain ⟨p, -, rfl⟩ := List.mem_map.mp hy
      simp
    rw [h4] at h3
    linarith
  subst hf
  subst k2 k3 k4 k5
  rw [triplets_eq]
  refine ⟨hnew x, ?_⟩
  obtain ⟨R, hR, hRv⟩ := hres x
  refine ⟨R, hR, fun d => ?_⟩
  have h5 := hRv (d / dim) (Fin.ofNat dim d)
  rwa [show dim * (d / dim) + (Fin.ofNat dim d : ℕ) = d from Nat.div_add_mod d dim] at h5

theorem prescriptions_congr {E E' : Type} (P : Prob ℝ E) (P' : Prob ℝ E') (hv : P.vec = P'.vec) (hg : P.groups = P'.groups) : P.prescriptions = P'.prescriptions := by
  unfold Prob.prescriptions Prob.idx
  rw [hv, hg]

theorem wf_congr {E E' : Type} (P : Prob ℝ E) (P' : Prob ℝ E') (hv : P.vec = P'.vec) (hg : P.groups = P'.groups) (h : P.WF) : P'.WF := by
  unfold Prob.WF Prob.idx at h ⊢
  rw [← hv, ← hg]
  exact h

theorem toProb_vec (F : Fem nn nq nf nfq dim dim) (groups : List (Group ℝ)) : (F.toProb groups).vec = dim := rfl

theorem toProb_groups (F : Fem nn nq nf nfq dim dim) (groups : List (Group ℝ)) : (F.toProb groups).groups = groups := rfl

/-- The prescribed values do not depend on the moduli. -/
theorem prescriptions_scaled (groups : List (Group ℝ)) (e e' : ℕ → ℝ) : ((scaledFem F C e).toProb groups).prescriptions = ((scaledFem F C e').toProb groups).prescriptions :=
  prescriptions_congr _ _ (by rw [toProb_vec, toProb_vec]) (by rw [toProb_groups, toProb_groups])

/-- The family of linear problems. -/
noncomputable def densityFamily (hC : ElasticLaw C) (hF : Loaded F loc t) (groups : List (Group ℝ)) (hwf : ((scaledFem F C fun _ => 1).toProb groups).WF) (e : (Fin m → ℝ) → ℕ → ℝ) (p : Fin m → ℝ)
    (he : ∀ k, ContDiffAt ℝ 1 (fun q => e q k) p) : LinearFamily (densityProb F C groups e) (F.numTotal * dim) p where
  I := Fem.cooI dim F.cells
  J := Fem.cooJ dim F.cells
  V := tripletFns F C e
  f := fun _ d => F.neumannSum (d / dim) (Fin.ofNat dim d)
  load := fun _ d => (F.bodyForceFn + F.neumannSum) (d / dim) (Fin.ofNat dim d)
  size _ := rfl
  wf q := wf_congr ((scaledFem F C fun _ => 1).toProb groups) ((scaledFem F C (e q)).toProb groups) (by rw [toProb_vec, toProb_vec]) (by rw [toProb_groups, toProb_groups]) hwf
  cols := cooJ_mem _ _ hF.mesh
  res q x d := by
    obtain ⟨R, h1, h2⟩ := (newton_eq F hC hF groups e q x).2
    show (match (scaledFem F C (e q)).computeResidual (fun n i => x (dim * n + i)) with | .ok R => _ | .error _ => _) = _
    rw [h1]
    exact h2 d
  newton q x := (newton_eq F hC hF groups e q x).1
  smoothV := by
    intro v hv
    unfold tripletFns at hv
    simp only [List.mem_flatMap, List.mem_map] at hv
    obtain ⟨k, -, n, -, i, -, n', -, i', -, rfl⟩ := hv
    exact (he k.2).mul contDiffAt_const
  smoothF _ _ := contDiffAt_const
  pres d _ := by
    rcases free_or_last ((scaledFem F C fun _ => 1).toProb groups).prescriptions d with h | ⟨v, h⟩
    · refine .inl fun q => ?_
      rw [show ((densityProb F C groups e).prob q).prescriptions = _ from prescriptions_scaled F groups (e q) fun _ => 1]
      exact h
    · refine .inr ⟨fun _ => v, contDiffAt_const, fun q => ?_⟩
      rw [show ((densityProb F C groups e).prob q).prescriptions = _ from prescriptions_scaled F groups (e q) fun _ => 1]
      exact h

include hC hF in
theorem family_determined (groups : List (Group ℝ)) (hwf : ((scaledFem F C fun _ => 1).toProb groups).WF) (e : (Fin m → ℝ) → ℕ → ℝ) (p : Fin m → ℝ)
    (he : ∀ k, ContDiffAt ℝ 1 (fun q => e q k) p) (hdet : (scaledFem F C (e p)).Determined ((scaledFem F C fun _ => 1).toProb groups).prescriptions) :
    (densityFamily F hC hF groups hwf e p he).Determined p := by
  have hpre : ((densityProb F C groups e).prob p).prescriptions = ((scaledFem F C fun _ => 1).toProb groups).prescriptions := prescriptions_scaled F groups (e p) fun _ => 1
  intro x hx d hd
  obtain ⟨n, hn, i, rfl⟩ := dof_exists (vec := dim) F.numTotal d hd
  obtain ⟨-, R, hR, hRv⟩ := newton_eq F hC hF groups e p x
  obtain ⟨-, R0, hR0, hRv0⟩ := newton_eq F hC hF groups e p 0
  have hpos : 0 < dim := Nat.pos_of_ne_zero (NeZero.ne dim)
  have hdiv : ∀ n (i : Fin dim), (dim * n + i) / dim = n := fun n i => by rw [Nat.mul_add_div hpos, Nat.div_eq_of_lt i.isLt, add_zero]
  have hmod : ∀ n (i : Fin dim), Fin.ofNat dim (dim * n + i) = i := fun n i => Fin.ext (by simp [Fin.ofNat, Nat.mul_add_mod, Nat.mod_eq_of_lt i.isLt])
  refine hdet _ _ R R0 hR hR0 (fun n hn i hf => ?_) (fun n hn i hf => ?_) n hn i
  · rcases free_or_last ((scaledFem F C fun _ => 1).toProb groups).prescriptions (dim * n + i) with h | ⟨v, h⟩
    · exact absurd h hf
    · exact ((densityFamily F hC hF groups hwf e p he).op_last p x _ v (by rw [hpre]; exact h)).symm.trans (hx _ (dof_lt _ n hn i))
  · have h1 := ((densityFamily F hC hF groups hwf e p he).op_free p x _ (by rw [hpre]; exact hf)).symm.trans (hx _ (dof_lt _ n hn i))
    have h2 := hRv (dim * n + i)
    have h3 := hRv0 (dim * n + i)
    rw [hdiv, hmod] at h2 h3
    have h4 : cooMul (Fem.cooI dim F.cells) (Fem.cooJ dim F.cells) ((tripletFns F C e).map (· p)) 0 (dim * n + i) = 0 := by
      unfold cooMul
      refine List.sum_eq_zero fun y hy => ?_
      obtain ⟨p, -, rfl⟩ := List.mem_map.mp hy
      simp
    have h5 : cooMul (Fem.cooI dim F.cells) (Fem.cooJ dim F.cells) ((tripletFns F C e).map (· p)) x (dim * n + i) = 0 := h1
    rw [h2, h3, h4, h5]

/-! ## Derivatives of list sums -/

omit [NeZero dim] in
theorem tractionWork_add (u v : ℕ → Fin dim → ℝ) : tractionWork F loc t (u + v) = tractionWork F loc t u + tractionWork F loc t v := by
  unfold tractionWork
  rw [← List.sum_map_add]
  congr 1
  refine List.map_congr_left fun p _ => ?_
  rw [← sum_add_distrib]
  refine sum_congr rfl fun q _ => ?_
  rw [← add_mul, ← sum_add_distrib]
  congr 1
  refine sum_congr rfl fun i _ => ?_
  simp only [Fem.uFace, Pi.add_apply, add_mul, sum_add_distrib, mul_add]

omit [NeZero dim] in
theorem tractionWork_smul (a : ℝ) (u : ℕ → Fin dim → ℝ) : tractionWork F loc t (a • u) = a * tractionWork F loc t u := by
  unfold tractionWork
  rw [← List.sum_map_mul_left]
  congr 1
  refine List.map_congr_left fun p _ => ?_
  rw [mul_sum]
  refine sum_congr rfl fun q _ => ?_
  rw [← mul_assoc, mul_sum]
  congr 1
  refine sum_congr rfl fun i _ => ?_
  simp only [Fem.uFace, Pi.smul_apply, smul_eq_mul, mul_sum]
  exact sum_congr rfl fun n _ => by ring

/-- The array `(num_total_nodes, vec)` of a flat solution vector. -/
def unflat (vec : ℕ) {N : ℕ} (x : Fin N → ℝ) : ℕ → Fin vec → ℝ := fun n i => ext x (vec * n + i)

omit [NeZero dim] in
theorem linear_unflat {N : ℕ} (Φ : (ℕ → Fin dim → ℝ) → ℝ) (h1 : ∀ u v, Φ (u + v) = Φ u + Φ v) (h2 : ∀ (a : ℝ) u, Φ (a • u) = a * Φ u) : Differentiable ℝ fun x : Fin N → ℝ => Φ (unflat dim x) := by
  let L : (Fin N → ℝ) →ₗ[ℝ] ℝ :=
    { toFun := fun x => Φ (unflat dim x)
      map_add' := fun x y => by
        rw [← h1]
        congr 1
        funext n i
        simp only [unflat, ext, Pi.add_apply]
        split_ifs <;> simp
      map_smul' := fun a x => by
        rw [RingHom.id_apply, smul_eq_mul, ← h2]
        congr 1
        funext n i
        simp only [unflat, ext, Pi.smul_apply, smul_eq_mul]
        split_ifs <;> simp }
  exact (LinearMap.toContinuousLinearMap L).differentiable

theorem list_hasFDerivAt {α : Type*} {V : Type*} [NormedAddCommGroup V] [NormedSpace ℝ V] (l : List α) (f : α → V → ℝ) (f' : α → V →L[ℝ] ℝ) (x : V) (h : ∀ a ∈ l, HasFDerivAt (f a) (f' a) x) :
    HasFDerivAt (fun y => (l.map fun a => f a y).sum) ((l.map f').sum) x := by
  induction l with
  | nil => exact hasFDerivAt_const 0 x
  | cons a l ih =>
    simp only [List.map_cons, List.sum_cons]
    exact (h a (by simp)).add (ih fun b hb => h b (by simp [hb]))

theorem list_clm_apply {α : Type*} {V : Type*} [NormedAddCommGroup V] [NormedSpace ℝ V] (l : List α) (f' : α → V →L[ℝ] ℝ) (v : V) : (l.map f').sum v = (l.map fun a => f' a v).sum := by
  induction l with
  | nil => rfl
  | cons a l ih => simp [ih]

theorem zipIdx_single {α : Type*} (l : List α) (G : α → ℝ) : ∀ (s j : ℕ) (h : j < l.length), ((l.zipIdx s).map fun c => if c.2 = s + j then G c.1 else 0).sum = G l[j] := by
  induction l with
  | nil => intro s j h; simp at h
  | cons a l ih =>
    intro s j h
    rw [List.zipIdx_cons, List.map_cons, List.sum_cons]
    cases j with
    | zero =>
      have h0 : ((l.zipIdx (s + 1)).map fun c => if c.2 = s + 0 then G c.1 else 0).sum = 0 := by
        refine List.sum_eq_zero fun x hx => ?_
        obtain ⟨c, hc, rfl⟩ := List.mem_map.mp hx
        have := (List.mem_zipIdx hc).1
        rw [if_neg (by omega)]
      rw [h0]
      simp
    | succ j =>
      have h1 := ih (s + 1) j (by simpa using h)
      rw [show s + 1 + j = s + (j + 1) by ring] at h1
      rw [h1]
      simp

/-! ## The gradient -/

/-- The objective `J_total` of the examples as a function of the flat solution vector: `compute_compliance` (example.py 97-102). -/
noncomputable def complianceObj (F : Fem nn nq nf nfq dim dim) (t : (Fin dim → ℝ) → Fin dim → ℝ) (s : ℕ → ℝ) : ℝ :=
  match computeCompliance F t (fun n i => s (dim * n + i)) with
  | .ok v => v
  | .error _ => 0

omit [NeZero dim] in
include hF in
theorem complianceObj_eq (s : ℕ → ℝ) : complianceObj F t s = tractionWork F loc t fun n i => s (dim * n + i) := by
  unfold complianceObj
  rw [(C103_compliance F loc [] _ hF.neumann t _).1 hF.faces]

include hC hF in
/-- Zeros of the modified residual are solutions. -/
theorem con_solves (groups : List (Group ℝ)) (hwf : ((scaledFem F C fun _ => 1).toProb groups).WF) (e : (Fin m → ℝ) → ℕ → ℝ) (q : Fin m → ℝ) (x : Fin (F.numTotal * dim) → ℝ)
    (h : ∀ d : Fin (F.numTotal * dim), (densityProb F C groups e).con (ext x) q d = 0) :
    (scaledFem F C (e q)).Solves ((scaledFem F C fun _ => 1).toProb groups).prescriptions (unflat dim x) := by
  obtain ⟨-, R, hR, hRv⟩ := newton_eq F hC hF groups e q (ext x)
  have hpre : ((densityProb F C groups e).prob q).prescriptions = ((scaledFem F C fun _ => 1).toProb groups).prescriptions := prescriptions_scaled F groups (e q) fun _ => 1
  have hwfq : ((densityProb F C groups e).prob q).WF := wf_congr ((scaledFem F C fun _ => 1).toProb groups) ((scaledFem F C (e q)).toProb groups) (by rw [toProb_vec, toProb_vec]) (by rw [toProb_groups, toProb_groups]) hwf
  have hpos : 0 < dim := Nat.pos_of_ne_zero (NeZero.ne dim)
  have hdiv : ∀ n (i : Fin dim), (dim * n + i) / dim = n := fun n i => by rw [Nat.mul_add_div hpos, Nat.div_eq_of_lt i.isLt, add_zero]
  have hmod : ∀ n (i : Fin dim), Fin.ofNat dim (dim * n + i) = i := fun n i => Fin.ext (by simp [Fin.ofNat, Nat.mul_add_mod, Nat.mod_eq_of_lt i.isLt])
  refine ⟨R, hR, fun n hn i => ⟨fun v hv => ?_, fun hf => ?_⟩⟩
  · have h1 := h ⟨dim * n + i, dof_lt _ n hn i⟩
    have h2 : (densityProb F C groups e).con (ext x) q (dim * n + i) = ext x (dim * n + i) + -v := (C19_components realArith _ hwfq _ _ _).1 v (by rw [hpre]; exact hv)
    rw [h2] at h1
    show ext x (dim * n + i) = v
    linarith
  · have h1 := h ⟨dim * n + i, dof_lt _ n hn i⟩
    have h2 : (densityProb F C groups e).con (ext x) q (dim * n + i) = (densityProb F C groups e).res q (ext x) (dim * n + i) := (C19_components realArith _ hwfq _ _ _).2 (by rw [hpre]; exact hf)
    have h3 : (densityProb F C groups e).res q (ext x) (dim * n + i) = R ((dim * n + i) / dim) (Fin.ofNat dim (dim * n + i)) := by
      show (match (scaledFem F C (e q)).computeResidual (fun n i => ext x (dim * n + i)) with | .ok R => _ | .error _ => _) = _
      rw [hR]
    rw [h2, h3, hdiv, hmod] at h1
    exact h1

include hC hF in
/-- **C104 (gradient).** Moduli `e q k` depending smoothly on the parameters, zero prescribed displacements, a uniquely solvable problem and a linear solver that solves solvable systems:
the forward solve of `ad_wrapper` returns the discrete solution `u`, reverse mode returns the derivative of `params ↦ compliance`, and its entries are minus the derivative of the moduli times the elastic work
of `u` in the cells. No adjoint solution enters: the problem is self-adjoint. For the JAX and the PETSc path. -/
theorem C104_gradient (groups : List (Group ℝ)) (hwf : ((scaledFem F C fun _ => 1).toProb groups).WF) (hz : ∀ p ∈ ((scaledFem F C fun _ => 1).toProb groups).prescriptions, p.2 = 0)
    (e : (Fin m → ℝ) → ℕ → ℝ) (p : Fin m → ℝ) (he : ∀ k, ContDiffAt ℝ 1 (fun q => e q k) p)
    (hdet : (scaledFem F C (e p)).Determined ((scaledFem F C fun _ => 1).toProb groups).prescriptions) (lin : ℕ → LinCall ℝ → ℕ → ℝ) (hlin : ExactLin (F.numTotal * dim) lin) (usePetsc : Bool) (fuel : ℕ) :
    ∃ (u : ℕ → ℝ) (g : Fin m → ℝ), (densityProb F C groups e).fwdPred lin true usePetsc fuel p = .ok u ∧
      (scaledFem F C (e p)).Solves ((scaledFem F C fun _ => 1).toProb groups).prescriptions (fun n i => u (dim * n + i)) ∧
      (densityProb F C groups e).revGrad lin true usePetsc fuel (complianceObj F t) p = .ok g ∧
      HasFDerivAt ((densityProb F C groups e).objective lin true usePetsc fuel (complianceObj F t)) (∑ j, g j • (ContinuousLinearMap.proj j : (Fin m → ℝ) →L[ℝ] ℝ)) p ∧
      ∀ j, g j = -(F.cells.zipIdx.map fun c => fderiv ℝ (fun q => e q c.2) p (Pi.single j 1) * cellWork F C (fun n i => u (dim * n + i)) (fun n i => u (dim * n + i)) c.1).sum := by
  set L := densityFamily F hC hF groups hwf e p he with hL
  have hd : L.Determined p := family_determined F hC hF groups hwf e p he hdet
  obtain ⟨u, h1, h2, hsol⟩ := L.C94_linear hd lin hlin usePetsc fuel
  have hJ : Differentiable ℝ fun x : Fin (F.numTotal * dim) → ℝ => complianceObj F t (ext x) := by
    have := linear_unflat (N := F.numTotal * dim) (tractionWork F loc t) (tractionWork_add F) (tractionWork_smul F)
    have heq : (fun x : Fin (F.numTotal * dim) → ℝ => complianceObj F t (ext x)) = fun x => tractionWork F loc t (unflat dim x) := by
      funext x
      exact complianceObj_eq F hF (ext x)
    rw [heq]
    exact this
  obtain ⟨g, hg1, hg2⟩ := L.C94_gradient hd lin hlin usePetsc fuel (complianceObj F t) hJ
  have hS : ∀ᶠ q in 𝓝 p, (scaledFem F C (e q)).Solves ((scaledFem F C fun _ => 1).toProb groups).prescriptions (unflat dim (u q)) := by
    filter_upwards [hsol.zero] with q hq
    exact con_solves F hC hF groups hwf e q (u q) hq
  have hSp := hS.self_of_nhds
  refine ⟨ext (u p), g, h2, hSp, hg1, hg2, fun j => ?_⟩
  have hobj : (densityProb F C groups e).objective lin true usePetsc fuel (complianceObj F t) =ᶠ[𝓝 p]
      fun q => tractionWork F loc t (unflat dim (u p)) - (F.cells.zipIdx.map fun c => (e q c.2 - e p c.2) * cellWork F C (unflat dim (u p)) (unflat dim (u q)) c.1).sum := by
    filter_upwards [h1, hS] with q hq hSq
    have h3 := compliance_diff F hC hF (e p) (e q) _ hz _ _ hSp hSq
    unfold ParamProb.objective
    rw [hq]
    show complianceObj F t (ext (u q)) = _
    rw [complianceObj_eq F hF]
    have h4 : tractionWork F loc t (fun n i => ext (u q) (dim * n + i)) = tractionWork F loc t (unflat dim (u q)) := rfl
    rw [h4]
    linarith
  have hder : HasFDerivAt (fun q => tractionWork F loc t (unflat dim (u p)) - (F.cells.zipIdx.map fun c => (e q c.2 - e p c.2) * cellWork F C (unflat dim (u p)) (unflat dim (u q)) c.1).sum)
      (-(F.cells.zipIdx.map fun c => cellWork F C (unflat dim (u p)) (unflat dim (u p)) c.1 • fderiv ℝ (fun q => e q c.2) p).sum) p := by
    refine HasFDerivAt.const_sub ?_ (tractionWork F loc t (unflat dim (u p)))
    refine list_hasFDerivAt _ (fun (c : (Fin nn → ℕ) × ℕ) q => (e q c.2 - e p c.2) * cellWork F C (unflat dim (u p)) (unflat dim (u q)) c.1) _ p fun c _ => ?_
    have k1 : HasFDerivAt (fun q => e q c.2 - e p c.2) (fderiv ℝ (fun q => e q c.2) p) p := ((he c.2).differentiableAt (by norm_num)).hasFDerivAt.sub_const _
    have k2 : DifferentiableAt ℝ (fun q => cellWork F C (unflat dim (u p)) (unflat dim (u q)) c.1) p :=
      DifferentiableAt.comp p (g := fun x => cellWork F C (unflat dim (u p)) (unflat dim x) c.1)
        ((linear_unflat (fun v => cellWork F C (unflat dim (u p)) v c.1) (fun v w => cellWork_add F hC _ v w c.1) (fun a v => cellWork_smul F hC a _ v c.1)) (u p)) hsol.diffU
    have k3 := k1.fun_mul k2.hasFDerivAt
    simpa using k3
  have h5 := hg2.unique (hder.congr_of_eventuallyEq hobj)
  have h6 := congrArg (fun T : (Fin m → ℝ) →L[ℝ] ℝ => T (Pi.single j 1)) h5
  simp only [_root_.sum_apply, smul_apply, ContinuousLinearMap.proj_apply, neg_apply, list_clm_apply, smul_eq_mul, Pi.single_apply, mul_ite, mul_one, mul_zero,
    sum_ite_eq', mem_univ, if_true] at h6
  rw [h6]
  congr 2
  refine List.map_congr_left fun c _ => ?_
  rw [mul_comm]
  rfl

end

/-! ## The example: one density per cell -/

/-- `params` of shape `(len(flex_inds), 1)` from the flat vector. -/
def rowParams (q : Fin m → ℝ) : ℕ → ℕ → ℝ := fun k _ => ext q k

/-- The problem of the example seen by `ad_wrapper`: `flex_inds = arange(len(cells))` (example.py 17-21, 95), a tensor map with one density per cell. -/
noncomputable def topProb [NeZero dim] (F : Fem nn nq nf nfq dim dim) (stress : (Fin dim → Fin dim → ℝ) → (ℕ → ℝ) → Fin dim → Fin dim → ℝ) (groups : List (Group ℝ)) (m : ℕ) : ParamProb m FemErr where
  prob q := (topFem F stress (List.range m) (rowParams q)).toProb groups
  res q x d := match (topFem F stress (List.range m) (rowParams q)).computeResidual (fun n i => x (dim * n + i)) with
    | .ok R => R (d / dim) (Fin.ofNat dim d)
    | .error _ => 0

/-- Specification: the modulus of cell `k`: the law at the density of the cell (1 outside the mesh, which never enters). -/
noncomputable def simpE (Emin Emax : ℝ) (penal : ℕ) (q : Fin m → ℝ) (k : ℕ) : ℝ := if h : k < m then simpModulus Emin Emax penal (q ⟨k, h⟩) else simpModulus Emin Emax penal 1

theorem fullParams_rows (q : Fin m → ℝ) (k : ℕ) : fullParams (List.range m) (rowParams q) k = fun _ => if h : k < m then q ⟨k, h⟩ else 1 := by
  by_cases h : k < m
  · rw [(C102_params (List.range m) List.nodup_range (rowParams q)).2.2 m k h]
    funext _
    simp [rowParams, ext, h]
  · rw [(C102_params (List.range m) List.nodup_range (rowParams q)).2.1 k (by simpa using h)]
    funext _
    simp [h]

section
variable [NeZero dim] (F : Fem nn nq nf nfq dim dim) {C : (Fin dim → Fin dim → ℝ) → Fin dim → Fin dim → ℝ} {stress : (Fin dim → Fin dim → ℝ) → (ℕ → ℝ) → Fin dim → Fin dim → ℝ}
  {Emin Emax : ℝ} {penal : ℕ} (hlaw : DensityLaw stress (fun theta => simpModulus Emin Emax penal (theta 0)) C Emin Emax)
  {loc : Loc dim} {t : (Fin dim → ℝ) → Fin dim → ℝ} (hF : Loaded F loc t)

omit [NeZero dim] in
include hlaw in
theorem topFem_simp (q : Fin m → ℝ) : topFem F stress (List.range m) (rowParams q) = scaledFem F C (simpE Emin Emax penal q) := by
  rw [topFem_eq F stress _ C hlaw.eq]
  congr 1
  funext k
  rw [fullParams_rows]
  unfold simpE
  split_ifs <;> rfl

include hlaw in
theorem topProb_eq (groups : List (Group ℝ)) : topProb F stress groups m = densityProb F C groups (simpE Emin Emax penal) := by
  unfold topProb densityProb
  simp only [topFem_simp F hlaw]

theorem simpE_smooth (p : Fin m → ℝ) (k : ℕ) : ContDiffAt ℝ 1 (fun q : Fin m → ℝ => simpE Emin Emax penal q k) p := by
  unfold simpE
  by_cases h : k < m
  · simp only [h, dif_pos, simpModulus]
    fun_prop
  · simp only [h, dif_neg, not_false_eq_true]
    exact contDiffAt_const

theorem simpE_fderiv (p : Fin m → ℝ) (k : ℕ) (j : Fin m) :
    fderiv ℝ (fun q : Fin m → ℝ => simpE Emin Emax penal q k) p (Pi.single j 1) = if k = j then penal * (Emax - Emin) * p j ^ (penal - 1) else 0 := by
  have hd := ((simpE_smooth (Emin := Emin) (Emax := Emax) (penal := penal) p k).differentiableAt (by norm_num)).hasFDerivAt
  have h1 : HasDerivAt (fun s : ℝ => p + s • (Pi.single j 1 : Fin m → ℝ)) (Pi.single j 1) 0 := by
    simpa using ((hasDerivAt_id (0 : ℝ)).smul_const (Pi.single j 1 : Fin m → ℝ)).const_add p
  have h2 : HasFDerivAt (fun q : Fin m → ℝ => simpE Emin Emax penal q k) (fderiv ℝ (fun q : Fin m → ℝ => simpE Emin Emax penal q k) p) (p + (0 : ℝ) • (Pi.single j 1 : Fin m → ℝ)) := by simpa using hd
  have h3 := h2.comp_hasDerivAt (0 : ℝ) h1
  refine h3.unique ?_
  show HasDerivAt (fun s : ℝ => simpE Emin Emax penal (p + s • (Pi.single j 1 : Fin m → ℝ)) k) _ 0
  unfold simpE
  by_cases h : k < m
  · simp only [h, dif_pos, simpModulus, Pi.add_apply, Pi.smul_apply, smul_eq_mul]
    by_cases hk : k = j
    · have hj : (⟨k, h⟩ : Fin m) = j := Fin.ext hk
      rw [if_pos hk, hj]
      simp only [Pi.single_eq_same, mul_one]
      have h4 : HasDerivAt (fun s : ℝ => p j + s) 1 0 := by simpa using (hasDerivAt_id (0 : ℝ)).const_add (p j)
      have h5 := ((h4.pow penal).const_mul (Emax - Emin)).const_add Emin
      refine h5.congr_deriv ?_
      simp
      ring
    · have hj : (⟨k, h⟩ : Fin m) ≠ j := fun h' => hk (congrArg Fin.val h')
      rw [if_neg hk]
      simp only [Pi.single_apply, hj, if_false, mul_zero, add_zero]
      exact hasDerivAt_const _ _
  · rw [if_neg (fun hk : k = j => h (by rw [hk]; exact j.isLt))]
    simp only [h, dif_neg, not_false_eq_true]
    exact hasDerivAt_const _ _

include hlaw in
theorem simpE_pos (p : Fin m → ℝ) (hp : ∀ j, 0 ≤ p j) (hE : Emin ≤ Emax) (k : ℕ) : 0 < simpE Emin Emax penal p k := by
  have h0 := hlaw.lower.1
  have hd : 0 ≤ Emax - Emin := by linarith
  unfold simpE simpModulus
  split_ifs with h
  · have := mul_nonneg hd (pow_nonneg (hp ⟨k, h⟩) penal)
    linarith
  · simp
    linarith

theorem simpE_mono (p p' : Fin m → ℝ) (hp : ∀ j, 0 ≤ p j) (hle : ∀ j, p j ≤ p' j) (hE : Emin ≤ Emax) (k : ℕ) : simpE Emin Emax penal p k ≤ simpE Emin Emax penal p' k := by
  have hd : 0 ≤ Emax - Emin := by linarith
  unfold simpE simpModulus
  split_ifs with h
  · have := mul_le_mul_of_nonneg_left (pow_le_pow_left₀ (hp ⟨k, h⟩) (hle ⟨k, h⟩) penal) hd
    linarith
  · exact le_refl _

/-- Specification: the body is clamped: displacements are prescribed as zero only, well-formed conditions, the clamped nodes hold all nodes, and no cell has a deformation of zero strain. -/
structure Clamped (F : Fem nn nq nf nfq dim dim) (groups : List (Group ℝ)) : Prop where
  wf : (F.toProb groups).WF
  zero : ∀ p ∈ (F.toProb groups).prescriptions, p.2 = 0
  held : ∀ n < F.numTotal, F.Held (fun n => n < F.numTotal ∧ ∀ i : Fin dim, ¬ FreeAt (F.toProb groups).prescriptions (dim * n + i)) n
  rigid : F.RigidModes

theorem scaled_pres (groups : List (Group ℝ)) (e : ℕ → ℝ) : ((scaledFem F C e).toProb groups).prescriptions = (F.toProb groups).prescriptions :=
  prescriptions_congr _ _ (by rw [toProb_vec, toProb_vec]) (by rw [toProb_groups, toProb_groups])

include hlaw hF in
/-- **C104 (example).** One density `p j ≥ 0` per cell, a clamped body: the forward solve returns the unique discrete solution, and reverse mode returns the derivative of the compliance: in cell `j`
`-penal·(Emax - Emin)·p_j^(penal-1)` times the elastic work (for modulus one) of the solution in that cell. No entry is positive. -/
theorem C104_simp (hE : Emin ≤ Emax) (groups : List (Group ℝ)) (hcl : Clamped F groups) (hm : F.cells.length = m) (p : Fin m → ℝ) (hp : ∀ j, 0 ≤ p j)
    (lin : ℕ → LinCall ℝ → ℕ → ℝ) (hlin : ExactLin (F.numTotal * dim) lin) (usePetsc : Bool) (fuel : ℕ) :
    ∃ (u : ℕ → ℝ) (g : Fin m → ℝ), (topProb F stress groups m).fwdPred lin true usePetsc fuel p = .ok u ∧
      (topFem F stress (List.range m) (rowParams p)).Solves (F.toProb groups).prescriptions (fun n i => u (dim * n + i)) ∧
      (topProb F stress groups m).revGrad lin true usePetsc fuel (complianceObj F t) p = .ok g ∧
      HasFDerivAt ((topProb F stress groups m).objective lin true usePetsc fuel (complianceObj F t)) (∑ j, g j • (ContinuousLinearMap.proj j : (Fin m → ℝ) →L[ℝ] ℝ)) p ∧
      ∀ j : Fin m, g j = -(penal * (Emax - Emin) * p j ^ (penal - 1) * cellWork F C (fun n i => u (dim * n + i)) (fun n i => u (dim * n + i)) (F.cells[j]'(by rw [hm]; exact j.isLt))) ∧ g j ≤ 0 := by
  have hpre : ∀ e : ℕ → ℝ, ((scaledFem F C e).toProb groups).prescriptions = (F.toProb groups).prescriptions := scaled_pres F groups
  have hdet : (scaledFem F C (simpE Emin Emax penal p)).Determined ((scaledFem F C fun _ => 1).toProb groups).prescriptions := by
    rw [hpre]
    exact C103_determined F hlaw.law hF _ (simpE_pos hlaw p hp hE) hcl.rigid _ hcl.held
  obtain ⟨u, g, h1, h2, h3, h4, h5⟩ := C104_gradient F hlaw.law hF groups (wf_congr _ _ (by rw [toProb_vec, toProb_vec]) (by rw [toProb_groups, toProb_groups]) hcl.wf)
    (by rw [hpre]; exact hcl.zero) (simpE Emin Emax penal) p (simpE_smooth p) hdet lin hlin usePetsc fuel
  rw [topProb_eq F hlaw, topFem_simp F hlaw]
  rw [hpre] at h2
  refine ⟨u, g, h1, h2, h3, h4, fun j => ?_⟩
  have hj : (j : ℕ) < F.cells.length := by rw [hm]; exact j.isLt
  have h6 : g j = -(penal * (Emax - Emin) * p j ^ (penal - 1) * cellWork F C (fun n i => u (dim * n + i)) (fun n i => u (dim * n + i)) F.cells[(j : ℕ)]) := by
    rw [h5 j]
    congr 1
    simp only [simpE_fderiv, ite_mul, zero_mul]
    have h7 := zipIdx_single F.cells (fun c => penal * (Emax - Emin) * p j ^ (penal - 1) * cellWork F C (fun n i => u (dim * n + i)) (fun n i => u (dim * n + i)) c) 0 j hj
    rw [zero_add] at h7
    exact h7
  refine ⟨h6, ?_⟩
  rw [h6, neg_nonpos]
  exact mul_nonneg (mul_nonneg (mul_nonneg (Nat.cast_nonneg _) (by linarith)) (pow_nonneg (hp j) _)) (cellWork_nonneg F hlaw.law (hF.vol _ (List.getElem_mem hj)) _)

include hlaw hF in
/-- **C104 (full material).** More density in any cells never increases the objective; among all densities in the unit interval the full material (the value printed at the end of the example) has the least compliance. -/
theorem C104_full (hE : Emin ≤ Emax) (groups : List (Group ℝ)) (hcl : Clamped F groups) (hm : F.cells.length = m) (p p' : Fin m → ℝ) (hp : ∀ j, 0 ≤ p j) (hle : ∀ j, p j ≤ p' j)
    (lin : ℕ → LinCall ℝ → ℕ → ℝ) (hlin : ExactLin (F.numTotal * dim) lin) (usePetsc : Bool) (fuel : ℕ) :
    0 ≤ (topProb F stress groups m).objective lin true usePetsc fuel (complianceObj F t) p' ∧
    (topProb F stress groups m).objective lin true usePetsc fuel (complianceObj F t) p' ≤ (topProb F stress groups m).objective lin true usePetsc fuel (complianceObj F t) p ∧
    ((∀ j, p j ≤ 1) → (topProb F stress groups m).objective lin true usePetsc fuel (complianceObj F t) (fun _ => 1) ≤ (topProb F stress groups m).objective lin true usePetsc fuel (complianceObj F t) p) := by
  have key : ∀ p p' : Fin m → ℝ, (∀ j, 0 ≤ p j) → (∀ j, p j ≤ p' j) →
      0 ≤ (topProb F stress groups m).objective lin true usePetsc fuel (complianceObj F t) p' ∧
      (topProb F stress groups m).objective lin true usePetsc fuel (complianceObj F t) p' ≤ (topProb F stress groups m).objective lin true usePetsc fuel (complianceObj F t) p := by
    intro p p' hp hle
    have hp' : ∀ j, 0 ≤ p' j := fun j => (hp j).trans (hle j)
    obtain ⟨u, g, h1, h2, -⟩ := C104_simp F hlaw hF hE groups hcl hm p hp lin hlin usePetsc fuel
    obtain ⟨u', g', h1', h2', -⟩ := C104_simp F hlaw hF hE groups hcl hm p' hp' lin hlin usePetsc fuel
    rw [topFem_simp F hlaw] at h2 h2'
    have h3 := C103_monotone F hlaw.law hF _ _ (fun k => (simpE_pos hlaw p hp hE k).le) (simpE_mono p p' hp hle hE) _ hcl.zero _ _ h2 h2'
    have h4 := (C103_energy F hlaw.law hF _ (fun k => (simpE_pos hlaw p' hp' hE k).le) _ hcl.zero _ h2').2
    unfold ParamProb.objective
    rw [h1, h1']
    show 0 ≤ complianceObj F t u' ∧ complianceObj F t u' ≤ complianceObj F t u
    rw [complianceObj_eq F hF, complianceObj_eq F hF]
    exact ⟨h4, h3⟩
  exact ⟨(key p p' hp hle).1, (key p p' hp hle).2, fun h => (key p (fun _ => 1) hp h).2⟩

end

/-! ## The volume constraint -/

/-- `computeGlobalVolumeConstraint` (example.py 129-131). -/
noncomputable def volumeConstraint (vf : ℝ) (rho : Fin m → ℝ) : ℝ := (∑ j, rho j) / m / vf - 1

/-- `consHandle` (example.py 124-134): value and gradient, each with a leading axis of length 1. -/
noncomputable def consHandle (vf : ℝ) (rho : Fin m → ℝ) : (Fin 1 → ℝ) × (Fin 1 → Fin m → ℝ) :=
  (fun _ => volumeConstraint vf rho, fun _ j => fderiv ℝ (volumeConstraint vf) rho (Pi.single j 1))

/-- **C104 (constraint).** The constraint is met exactly when the mean density is at most `vf`; its gradient is `1/(m·vf)` in every entry; the initial density `vf` in all cells meets it with equality. -/
theorem C104_constraint (hm : 0 < m) (vf : ℝ) (hvf : 0 < vf) (rho : Fin m → ℝ) :
    ((consHandle vf rho).1 0 ≤ 0 ↔ ∑ j, rho j ≤ m * vf) ∧ (∀ j, (consHandle vf rho).2 0 j = 1 / (m * vf)) ∧ (consHandle (m := m) vf fun _ => vf).1 0 = 0 := by
  have hm' : (0 : ℝ) < m := by exact_mod_cast hm
  refine ⟨?_, fun j => ?_, ?_⟩
  · simp only [consHandle, volumeConstraint, sub_nonpos]
    rw [div_le_one hvf, div_le_iff₀ hm', mul_comm]
  · simp only [consHandle]
    have h1 : HasFDerivAt (volumeConstraint (m := m) vf) ((1 / (m * vf)) • ∑ j, (ContinuousLinearMap.proj j : (Fin m → ℝ) →L[ℝ] ℝ)) rho := by
      have h2 : HasFDerivAt (fun rho : Fin m → ℝ => ∑ j, rho j) (∑ j, (ContinuousLinearMap.proj j : (Fin m → ℝ) →L[ℝ] ℝ)) rho :=
        HasFDerivAt.fun_sum fun j _ => (ContinuousLinearMap.proj j : (Fin m → ℝ) →L[ℝ] ℝ).hasFDerivAt
      have h3 := (h2.const_smul (1 / (m * vf))).sub_const 1
      refine h3.congr_of_eventuallyEq (Eventually.of_forall fun q => ?_)
      simp only [volumeConstraint, Pi.smul_apply, smul_eq_mul]
      rw [div_div, one_div, inv_mul_eq_div]
    rw [h1.fderiv]
    simp [_root_.sum_apply]
  · simp only [consHandle, volumeConstraint, sum_const, card_univ, Fintype.card_fin, nsmul_eq_mul]
    field_simp
    simp

end Verif.Fem
