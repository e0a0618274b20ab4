import Verif.Fem.Moved
import Verif.Fem.RadialReturn
import Verif.Fem.PropsSurface

/-!
# The material laws of models.py under motions of the mesh, the order of the cells, and the solutions of moved problems (C147)
-/
namespace Verif.Fem.Moved
open Finset Matrix Verif.Fem

variable {nn nq nf nfq dim vec : ℕ}

/-! ## Specification -/

/-- A similar body: the mesh is moved by `x ↦ lam Q x + t`, the displacements are turned and scaled alike. -/
noncomputable def similar (lam : ℝ) (Q : Matrix (Fin dim) (Fin dim) ℝ) (t : Fin dim → ℝ) (num : ℕ ≃ ℕ) (pos : 0 < lam) (orth : Qᵀ * Q = 1) : Move dim dim where
  lam := lam
  Q := Q
  t := t
  W := lam • Q
  Wi := lam⁻¹ • Qᵀ
  Z := Q
  num := num
  pos := pos
  orth := orth
  inv := by rw [Matrix.smul_mul, Matrix.mul_smul, smul_smul, orth, inv_mul_cancel₀ pos.ne', one_smul]

/-- A `HyperElasticity` object (models.py 117-136). -/
noncomputable def hyperFem (F : Fem nn nq nf nfq dim dim) : Fem nn nq nf nfq dim dim :=
  { F with tensorMap := some fun _ _ g => firstPK (Matrix.of g), massMap := none, lapRows := none, massRows := none }

/-- The tensors of a state turned by `Q`. -/
def turnState (Q : Matrix (Fin dim) (Fin dim) ℝ) (st : PlastState nq dim) : PlastState nq dim :=
  ⟨st.sig.map fun s q => Q * s q * Qᵀ, st.eps.map fun s q => Q * s q * Qᵀ⟩

/-- The cells in another order, with their internal variables. -/
noncomputable def reorder (F : Fem nn nq nf nfq dim vec) (σ : Equiv.Perm (Fin F.cells.length)) : Fem nn nq nf nfq dim vec :=
  { F with
    cells := List.ofFn fun k => F.cells[σ k]
    tensorMap := F.tensorMap.map fun T k => T (if h : k < F.cells.length then σ ⟨k, h⟩ else k)
    massMap := F.massMap.map fun T k => T (if h : k < F.cells.length then σ ⟨k, h⟩ else k) }

/-- `u` solves the problem with trial space `b + V`, on `N` nodes. -/
def Solves (F : Fem nn nq nf nfq dim vec) (N : ℕ) (V : (ℕ → Fin vec → ℝ) → Prop) (b u : ℕ → Fin vec → ℝ) : Prop :=
  ∃ R, F.computeResidual u = .ok R ∧ V (u - b) ∧ ∀ v, V v → ∑ n ∈ range N, ∑ i, R n i * v n i = 0

/-! ## Solutions -/

/-- **C147 (solutions move with the mesh).** If the unknowns and the equations are changed consistently, the moved field solves the moved problem exactly when the given field solves the given problem. -/
theorem C147_solutions (m : Move dim vec) {F : Fem nn nq nf nfq dim vec} (hp : Partition F) (s : ℝ) (hs : s ≠ 0) (hZ : m.Zᵀ * m.W = s • 1) (N : ℕ) (hN : ∀ n, m.num n < N ↔ n < N)
    (V : (ℕ → Fin vec → ℝ) → Prop) (b u : ℕ → Fin vec → ℝ) :
    Solves (m.apply F) N (fun v => ∃ w, V w ∧ m.field w = v) (m.field b) (m.field u) ↔ Solves F N V b u := by
  have hinj : ∀ x y, m.field x = m.field y → x = y := fun x y h => by
    funext n
    rw [← unfield m x n, ← unfield m y n, h]
  have hsub : m.field u - m.field b = m.field (u - b) := by
    funext n i
    show (m.W *ᵥ u (m.num.symm n)) i - (m.W *ᵥ b (m.num.symm n)) i = (m.W *ᵥ (u (m.num.symm n) - b (m.num.symm n))) i
    rw [Matrix.mulVec_sub]
    rfl
  have hfac : m.factor ≠ 0 := mul_ne_zero (mul_ne_zero (pow_ne_zero _ m.pos.ne') (inv_ne_zero m.pos.ne')) (left_ne_zero_of_mul_eq_one (det_sq m))
  have hpair : ∀ R w, ∑ n ∈ range N, ∑ i, m.forces R n i * m.field w n i = m.factor * s * ∑ n ∈ range N, ∑ i, R n i * w n i := by
    intro R w
    have e : ∀ n, ∑ i, m.forces R (m.num n) i * m.field w (m.num n) i = m.factor * s * ∑ i, R n i * w n i := by
      intro n
      show m.forces R (m.num n) ⬝ᵥ m.field w (m.num n) = m.factor * s * (R n ⬝ᵥ w n)
      unfold Move.forces Move.field
      rw [Equiv.symm_apply_apply, smul_dotProduct, Matrix.dotProduct_mulVec, Matrix.vecMul_mulVec, hZ, Matrix.vecMul_smul, Matrix.vecMul_one, smul_dotProduct, smul_eq_mul, smul_eq_mul]
      ring
    rw [mul_sum]
    symm
    refine sum_nbij m.num (fun n hn => mem_range.mpr ((hN n).mpr (mem_range.mp hn))) (fun x _ y _ h => m.num.injective h) ?_ fun n _ => (e n).symm
    intro k hk
    refine ⟨m.num.symm k, mem_coe.mpr (mem_range.mpr ((hN _).mp ?_)), m.num.apply_symm_apply k⟩
    rw [m.num.apply_symm_apply]
    exact mem_range.mp (mem_coe.mp hk)
  constructor
  · rintro ⟨R', h', ⟨w, hw, hwe⟩, ho⟩
    obtain ⟨R, hR⟩ := (C147_returns m hp u).mp ⟨R', h'⟩
    have e := C147_residual m hp u R hR
    rw [h'] at e
    obtain rfl : R' = m.forces R := by injection e
    refine ⟨R, hR, ?_, fun v hv => ?_⟩
    · rw [hsub] at hwe
      rw [← hinj _ _ hwe]
      exact hw
    · have h0 := ho _ ⟨v, hv, rfl⟩
      rw [hpair] at h0
      exact (mul_eq_zero.mp h0).resolve_left (mul_ne_zero hfac hs)
  · rintro ⟨R, hR, hV, ho⟩
    refine ⟨m.forces R, C147_residual m hp u R hR, ⟨u - b, hV, hsub.symm⟩, ?_⟩
    rintro _ ⟨w, hw, rfl⟩
    rw [hpair, ho w hw, mul_zero]

/-- For similar bodies the condition of `C147_solutions` holds. -/
theorem similar_consistent (lam : ℝ) (Q : Matrix (Fin dim) (Fin dim) ℝ) (t : Fin dim → ℝ) (num : ℕ ≃ ℕ) (pos : 0 < lam) (orth : Qᵀ * Q = 1) :
    (similar lam Q t num pos orth).Zᵀ * (similar lam Q t num pos orth).W = lam • 1 := by
  show Qᵀ * (lam • Q) = _
  rw [Matrix.mul_smul, orth]

/-! ## The order of the cells -/

theorem reorder_perm (F : Fem nn nq nf nfq dim vec) (σ : Equiv.Perm (Fin F.cells.length)) : (reorder F σ).cells.Perm F.cells := by
  have h : (reorder F σ).cells.Perm (List.ofFn fun k : Fin F.cells.length => F.cells[k]) := Equiv.Perm.ofFn_comp_perm σ fun k : Fin F.cells.length => F.cells[k]
  have e : (List.ofFn fun k : Fin F.cells.length => F.cells[k]) = F.cells := by
    refine List.ext_getElem (by simp) fun n h1 h2 => ?_
    simp
  rwa [e] at h

theorem selected_perm (F : Fem nn nq nf nfq dim vec) (σ : Equiv.Perm (Fin F.cells.length)) (loc : Loc dim) : ((reorder F σ).selected loc).Perm (F.selected loc) :=
  List.Perm.flatMap_right _ (reorder_perm F σ)

theorem idx_sum {α : Type*} (l : List α) (f : α × ℕ → ℝ) : (l.zipIdx.map f).sum = ∑ k : Fin l.length, f (l[k], k) := by
  have : l.zipIdx.map f = List.ofFn fun k : Fin l.length => f (l[k], k) := by
    refine List.ext_getElem (by simp) fun n h1 h2 => ?_
    simp
  rw [this, List.sum_ofFn]

theorem idx_drop {α : Type*} (l : List α) (f : α → ℝ) : (l.zipIdx.map fun p => f p.1).sum = (l.map f).sum := by
  rw [show (fun p : α × ℕ => f p.1) = f ∘ Prod.fst from rfl, ← List.map_map, List.zipIdx_map_fst]

/-- **C147 (the order of the cells).** Listing the cells, with their internal variables, in another order does not change the residual, unless surface loads are given face by face. -/
theorem C147_order (F : Fem nn nq nf nfq dim vec) (σ : Equiv.Perm (Fin F.cells.length)) (hN : ∀ lv, F.neumann = some lv → ∀ g ∈ lv.2, ∀ k k', g k = g k') (u R : ℕ → Fin vec → ℝ)
    (h : F.computeResidual u = .ok R) : (reorder F σ).computeResidual u = .ok R := by
  have hlen : (reorder F σ).cells.length = F.cells.length := (reorder_perm F σ).length_eq
  have hex : ∃ R', (reorder F σ).computeResidual u = .ok R' := by
    obtain ⟨h1, h2, h3, h4, h5⟩ := (C13_returns F u).mp ⟨R, h⟩
    refine (C13_returns _ u).mpr ⟨fun h0 => h1 (List.length_eq_zero_iff.mp (by rw [← hlen, h0]; rfl)), fun n hn => by rw [hlen]; exact h2 n hn, fun n hn => by rw [hlen]; exact h3 n hn, fun lv hl => ?_, fun lv hl => ?_⟩
    · obtain ⟨a, b, c⟩ := h4 lv hl
      exact ⟨a, b, fun l hl' p hp q => c l hl' p ((selected_perm F σ l).mem_iff.mp hp) q⟩
    · obtain ⟨b, c⟩ := h5 lv hl
      exact ⟨b, fun l hl' p hp q => c l hl' p ((selected_perm F σ l).mem_iff.mp hp) q⟩
  obtain ⟨R', h'⟩ := hex
  rw [h']
  congr 1
  funext n i
  rw [C13_residual _ _ _ h', C13_residual F u R h n i]
  refine congrArg₂ (· - ·) (congrArg₂ (· - ·) (congrArg₂ (· + ·) ?_ ?_) ?_) ?_
  · rw [idx_sum, idx_sum]
    have hval : ∀ k : Fin F.cells.length, ∀ (hk : (k : ℕ) < (reorder F σ).cells.length), (reorder F σ).cells[(k : ℕ)] = F.cells[σ k] := by
      intro k hk
      simp [reorder]
    have hterm : ∀ (k : Fin F.cells.length) (c : Fin nn → ℕ) (a : Fin nn), (reorder F σ).volTerm u c k a i = F.volTerm u c (σ k) a i := by
      intro k c a
      unfold Fem.volTerm
      refine sum_congr rfl fun q _ => ?_
      have e1 : (reorder F σ).stress k q ((reorder F σ).gradAt u c q) i = F.stress (σ k) q (F.gradAt u c q) i := by
        funext d
        unfold Fem.stress
        have ht : (reorder F σ).tensorMap = F.tensorMap.map fun T k => T (if h : k < F.cells.length then σ ⟨k, h⟩ else k) := rfl
        rw [ht]
        cases F.tensorMap with
        | none => rfl
        | some T =>
          simp
          rfl
      have e2 : (reorder F σ).massAt k q ((reorder F σ).uAt u c q) i = F.massAt (σ k) q (F.uAt u c q) i := by
        unfold Fem.massAt
        have ht : (reorder F σ).massMap = F.massMap.map fun T k => T (if h : k < F.cells.length then σ ⟨k, h⟩ else k) := rfl
        rw [ht]
        cases F.massMap with
        | none => rfl
        | some T =>
          simp
          rfl
      rw [e1, e2]
      rfl
    rw [← Equiv.sum_comp σ]
    refine Fintype.sum_equiv (finCongr hlen) _ _ fun k => ?_
    have hk : (k : ℕ) < F.cells.length := hlen ▸ k.isLt
    have e3 := hval ⟨k, hk⟩ k.isLt
    show nodal n (reorder F σ).cells[(k : ℕ)] (fun a => (reorder F σ).volTerm u (reorder F σ).cells[(k : ℕ)] k a i) = nodal n F.cells[σ ⟨k, hk⟩] fun a => F.volTerm u F.cells[σ ⟨k, hk⟩] (σ ⟨k, hk⟩) a i
    rw [e3]
    exact congrArg _ (funext fun a => hterm ⟨k, hk⟩ _ a)
  · exact congrArg List.sum (List.map_congr_left fun lv _ => ((selected_perm F σ lv.1).map _).sum_eq)
  · exact ((reorder_perm F σ).map _).sum_eq
  · refine congrArg List.sum (List.map_congr_left fun lv hlv => ?_)
    have hg : ∀ k k', lv.2 k = lv.2 k' := by
      have hlv' : lv ∈ Fem.pairs F.neumann := hlv
      cases hn : F.neumann with
      | none =>
        rw [hn] at hlv'
        cases hlv'
      | some w =>
        rw [hn] at hlv'
        exact hN w hn lv.2 (List.of_mem_zip (show (lv.1, lv.2) ∈ w.1.zip w.2 from hlv')).2
    have e : ∀ (G : Fem nn nq nf nfq dim vec) (l : List ((Fin nn → ℕ) × Fin nf)), (l.zipIdx.map fun p => nodal n p.1.1 fun a => ∑ q, G.faceShapeVals p.1.2 q a * lv.2 p.2 q (G.xFace p.1 q) i * G.nansonScale p.1.1 p.1.2 q).sum
        = (l.map fun p => nodal n p.1 fun a => ∑ q, G.faceShapeVals p.2 q a * lv.2 0 q (G.xFace p q) i * G.nansonScale p.1 p.2 q).sum := by
      intro G l
      refine Eq.trans ?_ (idx_drop l fun p => nodal n p.1 fun a => ∑ q, G.faceShapeVals p.2 q a * lv.2 0 q (G.xFace p q) i * G.nansonScale p.1 p.2 q)
      refine congrArg List.sum (List.map_congr_left fun p _ => ?_)
      rw [hg p.2 0]
    rw [e, e]
    exact ((selected_perm F σ lv.1).map _).sum_eq

/-! ## Isotropic laws -/

section laws
variable (lam : ℝ) (Q : Matrix (Fin dim) (Fin dim) ℝ) (t : Fin dim → ℝ) (num : ℕ ≃ ℕ) (pos : 0 < lam) (orth : Qᵀ * Q = 1)

theorem similar_law (T : Matrix (Fin dim) (Fin dim) ℝ → Matrix (Fin dim) (Fin dim) ℝ) (H : Fin dim → Fin dim → ℝ) :
    (similar lam Q t num pos orth).law (fun g => T (Matrix.of g)) H = (Q * T (Qᵀ * Matrix.of H * Q) * Qᵀ : Matrix (Fin dim) (Fin dim) ℝ) := by
  have e : (lam⁻¹ • Qᵀ) * Matrix.of H * (lam • Q) = Qᵀ * Matrix.of H * Q := by
    rw [Matrix.mul_smul, Matrix.smul_mul, Matrix.smul_mul, smul_smul, mul_inv_cancel₀ pos.ne', one_smul]
  funext i d
  show (Q * Matrix.of (T (Matrix.of fun i d => ((lam⁻¹ • Qᵀ) * Matrix.of H * (lam • Q)) i d)) * Qᵀ) i d = _
  rw [e]
  rfl

include orth in
theorem trace_turn (A : Matrix (Fin dim) (Fin dim) ℝ) : (Q * A * Qᵀ).trace = A.trace := by
  rw [Matrix.trace_mul_comm, ← Matrix.mul_assoc, orth, Matrix.one_mul]

include orth in
theorem unturn (A : Matrix (Fin dim) (Fin dim) ℝ) : Q * (Qᵀ * A * Q) * Qᵀ = A := by
  have h2 : Q * Qᵀ = 1 := mul_eq_one_comm.mp orth
  rw [show Q * (Qᵀ * A * Q) * Qᵀ = (Q * Qᵀ) * A * (Q * Qᵀ) by simp only [Matrix.mul_assoc], h2, Matrix.one_mul, Matrix.mul_one]

include orth in
theorem hooke_turn (A : Matrix (Fin dim) (Fin dim) ℝ) : hooke (Q * A * Qᵀ) = Q * hooke A * Qᵀ := by
  have h2 : Q * Qᵀ = 1 := mul_eq_one_comm.mp orth
  unfold hooke
  rw [trace_turn Q orth, Matrix.mul_add, Matrix.add_mul, Matrix.mul_smul, Matrix.smul_mul, Matrix.mul_one, h2, Matrix.mul_smul, Matrix.smul_mul]

theorem strain_turn (A : Matrix (Fin dim) (Fin dim) ℝ) : strain (Q * A * Qᵀ) = Q * strain A * Qᵀ := by
  unfold strain
  rw [Matrix.mul_smul, Matrix.smul_mul, Matrix.mul_add, Matrix.add_mul]
  simp only [Matrix.transpose_mul, Matrix.transpose_transpose, Matrix.mul_assoc]

include orth in
theorem dev_turn (A : Matrix (Fin dim) (Fin dim) ℝ) : dev (Q * A * Qᵀ) = Q * dev A * Qᵀ := by
  have h2 : Q * Qᵀ = 1 := mul_eq_one_comm.mp orth
  unfold dev
  rw [trace_turn Q orth, Matrix.mul_sub, Matrix.sub_mul, Matrix.mul_smul, Matrix.smul_mul, Matrix.mul_one, h2]

theorem ddot_trace (A B : Matrix (Fin dim) (Fin dim) ℝ) : ddot A B = (A * Bᵀ).trace := by
  simp [ddot, Matrix.trace, Matrix.mul_apply]

include orth in
theorem ddot_turn (A B : Matrix (Fin dim) (Fin dim) ℝ) : ddot (Q * A * Qᵀ) (Q * B * Qᵀ) = ddot A B := by
  rw [ddot_trace, ddot_trace]
  have e : Q * A * Qᵀ * (Q * B * Qᵀ)ᵀ = Q * (A * Bᵀ) * Qᵀ := by
    rw [Matrix.transpose_mul, Matrix.transpose_mul, Matrix.transpose_transpose]
    rw [show Q * A * Qᵀ * (Q * (Bᵀ * Qᵀ)) = Q * A * (Qᵀ * Q) * (Bᵀ * Qᵀ) by simp only [Matrix.mul_assoc], orth]
    simp only [Matrix.mul_assoc, Matrix.one_mul]
  rw [e, trace_turn Q orth]

include orth in
theorem returnMap_turn (g so eo : Matrix (Fin dim) (Fin dim) ℝ) : returnMap (Q * g * Qᵀ) (Q * so * Qᵀ) (Q * eo * Qᵀ) = Q * returnMap g so eo * Qᵀ := by
  have h1 : isoLaw lame shearMod (strain (Q * g * Qᵀ) - Q * eo * Qᵀ) + Q * so * Qᵀ = Q * (isoLaw lame shearMod (strain g - eo) + so) * Qᵀ := by
    rw [strain_turn, ← Matrix.sub_mul, ← Matrix.mul_sub, Matrix.mul_add, Matrix.add_mul]
    exact congrArg (· + _) (hooke_turn Q orth _)
  have h2 : ∀ T : Matrix (Fin dim) (Fin dim) ℝ, mises (Q * T * Qᵀ) = mises T := fun T => by
    unfold mises
    rw [dev_turn Q orth, ddot_turn Q orth]
  rw [returnMap_radial, returnMap_radial, h1]
  unfold radial
  rw [h2, dev_turn Q orth, Matrix.mul_sub, Matrix.sub_mul, Matrix.mul_smul, Matrix.smul_mul]

/-- **C147 (linear elasticity).** A similar body of the same material with similar loads and displacements has the similar residual: the law has no direction. -/
theorem C147_elastic {F : Fem nn nq nf nfq dim dim} (hp : Partition F) (u R : ℕ → Fin dim → ℝ) (h : (elasticFem F).computeResidual u = .ok R) :
    (elasticFem ((similar lam Q t num pos orth).apply F)).computeResidual ((similar lam Q t num pos orth).field u) = .ok ((similar lam Q t num pos orth).forces R) := by
  have hlaw : (similar lam Q t num pos orth).law (fun g => elasticStress (Matrix.of g)) = fun g => elasticStress (Matrix.of g) := by
    funext H
    rw [similar_law, elasticStress, ← hooke_turn Q orth, ← strain_turn, unturn Q orth]
    rfl
  have e : (similar lam Q t num pos orth).apply (elasticFem F) = elasticFem ((similar lam Q t num pos orth).apply F) :=
    congrArg (fun T => ({ (similar lam Q t num pos orth).apply F with tensorMap := some T, massMap := none, lapRows := none, massRows := none } : Fem nn nq nf nfq dim dim))
      (funext fun _ => funext fun _ => hlaw)
  rw [← e]
  exact C147_residual (F := elasticFem F) _ ⟨hp.vals, hp.grads, hp.faceVals, hp.faceGrads⟩ u R h

theorem getD_turn (l : List (Fin nq → Matrix (Fin dim) (Fin dim) ℝ)) (k : ℕ) (q : Fin nq) : (l.map fun s q => Q * s q * Qᵀ).getD k 0 q = Q * l.getD k 0 q * Qᵀ := by
  simp only [List.getD_eq_getElem?_getD, List.getElem?_map]
  cases l[k]? with
  | none => simp
  | some x => rfl

/-- **C147 (plasticity, one step).** With turned stored stresses and strains the same holds for the plastic material. -/
theorem C147_plastic {F : Fem nn nq nf nfq dim dim} (hp : Partition F) (st : PlastState nq dim) (u R : ℕ → Fin dim → ℝ) (h : (plastFem F st).computeResidual u = .ok R) :
    (plastFem ((similar lam Q t num pos orth).apply F) (turnState Q st)).computeResidual ((similar lam Q t num pos orth).field u) = .ok ((similar lam Q t num pos orth).forces R) := by
  have hlaw : ∀ k q, (similar lam Q t num pos orth).law (fun g => returnMap (Matrix.of g) (st.sig.getD k 0 q) (st.eps.getD k 0 q)) =
      fun g => returnMap (Matrix.of g) ((turnState Q st).sig.getD k 0 q) ((turnState Q st).eps.getD k 0 q) := by
    intro k q
    funext H
    rw [similar_law lam Q t num pos orth fun g => returnMap g (st.sig.getD k 0 q) (st.eps.getD k 0 q), ← returnMap_turn Q orth, unturn Q orth]
    unfold turnState
    rw [getD_turn, getD_turn]
  have e : (similar lam Q t num pos orth).apply (plastFem F st) = plastFem ((similar lam Q t num pos orth).apply F) (turnState Q st) := by
    have hl : (turnState Q st).sig.length = st.sig.length := List.length_map _
    unfold plastFem
    rw [hl]
    exact congrArg (fun T => ({ (similar lam Q t num pos orth).apply F with tensorMap := some T, massMap := none, lapRows := some st.sig.length, massRows := none } : Fem nn nq nf nfq dim dim))
      (funext fun k => funext fun q => hlaw k q)
  rw [← e]
  exact C147_residual (F := plastFem F st) _ ⟨hp.vals, hp.grads, hp.faceVals, hp.faceGrads⟩ u R h

theorem solToGrad_turn {F : Fem nn nq nf nfq dim dim} (hp : Partition F) (u : ℕ → Fin dim → ℝ) :
    ((similar lam Q t num pos orth).apply F).solToGrad ((similar lam Q t num pos orth).field u) = (F.solToGrad u).map fun g q i d => (Q * Matrix.of (g q) * Qᵀ) i d := by
  have hg : ∀ c q, ((similar lam Q t num pos orth).apply F).gradAt ((similar lam Q t num pos orth).field u) (fun a => num (c a)) q = fun i d => (Q * Matrix.of (F.gradAt u c q) * Qᵀ) i d := by
    intro c q
    have h := grad_apply (similar lam Q t num pos orth) hp u c q
    have e : (similar lam Q t num pos orth).lam⁻¹ • ((similar lam Q t num pos orth).W * Matrix.of (F.gradAt u c q) * (similar lam Q t num pos orth).Qᵀ) = Q * Matrix.of (F.gradAt u c q) * Qᵀ := by
      show lam⁻¹ • ((lam • Q) * Matrix.of (F.gradAt u c q) * Qᵀ) = _
      rw [Matrix.smul_mul, Matrix.smul_mul, smul_smul, inv_mul_cancel₀ pos.ne', one_smul]
    rw [e] at h
    exact h
  show (F.cells.map fun c a => num (c a)).map _ = (F.cells.map _).map _
  rw [List.map_map, List.map_map]
  exact List.map_congr_left fun c _ => funext fun q => hg c q

/-- **C147 (plasticity, load histories).** The stresses and strains stored after the turned load history on the moved body are the turned ones. -/
theorem C147_history {F : Fem nn nq nf nfq dim dim} (hp : Partition F) (sols : List (ℕ → Fin dim → ℝ)) :
    plastRun ((similar lam Q t num pos orth).apply F) (sols.map (similar lam Q t num pos orth).field) = (plastRun F sols).map (turnState Q) := by
  have hstep : ∀ st u, updateStressStrain ((similar lam Q t num pos orth).apply F) (turnState Q st) ((similar lam Q t num pos orth).field u) = (updateStressStrain F st u).map (turnState Q) := by
    intro st u
    unfold updateStressStrain
    rw [solToGrad_turn lam Q t num pos orth hp]
    simp only [turnState, List.length_map]
    by_cases hc : (F.solToGrad u).length = st.sig.length ∧ st.sig.length = st.eps.length
    · rw [if_pos hc, if_pos hc]
      simp only [Except.map, List.zip_map, List.map_map]
      congr 2
      · rw [List.map_map]
        refine List.map_congr_left fun p _ => ?_
        funext q
        exact returnMap_turn Q orth (Matrix.of (p.1 q)) (p.2.1 q) (p.2.2 q)
      · rw [List.map_map]
        refine List.map_congr_left fun g _ => ?_
        funext q
        exact strain_turn Q (Matrix.of (g q))
    · rw [if_neg hc, if_neg hc]
      rfl
  have hinit : plastInit ((similar lam Q t num pos orth).apply F) = turnState Q (plastInit F) := by
    unfold plastInit turnState
    simp only [List.map_map]
    show PlastState.mk ((F.cells.map fun c a => num (c a)).map _) ((F.cells.map fun c a => num (c a)).map _) = _
    rw [List.map_map]
    congr 1 <;> exact List.map_congr_left fun c _ => funext fun q => by simp
  have key : ∀ (l : List (ℕ → Fin dim → ℝ)) (st : PlastState nq dim), (l.map (similar lam Q t num pos orth).field).foldlM (updateStressStrain ((similar lam Q t num pos orth).apply F)) (turnState Q st)
      = (l.foldlM (updateStressStrain F) st).map (turnState Q) := by
    intro l
    induction l with
    | nil => intro st; rfl
    | cons u l ih =>
      intro st
      rw [List.map_cons, List.foldlM_cons, List.foldlM_cons, hstep]
      cases updateStressStrain F st u with
      | error e => rfl
      | ok st' => exact ih st'
  unfold plastRun
  rw [hinit]
  exact key sols _

/-! ## Hyperelasticity -/

/-- The residual depends on the law only through the stress of the gradients at hand. -/
theorem residual_law {G : Fem nn nq nf nfq dim vec} (T' : ℕ → Fin nq → (Fin vec → Fin dim → ℝ) → Fin vec → Fin dim → ℝ) (T : ℕ → Fin nq → (Fin vec → Fin dim → ℝ) → Fin vec → Fin dim → ℝ)
    (u R : ℕ → Fin vec → ℝ) (hT : ∀ c ∈ G.cells, ∀ k q, T k q (G.gradAt u c q) = T' k q (G.gradAt u c q)) (h : ({ G with tensorMap := some T } : Fem nn nq nf nfq dim vec).computeResidual u = .ok R) :
    ({ G with tensorMap := some T' } : Fem nn nq nf nfq dim vec).computeResidual u = .ok R := by
  obtain ⟨R', h'⟩ := (C13_returns { G with tensorMap := some T' } u).mpr ((C13_returns { G with tensorMap := some T } u).mp ⟨R, h⟩)
  rw [h']
  congr 1
  funext n i
  rw [C13_residual _ _ _ h', C13_residual _ u R h n i]
  refine congrArg₂ (· - ·) (congrArg₂ (· - ·) (congrArg₂ (· + ·) ?_ rfl) rfl) rfl
  refine congrArg List.sum (List.map_congr_left fun p hp => ?_)
  refine congrArg (nodal n p.1) (funext fun a => ?_)
  unfold Fem.volTerm
  refine sum_congr rfl fun q _ => ?_
  have e : ({ G with tensorMap := some T' } : Fem nn nq nf nfq dim vec).stress p.2 q (({ G with tensorMap := some T' } : Fem nn nq nf nfq dim vec).gradAt u p.1 q) =
      ({ G with tensorMap := some T } : Fem nn nq nf nfq dim vec).stress p.2 q (({ G with tensorMap := some T } : Fem nn nq nf nfq dim vec).gradAt u p.1 q) :=
    (hT p.1 (List.fst_mem_of_mem_zipIdx hp) p.2 q).symm
  rw [e]
  rfl

include orth in
theorem pkOf_turn (hdet : Q.det = 1) (A : Matrix (Fin dim) (Fin dim) ℝ) (hJ : 0 < A.det) : pkOf (Q * A * Qᵀ) = Q * pkOf A * Qᵀ := by
  have h2 : Q * Qᵀ = 1 := mul_eq_one_comm.mp orth
  have hJ' : 0 < (A * Qᵀ).det := by rw [Matrix.det_mul, Matrix.det_transpose, hdet, mul_one]; exact hJ
  have hQi : (Qᵀ)⁻¹ = Q := Matrix.inv_eq_left_inv h2
  rw [Matrix.mul_assoc, (C31_stress_objective (A * Qᵀ) Q hJ' orth hdet).1, Matrix.mul_assoc]
  congr 1
  have h1 : (A * Qᵀ).det = A.det := by rw [Matrix.det_mul, Matrix.det_transpose, hdet, mul_one]
  have h3 : ((A * Qᵀ)ᵀ * (A * Qᵀ)).trace = (Aᵀ * A).trace := by
    rw [Matrix.transpose_mul, Matrix.transpose_transpose, show Q * Aᵀ * (A * Qᵀ) = Q * (Aᵀ * A) * Qᵀ by simp only [Matrix.mul_assoc], trace_turn Q orth]
  have h4 : ((A * Qᵀ)⁻¹)ᵀ = (A⁻¹)ᵀ * Qᵀ := by rw [Matrix.mul_inv_rev, hQi, Matrix.transpose_mul]
  rw [C31_stress _ hJ', C31_stress _ hJ, h1, h3, h4]
  simp only [Matrix.add_mul, Matrix.sub_mul, Matrix.smul_mul]

/-- **C147 (hyperelasticity).** The same for finite deformations, as long as no quadrature point is turned inside out and the motion is no reflection. -/
theorem C147_hyper (hdet : Q.det = 1) {F : Fem nn nq nf nfq dim dim} (hp : Partition F) (u R : ℕ → Fin dim → ℝ) (hJ : ∀ c ∈ F.cells, ∀ q, 0 < (Matrix.of (F.gradAt u c q) + 1 : Matrix (Fin dim) (Fin dim) ℝ).det)
    (h : (hyperFem F).computeResidual u = .ok R) :
    (hyperFem ((similar lam Q t num pos orth).apply F)).computeResidual ((similar lam Q t num pos orth).field u) = .ok ((similar lam Q t num pos orth).forces R) := by
  have h1 := C147_residual (F := hyperFem F) (similar lam Q t num pos orth) ⟨hp.vals, hp.grads, hp.faceVals, hp.faceGrads⟩ u R h
  refine residual_law (G := hyperFem ((similar lam Q t num pos orth).apply F)) (fun _ _ g => firstPK (Matrix.of g)) (fun _ _ => (similar lam Q t num pos orth).law fun g => firstPK (Matrix.of g)) _ _ ?_ h1
  intro c' hc' k q
  obtain ⟨c, hc, rfl⟩ := List.mem_map.mp (show c' ∈ F.cells.map fun c a => num (c a) from hc')
  have hg := grad_apply (similar lam Q t num pos orth) hp u c q
  have e : (similar lam Q t num pos orth).lam⁻¹ • ((similar lam Q t num pos orth).W * Matrix.of (F.gradAt u c q) * (similar lam Q t num pos orth).Qᵀ) = Q * Matrix.of (F.gradAt u c q) * Qᵀ := by
    show lam⁻¹ • ((lam • Q) * Matrix.of (F.gradAt u c q) * Qᵀ) = _
    rw [Matrix.smul_mul, Matrix.smul_mul, smul_smul, inv_mul_cancel₀ pos.ne', one_smul]
  rw [e] at hg
  rw [similar_law]
  show Q * firstPK (Qᵀ * Matrix.of (((similar lam Q t num pos orth).apply F).gradAt ((similar lam Q t num pos orth).field u) (fun a => num (c a)) q) * Q) * Qᵀ
    = firstPK (Matrix.of (((similar lam Q t num pos orth).apply F).gradAt ((similar lam Q t num pos orth).field u) (fun a => num (c a)) q))
  have hg' : Matrix.of (((similar lam Q t num pos orth).apply F).gradAt ((similar lam Q t num pos orth).field u) (fun a => num (c a)) q) = Q * Matrix.of (F.gradAt u c q) * Qᵀ := hg
  have h2 : Q * Qᵀ = 1 := mul_eq_one_comm.mp orth
  rw [hg', show Qᵀ * (Q * Matrix.of (F.gradAt u c q) * Qᵀ) * Q = (Qᵀ * Q) * Matrix.of (F.gradAt u c q) * (Qᵀ * Q) by simp only [Matrix.mul_assoc], orth, Matrix.one_mul, Matrix.mul_one]
  unfold firstPK
  rw [← pkOf_turn Q orth hdet _ (hJ c hc q), Matrix.mul_add, Matrix.add_mul, Matrix.mul_one, h2]

/-- **C147 (superposed rotation).** Without loads: turning and shifting the deformed body, with the mesh in place, turns the hyperelastic residual; so a body turned as a whole stays in equilibrium. -/
theorem C147_spin (hdet : Q.det = 1) (orth : Qᵀ * Q = 1) (F : Fem nn nq nf nfq dim dim) (hsum : ∀ q b, ∑ n, F.shapeGradsRef q n b = 0) (hgeo : ∀ c ∈ F.cells, ∀ q, (F.jacobian c q).det ≠ 0)
    (h1 : F.cauchy = none) (h2 : F.neumann = none) (h3 : F.source = none) (h4 : F.bodyVar = none) (u R : ℕ → Fin dim → ℝ)
    (hJ : ∀ c ∈ F.cells, ∀ q, 0 < (Matrix.of (F.gradAt u c q) + 1 : Matrix (Fin dim) (Fin dim) ℝ).det) (h : (hyperFem F).computeResidual u = .ok R) :
    (hyperFem F).computeResidual (fun n => Q *ᵥ (F.points n + u n) + t - F.points n) = .ok fun n => Q *ᵥ R n := by
  obtain ⟨R', h'⟩ := (C13_returns (hyperFem F) (fun n => Q *ᵥ (F.points n + u n) + t - F.points n)).mpr ((C13_returns (hyperFem F) u).mp ⟨R, h⟩)
  rw [h']
  congr 1
  funext n i
  have hg : ∀ c ∈ F.cells, ∀ q, (Matrix.of (F.gradAt (fun n => Q *ᵥ (F.points n + u n) + t - F.points n) c q) + 1 : Matrix (Fin dim) (Fin dim) ℝ) = Q * (Matrix.of (F.gradAt u c q) + 1) := by
    intro c hc q
    have ha := gradAt_affine F hsum (fun i d => (Q - 1) i d) t (fun n i => ∑ d, (Q - 1) i d * F.points n d + t i) c (fun _ _ => rfl) q (hgeo c hc q)
    have e : F.gradAt (fun n => Q *ᵥ (F.points n + u n) + t - F.points n) c q = fun i d => (Q - 1) i d + (Q * Matrix.of (F.gradAt u c q)) i d := by
      funext i d
      rw [← congrFun (congrFun ha i) d]
      simp only [Fem.gradAt, Matrix.mul_apply, Matrix.of_apply]
      have e1 : ∀ n, (Q *ᵥ (F.points n + u n) + t - F.points n) i = (∑ d, (Q - 1) i d * F.points n d + t i) + ∑ j, Q i j * u n j := by
        intro n
        have e2 : (Q *ᵥ (F.points n + u n) + t - F.points n) = (Q - 1) *ᵥ F.points n + t + Q *ᵥ u n := by
          rw [Matrix.mulVec_add, Matrix.sub_mulVec, Matrix.one_mulVec]
          abel
        rw [e2]
        rfl
      simp only [e1, add_mul, sum_add_distrib]
      congr 1
      simp only [sum_mul, mul_sum]
      rw [sum_comm]
      exact sum_congr rfl fun j _ => sum_congr rfl fun n _ => by ring
    rw [e, Matrix.mul_add, Matrix.mul_one]
    ext i d
    simp only [Matrix.add_apply, Matrix.of_apply, Matrix.sub_apply]
    ring
  have hvol : ∀ c ∈ F.cells, ∀ k a i, (hyperFem F).volTerm (fun n => Q *ᵥ (F.points n + u n) + t - F.points n) c k a i = ∑ j, Q i j * (hyperFem F).volTerm u c k a j := by
    intro c hc k a i
    unfold Fem.volTerm
    simp only [mul_sum]
    rw [sum_comm]
    refine sum_congr rfl fun q _ => ?_
    have hm : ∀ v i, (hyperFem F).massAt k q v i = 0 := fun _ _ => rfl
    have hs : ∀ d, (hyperFem F).stress k q ((hyperFem F).gradAt (fun n => Q *ᵥ (F.points n + u n) + t - F.points n) c q) i d = ∑ j, Q i j * (hyperFem F).stress k q ((hyperFem F).gradAt u c q) j d := by
      intro d
      show pkOf (Matrix.of (F.gradAt (fun n => Q *ᵥ (F.points n + u n) + t - F.points n) c q) + 1) i d = ∑ j, Q i j * pkOf (Matrix.of (F.gradAt u c q) + 1) j d
      rw [hg c hc q, (C31_stress_objective _ Q (hJ c hc q) orth hdet).1]
      rfl
    simp only [hm, hs, zero_mul, add_zero, sum_mul, mul_sum]
    rw [sum_comm]
    exact sum_congr rfl fun j _ => sum_congr rfl fun d _ => by ring
  have hload : ∀ c q i, (hyperFem F).load c q i = 0 := by
    intro c q i
    unfold Fem.load
    rw [show (hyperFem F).bodyVar = none from h4, show (hyperFem F).source = none from h3]
  have hR : ∀ (v S : ℕ → Fin dim → ℝ), (hyperFem F).computeResidual v = .ok S → ∀ i, S n i = (F.cells.zipIdx.map fun p => nodal n p.1 fun a => (hyperFem F).volTerm v p.1 p.2 a i).sum := by
    intro v S hS i
    have hc : (hyperFem F).cauchy = none := h1
    have hn : (hyperFem F).neumann = none := h2
    rw [C13_residual _ v S hS n i, hc, hn]
    simp [hload, Fem.pairs, nodal]
    rfl
  rw [hR _ R' h' i]
  show _ = ∑ j, Q i j * R n j
  simp only [hR u R h]
  have hlin : ∀ l : List ((Fin nn → ℕ) × ℕ), (∀ p ∈ l, p.1 ∈ F.cells) → (l.map fun p => nodal n p.1 fun a => (hyperFem F).volTerm (fun n => Q *ᵥ (F.points n + u n) + t - F.points n) p.1 p.2 a i).sum
      = ∑ j, Q i j * (l.map fun p => nodal n p.1 fun a => (hyperFem F).volTerm u p.1 p.2 a j).sum := by
    intro l hl
    induction l with
    | nil => simp
    | cons p l ih =>
      simp only [List.map_cons, List.sum_cons, mul_add, sum_add_distrib]
      rw [ih fun p hp => hl p (List.mem_cons_of_mem _ hp)]
      congr 1
      simp only [hvol p.1 (hl p List.mem_cons_self)]
      unfold nodal
      simp only [mul_sum]
      rw [sum_comm]
  exact hlin _ fun p hp => List.fst_mem_of_mem_zipIdx hp

end laws

/-! ## Examples -/

/-- **C147 (every element).** The hypothesis on the shape functions holds for every element of the package, with any quadrature rules. -/
theorem C147_elements (F : Fem nn nq nf nfq dim vec) (name : String) (hn : name ∈ lagrangeNames) (e : Elem) (he : getElements name = some e) (hnn : nn = (meshioNodes name).length)
    (pts : Fin nq → ℕ → ℝ) (h : Tabulated F e pts) (rule : QuadRule nfq) (ht : FaceTables F e rule) : Partition F :=
  ⟨(h.sums hn he hnn).2, (h.sums hn he hnn).1, faceTables_valSum F name hn e he hnn rule ht, faceTables_gradSum F name hn e he hnn rule ht⟩

theorem boxExample_partition : Partition boxExample :=
  C147_elements boxExample "HEX8" (by decide) hex8 getElements_hex8 (by decide) _ ⟨fun _ _ => rfl, fun _ _ _ => rfl⟩ (gaussRule 2) (ofElement_hex8_face _ _ _ _ _)

/-- A quarter turn about the third axis. -/
def quarter : Matrix (Fin 3) (Fin 3) ℝ := !![0, -1, 0; 1, 0, 0; 0, 0, 1]

theorem quarter_orth : quarterᵀ * quarter = 1 := by
  ext i j
  fin_cases i <;> fin_cases j <;> simp [quarter, Matrix.mul_apply, Fin.sum_univ_three]

theorem quarter_det : quarter.det = 1 := by simp [quarter, Matrix.det_fin_three]

/-- The box of twice the size, turned and shifted, with its first two nodes exchanged: for every displacement the elastic residual of the box exists, and the one of the moved box is the turned one times four (the ratio of the areas). -/
example (u : ℕ → Fin 3 → ℝ) : ∃ R, (elasticFem boxExample).computeResidual u = .ok R ∧
    (elasticFem ((similar 2 quarter ![5, 0, 1] (Equiv.swap 0 1) two_pos quarter_orth).apply boxExample)).computeResidual (fun n => (2 : ℝ) • quarter *ᵥ u (Equiv.swap 0 1 n))
      = .ok fun n => (4 : ℝ) • quarter *ᵥ R (Equiv.swap 0 1 n) := by
  obtain ⟨R, hR⟩ : ∃ R, (elasticFem boxExample).computeResidual u = .ok R := by
    rw [C13_returns]
    refine ⟨?_, ?_, ?_, ?_, ?_⟩
    · decide +kernel
    all_goals
      intro _ h
      cases h
  refine ⟨R, hR, ?_⟩
  have h := C147_elastic 2 quarter ![5, 0, 1] (Equiv.swap 0 1) two_pos quarter_orth boxExample_partition u R hR
  have e1 : (similar 2 quarter ![5, 0, 1] (Equiv.swap 0 1) two_pos quarter_orth).field u = fun n => (2 : ℝ) • quarter *ᵥ u (Equiv.swap 0 1 n) := by
    funext n
    exact Matrix.smul_mulVec _ _ _
  have e2 : (similar 2 quarter ![5, 0, 1] (Equiv.swap 0 1) two_pos quarter_orth).forces R = fun n => (4 : ℝ) • quarter *ᵥ R (Equiv.swap 0 1 n) := by
    funext n
    have hf : (similar 2 quarter ![5, 0, 1] (Equiv.swap 0 1) two_pos quarter_orth).factor = 4 := by
      show (2 : ℝ) ^ 3 * 2⁻¹ * quarter.det = 4
      rw [quarter_det]
      norm_num
    unfold Move.forces
    rw [hf]
    rfl
  rw [e1, e2] at h
  exact h

/-- The cells of the box in reverse order. -/
example (u R : ℕ → Fin 3 → ℝ) (h : (elasticFem boxExample).computeResidual u = .ok R) : (reorder (elasticFem boxExample) Fin.revPerm).computeResidual u = .ok R :=
  C147_order _ _ (fun _ h => by cases h) u R h

example : (reorder boxExample Fin.revPerm).cells ≠ boxExample.cells := by decide +kernel

/-- The hyperelastic box at rest, turned as a whole, stays without forces. -/
example : (hyperFem boxExample).computeResidual (fun n => quarter *ᵥ boxExample.points n + ![5, 0, 1] - boxExample.points n) = .ok fun _ => 0 := by
  have h0 : (hyperFem boxExample).computeResidual 0 = .ok 0 := by
    obtain ⟨R, hR⟩ : ∃ R, (hyperFem boxExample).computeResidual 0 = .ok R := by
      rw [C13_returns]
      refine ⟨?_, ?_, ?_, ?_, ?_⟩
      · decide +kernel
      all_goals
        intro _ h
        cases h
    rw [hR]
    congr 1
    funext n i
    have hv : ∀ c k a i, (hyperFem boxExample).volTerm 0 c k a i = 0 := by
      intro c k a i
      unfold Fem.volTerm
      refine sum_eq_zero fun q _ => ?_
      have hs : (hyperFem boxExample).stress k q ((hyperFem boxExample).gradAt 0 c q) = 0 := by
        have e : (hyperFem boxExample).gradAt 0 c q = (0 : Matrix (Fin 3) (Fin 3) ℝ) := by
          funext i d
          simp [Fem.gradAt]
        rw [e]
        exact C31_rest
      have hm : ∀ v i, (hyperFem boxExample).massAt k q v i = 0 := fun _ _ => rfl
      rw [hs, hm]
      simp
    have hl : ∀ c q i, (hyperFem boxExample).load c q i = 0 := fun _ _ _ => rfl
    rw [C13_residual _ _ _ hR]
    simp only [hv, hl]
    show _ + ((Fem.pairs none).map _).sum - _ - ((Fem.pairs none).map _).sum = (0 : ℝ)
    simp [Fem.pairs, nodal]
  have hgr : ∀ c q, Matrix.of (boxExample.gradAt 0 c q) = 0 := by
    intro c q
    ext i d
    simp [Fem.gradAt]
  have h := C147_spin quarter ![5, 0, 1] quarter_det quarter_orth boxExample boxExample_partition.grads ?_ rfl rfl rfl rfl 0 0 ?_ h0
  · simpa using h
  · intro c hc q
    obtain ⟨g, hg, rfl⟩ := (boxExample_onBox.mem_cells c).mp hc
    rw [boxExample_onBox.jacobian (gaussRule 3) ⟨fun _ _ => rfl, fun _ _ _ => rfl, fun _ => rfl⟩ g hg q, Matrix.det_diagonal, Fin.prod_univ_three]
    show (4 : ℝ) / ((2 : ℕ) : ℝ) * (3 / ((1 : ℕ) : ℝ)) * (6 / ((3 : ℕ) : ℝ)) ≠ 0
    norm_num
  · intro c hc q
    rw [hgr, zero_add, Matrix.det_one]
    exact one_pos

end Verif.Fem.Moved
