import Verif.Fem.PropsPatch2
import Verif.Fem.HyperProps
import Verif.Fem.PropsElastic

/-!
# Moved, scaled, renumbered and reordered problems (C147)

The residual of `jax_am/fem/core.py` (`compute_residual`, 779-810, 850-851) depends on a mesh given in some position, in some unit of length, with some numbering of the nodes and some order of the cells.
Shown here: all of these are immaterial. Moving the mesh by any similarity `x ↦ λ Q x + t` (`Q` orthogonal), renumbering the nodes and changing the unknowns and the equations by matrices changes the residual
by exactly these matrices, when the problem data are transformed accordingly; the order of the cells has no influence. For isotropic laws the transformed law is the law itself.
-/
namespace Verif.Fem.Moved
open Finset Matrix Verif.Fem

variable {nn nq nf nfq dim vec : ℕ}

/-! ## Specification -/

/-- A similarity of space `x ↦ lam Q x + t`, a renumbering `num` of the nodes, a change of unknowns `u ↦ W u` with left inverse `Wi`, and a change of equations `Z`. -/
structure Move (dim vec : ℕ) where
  lam : ℝ
  Q : Matrix (Fin dim) (Fin dim) ℝ
  t : Fin dim → ℝ
  W : Matrix (Fin vec) (Fin vec) ℝ
  Wi : Matrix (Fin vec) (Fin vec) ℝ
  Z : Matrix (Fin vec) (Fin vec) ℝ
  num : ℕ ≃ ℕ
  pos : 0 < lam
  orth : Qᵀ * Q = 1
  inv : Wi * W = 1

namespace Move
variable (m : Move dim vec)

/-- Where a point goes. -/
def fwd (x : Fin dim → ℝ) : Fin dim → ℝ := m.lam • m.Q *ᵥ x + m.t

/-- Where a point comes from. -/
noncomputable def back (x : Fin dim → ℝ) : Fin dim → ℝ := m.lam⁻¹ • m.Qᵀ *ᵥ (x - m.t)

/-- The moved nodal field. -/
def field (u : ℕ → Fin vec → ℝ) : ℕ → Fin vec → ℝ := fun n => m.W *ᵥ u (m.num.symm n)

/-- The factor of the volumes divided by the length. -/
noncomputable def factor : ℝ := m.lam ^ dim * m.lam⁻¹ * m.Q.det

/-- The moved residual. -/
noncomputable def forces (R : ℕ → Fin vec → ℝ) : ℕ → Fin vec → ℝ := fun n => m.factor • m.Z *ᵥ R (m.num.symm n)

/-- The moved flux law. -/
noncomputable def law (T : (Fin vec → Fin dim → ℝ) → Fin vec → Fin dim → ℝ) : (Fin vec → Fin dim → ℝ) → Fin vec → Fin dim → ℝ :=
  fun H i d => (m.Z * Matrix.of (T fun i d => (m.Wi * Matrix.of H * (m.lam • m.Q)) i d) * m.Qᵀ) i d

/-- The moved problem. -/
noncomputable def apply (F : Fem nn nq nf nfq dim vec) : Fem nn nq nf nfq dim vec :=
  { F with
    points := fun n => m.fwd (F.points (m.num.symm n))
    cells := F.cells.map fun c a => m.num (c a)
    tensorMap := F.tensorMap.map fun T k q => m.law (T k q)
    massMap := F.massMap.map fun M k q u => m.lam⁻¹ • m.Z *ᵥ M k q (m.Wi *ᵥ u)
    source := F.source.map fun f x => m.lam⁻¹ • m.Z *ᵥ f (m.back x)
    bodyVar := F.bodyVar.map fun b => (m.field b.1, fun u => m.lam⁻¹ • m.Z *ᵥ b.2 (m.Wi *ᵥ u))
    neumann := F.neumann.map fun lv => (lv.1.map fun l x => l (m.back x), lv.2.map fun g k q x => m.Z *ᵥ g k q (m.back x))
    cauchy := F.cauchy.map fun lv => (lv.1.map fun l x => l (m.back x), lv.2.map fun g u => m.Z *ᵥ g (m.Wi *ᵥ u)) }

end Move

/-- The shape functions of cells and faces sum to one. -/
structure Partition (F : Fem nn nq nf nfq dim vec) : Prop where
  vals : ∀ q, ∑ n, F.shapeVals q n = 1
  grads : ∀ q b, ∑ n, F.shapeGradsRef q n b = 0
  faceVals : ∀ f q, ∑ n, F.faceShapeVals f q n = 1
  faceGrads : ∀ f q b, ∑ n, F.faceShapeGradsRef f q n b = 0

/-! ## Geometry -/

variable (m : Move dim vec)

theorem orth' : m.Q * m.Qᵀ = 1 := mul_eq_one_comm.mp m.orth

theorem back_fwd (x : Fin dim → ℝ) : m.back (m.fwd x) = x := by
  unfold Move.back Move.fwd
  rw [add_sub_cancel_right, Matrix.mulVec_smul, smul_smul, Matrix.mulVec_mulVec, m.orth, Matrix.one_mulVec, inv_mul_cancel₀ m.pos.ne', one_smul]

theorem unfield (u : ℕ → Fin vec → ℝ) (n : ℕ) : m.Wi *ᵥ m.field u (m.num n) = u n := by
  unfold Move.field
  rw [Equiv.symm_apply_apply, Matrix.mulVec_mulVec, m.inv, Matrix.one_mulVec]

theorem fwd_apply (x : Fin dim → ℝ) (i : Fin dim) : m.fwd x i = m.lam * ∑ j, m.Q i j * x j + m.t i := rfl

theorem field_apply (u : ℕ → Fin vec → ℝ) (n : ℕ) (i : Fin vec) : m.field u (m.num n) i = ∑ j, m.W i j * u n j := by
  unfold Move.field
  rw [Equiv.symm_apply_apply]
  rfl

variable {F : Fem nn nq nf nfq dim vec} (hp : Partition F)

theorem coos_apply (c : Fin nn → ℕ) (a : Fin nn) : (m.apply F).coos (fun a => m.num (c a)) a = m.fwd (F.coos c a) := by
  show m.fwd (F.points (m.num.symm (m.num (c a)))) = _
  rw [Equiv.symm_apply_apply]
  rfl

include hp in
theorem jac_sum (x : Fin nn → Fin dim → ℝ) (g : Fin nn → Fin dim → ℝ) (hg : ∀ b, ∑ n, g n b = 0) :
    (Matrix.of fun i j => ∑ n, m.fwd (x n) i * g n j : Matrix (Fin dim) (Fin dim) ℝ) = (m.lam • m.Q) * Matrix.of fun i j => ∑ n, x n i * g n j := by
  ext i j
  simp only [Matrix.of_apply, fwd_apply, add_mul, sum_add_distrib, ← mul_sum, hg, mul_zero, add_zero, Matrix.mul_apply, Matrix.smul_apply, smul_eq_mul]
  simp only [mul_sum, sum_mul]
  rw [sum_comm]
  exact sum_congr rfl fun k _ => sum_congr rfl fun n _ => by ring

theorem lamQ_inv : (m.lam • m.Q)⁻¹ = m.lam⁻¹ • m.Qᵀ := by
  refine Matrix.inv_eq_left_inv ?_
  rw [Matrix.smul_mul, Matrix.mul_smul, m.orth, smul_smul, inv_mul_cancel₀ m.pos.ne', one_smul]

include hp in
theorem jacobian_apply (c : Fin nn → ℕ) (q : Fin nq) : (m.apply F).jacobian (fun a => m.num (c a)) q = (m.lam • m.Q) * F.jacobian c q := by
  unfold Fem.jacobian
  simp only [coos_apply]
  exact jac_sum m hp _ _ (hp.grads q)

include hp in
theorem faceJacobian_apply (c : Fin nn → ℕ) (f : Fin nf) (q : Fin nfq) : (m.apply F).faceJacobian (fun a => m.num (c a)) f q = (m.lam • m.Q) * F.faceJacobian c f q := by
  unfold Fem.faceJacobian
  simp only [coos_apply]
  exact jac_sum m hp _ _ (hp.faceGrads f q)

theorem det_lamQ : (m.lam • m.Q).det = m.lam ^ dim * m.Q.det := by
  rw [Matrix.det_smul, Fintype.card_fin]

theorem det_sq : m.Q.det * m.Q.det = 1 := by
  have := congrArg Matrix.det m.orth
  rwa [Matrix.det_mul, Matrix.det_transpose, Matrix.det_one] at this

theorem det_ne : m.lam ^ dim * m.Q.det ≠ 0 := mul_ne_zero (pow_ne_zero _ m.pos.ne') (left_ne_zero_of_mul_eq_one (det_sq m))

include hp in
theorem shapeGrad_apply (c : Fin nn → ℕ) (q : Fin nq) (a : Fin nn) (d : Fin dim) : (m.apply F).shapeGrad (fun a => m.num (c a)) q a d = m.lam⁻¹ * ∑ e, F.shapeGrad c q a e * m.Q d e := by
  unfold Fem.shapeGrad
  rw [jacobian_apply m hp, Matrix.mul_inv_rev, lamQ_inv]
  simp only [Matrix.mul_apply, Matrix.smul_apply, Matrix.transpose_apply, smul_eq_mul, mul_sum, sum_mul]
  rw [sum_comm]
  exact sum_congr rfl fun e _ => sum_congr rfl fun b _ => by show F.shapeGradsRef q a b * _ = _; ring

include hp in
theorem JxW_apply (c : Fin nn → ℕ) (q : Fin nq) : (m.apply F).JxW (fun a => m.num (c a)) q = m.lam ^ dim * m.Q.det * F.JxW c q := by
  unfold Fem.JxW
  rw [jacobian_apply m hp, Matrix.det_mul, det_lamQ]
  show _ * F.quadWeights q = _
  ring

theorem norm_turn (x : Fin dim → ℝ) : ∑ d, (∑ e, x e * m.Q d e) ^ 2 = ∑ e, x e ^ 2 := by
  have h : ∀ y : Fin dim → ℝ, ∑ d, y d ^ 2 = y ⬝ᵥ y := fun y => sum_congr rfl fun d _ => pow_two _
  have e : (fun d => ∑ e, x e * m.Q d e) = m.Q *ᵥ x := by
    funext d
    exact sum_congr rfl fun e _ => mul_comm _ _
  rw [h, h, e, Matrix.dotProduct_mulVec, Matrix.vecMul_mulVec, m.orth, Matrix.vecMul_one]

include hp in
theorem nanson_apply (c : Fin nn → ℕ) (f : Fin nf) (q : Fin nfq) : (m.apply F).nansonScale (fun a => m.num (c a)) f q = m.factor * F.nansonScale c f q := by
  unfold Fem.nansonScale
  rw [faceJacobian_apply m hp, Matrix.mul_inv_rev, lamQ_inv, Matrix.det_mul, det_lamQ]
  have e : ∀ d, (∑ b, (m.apply F).faceNormals f b * ((F.faceJacobian c f q)⁻¹ * m.lam⁻¹ • m.Qᵀ) b d) = m.lam⁻¹ * ∑ e, (∑ b, F.faceNormals f b * (F.faceJacobian c f q)⁻¹ b e) * m.Q d e := by
    intro d
    simp only [Matrix.mul_apply, Matrix.smul_apply, Matrix.transpose_apply, smul_eq_mul, mul_sum, sum_mul]
    rw [sum_comm]
    exact sum_congr rfl fun e _ => sum_congr rfl fun b _ => by show F.faceNormals f b * _ = _; ring
  simp only [e, mul_pow, ← mul_sum]
  rw [norm_turn, Real.sqrt_mul (sq_nonneg _), Real.sqrt_sq (inv_nonneg.mpr m.pos.le)]
  show _ * _ * F.faceWeights f q = _
  unfold Move.factor
  ring

include hp in
theorem grad_apply (u : ℕ → Fin vec → ℝ) (c : Fin nn → ℕ) (q : Fin nq) : (Matrix.of ((m.apply F).gradAt (m.field u) (fun a => m.num (c a)) q) : Matrix (Fin vec) (Fin dim) ℝ) = m.lam⁻¹ • (m.W * Matrix.of (F.gradAt u c q) * m.Qᵀ) := by
  ext i d
  simp only [Matrix.of_apply, Fem.gradAt, field_apply, shapeGrad_apply m hp, Matrix.smul_apply, Matrix.mul_apply, Matrix.transpose_apply, smul_eq_mul, mul_sum, sum_mul]
  rw [sum_comm]
  refine sum_congr rfl fun e _ => ?_
  rw [sum_comm]
  exact sum_congr rfl fun j _ => sum_congr rfl fun n _ => by ring

include hp in
theorem law_apply (T : (Fin vec → Fin dim → ℝ) → Fin vec → Fin dim → ℝ) (u : ℕ → Fin vec → ℝ) (c : Fin nn → ℕ) (q : Fin nq) (i : Fin vec) (d : Fin dim) :
    m.law T ((m.apply F).gradAt (m.field u) (fun a => m.num (c a)) q) i d = ∑ e, (∑ j, m.Z i j * T (F.gradAt u c q) j e) * m.Q d e := by
  unfold Move.law
  rw [grad_apply m hp]
  have e : m.Wi * (m.lam⁻¹ • (m.W * Matrix.of (F.gradAt u c q) * m.Qᵀ)) * (m.lam • m.Q) = Matrix.of (F.gradAt u c q) := by
    rw [Matrix.mul_smul m.Wi, Matrix.smul_mul, Matrix.mul_smul, smul_smul, inv_mul_cancel₀ m.pos.ne', one_smul, ← Matrix.mul_assoc, ← Matrix.mul_assoc, m.inv, Matrix.one_mul, Matrix.mul_assoc, m.orth, Matrix.mul_one]
  rw [e]
  rfl

theorem uAt_apply (u : ℕ → Fin vec → ℝ) (c : Fin nn → ℕ) (q : Fin nq) : (m.apply F).uAt (m.field u) (fun a => m.num (c a)) q = m.W *ᵥ F.uAt u c q := by
  funext i
  show ∑ n, m.field u (m.num (c n)) i * F.shapeVals q n = ∑ j, m.W i j * ∑ n, u (c n) j * F.shapeVals q n
  simp only [field_apply, mul_sum, sum_mul]
  rw [sum_comm]
  exact sum_congr rfl fun j _ => sum_congr rfl fun n _ => by ring

theorem uFace_apply (u : ℕ → Fin vec → ℝ) (p : (Fin nn → ℕ) × Fin nf) (q : Fin nfq) : (m.apply F).uFace (m.field u) (fun a => m.num (p.1 a), p.2) q = m.W *ᵥ F.uFace u p q := by
  funext i
  show ∑ n, m.field u (m.num (p.1 n)) i * F.faceShapeVals p.2 q n = ∑ j, m.W i j * ∑ n, u (p.1 n) j * F.faceShapeVals p.2 q n
  simp only [field_apply, mul_sum, sum_mul]
  rw [sum_comm]
  exact sum_congr rfl fun j _ => sum_congr rfl fun n _ => by ring

theorem mean_fwd (w : Fin nn → ℝ) (hw : ∑ n, w n = 1) (x : Fin nn → Fin dim → ℝ) : (fun d => ∑ n, w n * m.fwd (x n) d) = m.fwd fun d => ∑ n, w n * x n d := by
  funext d
  simp only [fwd_apply, mul_add, sum_add_distrib, ← sum_mul, hw, one_mul, mul_sum]
  congr 1
  rw [sum_comm]
  exact sum_congr rfl fun j _ => sum_congr rfl fun n _ => by ring

include hp in
theorem xAt_apply (c : Fin nn → ℕ) (q : Fin nq) : (m.apply F).xAt (fun a => m.num (c a)) q = m.fwd (F.xAt c q) := by
  have h := mean_fwd m (F.shapeVals q) (hp.vals q) fun n => F.points (c n)
  refine Eq.trans ?_ h
  funext d
  show ∑ n, F.shapeVals q n * m.fwd (F.points (m.num.symm (m.num (c n)))) d = _
  simp only [Equiv.symm_apply_apply]

include hp in
theorem xFace_apply (p : (Fin nn → ℕ) × Fin nf) (q : Fin nfq) : (m.apply F).xFace (fun a => m.num (p.1 a), p.2) q = m.fwd (F.xFace p q) := by
  have h := mean_fwd m (F.faceShapeVals p.2 q) (hp.faceVals p.2 q) fun n => F.points (p.1 n)
  refine Eq.trans ?_ h
  funext d
  show ∑ n, F.faceShapeVals p.2 q n * m.fwd (F.points (m.num.symm (m.num (p.1 n)))) d = _
  simp only [Equiv.symm_apply_apply]

include hp in
theorem load_apply (c : Fin nn → ℕ) (q : Fin nq) : (m.apply F).load (fun a => m.num (c a)) q = m.lam⁻¹ • m.Z *ᵥ F.load c q := by
  have hx := xAt_apply m hp c q
  have hu := fun u => uAt_apply (F := F) m u c q
  have hb : (m.apply F).bodyVar = F.bodyVar.map fun b => (m.field b.1, fun u => m.lam⁻¹ • m.Z *ᵥ b.2 (m.Wi *ᵥ u)) := rfl
  have hs : (m.apply F).source = F.source.map fun f x => m.lam⁻¹ • m.Z *ᵥ f (m.back x) := rfl
  funext i
  unfold Fem.load
  rw [hb, hs]
  cases hB : F.bodyVar with
  | some b =>
    obtain ⟨s, mm⟩ := b
    show (m.lam⁻¹ • m.Z *ᵥ mm (m.Wi *ᵥ (m.apply F).uAt (m.field s) (fun a => m.num (c a)) q)) i = _
    rw [hu, Matrix.mulVec_mulVec, m.inv, Matrix.one_mulVec]
  | none =>
    cases hS : F.source with
    | some f =>
      show (m.lam⁻¹ • m.Z *ᵥ f (m.back ((m.apply F).xAt (fun a => m.num (c a)) q))) i = _
      rw [hx, back_fwd]
    | none =>
      show (0 : ℝ) = (m.lam⁻¹ • m.Z *ᵥ fun _ => (0 : ℝ)) i
      rw [show (fun _ => (0 : ℝ)) = (0 : Fin vec → ℝ) from rfl, Matrix.mulVec_zero, smul_zero]
      rfl

theorem selected_apply (loc : Loc dim) : (m.apply F).selected (fun x => loc (m.back x)) = (F.selected loc).map fun p => (fun a => m.num (p.1 a), p.2) := by
  unfold Fem.selected
  show (F.cells.map fun c a => m.num (c a)).flatMap _ = _
  rw [List.flatMap_map, List.map_flatMap]
  refine List.flatMap_congr fun c _ => ?_
  rw [List.map_map]
  have h : ∀ f, (m.apply F).onBoundary (fun x => loc (m.back x)) (fun a => m.num (c a)) f = F.onBoundary loc c f := by
    intro f
    unfold Fem.onBoundary
    simp only [coos_apply, back_fwd]
    rfl
  simp only [h]
  rfl

theorem nodal_apply (n : ℕ) (c : Fin nn → ℕ) (v : Fin nn → ℝ) : nodal (m.num n) (fun a => m.num (c a)) v = nodal n c v := by
  unfold nodal
  congr 1
  ext a
  simp

/-! ## The residual -/

/-- The linear form that gives one component of the moved residual. -/
noncomputable def comp (i : Fin vec) (x : Fin vec → ℝ) : ℝ := m.factor * ∑ j, m.Z i j * x j

theorem comp_list {α : Type*} (i : Fin vec) (l : List α) (f : α → Fin vec → ℝ) : (l.map fun p => comp m i (f p)).sum = comp m i fun j => (l.map fun p => f p j).sum := by
  induction l with
  | nil => simp [comp]
  | cons a l ih =>
    rw [List.map_cons, List.sum_cons, ih]
    unfold comp
    rw [← mul_add, ← sum_add_distrib]
    simp only [List.map_cons, List.sum_cons, mul_add]

theorem comp_nodal (i : Fin vec) (n : ℕ) (c : Fin nn → ℕ) (f : Fin nn → Fin vec → ℝ) : (nodal n c fun a => comp m i (f a)) = comp m i fun j => nodal n c fun a => f a j := by
  unfold nodal comp
  rw [← mul_sum, sum_comm]
  simp only [← mul_sum]

theorem comp_sum {ι : Type*} (s : Finset ι) (i : Fin vec) (f : ι → Fin vec → ℝ) : ∑ q ∈ s, comp m i (f q) = comp m i fun j => ∑ q ∈ s, f q j := by
  unfold comp
  rw [← mul_sum, sum_comm]
  simp only [← mul_sum]

theorem comp_add (i : Fin vec) (x y : Fin vec → ℝ) : comp m i x + comp m i y = comp m i fun j => x j + y j := by
  unfold comp
  rw [← mul_add, ← sum_add_distrib]
  simp only [mul_add]

theorem comp_sub (i : Fin vec) (x y : Fin vec → ℝ) : comp m i x - comp m i y = comp m i fun j => x j - y j := by
  unfold comp
  rw [← mul_sub, ← sum_sub_distrib]
  simp only [mul_sub]

theorem comp_scale (i : Fin vec) (x : Fin vec → ℝ) (s : ℝ) : comp m i (fun j => x j * s) = comp m i x * s := by
  unfold comp
  rw [mul_assoc, sum_mul]
  simp only [mul_assoc]

theorem Z_apply (i : Fin vec) (x : Fin vec → ℝ) (s : ℝ) : s * m.factor * (m.Z *ᵥ x) i = comp m i x * s := by
  unfold comp
  show s * m.factor * ∑ j, m.Z i j * x j = _
  ring

include hp in
theorem volTerm_apply (u : ℕ → Fin vec → ℝ) (c : Fin nn → ℕ) (k : ℕ) (a : Fin nn) (i : Fin vec) :
    (m.apply F).volTerm (m.field u) (fun a => m.num (c a)) k a i = comp m i (F.volTerm u c k a) := by
  have hT : ∀ q, ∑ d, (m.apply F).stress k q ((m.apply F).gradAt (m.field u) (fun a => m.num (c a)) q) i d * (m.apply F).shapeGrad (fun a => m.num (c a)) q a d
      = m.lam⁻¹ * ∑ j, m.Z i j * ∑ d, F.stress k q (F.gradAt u c q) j d * F.shapeGrad c q a d := by
    intro q
    have hs : ∀ d, (m.apply F).stress k q ((m.apply F).gradAt (m.field u) (fun a => m.num (c a)) q) i d = ∑ e, (∑ j, m.Z i j * F.stress k q (F.gradAt u c q) j e) * m.Q d e := by
      intro d
      unfold Fem.stress
      have ht : (m.apply F).tensorMap = F.tensorMap.map fun T k q => m.law (T k q) := rfl
      rw [ht]
      cases F.tensorMap with
      | none => simp
      | some T => exact law_apply m hp (T k q) u c q i d
    have hd : ∀ x y : Fin dim → ℝ, ∑ d, (∑ e, x e * m.Q d e) * (∑ e, y e * m.Q d e) = ∑ e, x e * y e := by
      intro x y
      have e : ∀ z : Fin dim → ℝ, (fun d => ∑ e, z e * m.Q d e) = m.Q *ᵥ z := fun z => by
        funext d
        exact sum_congr rfl fun e _ => mul_comm _ _
      show (fun d => ∑ e, x e * m.Q d e) ⬝ᵥ (fun d => ∑ e, y e * m.Q d e) = x ⬝ᵥ y
      rw [e, e, Matrix.dotProduct_mulVec, Matrix.vecMul_mulVec, m.orth, Matrix.vecMul_one]
    simp only [hs, shapeGrad_apply m hp]
    have e2 : ∀ d, (∑ e, (∑ j, m.Z i j * F.stress k q (F.gradAt u c q) j e) * m.Q d e) * (m.lam⁻¹ * ∑ e, F.shapeGrad c q a e * m.Q d e)
        = m.lam⁻¹ * ((∑ e, (∑ j, m.Z i j * F.stress k q (F.gradAt u c q) j e) * m.Q d e) * ∑ e, F.shapeGrad c q a e * m.Q d e) := fun d => by ring
    simp only [e2, ← mul_sum]
    rw [hd]
    congr 1
    simp only [sum_mul, mul_sum]
    rw [sum_comm]
    exact sum_congr rfl fun j _ => sum_congr rfl fun e _ => by ring
  have hM : ∀ q, (m.apply F).massAt k q ((m.apply F).uAt (m.field u) (fun a => m.num (c a)) q) i = m.lam⁻¹ * ∑ j, m.Z i j * F.massAt k q (F.uAt u c q) j := by
    intro q
    unfold Fem.massAt
    have ht : (m.apply F).massMap = F.massMap.map fun M k q u => m.lam⁻¹ • m.Z *ᵥ M k q (m.Wi *ᵥ u) := rfl
    rw [ht]
    cases F.massMap with
    | none => simp
    | some M =>
      show (m.lam⁻¹ • m.Z *ᵥ M k q (m.Wi *ᵥ (m.apply F).uAt (m.field u) (fun a => m.num (c a)) q)) i = _
      rw [uAt_apply, Matrix.mulVec_mulVec, m.inv, Matrix.one_mulVec]
      rfl
  unfold Fem.volTerm
  rw [← comp_sum m univ i fun q j => ((∑ d, F.stress k q (F.gradAt u c q) j d * F.shapeGrad c q a d) + F.massAt k q (F.uAt u c q) j * F.shapeVals q a) * F.JxW c q]
  refine sum_congr rfl fun q _ => ?_
  rw [hT, hM, JxW_apply m hp, comp_scale, ← comp_add m i (fun j => ∑ d, F.stress k q (F.gradAt u c q) j d * F.shapeGrad c q a d), comp_scale]
  show (_ + _ * F.shapeVals q a) * _ = _
  unfold comp Move.factor
  ring

theorem pairs_map {α β γ δ : Type} (o : Option (List α × List β)) (f : α → γ) (g : β → δ) : Fem.pairs (o.map fun lv => (lv.1.map f, lv.2.map g)) = (Fem.pairs o).map fun p => (f p.1, g p.2) := by
  cases o with
  | none => rfl
  | some lv =>
    show (lv.1.map f).zip (lv.2.map g) = (lv.1.zip lv.2).map _
    rw [List.zip_map]
    rfl

include hp in
/-- **C147 (when it returns).** The moved residual can be computed exactly when the given one can. -/
theorem C147_returns (u : ℕ → Fin vec → ℝ) : (∃ R, (m.apply F).computeResidual (m.field u) = .ok R) ↔ ∃ R, F.computeResidual u = .ok R := by
  rw [C13_returns, C13_returns]
  have hlen : (m.apply F).cells.length = F.cells.length := List.length_map _
  have hface : ∀ l, (∀ p ∈ (m.apply F).selected (fun x => l (m.back x)), ∀ q, ((m.apply F).faceJacobian p.1 p.2 q).det ≠ 0) ↔ ∀ p ∈ F.selected l, ∀ q, (F.faceJacobian p.1 p.2 q).det ≠ 0 := by
    intro l
    rw [selected_apply]
    simp only [List.forall_mem_map, faceJacobian_apply m hp, Matrix.det_mul, det_lamQ]
    refine forall₂_congr fun p _ => forall_congr' fun q => ?_
    exact ⟨fun h h0 => h (by rw [h0, mul_zero]), fun h => mul_ne_zero (det_ne m) h⟩
  refine and_congr ?_ (and_congr ?_ (and_congr ?_ (and_congr ?_ ?_)))
  · exact not_congr List.map_eq_nil_iff
  · rw [hlen]; rfl
  · rw [hlen]; rfl
  · have hc : (m.apply F).cauchy = F.cauchy.map fun lv => (lv.1.map fun l x => l (m.back x), lv.2.map fun g u => m.Z *ᵥ g (m.Wi *ᵥ u)) := rfl
    rw [hc]
    cases F.cauchy with
    | none => simp
    | some lv =>
      simp only [Option.map_some, Option.some.injEq, forall_eq', List.length_map, ne_eq, List.map_eq_nil_iff, List.forall_mem_map]
      exact and_congr_right fun _ => and_congr_right fun _ => forall₂_congr fun l _ => hface l
  · have hc : (m.apply F).neumann = F.neumann.map fun lv => (lv.1.map fun l x => l (m.back x), lv.2.map fun g k q x => m.Z *ᵥ g k q (m.back x)) := rfl
    rw [hc]
    cases F.neumann with
    | none => simp
    | some lv =>
      simp only [Option.map_some, Option.some.injEq, forall_eq', List.length_map, List.forall_mem_map]
      exact and_congr_right fun _ => forall₂_congr fun l _ => hface l

include hp in
/-- **C147 (moved problems).** Moving the mesh by a similarity, renumbering the nodes, changing unknowns and equations: the residual of the moved field in the moved problem is the moved residual. -/
theorem C147_residual (u R : ℕ → Fin vec → ℝ) (h : F.computeResidual u = .ok R) : (m.apply F).computeResidual (m.field u) = .ok (m.forces R) := by
  obtain ⟨R', h'⟩ := (C147_returns m hp u).mpr ⟨R, h⟩
  rw [h']
  congr 1
  funext n' i
  obtain ⟨n, rfl⟩ := m.num.surjective n'
  have hR : m.forces R (m.num n) i = comp m i (R n) := by
    unfold Move.forces
    rw [Equiv.symm_apply_apply]
    rfl
  rw [hR, C13_residual _ _ _ h', show R n = fun j => R n j from rfl]
  simp only [C13_residual F u R h n]
  rw [← comp_sub m i (fun j => _ - _), ← comp_sub m i (fun j => _ + _), ← comp_add m i]
  refine congrArg₂ (· - ·) (congrArg₂ (· - ·) (congrArg₂ (· + ·) ?_ ?_) ?_) ?_
  · rw [← comp_list m i F.cells.zipIdx fun p j => nodal n p.1 fun a => F.volTerm u p.1 p.2 a j]
    show ((F.cells.map fun c a => m.num (c a)).zipIdx.map _).sum = _
    rw [List.zipIdx_map, List.map_map]
    refine sum_map_congr fun p _ => ?_
    show nodal (m.num n) (fun a => m.num (p.1 a)) (fun a => (m.apply F).volTerm (m.field u) (fun a => m.num (p.1 a)) p.2 a i) = _
    rw [nodal_apply]
    simp only [volTerm_apply m hp]
    exact comp_nodal m i n p.1 fun a => F.volTerm u p.1 p.2 a
  · have hc : (m.apply F).cauchy = F.cauchy.map fun lv => (lv.1.map fun l x => l (m.back x), lv.2.map fun g u => m.Z *ᵥ g (m.Wi *ᵥ u)) := rfl
    rw [hc, pairs_map, List.map_map, ← comp_list m i (Fem.pairs F.cauchy) fun lv j => ((F.selected lv.1).map fun p => nodal n p.1 fun a => ∑ q, lv.2 (F.uFace u p q) j * F.faceShapeVals p.2 q a * F.nansonScale p.1 p.2 q).sum]
    refine sum_map_congr fun lv _ => ?_
    rw [← comp_list m i (F.selected lv.1) fun p j => nodal n p.1 fun a => ∑ q, lv.2 (F.uFace u p q) j * F.faceShapeVals p.2 q a * F.nansonScale p.1 p.2 q]
    show (((m.apply F).selected fun x => lv.1 (m.back x)).map _).sum = _
    rw [selected_apply, List.map_map]
    refine sum_map_congr fun p _ => ?_
    rw [← comp_nodal m i n p.1 fun a j => ∑ q, lv.2 (F.uFace u p q) j * F.faceShapeVals p.2 q a * F.nansonScale p.1 p.2 q]
    show nodal (m.num n) (fun a => m.num (p.1 a)) _ = _
    rw [nodal_apply]
    refine congrArg (nodal n p.1) (funext fun a => ?_)
    rw [← comp_sum m univ i fun q j => lv.2 (F.uFace u p q) j * F.faceShapeVals p.2 q a * F.nansonScale p.1 p.2 q]
    refine sum_congr rfl fun q _ => ?_
    show (m.Z *ᵥ lv.2 (m.Wi *ᵥ (m.apply F).uFace (m.field u) (fun a => m.num (p.1 a), p.2) q)) i * F.faceShapeVals p.2 q a * (m.apply F).nansonScale (fun a => m.num (p.1 a)) p.2 q = _
    rw [uFace_apply, Matrix.mulVec_mulVec, m.inv, Matrix.one_mulVec, nanson_apply m hp, comp_scale, comp_scale]
    unfold comp
    show (∑ j, m.Z i j * lv.2 (F.uFace u p q) j) * _ * _ = _
    ring
  · rw [← comp_list m i F.cells fun c j => nodal n c fun a => ∑ q, F.shapeVals q a * F.load c q j * F.JxW c q]
    show ((F.cells.map fun c a => m.num (c a)).map _).sum = _
    rw [List.map_map]
    refine sum_map_congr fun c _ => ?_
    rw [← comp_nodal m i n c fun a j => ∑ q, F.shapeVals q a * F.load c q j * F.JxW c q]
    show nodal (m.num n) (fun a => m.num (c a)) _ = _
    rw [nodal_apply]
    refine congrArg (nodal n c) (funext fun a => ?_)
    rw [← comp_sum m univ i fun q j => F.shapeVals q a * F.load c q j * F.JxW c q]
    refine sum_congr rfl fun q _ => ?_
    show F.shapeVals q a * (m.apply F).load (fun a => m.num (c a)) q i * (m.apply F).JxW (fun a => m.num (c a)) q = _
    rw [load_apply m hp, JxW_apply m hp, comp_scale]
    have e : (fun j => F.shapeVals q a * F.load c q j) = fun j => F.load c q j * F.shapeVals q a := funext fun j => mul_comm _ _
    rw [e, comp_scale]
    unfold comp Move.factor
    show F.shapeVals q a * (m.lam⁻¹ * ∑ j, m.Z i j * F.load c q j) * _ = _
    ring
  · have hc : (m.apply F).neumann = F.neumann.map fun lv => (lv.1.map fun l x => l (m.back x), lv.2.map fun g k q x => m.Z *ᵥ g k q (m.back x)) := rfl
    rw [hc, pairs_map, List.map_map, ← comp_list m i (Fem.pairs F.neumann) fun lv j => ((F.selected lv.1).zipIdx.map fun p => nodal n p.1.1 fun a =>
      ∑ q, F.faceShapeVals p.1.2 q a * lv.2 p.2 q (F.xFace p.1 q) j * F.nansonScale p.1.1 p.1.2 q).sum]
    refine sum_map_congr fun lv _ => ?_
    rw [← comp_list m i (F.selected lv.1).zipIdx fun p j => nodal n p.1.1 fun a => ∑ q, F.faceShapeVals p.1.2 q a * lv.2 p.2 q (F.xFace p.1 q) j * F.nansonScale p.1.1 p.1.2 q]
    show (((m.apply F).selected fun x => lv.1 (m.back x)).zipIdx.map _).sum = _
    rw [selected_apply, List.zipIdx_map, List.map_map]
    refine sum_map_congr fun p _ => ?_
    rw [← comp_nodal m i n p.1.1 fun a j => ∑ q, F.faceShapeVals p.1.2 q a * lv.2 p.2 q (F.xFace p.1 q) j * F.nansonScale p.1.1 p.1.2 q]
    show nodal (m.num n) (fun a => m.num (p.1.1 a)) _ = _
    rw [nodal_apply]
    refine congrArg (nodal n p.1.1) (funext fun a => ?_)
    rw [← comp_sum m univ i fun q j => F.faceShapeVals p.1.2 q a * lv.2 p.2 q (F.xFace p.1 q) j * F.nansonScale p.1.1 p.1.2 q]
    refine sum_congr rfl fun q _ => ?_
    show F.faceShapeVals p.1.2 q a * (m.Z *ᵥ lv.2 p.2 q (m.back ((m.apply F).xFace (fun a => m.num (p.1.1 a), p.1.2) q))) i * (m.apply F).nansonScale (fun a => m.num (p.1.1 a)) p.1.2 q = _
    rw [xFace_apply m hp, back_fwd, nanson_apply m hp, comp_scale]
    have e : (fun j => F.faceShapeVals p.1.2 q a * lv.2 p.2 q (F.xFace p.1 q) j) = fun j => lv.2 p.2 q (F.xFace p.1 q) j * F.faceShapeVals p.1.2 q a := funext fun j => mul_comm _ _
    rw [e, comp_scale]
    unfold comp
    show F.faceShapeVals p.1.2 q a * (∑ j, m.Z i j * lv.2 p.2 q (F.xFace p.1 q) j) * _ = _
    ring

end Verif.Fem.Moved
