import Verif.Fem.NewtonLocal
import Verif.Fem.PropsElastic2
import Verif.Fem.MovedLaws

/-!
# Stable materials under small loads: discrete solutions exist and the Newton loop finds them (C152)
-/
namespace Verif.Fem.SmallLoads
open Set Filter Topology Verif.Fem Verif.Fem.NewtonLocal

/-! ## Newton steps in a ball where the linear approximation is good -/

section abstract
variable {X : Type*} [NormedAddCommGroup X] [NormedSpace ℝ X]

/-- In the ball of radius `r` around `z` the linear map `A`, bounded below by `1 / M`, approximates `F` up to `ε`. -/
structure Good (F : X → X) (A : X →L[ℝ] X) (z : X) (r ε M : ℝ) : Prop where
  radius : 0 < r
  eps : 0 < ε
  bound : 0 < M
  small : M * ε ≤ 1 / 2
  lower : ∀ w, ‖w‖ ≤ M * ‖A w‖
  approx : ∀ x ∈ Metric.ball z r, ∀ y ∈ Metric.ball z r, ‖F x - F y - A (x - y)‖ ≤ ε * ‖x - y‖
  deriv : ∀ x ∈ Metric.ball z r, ‖fderiv ℝ F x - A‖ ≤ ε

variable {F : X → X} {A : X →L[ℝ] X} {z : X} {r ε M : ℝ}

theorem Good.shift (h : Good F A z r ε M) (b : X) : Good (fun v => F v - b) A z r ε M :=
  { h with
    approx := fun x hx y hy => by
      have e : F x - b - (F y - b) - A (x - y) = F x - F y - A (x - y) := by abel
      rw [e]
      exact h.approx x hx y hy
    deriv := fun x hx => by
      rw [fderiv_sub_const]
      exact h.deriv x hx }

theorem Good.dist (h : Good F A z r ε M) {x y : X} (hx : x ∈ Metric.ball z r) (hy : y ∈ Metric.ball z r) : ‖x - y‖ ≤ 2 * M * ‖F x - F y‖ := by
  have h1 := h.approx x hx y hy
  have h2 := h.lower (x - y)
  have h3 : ‖A (x - y)‖ ≤ ‖F x - F y‖ + ‖F x - F y - A (x - y)‖ := by
    have e : A (x - y) = (F x - F y) - (F x - F y - A (x - y)) := by abel
    conv_lhs => rw [e]
    exact norm_sub_le _ _
  have h4 : M * ‖A (x - y)‖ ≤ M * (‖F x - F y‖ + ε * ‖x - y‖) := mul_le_mul_of_nonneg_left (by linarith) h.bound.le
  have h5 : M * ε * ‖x - y‖ ≤ 1 / 2 * ‖x - y‖ := mul_le_mul_of_nonneg_right h.small (norm_nonneg _)
  linarith

theorem Good.norm_le (h : Good F A z r ε M) {x : X} (hx : x ∈ Metric.ball z r) : ‖F x‖ ≤ ‖F z‖ + (‖A‖ + ε) * ‖x - z‖ := by
  have a1 := h.approx x hx z (Metric.mem_ball_self h.radius)
  have a3 := A.le_opNorm (x - z)
  have e : F x = F z + A (x - z) + (F x - F z - A (x - z)) := by abel
  rw [e]
  refine (norm_add₃_le).trans ?_
  linarith

theorem Good.inj (h : Good F A z r ε M) {u : X} (hu : u ∈ Metric.ball z r) (w : X) : ‖w‖ ≤ 2 * M * ‖fderiv ℝ F u w‖ := by
  have h2 := h.lower w
  have h3 : ‖A w‖ ≤ ‖fderiv ℝ F u w‖ + ‖(fderiv ℝ F u - A) w‖ := by
    have e : A w = fderiv ℝ F u w - (fderiv ℝ F u - A) w := by rw [sub_apply]; abel
    conv_lhs => rw [e]
    exact norm_sub_le _ _
  have h4 : ‖(fderiv ℝ F u - A) w‖ ≤ ε * ‖w‖ := (fderiv ℝ F u - A).le_of_opNorm_le (h.deriv u hu) w
  have h5 : M * ‖A w‖ ≤ M * (‖fderiv ℝ F u w‖ + ε * ‖w‖) := mul_le_mul_of_nonneg_left (by linarith) h.bound.le
  have h6 : M * ε * ‖w‖ ≤ 1 / 2 * ‖w‖ := mul_le_mul_of_nonneg_right h.small (norm_nonneg _)
  linarith

/-- Inexact Newton steps do not leave the set of states with `‖u - z‖ + c ‖F u‖ < r`. -/
theorem Good.step (h : Good F A z r ε M) {η q : ℝ} (hη : 0 ≤ η) (hq0 : 0 ≤ q) (hq : q < 1) (hqε : η + 2 * ε * (2 * M * (1 + η)) ≤ q) {u u' : X} (hu : ‖u - z‖ + 2 * M * (1 + η) / (1 - q) * ‖F u‖ < r)
    (hp : ‖fderiv ℝ F u (u' - u) + F u‖ ≤ η * ‖F u‖) : ‖u' - z‖ + 2 * M * (1 + η) / (1 - q) * ‖F u'‖ < r ∧ ‖F u'‖ ≤ q * ‖F u‖ := by
  have hM := h.bound
  set c := 2 * M * (1 + η) / (1 - q) with hc
  have hc1 : c * (1 - q) = 2 * M * (1 + η) := div_mul_cancel₀ _ (by linarith)
  have hc0 : 0 ≤ c := div_nonneg (by positivity) (by linarith)
  have hn := norm_nonneg (F u)
  have hub : u ∈ Metric.ball z r := by
    rw [mem_ball_iff_norm]
    have := mul_nonneg hc0 hn
    linarith
  have b := pass_bound h.bound h.eps.le h.small h.lower (h.deriv u hub) hp
  have t : ‖u' - z‖ ≤ ‖u' - u‖ + ‖u - z‖ := by
    have e : u' - z = (u' - u) + (u - z) := by abel
    rw [e]; exact norm_add_le _ _
  have hle : 2 * M * (1 + η) * ‖F u‖ ≤ c * ‖F u‖ := by
    rw [← hc1]
    refine mul_le_mul_of_nonneg_right ?_ hn
    nlinarith
  have hub' : u' ∈ Metric.ball z r := by
    rw [mem_ball_iff_norm]
    linarith
  have d := pass_residual (h.approx u' hub' u hub) (h.deriv u hub) hp
  have d2 : ‖F u'‖ ≤ q * ‖F u‖ := by
    have : 2 * ε * ‖u' - u‖ ≤ 2 * ε * (2 * M * (1 + η) * ‖F u‖) := mul_le_mul_of_nonneg_left b (by linarith [h.eps])
    have d := mul_le_mul_of_nonneg_right hqε (norm_nonneg (F u))
    linarith
  refine ⟨?_, d2⟩
  have d3 := mul_le_mul_of_nonneg_left d2 hc0
  have e : 2 * M * (1 + η) * ‖F u‖ + c * (q * ‖F u‖) = c * ‖F u‖ := by rw [← hc1]; ring
  linarith

theorem Good.solve [FiniteDimensional ℝ X] (h : Good F A z r ε M) (hs : 2 * M * ‖F z‖ < r) : ∃ z', ‖z' - z‖ ≤ 2 * M * ‖F z‖ ∧ F z' = 0 := by
  haveI : CompleteSpace X := FiniteDimensional.complete ℝ X
  have hM := h.bound
  have hi : Function.Injective (A : X →ₗ[ℝ] X) := by
    rw [← LinearMap.ker_eq_bot, LinearMap.ker_eq_bot']
    intro w hw
    have := h.lower w
    have hw' : A w = 0 := hw
    rw [hw', norm_zero, mul_zero] at this
    exact norm_le_zero_iff.mp this
  set e := LinearEquiv.ofInjectiveEndo (A : X →ₗ[ℝ] X) hi
  have he : ∀ y, A (e.symm y) = y := fun y => e.apply_symm_apply y
  let inv : A.NonlinearRightInverse := ⟨fun y => e.symm y, ⟨M, h.bound.le⟩, fun y => by
    have := h.lower (e.symm y)
    rw [he] at this
    exact this, fun y => he y⟩
  have happ : ApproximatesLinearOn F A (Metric.ball z r) ⟨ε, h.eps.le⟩ := fun x hx y hy => h.approx x hx y hy
  have := happ.surjOn_closedBall_of_nonlinearRightInverse inv (ε := 2 * M * ‖F z‖) (b := z) (by positivity) (Metric.closedBall_subset_ball hs)
  have hmem : (0 : X) ∈ Metric.closedBall (F z) ((((inv.nnnorm : NNReal) : ℝ)⁻¹ - ((⟨ε, h.eps.le⟩ : NNReal) : ℝ)) * (2 * M * ‖F z‖)) := by
    rw [mem_closedBall_iff_norm, zero_sub, norm_neg]
    show ‖F z‖ ≤ (M⁻¹ - ε) * (2 * M * ‖F z‖)
    have e1 : (M⁻¹ - ε) * (2 * M * ‖F z‖) = (2 - 2 * (M * ε)) * ‖F z‖ := by field_simp
    rw [e1]
    have := h.small
    nlinarith [norm_nonneg (F z)]
  obtain ⟨z', hz', h0⟩ := this hmem
  exact ⟨z', mem_closedBall_iff_norm.mp hz', h0⟩

/-- The zero differs little from the solution of the linear equation. -/
theorem Good.linear (h : Good F A z r ε M) {z' w : X} (hz' : z' ∈ Metric.ball z r) (h0 : F z' = 0) (hw : A w + F z = 0) : ‖z' - z - w‖ ≤ 2 * M ^ 2 * ε * ‖F z‖ := by
  have hM := h.bound
  have h1 := h.approx z' hz' z (Metric.mem_ball_self h.radius)
  have h2 := h.lower (z' - z - w)
  have h3 := h.dist hz' (Metric.mem_ball_self h.radius)
  rw [h0, zero_sub, norm_neg] at h3
  have e : A (z' - z - w) = -(F z' - F z - A (z' - z)) := by
    rw [map_sub, eq_neg_of_add_eq_zero_left hw, h0]
    abel
  rw [e, norm_neg] at h2
  have h4 := mul_le_mul_of_nonneg_left h3 h.eps.le
  have h5 := mul_le_mul_of_nonneg_left (h1.trans h4) hM.le
  calc _ ≤ _ := h2
    _ ≤ _ := h5
    _ = _ := by ring

theorem exists_good (hF : ContDiffAt ℝ 1 F z) (hM : 0 < M) (hA : ∀ w, ‖w‖ ≤ M * ‖fderiv ℝ F z w‖) {ε : ℝ} (hε : 0 < ε) (hMε : M * ε ≤ 1 / 2) {U : Set X} (hU : U ∈ 𝓝 z) :
    ∃ r, Good F (fderiv ℝ F z) z r ε M ∧ Metric.ball z r ⊆ U := by
  obtain ⟨W, hW, hWa⟩ := (hF.hasStrictFDerivAt one_ne_zero).approximates_deriv_on_nhds (c := ⟨ε, hε.le⟩) (.inr hε)
  have hc : ∀ᶠ u in 𝓝 z, ‖fderiv ℝ F u - fderiv ℝ F z‖ ≤ ε := by
    have h1 : ContinuousAt (fderiv ℝ F) z := (hF.fderiv_right (m := 0) le_rfl).continuousAt
    have h2 := (Metric.continuousAt_iff'.mp h1) ε hε
    exact h2.mono fun u hu => by rw [dist_eq_norm] at hu; exact hu.le
  obtain ⟨r, hr, hball⟩ := Metric.mem_nhds_iff.mp (inter_mem (inter_mem hW hc) hU)
  exact ⟨r, ⟨hr, hε, hM, hMε, hA, fun x hx y hy => hWa _ (hball hx).1.1 _ (hball hy).1.1, fun x hx => (hball hx).1.2⟩, fun x hx => (hball hx).2⟩

end abstract

/-! ## Specification -/

section fem
variable {nn nq nf nfq dim : ℕ}

/-- A material that is smooth and stable at rest: the work of the tangent is not negative, and zero only without strain. No mass term, no Cauchy boundary. -/
structure Stable (F : Fem nn nq nf nfq dim dim) (tm : ℕ → Fin nq → (Fin dim → Fin dim → ℝ) → Fin dim → Fin dim → ℝ) : Prop where
  map : F.tensorMap = some tm
  mass : F.massMap = none
  cauchy : F.cauchy = none
  rest : ∀ k q, tm k q 0 = 0
  smooth : ∀ k q, ContDiffAt ℝ 1 (tm k q) 0
  pos : ∀ k q H, 0 ≤ ∑ i, ∑ d, fderiv ℝ (tm k q) 0 H i d * H i d
  strict : ∀ k q H, ∑ i, ∑ d, fderiv ℝ (tm k q) 0 H i d * H i d = 0 → ∀ i j, H i j + H j i = 0

/-- The mesh with the set `Z` of prescribed degrees of freedom: positive volumes, cells whose strainless fields are rigid motions, and all nodes held by the fully prescribed ones. -/
structure Supported (F : Fem nn nq nf nfq dim dim) (Z : ℕ → Prop) : Prop where
  cells : F.cells ≠ []
  mesh : ∀ c ∈ F.cells, ∀ a, c a < F.numTotal
  vol : ∀ c ∈ F.cells, ∀ q, 0 < F.JxW c q
  rigid : F.RigidModes
  held : ∀ n < F.numTotal, F.Held (fun n => ∀ i : Fin dim, Z (dim * n + i)) n

/-- The same body under other volume loads and tractions. -/
def loaded (F : Fem nn nq nf nfq dim dim) (src : Option ((Fin dim → ℝ) → Fin dim → ℝ)) (bv : Option ((ℕ → Fin dim → ℝ) × ((Fin dim → ℝ) → Fin dim → ℝ))) (neu : Option (List (Loc dim) × List (ℕ → Fin nfq → (Fin dim → ℝ) → Fin dim → ℝ))) :
    Fem nn nq nf nfq dim dim := { F with source := src, bodyVar := bv, neumann := neu }

/-- The body with the material linearised at rest. -/
noncomputable def linearised (F : Fem nn nq nf nfq dim dim) (tm : ℕ → Fin nq → (Fin dim → Fin dim → ℝ) → Fin dim → Fin dim → ℝ) : Fem nn nq nf nfq dim dim := { F with tensorMap := some fun k q g => fderiv ℝ (tm k q) 0 g }

/-- The volume loads and tractions at a node. -/
noncomputable def outerForce (G : Fem nn nq nf nfq dim dim) (n : ℕ) (i : Fin dim) : ℝ :=
  (G.cells.map fun c => nodal n c fun a => ∑ q, G.shapeVals q a * G.load c q i * G.JxW c q).sum
    + ((Fem.pairs G.neumann).map fun lv => ((G.selected lv.1).zipIdx.map fun p => nodal n p.1.1 fun a =>
        ∑ q, G.faceShapeVals p.1.2 q a * lv.2 p.2 q (G.xFace p.1 q) i * G.nansonScale p.1.1 p.1.2 q).sum).sum

/-- The data of a loaded body: the prescribed values, and the nodal loads at the free degrees of freedom. -/
noncomputable def dataVec [NeZero dim] (G : Fem nn nq nf nfq dim dim) (groups : List (Group ℝ)) : Vc (G.toProb groups).numDofs :=
  WithLp.toLp 2 fun d => (lastVal (G.toProb groups).prescriptions d).getD (outerForce G (d / dim) (Fin.ofNat dim d))

/-- A state with the prescribed values and zero residual at the free degrees of freedom. -/
def Solves {E : Type} (P : Prob ℝ E) (z : Vc P.numDofs) : Prop :=
  ∃ nw, P.newton (arr z) = .ok nw ∧ ∀ d < P.numDofs, (∀ x, LastAt P.prescriptions d x → arr z d = x) ∧ (FreeAt P.prescriptions d → nw.res d = 0)

/-! ## The internal forces -/

/-- The internal force at a node. -/
noncomputable def innerForce (F : Fem nn nq nf nfq dim dim) (s : ℕ → Fin dim → ℝ) (n : ℕ) (i : Fin dim) : ℝ := (F.cells.zipIdx.map fun p => nodal n p.1 fun a => F.volTerm s p.1 p.2 a i).sum

variable [NeZero dim]

open Classical in
/-- The values at the prescribed degrees of freedom and the internal forces at the others. -/
noncomputable def Phi (F : Fem nn nq nf nfq dim dim) (Z : ℕ → Prop) {N : ℕ} (v : Vc N) : Vc N := WithLp.toLp 2 fun d => if Z d then v d else innerForce F (field dim v) (d / dim) (Fin.ofNat dim d)

variable {F : Fem nn nq nf nfq dim dim} {tm : ℕ → Fin nq → (Fin dim → Fin dim → ℝ) → Fin dim → Fin dim → ℝ} {Z : ℕ → Prop} {N : ℕ}

theorem field_smul (t : ℝ) (w : Vc N) : field dim (t • w) = t • field dim w := by
  funext n i
  have := arr_line (0 : Vc N) w t (dim * n + i)
  rw [zero_add] at this
  show arr (t • w) _ = t * arr w _
  rw [this]
  have h0 : arr (0 : Vc N) (dim * n + i) = 0 := by
    by_cases hd : dim * n + i < N
    · rw [arr_lt _ hd]; rfl
    · exact arr_ge _ (not_lt.mp hd)
  rw [h0, zero_add]

theorem gradAt_smul (t : ℝ) (s : ℕ → Fin dim → ℝ) (c : Fin nn → ℕ) (q : Fin nq) : F.gradAt (t • s) c q = t • F.gradAt s c q := by
  funext i d
  simp only [Fem.gradAt, Pi.smul_apply, smul_eq_mul, Finset.mul_sum, mul_assoc]

theorem gradAt_zero (c : Fin nn → ℕ) (q : Fin nq) : F.gradAt (field dim (0 : Vc N)) c q = 0 := by
  have := gradAt_smul (F := F) 0 (field dim (0 : Vc N)) c q
  rwa [← field_smul, zero_smul, zero_smul] at this

theorem smooth_rest (h : Stable F tm) : SmoothAt F 1 (field dim (0 : Vc N)) where
  tensor tm' htm p _ q := by
    rw [h.map] at htm
    cases htm
    rw [gradAt_zero]
    exact_mod_cast h.smooth p.2 q
  mass mm hmm := by rw [h.mass] at hmm; cases hmm
  cauchy lv hlv := by rw [h.cauchy] at hlv; simp [Fem.pairs] at hlv

theorem inner_smooth (h : Stable F tm) (n : ℕ) (i : Fin dim) : ContDiffAt ℝ 1 (fun v : Vc N => innerForce F (field dim v) n i) 0 := by
  have := smooth_residual F (smooth_rest (N := N) h) n i
  rw [h.cauchy] at this
  simp only [Fem.pairs, Option.elim, List.map_nil, List.sum_nil, add_zero, Nat.cast_one] at this
  exact this

theorem phi_smooth (h : Stable F tm) : ContDiffAt ℝ 1 (Phi F Z : Vc N → Vc N) 0 := by
  refine contDiffAt_euclidean.mpr fun d => ?_
  by_cases hd : Z d
  · simp only [Phi, if_pos hd]
    exact (EuclideanSpace.proj (𝕜 := ℝ) d).contDiff.contDiffAt
  · simp only [Phi, if_neg hd]
    exact inner_smooth h _ _

theorem hasDerivAt_listSum {α : Type*} {x : ℝ} (l : List α) (g : α → ℝ → ℝ) (g' : α → ℝ) (h : ∀ p ∈ l, HasDerivAt (g p) (g' p) x) : HasDerivAt (fun t => (l.map fun p => g p t).sum) (l.map g').sum x := by
  induction l with
  | nil => exact hasDerivAt_const _ _
  | cons a l ih =>
    simp only [List.map_cons, List.sum_cons]
    exact (h a (by simp)).add (ih fun p hp => h p (by simp [hp]))

/-- The derivative of the internal forces at rest: the internal forces of the linearised material. -/
theorem inner_deriv (h : Stable F tm) (w : Vc N) (n : ℕ) (i : Fin dim) : HasDerivAt (fun t : ℝ => innerForce F (field dim (t • w)) n i) (innerForce (linearised F tm) (field dim w) n i) 0 := by
  unfold innerForce
  refine hasDerivAt_listSum F.cells.zipIdx (fun p t => nodal n p.1 fun a => F.volTerm (field dim (t • w)) p.1 p.2 a i) _ fun p _ => ?_
  unfold nodal Fem.volTerm
  refine HasDerivAt.fun_sum fun a _ => HasDerivAt.fun_sum fun q _ => HasDerivAt.mul_const ?_ _
  have hm : ∀ (k : ℕ) (q : Fin nq) (u : Fin dim → ℝ), F.massAt k q u i = 0 := fun k q u => by rw [Fem.massAt, h.mass]; rfl
  have hm' : ∀ (k : ℕ) (q : Fin nq) (u : Fin dim → ℝ), (linearised F tm).massAt k q u i = 0 := fun k q u => hm k q u
  simp only [hm, hm', zero_mul, add_zero]
  refine HasDerivAt.fun_sum fun d _ => HasDerivAt.mul_const ?_ _
  have h1 : HasDerivAt (fun t : ℝ => tm p.2 q (0 + t • F.gradAt (field dim w) p.1 q)) (fderiv ℝ (tm p.2 q) 0 (F.gradAt (field dim w) p.1 q)) 0 :=
    ((h.smooth p.2 q).differentiableAt one_ne_zero).hasFDerivAt.hasLineDerivAt _
  have h2 := hasDerivAt_pi.mp (hasDerivAt_pi.mp h1 i) d
  refine (h2.congr_of_eventuallyEq (Eventually.of_forall fun t => ?_)).congr_deriv rfl
  rw [Fem.stress, h.map, field_smul, gradAt_smul]
  show _ = tm p.2 q (0 + t • F.gradAt (field dim w) p.1 q) i d
  rw [zero_add]
  rfl

open Classical in
theorem phi_deriv (h : Stable F tm) (w : Vc N) (d : Fin N) :
    fderiv ℝ (Phi F Z : Vc N → Vc N) 0 w d = if Z d then w d else innerForce (linearised F tm) (field dim w) (d / dim) (Fin.ofNat dim d) := by
  have h1 : HasDerivAt (fun t : ℝ => Phi F Z (0 + t • w)) (fderiv ℝ (Phi F Z) 0 w) 0 := ((phi_smooth h).differentiableAt one_ne_zero).hasFDerivAt.hasLineDerivAt w
  have h2 : HasDerivAt (fun t : ℝ => Phi F Z (0 + t • w) d) (fderiv ℝ (Phi F Z) 0 w d) 0 := (EuclideanSpace.proj (𝕜 := ℝ) d).hasFDerivAt.comp_hasDerivAt (0 : ℝ) h1
  refine h2.unique ?_
  simp only [zero_add]
  by_cases hd : Z d
  · simp only [Phi, if_pos hd]
    simpa using (hasDerivAt_id (0 : ℝ)).mul_const (w d)
  · simp only [Phi, if_neg hd]
    exact inner_deriv h w _ _

theorem held_linearised {Y : ℕ → Prop} {n : ℕ} {G : Fem nn nq nf nfq dim dim} (hc : G.cells = F.cells) (hp : G.points = F.points) (h : F.Held Y n) : G.Held Y n := by
  induction h with
  | fixed n h => exact .fixed n h
  | cell c S a hcc hS _ hspan ih => exact .cell c S a (by rw [hc]; exact hcc) hS ih (by rw [hp]; exact hspan)

/-- The internal forces of the linearised material determine the displacements. -/
theorem phi_inj (h : Stable F tm) (hs : Supported F Z) (w : Vc (F.numTotal * dim)) (hw : fderiv ℝ (Phi F Z) 0 w = 0) : w = 0 := by
  have hpos : 0 < dim := Nat.pos_of_ne_zero (NeZero.ne dim)
  set G : Fem nn nq nf nfq dim dim := { linearised F tm with source := none, bodyVar := none, neumann := none, lapRows := none, massRows := none } with hG
  have hstress : ∀ k q (A : Fin dim → Fin dim → ℝ) i d, G.stress k q A i d = fderiv ℝ (tm k q) 0 A i d := fun _ _ _ _ _ => rfl
  have hsub : ∀ k q (A B : Fin dim → Fin dim → ℝ), ∑ i, ∑ d, (G.stress k q A i d - G.stress k q B i d) * (A i d - B i d) = ∑ i, ∑ d, fderiv ℝ (tm k q) 0 (A - B) i d * (A - B) i d := by
    intro k q A B
    simp only [hstress, map_sub, Pi.sub_apply]
  have hmass : ∀ k q a i, G.massAt k q a i = 0 := fun k q a i => by
    have e : G.massMap = none := h.mass
    rw [Fem.massAt, e]; rfl
  have hcau : Fem.pairs G.cauchy = [] := by
    have e : G.cauchy = none := h.cauchy
    rw [e]; rfl
  have hmono : G.Monotone := ⟨hs.mesh, hs.vol, fun k q A B => by rw [hsub]; exact h.pos k q _, fun k q a b => by simp only [hmass]; simp, fun lv hlv => by rw [hcau] at hlv; cases hlv⟩
  have hret : ∀ s : ℕ → Fin dim → ℝ, ∃ R, G.computeResidual s = .ok R := fun s => (C13_returns G s).mpr <| by
    refine ⟨hs.cells, fun m hm => (by cases hm), fun m hm => (by cases hm), fun lv hlv => ?_, fun lv hlv => (by cases hlv)⟩
    have e : G.cauchy = none := h.cauchy
    rw [e] at hlv
    cases hlv
  have hres : ∀ s R, G.computeResidual s = .ok R → ∀ n i, R n i = innerForce (linearised F tm) s n i := by
    intro s R hR n i
    rw [C13_residual G s R hR n i, hcau]
    have hl : ∀ c q i, G.load c q i = 0 := fun _ _ _ => rfl
    have hn : Fem.pairs G.neumann = [] := rfl
    have hz : ∀ c : Fin nn → ℕ, nodal n c (fun _ => (0 : ℝ)) = 0 := fun c => by simp [nodal]
    rw [hn]
    simp only [hl, mul_zero, zero_mul, Finset.sum_const_zero, hz, List.map_nil, List.sum_nil, add_zero, sub_zero]
    have : (F.cells.map fun _ => (0 : ℝ)).sum = 0 := by simp
    rw [show G.cells = F.cells from rfl, this, sub_zero]
    rfl
  obtain ⟨Ru, hu⟩ := hret (field dim w)
  obtain ⟨Rv, hv⟩ := hret (field dim (0 : Vc (F.numTotal * dim)))
  have hdof : ∀ n < F.numTotal, ∀ i : Fin dim, dim * n + i < F.numTotal * dim := fun n hn i => by
    have h2 := i.isLt
    calc dim * n + i < dim * n + dim := by omega
      _ = dim * (n + 1) := by ring
      _ ≤ dim * F.numTotal := Nat.mul_le_mul_left _ hn
      _ = F.numTotal * dim := mul_comm _ _
  have hcomp : ∀ w' : Vc (F.numTotal * dim), fderiv ℝ (Phi F Z) 0 w' = 0 → ∀ n < F.numTotal, ∀ i : Fin dim, (Z (dim * n + i) → field dim w' n i = 0) ∧ (¬ Z (dim * n + i) → innerForce (linearised F tm) (field dim w') n i = 0) := by
    intro w' hw' n hn i
    have h1 := phi_deriv (Z := Z) h w' ⟨_, hdof n hn i⟩
    rw [hw'] at h1
    have h1' : (0 : ℝ) = _ := h1
    have e1 : (dim * n + i) / dim = n := by rw [Nat.mul_add_div hpos, Nat.div_eq_of_lt i.isLt, add_zero]
    have e2 : Fin.ofNat dim (dim * n + i) = i := Fin.ext (by simp [Fin.ofNat, Nat.mod_eq_of_lt i.isLt])
    constructor
    · intro hz
      rw [if_pos hz] at h1'
      rw [field, arr_lt _ (hdof n hn i), ← h1']
    · intro hz
      rw [if_neg hz] at h1'
      simp only [e1, e2] at h1'
      exact h1'.symm
  have hkey := C88_unique G hmono (fun k q A B he i j => by
      rw [hsub] at he
      have := h.strict k q _ he i j
      simp only [Pi.sub_apply] at this
      linarith) hs.rigid (fun n i => Z (dim * n + i)) (fun n hn => held_linearised (F := F) rfl rfl (hs.held n hn)) (field dim w) (field dim (0 : Vc (F.numTotal * dim))) Ru Rv hu hv ?_ ?_
  · ext d
    have hd : (d : ℕ) / dim < F.numTotal := Nat.div_lt_of_lt_mul (d.2.trans_eq (mul_comm _ _))
    have := hkey (d / dim) hd (Fin.ofNat dim d)
    have hflat : dim * ((d : ℕ) / dim) + (Fin.ofNat dim d : ℕ) = d := Nat.div_add_mod d dim
    rw [field, field, hflat, arr_lt _ d.2, arr_lt _ d.2] at this
    exact this
  · intro n i hfix
    by_cases hn : n < F.numTotal
    · rw [(hcomp w hw n hn i).1 hfix, (hcomp 0 (map_zero _) n hn i).1 hfix]
    · have hge : F.numTotal * dim ≤ dim * n + i := by
        rw [mul_comm]
        exact (Nat.mul_le_mul_left _ (not_lt.mp hn)).trans (Nat.le_add_right _ _)
      rw [field, field, arr_ge _ hge, arr_ge _ hge]
  · intro n hn i hfree
    rw [hres _ _ hu, hres _ _ hv, (hcomp w hw n hn i).2 hfree, (hcomp 0 (map_zero _) n hn i).2 hfree]

/-! ## Loaded bodies -/

theorem field_zero : field dim (0 : Vc N) = 0 := by
  have := field_smul (dim := dim) 0 (0 : Vc N)
  rwa [smul_zero, zero_smul] at this

theorem phi_zero (h : Stable F tm) : Phi F Z (0 : Vc N) = 0 := by
  ext d
  by_cases hd : Z d
  · simp only [Phi, if_pos hd]
  · simp only [Phi, if_neg hd]
    unfold innerForce nodal Fem.volTerm
    have hm : ∀ (k : ℕ) (q : Fin nq) (u : Fin dim → ℝ) i, F.massAt k q u i = 0 := fun k q u i => by rw [Fem.massAt, h.mass]; rfl
    have ht : ∀ (k : ℕ) (q : Fin nq) i d, F.stress k q 0 i d = 0 := fun k q i d => by
      rw [Fem.stress, h.map]
      show tm k q 0 i d = 0
      rw [h.rest]; rfl
    simp only [gradAt_zero, hm, ht, zero_mul, Finset.sum_const_zero, add_zero]
    simp

/-- The modified residual of a loaded body. -/
theorem loaded_modified {G : Fem nn nq nf nfq dim dim} (hcauchy : G.cauchy = none) {groups : List (Group ℝ)} (hwf : (G.toProb groups).WF) (hZ : ∀ d < (G.toProb groups).numDofs, FreeAt (G.toProb groups).prescriptions d ↔ ¬ Z d)
    {nwt : Vc (G.toProb groups).numDofs → Newton ℝ} {R : Vc (G.toProb groups).numDofs → ℕ → Fin dim → ℝ} (h2 : ∀ v, G.computeResidual (field dim v) = .ok (R v)) (h3 : ∀ v, (nwt v).res = fun d => R v (d / dim) (Fin.ofNat dim d))
    (v : Vc (G.toProb groups).numDofs) : modified (G.toProb groups) nwt v = Phi G Z v - dataVec G groups := by
  ext d
  show (G.toProb groups).applyBcVec realArith (nwt v).res (arr v) d = Phi G Z v d - dataVec G groups d
  rw [(G.toProb groups).applyBcVec_eq realArith hwf]
  cases hl : lastVal (G.toProb groups).prescriptions d with
  | some x =>
    have hz : Z d := by
      by_contra hz
      rw [(lastVal_none _ _).mpr ((hZ d d.2).mpr hz)] at hl
      cases hl
    have e1 : dataVec G groups d = x := by simp only [dataVec, hl, Option.getD_some]
    have e2 : Phi G Z v d = v d := by simp only [Phi, if_pos hz]
    rw [e1, e2]
    show arr v d + -x = v d - x
    rw [arr_lt v d.2]
    ring
  | none =>
    have hz : ¬ Z d := (hZ d d.2).mp ((lastVal_none _ _).mp hl)
    have e1 : dataVec G groups d = outerForce G (d / dim) (Fin.ofNat dim d) := by simp only [dataVec, hl, Option.getD_none]
    have e2 : Phi G Z v d = innerForce G (field dim v) (d / dim) (Fin.ofNat dim d) := by simp only [Phi, if_neg hz]
    rw [e1, e2]
    show (nwt v).res d = _
    rw [h3]
    show R v (d / dim) (Fin.ofNat dim d) = _
    rw [C13_residual G _ _ (h2 v), hcauchy]
    unfold innerForce outerForce
    simp only [Fem.pairs, Option.elim, List.map_nil, List.sum_nil, add_zero]
    ring

theorem solves_iff {E : Type} {P : Prob ℝ E} (hwf : P.WF) {nwt : Vc P.numDofs → Newton ℝ} (h1 : ∀ v, P.newton (arr v) = .ok (nwt v)) (z : Vc P.numDofs) : Solves P z ↔ modified P nwt z = 0 := by
  have hz : modified P nwt z = 0 ↔ ∀ d < P.numDofs, P.applyBcVec realArith (nwt z).res (arr z) d = 0 := by
    constructor
    · intro h d hd
      have := congrArg (fun w : Vc P.numDofs => w ⟨d, hd⟩) h
      exact this
    · intro h
      ext d
      exact h d d.2
  rw [hz, C19_zero_iff P hwf]
  constructor
  · rintro ⟨nw, hnw, h⟩
    have : nwt z = nw := by
      have := (h1 z).symm.trans hnw
      injection this
    rw [this]
    exact ⟨fun d hd => (h d hd).1, fun d hd => (h d hd).2⟩
  · intro h
    exact ⟨nwt z, h1 z, fun d hd => ⟨h.1 d hd, h.2 d hd⟩⟩

/-- The ball around rest on which everything holds, for all loads. -/
theorem ball_at_rest (h : Stable F tm) (hs : Supported F Z) {κ : ℝ} (hκ : 0 < κ) :
    ∃ M ε r, Good (Phi F Z : Vc (F.numTotal * dim) → _) (fderiv ℝ (Phi F Z) 0) 0 r ε M ∧ ε ≤ κ ∧ 2 * M ^ 2 * ε ≤ κ ∧ 1e-4 + 2 * ε * (2 * M * (1 + 1e-4)) ≤ 1e-3 ∧
      ∀ v ∈ Metric.ball (0 : Vc (F.numTotal * dim)) r, DifferentiableAt ℝ (Phi F Z) v ∧ ((∀ tm, F.tensorMap = some tm → ∀ p ∈ F.cells.zipIdx, ∀ q, DifferentiableAt ℝ (tm p.2 q) (F.gradAt (field dim v) p.1 q)) ∧
        (∀ mm, F.massMap = some mm → ∀ p ∈ F.cells.zipIdx, ∀ q, DifferentiableAt ℝ (mm p.2 q) (F.uAt (field dim v) p.1 q)) ∧
        ∀ lv ∈ Fem.pairs F.cauchy, ∀ p ∈ F.selected lv.1, ∀ q, DifferentiableAt ℝ lv.2 (F.uFace (field dim v) p q)) := by
  obtain ⟨M, hM, hA⟩ : ∃ M, 0 < M ∧ ∀ w : Vc (F.numTotal * dim), ‖w‖ ≤ M * ‖fderiv ℝ (Phi F Z) 0 w‖ := by
    have hker : LinearMap.ker (fderiv ℝ (Phi F Z) (0 : Vc (F.numTotal * dim)) : Vc (F.numTotal * dim) →ₗ[ℝ] Vc (F.numTotal * dim)) = ⊥ := by
      rw [LinearMap.ker_eq_bot']
      exact fun w hw => phi_inj h hs w hw
    obtain ⟨K, hK, ha⟩ := LinearMap.exists_antilipschitzWith _ hker
    refine ⟨K, hK, fun w => ?_⟩
    have := ha.le_mul_dist w 0
    simpa [dist_eq_norm] using this
  obtain ⟨ε, hε, h1, h2, h3, h4⟩ : ∃ ε, 0 < ε ∧ M * ε ≤ 1 / 2 ∧ ε ≤ κ ∧ 2 * M ^ 2 * ε ≤ κ ∧ 1e-4 + 2 * ε * (2 * M * (1 + 1e-4)) ≤ (1e-3 : ℝ) := by
    refine ⟨min (1 / (10000 * M)) (min κ (κ / (2 * M ^ 2))), by positivity, ?_, ?_, ?_, ?_⟩
    · have := mul_le_mul_of_nonneg_left (min_le_left (1 / (10000 * M)) (min κ (κ / (2 * M ^ 2)))) hM.le
      have e : M * (1 / (10000 * M)) = 1 / 10000 := by field_simp
      linarith
    · exact (min_le_right _ _).trans (min_le_left _ _)
    · have := mul_le_mul_of_nonneg_left ((min_le_right (1 / (10000 * M)) (min κ (κ / (2 * M ^ 2)))).trans (min_le_right _ _)) (by positivity : 0 ≤ 2 * M ^ 2)
      have e : 2 * M ^ 2 * (κ / (2 * M ^ 2)) = κ := mul_div_cancel₀ _ (by positivity)
      linarith
    · have := mul_le_mul_of_nonneg_left (min_le_left (1 / (10000 * M)) (min κ (κ / (2 * M ^ 2)))) hM.le
      have e : M * (1 / (10000 * M)) = 1 / 10000 := by field_simp
      linarith
  have hd : ∀ᶠ v in 𝓝 (0 : Vc (F.numTotal * dim)), DifferentiableAt ℝ (Phi F Z) v := ((phi_smooth h).eventually (by simp)).mono fun v hv => hv.differentiableAt one_ne_zero
  obtain ⟨r, hg, hsub⟩ := exists_good (phi_smooth h) hM hA hε h1 (inter_mem hd (smooth_near F (smooth_rest h)))
  exact ⟨M, ε, r, hg, h2, h3, h4, fun v hv => hsub hv⟩

/-- **C152 (small loads).** A supported body of a stable material: there is a bound such that for all prescribed values, volume loads and tractions below it the discrete problem has exactly one solution near rest, of the size of the data.
The nonlinear branch of `solver_row_elimination`, with the tolerances of `jax_solve`, returns from every guess near rest after at most as many passes as bring the first residual to `1e-6` by factors of a thousand, and the result is this
solution up to a constant times `1e-6`. -/
theorem C152_small (h : Stable F tm) (hs : Supported F Z) :
    ∃ δ C ρ : ℝ, 0 < δ ∧ 0 < ρ ∧ ∀ src bv neu (groups : List (Group ℝ)), ((loaded F src bv neu).toProb groups).WF →
      (∀ d < F.numTotal * dim, FreeAt ((loaded F src bv neu).toProb groups).prescriptions d ↔ ¬ Z d) → (∃ u nw, ((loaded F src bv neu).toProb groups).newton u = .ok nw) → ‖dataVec (loaded F src bv neu) groups‖ ≤ δ →
      ∃ z : Vc ((loaded F src bv neu).toProb groups).numDofs, Solves ((loaded F src bv neu).toProb groups) z ∧ ‖z‖ ≤ C * ‖dataVec (loaded F src bv neu) groups‖ ∧ ‖z‖ < ρ ∧
        (∀ z', ‖z'‖ < ρ → Solves ((loaded F src bv neu).toProb groups) z' → z' = z) ∧
        ∀ lin, TolLin (F.numTotal * dim) 1e-10 1e-10 lin → ∀ (precond usePetsc : Bool) (u0 : Vc ((loaded F src bv neu).toProb groups).numDofs) (nw0 : Newton ℝ) (passes : ℕ), ‖u0‖ ≤ δ →
          ((loaded F src bv neu).toProb groups).newton (arr u0) = .ok nw0 → ((loaded F src bv neu).toProb groups).resNorm realArith (((loaded F src bv neu).toProb groups).applyBcVec realArith nw0.res (arr u0)) ≤ 1e-6 * 1000 ^ passes →
          ∃ u : Vc ((loaded F src bv neu).toProb groups).numDofs, ((loaded F src bv neu).toProb groups).rowSolver realArith lin false precond usePetsc (some (arr u0)) passes = .ok (arr u) ∧ ‖u - z‖ ≤ C * 1e-6 := by
  obtain ⟨M, ε, r, hg, -, -, hq, hball⟩ := ball_at_rest h hs one_pos
  have hM := hg.bound
  have hr := hg.radius
  have hε := hg.eps
  set A := fderiv ℝ (Phi F Z) (0 : Vc (F.numTotal * dim))
  set c := 2 * M * (1 + 1e-4) / (1 - 1e-3) with hc
  have hc0 : 0 < c := by rw [hc]; exact div_pos (by positivity) (by norm_num)
  set D := 1 + 2 * M + c + c * (‖A‖ + ε) with hD
  have hD0 : 0 < D := by positivity
  have hδr : r / (2 * D) * D = r / 2 := by field_simp
  set δ := r / (2 * D) with hδdef
  have hδ0 : 0 < δ := by positivity
  have hδ1 : δ + 2 * M * δ + c * δ + c * (‖A‖ + ε) * δ < r := by
    have : δ + 2 * M * δ + c * δ + c * (‖A‖ + ε) * δ = δ * D := by rw [hD]; ring
    rw [this, hδr]
    linarith
  have hMδ : 2 * M * δ < r := by
    have h1 : 0 ≤ c * δ := by positivity
    have h2 : 0 ≤ c * (‖A‖ + ε) * δ := by positivity
    linarith
  refine ⟨δ, 2 * M, r, hδ0, hr, fun src bv neu groups hwf hZ hret hdata => ?_⟩
  obtain ⟨u00, nw00, hn⟩ := hret
  choose nwt R I J V h1 h2 h3 h4 h5 h6 using fun v : Vc ((loaded F src bv neu).toProb groups).numDofs => fem_newton (loaded F src bv neu) groups hn (arr v)
  set b := dataVec (loaded F src bv neu) groups with hb
  have hmod : modified ((loaded F src bv neu).toProb groups) nwt = fun v => Phi F Z v - b :=
    funext fun v => loaded_modified (Z := Z) (G := loaded F src bv neu) h.cauchy hwf hZ (fun v => (C14_same_residual _ _ _).mpr ⟨_, _, _, h2 v⟩) h3 v
  have hgP : Good (modified ((loaded F src bv neu).toProb groups) nwt) A 0 r ε M := by rw [hmod]; exact hg.shift b
  have h0 : ‖modified ((loaded F src bv neu).toProb groups) nwt 0‖ = ‖b‖ := by
    rw [hmod]
    show ‖Phi F Z 0 - b‖ = ‖b‖
    rw [phi_zero h, zero_sub, norm_neg]
  have hlt : 2 * M * ‖b‖ < r := lt_of_le_of_lt (mul_le_mul_of_nonneg_left hdata (by positivity)) hMδ
  obtain ⟨z, hz1, hz2⟩ := hgP.solve (by rw [h0]; exact hlt)
  rw [sub_zero, h0] at hz1
  have hzb : z ∈ Metric.ball (0 : Vc ((loaded F src bv neu).toProb groups).numDofs) r := by
    rw [mem_ball_iff_norm, sub_zero]
    exact hz1.trans_lt hlt
  refine ⟨z, (solves_iff hwf h1 z).mpr hz2, hz1, hz1.trans_lt hlt, fun z' hz' hs' => ?_, fun lin hlin precond usePetsc u0 nw0 passes hu0 hnw0 hpass => ?_⟩
  · have := hgP.dist (x := z') (y := z) (by rw [mem_ball_iff_norm, sub_zero]; exact hz') hzb
    rw [(solves_iff hwf h1 z').mp hs', hz2, sub_zero, norm_zero, mul_zero] at this
    exact sub_eq_zero.mp (norm_le_zero_iff.mp this)
  · have hnw : nwt u0 = nw0 := by
      have := (h1 u0).symm.trans hnw0
      injection this
    have hmax : max (1e-10 : ℝ) (1e-10 * 1e6) = 1e-4 := by norm_num
    have hS : ∀ u ∈ {u | ‖u - 0‖ + c * ‖modified ((loaded F src bv neu).toProb groups) nwt u‖ < r}, u ∈ Metric.ball (0 : Vc ((loaded F src bv neu).toProb groups).numDofs) r := by
      intro u hu
      have hu' : ‖u - 0‖ + c * ‖modified ((loaded F src bv neu).toProb groups) nwt u‖ < r := hu
      rw [mem_ball_iff_norm]
      have : 0 ≤ c * ‖modified ((loaded F src bv neu).toProb groups) nwt u‖ := by positivity
      linarith
    have hu0b : u0 ∈ Metric.ball (0 : Vc ((loaded F src bv neu).toProb groups).numDofs) r := by
      rw [mem_ball_iff_norm, sub_zero]
      have e1 : 0 ≤ 2 * M * δ := by positivity
      have e2 : 0 ≤ c * δ := by positivity
      have e3 : 0 ≤ c * (‖A‖ + ε) * δ := by positivity
      linarith
    have hstart : u0 ∈ {u | ‖u - 0‖ + c * ‖modified ((loaded F src bv neu).toProb groups) nwt u‖ < r} := by
      show ‖u0 - 0‖ + c * ‖modified ((loaded F src bv neu).toProb groups) nwt u0‖ < r
      have a2 : ‖modified ((loaded F src bv neu).toProb groups) nwt u0‖ ≤ ‖b‖ + (‖A‖ + ε) * ‖u0‖ := by
        have := hgP.norm_le hu0b
        rw [h0, sub_zero] at this
        exact this
      have a4 : (‖A‖ + ε) * ‖u0‖ ≤ (‖A‖ + ε) * δ := mul_le_mul_of_nonneg_left hu0 (by positivity)
      have a5 : c * ‖modified ((loaded F src bv neu).toProb groups) nwt u0‖ ≤ c * (δ + (‖A‖ + ε) * δ) := mul_le_mul_of_nonneg_left (by linarith) hc0.le
      have e1 : 0 ≤ 2 * M * δ := by positivity
      rw [sub_zero]
      linarith
    have hfd : ∀ u ∈ Metric.ball (0 : Vc ((loaded F src bv neu).toProb groups).numDofs) r, DifferentiableAt ℝ (modified ((loaded F src bv neu).toProb groups) nwt) u := by
      intro u hu
      rw [hmod]
      exact (hball u hu).1.sub_const b
    have hcols : ∀ u, ∀ j ∈ (nwt u).J, j < ((loaded F src bv neu).toProb groups).numDofs := by
      intro v j hj
      obtain ⟨-, -, hJ, -⟩ := (newtonUpdate_ok_iff (loaded F src bv neu) _ _ _ _ _).mp (h2 v)
      have hc : Fem.pairs (loaded F src bv neu).cauchy = [] := by
        have e : (loaded F src bv neu).cauchy = none := h.cauchy
        rw [e]; rfl
      rw [h5 v, hJ, hc] at hj
      rcases List.mem_append.mp hj with hj | hj
      · exact cooJ_mem _ _ hs.mesh j hj
      · simp [Fem.cooJ] at hj
    obtain ⟨u, hu, hrun, hun⟩ := run (P := (loaded F src bv neu).toProb groups) (nwt := nwt) usePetsc (rtol := 1e-10) (atol := 1e-10) (q := 1e-3) (by norm_num) (by norm_num) hlin
      (S := {u | ‖u - 0‖ + c * ‖modified ((loaded F src bv neu).toProb groups) nwt u‖ < r}) (fun u _ => h1 u)
      (fun u hu w d => op_at hwf usePetsc (fun w d _ => fem_tangent (loaded F src bv neu) h2 h3 h4 h5 h6 (hball u (hS u hu)).2 w d) (hfd u (hS u hu)) (hcols u) w d)
      (fun u hu => hgP.inj (hS u hu))
      (fun u hu u' hp => by rw [hmax] at hp; exact hgP.step (by norm_num) (by norm_num) (by norm_num) hq hu hp) hstart precond passes (by
        rw [resNorm_eq, ← hnw] at hpass
        have e : ‖modified ((loaded F src bv neu).toProb groups) nwt u0‖ ≤ 1e-6 * 1000 ^ passes := hpass
        have e2 : (1000 : ℝ) ^ passes * (1e-3) ^ passes = 1 := by rw [← mul_pow]; norm_num
        calc _ ≤ 1e-6 * 1000 ^ passes * (1e-3 : ℝ) ^ passes := mul_le_mul_of_nonneg_right e (by positivity)
          _ = 1e-6 := by rw [mul_assoc, e2, mul_one])
    refine ⟨u, hrun, ?_⟩
    have := hgP.dist (hS u hu) hzb
    rw [hz2, sub_zero] at this
    exact this.trans (mul_le_mul_of_nonneg_left hun (by positivity))

/-- **C152 (small displacement theory).** To first order in the data the solutions near rest are those of the linearised material: the difference between a solution of the nonlinear problem and one of the linearised problem with the same
data is smaller than any multiple of the data once the data are small. -/
theorem C152_linear (h : Stable F tm) (hs : Supported F Z) {κ : ℝ} (hκ : 0 < κ) :
    ∃ ρ : ℝ, 0 < ρ ∧ ∀ src bv neu (groups : List (Group ℝ)), ((loaded F src bv neu).toProb groups).WF →
      (∀ d < F.numTotal * dim, FreeAt ((loaded F src bv neu).toProb groups).prescriptions d ↔ ¬ Z d) →
      ∀ z w : Vc (F.numTotal * dim), ‖z‖ < ρ → Solves ((loaded F src bv neu).toProb groups) z → Solves ((loaded (linearised F tm) src bv neu).toProb groups) w →
        ‖z - w‖ ≤ κ * ‖dataVec (loaded F src bv neu) groups‖ := by
  obtain ⟨M, ε, r, hg, -, hκ2, -, -⟩ := ball_at_rest h hs hκ
  refine ⟨r, hg.radius, fun src bv neu groups hwf hZ z w hz hz0 hw0 => ?_⟩
  have key : ∀ (G : Fem nn nq nf nfq dim dim) (hcauchy : G.cauchy = none) (hw : (G.toProb groups).WF) (hGZ : ∀ d < (G.toProb groups).numDofs, FreeAt (G.toProb groups).prescriptions d ↔ ¬ Z d) (v : Vc (G.toProb groups).numDofs),
      Solves (G.toProb groups) v → Phi G Z v - dataVec G groups = 0 := by
    intro G hcauchy hw hGZ v hv
    obtain ⟨nw, hn, -⟩ := id hv
    choose nwt R I J V h1 h2 h3 h4 h5 h6 using fun v : Vc (G.toProb groups).numDofs => fem_newton G groups hn (arr v)
    rw [← loaded_modified hcauchy hw hGZ (fun v => (C14_same_residual _ _ _).mpr ⟨_, _, _, h2 v⟩) h3 v]
    exact (solves_iff hw h1 v).mp hv
  have e1 := key (loaded F src bv neu) h.cauchy hwf hZ z hz0
  have e2 := key (loaded (linearised F tm) src bv neu) h.cauchy hwf hZ w hw0
  set b : Vc (F.numTotal * dim) := dataVec (loaded F src bv neu) groups with hb
  have f1 : Phi F Z z - b = 0 := e1
  have f2 : Phi (linearised F tm) Z w - b = 0 := e2
  have f3 : fderiv ℝ (Phi F Z : Vc (F.numTotal * dim) → _) 0 w = Phi (linearised F tm) Z w := by
    ext d
    rw [phi_deriv h w d]
    rfl
  have := (hg.shift b).linear (z' := z) (w := w) (by rw [mem_ball_iff_norm, sub_zero]; exact hz) f1 (by rw [f3, phi_zero h, zero_sub, ← sub_eq_add_neg]; exact f2)
  rw [phi_zero h, zero_sub, norm_neg, sub_zero] at this
  exact this.trans (mul_le_mul_of_nonneg_right hκ2 (norm_nonneg _))

end fem

end Verif.Fem.SmallLoads
