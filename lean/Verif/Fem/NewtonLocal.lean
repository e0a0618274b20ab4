import Verif.Fem.Implicit
import Verif.Fem.NewtonLinear
import Verif.Fem.PropsLinear
import Mathlib.Analysis.InnerProductSpace.PiL2
import Mathlib.Analysis.InnerProductSpace.Calculus
import Mathlib.Analysis.Calculus.ContDiff.RCLike
import Mathlib.Analysis.Calculus.ContDiff.Comp
import Mathlib.Topology.Algebra.Module.FiniteDimension
import Mathlib.Analysis.Calculus.LineDeriv.Basic
import Mathlib.Analysis.Calculus.InverseFunctionTheorem.FDeriv

/-!
# The Newton loop of the solver near a regular solution (C151)
-/
namespace Verif.Fem.NewtonLocal
open Set Filter Topology Verif.Fem

/-! ## Newton steps with inexact linear solves -/

section abstract
variable {X : Type*} [NormedAddCommGroup X] [NormedSpace ℝ X]

theorem pass_bound {F : X → X} {A D : X →L[ℝ] X} {M ε η : ℝ} (hM : 0 < M) (hε : 0 ≤ ε) (hMε : M * ε ≤ 1 / 2) (hA : ∀ w, ‖w‖ ≤ M * ‖A w‖) {u u' : X}
    (h2 : ‖D - A‖ ≤ ε) (hp : ‖D (u' - u) + F u‖ ≤ η * ‖F u‖) : ‖u' - u‖ ≤ 2 * M * (1 + η) * ‖F u‖ := by
  set inc := u' - u
  have a1 : ‖A inc‖ ≤ ‖D inc + F u‖ + ‖F u‖ + ‖(D - A) inc‖ := by
    have e : A inc = (D inc + F u) - F u - (D - A) inc := by rw [sub_apply]; abel
    rw [e]
    exact (norm_sub_le _ _).trans (add_le_add_left (norm_sub_le _ _) _)
  have a2 : ‖(D - A) inc‖ ≤ ε * ‖inc‖ := (D - A).le_of_opNorm_le h2 inc
  have a3 := hA inc
  have a4 : M * ‖A inc‖ ≤ M * ((1 + η) * ‖F u‖ + ε * ‖inc‖) := mul_le_mul_of_nonneg_left (by linarith) hM.le
  have a5 : M * ε * ‖inc‖ ≤ 1 / 2 * ‖inc‖ := mul_le_mul_of_nonneg_right hMε (norm_nonneg _)
  linarith

theorem pass_residual {F : X → X} {A D : X →L[ℝ] X} {ε η : ℝ} {u u' : X} (h1 : ‖F u' - F u - A (u' - u)‖ ≤ ε * ‖u' - u‖)
    (h2 : ‖D - A‖ ≤ ε) (hp : ‖D (u' - u) + F u‖ ≤ η * ‖F u‖) : ‖F u'‖ ≤ η * ‖F u‖ + 2 * ε * ‖u' - u‖ := by
  have e : F u' = (F u' - F u - A (u' - u)) + (D (u' - u) + F u) - (D - A) (u' - u) := by rw [sub_apply]; abel
  rw [e]
  have a2 : ‖(D - A) (u' - u)‖ ≤ ε * ‖u' - u‖ := (D - A).le_of_opNorm_le h2 _
  have := (norm_sub_le ((F u' - F u - A (u' - u)) + (D (u' - u) + F u)) ((D - A) (u' - u))).trans (add_le_add_left (norm_add_le _ _) _)
  linarith

/-- A neighbourhood of a regular zero in which Newton steps with linear solves of relative accuracy `η < q` stay, and in which each of them reduces the residual by the factor `q`. -/
theorem region {F : X → X} {z : X} (hF : ContDiffAt ℝ 1 F z) (hz : F z = 0) {M : ℝ} (hM : 0 < M) (hA : ∀ w, ‖w‖ ≤ M * ‖fderiv ℝ F z w‖) {η q : ℝ} (hη : 0 ≤ η) (hηq : η < q) (hq : q < 1)
    {U : Set X} (hU : U ∈ 𝓝 z) :
    ∃ S ∈ 𝓝 z, S ⊆ U ∧ ∀ u ∈ S, ‖u - z‖ ≤ 2 * M * ‖F u‖ ∧ (∀ w, ‖w‖ ≤ 2 * M * ‖fderiv ℝ F u w‖) ∧
      ∀ u', ‖fderiv ℝ F u (u' - u) + F u‖ ≤ η * ‖F u‖ → u' ∈ S ∧ ‖F u'‖ ≤ q * ‖F u‖ := by
  set A := fderiv ℝ F z
  -- the accuracy of the linear approximation
  obtain ⟨ε, hε, hMε, hqε⟩ : ∃ ε, 0 < ε ∧ M * ε ≤ 1 / 2 ∧ η + 2 * ε * (2 * M * (1 + η)) ≤ q := by
    refine ⟨min (1 / (2 * M)) ((q - η) / (4 * M * (1 + η))), lt_min (by positivity) (div_pos (by linarith) (by positivity)), ?_, ?_⟩
    · have := mul_le_mul_of_nonneg_left (min_le_left (1 / (2 * M)) ((q - η) / (4 * M * (1 + η)))) hM.le
      have e : M * (1 / (2 * M)) = 1 / 2 := by field_simp
      linarith
    · have := mul_le_mul_of_nonneg_left (min_le_right (1 / (2 * M)) ((q - η) / (4 * M * (1 + η)))) (by positivity : 0 ≤ 4 * M * (1 + η))
      have e : 4 * M * (1 + η) * ((q - η) / (4 * M * (1 + η))) = q - η := mul_div_cancel₀ _ (by positivity)
      linarith
  have hs := (hF.hasStrictFDerivAt one_ne_zero).approximates_deriv_on_nhds (c := ⟨ε, hε.le⟩) (.inr hε)
  obtain ⟨W, hW, hWa⟩ := hs
  have hc : ∀ᶠ u in 𝓝 z, ‖fderiv ℝ F u - A‖ ≤ ε := by
    have h1 : ContinuousAt (fderiv ℝ F) z := (hF.fderiv_right (m := 0) le_rfl).continuousAt
    have h2 := (Metric.continuousAt_iff'.mp h1) ε hε
    exact h2.mono fun u hu => by rw [dist_eq_norm] at hu; exact hu.le
  obtain ⟨r, hr, hball⟩ := Metric.mem_nhds_iff.mp (inter_mem (inter_mem hW hc) hU)
  have hFc : ContinuousAt F z := hF.continuousAt
  have hρ : 0 < r / (6 * M) := by positivity
  have hsm : ∀ᶠ u in 𝓝 z, ‖F u‖ < r / (6 * M) := by
    have := hFc.norm
    rw [ContinuousAt, hz, norm_zero] at this
    exact this.eventually (gt_mem_nhds hρ)
  refine ⟨Metric.ball z r ∩ {u | ‖F u‖ < r / (6 * M)}, inter_mem (Metric.ball_mem_nhds z hr) hsm, fun u hu => (hball hu.1).2, ?_⟩
  rintro u ⟨hu, hFu⟩
  have hmem := hball hu
  have happ : ∀ {x y : X}, x ∈ Metric.ball z r → y ∈ Metric.ball z r → ‖F x - F y - A (x - y)‖ ≤ ε * ‖x - y‖ := fun hx hy => hWa _ (hball hx).1.1 _ (hball hy).1.1
  have hdist : ‖u - z‖ ≤ 2 * M * ‖F u‖ := by
    have h1 := happ hu (Metric.mem_ball_self hr)
    rw [hz, sub_zero] at h1
    have h2 := hA (u - z)
    have h3 : ‖A (u - z)‖ ≤ ‖F u‖ + ‖F u - A (u - z)‖ := by
      have e : A (u - z) = F u - (F u - A (u - z)) := by abel
      conv_lhs => rw [e]
      exact norm_sub_le _ _
    have h4 : M * ‖A (u - z)‖ ≤ M * (‖F u‖ + ε * ‖u - z‖) := mul_le_mul_of_nonneg_left (by linarith) hM.le
    have h5 : M * ε * ‖u - z‖ ≤ 1 / 2 * ‖u - z‖ := mul_le_mul_of_nonneg_right hMε (norm_nonneg _)
    linarith
  refine ⟨hdist, fun w => ?_, fun u' hp => ?_⟩
  · have h2 := hA w
    have h3 : ‖A w‖ ≤ ‖fderiv ℝ F u w‖ + ‖(fderiv ℝ F u - A) w‖ := by
      have e : A w = fderiv ℝ F u w - (fderiv ℝ F u - A) w := by rw [sub_apply]; abel
      conv_lhs => rw [e]
      exact norm_sub_le _ _
    have h4 : ‖(fderiv ℝ F u - A) w‖ ≤ ε * ‖w‖ := (fderiv ℝ F u - A).le_of_opNorm_le hmem.1.2 w
    have h5 : M * ‖A w‖ ≤ M * (‖fderiv ℝ F u w‖ + ε * ‖w‖) := mul_le_mul_of_nonneg_left (by linarith) hM.le
    have h6 : M * ε * ‖w‖ ≤ 1 / 2 * ‖w‖ := mul_le_mul_of_nonneg_right hMε (norm_nonneg _)
    linarith
  · have b := pass_bound hM hε.le hMε hA hmem.1.2 hp
    have hu' : u' ∈ Metric.ball z r := by
      rw [mem_ball_iff_norm]
      have t : ‖u' - z‖ ≤ ‖u' - u‖ + ‖u - z‖ := by
        have e : u' - z = (u' - u) + (u - z) := by abel
        rw [e]; exact norm_add_le _ _
      have k : 2 * M * (1 + η) * ‖F u‖ + 2 * M * ‖F u‖ ≤ 6 * M * ‖F u‖ := by
        have : 0 ≤ M * ‖F u‖ * (1 - η) := mul_nonneg (mul_nonneg hM.le (norm_nonneg _)) (by linarith)
        nlinarith
      have k2 : 6 * M * ‖F u‖ < r := by
        have := mul_lt_mul_of_pos_left hFu (by positivity : 0 < 6 * M)
        have e : 6 * M * (r / (6 * M)) = r := mul_div_cancel₀ _ (by positivity)
        linarith
      linarith
    have c := pass_residual (happ hu' hu) hmem.1.2 hp
    have c2 : ‖F u'‖ ≤ q * ‖F u‖ := by
      have : 2 * ε * ‖u' - u‖ ≤ 2 * ε * (2 * M * (1 + η) * ‖F u‖) := mul_le_mul_of_nonneg_left b (by positivity)
      have d := mul_le_mul_of_nonneg_right hqε (norm_nonneg (F u))
      linarith
    refine ⟨⟨hu', ?_⟩, c2⟩
    have : q * ‖F u‖ ≤ ‖F u‖ := mul_le_of_le_one_left (norm_nonneg _) hq.le
    exact (c2.trans this).trans_lt hFu

/-- Exact Newton steps near a regular zero of a function whose derivative is Lipschitz: the error is squared. -/
theorem quadratic {F : X → X} {z : X} {r L : ℝ} (hr : 0 < r) (hL : 0 ≤ L) (hd : ∀ u ∈ Metric.ball z r, DifferentiableAt ℝ F u) (hlip : ∀ u ∈ Metric.ball z r, ∀ v ∈ Metric.ball z r, ‖fderiv ℝ F u - fderiv ℝ F v‖ ≤ L * ‖u - v‖)
    (hz : F z = 0) {M : ℝ} (hM : 0 < M) {u : X} (hu : u ∈ Metric.ball z r) (hA : ∀ w, ‖w‖ ≤ M * ‖fderiv ℝ F u w‖) {u' : X} (hp : fderiv ℝ F u (u' - u) + F u = 0) : ‖u' - z‖ ≤ M * L * ‖u - z‖ ^ 2 := by
  -- the remainder of the linear approximation
  have hrem : ‖F z - F u - fderiv ℝ F u (z - u)‖ ≤ L * ‖z - u‖ * ‖z - u‖ := by
    have hseg : segment ℝ u z ⊆ Metric.ball z r := (convex_ball z r).segment_subset hu (Metric.mem_ball_self hr)
    refine Convex.norm_image_sub_le_of_norm_fderiv_le' (s := segment ℝ u z) (fun x hx => hd x (hseg hx)) (fun x hx => ?_) (convex_segment u z) (left_mem_segment ℝ u z) (right_mem_segment ℝ u z)
    refine (hlip x (hseg hx) u hu).trans (mul_le_mul_of_nonneg_left ?_ hL)
    rw [norm_sub_rev z u, ← dist_eq_norm, ← dist_eq_norm]
    obtain ⟨a, b, ha, hb, hab, rfl⟩ := hx
    have e : a • u + b • z - u = b • (z - u) := by rw [smul_sub, ← sub_eq_zero]; have : a = 1 - b := by linarith
                                                   rw [this, sub_smul, one_smul]; abel
    rw [dist_eq_norm, e, norm_smul, Real.norm_of_nonneg hb, dist_eq_norm, norm_sub_rev z u]
    exact mul_le_of_le_one_left (norm_nonneg _) (by linarith)
  have e : fderiv ℝ F u (u' - z) = F z - F u - fderiv ℝ F u (z - u) := by
    have h1 : fderiv ℝ F u (u' - z) = fderiv ℝ F u (u' - u) - fderiv ℝ F u (z - u) := by rw [← map_sub]; congr 1; abel
    rw [h1, eq_neg_of_add_eq_zero_left hp, hz]
    abel
  have h2 := hA (u' - z)
  rw [e] at h2
  refine h2.trans ?_
  have := mul_le_mul_of_nonneg_left hrem hM.le
  rw [norm_sub_rev z u] at this
  refine this.trans (le_of_eq ?_)
  ring

end abstract

/-! ## Specification -/

/-- Arrays of `N` numbers with the norm of `np.linalg.norm`. -/
abbrev Vc (N : ℕ) := EuclideanSpace ℝ (Fin N)

/-- The first `N` entries. -/
noncomputable def vecN (N : ℕ) (x : ℕ → ℝ) : Vc N := WithLp.toLp 2 fun d => x d

/-- The array as a function of the flat index, zero beyond its end. -/
noncomputable def arr {N : ℕ} (v : Vc N) : ℕ → ℝ := ext fun d => v d

/-- The linear solver returns arrays of length `N`, and for systems that have a solution the residual is at most `max(rtol ‖b‖, atol)`: the stopping test of `bicgstab` (solver.py 56-62 with `tol = atol = 1e-10`). -/
def TolLin (N : ℕ) (rtol atol : ℝ) (lin : ℕ → LinCall ℝ → ℕ → ℝ) : Prop :=
  ∀ k (call : LinCall ℝ), (∃ x : Vc N, ∀ d < N, call.op (arr x) d = call.b d) →
    (∀ d, N ≤ d → lin k call d = 0) ∧ ‖vecN N (call.op (lin k call)) - vecN N call.b‖ ≤ max (rtol * ‖vecN N call.b‖) atol

variable {E : Type}

/-- The residual with boundary conditions, `nwt v` being the result of `newton_update` at `v`. -/
noncomputable def modified (P : Prob ℝ E) (nwt : Vc P.numDofs → Newton ℝ) (v : Vc P.numDofs) : Vc P.numDofs := vecN P.numDofs (P.applyBcVec realArith (nwt v).res (arr v))

/-- `z` is a regular solution: near `z` the problem is continuously differentiable, the triplets are the derivative of the residual, and at `z` the modified residual vanishes and its tangent is not singular. -/
structure Regular (P : Prob ℝ E) (nwt : Vc P.numDofs → Newton ℝ) (z : Vc P.numDofs) : Prop where
  newton : ∀ᶠ v in 𝓝 z, P.newton (arr v) = .ok (nwt v)
  cols : ∀ᶠ v in 𝓝 z, ∀ j ∈ (nwt v).J, j < P.numDofs
  smooth : ContDiffAt ℝ 1 (modified P nwt) z
  tangent : ∀ᶠ v in 𝓝 z, ∀ w, ∀ d < P.numDofs, HasDerivAt (fun t : ℝ => (nwt (v + t • w)).res d) (cooMul (nwt v).I (nwt v).J (nwt v).V (arr w) d) 0
  zero : modified P nwt z = 0
  regular : ∀ w : Vc P.numDofs, (∀ d < P.numDofs, P.getAFn realArith false (nwt z) (arr w) d = 0) → w = 0

/-! ## The loop -/

theorem arr_lt {N : ℕ} (v : Vc N) {d : ℕ} (hd : d < N) : arr v d = v ⟨d, hd⟩ := by simp [arr, ext, hd]

theorem arr_ge {N : ℕ} (v : Vc N) {d : ℕ} (hd : N ≤ d) : arr v d = 0 := by simp [arr, ext, hd]

theorem vecN_arr {N : ℕ} (v : Vc N) : vecN N (arr v) = v := by
  ext d
  show arr v d = v d
  rw [arr_lt v d.2]

theorem arr_vecN {N : ℕ} {x : ℕ → ℝ} (hx : ∀ d, N ≤ d → x d = 0) : arr (vecN N x) = x := by
  funext d
  by_cases hd : d < N
  · rw [arr_lt _ hd]; rfl
  · rw [arr_ge _ (not_lt.mp hd), hx d (not_lt.mp hd)]

theorem arr_add {N : ℕ} (v w : Vc N) (d : ℕ) : arr (v + w) d = arr v d + arr w d := by
  by_cases hd : d < N
  · rw [arr_lt _ hd, arr_lt _ hd, arr_lt _ hd]; rfl
  · rw [arr_ge _ (not_lt.mp hd), arr_ge _ (not_lt.mp hd), arr_ge _ (not_lt.mp hd), add_zero]

theorem arr_line {N : ℕ} (v w : Vc N) (t : ℝ) (d : ℕ) : arr (v + t • w) d = arr v d + t * arr w d := by
  by_cases hd : d < N
  · rw [arr_lt _ hd, arr_lt _ hd, arr_lt _ hd]; rfl
  · rw [arr_ge _ (not_lt.mp hd), arr_ge _ (not_lt.mp hd), arr_ge _ (not_lt.mp hd), mul_zero, add_zero]

theorem resNorm_eq (P : Prob ℝ E) (r : ℕ → ℝ) : P.resNorm realArith r = ‖vecN P.numDofs r‖ := by
  have hl : ∀ n, (((List.range n).map r).map (· ^ 2)).sum = ∑ d ∈ Finset.range n, r d ^ 2 := by
    intro n
    induction n with
    | zero => simp
    | succ n ih => rw [List.range_succ, Finset.sum_range_succ, List.map_append, List.map_append, List.sum_append, ih]; simp
  show Real.sqrt _ = _
  rw [hl, EuclideanSpace.norm_eq, Finset.sum_range]
  simp [vecN]

variable {P : Prob ℝ E} {nwt : Vc P.numDofs → Newton ℝ} {z : Vc P.numDofs}

/-- Where the triplets are the derivative of the residual, the operator given to the linear solver is the derivative of the modified residual. -/
theorem op_at (hwf : P.WF) {v : Vc P.numDofs} (usePetsc : Bool) (ht : ∀ w, ∀ d < P.numDofs, HasDerivAt (fun t : ℝ => (nwt (v + t • w)).res d) (cooMul (nwt v).I (nwt v).J (nwt v).V (arr w) d) 0)
    (hd : DifferentiableAt ℝ (modified P nwt) v) (hJ : ∀ j ∈ (nwt v).J, j < P.numDofs) (w : Vc P.numDofs) (d : Fin P.numDofs) :
    P.getAFn realArith usePetsc (nwt v) (arr w) d = fderiv ℝ (modified P nwt) v w d := by
  have e1 : P.getAFn realArith usePetsc (nwt v) (arr w) d = P.getAFn realArith false (nwt v) (arr w) d := by
    cases usePetsc
    · rfl
    · exact C20_petsc_eq_jax P hwf (nwt v) hJ (arr w) d d.2
  rw [e1]
  have h1 : HasDerivAt (fun t : ℝ => modified P nwt (v + t • w)) (fderiv ℝ (modified P nwt) v w) 0 := hd.hasFDerivAt.hasLineDerivAt w
  have h2 : HasDerivAt (fun t : ℝ => modified P nwt (v + t • w) d) (fderiv ℝ (modified P nwt) v w d) 0 := (EuclideanSpace.proj (𝕜 := ℝ) d).hasFDerivAt.comp_hasDerivAt (0 : ℝ) h1
  refine HasDerivAt.unique ?_ h2
  have hA : P.getAFn realArith false (nwt v) (arr w) d = _ := P.rowElimination_eq hwf (Prob.spMul realArith (nwt v).I (nwt v).J (nwt v).V) (arr w) d
  have hF : ∀ t : ℝ, modified P nwt (v + t • w) d = P.applyBcVec realArith (nwt (v + t • w)).res (arr (v + t • w)) d := fun t => rfl
  rw [hA]
  simp only [hF, P.applyBcVec_eq realArith hwf]
  cases hl : lastVal P.prescriptions d with
  | some x =>
    have h3 : HasDerivAt (fun t : ℝ => arr v d + t * arr w d) (arr w d) 0 := by
      simpa using ((hasDerivAt_id (0 : ℝ)).mul_const (arr w d)).const_add (arr v d)
    simp only [arr_line]
    exact h3.add_const (-x)
  | none =>
    dsimp only
    rw [spMul_real]
    exact ht w d d.2

/-- Near a regular solution the operator given to the linear solver is the derivative of the modified residual. -/
theorem op_eq (hwf : P.WF) (h : Regular P nwt z) (usePetsc : Bool) :
    ∀ᶠ v in 𝓝 z, ∀ w (d : Fin P.numDofs), P.getAFn realArith usePetsc (nwt v) (arr w) d = fderiv ℝ (modified P nwt) v w d := by
  have hd : ∀ᶠ v in 𝓝 z, DifferentiableAt ℝ (modified P nwt) v := (h.smooth.eventually (by simp)).mono fun v hv => hv.differentiableAt one_ne_zero
  filter_upwards [h.tangent, hd, h.cols] with v ht hd hJ w d using op_at hwf usePetsc ht hd hJ w d

/-- The constant of a regular solution. -/
theorem lower (hwf : P.WF) (h : Regular P nwt z) : ∃ M, 0 < M ∧ ∀ w, ‖w‖ ≤ M * ‖fderiv ℝ (modified P nwt) z w‖ := by
  have hker : LinearMap.ker (fderiv ℝ (modified P nwt) z : Vc P.numDofs →ₗ[ℝ] Vc P.numDofs) = ⊥ := by
    rw [LinearMap.ker_eq_bot']
    intro w hw
    refine h.regular w fun d hd => ?_
    have := (op_eq hwf h false).self_of_nhds w ⟨d, hd⟩
    have hw' : fderiv ℝ (modified P nwt) z w = 0 := hw
    rw [hw'] at this
    exact this
  obtain ⟨K, hK, ha⟩ := LinearMap.exists_antilipschitzWith _ hker
  refine ⟨K, hK, fun w => ?_⟩
  have := ha.le_mul_dist w 0
  simpa [dist_eq_norm] using this

/-- One pass of the loop. -/
theorem pass {usePetsc : Bool} {rtol atol : ℝ} {lin : ℕ → LinCall ℝ → ℕ → ℝ} (hlin : TolLin P.numDofs rtol atol lin) {u : Vc P.numDofs}
    (hop : ∀ w (d : Fin P.numDofs), P.getAFn realArith usePetsc (nwt u) (arr w) d = fderiv ℝ (modified P nwt) u w d) {M : ℝ} (hinj : ∀ w, ‖w‖ ≤ M * ‖fderiv ℝ (modified P nwt) u w‖) (k : ℕ) (precond : Bool) :
    ∃ u' : Vc P.numDofs, P.linearIncremental realArith lin k precond usePetsc (nwt u) (P.applyBcVec realArith (nwt u).res (arr u)) (arr u) = arr u' ∧
      ‖fderiv ℝ (modified P nwt) u (u' - u) + modified P nwt u‖ ≤ max (rtol * ‖modified P nwt u‖) atol := by
  obtain ⟨call, hcall, hcop, hcb⟩ : ∃ call : LinCall ℝ, P.linearIncremental realArith lin k precond usePetsc (nwt u) (P.applyBcVec realArith (nwt u).res (arr u)) (arr u) = (fun d => arr u d + lin k call d) ∧
      call.op = P.getAFn realArith usePetsc (nwt u) ∧ ∀ d, call.b d = -P.applyBcVec realArith (nwt u).res (arr u) d := by
    cases usePetsc with
    | true => exact ⟨⟨true, _, _, none, none⟩, rfl, rfl, fun d => rfl⟩
    | false => exact ⟨⟨false, _, _, _, _⟩, rfl, rfl, fun d => rfl⟩
  have hb : vecN P.numDofs call.b = -modified P nwt u := by
    ext d
    exact hcb d
  have hsurj : ∃ w, fderiv ℝ (modified P nwt) u w = -modified P nwt u := by
    have hi : Function.Injective (fderiv ℝ (modified P nwt) u : Vc P.numDofs →ₗ[ℝ] Vc P.numDofs) := by
      rw [← LinearMap.ker_eq_bot, LinearMap.ker_eq_bot']
      intro w hw
      have := hinj w
      have hw' : fderiv ℝ (modified P nwt) u w = 0 := hw
      rw [hw', norm_zero, mul_zero] at this
      exact norm_le_zero_iff.mp this
    exact LinearMap.injective_iff_surjective.mp hi _
  obtain ⟨w, hw⟩ := hsurj
  obtain ⟨h1, h2⟩ := hlin k call ⟨w, fun d hd => by
    have := hop w ⟨d, hd⟩
    rw [hcop, hcb d, this, hw]
    rfl⟩
  refine ⟨u + vecN P.numDofs (lin k call), ?_, ?_⟩
  · rw [hcall]
    funext d
    rw [arr_add, arr_vecN h1]
  · have e1 : vecN P.numDofs (call.op (lin k call)) = fderiv ℝ (modified P nwt) u (vecN P.numDofs (lin k call)) := by
      ext d
      have := hop (vecN P.numDofs (lin k call)) d
      rw [arr_vecN h1, ← hcop] at this
      exact this
    rw [e1, hb, sub_neg_eq_add, norm_neg] at h2
    rwa [add_sub_cancel_left]

/-- The loop in a set of states which the passes do not leave and in which each pass reduces the residual by the factor `q`. -/
theorem run (usePetsc : Bool) {rtol atol q : ℝ} (hr0 : 0 ≤ rtol) (hq0 : 0 ≤ q) {lin : ℕ → LinCall ℝ → ℕ → ℝ} (hlin : TolLin P.numDofs rtol atol lin) {S : Set (Vc P.numDofs)} (hok : ∀ u ∈ S, P.newton (arr u) = .ok (nwt u))
    (hop : ∀ u ∈ S, ∀ w (d : Fin P.numDofs), P.getAFn realArith usePetsc (nwt u) (arr w) d = fderiv ℝ (modified P nwt) u w d) {M : ℝ} (hinj : ∀ u ∈ S, ∀ w, ‖w‖ ≤ M * ‖fderiv ℝ (modified P nwt) u w‖)
    (hstep : ∀ u ∈ S, ∀ u', ‖fderiv ℝ (modified P nwt) u (u' - u) + modified P nwt u‖ ≤ max rtol (atol * 1e6) * ‖modified P nwt u‖ → u' ∈ S ∧ ‖modified P nwt u'‖ ≤ q * ‖modified P nwt u‖)
    {u0 : Vc P.numDofs} (hu0 : u0 ∈ S) (precond : Bool) (passes : ℕ) (hpass : ‖modified P nwt u0‖ * q ^ passes ≤ 1e-6) :
    ∃ u ∈ S, P.rowSolver realArith lin false precond usePetsc (some (arr u0)) passes = .ok (arr u) ∧ ‖modified P nwt u‖ ≤ 1e-6 := by
  have hhelp : ∀ u ∈ S, P.helper realArith (arr u) = .ok (nwt u, P.applyBcVec realArith (nwt u).res (arr u)) := fun u hu => by
    simp only [Prob.helper, hok u hu]
  have hloop : ∀ (passes k : ℕ) (u : Vc P.numDofs), u ∈ S → ‖modified P nwt u‖ * q ^ passes ≤ 1e-6 →
      ∃ u' ∈ S, ∃ rn, P.newtonLoop realArith lin precond usePetsc passes k (arr u) (nwt u, P.applyBcVec realArith (nwt u).res (arr u)) = .ok (arr u', rn) ∧ ‖modified P nwt u'‖ ≤ 1e-6 := by
    intro passes
    induction passes with
    | zero =>
      intro k u hu hle
      rw [pow_zero, mul_one] at hle
      refine ⟨u, hu, P.resNorm realArith (P.applyBcVec realArith (nwt u).res (arr u)), ?_, hle⟩
      unfold Prob.newtonLoop
      have : realArith.gt (P.resNorm realArith (P.applyBcVec realArith (nwt u).res (arr u))) realArith.tol = false := by
        rw [resNorm_eq]
        simp only [realArith, gt_iff_lt, decide_eq_false_iff_not, not_lt]
        exact hle
      simp only [this, Bool.false_eq_true, if_false]
    | succ passes ih =>
      intro k u hu hle
      by_cases hgt : ‖modified P nwt u‖ ≤ 1e-6
      · refine ⟨u, hu, P.resNorm realArith (P.applyBcVec realArith (nwt u).res (arr u)), ?_, hgt⟩
        unfold Prob.newtonLoop
        have : realArith.gt (P.resNorm realArith (P.applyBcVec realArith (nwt u).res (arr u))) realArith.tol = false := by
          rw [resNorm_eq]
          simp only [realArith, gt_iff_lt, decide_eq_false_iff_not, not_lt]
          exact hgt
        simp only [this, Bool.false_eq_true, if_false]
      · have hgt' : (1e-6 : ℝ) < ‖modified P nwt u‖ := not_le.mp hgt
        obtain ⟨u', hu'eq, hu'⟩ := pass hlin (hop u hu) (hinj u hu) k precond
        obtain ⟨hu'S, hred⟩ := hstep u hu u' (hu'.trans (by
          rw [max_mul_of_nonneg _ _ (norm_nonneg _)]
          refine max_le (le_max_left _ _) ?_
          by_cases h0 : atol ≤ 0
          · exact h0.trans ((mul_nonneg hr0 (norm_nonneg _)).trans (le_max_left _ _))
          · refine le_trans ?_ (le_max_right _ _)
            have := mul_le_mul_of_nonneg_left hgt'.le (by linarith : 0 ≤ atol * 1e6)
            have e : atol * 1e6 * 1e-6 = atol := by ring
            linarith))
        have hn : ‖modified P nwt u'‖ * q ^ passes ≤ 1e-6 := by
          refine le_trans ?_ hle
          rw [pow_succ', ← mul_assoc, mul_comm (‖modified P nwt u‖) q]
          exact mul_le_mul_of_nonneg_right hred (pow_nonneg hq0 _)
        obtain ⟨v, hv, rn, hrun, hvn⟩ := ih (k + 1) u' hu'S hn
        refine ⟨v, hv, rn, ?_, hvn⟩
        unfold Prob.newtonLoop
        have : realArith.gt (P.resNorm realArith (P.applyBcVec realArith (nwt u).res (arr u))) realArith.tol = true := by
          rw [resNorm_eq]
          simp only [realArith, gt_iff_lt, decide_eq_true_eq]
          exact hgt'
        simp only [this, if_true]
        rw [hu'eq, hhelp u' hu'S]
        exact hrun
  obtain ⟨u, hu, rn, hrun, hun⟩ := hloop passes 1 u0 hu0 hpass
  refine ⟨u, hu, ?_, hun⟩
  unfold Prob.rowSolver
  simp only [Bool.false_eq_true, if_false, Bind.bind, Except.bind, Pure.pure, Except.pure, hhelp u0 hu0, hrun]
  simp [Prob.checkFinite, realArith]

/-- **C151 (the loop ends near a regular solution).** With a linear solver of tolerances `rtol < q`, `atol < 1e-6 q`, `q < 1`: from every start in a neighbourhood of a regular solution the nonlinear branch of `solver_row_elimination`
returns. Every pass reduces the norm of the residual at least by the factor `q`, so it returns after at most as many passes as are needed to bring `q ^ passes` times the first norm to the tolerance. The residual of the result is at most
`1e-6`, and its distance to the solution at most a constant of the problem times `1e-6`. -/
theorem C151_local (hwf : P.WF) (h : Regular P nwt z) (usePetsc : Bool) {rtol atol q : ℝ} (hr0 : 0 ≤ rtol) (hr : rtol < q) (ha : atol < 1e-6 * q) (hq : q < 1) {lin : ℕ → LinCall ℝ → ℕ → ℝ} (hlin : TolLin P.numDofs rtol atol lin) :
    ∃ C, ∃ S ∈ 𝓝 z, ∀ u0 ∈ S, ∀ (precond : Bool) (passes : ℕ), ‖modified P nwt u0‖ * q ^ passes ≤ 1e-6 →
      ∃ u ∈ S, P.rowSolver realArith lin false precond usePetsc (some (arr u0)) passes = .ok (arr u) ∧ ‖modified P nwt u‖ ≤ 1e-6 ∧ ‖u - z‖ ≤ C * 1e-6 := by
  obtain ⟨M, hM, hA⟩ := lower hwf h
  have hη : max rtol (atol * 1e6) < q := max_lt hr (by linarith)
  obtain ⟨S, hS, hSU, hreg⟩ := region h.smooth h.zero hM hA (η := max rtol (atol * 1e6)) (hr0.trans (le_max_left _ _)) hη hq (inter_mem h.newton (op_eq hwf h usePetsc))
  refine ⟨2 * M, S, hS, fun u0 hu0 precond passes hpass => ?_⟩
  obtain ⟨u, hu, hrun, hun⟩ := run usePetsc hr0 (hr0.trans hr.le) hlin (fun u hu => (hSU hu).1) (fun u hu => (hSU hu).2) (fun u hu => (hreg u hu).2.1) (fun u hu => (hreg u hu).2.2) hu0 precond passes hpass
  refine ⟨u, hu, hrun, hun, ?_⟩
  exact (hreg u hu).1.trans (mul_le_mul_of_nonneg_left hun (by positivity))

/-- **C151 (the tolerances of the code).** With the tolerances `tol = atol = 1e-10` given to `bicgstab`, every pass near a regular solution reduces the residual to a thousandth. -/
theorem C151_jax (hwf : P.WF) (h : Regular P nwt z) (usePetsc : Bool) {lin : ℕ → LinCall ℝ → ℕ → ℝ} (hlin : TolLin P.numDofs 1e-10 1e-10 lin) :
    ∃ C, ∃ S ∈ 𝓝 z, ∀ u0 ∈ S, ∀ (precond : Bool) (passes : ℕ), ‖modified P nwt u0‖ ≤ 1e-6 * 1000 ^ passes →
      ∃ u ∈ S, P.rowSolver realArith lin false precond usePetsc (some (arr u0)) passes = .ok (arr u) ∧ ‖modified P nwt u‖ ≤ 1e-6 ∧ ‖u - z‖ ≤ C * 1e-6 := by
  obtain ⟨C, S, hS, hrun⟩ := C151_local hwf h usePetsc (rtol := 1e-10) (atol := 1e-10) (q := 1 / 1000) (by norm_num) (by norm_num) (by norm_num) (by norm_num) hlin
  refine ⟨C, S, hS, fun u0 hu0 precond passes hle => hrun u0 hu0 precond passes ?_⟩
  rw [one_div, inv_pow, ← div_eq_mul_inv, div_le_iff₀ (by positivity)]
  exact hle

/-- **C151 (quadratic convergence).** If the modified residual is twice continuously differentiable at a regular solution and the linear systems are solved exactly, one pass squares the distance to the solution, up to a constant. -/
theorem C151_quadratic (hwf : P.WF) (h : Regular P nwt z) (h2 : ContDiffAt ℝ 2 (modified P nwt) z) (usePetsc : Bool) {lin : ℕ → LinCall ℝ → ℕ → ℝ} (hlin : TolLin P.numDofs 0 0 lin) :
    ∃ C, ∃ S ∈ 𝓝 z, ∀ u ∈ S, ∀ (k : ℕ) (precond : Bool), ∃ u',
      P.linearIncremental realArith lin k precond usePetsc (nwt u) (P.applyBcVec realArith (nwt u).res (arr u)) (arr u) = arr u' ∧ ‖u' - z‖ ≤ C * ‖u - z‖ ^ 2 := by
  obtain ⟨M, hM, hA⟩ := lower hwf h
  obtain ⟨S, hS, hSU, hreg⟩ := region h.smooth h.zero hM hA (η := 0) (q := 1 / 2) le_rfl (by norm_num) (by norm_num) (op_eq hwf h usePetsc)
  obtain ⟨K, W, hW, hK⟩ := (h2.fderiv_right (m := 1) (by norm_num)).exists_lipschitzOnWith
  have hd : ∀ᶠ v in 𝓝 z, DifferentiableAt ℝ (modified P nwt) v := (h.smooth.eventually (by simp)).mono fun v hv => hv.differentiableAt one_ne_zero
  obtain ⟨r, hr, hball⟩ := Metric.mem_nhds_iff.mp (inter_mem hd hW)
  refine ⟨2 * M * K, S ∩ Metric.ball z r, inter_mem hS (Metric.ball_mem_nhds z hr), fun u hu k precond => ?_⟩
  obtain ⟨-, hinj, -⟩ := hreg u hu.1
  obtain ⟨u', h1, h3⟩ := pass hlin (hSU hu.1) hinj k precond
  refine ⟨u', h1, ?_⟩
  rw [zero_mul, max_self] at h3
  refine quadratic hr K.2 (fun v hv => (hball hv).1) (fun v hv w hw => ?_) h.zero (by positivity : 0 < 2 * M) hu.2 hinj (norm_le_zero_iff.mp h3)
  have := hK.dist_le_mul v (hball hv).2 w (hball hw).2
  rwa [dist_eq_norm, dist_eq_norm] at this

/-! ## Finite element problems -/

section fem
variable {nn nq nf nfq dim vec : ℕ}

/-- Specification: the tensor, mass and Cauchy maps are `m` times continuously differentiable at the values which the field `s` takes in the quadrature points. -/
structure SmoothAt (F : Fem nn nq nf nfq dim vec) (m : ℕ) (s : ℕ → Fin vec → ℝ) : Prop where
  tensor : ∀ tm, F.tensorMap = some tm → ∀ p ∈ F.cells.zipIdx, ∀ q, ContDiffAt ℝ m (tm p.2 q) (F.gradAt s p.1 q)
  mass : ∀ mm, F.massMap = some mm → ∀ p ∈ F.cells.zipIdx, ∀ q, ContDiffAt ℝ m (mm p.2 q) (F.uAt s p.1 q)
  cauchy : ∀ lv ∈ Fem.pairs F.cauchy, ∀ p ∈ F.selected lv.1, ∀ q, ContDiffAt ℝ m lv.2 (F.uFace s p q)

/-- The array as a nodal field. -/
noncomputable def field {N : ℕ} (vec : ℕ) (v : Vc N) (n : ℕ) (i : Fin vec) : ℝ := arr v (vec * n + i)

theorem contDiff_arr {N : ℕ} (m : ℕ) (d : ℕ) : ContDiff ℝ m fun v : Vc N => arr v d := by
  by_cases hd : d < N
  · simp only [arr_lt _ hd]
    exact (EuclideanSpace.proj (𝕜 := ℝ) (⟨d, hd⟩ : Fin N)).contDiff
  · simp only [arr_ge _ (not_lt.mp hd)]
    exact contDiff_const

theorem contDiffAt_listSum {X α : Type*} [NormedAddCommGroup X] [NormedSpace ℝ X] {m : ℕ} {z : X} (l : List α) (g : α → X → ℝ) (h : ∀ p ∈ l, ContDiffAt ℝ m (g p) z) :
    ContDiffAt ℝ m (fun v => (l.map fun p => g p v).sum) z := by
  induction l with
  | nil => exact contDiffAt_const
  | cons a l ih =>
    simp only [List.map_cons, List.sum_cons]
    exact (h a (by simp)).add (ih fun p hp => h p (by simp [hp]))

variable {N : ℕ} (F : Fem nn nq nf nfq dim vec)

theorem contDiff_field (m n : ℕ) (i : Fin vec) : ContDiff ℝ m fun v : Vc N => field vec v n i := contDiff_arr m _

theorem contDiff_gradAt (m : ℕ) (c : Fin nn → ℕ) (q : Fin nq) : ContDiff ℝ m fun v : Vc N => F.gradAt (field vec v) c q :=
  contDiff_pi.mpr fun i => contDiff_pi.mpr fun d => ContDiff.sum fun n _ => (contDiff_field m (c n) i).mul contDiff_const

theorem contDiff_uAt (m : ℕ) (c : Fin nn → ℕ) (q : Fin nq) : ContDiff ℝ m fun v : Vc N => F.uAt (field vec v) c q :=
  contDiff_pi.mpr fun i => ContDiff.sum fun n _ => (contDiff_field m (c n) i).mul contDiff_const

theorem contDiff_uFace (m : ℕ) (p : (Fin nn → ℕ) × Fin nf) (q : Fin nfq) : ContDiff ℝ m fun v : Vc N => F.uFace (field vec v) p q :=
  contDiff_pi.mpr fun i => ContDiff.sum fun n _ => (contDiff_field m (p.1 n) i).mul contDiff_const

theorem smooth_residual {m : ℕ} {z : Vc N} (hs : SmoothAt F m (field vec z)) (n : ℕ) (i : Fin vec) :
    ContDiffAt ℝ m (fun v : Vc N => (F.cells.zipIdx.map fun p => nodal n p.1 fun a => F.volTerm (field vec v) p.1 p.2 a i).sum
      + ((Fem.pairs F.cauchy).map fun lv => ((F.selected lv.1).map fun p => nodal n p.1 fun a =>
          ∑ q, lv.2 (F.uFace (field vec v) p q) i * F.faceShapeVals p.2 q a * F.nansonScale p.1 p.2 q).sum).sum) z := by
  refine ContDiffAt.add (contDiffAt_listSum _ _ fun p hp => ?_) (contDiffAt_listSum _ _ fun lv hlv => contDiffAt_listSum _ _ fun p hp => ?_)
  · unfold nodal Fem.volTerm
    refine ContDiffAt.sum fun a _ => ContDiffAt.sum fun q _ => ContDiffAt.mul (ContDiffAt.add (ContDiffAt.sum fun d _ => ContDiffAt.mul ?_ contDiffAt_const) (ContDiffAt.mul ?_ contDiffAt_const)) contDiffAt_const
    · unfold Fem.stress
      cases ht : F.tensorMap with
      | none => exact contDiffAt_const
      | some tm =>
        have h1 : ContDiffAt ℝ m (fun v : Vc N => tm p.2 q (F.gradAt (field vec v) p.1 q)) z := (hs.tensor tm ht p hp q).comp z (contDiff_gradAt F m p.1 q).contDiffAt
        exact contDiffAt_pi.mp (contDiffAt_pi.mp h1 i) d
    · unfold Fem.massAt
      cases ht : F.massMap with
      | none => exact contDiffAt_const
      | some mm =>
        have h1 : ContDiffAt ℝ m (fun v : Vc N => mm p.2 q (F.uAt (field vec v) p.1 q)) z := (hs.mass mm ht p hp q).comp z (contDiff_uAt F m p.1 q).contDiffAt
        exact contDiffAt_pi.mp h1 i
  · unfold nodal
    refine ContDiffAt.sum fun a _ => ContDiffAt.sum fun q _ => ContDiffAt.mul (ContDiffAt.mul ?_ contDiffAt_const) contDiffAt_const
    have h1 : ContDiffAt ℝ m (fun v : Vc N => lv.2 (F.uFace (field vec v) p q)) z := (hs.cauchy lv hlv p hp q).comp z (contDiff_uFace F m p q).contDiffAt
    exact contDiffAt_pi.mp h1 i

theorem list_eventually {X α : Type*} {f : Filter X} (l : List α) {g : α → X → Prop} (h : ∀ p ∈ l, ∀ᶠ v in f, g p v) : ∀ᶠ v in f, ∀ p ∈ l, g p v := by
  induction l with
  | nil => simp
  | cons a l ih =>
    filter_upwards [h a (by simp), ih fun p hp => h p (by simp [hp])] with v h1 h2 p hp
    rcases List.mem_cons.mp hp with rfl | hp
    exacts [h1, h2 p hp]

/-- Near a field where the maps are smooth they are differentiable. -/
theorem smooth_near {z : Vc N} (hs : SmoothAt F 1 (field vec z)) :
    ∀ᶠ v in 𝓝 z, (∀ tm, F.tensorMap = some tm → ∀ p ∈ F.cells.zipIdx, ∀ q, DifferentiableAt ℝ (tm p.2 q) (F.gradAt (field vec v) p.1 q)) ∧
      (∀ mm, F.massMap = some mm → ∀ p ∈ F.cells.zipIdx, ∀ q, DifferentiableAt ℝ (mm p.2 q) (F.uAt (field vec v) p.1 q)) ∧
      ∀ lv ∈ Fem.pairs F.cauchy, ∀ p ∈ F.selected lv.1, ∀ q, DifferentiableAt ℝ lv.2 (F.uFace (field vec v) p q) := by
  have key : ∀ {Y Z : Type} [NormedAddCommGroup Y] [NormedSpace ℝ Y] [NormedAddCommGroup Z] [NormedSpace ℝ Z] {f : Y → Z} {g : Vc N → Y}, ContDiffAt ℝ (1 : ℕ) f (g z) → ContinuousAt g z →
      ∀ᶠ v in 𝓝 z, DifferentiableAt ℝ f (g v) := by
    intro Y Z _ _ _ _ f g h1 h2
    exact h2.eventually ((h1.eventually (by simp)).mono fun v hv => hv.differentiableAt (by simp))
  refine Filter.Eventually.and ?_ (Filter.Eventually.and ?_ ?_)
  · cases ht : F.tensorMap with
    | none => exact Eventually.of_forall fun v tm h => by cases h
    | some tm =>
      filter_upwards [list_eventually F.cells.zipIdx fun p hp => eventually_all.mpr fun q => key (hs.tensor tm ht p hp q) (contDiff_gradAt F 1 p.1 q).continuous.continuousAt] with v hv tm' h
      cases h
      exact hv
  · cases ht : F.massMap with
    | none => exact Eventually.of_forall fun v tm h => by cases h
    | some mm =>
      filter_upwards [list_eventually F.cells.zipIdx fun p hp => eventually_all.mpr fun q => key (hs.mass mm ht p hp q) (contDiff_uAt F 1 p.1 q).continuous.continuousAt] with v hv tm' h
      cases h
      exact hv
  · exact list_eventually _ fun lv hlv => list_eventually _ fun p hp => eventually_all.mpr fun q => key (hs.cauchy lv hlv p hp q) (contDiff_uFace F 1 p q).continuous.continuousAt

variable [NeZero vec]

theorem fem_newton (groups : List (Group ℝ)) {u : ℕ → ℝ} {nw : Newton ℝ} (h : (F.toProb groups).newton u = .ok nw) (w : ℕ → ℝ) :
    ∃ nw' R I J V, (F.toProb groups).newton w = .ok nw' ∧ F.newtonUpdate (fun n i => w (vec * n + i)) = .ok (R, I, J, V) ∧
      nw'.res = (fun d => R (d / vec) (Fin.ofNat vec d)) ∧ nw'.I = I ∧ nw'.J = J ∧ nw'.V = V := by
  cases hn : F.newtonUpdate fun n i => u (vec * n + i) with
  | error e =>
    simp only [Fem.toProb] at h
    rw [hn] at h; cases h
  | ok nu =>
    obtain ⟨R0, I0, J0, V0⟩ := nu
    cases hneu : F.neumannIntegral with
    | error e =>
      simp only [Fem.toProb] at h
      rw [hn, hneu] at h; cases h
    | ok neu =>
      obtain ⟨hr, hc, hm, -⟩ := (computeResidual_ok_iff F _ _).mp ((C14_same_residual F _ _).mpr ⟨_, _, _, hn⟩)
      obtain ⟨I, J, V, hw⟩ := (C14_same_residual F _ _).mp ((computeResidual_ok_iff F (fun n i => w (vec * n + i)) _).mpr ⟨hr, hc, hm, rfl⟩)
      have : ∃ nw', (F.toProb groups).newton w = .ok nw' ∧ nw'.res = (fun d => (fun n i => F.cellSum (fun n i => w (vec * n + i)) n i + F.faceSum (fun n i => w (vec * n + i)) n i - F.bodySum n i - F.neumannSum n i) (d / vec) (Fin.ofNat vec d)) ∧
          nw'.I = I ∧ nw'.J = J ∧ nw'.V = V := by
        simp only [Fem.toProb]
        rw [hw, hneu]
        exact ⟨_, rfl, rfl, rfl, rfl, rfl⟩
      obtain ⟨nw', h1, h2, h3, h4, h5⟩ := this
      exact ⟨nw', _, I, J, V, h1, hw, h2, h3, h4, h5⟩

/-- Where the maps are differentiable the triplets are the derivative of the residual. -/
theorem fem_tangent {N : ℕ} {nwt : Vc N → Newton ℝ} {R : Vc N → ℕ → Fin vec → ℝ} {I J : Vc N → List ℕ} {V : Vc N → List ℝ} (h2 : ∀ v : Vc N, F.newtonUpdate (field vec v) = .ok (R v, I v, J v, V v))
    (h3 : ∀ v, (nwt v).res = fun d => R v (d / vec) (Fin.ofNat vec d)) (h4 : ∀ v, (nwt v).I = I v) (h5 : ∀ v, (nwt v).J = J v) (h6 : ∀ v, (nwt v).V = V v) {v : Vc N}
    (hv : (∀ tm, F.tensorMap = some tm → ∀ p ∈ F.cells.zipIdx, ∀ q, DifferentiableAt ℝ (tm p.2 q) (F.gradAt (field vec v) p.1 q)) ∧
      (∀ mm, F.massMap = some mm → ∀ p ∈ F.cells.zipIdx, ∀ q, DifferentiableAt ℝ (mm p.2 q) (F.uAt (field vec v) p.1 q)) ∧
      ∀ lv ∈ Fem.pairs F.cauchy, ∀ p ∈ F.selected lv.1, ∀ q, DifferentiableAt ℝ lv.2 (F.uFace (field vec v) p q)) (w : Vc N) (d : ℕ) :
    HasDerivAt (fun t : ℝ => (nwt (v + t • w)).res d) (cooMul (nwt v).I (nwt v).J (nwt v).V (arr w) d) 0 := by
  have hflat : ∀ d : ℕ, vec * (d / vec) + (Fin.ofNat vec d : ℕ) = d := fun d => Nat.div_add_mod d vec
  obtain ⟨Rf, g1, g2, g3⟩ := C14_tangent F (field vec v) (R v) (I v) (J v) (V v) (h2 v)
    (fun k c hk => C14_kernel_differentiable F k c _ (fun tm htm q => hv.1 tm htm (c, k) (List.mem_zipIdx_iff_getElem?.mpr hk) q) fun mm hmm q => hv.2.1 mm hmm (c, k) (List.mem_zipIdx_iff_getElem?.mpr hk) q)
    (fun lv hlv p hp => C14_face_differentiable F lv.2 p _ fun q => hv.2.2 lv hlv p hp q)
  have hR : ∀ v', R v' = Rf (field vec v') := fun v' => by
    have := ((C14_same_residual F (field vec v') (R v')).mpr ⟨_, _, _, h2 v'⟩).symm.trans (g1 _)
    injection this
  have := g3 (field vec w) (arr w) (fun _ _ => rfl) (d / vec) (Fin.ofNat vec d)
  rw [hflat] at this
  rw [h4 v, h5 v, h6 v]
  refine this.congr_of_eventuallyEq (Eventually.of_forall fun t => ?_)
  show (nwt (v + t • w)).res d = _
  rw [h3, hR]
  have e : field vec (v + t • w) = field vec v + t • field vec w := by
    funext n i
    exact arr_line v w t _
  rw [e]

/-- **C151 (finite element problems).** For an assembled problem whose maps are smooth at the quadrature points of the solution, `newton_update` returns at every state, the modified residual is as smooth as the maps, and a state where it
vanishes with a nonsingular operator of `get_A_fn` is a regular solution. -/
theorem C151_fem (groups : List (Group ℝ)) (hwf : (F.toProb groups).WF) (hmesh : ∀ c ∈ F.cells, ∀ a, c a < F.numTotal) {m : ℕ} (hm : 1 ≤ m) (z : Vc (F.toProb groups).numDofs) (hs : SmoothAt F m (field vec z))
    (nw : Newton ℝ) (hnw : (F.toProb groups).newton (arr z) = .ok nw) (hzero : ∀ d < (F.toProb groups).numDofs, (F.toProb groups).applyBcVec realArith nw.res (arr z) d = 0)
    (hreg : ∀ w : Vc (F.toProb groups).numDofs, (∀ d < (F.toProb groups).numDofs, (F.toProb groups).getAFn realArith false nw (arr w) d = 0) → w = 0) :
    ∃ nwt, (∀ v, (F.toProb groups).newton (arr v) = .ok (nwt v)) ∧ Regular (F.toProb groups) nwt z ∧ ContDiffAt ℝ m (modified (F.toProb groups) nwt) z := by
  choose nwt R I J V h1 h2 h3 h4 h5 h6 using fun v : Vc (F.toProb groups).numDofs => fem_newton F groups hnw (arr v)
  have hz : nwt z = nw := by
    have := (h1 z).symm.trans hnw
    injection this
  have hs1 : SmoothAt F 1 (field vec z) := ⟨fun tm h p hp q => (hs.tensor tm h p hp q).of_le (by exact_mod_cast hm), fun mm h p hp q => (hs.mass mm h p hp q).of_le (by exact_mod_cast hm),
    fun lv h p hp q => (hs.cauchy lv h p hp q).of_le (by exact_mod_cast hm)⟩
  have hres : ∀ d, ContDiffAt ℝ m (fun v => (nwt v).res d) z := by
    intro d
    have e : (fun v => (nwt v).res d) = fun v => _ := funext fun v => (congrFun (h3 v) d).trans (C13_residual F (field vec v) (R v) ((C14_same_residual F _ _).mpr ⟨_, _, _, h2 v⟩) _ _)
    rw [e]
    exact ((smooth_residual F hs _ _).sub contDiffAt_const).sub contDiffAt_const
  have hmod : ContDiffAt ℝ m (modified (F.toProb groups) nwt) z := by
    refine contDiffAt_euclidean.mpr fun d => ?_
    show ContDiffAt ℝ m (fun v => (F.toProb groups).applyBcVec realArith (nwt v).res (arr v) d) z
    simp only [(F.toProb groups).applyBcVec_eq realArith hwf]
    cases lastVal (F.toProb groups).prescriptions d with
    | none => exact hres d
    | some x => exact (contDiff_arr m d).contDiffAt.add contDiffAt_const
  refine ⟨nwt, h1, ⟨Eventually.of_forall h1, Eventually.of_forall fun v j hj => ?_, hmod.of_le (by exact_mod_cast hm), ?_, ?_, by rw [hz]; exact hreg⟩, hmod⟩
  · obtain ⟨-, -, hJ, -⟩ := (newtonUpdate_ok_iff F _ _ _ _ _).mp (h2 v)
    rw [h5 v, hJ] at hj
    rcases List.mem_append.mp hj with hj | hj
    · exact cooJ_mem _ _ hmesh j hj
    · refine cooJ_mem _ _ (fun c hc => ?_) j hj
      obtain ⟨lv, -, hc⟩ := List.mem_flatMap.mp hc
      obtain ⟨p, hp, rfl⟩ := List.mem_map.mp hc
      exact hmesh _ (selected_mem F hp)
  · filter_upwards [smooth_near F hs1] with v hv w d hd
    exact fem_tangent F h2 h3 h4 h5 h6 hv w d
  · ext d
    show (F.toProb groups).applyBcVec realArith (nwt z).res (arr z) d = 0
    rw [hz]
    exact hzero d d.2

end fem

/-! ## Example -/

/-- One unknown with the residual `u + u³ - 2`, which vanishes at `u = 1`. -/
noncomputable def cubic : Prob ℝ Unit where
  vec := 1
  numNodes := 1
  groups := []
  newton x := .ok ⟨fun d => x d + x d ^ 3 - 2, [0], [0], [1 + 3 * x 0 ^ 2], 0⟩

noncomputable def cubicNewton (v : Vc cubic.numDofs) : Newton ℝ := ⟨fun d => arr v d + arr v d ^ 3 - 2, [0], [0], [1 + 3 * arr v 0 ^ 2], 0⟩

theorem cubic_WF : cubic.WF := fun g hg => by simp [cubic] at hg

theorem cubic_bc (res u : ℕ → ℝ) (d : ℕ) : cubic.applyBcVec realArith res u d = res d := by
  rw [cubic.applyBcVec_eq realArith cubic_WF]
  rfl

theorem cubic_smooth (m : ℕ) : ContDiff ℝ m (modified cubic cubicNewton) := by
  refine contDiff_euclidean.mpr fun d => ?_
  show ContDiff ℝ m fun v => cubic.applyBcVec realArith (cubicNewton v).res (arr v) d
  simp only [cubic_bc, cubicNewton]
  exact ((contDiff_arr m d).add ((contDiff_arr m d).pow 3)).sub contDiff_const

theorem cubic_regular : Regular cubic cubicNewton (vecN cubic.numDofs fun _ => 1) where
  newton := Eventually.of_forall fun _ => rfl
  cols := Eventually.of_forall fun v j hj => by
    have : j = 0 := by simpa [cubicNewton] using hj
    rw [this]
    exact Nat.one_pos
  smooth := (cubic_smooth 1).contDiffAt
  tangent := Eventually.of_forall fun v w d hd => by
    obtain rfl : d = 0 := by
      have : d < 1 := hd
      omega
    have h3 : HasDerivAt (fun t : ℝ => arr v 0 + t * arr w 0) (arr w 0) 0 := by simpa using ((hasDerivAt_id (0 : ℝ)).mul_const (arr w 0)).const_add (arr v 0)
    have h4 := (h3.add (h3.pow 3)).sub_const 2
    simp only [cubicNewton, arr_line]
    refine h4.congr_deriv ?_
    simp [cooMul]
    ring
  zero := by
    ext d
    show cubic.applyBcVec realArith (cubicNewton (vecN cubic.numDofs fun _ => 1)).res (arr (vecN cubic.numDofs fun _ => 1)) d = 0
    rw [cubic_bc]
    simp only [cubicNewton]
    rw [arr_lt _ d.2]
    show (1 : ℝ) + 1 ^ 3 - 2 = 0
    norm_num
  regular w hw := by
    have h0 : (0 : ℕ) < cubic.numDofs := Nat.one_pos
    have h := hw 0 h0
    rw [show cubic.getAFn realArith false (cubicNewton (vecN cubic.numDofs fun _ => 1)) (arr w) 0 = _ from cubic.rowElimination_eq cubic_WF _ _ 0] at h
    have e : (cubicNewton (vecN cubic.numDofs fun _ => 1)).V = [4] := by
      simp only [cubicNewton]
      rw [arr_lt _ h0]
      show [(1 : ℝ) + 3 * 1 ^ 2] = [4]
      norm_num
    have h1 : Prob.spMul realArith (cubicNewton (vecN cubic.numDofs fun _ => 1)).I (cubicNewton (vecN cubic.numDofs fun _ => 1)).J (cubicNewton (vecN cubic.numDofs fun _ => 1)).V (arr w) 0 = 0 := h
    rw [spMul_real, e] at h1
    have h2 : arr w 0 = 0 := by simpa [cubicNewton, cooMul] using h1
    ext d
    have hd : d = ⟨0, h0⟩ := Fin.ext (Nat.lt_one_iff.mp d.2)
    rw [hd, ← arr_lt w h0, h2]
    rfl

/-- Near `1` the loop ends with the tolerances of the code, and with exact linear solves the error is squared in every pass. -/
example (lin lin' : ℕ → LinCall ℝ → ℕ → ℝ) (hlin : TolLin 1 1e-10 1e-10 lin) (hlin' : TolLin 1 0 0 lin') :
    (∃ C, ∃ S ∈ 𝓝 (vecN cubic.numDofs fun _ => 1), ∀ u0 ∈ S, ∀ (precond : Bool) (passes : ℕ), ‖modified cubic cubicNewton u0‖ ≤ 1e-6 * 1000 ^ passes →
      ∃ u ∈ S, cubic.rowSolver realArith lin false precond false (some (arr u0)) passes = .ok (arr u) ∧ ‖modified cubic cubicNewton u‖ ≤ 1e-6 ∧ ‖u - vecN cubic.numDofs fun _ => 1‖ ≤ C * 1e-6) ∧
    ∃ C, ∃ S ∈ 𝓝 (vecN cubic.numDofs fun _ => 1), ∀ u ∈ S, ∃ u', cubic.linearIncremental realArith lin' 0 false false (cubicNewton u) (cubic.applyBcVec realArith (cubicNewton u).res (arr u)) (arr u) = arr u' ∧
      ‖u' - vecN cubic.numDofs fun _ => 1‖ ≤ C * ‖u - vecN cubic.numDofs fun _ => 1‖ ^ 2 := by
  refine ⟨C151_jax cubic_WF cubic_regular false hlin, ?_⟩
  obtain ⟨C, S, hS, h⟩ := C151_quadratic cubic_WF cubic_regular (cubic_smooth 2).contDiffAt false hlin'
  exact ⟨C, S, hS, fun u hu => h u hu 0 false⟩

end Verif.Fem.NewtonLocal
