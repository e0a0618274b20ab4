import Verif.Fem.PropsLinear
import Verif.Fem.PropsUnique

/-!
# The nonlinear branch of the solver on linear problems (C108, first part)

The demos call `solver(problem)` with its default `linear=False` also for linear problems. One Newton step then suffices.
-/
namespace Verif.Fem
open Finset

variable {nn nq nf nfq dim vec : ℕ} {E : Type}

theorem linearIncremental_exact (P : Prob ℝ E) (h : P.WF) (I J : List ℕ) (V : List ℝ) (hJ : ∀ j ∈ J, j < P.numDofs) (f load : ℕ → ℝ)
    (precond usePetsc : Bool) (lin : ℕ → LinCall ℝ → ℕ → ℝ)
    (hlin : ∀ k (call : LinCall ℝ), call.op = P.getAFn realArith usePetsc ⟨f, I, J, V, load⟩ → ∀ d < P.numDofs, call.op (lin k call) d = call.b d) (k : ℕ) (u0 : ℕ → ℝ) :
    let nw : Newton ℝ := ⟨fun d => cooMul I J V u0 d - f d, I, J, V, load⟩
    let u := P.linearIncremental realArith lin k precond usePetsc nw (P.applyBcVec realArith (fun d => cooMul I J V u0 d - f d) u0) u0
    (∀ d < P.numDofs, ∀ v, LastAt P.prescriptions d v → u d = v) ∧ (∀ d < P.numDofs, FreeAt P.prescriptions d → cooMul I J V u d = f d) := by
  intro nw u
  set res := P.applyBcVec realArith (fun d => cooMul I J V u0 d - f d) u0 with hres
  obtain ⟨inc, hinc, hsol⟩ : ∃ inc : ℕ → ℝ, u = (fun d => u0 d + inc d) ∧ ∀ d < P.numDofs, P.getAFn realArith false nw inc d = -res d := by
    cases usePetsc with
    | true =>
      refine ⟨lin k ⟨true, P.getAFn realArith true nw, fun d => realArith.neg (res d), none, none⟩, rfl, fun d hd => ?_⟩
      rw [← C20_petsc_eq_jax P h nw hJ _ d hd]
      exact hlin k ⟨true, P.getAFn realArith true nw, fun d => realArith.neg (res d), none, none⟩ rfl d hd
    | false =>
      exact ⟨lin k ⟨false, P.getAFn realArith false nw, fun d => realArith.neg (res d), some fun d => realArith.add (P.assignBc (fun _ => realArith.zero) d) (realArith.neg (P.copyBc realArith u0 d)),
        if precond then some (P.jacobi realArith nw) else none⟩, rfl, fun d hd => hlin k ⟨false, _, _, _, _⟩ rfl d hd⟩
  rw [hinc]
  refine ⟨fun d hd v hv => ?_, fun d hd hf => ?_⟩
  · have h1 := hsol d hd
    have hA : P.getAFn realArith false nw inc d = _ := P.rowElimination_eq h (Prob.spMul realArith nw.I nw.J nw.V) inc d
    rw [hA, (lastVal_some _ _ _).mpr hv, hres, (C19_components realArith P h _ u0 d).1 v hv] at h1
    have h2 : inc d = -(u0 d + -v) := h1
    show u0 d + inc d = v
    rw [h2]
    ring
  · have h1 := hsol d hd
    have hA : P.getAFn realArith false nw inc d = _ := P.rowElimination_eq h (Prob.spMul realArith nw.I nw.J nw.V) inc d
    rw [hA, (lastVal_none _ _).mpr hf, hres, (C19_components realArith P h _ u0 d).2 hf] at h1
    dsimp only at h1
    rw [spMul_real] at h1
    have h2 : cooMul I J V inc d = -(cooMul I J V u0 d - f d) := h1
    have h3 := cooMul_linear I J V u0 inc 1 1 d
    simp only [one_mul] at h3
    show cooMul I J V (fun d => u0 d + inc d) d = f d
    rw [h3, h2]
    ring

/-- A modified residual that vanishes has norm zero, which is not above the tolerance. -/
theorem resNorm_zero (P : Prob ℝ E) (r : ℕ → ℝ) (hr : ∀ d < P.numDofs, r d = 0) : realArith.gt (P.resNorm realArith r) realArith.tol = false := by
  have h1 : P.resNorm realArith r = 0 := by
    unfold Prob.resNorm
    have : (List.range P.numDofs).map r = (List.range P.numDofs).map fun _ => (0 : ℝ) := List.map_congr_left fun d hd => hr d (List.mem_range.mp hd)
    rw [this]
    simp [realArith]
  rw [h1]
  simp only [realArith, gt_iff_lt, decide_eq_false_iff_not, not_lt]
  norm_num

theorem resNorm_le (P : Prob ℝ E) (r : ℕ → ℝ) (hr : realArith.gt (P.resNorm realArith r) realArith.tol = false) (d : ℕ) (hd : d < P.numDofs) : |r d| ≤ 1e-6 := by
  have h1 : P.resNorm realArith r ≤ 1e-6 := by
    simpa only [realArith, gt_iff_lt, decide_eq_false_iff_not, not_lt] using hr
  refine le_trans ?_ h1
  unfold Prob.resNorm
  show |r d| ≤ Real.sqrt _
  rw [← Real.sqrt_sq_eq_abs]
  refine Real.sqrt_le_sqrt ?_
  rw [List.map_map]
  exact List.single_le_sum (fun x hx => by
    obtain ⟨e, -, rfl⟩ := List.mem_map.mp hx
    exact sq_nonneg (r e)) _ (List.mem_map.mpr ⟨d, List.mem_range.mpr hd, rfl⟩)

/-- **C108 (Newton on linear problems).** For a problem whose residual is `K u - f` with constant triplets and a linear solver which is exact for its operator: with the default branch of `solver` at most one
Newton step is made. The returned vector is either the exact solution or the starting guess, and the latter only if the norm of its residual is not above the tolerance. -/
theorem newton_linear (P : Prob ℝ E) (h : P.WF) (I J : List ℕ) (V : List ℝ) (hJ : ∀ j ∈ J, j < P.numDofs) (f load : ℕ → ℝ)
    (haff : ∀ u, P.newton u = .ok ⟨fun d => cooMul I J V u d - f d, I, J, V, load⟩)
    (precond usePetsc : Bool) (guess : Option (ℕ → ℝ)) (fuel : ℕ)
    (lin : ℕ → LinCall ℝ → ℕ → ℝ) (hlin : ∀ k (call : LinCall ℝ), call.op = P.getAFn realArith usePetsc ⟨f, I, J, V, load⟩ → ∀ d < P.numDofs, call.op (lin k call) d = call.b d) :
    ∃ u, P.rowSolver realArith lin false precond usePetsc guess (fuel + 1) = .ok u ∧
      (realArith.gt (P.resNorm realArith (P.applyBcVec realArith (fun d => cooMul I J V u d - f d) u)) realArith.tol = false) ∧
      (u = guess.getD (P.linearGuess realArith lin 0 precond usePetsc ⟨fun d => cooMul I J V (fun _ => 0) d - f d, I, J, V, load⟩) ∨ (∀ d < P.numDofs, ∀ v, LastAt P.prescriptions d v → u d = v) ∧ ∀ d < P.numDofs, FreeAt P.prescriptions d → cooMul I J V u d = f d) := by
  have hhelp : ∀ u, P.helper realArith u = .ok (⟨fun d => cooMul I J V u d - f d, I, J, V, load⟩, P.applyBcVec realArith (fun d => cooMul I J V u d - f d) u) := by
    intro u
    simp only [Prob.helper, haff u]
  have hlr : ∃ u0, u0 = guess.getD (P.linearGuess realArith lin 0 precond usePetsc ⟨fun d => cooMul I J V (fun _ => 0) d - f d, I, J, V, load⟩) ∧ P.rowSolver realArith lin false precond usePetsc guess (fuel + 1) =
      (P.newtonLoop realArith lin precond usePetsc (fuel + 1) 1 u0 (⟨fun d => cooMul I J V u0 d - f d, I, J, V, load⟩, P.applyBcVec realArith (fun d => cooMul I J V u0 d - f d) u0)).bind
        (P.checkFinite realArith) := by
    unfold Prob.rowSolver
    cases guess with
    | none =>
      refine ⟨_, rfl, ?_⟩
      simp only [Bool.false_eq_true, if_false, bind, Except.bind, pure, Except.pure, hhelp, Option.getD]
      rfl
    | some g =>
      refine ⟨_, rfl, ?_⟩
      simp only [Bool.false_eq_true, if_false, bind, Except.bind, pure, Except.pure, hhelp, Option.getD]
  obtain ⟨u0, hu0, hrun⟩ := hlr
  rw [hrun]
  have hfin : ∀ out : (ℕ → ℝ) × ℝ, P.checkFinite (E := E) realArith out = .ok out.1 := fun out => by simp [Prob.checkFinite, realArith]
  unfold Prob.newtonLoop
  split_ifs with hgt
  · obtain ⟨h1, h2⟩ := linearIncremental_exact P h I J V hJ f load precond usePetsc lin hlin 1 u0
    set u := P.linearIncremental realArith lin 1 precond usePetsc ⟨fun d => cooMul I J V u0 d - f d, I, J, V, load⟩ (P.applyBcVec realArith (fun d => cooMul I J V u0 d - f d) u0) u0 with hu
    have hz : realArith.gt (P.resNorm realArith (P.applyBcVec realArith (fun d => cooMul I J V u d - f d) u)) realArith.tol = false := by
      refine resNorm_zero P _ fun d hd => ?_
      rcases free_or_last P.prescriptions d with hf | ⟨v, hv⟩
      · rw [(C19_components realArith P h _ u d).2 hf, h2 d hd hf, sub_self]
      · rw [(C19_components realArith P h _ u d).1 v hv, h1 d hd v hv]
        exact add_neg_cancel v
    refine ⟨u, ?_, hz, .inr ⟨h1, h2⟩⟩
    dsimp only
    rw [hhelp u]
    dsimp only
    unfold Prob.newtonLoop
    dsimp only
    rw [hz]
    exact hfin _
  · exact ⟨u0, hfin _, by simpa using hgt, .inl hu0⟩

/-- **C108 (Newton, finite elements).** A linear determined problem: exact linear solvers exist, and with each of them the default branch of `solver` returns, after at most one Newton step, a field whose modified residual has norm at most
the tolerance; unless this is the starting guess (given, or from `linear_guess_solve`) it is the one and only discrete solution. -/
theorem C108_newton [NeZero vec] (F : Fem nn nq nf nfq dim vec) (hF : F.Linear) (groups : List (Group ℝ)) (hwf : (F.toProb groups).WF) (hmesh : ∀ c ∈ F.cells, ∀ a, c a < F.numTotal)
    (h0 : ∃ s R, F.computeResidual s = .ok R) (hdet : F.Determined (F.toProb groups).prescriptions) (usePetsc : Bool) :
    (∃ lin, (F.toProb groups).ExactFor usePetsc lin) ∧
    ∀ lin, (F.toProb groups).ExactFor usePetsc lin → ∀ (precond : Bool) (guess : Option (ℕ → ℝ)) (fuel : ℕ),
      ∃ u, (F.toProb groups).rowSolver realArith lin false precond usePetsc guess (fuel + 1) = .ok u ∧
        (∃ R, F.computeResidual (fun n i => u (vec * n + i)) = .ok R ∧ ∀ n < F.numTotal, ∀ i : Fin vec,
          (∀ v, LastAt (F.toProb groups).prescriptions (vec * n + i) v → |u (vec * n + i) - v| ≤ 1e-6) ∧ (FreeAt (F.toProb groups).prescriptions (vec * n + i) → |R n i| ≤ 1e-6)) ∧
        ((∃ nw, (F.toProb groups).newton (fun _ => 0) = .ok nw ∧ u = guess.getD ((F.toProb groups).linearGuess realArith lin 0 precond usePetsc nw)) ∨ F.Solves (F.toProb groups).prescriptions (fun n i => u (vec * n + i)) ∧
          ∀ s, F.Solves (F.toProb groups).prescriptions s → ∀ n < F.numTotal, ∀ i : Fin vec, u (vec * n + i) = s n i) := by
  obtain ⟨I, J, V, f, load, hJ, hnew, hres⟩ := C87_affine F hF groups hmesh h0
  refine ⟨(C87_solution F hF groups hwf hmesh h0 hdet usePetsc).1, fun lin hlin precond guess fuel => ?_⟩
  obtain ⟨u, h1, hz, h2⟩ := newton_linear (F.toProb groups) hwf I J V hJ f load hnew precond usePetsc guess fuel lin
    (fun k call hop d hd => hlin k call ⟨fun _ => 0, _, hnew _, by rw [hop]; rfl⟩ d hd)
  obtain ⟨R, hR, hRv⟩ := hres u
  refine ⟨u, h1, ⟨R, hR, fun n hn i => ?_⟩, ?_⟩
  · have hn := resNorm_le (F.toProb groups) _ hz (vec * n + i) (dof_lt _ n hn i)
    refine ⟨fun v hv => ?_, fun hf => ?_⟩
    · rwa [(C19_components realArith (F.toProb groups) hwf _ u _).1 v hv] at hn
    · rw [(C19_components realArith (F.toProb groups) hwf _ u _).2 hf] at hn
      rw [hRv]
      exact hn
  · rcases h2 with h2 | ⟨h2, h3⟩
    · exact .inl ⟨_, hnew _, h2⟩
    · refine .inr ?_
      have hsol : F.Solves (F.toProb groups).prescriptions (fun n i => u (vec * n + i)) := by
        refine ⟨R, hR, fun n hn i => ⟨fun v hv => h2 _ (dof_lt _ n hn i) v hv, fun hf => ?_⟩⟩
        rw [hRv, h3 _ (dof_lt _ n hn i) hf, sub_self]
      refine ⟨hsol, ?_⟩
      rintro s ⟨Rs, hs, hsv⟩ n hn i
      obtain ⟨R, hR, hRv⟩ := hsol
      refine hdet _ s R Rs hR hs (fun n hn i hnf => ?_) (fun n hn i hf => ?_) n hn i
      · rcases free_or_last (F.toProb groups).prescriptions (vec * n + i) with hf | ⟨v, hl⟩
        · exact absurd hf hnf
        · exact ((hRv n hn i).1 v hl).trans ((hsv n hn i).1 v hl).symm
      · rw [(hRv n hn i).2 hf, (hsv n hn i).2 hf]

end Verif.Fem
