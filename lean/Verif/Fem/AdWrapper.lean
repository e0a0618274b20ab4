import Mathlib.Analysis.Calculus.ImplicitFunction.ProdDomain
import Mathlib.Analysis.Calculus.ContDiff.Basic
import Mathlib.Analysis.Calculus.ContDiff.RCLike
import Mathlib.Analysis.Calculus.ContDiff.Operations
import Mathlib.LinearAlgebra.Matrix.NonsingularInverse
import Verif.Fem.Implicit
import Verif.Fem.LagrangeProps

/-!
# C94: differentiating through a whole solve (`ad_wrapper`, `jax_am/fem/solver.py` 929-948, and `ad_wrapper_jvp`, `jax_am/fem/autodiff_utils.py` 38-75)

`C27` assumes that the solution depends differentiably on the parameters. Here this is proved from the implicit function theorem, and for linear problems everything is derived from the code:
the forward solve, its differentiability, the adjoint solve and the gradient of an objective.
-/
namespace Verif.Fem
open Finset Filter Topology

variable {E : Type} {m : ℕ}

namespace ParamProb
variable (D : ParamProb m E)

/-- `fwd_pred(params)` (solver.py 932-935) and `forward_solve(params)` (autodiff_utils.py 57-62): `set_params`, then `solver` with its default arguments `precond=True, initial_guess=None`; no periodic conditions.
The result is an array with `num_total_dofs` entries. -/
noncomputable def fwdPred (lin : ℕ → LinCall ℝ → ℕ → ℝ) (linear usePetsc : Bool) (fuel : ℕ) (p : Fin m → ℝ) : Except (SolveErr E) (ℕ → ℝ) :=
  ((D.prob p).rowSolver realArith lin linear true usePetsc none fuel).map (cut (D.prob p).numDofs)

/-- Reverse mode through `fwd_pred` for an objective `J` of the solution: `f_fwd` saves `(params, sol)`, the cotangent handed to `f_bwd` is the gradient of `J` at `sol` (solver.py 937-945). -/
noncomputable def revGrad (lin : ℕ → LinCall ℝ → ℕ → ℝ) (linear usePetsc : Bool) (fuel : ℕ) (J : (ℕ → ℝ) → ℝ) (p : Fin m → ℝ) : Except (SolveErr E) (Fin m → ℝ) := do
  let sol ← D.fwdPred lin linear usePetsc fuel p
  let v : ℕ → ℝ := fun d => deriv (fun t : ℝ => J (sol + t • Pi.single d 1)) 0
  match D.implicitVjp (lin 1) sol p v usePetsc with
  | .error e => .error (.raised e)
  | .ok g => .ok g

/-- Forward mode through `forward_solve` (autodiff_utils.py 64-73). -/
noncomputable def fwdTangent (lin : ℕ → LinCall ℝ → ℕ → ℝ) (linear usePetsc : Bool) (fuel : ℕ) (p pdot : Fin m → ℝ) : Except (SolveErr E) (ℕ → ℝ) := do
  let sol ← D.fwdPred lin linear usePetsc fuel p
  match D.implicitJvp (lin 1) sol p pdot with
  | .error e => .error (.raised e)
  | .ok g => .ok g

end ParamProb

/-! ## Differentiability of the solution map -/

section ift
variable {N : ℕ} {D : ParamProb m E} {p : Fin m → ℝ} {u : (Fin m → ℝ) → Fin N → ℝ}

/-- Exchange of the two arguments. -/
def swapCLM (m N : ℕ) : (Fin m → ℝ) × (Fin N → ℝ) →L[ℝ] (Fin N → ℝ) × (Fin m → ℝ) := (ContinuousLinearMap.snd ℝ _ _).prod (ContinuousLinearMap.fst ℝ _ _)

theorem strict_swap {L : (Fin N → ℝ) × (Fin m → ℝ) →L[ℝ] (Fin N → ℝ)} {x : Fin N → ℝ} (hC : HasStrictFDerivAt (D.C N) L (x, p)) :
    HasStrictFDerivAt (fun v : (Fin m → ℝ) × (Fin N → ℝ) => D.C N (v.2, v.1)) (L.comp (swapCLM m N)) (p, x) :=
  HasStrictFDerivAt.comp (p, x) (f := fun v : (Fin m → ℝ) × (Fin N → ℝ) => (v.2, v.1)) hC (swapCLM m N).hasStrictFDerivAt

theorem invertible_swap {L : (Fin N → ℝ) × (Fin m → ℝ) →L[ℝ] (Fin N → ℝ)} (hinj : ∀ w : Fin N → ℝ, L (w, 0) = 0 → w = 0) :
    ((L.comp (swapCLM m N)).comp (.inr ℝ (Fin m → ℝ) (Fin N → ℝ))).IsInvertible := by
  set T := (L.comp (swapCLM m N)).comp (.inr ℝ (Fin m → ℝ) (Fin N → ℝ)) with hT
  have h1 : ∀ w, T w = L (w, 0) := fun w => rfl
  have h2 : Function.Injective T.toLinearMap := by
    rw [injective_iff_map_eq_zero]
    intro w hw
    exact hinj w ((h1 w).symm.trans hw)
  refine ⟨(LinearEquiv.ofInjectiveEndo T.toLinearMap h2).toContinuousLinearEquiv, ?_⟩
  ext w
  rfl

/-- **C94 (the solution depends differentiably on the parameters).** If the modified residual is continuously differentiable at a solution and its derivative with respect to the solution is injective there, every
continuous branch of solutions is differentiable, so the hypotheses of `C27` hold. -/
theorem C94_differentiable (hsize : (D.prob p).numDofs = N) (L : (Fin N → ℝ) × (Fin m → ℝ) →L[ℝ] (Fin N → ℝ)) (hC : HasStrictFDerivAt (D.C N) L (u p, p))
    (hinj : ∀ w : Fin N → ℝ, L (w, 0) = 0 → w = 0) (hu : ContinuousAt u p) (hzero : ∀ᶠ q in 𝓝 p, ∀ d, D.con (ext (u q)) q (d : Fin N) = 0) : SolvesNear D p u := by
  have hS := strict_swap (p := p) hC
  have hI := invertible_swap (m := m) hinj
  have h1 := hS.eventually_apply_eq_iff_implicitFunctionOfProdDomain hI
  have h2 : Tendsto (fun q => (q, u q)) (𝓝 p) (𝓝 (p, u p)) := (continuousAt_id.prodMk hu)
  have h3 := h2.eventually h1
  have h4 : D.C N (u p, p) = 0 := by
    funext d
    exact hzero.self_of_nhds d
  have h5 : u =ᶠ[𝓝 p] hS.implicitFunctionOfProdDomain hI := by
    filter_upwards [h3, hzero] with q hq hz
    refine (hq.mp ?_).symm
    show D.C N (u q, q) = D.C N (u p, p)
    rw [h4]
    funext d
    exact hz d
  refine ⟨hsize, hC.differentiableAt, ?_, hzero⟩
  exact (h5.differentiableAt_iff).mpr (hS.hasStrictFDerivAt_implicitFunctionOfProdDomain hI).differentiableAt

end ift

/-! ## Linear problems: the whole chain -/

/-- Specification: a linear solver that solves every solvable system exactly (the first `N` rows). -/
def ExactLin (N : ℕ) (lin : ℕ → LinCall ℝ → ℕ → ℝ) : Prop :=
  ∀ k (call : LinCall ℝ), (∃ x, ∀ d < N, call.op x d = call.b d) → ∀ d < N, call.op (lin k call) d = call.b d

/-- Specification: a family of linear problems `K(q) u = f(q)` with Dirichlet values depending on the parameters. The sparsity pattern and the constrained degrees of freedom are fixed. -/
structure LinearFamily (D : ParamProb m E) (N : ℕ) (p : Fin m → ℝ) where
  I : List ℕ
  J : List ℕ
  V : List ((Fin m → ℝ) → ℝ)
  f : (Fin m → ℝ) → ℕ → ℝ
  load : (Fin m → ℝ) → ℕ → ℝ
  size : ∀ q, (D.prob q).numDofs = N
  wf : ∀ q, (D.prob q).WF
  cols : ∀ j ∈ J, j < N
  res : ∀ q x d, D.res q x d = cooMul I J (V.map (· q)) x d - f q d
  newton : ∀ q x, (D.prob q).newton x = .ok ⟨fun d => cooMul I J (V.map (· q)) x d - f q d, I, J, V.map (· q), load q⟩
  smoothV : ∀ v ∈ V, ContDiffAt ℝ 1 v p
  smoothF : ∀ d < N, ContDiffAt ℝ 1 (fun q => f q d) p
  pres : ∀ d < N, (∀ q, FreeAt (D.prob q).prescriptions d) ∨ ∃ w : (Fin m → ℝ) → ℝ, ContDiffAt ℝ 1 w p ∧ ∀ q, LastAt (D.prob q).prescriptions d (w q)

namespace LinearFamily
variable {N : ℕ} {D : ParamProb m E} {p : Fin m → ℝ} (F : LinearFamily D N p)

/-- What `newton_update` leaves behind at parameters `q` (the residual is not used by the operators). -/
noncomputable def nw (q : Fin m → ℝ) : Newton ℝ := ⟨F.f q, F.I, F.J, F.V.map (· q), F.load q⟩

/-- The operator of `get_A_fn` at parameters `q`. -/
noncomputable def op (usePetsc : Bool) (q : Fin m → ℝ) : (ℕ → ℝ) → ℕ → ℝ := (D.prob q).getAFn realArith usePetsc (F.nw q)

theorem op_eq (q : Fin m → ℝ) (usePetsc : Bool) (x : ℕ → ℝ) (d : ℕ) (hd : d < N) : F.op usePetsc q x d = F.op false q x d := by
  cases usePetsc with
  | false => rfl
  | true => exact C20_petsc_eq_jax (D.prob q) (F.wf q) (F.nw q) (by rw [F.size]; exact F.cols) x d (by rw [F.size]; exact hd)

theorem op_free (q : Fin m → ℝ) (x : ℕ → ℝ) (d : ℕ) (hf : FreeAt (D.prob q).prescriptions d) : F.op false q x d = cooMul F.I F.J (F.V.map (· q)) x d := by
  have h := (D.prob q).rowElimination_eq (F.wf q) (Prob.spMul realArith F.I F.J (F.V.map fun v => v q)) x d
  refine Eq.trans (show F.op false q x d = _ from h) ?_
  rw [ (lastVal_none _ _).mpr hf]
  exact spMul_real _ _ _ _ _

theorem op_last (q : Fin m → ℝ) (x : ℕ → ℝ) (d : ℕ) (w : ℝ) (hw : LastAt (D.prob q).prescriptions d w) : F.op false q x d = x d := by
  have h := (D.prob q).rowElimination_eq (F.wf q) (Prob.spMul realArith F.I F.J (F.V.map fun v => v q)) x d
  refine Eq.trans (show F.op false q x d = _ from h) ?_
  rw [ (lastVal_some _ _ _).mpr hw]

theorem con_free (q : Fin m → ℝ) (x : ℕ → ℝ) (d : ℕ) (hf : FreeAt (D.prob q).prescriptions d) : D.con x q d = cooMul F.I F.J (F.V.map (· q)) x d - F.f q d := by
  rw [← F.res]
  exact (C19_components realArith (D.prob q) (F.wf q) _ _ d).2 hf

include F in
theorem con_last (q : Fin m → ℝ) (x : ℕ → ℝ) (d : ℕ) (w : ℝ) (hw : LastAt (D.prob q).prescriptions d w) : D.con x q d = x d - w := by
  have : D.con x q d = x d + -w := (C19_components realArith (D.prob q) (F.wf q) _ _ d).1 w hw
  rw [this, sub_eq_add_neg]

/-- The modified residual is affine with the operator of `get_A_fn` as linear part. -/
theorem con_sub (q : Fin m → ℝ) (x y : ℕ → ℝ) (d : ℕ) (hd : d < N) : D.con x q d - D.con y q d = F.op false q (x - y) d := by
  have hsub : cooMul F.I F.J (F.V.map (· q)) (x - y) d = cooMul F.I F.J (F.V.map (· q)) x d - cooMul F.I F.J (F.V.map (· q)) y d := by
    unfold cooMul
    generalize F.I.zip (F.J.zip (F.V.map (· q))) = l
    induction l with
    | nil => simp
    | cons t l ih =>
      simp only [List.map_cons, List.sum_cons, ih]
      split_ifs <;> simp <;> ring
  rcases F.pres d hd with hf | ⟨w, -, hw⟩
  · rw [F.con_free q x d (hf q), F.con_free q y d (hf q), F.op_free q _ d (hf q), hsub]
    ring
  · rw [F.con_last q x d _ (hw q), F.con_last q y d _ (hw q), F.op_last q _ d _ (hw q)]
    simp

theorem cooMul_local (I J : List ℕ) (V : List ℝ) (hJ : ∀ j ∈ J, j < N) (x y : ℕ → ℝ) (h : ∀ d < N, x d = y d) (d : ℕ) : cooMul I J V x d = cooMul I J V y d := by
  unfold cooMul
  congr 1
  refine List.map_congr_left fun t ht => ?_
  have hj : t.2.1 < N := hJ _ (List.of_mem_zip (List.of_mem_zip (show (t.1, t.2) ∈ _ from ht)).2).1
  rw [h _ hj]

theorem op_local (q : Fin m → ℝ) (x y : ℕ → ℝ) (h : ∀ d < N, x d = y d) (d : ℕ) (hd : d < N) : F.op false q x d = F.op false q y d := by
  rcases F.pres d hd with hf | ⟨w, -, hw⟩
  · rw [F.op_free q x d (hf q), F.op_free q y d (hf q)]
    exact cooMul_local _ _ _ F.cols x y h d
  · rw [F.op_last q x d _ (hw q), F.op_last q y d _ (hw q), h d hd]

include F in
/-- The modified residual is continuously differentiable. -/
theorem smooth (x : Fin N → ℝ) : ContDiffAt ℝ 1 (D.C N) (x, p) := by
  refine contDiffAt_pi.2 fun d => ?_
  have hext : ∀ j, j < N → ContDiffAt ℝ 1 (fun z : (Fin N → ℝ) × (Fin m → ℝ) => ext z.1 j) (x, p) := by
    intro j hj
    have : (fun z : (Fin N → ℝ) × (Fin m → ℝ) => ext z.1 j) = fun z => z.1 ⟨j, hj⟩ := by
      funext z
      exact ext_lt z.1 ⟨j, hj⟩
    rw [this]
    fun_prop
  have hsnd : ∀ g : (Fin m → ℝ) → ℝ, ContDiffAt ℝ 1 g p → ContDiffAt ℝ 1 (fun z : (Fin N → ℝ) × (Fin m → ℝ) => g z.2) (x, p) := fun g hg =>
    ContDiffAt.comp (x, p) (f := fun z : (Fin N → ℝ) × (Fin m → ℝ) => z.2) (g := g) hg contDiffAt_snd
  rcases F.pres d d.2 with hf | ⟨w, hw1, hw⟩
  · have : (fun z : (Fin N → ℝ) × (Fin m → ℝ) => D.C N z d) = fun z => cooMul F.I F.J (F.V.map (· z.2)) (ext z.1) d - F.f z.2 d := by
      funext z
      exact F.con_free z.2 (ext z.1) d (hf z.2)
    rw [this]
    refine ContDiffAt.sub ?_ (hsnd (fun q => F.f q d) (F.smoothF d d.2))
    have hsum : (fun z : (Fin N → ℝ) × (Fin m → ℝ) => cooMul F.I F.J (F.V.map (· z.2)) (ext z.1) d) =
        fun z => ((F.I.zip (F.J.zip F.V)).map fun t => if t.1 = (d : ℕ) then t.2.2 z.2 * ext z.1 t.2.1 else 0).sum := by
      funext z
      unfold cooMul
      rw [show F.I.zip (F.J.zip (F.V.map (· z.2))) = (F.I.zip (F.J.zip F.V)).map fun t => (t.1, t.2.1, t.2.2 z.2) by
        rw [List.zip_map_right, List.zip_map_right]; rfl]
      rw [List.map_map]
      rfl
    rw [hsum]
    have hmem : ∀ t ∈ F.I.zip (F.J.zip F.V), t.2.1 ∈ F.J ∧ t.2.2 ∈ F.V := fun t ht => List.of_mem_zip (List.of_mem_zip (show (t.1, t.2) ∈ _ from ht)).2
    generalize F.I.zip (F.J.zip F.V) = l at hmem
    induction l with
    | nil => exact contDiffAt_const
    | cons t l ih =>
      simp only [List.map_cons, List.sum_cons]
      refine ContDiffAt.add ?_ (ih fun t ht => hmem t (List.mem_cons_of_mem _ ht))
      obtain ⟨h1, h2⟩ := hmem t (List.mem_cons_self ..)
      split_ifs
      · exact (hsnd _ (F.smoothV _ h2)).mul (hext _ (F.cols _ h1))
      · exact contDiffAt_const
  · have : (fun z : (Fin N → ℝ) × (Fin m → ℝ) => D.C N z d) = fun z => ext z.1 d - w z.2 := by
      funext z
      exact F.con_last z.2 (ext z.1) d _ (hw z.2)
    rw [this]
    exact (hext d d.2).sub (hsnd w hw1)

/-- Specification: the linear problem at parameters `q` has at most one solution. -/
def Determined (q : Fin m → ℝ) : Prop := ∀ x : ℕ → ℝ, (∀ d < N, F.op false q x d = 0) → ∀ d < N, x d = 0

/-- The matrix of the operator. -/
noncomputable def mat (q : Fin m → ℝ) : Matrix (Fin N) (Fin N) ℝ := fun r c => F.op false q (Pi.single (c : ℕ) 1) r

theorem op_mat (q : Fin m → ℝ) (x : Fin N → ℝ) (r : Fin N) : F.op false q (ext x) r = (F.mat q).mulVec x r := by
  show _ = ∑ c : Fin N, F.op false q (Pi.single (c : ℕ) 1) r * x c
  rcases F.pres r r.2 with hf | ⟨w, -, hw⟩
  · simp only [F.op_free q _ r (hf q)]
    have hcol : ∀ y : ℕ → ℝ, cooMul F.I F.J (F.V.map (· q)) y r = ∑ c : Fin N, Prob.entry realArith F.I F.J (F.V.map (· q)) r c * y c := by
      intro y
      rw [← cooMul_dense F.I F.J (F.V.map (· q)) N F.cols, Finset.sum_range]
    rw [hcol]
    refine sum_congr rfl fun c _ => ?_
    rw [hcol, ext_lt]
    congr 1
    rw [sum_eq_single c]
    · simp
    · intro b _ hb
      have : (b : ℕ) ≠ c := fun h => hb (Fin.ext h)
      simp [this]
    · simp
  · simp only [F.op_last q _ r _ (hw q)]
    rw [sum_eq_single r]
    · simp [ext_lt]
    · intro b _ hb
      have : (r : ℕ) ≠ b := fun h => hb (Fin.ext h.symm)
      simp [this]
    · simp

theorem isUnit_mat (q : Fin m → ℝ) (h : F.Determined q) : IsUnit (F.mat q) := by
  rw [← Matrix.mulVec_injective_iff_isUnit]
  refine (injective_iff_map_eq_zero (F.mat q).mulVecLin).mpr fun x hx => ?_
  funext d
  have := h (ext x) (fun e he => by
    rw [F.op_mat q x ⟨e, he⟩]
    exact congrFun hx ⟨e, he⟩) d d.2
  rwa [ext_lt] at this

theorem solvable (q : Fin m → ℝ) (h : F.Determined q) (b : ℕ → ℝ) : ∃ x, ∀ d < N, F.op false q x d = b d := by
  obtain ⟨x, hx⟩ := (Matrix.mulVec_surjective_iff_isUnit.mpr (F.isUnit_mat q h)) fun d => b d
  refine ⟨ext x, fun d hd => ?_⟩
  rw [F.op_mat q x ⟨d, hd⟩]
  exact congrFun hx ⟨d, hd⟩

theorem solvable_transpose (q : Fin m → ℝ) (h : F.Determined q) (usePetsc : Bool) (b : ℕ → ℝ) : ∃ y, ∀ d < N, ParamProb.transposeOp N (F.op usePetsc q) y d = b d := by
  have hu : IsUnit (F.mat q).transpose := by
    rw [Matrix.isUnit_transpose]
    exact F.isUnit_mat q h
  obtain ⟨y, hy⟩ := (Matrix.mulVec_surjective_iff_isUnit.mpr hu) fun d => b d
  refine ⟨ext y, fun d hd => ?_⟩
  have h1 := congrFun hy ⟨d, hd⟩
  refine Eq.trans ?_ h1
  unfold ParamProb.transposeOp
  rw [Finset.sum_range]
  show _ = ∑ r, (F.mat q).transpose ⟨d, hd⟩ r * y r
  refine sum_congr rfl fun r _ => ?_
  rw [F.op_eq q usePetsc _ r r.2, ext_lt]
  rfl

/-- The forward solve returns a zero of the modified residual. -/
theorem forward (q : Fin m → ℝ) (h : F.Determined q) (lin : ℕ → LinCall ℝ → ℕ → ℝ) (hlin : ExactLin N lin) (usePetsc : Bool) (fuel : ℕ) :
    ∃ s : Fin N → ℝ, D.fwdPred lin true usePetsc fuel q = .ok (ext s) ∧ ∀ d : Fin N, D.con (ext s) q d = 0 := by
  obtain ⟨u, h1, h2, h3⟩ := C21_linear (D.prob q) (F.wf q) F.I F.J (F.V.map (· q)) (by rw [F.size]; exact F.cols) (F.f q) (F.load q) (F.newton q) true usePetsc none fuel lin
    (fun k call hop d hd => by
      rw [F.size] at hd
      refine hlin k call ?_ d hd
      obtain ⟨x, hx⟩ := F.solvable q h call.b
      refine ⟨x, fun e he => ?_⟩
      rw [hop]
      exact (F.op_eq q usePetsc x e he).trans (hx e he))
  rw [F.size] at h2 h3
  have hcut : cut N u = ext fun d : Fin N => u d := by
    funext d
    by_cases hd : d < N <;> simp [cut, ext, hd]
  refine ⟨fun d => u d, ?_, fun d => ?_⟩
  · unfold ParamProb.fwdPred
    rw [h1, F.size, ← hcut]
    rfl
  · have hloc : ∀ e < N, ext (fun d : Fin N => u d) e = u e := fun e he => ext_lt (fun d : Fin N => u d) ⟨e, he⟩
    rcases F.pres d d.2 with hf | ⟨w, -, hw⟩
    · rw [F.con_free q _ d (hf q), cooMul_local _ _ _ F.cols _ u hloc, h3 d d.2 (hf q), sub_self]
    · rw [F.con_last q _ d _ (hw q), hloc d d.2, h2 d d.2 _ (hw q), sub_self]

end LinearFamily

/-- The objective as a function of the parameters: `J(fwd_pred(params))`. -/
noncomputable def ParamProb.objective (D : ParamProb m E) (lin : ℕ → LinCall ℝ → ℕ → ℝ) (linear usePetsc : Bool) (fuel : ℕ) (J : (ℕ → ℝ) → ℝ) (q : Fin m → ℝ) : ℝ :=
  match D.fwdPred lin linear usePetsc fuel q with
  | .ok s => J s
  | .error _ => 0

namespace LinearFamily
variable {N : ℕ} {D : ParamProb m E} {p : Fin m → ℝ} (F : LinearFamily D N p)

/-- **C94 (the forward solve of a linear problem is differentiable).** If the linear problem at `p` has a unique solution and the linear solver solves solvable systems exactly, then for all parameters near `p` the
forward solve succeeds, returns a zero of the modified residual, and the result is differentiable at `p`. -/
theorem C94_linear (h : F.Determined p) (lin : ℕ → LinCall ℝ → ℕ → ℝ) (hlin : ExactLin N lin) (usePetsc : Bool) (fuel : ℕ) :
    ∃ u : (Fin m → ℝ) → Fin N → ℝ, (∀ᶠ q in 𝓝 p, D.fwdPred lin true usePetsc fuel q = .ok (ext (u q))) ∧ D.fwdPred lin true usePetsc fuel p = .ok (ext (u p)) ∧ SolvesNear D p u := by
  classical
  obtain ⟨s0, hs0, hz0⟩ := F.forward p h lin hlin usePetsc fuel
  have hL := (F.smooth s0).hasStrictFDerivAt (by norm_num)
  set L := fderiv ℝ (D.C N) (s0, p) with hLdef
  have hLop : ∀ (w : Fin N → ℝ) (d : Fin N), L (w, 0) d = F.op false p (ext w) d := by
    intro w d
    have h1 := fderiv_line hL.differentiableAt ((w, 0) : (Fin N → ℝ) × (Fin m → ℝ)) d
    have h2 : HasDerivAt (fun t : ℝ => D.C N ((s0, p) + t • ((w, 0) : (Fin N → ℝ) × (Fin m → ℝ))) d) (F.op false p (ext w) d) 0 := by
      have he : ∀ t : ℝ, D.C N ((s0, p) + t • ((w, 0) : (Fin N → ℝ) × (Fin m → ℝ))) d = D.con (ext s0) p d + t * F.op false p (ext w) d := by
        intro t
        have e1 : (s0, p) + t • ((w, 0) : (Fin N → ℝ) × (Fin m → ℝ)) = (s0 + t • w, p) := by simp
        rw [e1]
        have e2 := F.con_sub p (ext (s0 + t • w)) (ext s0) d d.2
        have e3 : ext (s0 + t • w) - ext s0 = ext (t • w) := by rw [ext_line]; funext e; by_cases he : e < N <;> simp [ext, he]
        rw [e3, F.op_mat, Matrix.mulVec_smul, Pi.smul_apply, ← F.op_mat, smul_eq_mul] at e2
        show D.con (ext (s0 + t • w)) p d = _
        linarith
      simp only [he]
      simpa using ((hasDerivAt_id (0 : ℝ)).mul_const (F.op false p (ext w) d)).const_add (D.con (ext s0) p d)
    exact h1.unique h2
  have hinj : ∀ w : Fin N → ℝ, L (w, 0) = 0 → w = 0 := by
    intro w hw
    funext d
    have := h (ext w) (fun e he => by rw [← hLop w ⟨e, he⟩, hw]; rfl) d d.2
    rwa [ext_lt] at this
  have hS := strict_swap (p := p) hL
  have hI := invertible_swap (m := m) hinj
  set φ := hS.implicitFunctionOfProdDomain hI with hφ
  have hiff := hS.eventually_apply_eq_iff_implicitFunctionOfProdDomain hI
  have htend : Tendsto φ (𝓝 p) (𝓝 s0) := hS.tendsto_implicitFunctionOfProdDomain hI
  have hC0 : D.C N (s0, p) = 0 := funext fun d => hz0 d
  have hφ0 : ∀ᶠ q in 𝓝 p, D.C N (φ q, q) = 0 := by
    have := hS.eventually_apply_implicitFunctionOfProdDomain hI
    filter_upwards [this] with q hq
    exact hq.trans hC0
  have hnear : Tendsto (fun q => (q, φ q)) (𝓝 p) (𝓝 (p, s0)) := tendsto_id.prodMk_nhds htend
  have hdet : ∀ᶠ q in 𝓝 p, F.Determined q := by
    filter_upwards [hnear.eventually hiff.eventually_nhds, hφ0] with q hq hq0
    intro x hx d hd
    set w : Fin N → ℝ := fun e => x e with hw
    have hxw : ∀ e < N, ext w e = x e := fun e he => ext_lt w ⟨e, he⟩
    have hline : Tendsto (fun t : ℝ => (q, φ q + t • w)) (𝓝 0) (𝓝 (q, φ q)) := by
      have : Continuous fun t : ℝ => (q, φ q + t • w) := by fun_prop
      simpa using this.tendsto 0
    have h1 : ∀ᶠ t in 𝓝[≠] (0 : ℝ), _ := (hline.eventually hq).filter_mono nhdsWithin_le_nhds
    obtain ⟨t, ht, ht0⟩ := (h1.and self_mem_nhdsWithin).exists
    have h2 : D.C N (φ q + t • w, q) = D.C N (s0, p) := by
      rw [hC0]
      funext e
      have e1 := F.con_sub q (ext (φ q + t • w)) (ext (φ q)) e e.2
      have e3 : ext (φ q + t • w) - ext (φ q) = ext (t • w) := by rw [ext_line]; funext e; by_cases he : e < N <;> simp [ext, he]
      have e4 : F.op false q (ext w) e = 0 := by
        rw [F.op_local q (ext w) x hxw e e.2]
        exact hx e e.2
      rw [e3, F.op_mat, Matrix.mulVec_smul, Pi.smul_apply, ← F.op_mat, e4, smul_zero] at e1
      have e5 : D.con (ext (φ q)) q e = 0 := congrFun hq0 e
      show D.con (ext (φ q + t • w)) q e = 0
      linarith
    have h3 : φ q = φ q + t • w := ht.mp h2
    have h4 : t • w = 0 := by simpa using h3.symm
    have h5 : w = 0 := (smul_eq_zero.mp h4).resolve_left ht0
    have := congrFun h5 ⟨d, hd⟩
    exact this
  set u : (Fin m → ℝ) → Fin N → ℝ := fun q => if hq : F.Determined q then Classical.choose (F.forward q hq lin hlin usePetsc fuel) else 0 with hu
  have hspec : ∀ q, F.Determined q → D.fwdPred lin true usePetsc fuel q = .ok (ext (u q)) ∧ ∀ d : Fin N, D.con (ext (u q)) q d = 0 := by
    intro q hq
    have := Classical.choose_spec (F.forward q hq lin hlin usePetsc fuel)
    simp only [hu, dif_pos hq]
    exact this
  have huφ : u =ᶠ[𝓝 p] φ := by
    filter_upwards [hdet, hφ0] with q hq hq0
    funext d
    have := hq (ext (u q) - ext (φ q)) (fun e he => by
      rw [← F.con_sub q _ _ e he, (hspec q hq).2 ⟨e, he⟩]
      have e5 : D.con (ext (φ q)) q e = 0 := congrFun hq0 ⟨e, he⟩
      rw [e5, sub_zero]) d d.2
    simp only [Pi.sub_apply, ext_lt] at this
    linarith
  refine ⟨u, ?_, (hspec p h).1, F.size p, ?_, ?_, ?_⟩
  · filter_upwards [hdet] with q hq
    exact (hspec q hq).1
  · exact (F.smooth (u p)).differentiableAt (by norm_num)
  · exact huφ.differentiableAt_iff.mpr (hS.hasStrictFDerivAt_implicitFunctionOfProdDomain hI).differentiableAt
  · filter_upwards [hdet] with q hq
    exact (hspec q hq).2

/-- **C94 (reverse mode through a linear solve).** Under the same hypotheses, for every objective `J` that is differentiable at the solution, the vector computed by reverse mode through `ad_wrapper` is the
derivative of the program `params ↦ J(fwd_pred(params))` at `p`; for the JAX and the PETSc path. -/
theorem C94_gradient (h : F.Determined p) (lin : ℕ → LinCall ℝ → ℕ → ℝ) (hlin : ExactLin N lin) (usePetsc : Bool) (fuel : ℕ) (J : (ℕ → ℝ) → ℝ) (hJ : Differentiable ℝ fun x : Fin N → ℝ => J (ext x)) :
    ∃ g, D.revGrad lin true usePetsc fuel J p = .ok g ∧
      HasFDerivAt (D.objective lin true usePetsc fuel J) (∑ j, g j • (ContinuousLinearMap.proj j : (Fin m → ℝ) →L[ℝ] ℝ)) p := by
  obtain ⟨u, h1, h2, hsol⟩ := F.C94_linear h lin hlin usePetsc fuel
  set v : ℕ → ℝ := fun d => deriv (fun t : ℝ => J (ext (u p) + t • Pi.single d 1)) 0 with hv
  obtain ⟨g, hg1, hg2⟩ := C27_vjp hsol (F.wf p) _ (F.newton p _) F.cols (fun w d => by
      have he : ∀ t : ℝ, D.res p (ext (u p) + t • w) d = D.res p (ext (u p)) d + t * cooMul F.I F.J (F.V.map (· p)) w d := by
        intro t
        rw [F.res, F.res]
        unfold cooMul
        generalize F.I.zip (F.J.zip (F.V.map (· p))) = l
        have : (l.map fun t_1 => if t_1.1 = d then t_1.2.2 * (ext (u p) + t • w) t_1.2.1 else 0).sum =
            (l.map fun t => if t.1 = d then t.2.2 * ext (u p) t.2.1 else 0).sum + t * (l.map fun t => if t.1 = d then t.2.2 * w t.2.1 else 0).sum := by
          induction l with
          | nil => simp
          | cons a l ih =>
            simp only [List.map_cons, List.sum_cons, ih]
            split_ifs <;> simp <;> ring
        rw [this]
        ring
      simp only [he]
      simpa using ((hasDerivAt_id (0 : ℝ)).mul_const (cooMul F.I F.J (F.V.map (· p)) w d)).const_add (D.res p (ext (u p)) d)) usePetsc v (lin 1) (fun call hop d hd => by
      refine hlin 1 call ?_ d hd
      rw [hop]
      exact F.solvable_transpose p h usePetsc call.b)
  refine ⟨g, ?_, ?_⟩
  · unfold ParamProb.revGrad
    rw [h2]
    show (match D.implicitVjp (lin 1) (ext (u p)) p v usePetsc with | .error e => _ | .ok g => _) = _
    rw [hg1]
  · have hobj : D.objective lin true usePetsc fuel J =ᶠ[𝓝 p] fun q => J (ext (u q)) := by
      filter_upwards [h1] with q hq
      unfold ParamProb.objective
      rw [hq]
    refine HasFDerivAt.congr_of_eventuallyEq ?_ hobj
    have hcomp : HasFDerivAt (fun q => J (ext (u q))) ((fderiv ℝ (fun x : Fin N → ℝ => J (ext x)) (u p)).comp (fderiv ℝ u p)) p :=
      HasFDerivAt.comp p (hJ (u p)).hasFDerivAt hsol.diffU.hasFDerivAt
    refine hcomp.congr_fderiv ?_
    ext1 pdot
    have hvd : ∀ d : Fin N, v d = fderiv ℝ (fun x : Fin N → ℝ => J (ext x)) (u p) (Pi.single d 1) := by
      intro d
      have h3 : HasDerivAt (fun t : ℝ => u p + t • (Pi.single d 1 : Fin N → ℝ)) (Pi.single d 1) 0 := by
        simpa using ((hasDerivAt_id (0 : ℝ)).smul_const (Pi.single d 1 : Fin N → ℝ)).const_add (u p)
      have h4 : HasFDerivAt (fun x : Fin N → ℝ => J (ext x)) (fderiv ℝ (fun x : Fin N → ℝ => J (ext x)) (u p)) (u p + (0 : ℝ) • (Pi.single d 1 : Fin N → ℝ)) := by
        simpa using (hJ (u p)).hasFDerivAt
      have h5 := (h4.comp_hasDerivAt (0 : ℝ) h3).deriv
      rw [← h5]
      show deriv _ 0 = deriv _ 0
      congr 1
      funext t
      show J _ = J (ext (u p + t • (Pi.single d 1 : Fin N → ℝ)))
      rw [ext_line, ext_single]
    have hlin' : ∀ w : Fin N → ℝ, fderiv ℝ (fun x : Fin N → ℝ => J (ext x)) (u p) w = ∑ d : Fin N, v d * w d := by
      intro w
      have hw : w = ∑ d, w d • (Pi.single d 1 : Fin N → ℝ) := by
        funext e
        simp [Finset.sum_apply, Pi.single_apply]
      conv_lhs => rw [hw, map_sum]
      refine sum_congr rfl fun d _ => ?_
      rw [map_smul, hvd d, smul_eq_mul, mul_comm]
    show fderiv ℝ (fun x : Fin N → ℝ => J (ext x)) (u p) (fderiv ℝ u p pdot) = _
    rw [hlin', ← hg2 pdot]
    simp [ContinuousLinearMap.sum_apply]

/-- **C94 (forward mode through a linear solve).** `ad_wrapper_jvp` returns the derivative of the solution in direction `pdot`. -/
theorem C94_tangent (h : F.Determined p) (lin : ℕ → LinCall ℝ → ℕ → ℝ) (hlin : ExactLin N lin) (usePetsc : Bool) (fuel : ℕ) (pdot : Fin m → ℝ) :
    ∃ w : ℕ → ℝ, D.fwdTangent lin true usePetsc fuel p pdot = .ok w ∧
      ∀ d : Fin N, HasDerivAt (fun t : ℝ => D.objective lin true usePetsc fuel (fun s => s d) (p + t • pdot)) (w d) 0 := by
  obtain ⟨u, h1, h2, hsol⟩ := F.C94_linear h lin hlin usePetsc fuel
  have hop : ∀ (w : Fin N → ℝ) (d : Fin N), HasDerivAt (fun t : ℝ => D.con (ext (u p) + t • ext w) p d) (F.op false p (ext w) d) 0 := by
    intro w d
    have he : ∀ t : ℝ, D.con (ext (u p) + t • ext w) p d = D.con (ext (u p)) p d + t * F.op false p (ext w) d := by
      intro t
      have e2 := F.con_sub p (ext (u p) + t • ext w) (ext (u p)) d d.2
      have e3 : ext (u p) + t • ext w - ext (u p) = ext (t • w) := by funext e; by_cases he : e < N <;> simp [ext, he]
      rw [e3, F.op_mat, Matrix.mulVec_smul, Pi.smul_apply, ← F.op_mat, smul_eq_mul] at e2
      linarith
    simp only [he]
    simpa using ((hasDerivAt_id (0 : ℝ)).mul_const (F.op false p (ext w) d)).const_add (D.con (ext (u p)) p d)
  obtain ⟨w, hw1, hw2⟩ := C27_jvp hsol _ (F.newton p _) (fun w hw => by
      funext d
      have hpart : ∀ d : Fin N, F.op false p (ext w) d = 0 := by
        intro d
        have hd : DifferentiableAt ℝ (fun x : Fin N → ℝ => D.C N (x, p)) (u p) :=
          DifferentiableAt.comp (u p) (f := fun x : Fin N → ℝ => (x, p)) hsol.diffC (by fun_prop)
        have h3 := fderiv_line hd w d
        have h4 : ∀ t : ℝ, D.C N (u p + t • w, p) d = D.con (ext (u p) + t • ext w) p d := fun t => by
          rw [← ext_line]; rfl
        simp only [h4] at h3
        rw [(hop w d).unique h3]
        exact hw d
      have := h (ext w) (fun e he => hpart ⟨e, he⟩) d d.2
      rwa [ext_lt] at this) pdot (lin 1) (fun call hcall d hd => by
      refine hlin 1 call ?_ d hd
      obtain ⟨x, hx⟩ := F.solvable p h call.b
      refine ⟨x, fun e he => ?_⟩
      rw [hcall, ← hx e he]
      have hcut : ∀ t : ℝ, cut N (ext (u p) + t • x) = ext (u p) + t • ext fun e : Fin N => x e := by
        intro t
        funext e
        by_cases he : e < N <;> simp [cut, ext, he]
      show deriv (fun t : ℝ => D.con (cut N (ext (u p) + t • x)) p e) 0 = _
      simp only [hcut]
      rw [(hop (fun e => x e) ⟨e, he⟩).deriv]
      exact F.op_local p _ x (fun e he => ext_lt (fun e : Fin N => x e) ⟨e, he⟩) e he)
  refine ⟨w, ?_, fun d => ?_⟩
  · unfold ParamProb.fwdTangent
    rw [h2]
    show (match D.implicitJvp (lin 1) (ext (u p)) p pdot with | .error e => _ | .ok g => _) = _
    rw [hw1]
  · rw [hw2 d]
    have h3 := fderiv_line hsol.diffU pdot d
    refine h3.congr_of_eventuallyEq ?_
    have hline : Tendsto (fun t : ℝ => p + t • pdot) (𝓝 0) (𝓝 p) := by
      have : Continuous fun t : ℝ => p + t • pdot := by fun_prop
      simpa using this.tendsto 0
    filter_upwards [hline.eventually h1] with t ht
    unfold ParamProb.objective
    rw [ht]
    exact ext_lt _ d

end LinearFamily

/-! ## Example -/

/-- Such a linear solver exists. -/
noncomputable def chosenLin (N : ℕ) : ℕ → LinCall ℝ → ℕ → ℝ := fun _ call =>
  open Classical in if h : ∃ x, ∀ d < N, call.op x d = call.b d then Classical.choose h else 0

theorem chosenLin_exact (N : ℕ) : ExactLin N (chosenLin N) := by
  intro k call h
  simp only [chosenLin, dif_pos h]
  exact Classical.choose_spec h

/-- Two unknowns, two parameters: `q₀ u₀ - u₁ = 0` and the Dirichlet value `u₁ = q₁`; so `u₀ = q₁ / q₀`. -/
noncomputable def ratioExample : ParamProb 2 Unit where
  prob q := ⟨1, 2, [⟨[1], [0], [q 1]⟩], fun u => .ok ⟨fun d => cooMul [0, 0] [0, 1] [q 0, -1] u d - 0, [0, 0], [0, 1], [q 0, -1], fun _ => 0⟩⟩
  res q u d := cooMul [0, 0] [0, 1] [q 0, -1] u d - 0

theorem ratio_pres (q : Fin 2 → ℝ) : (ratioExample.prob q).prescriptions = [(1, q 1)] := rfl

noncomputable def ratioFamily (p : Fin 2 → ℝ) : LinearFamily ratioExample 2 p where
  I := [0, 0]
  J := [0, 1]
  V := [fun q => q 0, fun _ => -1]
  f := fun _ _ => 0
  load := fun _ _ => 0
  size _ := rfl
  wf q := by
    intro g hg
    have : g = ⟨[1], [0], [q 1]⟩ := List.mem_singleton.mp hg
    subst this
    exact ⟨rfl, rfl, by simp [Prob.idx]⟩
  cols := by simp
  res _ _ _ := rfl
  newton _ _ := rfl
  smoothV v hv := by
    simp only [List.mem_cons, List.not_mem_nil, or_false] at hv
    rcases hv with rfl | rfl
    · fun_prop
    · fun_prop
  smoothF _ _ := contDiffAt_const
  pres d hd := by
    have : d = 0 ∨ d = 1 := by omega
    rcases this with rfl | rfl
    · left
      intro q
      rw [ratio_pres]
      intro x hx
      rw [List.mem_singleton.mp hx]
      exact one_ne_zero
    · right
      refine ⟨fun q => q 1, by fun_prop, fun q => ⟨[], [], rfl, by simp⟩⟩

theorem ratio_determined (p : Fin 2 → ℝ) (hp : p 0 ≠ 0) : (ratioFamily p).Determined p := by
  intro x hx
  have h1 : x 1 = 0 := by
    rw [← (ratioFamily p).op_last p x 1 (p 1) ⟨[], [], rfl, by simp⟩]
    exact hx 1 (by norm_num)
  have h0 : p 0 * x 0 + -1 * x 1 = 0 := by
    have := hx 0 (by norm_num)
    rw [(ratioFamily p).op_free p x 0 (by rw [ratio_pres]; intro y hy; rw [List.mem_singleton.mp hy]; exact one_ne_zero)] at this
    simpa [cooMul, ratioFamily] using this
  rw [h1] at h0
  have h00 : x 0 = 0 := by
    have : p 0 * x 0 = 0 := by linarith
    exact (mul_eq_zero.mp this).resolve_left hp
  intro d hd
  have : d = 0 ∨ d = 1 := by omega
  rcases this with rfl | rfl
  · exact h00
  · exact h1

/-- Reverse mode through this solve is the gradient of the program, for `J(u) = u₀²`, at every `p` with `p₀ ≠ 0`. -/
example (p : Fin 2 → ℝ) (hp : p 0 ≠ 0) (usePetsc : Bool) : ∃ g, ratioExample.revGrad (chosenLin 2) true usePetsc 0 (fun s => s 0 ^ 2) p = .ok g ∧
    HasFDerivAt (ratioExample.objective (chosenLin 2) true usePetsc 0 fun s => s 0 ^ 2) (∑ j, g j • (ContinuousLinearMap.proj j : (Fin 2 → ℝ) →L[ℝ] ℝ)) p := by
  refine (ratioFamily p).C94_gradient (ratio_determined p hp) _ (chosenLin_exact 2) usePetsc 0 _ ?_
  have : (fun x : Fin 2 → ℝ => ext x 0 ^ 2) = fun x => x 0 ^ 2 := by
    funext x
    rw [show ext x 0 = x 0 from ext_lt x 0]
  rw [this]
  fun_prop

/-- And the program is the one meant: the objective with `J(u) = u₀` is `q₁ / q₀`. -/
example (p : Fin 2 → ℝ) (hp : p 0 ≠ 0) (usePetsc : Bool) : ratioExample.objective (chosenLin 2) true usePetsc 0 (fun s => s 0) p = p 1 / p 0 := by
  obtain ⟨s, h1, h2⟩ := (ratioFamily p).forward p (ratio_determined p hp) _ (chosenLin_exact 2) usePetsc 0
  unfold ParamProb.objective
  rw [h1]
  have e1 := h2 1
  have e0 := h2 0
  rw [(ratioFamily p).con_last p _ (1 : Fin 2) (p 1) ⟨[], [], rfl, by simp⟩] at e1
  rw [(ratioFamily p).con_free p _ (0 : Fin 2) (by rw [ratio_pres]; intro y hy; rw [List.mem_singleton.mp hy]; exact one_ne_zero)] at e0
  have e2 : p 0 * ext s 0 + -1 * ext s 1 - 0 = 0 := by simpa [cooMul, ratioFamily] using e0
  have e3 : ext s 1 - p 1 = 0 := e1
  show ext s 0 = _
  rw [eq_div_iff hp]
  linarith

/-! ## Periodic ties are ignored -/

/-- One-component problem on two nodes tied to each other: residual `u₀ - q`, `u₁`. -/
noncomputable def tiedExample (q : Fin 1 → ℝ) : LProb ℝ Unit where
  vec := 1
  numNodes := 2
  groups := []
  newton u := .ok ⟨fun d => if d = 0 then u 0 - q 0 else u d, [0, 1], [0, 1], [1, 1], fun _ => 0⟩
  pgroups := [⟨[0], [1], [0]⟩]
  eps := 1

/-- The same problem as `ad_wrapper` sees it. -/
noncomputable def tiedParam : ParamProb 1 Unit := ⟨fun q => (tiedExample q).toProb, fun q u d => if d = 0 then u 0 - q 0 else u d⟩

/-- **C94 (finding).** `ad_wrapper` is wrong for problems with periodic conditions: here the solution of the Lagrange multiplier system is `u₀ = u₁ = q / 2` for every `q`, so the derivative of `u₀` is `1/2`, but
with exact linear solves `implicit_vjp` returns `1`. -/
theorem C94_ties_ignored :
    (∀ (q : Fin 1 → ℝ) (x : ℕ → ℝ), (∀ d < (tiedExample q).numDofs + (tiedExample q).augSize, (tiedExample q).residualLm (tiedParam.res q x) x d = 0) → x 0 = q 0 / 2 ∧ x 1 = q 0 / 2) ∧
    ∀ (p : Fin 1 → ℝ) (usePetsc : Bool) (lin : ℕ → LinCall ℝ → ℕ → ℝ), ExactLin 2 lin →
      ∃ g, tiedParam.implicitVjp (lin 1) (ext fun _ : Fin 2 => p 0 / 2) p (Pi.single 0 1) usePetsc = .ok g ∧ g 0 = 1 := by
  refine ⟨fun q x hx => ?_, fun p usePetsc lin hlin => ?_⟩
  · have hwf : (tiedExample q).WF :=
      { lens := by simp [tiedExample]
        plens := by simp [tiedExample]
        range := by simp [tiedExample, Prob.prescriptions]
        prange := by simp [tiedExample, LProb.ties, LProb.idxA, LProb.idxB, Prob.numDofs] }
    have hn : (tiedExample q).numDofs = 2 := by simp [tiedExample, Prob.numDofs]
    have hp : (tiedExample q).prescriptions = [] := by simp [tiedExample, Prob.prescriptions]
    have ht : (tiedExample q).ties = [(0, 1)] := by simp [tiedExample, LProb.ties, LProb.idxA, LProb.idxB]
    have he : (tiedExample q).eps = 1 := rfl
    obtain ⟨h1, -, h3⟩ := (C24_zero_iff (tiedExample q) hwf (by rw [he]; exact one_ne_zero) _ x).mp hx
    rw [ht] at h3
    rw [hn] at h1
    simp only [LProb.forces, hp, ht, hn, he, tiedParam] at h1
    have e3 := h3 (0, 1) (by simp)
    have e0 := h1 0 (by norm_num)
    have e1 := h1 1 (by norm_num)
    simp at e0 e1 e3
    constructor <;> linarith
  · set nw : Newton ℝ := ⟨fun d => if d = 0 then ext (fun _ : Fin 2 => p 0 / 2) 0 - p 0 else ext (fun _ : Fin 2 => p 0 / 2) d, [0, 1], [0, 1], [1, 1], fun _ => 0⟩ with hnw
    have hwf : (tiedParam.prob p).WF := fun g hg => by cases hg
    have hN : (tiedParam.prob p).numDofs = 2 := by simp [tiedParam, tiedExample, Prob.numDofs]
    have hA : ∀ x : ℕ → ℝ, ∀ r < 2, (tiedParam.prob p).getAFn realArith usePetsc nw x r = x r := by
      intro x r hr
      have h1 : (tiedParam.prob p).getAFn realArith usePetsc nw x r = (tiedParam.prob p).getAFn realArith false nw x r := by
        cases usePetsc with
        | false => rfl
        | true => exact C20_petsc_eq_jax (tiedParam.prob p) hwf nw (by rw [hN]; simp [hnw]) x r (by rw [hN]; exact hr)
      rw [h1]
      show Prob.spMul realArith [0, 1] [0, 1] [1, 1] x r = x r
      rw [spMul_real]
      interval_cases r <;> simp [cooMul]
    have hT : ∀ y : ℕ → ℝ, ∀ c < 2, ParamProb.transposeOp 2 ((tiedParam.prob p).getAFn realArith usePetsc nw) y c = y c := by
      intro y c hc
      unfold ParamProb.transposeOp
      rw [Finset.sum_range_succ, Finset.sum_range_one, hA _ 0 (by norm_num), hA _ 1 (by norm_num)]
      interval_cases c <;> simp
    have hcon : ∀ (t : ℝ) (d : ℕ), tiedParam.con (ext fun _ : Fin 2 => p 0 / 2) (p + t • Pi.single 0 1) d =
        (if d = 0 then ext (fun _ : Fin 2 => p 0 / 2) 0 - p 0 else ext (fun _ : Fin 2 => p 0 / 2) d) + t * (if d = 0 then -1 else 0) := by
      intro t d
      show (if d = 0 then ext (fun _ : Fin 2 => p 0 / 2) 0 - (p + t • (Pi.single 0 1 : Fin 1 → ℝ)) 0 else ext (fun _ : Fin 2 => p 0 / 2) d) = _
      split_ifs
      · simp
        ring
      · ring
    set call : LinCall ℝ := ⟨usePetsc, ParamProb.transposeOp 2 ((tiedParam.prob p).getAFn realArith usePetsc nw), Pi.single 0 1, none,
      if usePetsc then none else some ((tiedParam.prob p).jacobi realArith nw)⟩ with hcall
    have hsol : ∀ d < 2, lin 1 call d = (Pi.single 0 1 : ℕ → ℝ) d := by
      intro d hd
      rw [← hT (lin 1 call) d hd]
      exact hlin 1 call ⟨Pi.single 0 1, fun d hd => hT _ d hd⟩ d hd
    refine ⟨fun j => -∑ d ∈ range 2, lin 1 call d * deriv (fun t : ℝ => tiedParam.con (ext fun _ : Fin 2 => p 0 / 2) (p + t • Pi.single j 1) d) 0, ?_, ?_⟩
    · simp only [ParamProb.implicitVjp]
      rw [show (tiedParam.prob p).newton (ext fun _ : Fin 2 => p 0 / 2) = .ok nw from rfl]
      simp only [hN]
      rfl
    · have hd : ∀ d : ℕ, deriv (fun t : ℝ => tiedParam.con (ext fun _ : Fin 2 => p 0 / 2) (p + t • Pi.single 0 1) d) 0 = if d = 0 then -1 else 0 := by
        intro d
        simp only [hcon]
        refine HasDerivAt.deriv ?_
        simpa using ((hasDerivAt_id (0 : ℝ)).mul_const (if d = 0 then (-1 : ℝ) else 0)).const_add (if d = 0 then ext (fun _ : Fin 2 => p 0 / 2) 0 - p 0 else ext (fun _ : Fin 2 => p 0 / 2) d)
      simp only [hd]
      rw [Finset.sum_range_succ, Finset.sum_range_one, hsol 0 (by norm_num), hsol 1 (by norm_num)]
      simp

end Verif.Fem
