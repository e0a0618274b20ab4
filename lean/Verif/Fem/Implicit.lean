import Mathlib.Analysis.Calculus.FDeriv.Prod
import Mathlib.Analysis.Calculus.FDeriv.Comp
import Mathlib.Analysis.Calculus.FDeriv.Pi
import Mathlib.Analysis.Calculus.Deriv.Comp
import Verif.Fem.SolverProps

/-!
# Implicit differentiation (model of `implicit_vjp`, `jax_am/fem/solver.py` 857-926, and `implicit_jvp_helper`, `jax_am/fem/autodiff_utils.py` 78-140) and C27

Parameters are vectors `Fin m → ℝ`. `jax.vjp`, `jax.jvp` and `jax.linearize` are exact derivatives.
-/
namespace Verif.Fem
open Finset Filter Topology

variable {E : Type} {m : ℕ}

/-- A problem depending on parameters: what `set_params(p)` leaves behind, and the flattened `compute_residual`. -/
structure ParamProb (m : ℕ) (E : Type) where
  prob : (Fin m → ℝ) → Prob ℝ E
  res : (Fin m → ℝ) → (ℕ → ℝ) → ℕ → ℝ

/-- Arrays have `N` entries: a function on flat indices cut off at `N`. -/
def cut (N : ℕ) (x : ℕ → ℝ) : ℕ → ℝ := fun d => if d < N then x d else 0

namespace ParamProb
variable (D : ParamProb m E)

/-- `constraint_fn` (solver.py 859-866) and `residual` (autodiff_utils.py 103-111): the modified residual `c(u, p)`. -/
noncomputable def con (u : ℕ → ℝ) (p : Fin m → ℝ) : ℕ → ℝ := (D.prob p).applyBcVec realArith (D.res p u) u

/-- The transposed operator: `jax.vjp(A_fn, dofs)` of a linear function (solver.py 871-878), `A_fn.transpose()` (906). -/
def transposeOp (N : ℕ) (A : (ℕ → ℝ) → ℕ → ℝ) (y : ℕ → ℝ) : ℕ → ℝ := fun c => ∑ r ∈ range N, A (Pi.single c 1) r * y r

/-- `implicit_vjp` (solver.py 857-926). -/
noncomputable def implicitVjp (lin : LinCall ℝ → ℕ → ℝ) (u : ℕ → ℝ) (p : Fin m → ℝ) (v : ℕ → ℝ) (usePetsc : Bool) : Except E (Fin m → ℝ) :=
  match (D.prob p).newton u with
  | .error e => .error e
  | .ok nw =>
    let N := (D.prob p).numDofs
    let A := (D.prob p).getAFn realArith usePetsc nw
    let adjoint := lin ⟨usePetsc, transposeOp N A, v, none, if usePetsc then none else some ((D.prob p).jacobi realArith nw)⟩
    .ok fun j => -∑ d ∈ range N, adjoint d * deriv (fun t : ℝ => D.con u (p + t • Pi.single j 1) d) 0

/-- `implicit_jvp_helper` (autodiff_utils.py 78-140). The preconditioner handed to `jax_solve` as `pc_matrix` is not used there (`precond` is `False`). -/
noncomputable def implicitJvp (lin : LinCall ℝ → ℕ → ℝ) (u : ℕ → ℝ) (p pdot : Fin m → ℝ) : Except E (ℕ → ℝ) :=
  match (D.prob p).newton u with
  | .error e => .error e
  | .ok _ =>
    let N := (D.prob p).numDofs
    let matvec : (ℕ → ℝ) → ℕ → ℝ := fun w d => deriv (fun t : ℝ => D.con (cut N (u + t • w)) p d) 0
    let rhs : ℕ → ℝ := fun d => deriv (fun t : ℝ => D.con u (p + t • pdot) d) 0
    .ok (lin ⟨false, matvec, fun d => -rhs d, none, none⟩)

end ParamProb

/-- Zero extension of a finite vector. -/
def ext {N : ℕ} (x : Fin N → ℝ) : ℕ → ℝ := fun d => if h : d < N then x ⟨d, h⟩ else 0

theorem ext_lt {N : ℕ} (x : Fin N → ℝ) (d : Fin N) : ext x d = x d := by simp [ext]

theorem ext_line {N : ℕ} (x w : Fin N → ℝ) (t : ℝ) : ext (x + t • w) = ext x + t • ext w := by
  funext d
  by_cases h : d < N <;> simp [ext, h]

theorem cut_ext {N : ℕ} (x : Fin N → ℝ) : cut N (ext x) = ext x := by
  funext d
  by_cases h : d < N <;> simp [ext, cut, h]

theorem ext_single {N : ℕ} (c : Fin N) : ext (Pi.single c (1 : ℝ)) = Pi.single (c : ℕ) 1 := by
  funext d
  by_cases h : d < N
  · by_cases hd : d = c
    · subst hd; simp [ext]
    · have : (⟨d, h⟩ : Fin N) ≠ c := fun hc => hd (by rw [← hc])
      simp [ext, h, hd, this]
  · have : d ≠ c := fun hc => h (by rw [hc]; exact c.2)
    simp [ext, h, this]

/-- The constraint as a map between finite-dimensional spaces. -/
noncomputable def ParamProb.C (D : ParamProb m E) (N : ℕ) (q : (Fin N → ℝ) × (Fin m → ℝ)) (d : Fin N) : ℝ := D.con (ext q.1) q.2 d

theorem fderiv_line {V : Type} [NormedAddCommGroup V] [NormedSpace ℝ V] {N : ℕ} {f : V → Fin N → ℝ} {x : V} (h : DifferentiableAt ℝ f x) (w : V) (d : Fin N) :
    HasDerivAt (fun t : ℝ => f (x + t • w) d) (fderiv ℝ f x w d) 0 := by
  have h1 : HasDerivAt (fun t : ℝ => x + t • w) w 0 := by
    simpa using ((hasDerivAt_id (0 : ℝ)).smul_const w).const_add x
  have h2 : HasFDerivAt f (fderiv ℝ f x) (x + (0 : ℝ) • w) := by simpa using h.hasFDerivAt
  have h3 := h2.comp_hasDerivAt (0 : ℝ) h1
  exact (hasDerivAt_pi.mp h3) d

section
variable {N : ℕ} (D : ParamProb m E) (p : Fin m → ℝ) (u : (Fin m → ℝ) → Fin N → ℝ)

/-- Specification: `u` solves the modified equations near `p`, and everything is differentiable there. -/
structure SolvesNear : Prop where
  size : (D.prob p).numDofs = N
  diffC : DifferentiableAt ℝ (D.C N) (u p, p)
  diffU : DifferentiableAt ℝ u p
  zero : ∀ᶠ q in 𝓝 p, ∀ d, D.con (ext (u q)) q (d : Fin N) = 0

variable {D p u}

theorem implicit_eq (h : SolvesNear D p u) (pdot : Fin m → ℝ) (d : Fin N) :
    fderiv ℝ (D.C N) (u p, p) (fderiv ℝ u p pdot, 0) d = -fderiv ℝ (D.C N) (u p, p) (0, pdot) d := by
  have h1 : HasFDerivAt (fun q => D.C N (u q, q)) ((fderiv ℝ (D.C N) (u p, p)).comp ((fderiv ℝ u p).prod (ContinuousLinearMap.id ℝ _))) p :=
    HasFDerivAt.comp p (f := fun q => (u q, q)) h.diffC.hasFDerivAt (h.diffU.hasFDerivAt.prodMk (hasFDerivAt_id p))
  have h2 : HasFDerivAt (fun q => D.C N (u q, q)) (0 : (Fin m → ℝ) →L[ℝ] (Fin N → ℝ)) p := by
    refine (hasFDerivAt_const (0 : Fin N → ℝ) p).congr_of_eventuallyEq ?_
    filter_upwards [h.zero] with q hq
    funext d
    exact hq d
  have h3 := congrArg (fun L : (Fin m → ℝ) →L[ℝ] (Fin N → ℝ) => L pdot d) (h1.unique h2)
  have h4 : fderiv ℝ (D.C N) (u p, p) (fderiv ℝ u p pdot, pdot) d = 0 := h3
  have h5 : (fderiv ℝ u p pdot, pdot) = ((fderiv ℝ u p pdot, 0) : (Fin N → ℝ) × (Fin m → ℝ)) + (0, pdot) := by simp
  rw [h5, map_add] at h4
  have h6 : fderiv ℝ (D.C N) (u p, p) (fderiv ℝ u p pdot, 0) d + fderiv ℝ (D.C N) (u p, p) (0, pdot) d = 0 := h4
  linarith

theorem partial_p (h : SolvesNear D p u) (pdot : Fin m → ℝ) (d : Fin N) :
    deriv (fun t : ℝ => D.con (ext (u p)) (p + t • pdot) d) 0 = fderiv ℝ (D.C N) (u p, p) (0, pdot) d := by
  have := fderiv_line h.diffC ((0, pdot) : (Fin N → ℝ) × (Fin m → ℝ)) d
  have he : ∀ t : ℝ, (u p, p) + t • ((0, pdot) : (Fin N → ℝ) × (Fin m → ℝ)) = (u p, p + t • pdot) := fun t => by simp
  simp only [he] at this
  exact this.deriv

theorem partial_u (h : SolvesNear D p u) (w : Fin N → ℝ) (d : Fin N) :
    HasDerivAt (fun t : ℝ => D.con (ext (u p) + t • ext w) p d) (fderiv ℝ (D.C N) (u p, p) (w, 0) d) 0 := by
  have := fderiv_line h.diffC ((w, 0) : (Fin N → ℝ) × (Fin m → ℝ)) d
  have he : ∀ t : ℝ, (u p, p) + t • ((w, 0) : (Fin N → ℝ) × (Fin m → ℝ)) = (u p + t • w, p) := fun t => by simp
  simp only [he] at this
  simp only [ParamProb.C, ext_line] at this
  exact this

/-- **C27 (reverse mode).** If `u` solves the modified equations near `p` and the assembled triplets are the tangent of the residual (`C14_tangent`), then with an exact solve of the transposed system
`implicit_vjp` returns the vector `g` with `⟨g, pdot⟩ = ⟨v, (du/dp) pdot⟩` for all `pdot`, for the JAX and the PETSc operator. -/
theorem C27_vjp (h : SolvesNear D p u) (hwf : (D.prob p).WF) (nw : Newton ℝ) (hnw : (D.prob p).newton (ext (u p)) = .ok nw) (hJ : ∀ j ∈ nw.J, j < N)
    (hT : ∀ (w : ℕ → ℝ) (d : ℕ), HasDerivAt (fun t : ℝ => D.res p (ext (u p) + t • w) d) (cooMul nw.I nw.J nw.V w d) 0) (usePetsc : Bool) (v : ℕ → ℝ)
    (lin : LinCall ℝ → ℕ → ℝ) (hlin : ∀ call : LinCall ℝ, call.op = ParamProb.transposeOp N ((D.prob p).getAFn realArith usePetsc nw) →
      ∀ d < N, call.op (lin call) d = call.b d) :
    ∃ g, D.implicitVjp lin (ext (u p)) p v usePetsc = .ok g ∧ ∀ pdot : Fin m → ℝ, ∑ j, g j * pdot j = ∑ d : Fin N, v d * fderiv ℝ u p pdot d := by
  set A := (D.prob p).getAFn realArith usePetsc nw with hA
  set L := fderiv ℝ (D.C N) (u p, p) with hL
  have hcol : ∀ (w : Fin N → ℝ) (d : Fin N), A (ext w) d = L (w, 0) d := by
    intro w d
    have h1 : A (ext w) d = (D.prob p).getAFn realArith false nw (ext w) d := by
      rw [hA]
      cases usePetsc with
      | true => exact C20_petsc_eq_jax (D.prob p) hwf nw (by rw [h.size]; exact hJ) (ext w) d (by rw [h.size]; exact d.2)
      | false => rfl
    have h2 : HasDerivAt (fun t : ℝ => D.con (ext (u p) + t • ext w) p d) ((D.prob p).getAFn realArith false nw (ext w) d) 0 :=
      C20_derivative (D.prob p) hwf nw (D.res p) (ext (u p)) (ext w) (hT (ext w)) d
    rw [h1]
    exact h2.unique (partial_u h w d)
  have hLsum : ∀ (w : Fin N → ℝ) (d : Fin N), L (w, 0) d = ∑ c, w c * L (Pi.single c 1, 0) d := by
    intro w d
    have hw : ((w, 0) : (Fin N → ℝ) × (Fin m → ℝ)) = ∑ c, w c • ((Pi.single c 1, 0) : (Fin N → ℝ) × (Fin m → ℝ)) := by
      refine Prod.ext ?_ ?_
      · funext e
        simp [Prod.fst_sum, Finset.sum_apply, Pi.single_apply]
      · simp [Prod.snd_sum]
    rw [hw, map_sum, Finset.sum_apply]
    refine sum_congr rfl fun c _ => ?_
    rw [map_smul]
    rfl
  have hLsum' : ∀ (q : Fin m → ℝ) (d : Fin N), L (0, q) d = ∑ j, q j * L (0, Pi.single j 1) d := by
    intro q d
    have hq : ((0, q) : (Fin N → ℝ) × (Fin m → ℝ)) = ∑ j, q j • ((0, Pi.single j 1) : (Fin N → ℝ) × (Fin m → ℝ)) := by
      refine Prod.ext ?_ ?_
      · simp [Prod.fst_sum]
      · funext e
        simp [Prod.snd_sum, Finset.sum_apply, Pi.single_apply]
    rw [hq, map_sum, Finset.sum_apply]
    refine sum_congr rfl fun c _ => ?_
    rw [map_smul]
    rfl
  set call : LinCall ℝ := ⟨usePetsc, ParamProb.transposeOp N A, v, none, if usePetsc then none else some ((D.prob p).jacobi realArith nw)⟩ with hcall
  refine ⟨fun j => -∑ d ∈ range N, lin call d * deriv (fun t : ℝ => D.con (ext (u p)) (p + t • Pi.single j 1) d) 0, ?_, fun pdot => ?_⟩
  · simp only [ParamProb.implicitVjp, hnw, h.size]
    rfl
  · have hsol : ∀ c : Fin N, v c = ∑ r : Fin N, L (Pi.single c 1, 0) r * lin call r := by
      intro c
      have h1 : ParamProb.transposeOp N A (lin call) c = v c := hlin call rfl c c.2
      rw [← h1]
      unfold ParamProb.transposeOp
      rw [Finset.sum_range]
      refine sum_congr rfl fun r _ => ?_
      rw [← ext_single, hcol]
    have hlhs : ∑ j, (-∑ d ∈ range N, lin call d * deriv (fun t : ℝ => D.con (ext (u p)) (p + t • Pi.single j 1) d) 0) * pdot j = -∑ d : Fin N, lin call d * L (0, pdot) d := by
      simp only [neg_mul, sum_neg_distrib, sum_mul]
      congr 1
      rw [sum_comm, Finset.sum_range]
      refine sum_congr rfl fun d _ => ?_
      rw [hLsum', mul_sum]
      refine sum_congr rfl fun j _ => ?_
      rw [partial_p h (Pi.single j 1) d]
      ring
    rw [hlhs]
    have himp : ∀ d, L (0, pdot) d = -L (fderiv ℝ u p pdot, 0) d := fun d => by rw [implicit_eq h pdot d]; ring
    simp only [himp, mul_neg, sum_neg_distrib, neg_neg]
    simp only [hLsum (fderiv ℝ u p pdot), mul_sum]
    rw [sum_comm]
    refine sum_congr rfl fun c _ => ?_
    rw [hsol c, sum_mul]
    refine sum_congr rfl fun r _ => ?_
    ring

/-- **C27 (forward mode).** If `u` solves the modified equations near `p`, the derivative of the modified residual with respect to the solution is injective, and the linear system is solved exactly, then
`implicit_jvp_helper` returns `(du/dp) pdot`. -/
theorem C27_jvp (h : SolvesNear D p u) (nw : Newton ℝ) (hnw : (D.prob p).newton (ext (u p)) = .ok nw)
    (hinj : ∀ w : Fin N → ℝ, (∀ d, fderiv ℝ (fun x : Fin N → ℝ => D.C N (x, p)) (u p) w d = 0) → w = 0) (pdot : Fin m → ℝ)
    (lin : LinCall ℝ → ℕ → ℝ)
    (hlin : ∀ call : LinCall ℝ, (call.op = fun w d => deriv (fun t : ℝ => D.con (cut N (ext (u p) + t • w)) p d) 0) → ∀ d < N, call.op (lin call) d = call.b d) :
    ∃ w, D.implicitJvp lin (ext (u p)) p pdot = .ok w ∧ ∀ d : Fin N, w d = fderiv ℝ u p pdot d := by
  set L := fderiv ℝ (D.C N) (u p, p) with hL
  set call : LinCall ℝ := ⟨false, fun w d => deriv (fun t : ℝ => D.con (cut N (ext (u p) + t • w)) p d) 0, fun d => -deriv (fun t : ℝ => D.con (ext (u p)) (p + t • pdot) d) 0, none, none⟩ with hcall
  refine ⟨lin call, ?_, ?_⟩
  · simp only [ParamProb.implicitJvp, hnw, h.size]
    rfl
  · set w0 : Fin N → ℝ := fun d => lin call d with hw0
    have hop : ∀ (w : ℕ → ℝ) (d : Fin N), call.op w d = L (fun e => w e, 0) d := by
      intro w d
      have he : ∀ t : ℝ, cut N (ext (u p) + t • w) = ext (u p) + t • ext fun e : Fin N => w e := by
        intro t
        funext e
        by_cases he : e < N <;> simp [cut, ext, he]
      show deriv (fun t : ℝ => D.con (cut N (ext (u p) + t • w)) p d) 0 = _
      simp only [he]
      exact (partial_u h (fun e => w e) d).deriv
    have hpart : ∀ (w : Fin N → ℝ) (d : Fin N), fderiv ℝ (fun x : Fin N → ℝ => D.C N (x, p)) (u p) w d = L (w, 0) d := by
      intro w d
      have h1 : HasFDerivAt (fun x : Fin N → ℝ => D.C N (x, p)) (L.comp ((ContinuousLinearMap.id ℝ (Fin N → ℝ)).prod 0)) (u p) :=
        HasFDerivAt.comp (u p) (f := fun x : Fin N → ℝ => (x, p)) h.diffC.hasFDerivAt ((hasFDerivAt_id (u p)).prodMk (hasFDerivAt_const p (u p)))
      rw [h1.fderiv]
      rfl
    have hzero : w0 - fderiv ℝ u p pdot = 0 := by
      refine hinj _ fun d => ?_
      rw [hpart]
      have h1 := hlin call rfl d d.2
      rw [hop] at h1
      have h2 : L (w0, 0) d = -L (0, pdot) d := by
        rw [← partial_p h pdot d]
        exact h1
      have h3 := implicit_eq h pdot d
      have h4 : ((w0 - fderiv ℝ u p pdot, 0) : (Fin N → ℝ) × (Fin m → ℝ)) = (w0, 0) - (fderiv ℝ u p pdot, 0) := by simp
      rw [h4, map_sub, Pi.sub_apply, h2, h3, sub_self]
    intro d
    have := congrFun hzero d
    simp only [Pi.sub_apply, Pi.zero_apply, sub_eq_zero] at this
    exact this

end

/-- One unknown, one parameter, equation `2 u - p = 0`. -/
noncomputable def halfExample : ParamProb 1 Unit :=
  ⟨fun p => ⟨1, 1, [], fun u => .ok ⟨fun d => 2 * u d - p 0, [0], [0], [2], fun _ => 0⟩⟩, fun p u d => if d = 0 then 2 * u 0 - p 0 else 0⟩

theorem halfExample_solves (p : Fin 1 → ℝ) : SolvesNear (N := 1) halfExample p (fun q _ => q 0 / 2) where
  size := rfl
  diffC := by
    have : halfExample.C 1 = fun (q : (Fin 1 → ℝ) × (Fin 1 → ℝ)) (d : Fin 1) => if (d : ℕ) = 0 then 2 * ext q.1 0 - q.2 0 else 0 := rfl
    rw [this]
    refine differentiableAt_pi.mpr fun d => ?_
    have hd : (d : ℕ) = 0 := Nat.lt_one_iff.mp d.2
    have hext : ∀ q : (Fin 1 → ℝ) × (Fin 1 → ℝ), ext q.1 0 = q.1 d := fun q => by
      rw [← hd, ext_lt]
    simp only [hd, if_true, hext]
    fun_prop
  diffU := by
    refine differentiableAt_pi.mpr fun d => ?_
    fun_prop
  zero := by
    refine Filter.Eventually.of_forall fun q d => ?_
    have hd : (d : ℕ) = 0 := Nat.lt_one_iff.mp d.2
    show (if (d : ℕ) = 0 then 2 * ext _ 0 - q 0 else 0) = 0
    rw [if_pos hd]
    have : ext (fun _ : Fin 1 => q 0 / 2) 0 = q 0 / 2 := by simp [ext]
    rw [this]
    ring

/-- For it `implicit_vjp` returns `v / 2`, the derivative of `u(p) = p / 2` applied to `v`. -/
example (p : Fin 1 → ℝ) (v : ℕ → ℝ) : ∃ g, halfExample.implicitVjp (fun call d => call.b d / 2) (ext fun _ : Fin 1 => p 0 / 2) p v false = .ok g ∧ ∀ pdot : Fin 1 → ℝ, ∑ j, g j * pdot j = v 0 * (pdot 0 / 2) := by
  have hwf : (halfExample.prob p).WF := fun g hg => by cases hg
  obtain ⟨g, h1, h2⟩ := C27_vjp (halfExample_solves p) hwf _ rfl (by simp) (fun w d => by
      show HasDerivAt (fun t : ℝ => if d = 0 then 2 * ((ext _ 0 : ℝ) + t * w 0) - p 0 else 0) _ 0
      by_cases hd : d = 0
      · subst hd
        simp only [if_true]
        have := ((((hasDerivAt_id (0 : ℝ)).mul_const (w 0)).const_add (ext (fun _ : Fin 1 => p 0 / 2) 0)).const_mul 2).sub_const (p 0)
        refine this.congr_deriv ?_
        simp [cooMul]
      · simp only [hd, if_false]
        refine (hasDerivAt_const (0 : ℝ) (0 : ℝ)).congr_deriv ?_
        simp [cooMul, Ne.symm hd]) false v (fun call d => call.b d / 2) (fun call hop d hd => by
      have hd : d = 0 := Nat.lt_one_iff.mp hd
      subst hd
      rw [hop]
      show ∑ r ∈ range 1, Prob.spMul realArith [0] [0] [2] (Pi.single 0 1) r * (call.b r / 2) = _
      simp [spMul_real, cooMul]
      ring)
  refine ⟨g, h1, fun pdot => ?_⟩
  rw [h2 pdot]
  have hu : HasFDerivAt (fun (q : Fin 1 → ℝ) (_ : Fin 1) => q 0 / 2) (ContinuousLinearMap.pi fun _ => (2 : ℝ)⁻¹ • ContinuousLinearMap.proj (R := ℝ) (φ := fun _ : Fin 1 => ℝ) 0) p := by
    refine hasFDerivAt_pi.mpr fun d => ?_
    have := (ContinuousLinearMap.proj (R := ℝ) (φ := fun _ : Fin 1 => ℝ) 0).hasFDerivAt (x := p) |>.const_mul (2 : ℝ)⁻¹
    refine this.congr_of_eventuallyEq (Filter.Eventually.of_forall fun q => ?_)
    show q 0 / 2 = 2⁻¹ * q 0
    ring
  rw [hu.fderiv]
  show ∑ d : Fin 1, v d * (2⁻¹ * pdot 0) = _
  rw [Fin.sum_univ_one]
  show v 0 * (2⁻¹ * pdot 0) = _
  ring

end Verif.Fem
