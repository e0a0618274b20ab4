import Verif.Cfd.PoissonLemmas
import Mathlib.Analysis.Calculus.FDeriv.Add
import Mathlib.Analysis.Calculus.FDeriv.Mul
import Mathlib.Analysis.Calculus.Deriv.Inv
import Mathlib.Analysis.Calculus.Deriv.Prod
import Mathlib.Analysis.Calculus.Deriv.Comp
import Mathlib.Tactic.FunProp
import Mathlib.Tactic.FieldSimp
import Mathlib.Tactic.Positivity
import Mathlib.Order.Interval.Finset.Nat

/-!
# C54, C55, C58, C59, C67, C68: the cell-based diffusion solver
-/
namespace Verif.Cfd
open Verif Finset

variable {ns : ℕ}

/-! ## Boundary terms, with or without boundary conditions -/

/-- `Ready` for an optional boundary condition. -/
def Poisson.ReadyOpt (p : Poisson ns) (dm : ℝ → ℝ) : Prop := ∀ ty, p.bcType = some ty → p.Ready ty dm

/-- Total prescribed flux into cell `n`. -/
noncomputable def Poisson.bdry (p : Poisson ns) (dm : ℝ → ℝ) (U : ℕ → ℝ) (n : ℕ) : ℝ :=
  match p.bcType with
  | none => 0
  | some ty => ∑ i, ∑ t ∈ range (p.msh.surfNum i), if faceCell p.msh i t = n then p.bflux ty dm U i t else 0

/-- Dirichlet diagonal. -/
noncomputable def Poisson.diagOf (p : Poisson ns) (dm : ℝ → ℝ) (n : ℕ) : ℝ :=
  match p.bcType with
  | none => 0
  | some ty => p.dirDiag ty dm n

theorem residual_opt {p : Poisson ns} {opp : Fin ns → Fin ns} (hm : p.msh.Valid opp) {dm : ℝ → ℝ} (hr : p.ReadyOpt dm)
    (U : ℕ → ℝ) : ∃ R, p.computeResidual U = .ok R ∧ ∀ n, R n =
      -p.laplaceKernel (U (p.msh.conn n 0)) (fun s => U (p.msh.conn n s.succ)) - p.src n (U n) * p.msh.dV - p.bdry dm U n := by
  cases hb : p.bcType with
  | none =>
    refine ⟨_, residual_none p hb U, fun n => ?_⟩
    simp [Poisson.bdry, hb]
  | some ty =>
    obtain ⟨R, h1, h2⟩ := residual_ok hm (hr ty hb) U
    refine ⟨R, h1, fun n => ?_⟩
    rw [h2]; simp [Poisson.bdry, hb]

theorem newton_opt {p : Poisson ns} {dm : ℝ → ℝ} (hr : p.ReadyOpt dm) (U : ℕ → ℝ) : ∃ A, p.newtonUpdate U = .ok A ∧ ∀ n c, A n c =
      fderiv ℝ (p.residualKernel n) (fun c => U (p.msh.conn n c)) (Pi.single c 1) + if c = 0 then p.diagOf dm n else 0 := by
  cases hb : p.bcType with
  | none =>
    refine ⟨_, newton_none p hb U, fun n c => ?_⟩
    simp [Poisson.diagOf, hb]
  | some ty =>
    obtain ⟨R, h1, h2⟩ := newton_ok (hr ty hb) U
    refine ⟨R, h1, fun n c => ?_⟩
    rw [h2]; simp [Poisson.diagOf, hb]

theorem bdry_line (p : Poisson ns) (dm : ℝ → ℝ) (U V : ℕ → ℝ) (s : ℝ) (n : ℕ) :
    p.bdry dm (fun k => U k + s * V k) n = p.bdry dm U n - s * (p.diagOf dm n * V n) := by
  unfold Poisson.bdry Poisson.diagOf
  cases hb : p.bcType with
  | none => simp
  | some ty =>
    simp only [Poisson.dirDiag]
    rw [sum_mul, mul_sum, ← sum_sub_distrib]
    refine sum_congr rfl fun i _ => ?_
    rw [sum_mul, mul_sum, ← sum_sub_distrib]
    refine sum_congr rfl fun t _ => ?_
    by_cases h : faceCell p.msh i t = n
    · by_cases h0 : ty i = 0
      · simp only [h, h0, and_self, if_true, Poisson.bflux]; ring
      · simp [h, h0, Poisson.bflux]
    · simp [h]

theorem lin_eq (p : Poisson ns) {opp : Fin ns → Fin ns} (hm : p.msh.Valid opp) (dm : ℝ → ℝ) (U V : ℕ → ℝ) (A : ℕ → Fin (ns + 1) → ℝ)
    (hA : ∀ n c, A n c = fderiv ℝ (p.residualKernel n) (fun c => U (p.msh.conn n c)) (Pi.single c 1) + if c = 0 then p.diagOf dm n else 0)
    {n : ℕ} (hn : n < p.msh.N) : Poisson.linearized p.msh A V n =
      fderiv ℝ (p.residualKernel n) (fun c => U (p.msh.conn n c)) (fun c => V (p.msh.conn n c)) + p.diagOf dm n * V n := by
  unfold Poisson.linearized
  simp only [hA, add_mul, sum_add_distrib]
  rw [sum_unit _ (fun c => V (p.msh.conn n c))]
  congr 1
  rw [Finset.sum_eq_single 0]
  · simp [hm.conn0 n hn]
  · intro c _ hc; simp [hc]
  · simp

/-! ## C54: the matrix is the derivative of the residual -/

/-- **C54 (Jacobian).** Wherever the local residuals are differentiable, `compute_linearized_residual` with the values of `newton_update` is the directional derivative of `compute_residual`, boundary terms included. -/
theorem C54_jacobian {p : Poisson ns} {opp : Fin ns → Fin ns} (hm : p.msh.Valid opp) {dm : ℝ → ℝ} (hr : p.ReadyOpt dm) (U : ℕ → ℝ)
    (hk : ∀ n < p.msh.N, DifferentiableAt ℝ (p.residualKernel n) (fun c => U (p.msh.conn n c))) :
    ∃ R : (ℕ → ℝ) → ℕ → ℝ, (∀ U, p.computeResidual U = .ok (R U)) ∧ ∃ A, p.newtonUpdate U = .ok A ∧
      ∀ V, ∀ n < p.msh.N, HasDerivAt (fun s : ℝ => R (fun k => U k + s * V k) n) (Poisson.linearized p.msh A V n) 0 := by
  choose R hR hR' using fun U => residual_opt hm hr U
  obtain ⟨A, hA, hA'⟩ := newton_opt hr U
  refine ⟨R, hR, A, hA, fun V n hn => ?_⟩
  have e : (fun s : ℝ => R (fun k => U k + s * V k) n) = fun s : ℝ =>
      p.residualKernel n (fun c => U (p.msh.conn n c) + s * V (p.msh.conn n c)) - (p.bdry dm U n - s * (p.diagOf dm n * V n)) := by
    funext s
    rw [hR', bdry_line]
    unfold Poisson.residualKernel
    beta_reduce
    rw [hm.conn0 n hn]
  rw [e, lin_eq p hm dm U V A hA' hn]
  have hline : HasDerivAt (fun s : ℝ => fun c => U (p.msh.conn n c) + s * V (p.msh.conn n c)) (fun c => V (p.msh.conn n c)) 0 := by
    rw [hasDerivAt_pi]
    intro c
    simpa using ((hasDerivAt_id (0 : ℝ)).mul_const (V (p.msh.conn n c))).const_add (U (p.msh.conn n c))
  have hk' := hk n hn
  have h1 : HasFDerivAt (p.residualKernel n) (fderiv ℝ (p.residualKernel n) (fun c => U (p.msh.conn n c)))
      (fun c => U (p.msh.conn n c) + (0 : ℝ) * V (p.msh.conn n c)) := by
    simpa using hk'.hasFDerivAt
  have h2 := h1.comp_hasDerivAt (0 : ℝ) hline
  have h3 : HasDerivAt (fun s : ℝ => p.bdry dm U n - s * (p.diagOf dm n * V n)) (-(p.diagOf dm n * V n)) 0 := by
    simpa using ((hasDerivAt_id (0 : ℝ)).mul_const (p.diagOf dm n * V n)).const_sub (p.bdry dm U n)
  exact (h2.fun_sub h3).congr_deriv (by ring)

/-- The local residuals of the linear equation are differentiable if the source is. -/
theorem linear_differentiable {p : Poisson ns} (hf : p.flag = .bool false) (hs : ∀ n, Differentiable ℝ (p.src n)) (n : ℕ) (x : Fin (ns + 1) → ℝ) :
    DifferentiableAt ℝ (p.residualKernel n) x := by
  have e : p.residualKernel n = fun x => -(∑ s : Fin ns, (x s.succ - x 0) / p.msh.D s * p.mu.getD 0 * p.msh.dS s) - p.src n (x 0) * p.msh.dV := by
    funext x
    simp [Poisson.residualKernel, Poisson.laplaceKernel, Poisson.faceMu, hf]
  rw [e]
  have := hs n
  fun_prop

/-- **C54 (Jacobian, nonlinear equation).** For a positive differentiable diffusivity and a differentiable source the previous theorem applies at every field; here for the energy equation without Dirichlet sides. -/
theorem C54_jacobian_nonlinear {m : FvMesh ns} {opp : Fin ns → Fin ns} (hm : m.Valid opp) (flag : PyFlag) (hflag : flag ≠ .bool false)
    (f : ℝ → ℝ) (hf : Differentiable ℝ f) (hpos : ∀ x, 0 < f x) (src : ℕ → ℝ → ℝ) (hs : ∀ n, Differentiable ℝ (src n))
    (bt : Option (Fin ns → ℤ)) (hbt : ∀ ty, bt = some ty → ∀ i, ty i = 1 ∨ (ty i = 0 ∧ flag = .bool true)) (bv : Fin ns → ℕ → ℝ) :
    ∃ p, poissonInit m flag none (some f) (some src) bt bv = .ok p ∧
    ∃ R : (ℕ → ℝ) → ℕ → ℝ, (∀ U, p.computeResidual U = .ok (R U)) ∧ ∀ U, ∃ A, p.newtonUpdate U = .ok A ∧
      ∀ V, ∀ n < m.N, HasDerivAt (fun s : ℝ => R (fun k => U k + s * V k) n) (Poisson.linearized m A V n) 0 := by
  refine ⟨⟨m, flag, none, some f, src, bt, bv⟩, by simp [poissonInit, hflag], ?_⟩
  set p : Poisson ns := ⟨m, flag, none, some f, src, bt, bv⟩ with hp
  have hr : p.ReadyOpt f := by
    intro ty hty
    refine ⟨hty, fun i => ?_⟩
    rcases hbt ty hty i with h | ⟨h, hfl⟩
    · exact Or.inr h
    · refine Or.inl ⟨h, fun v => ?_⟩
      simp [Poisson.dirMu, hp, hfl]
  choose R hR hR' using fun U => residual_opt (p := p) hm hr U
  refine ⟨R, hR, fun U => ?_⟩
  have hk : ∀ n < m.N, DifferentiableAt ℝ (p.residualKernel n) (fun c => U (p.msh.conn n c)) := by
    intro n _
    have e : p.residualKernel n = fun x => -(∑ s : Fin ns, (x s.succ - x 0) / m.D s * (2 * f (x 0) * f (x s.succ) / (f (x s.succ) + f (x 0))) * m.dS s) - src n (x 0) * m.dV := by
      funext x
      simp [Poisson.residualKernel, Poisson.laplaceKernel, Poisson.faceMu, hp, hflag]
    rw [e]
    have hsn := hs n
    have hp1 : ∀ (c : Fin (ns + 1)) (x : Fin (ns + 1) → ℝ), DifferentiableAt ℝ (fun y : Fin (ns + 1) → ℝ => f (y c)) x := fun c x =>
      (hf (x c)).comp x (differentiableAt_apply c x)
    have hp2 : ∀ x : Fin (ns + 1) → ℝ, DifferentiableAt ℝ (fun y : Fin (ns + 1) → ℝ => src n (y 0)) x := fun x =>
      (hsn (x 0)).comp x (differentiableAt_apply 0 x)
    have hne : ∀ s : Fin ns, f (U (m.conn n s.succ)) + f (U (m.conn n 0)) ≠ 0 := fun s => (add_pos (hpos _) (hpos _)).ne'
    refine DifferentiableAt.sub (DifferentiableAt.neg (DifferentiableAt.fun_sum fun s _ => ?_)) ((hp2 _).mul_const _)
    refine DifferentiableAt.mul_const (DifferentiableAt.fun_mul (by fun_prop) ?_) _
    have hq := DifferentiableAt.fun_add (hp1 s.succ (fun c => U (m.conn n c))) (hp1 0 (fun c => U (m.conn n c)))
    have hn := ((hp1 0 (fun c => U (m.conn n c))).const_mul 2).fun_mul (hp1 s.succ (fun c => U (m.conn n c)))
    simp only [div_eq_mul_inv]
    exact hn.fun_mul (hq.fun_inv (hne s))
  obtain ⟨R2, hR2, A, hA, hd⟩ := C54_jacobian (p := p) hm hr U hk
  refine ⟨A, hA, fun V n hn => ?_⟩
  have : R2 = R := by
    funext U
    have := (hR2 U).symm.trans (hR U)
    injection this
  rw [← this]
  exact hd V n hn

/-! ## C54: the linear equation -/

/-- Data of a linear problem `mu · ΔU + (a U + b) = 0`. -/
structure LinearProblem (p : Poisson ns) (mu : ℝ) (a b : ℕ → ℝ) : Prop where
  flag : p.flag = .bool false
  mu_eq : p.mu = some mu
  src_eq : ∀ n u, p.src n u = a n * u + b n
  bc : ∀ ty, p.bcType = some ty → ∀ i, ty i = 0 ∨ ty i = 1

theorem LinearProblem.ready {p : Poisson ns} {mu : ℝ} {a b : ℕ → ℝ} (h : LinearProblem p mu a b) : p.ReadyOpt (fun _ => mu) := by
  intro ty hty
  refine ⟨hty, fun i => ?_⟩
  rcases h.bc ty hty i with h0 | h1
  · exact Or.inl ⟨h0, fun v => by simp [Poisson.dirMu, h.flag, h.mu_eq]⟩
  · exact Or.inr h1

/-- Instances: the velocity prediction and the pressure correction are such problems. -/
theorem velPoisson_linear (m : FvMesh ns) (visco rho dt : ℝ) (u0 conv gradp fl : ℕ → ℝ) (bt : Option (Fin ns → ℤ))
    (hbt : ∀ ty, bt = some ty → ∀ i, ty i = 0 ∨ ty i = 1) (bv : Fin ns → ℕ → ℝ) :
    ∃ p, velPoisson m visco rho dt u0 conv gradp fl bt bv = .ok p ∧ p.msh = m ∧ LinearProblem p visco
      (fun n => -(rho / dt) - 1e7 * rho * (1 - fl n) ^ 2 / (fl n ^ 3 + 1e-5)) (fun n => rho / dt * u0 n - rho * conv n - gradp n) := by
  refine ⟨_, rfl, rfl, rfl, rfl, fun n u => ?_, hbt⟩
  show velSource rho dt u (u0 n) (conv n) (gradp n) (fl n) = _
  unfold velSource
  ring

theorem presPoisson_linear (m : FvMesh ns) (divv : ℕ → ℝ) :
    ∃ p, presPoisson m divv = .ok p ∧ p.msh = m ∧ p.bcType = none ∧ LinearProblem p 1 (fun _ => 0) (fun n => -divv n) := by
  refine ⟨_, rfl, rfl, rfl, rfl, rfl, fun n u => ?_, fun ty h => ?_⟩
  · show -divv n = _
    ring
  · cases h

/-- Row `n` of the discrete operator: conductances times differences, minus the reaction, plus the wall conductances. -/
noncomputable def rowOp (p : Poisson ns) (mu : ℝ) (a : ℕ → ℝ) (V : ℕ → ℝ) (n : ℕ) : ℝ :=
  (∑ s : Fin ns, mu * (p.msh.dS s / p.msh.D s) * (V n - V (p.msh.conn n s.succ))) - a n * p.msh.dV * V n + p.diagOf (fun _ => mu) n * V n

theorem linear_row {p : Poisson ns} {opp : Fin ns → Fin ns} (hm : p.msh.Valid opp) {mu : ℝ} {a b : ℕ → ℝ} (h : LinearProblem p mu a b) (U : ℕ → ℝ) :
    ∃ A, p.newtonUpdate U = .ok A ∧ ∀ V, ∀ n < p.msh.N, Poisson.linearized p.msh A V n = rowOp p mu a V n := by
  obtain ⟨A, hA, hA'⟩ := newton_opt h.ready U
  refine ⟨A, hA, fun V n hn => ?_⟩
  rw [lin_eq p hm _ U V A hA' hn]
  unfold rowOp
  congr 1
  have hs : ∀ n, Differentiable ℝ (p.src n) := by
    intro n
    have : p.src n = fun u => a n * u + b n := funext (h.src_eq n)
    rw [this]; fun_prop
  have hd := (linear_differentiable h.flag hs n (fun c => U (p.msh.conn n c))).hasFDerivAt
  have hline : HasDerivAt (fun s : ℝ => fun c => U (p.msh.conn n c) + s * V (p.msh.conn n c)) (fun c => V (p.msh.conn n c)) 0 := by
    rw [hasDerivAt_pi]
    intro c
    simpa using ((hasDerivAt_id (0 : ℝ)).mul_const (V (p.msh.conn n c))).const_add (U (p.msh.conn n c))
  have hd' : HasFDerivAt (p.residualKernel n) (fderiv ℝ (p.residualKernel n) (fun c => U (p.msh.conn n c)))
      (fun c => U (p.msh.conn n c) + (0 : ℝ) * V (p.msh.conn n c)) := by simpa using hd
  have h1 := hd'.comp_hasDerivAt (0 : ℝ) hline
  have e : (p.residualKernel n ∘ fun s : ℝ => fun c => U (p.msh.conn n c) + s * V (p.msh.conn n c)) = fun s : ℝ =>
      p.residualKernel n (fun c => U (p.msh.conn n c)) + s * ((∑ s : Fin ns, mu * (p.msh.dS s / p.msh.D s) * (V n - V (p.msh.conn n s.succ))) - a n * p.msh.dV * V n) := by
    funext s
    simp only [Function.comp, Poisson.residualKernel, Poisson.laplaceKernel, Poisson.faceMu, h.flag, h.mu_eq, if_true, Option.getD_some, h.src_eq, hm.conn0 n hn]
    rw [mul_sub, mul_sum]
    have : ∀ x y z : ℝ, ∑ c : Fin ns, (U (p.msh.conn n c.succ) + s * V (p.msh.conn n c.succ) - (U n + s * V n)) / p.msh.D c * mu * p.msh.dS c
        = ∑ c : Fin ns, (U (p.msh.conn n c.succ) - U n) / p.msh.D c * mu * p.msh.dS c - ∑ c : Fin ns, s * (mu * (p.msh.dS c / p.msh.D c) * (V n - V (p.msh.conn n c.succ))) := by
      intro _ _ _
      rw [← sum_sub_distrib]
      refine sum_congr rfl fun c _ => ?_
      ring
    rw [this 0 0 0]
    ring
  rw [e] at h1
  have h2 : HasDerivAt (fun s : ℝ => p.residualKernel n (fun c => U (p.msh.conn n c)) + s * ((∑ s : Fin ns, mu * (p.msh.dS s / p.msh.D s) * (V n - V (p.msh.conn n s.succ))) - a n * p.msh.dV * V n))
      ((∑ s : Fin ns, mu * (p.msh.dS s / p.msh.D s) * (V n - V (p.msh.conn n s.succ))) - a n * p.msh.dV * V n) 0 := by
    simpa using ((hasDerivAt_id (0 : ℝ)).mul_const _).const_add (p.residualKernel n (fun c => U (p.msh.conn n c)))
  exact h1.unique h2

theorem linear_residual {p : Poisson ns} {opp : Fin ns → Fin ns} (hm : p.msh.Valid opp) {mu : ℝ} {a b : ℕ → ℝ} (h : LinearProblem p mu a b) (U : ℕ → ℝ) :
    ∃ R, p.computeResidual U = .ok R ∧ ∀ n < p.msh.N, R n = rowOp p mu a U n - b n * p.msh.dV - p.bdry (fun _ => mu) (fun _ => 0) n := by
  obtain ⟨R, hR, hR'⟩ := residual_opt hm h.ready U
  refine ⟨R, hR, fun n hn => ?_⟩
  have hb := bdry_line p (fun _ => mu) (fun _ => 0) U 1 n
  simp only [zero_add, one_mul] at hb
  rw [hR', hb, hm.conn0 n hn, h.src_eq]
  unfold rowOp Poisson.laplaceKernel
  have : ∑ s : Fin ns, (U (p.msh.conn n s.succ) - U n) / p.msh.D s * p.faceMu (U n) (U (p.msh.conn n s.succ)) * p.msh.dS s
      = - ∑ s : Fin ns, mu * (p.msh.dS s / p.msh.D s) * (U n - U (p.msh.conn n s.succ)) := by
    rw [← sum_neg_distrib]
    refine sum_congr rfl fun s _ => ?_
    simp only [Poisson.faceMu, h.flag, if_true, h.mu_eq, Option.getD_some]
    ring
  rw [this]
  ring

/-- **C54 (exactly affine).** For the linear equation the residual at `U + V` is the residual at `U` plus the matrix applied to `V`, with the matrix computed anywhere. -/
theorem C54_affine {p : Poisson ns} {opp : Fin ns → Fin ns} (hm : p.msh.Valid opp) {mu : ℝ} {a b : ℕ → ℝ} (h : LinearProblem p mu a b) (W U V : ℕ → ℝ) :
    ∃ A R R', p.newtonUpdate W = .ok A ∧ p.computeResidual U = .ok R ∧ p.computeResidual (fun k => U k + V k) = .ok R' ∧
      ∀ n < p.msh.N, R' n = R n + Poisson.linearized p.msh A V n := by
  obtain ⟨A, hA, hA'⟩ := linear_row hm h W
  obtain ⟨R, hR, hR'⟩ := linear_residual hm h U
  obtain ⟨R2, hR2, hR2'⟩ := linear_residual hm h (fun k => U k + V k)
  refine ⟨A, R, R2, hA, hR, hR2, fun n hn => ?_⟩
  rw [hA' V n hn, hR' n hn, hR2' n hn]
  unfold rowOp
  have : ∑ s : Fin ns, mu * (p.msh.dS s / p.msh.D s) * (U n + V n - (U (p.msh.conn n s.succ) + V (p.msh.conn n s.succ)))
      = ∑ s : Fin ns, mu * (p.msh.dS s / p.msh.D s) * (U n - U (p.msh.conn n s.succ)) + ∑ s : Fin ns, mu * (p.msh.dS s / p.msh.D s) * (V n - V (p.msh.conn n s.succ)) := by
    rw [← sum_add_distrib]
    exact sum_congr rfl fun s _ => by ring
  rw [this]
  ring

/-- Discrete Green identity. -/
theorem green {m : FvMesh ns} {opp : Fin ns → Fin ns} (hm : m.Valid opp) (U V : ℕ → ℝ) :
    ∑ n ∈ range m.N, V n * ∑ s : Fin ns, (m.dS s / m.D s) * (U n - U (m.conn n s.succ))
      = 1 / 2 * ∑ n ∈ range m.N, ∑ s : Fin ns, (m.dS s / m.D s) * (U n - U (m.conn n s.succ)) * (V n - V (m.conn n s.succ)) := by
  have e1 : ∑ n ∈ range m.N, V n * ∑ s : Fin ns, (m.dS s / m.D s) * (U n - U (m.conn n s.succ))
      = ∑ n ∈ range m.N, ∑ s : Fin ns, (if m.conn n s.succ = n then 0 else (m.dS s / m.D s) * (U n - U (m.conn n s.succ)) * V n) := by
    refine sum_congr rfl fun n _ => ?_
    rw [mul_sum]
    refine sum_congr rfl fun s _ => ?_
    split_ifs with hc
    · rw [hc]; ring
    · ring
  have e2 := swap_sum hm (fun n s => (m.dS s / m.D s) * (U n - U (m.conn n s.succ)) * V n)
  have e3 : ∑ n ∈ range m.N, ∑ s : Fin ns, (m.dS s / m.D s) * (U n - U (m.conn n s.succ)) * (V n - V (m.conn n s.succ))
      = ∑ n ∈ range m.N, ∑ s : Fin ns, (if m.conn n s.succ = n then 0 else (m.dS s / m.D s) * (U n - U (m.conn n s.succ)) * V n)
        + ∑ n ∈ range m.N, ∑ s : Fin ns, (if m.conn n s.succ = n then 0 else
            (m.dS (opp s) / m.D (opp s)) * (U (m.conn n s.succ) - U (m.conn (m.conn n s.succ) (opp s).succ)) * V (m.conn n s.succ)) := by
    rw [← sum_add_distrib]
    refine sum_congr rfl fun n hn => ?_
    rw [← sum_add_distrib]
    refine sum_congr rfl fun s _ => ?_
    split_ifs with hc
    · rw [hc]; ring
    · rw [hm.sym n (mem_range.mp hn) s hc, hm.oppw]; ring
  rw [e1, e3, ← e2]
  ring

/-- **C54 (symmetric).** -/
theorem C54_symmetric {p : Poisson ns} {opp : Fin ns → Fin ns} (hm : p.msh.Valid opp) {mu : ℝ} {a b : ℕ → ℝ} (h : LinearProblem p mu a b) (W : ℕ → ℝ) :
    ∃ A, p.newtonUpdate W = .ok A ∧ ∀ U V, ∑ n ∈ range p.msh.N, V n * Poisson.linearized p.msh A U n = ∑ n ∈ range p.msh.N, U n * Poisson.linearized p.msh A V n := by
  obtain ⟨A, hA, hA'⟩ := linear_row hm h W
  refine ⟨A, hA, fun U V => ?_⟩
  have key : ∀ U V : ℕ → ℝ, ∑ n ∈ range p.msh.N, V n * Poisson.linearized p.msh A U n =
      mu * (1 / 2 * ∑ n ∈ range p.msh.N, ∑ s : Fin ns, (p.msh.dS s / p.msh.D s) * (U n - U (p.msh.conn n s.succ)) * (V n - V (p.msh.conn n s.succ)))
        + ∑ n ∈ range p.msh.N, (p.diagOf (fun _ => mu) n - a n * p.msh.dV) * (U n * V n) := by
    intro U V
    rw [← green hm U V, mul_sum, ← sum_add_distrib]
    refine sum_congr rfl fun n hn => ?_
    rw [hA' U n (mem_range.mp hn)]
    unfold rowOp
    have : ∑ s : Fin ns, mu * (p.msh.dS s / p.msh.D s) * (U n - U (p.msh.conn n s.succ)) = mu * ∑ s : Fin ns, (p.msh.dS s / p.msh.D s) * (U n - U (p.msh.conn n s.succ)) := by
      rw [mul_sum]; exact sum_congr rfl fun s _ => by ring
    rw [this]; ring
  rw [key, key]
  congr 1
  · congr 2
    exact sum_congr rfl fun n _ => sum_congr rfl fun s _ => by ring
  · exact sum_congr rfl fun n _ => by ring

theorem diag_nonneg {p : Poisson ns} {opp : Fin ns → Fin ns} (hm : p.msh.Valid opp) {mu : ℝ} (hmu : 0 ≤ mu) (n : ℕ) : 0 ≤ p.diagOf (fun _ => mu) n := by
  unfold Poisson.diagOf
  cases p.bcType with
  | none => exact le_rfl
  | some ty =>
    refine sum_nonneg fun i _ => sum_nonneg fun t _ => ?_
    split_ifs
    · have := hm.pos i
      have e : mu * 2 / p.msh.D i * p.msh.dS i = mu * 2 * (p.msh.dS i / p.msh.D i) := by ring
      rw [e]; positivity
    · exact le_rfl

/-- **C54 (energy identity and positivity).** The quadratic form of the matrix is the sum of squared differences over faces, plus reaction and wall terms; it is nonnegative for `mu ≥ 0`, `a ≤ 0`. -/
theorem C54_psd {p : Poisson ns} {opp : Fin ns → Fin ns} (hm : p.msh.Valid opp) {mu : ℝ} {a b : ℕ → ℝ} (h : LinearProblem p mu a b) (W : ℕ → ℝ) :
    ∃ A, p.newtonUpdate W = .ok A ∧ ∀ V,
      ∑ n ∈ range p.msh.N, V n * Poisson.linearized p.msh A V n =
        mu * (1 / 2 * ∑ n ∈ range p.msh.N, ∑ s : Fin ns, (p.msh.dS s / p.msh.D s) * (V n - V (p.msh.conn n s.succ)) ^ 2)
          + ∑ n ∈ range p.msh.N, (p.diagOf (fun _ => mu) n - a n * p.msh.dV) * V n ^ 2 ∧
      (0 ≤ mu → (∀ n < p.msh.N, a n ≤ 0) → 0 ≤ ∑ n ∈ range p.msh.N, V n * Poisson.linearized p.msh A V n) := by
  obtain ⟨A, hA, hA'⟩ := linear_row hm h W
  have key : ∀ V : ℕ → ℝ, ∑ n ∈ range p.msh.N, V n * Poisson.linearized p.msh A V n =
      mu * (1 / 2 * ∑ n ∈ range p.msh.N, ∑ s : Fin ns, (p.msh.dS s / p.msh.D s) * (V n - V (p.msh.conn n s.succ)) ^ 2)
        + ∑ n ∈ range p.msh.N, (p.diagOf (fun _ => mu) n - a n * p.msh.dV) * V n ^ 2 := by
    intro V
    have e : ∑ n ∈ range p.msh.N, ∑ s : Fin ns, (p.msh.dS s / p.msh.D s) * (V n - V (p.msh.conn n s.succ)) ^ 2
        = ∑ n ∈ range p.msh.N, ∑ s : Fin ns, (p.msh.dS s / p.msh.D s) * (V n - V (p.msh.conn n s.succ)) * (V n - V (p.msh.conn n s.succ)) :=
      sum_congr rfl fun n _ => sum_congr rfl fun s _ => by ring
    rw [e, ← green hm V V, mul_sum, ← sum_add_distrib]
    refine sum_congr rfl fun n hn => ?_
    rw [hA' V n (mem_range.mp hn)]
    unfold rowOp
    have : ∑ s : Fin ns, mu * (p.msh.dS s / p.msh.D s) * (V n - V (p.msh.conn n s.succ)) = mu * ∑ s : Fin ns, (p.msh.dS s / p.msh.D s) * (V n - V (p.msh.conn n s.succ)) := by
      rw [mul_sum]; exact sum_congr rfl fun s _ => by ring
    rw [this]; ring
  refine ⟨A, hA, fun V => ⟨key V, fun hmu ha => ?_⟩⟩
  rw [key V]
  refine add_nonneg (mul_nonneg hmu (mul_nonneg (by norm_num) (sum_nonneg fun n _ => sum_nonneg fun s _ => mul_nonneg (hm.pos s).le (sq_nonneg _)))) ?_
  refine sum_nonneg fun n hn => mul_nonneg ?_ (sq_nonneg _)
  have h1 := diag_nonneg (p := p) hm hmu n
  have h2 := mul_nonneg (neg_nonneg.mpr (ha n (mem_range.mp hn))) hm.dV_pos.le
  linarith

/-- **C54 (Jacobi preconditioner).** `precond_values` is the diagonal of the matrix (coefficient of the cell's own value, including the sides where the cell is its own neighbour), and it is positive if the problem has a reaction term. -/
theorem C54_precond {p : Poisson ns} {opp : Fin ns → Fin ns} (hm : p.msh.Valid opp) {mu : ℝ} {a b : ℕ → ℝ} (h : LinearProblem p mu a b) (W : ℕ → ℝ) :
    ∃ A, p.newtonUpdate W = .ok A ∧ ∀ n < p.msh.N,
      Poisson.precondValues p.msh A n = Poisson.linearized p.msh A (fun k => if k = n then 1 else 0) n ∧
      (0 ≤ mu → a n < 0 → 0 < Poisson.precondValues p.msh A n) := by
  obtain ⟨A, hA, hA'⟩ := linear_row hm h W
  have e : ∀ n, Poisson.precondValues p.msh A n = Poisson.linearized p.msh A (fun k => if k = n then 1 else 0) n := by
    intro n
    unfold Poisson.precondValues Poisson.linearized
    exact sum_congr rfl fun c _ => mul_comm _ _
  refine ⟨A, hA, fun n hn => ⟨e n, fun hmu ha => ?_⟩⟩
  rw [e n, hA' _ n hn]
  unfold rowOp
  have h1 := diag_nonneg (p := p) hm hmu n
  have h2 := mul_pos (neg_pos.mpr ha) hm.dV_pos
  have h3 : 0 ≤ ∑ s : Fin ns, mu * (p.msh.dS s / p.msh.D s) * ((1 : ℝ) - if p.msh.conn n s.succ = n then 1 else 0) := by
    refine sum_nonneg fun s _ => mul_nonneg (mul_nonneg hmu (hm.pos s).le) ?_
    split_ifs <;> norm_num
  simp only [if_true] at h3 ⊢
  linarith

/-- **C54 (global balance).** For constant or harmonic-mean diffusivity all inner fluxes cancel: the residual summed over cells is minus the total source minus the total prescribed boundary flux. -/
theorem C54_balance {p : Poisson ns} {opp : Fin ns → Fin ns} (hm : p.msh.Valid opp) {ty : Fin ns → ℤ} {dm : ℝ → ℝ} (hr : p.Ready ty dm) (U : ℕ → ℝ) :
    ∃ R, p.computeResidual U = .ok R ∧ ∑ n ∈ range p.msh.N, R n =
      -(∑ n ∈ range p.msh.N, p.src n (U n) * p.msh.dV) - ∑ i, ∑ t ∈ range (p.msh.surfNum i), p.bflux ty dm U i t := by
  obtain ⟨R, hR, hR'⟩ := residual_ok hm hr U
  refine ⟨R, hR, ?_⟩
  simp only [hR', sum_sub_distrib, sum_neg_distrib]
  have hin : ∑ n ∈ range p.msh.N, p.laplaceKernel (U (p.msh.conn n 0)) (fun s => U (p.msh.conn n s.succ)) = 0 := by
    have := antisym_sum hm (fun s n n' => (U n' - U n) * (p.msh.dS s / p.msh.D s) * p.faceMu (U n) (U n')) (fun s n => by ring) (fun s n n' => by
      have hsym : p.faceMu (U n') (U n) = p.faceMu (U n) (U n') := by
        unfold Poisson.faceMu
        split_ifs
        · rfl
        · show 2 * _ * _ / (_ + _) = 2 * _ * _ / (_ + _)
          congr 1 <;> ring
      simp only [hm.oppw s, hsym]; ring)
    rw [← this]
    refine sum_congr rfl fun n hn => ?_
    unfold Poisson.laplaceKernel
    rw [hm.conn0 n (mem_range.mp hn)]
    exact sum_congr rfl fun s _ => by ring
  rw [hin]
  have hb : ∑ n ∈ range p.msh.N, ∑ i, ∑ t ∈ range (p.msh.surfNum i), (if faceCell p.msh i t = n then p.bflux ty dm U i t else 0)
      = ∑ i, ∑ t ∈ range (p.msh.surfNum i), p.bflux ty dm U i t := by
    rw [sum_comm]
    refine sum_congr rfl fun i _ => ?_
    rw [sum_comm]
    refine sum_congr rfl fun t ht => ?_
    rw [Finset.sum_ite_eq, if_pos]
    exact mem_range.mpr (hm.surf_lt i t (mem_range.mp ht))
  rw [hb]
  ring

/-! ## C55: implicit energy step -/

theorem energy_ready {m : FvMesh ns} {a : EnergyArgs} {T0 conv Q : ℕ → ℝ} {ty : Fin ns → ℤ} (hty : ∀ i, ty i = 1) {bv : Fin ns → ℕ → ℝ} {p : Poisson ns}
    (hp : energyPoisson m a T0 conv Q (some ty) bv = .ok p) :
    p.msh = m ∧ p.Ready ty (fun _ => 0) ∧ (∀ n u, p.src n u = a.source u (T0 n) (conv n) (Q n)) ∧ p.bcValue = bv ∧
      ∀ x y, p.faceMu x y = 2 * a.k x * a.k y / (a.k y + a.k x) := by
  unfold energyPoisson poissonInit at hp
  simp at hp
  cases hp
  exact ⟨rfl, ⟨rfl, fun i => Or.inr (hty i)⟩, fun _ _ => rfl, rfl, fun _ _ => by simp [Poisson.faceMu]⟩

/-- **C55 (heat balance).** If the step is solved exactly, the heat stored in the box changes by the boundary flux, the source and the convective term. -/
theorem C55_heat_balance {m : FvMesh ns} {opp : Fin ns → Fin ns} (hm : m.Valid opp) (a : EnergyArgs) (T0 conv Q : ℕ → ℝ)
    (ty : Fin ns → ℤ) (hty : ∀ i, ty i = 1) (bv : Fin ns → ℕ → ℝ) (p : Poisson ns) (hp : energyPoisson m a T0 conv Q (some ty) bv = .ok p)
    (T : ℕ → ℝ) (R : ℕ → ℝ) (hR : p.computeResidual T = .ok R) (h0 : ∀ n < m.N, R n = 0) :
    ∑ n ∈ range m.N, a.rho * a.cpFn (T0 n) * (T n - T0 n) / a.dt * m.dV =
      (∑ i, ∑ t ∈ range (m.surfNum i), bv i t * |m.dS i|) + ∑ n ∈ range m.N, (Q n - a.rho * a.cpFn (T0 n) * conv n) * m.dV := by
  obtain ⟨rfl, hr, hsrc, rfl, hmu⟩ := energy_ready hty hp
  obtain ⟨R', hR', hs⟩ := C54_balance hm hr T
  have : R' = R := by rw [hR] at hR'; injection hR' with h; exact h.symm
  subst this
  rw [sum_congr rfl fun n hn => h0 n (mem_range.mp hn), sum_const_zero] at hs
  have hb : ∀ i t, p.bflux ty (fun _ => 0) T i t = p.bcValue i t * |p.msh.dS i| := by
    intro i t; unfold Poisson.bflux; rw [if_neg (by rw [hty i]; decide)]
  simp only [hb, hsrc, EnergyArgs.source] at hs
  have e : ∑ n ∈ range p.msh.N, (-a.rho * (T n - T0 n) * a.cpFn (T0 n) / a.dt - a.rho * a.cpFn (T0 n) * conv n + Q n) * p.msh.dV
      = - ∑ n ∈ range p.msh.N, a.rho * a.cpFn (T0 n) * (T n - T0 n) / a.dt * p.msh.dV + ∑ n ∈ range p.msh.N, (Q n - a.rho * a.cpFn (T0 n) * conv n) * p.msh.dV := by
    rw [← sum_neg_distrib, ← sum_add_distrib]
    exact sum_congr rfl fun n _ => by ring
  rw [e] at hs
  linarith

/-- **C55 (maximum principle).** Without source, convection and boundary flux an exact solution of the implicit step stays within the bounds of the old temperatures. -/
theorem C55_max_principle {m : FvMesh ns} {opp : Fin ns → Fin ns} (hm : m.Valid opp) (a : EnergyArgs) (T0 conv Q : ℕ → ℝ)
    (hconv : ∀ n, conv n = 0) (hQ : ∀ n, Q n = 0) (ty : Fin ns → ℤ) (hty : ∀ i, ty i = 1) (bv : Fin ns → ℕ → ℝ) (hbv : ∀ i t, bv i t = 0)
    (hk : ∀ x, 0 < a.k x) (hcp : ∀ x, 0 < a.cpFn x) (hrho : 0 < a.rho) (hdt : 0 < a.dt)
    (p : Poisson ns) (hp : energyPoisson m a T0 conv Q (some ty) bv = .ok p)
    (T : ℕ → ℝ) (R : ℕ → ℝ) (hR : p.computeResidual T = .ok R) (h0 : ∀ n < m.N, R n = 0) (lo hi : ℝ)
    (hT0 : ∀ n < m.N, lo ≤ T0 n ∧ T0 n ≤ hi) : ∀ n < m.N, lo ≤ T n ∧ T n ≤ hi := by
  obtain ⟨rfl, hr, hsrc, rfl, hmu⟩ := energy_ready hty hp
  obtain ⟨R', hR', hs⟩ := residual_ok hm hr T
  have : R' = R := by rw [hR] at hR'; injection hR' with h; exact h.symm
  subst this
  have hrow : ∀ n < p.msh.N, a.rho * a.cpFn (T0 n) / a.dt * p.msh.dV * (T n - T0 n) =
      ∑ s : Fin ns, (p.msh.dS s / p.msh.D s) * p.faceMu (T n) (T (p.msh.conn n s.succ)) * (T (p.msh.conn n s.succ) - T n) := by
    intro n hn
    have h1 := hs n
    rw [h0 n hn, hm.conn0 n hn] at h1
    have hb : ∑ i, ∑ t ∈ range (p.msh.surfNum i), (if faceCell p.msh i t = n then p.bflux ty (fun _ => 0) T i t else 0) = 0 := by
      refine sum_eq_zero fun i _ => sum_eq_zero fun t _ => ?_
      split_ifs
      · unfold Poisson.bflux; rw [if_neg (by rw [hty i]; decide), hbv]; ring
      · rfl
    rw [hb, hsrc, hconv, hQ] at h1
    unfold Poisson.laplaceKernel EnergyArgs.source at h1
    have e : ∑ s : Fin ns, (T (p.msh.conn n s.succ) - T n) / p.msh.D s * p.faceMu (T n) (T (p.msh.conn n s.succ)) * p.msh.dS s
        = ∑ s : Fin ns, (p.msh.dS s / p.msh.D s) * p.faceMu (T n) (T (p.msh.conn n s.succ)) * (T (p.msh.conn n s.succ) - T n) :=
      sum_congr rfl fun s _ => by ring
    rw [e] at h1
    have e2 : a.rho * a.cpFn (T0 n) / a.dt * p.msh.dV * (T n - T0 n) = -((-a.rho * (T n - T0 n) * a.cpFn (T0 n) / a.dt - a.rho * a.cpFn (T0 n) * 0 + 0) * p.msh.dV) := by ring
    rw [e2]; linarith
  have hcoef : ∀ n, 0 < a.rho * a.cpFn (T0 n) / a.dt * p.msh.dV := fun n => by
    have := hcp (T0 n); have := hm.dV_pos; positivity
  have hw : ∀ n (s : Fin ns), 0 < (p.msh.dS s / p.msh.D s) * p.faceMu (T n) (T (p.msh.conn n s.succ)) := by
    intro n s
    rw [hmu]
    have h1 := hk (T n); have h2 := hk (T (p.msh.conn n s.succ)); have := hm.pos s
    positivity
  intro n hn
  have hne : (range p.msh.N).Nonempty := ⟨n, mem_range.mpr hn⟩
  constructor
  · obtain ⟨q, hq, hmin⟩ := exists_min_image (range p.msh.N) T hne
    have hqN := mem_range.mp hq
    have hsum : 0 ≤ a.rho * a.cpFn (T0 q) / a.dt * p.msh.dV * (T q - T0 q) := by
      rw [hrow q hqN]
      refine sum_nonneg fun s _ => mul_nonneg (hw q s).le ?_
      have := hmin (p.msh.conn q s.succ) (mem_range.mpr (hm.conn_lt q hqN _)); linarith
    have h2 : T0 q ≤ T q := by
      by_contra hc
      push Not at hc
      have := mul_neg_of_pos_of_neg (hcoef q) (sub_neg.mpr hc)
      linarith
    have := hmin n (mem_range.mpr hn)
    linarith [(hT0 q hqN).1]
  · obtain ⟨q, hq, hmax⟩ := exists_max_image (range p.msh.N) T hne
    have hqN := mem_range.mp hq
    have hsum : a.rho * a.cpFn (T0 q) / a.dt * p.msh.dV * (T q - T0 q) ≤ 0 := by
      rw [hrow q hqN]
      refine sum_nonpos fun s _ => mul_nonpos_of_nonneg_of_nonpos (hw q s).le ?_
      have := hmax (p.msh.conn q s.succ) (mem_range.mpr (hm.conn_lt q hqN _)); linarith
    have h2 : T q ≤ T0 q := by
      by_contra hc
      push Not at hc
      have := mul_pos (hcoef q) (sub_pos.mpr hc)
      linarith
    have := hmax n (mem_range.mpr hn)
    linarith [(hT0 q hqN).2]

/-! ## C58: failing branches -/

/-- **C58 (energy equation with a Dirichlet side).** Because `nonlinear` is the string `'True'`, every boundary specification that contains a Dirichlet side makes both the residual and the matrix fail with an attribute error, on every mesh and for every field. -/
theorem C58_energy_dirichlet (m : FvMesh ns) (a : EnergyArgs) (T0 conv Q : ℕ → ℝ) (ty : Fin ns → ℤ) (i : Fin ns) (hi : ty i = 0) (bv : Fin ns → ℕ → ℝ) :
    ∃ p, energyPoisson m a T0 conv Q (some ty) bv = .ok p ∧ ∀ U, p.computeResidual U = .error .attribute ∧ p.newtonUpdate U = .error .attribute := by
  refine ⟨_, rfl, fun U => ⟨?_, ?_⟩⟩
  · unfold Poisson.computeResidual Poisson.applyBcResidual
    simp only
    rw [mapM_error (List.finRange ns) _ PErr.attribute i (List.mem_finRange i)]
    · rfl
    · intro j _
      unfold Poisson.sideFlux
      split_ifs with h0
      · right; simp [Poisson.dirMu, Except.bind]
      · left; exact ⟨_, rfl⟩
      · left; exact ⟨_, rfl⟩
    · unfold Poisson.sideFlux
      rw [if_pos hi]
      simp [Poisson.dirMu, Except.bind]
  · unfold Poisson.newtonUpdate
    simp only
    rw [mapM_error (List.finRange ns) _ PErr.attribute i (List.mem_finRange i)]
    · rfl
    · intro j _
      unfold Poisson.sideDiag
      split_ifs with h0
      · right; simp [Poisson.dirMu, Except.bind]
      · left; exact ⟨_, rfl⟩
    · unfold Poisson.sideDiag
      rw [if_pos hi]
      simp [Poisson.dirMu, Except.bind]

/-- The assertions of the constructor: a linear problem needs `mu`, a nonlinear one `mu_fn`. -/
theorem C58_constructor (m : FvMesh ns) (flag : PyFlag) (mu : Option ℝ) (muFn : Option (ℝ → ℝ)) (src : Option (ℕ → ℝ → ℝ))
    (bt : Option (Fin ns → ℤ)) (bv : Fin ns → ℕ → ℝ) :
    poissonInit m flag mu muFn src bt bv = .error .assertion ↔ (flag = .bool false ∧ mu = none) ∨ (flag ≠ .bool false ∧ muFn = none) := by
  unfold poissonInit
  by_cases h : flag = .bool false
  · cases mu <;> simp [h]
  · cases muFn <;> simp [h]

/-- **C58 (missing sides).** A side that is neither Dirichlet nor Neumann leaves the flux vector too short: unless that side has no faces (or a single flux value is broadcast) the residual fails. Here for a mesh where every side has at least two faces. -/
theorem C58_missing_side {p : Poisson ns} {opp : Fin ns → Fin ns} (hm : p.msh.Valid opp) (ty : Fin ns → ℤ) (hb : p.bcType = some ty)
    (hnum : ∀ i, 2 ≤ p.msh.surfNum i) (i : Fin ns) (hi : ty i ≠ 0 ∧ ty i ≠ 1) (hd : ∀ i, ty i ≠ 0) (U : ℕ → ℝ) :
    p.computeResidual U = .error .shape := by
  have hs : ∀ j, p.sideFlux ty U j = .ok (if ty j = 1 then (List.range (p.msh.surfNum j)).map fun t => p.bcValue j t * |p.msh.dS j| else []) := by
    intro j
    unfold Poisson.sideFlux
    rw [if_neg (hd j)]
    by_cases h : ty j = 1 <;> simp [h]
  unfold Poisson.computeResidual Poisson.applyBcResidual
  rw [hb]
  simp only
  rw [mapM_ok _ _ _ fun j _ => hs j]
  simp only [Except.bind]
  have hlen : p.msh.surfCell.length = ∑ j : Fin ns, p.msh.surfNum j := by
    rw [hm.surf]
    simp [List.length_flatMap, Poisson.sideCellsOf, Fin.sum_univ_def]
  have hlen2 : (((List.finRange ns).map fun j => if ty j = 1 then (List.range (p.msh.surfNum j)).map fun t => p.bcValue j t * |p.msh.dS j| else []).flatten).length
      = ∑ j : Fin ns, if ty j = 1 then p.msh.surfNum j else 0 := by
    rw [List.length_flatten, List.map_map, Fin.sum_univ_def]
    congr 1
    refine List.map_congr_left fun j _ => ?_
    simp only [Function.comp]
    split_ifs <;> simp
  rw [hlen2, hlen]
  have hlt : (∑ j : Fin ns, if ty j = 1 then p.msh.surfNum j else 0) < ∑ j : Fin ns, p.msh.surfNum j := by
    refine Finset.sum_lt_sum (fun j _ => by split_ifs <;> omega) ⟨i, mem_univ i, ?_⟩
    rw [if_neg hi.2]; have := hnum i; omega
  have hne1 : (∑ j : Fin ns, if ty j = 1 then p.msh.surfNum j else 0) ≠ 1 := by
    by_cases hex : ∃ j, ty j = 1
    · obtain ⟨j, hj⟩ := hex
      have := Finset.single_le_sum (f := fun j : Fin ns => if ty j = 1 then p.msh.surfNum j else 0) (fun j _ => Nat.zero_le _) (mem_univ j)
      simp only [if_pos hj] at this
      have := hnum j; omega
    · push Not at hex
      rw [sum_eq_zero fun j _ => if_neg (hex j)]; decide
  rw [if_neg hlt.ne, if_neg hne1]

/-! ## C59: nonlinear solver -/

theorem nlLoop_spec {V R : Type*} (cond : R → Bool) (body : V → R → V × R) (P : V → R → Prop) (hbody : ∀ d b, P d b → P (body d b).1 (body d b).2)
    (fuel : ℕ) (d : V) (b : R) (it : ℕ) (h : P d b) :
    let r := nlLoop cond body fuel d b it
    it ≤ r.2.2 ∧ r.2.2 ≤ it + fuel ∧ P r.1 r.2.1 ∧ (r.2.2 < it + fuel → cond r.2.1 = false) := by
  induction fuel generalizing d b it with
  | zero => exact ⟨le_rfl, le_rfl, h, fun hh => absurd hh (lt_irrefl _)⟩
  | succ fuel ih =>
    intro r
    by_cases hc : cond b
    · have hr : r = nlLoop cond body fuel (body d b).1 (body d b).2 (it + 1) := by
        simp only [r, nlLoop, hc, if_true]
      obtain ⟨h1, h2, h3, h4⟩ := ih (body d b).1 (body d b).2 (it + 1) (hbody d b h)
      rw [hr]
      exact ⟨by omega, by omega, h3, fun hh => h4 (by omega)⟩
    · have hr : r = (d, b, it) := by simp only [r, nlLoop, hc]; rfl
      rw [hr]
      exact ⟨le_rfl, by simp, h, fun _ => by simpa using hc⟩

/-- **C59.** Whatever the residual, the linear solver and the norm do: at most `max_it` updates are made, the returned right-hand side is minus the residual at the returned unknowns, and if fewer than `max_it` updates were made the relative residual is at most `tol` or not a number. -/
theorem C59_solver_nonlinear {V : Type*} [AddCommGroup V] [Module ℝ V] (residual : V → V) (solve : V → V → V)
    (ratio : V → V → Ratio) (init : Option V) (tol relaxation : ℝ) (max_it : ℕ) :
    let r := solverNonlinear residual solve ratio init tol relaxation max_it
    r.2.2 ≤ max_it ∧ r.2.1 = -residual r.1 ∧
      (r.2.2 < max_it → ratio (-residual (init.getD 0)) r.2.1 = .nan ∨ ∃ x ≤ tol, ratio (-residual (init.getD 0)) r.2.1 = .num x) := by
  intro r
  have h := nlLoop_spec (nlCond (ratio (-residual (init.getD 0))) tol) (nlBody residual solve relaxation) (fun d b => b = -residual d)
    (fun d b _ => rfl) max_it (init.getD 0) (-residual (init.getD 0)) 0 rfl
  obtain ⟨-, h2, h3, h4⟩ := h
  rw [Nat.zero_add] at h2 h4
  refine ⟨h2, h3, fun hlt => ?_⟩
  have := h4 hlt
  unfold nlCond at this
  change (match ratio (-residual (init.getD 0)) r.2.1 with | .num r => decide (r > tol) | .nan => false) = false at this
  cases hr : ratio (-residual (init.getD 0)) r.2.1 with
  | nan => exact Or.inl rfl
  | num x => rw [hr] at this; exact Or.inr ⟨x, by simpa using this, rfl⟩

/-- Both endings occur: with residual `u ↦ u`, exact linear solver and start 1 one update suffices; with a linear solver that returns 0 all `max_it` updates are made. -/
example : (solverNonlinear (fun u : ℝ => u) (fun _ b => b) (fun b0 b => .num (|b| / |b0|)) (some 1) (1 / 100) 1 50).2.2 = 1 := by
  unfold solverNonlinear
  simp [nlLoop, nlCond, nlBody]
  norm_num

example : (solverNonlinear (fun u : ℝ => u) (fun _ _ => 0) (fun b0 b => .num (|b| / |b0|)) (some 1) (1 / 100) 1 3).2.2 = 3 := by
  unfold solverNonlinear
  simp [nlLoop, nlCond, nlBody]
  norm_num

/-! ## C67, C68: linear solver, velocity and pressure problems -/

/-- **C68 (one linear solve suffices).** If the iterative solver returned an exact solution of the system it was given, the returned field has zero residual. -/
theorem C68_solver_linear {p : Poisson ns} {opp : Fin ns → Fin ns} (hm : p.msh.Valid opp) {mu : ℝ} {a b : ℕ → ℝ} (h : LinearProblem p mu a b)
    (bicgstab : ((ℕ → ℝ) → ℕ → ℝ) → (ℕ → ℝ) → ℕ → ℝ)
    (hex : ∀ A R0, p.newtonUpdate (fun _ => 0) = .ok A → p.computeResidual (fun _ => 0) = .ok R0 →
      ∀ n < p.msh.N, Poisson.linearized p.msh A (bicgstab (Poisson.linearized p.msh A) fun n => -R0 n) n = -R0 n) :
    ∃ U R, solverLinear p bicgstab false = .ok U ∧ p.computeResidual U = .ok R ∧ ∀ n < p.msh.N, R n = 0 := by
  obtain ⟨A, hA, hA'⟩ := linear_row hm h (fun _ => 0)
  obtain ⟨R0, hR0, hR0'⟩ := linear_residual hm h (fun _ => 0)
  let inc := bicgstab (Poisson.linearized p.msh A) (fun n => - R0 n)
  obtain ⟨R, hR, hR'⟩ := linear_residual hm h (fun n => 0 + inc n)
  refine ⟨fun n => 0 + inc n, R, ?_, hR, fun n hn => ?_⟩
  · unfold solverLinear
    rw [hR0, hA]
    rfl
  · have h1 := hex A R0 hA hR0 n hn
    rw [hA' _ n hn] at h1
    have e0 : rowOp p mu a (fun _ => 0) n = 0 := by simp [rowOp]
    have h2 := hR0' n hn
    rw [e0] at h2
    have h3 := hR' n hn
    have e1 : rowOp p mu a (fun n => 0 + inc n) n = rowOp p mu a inc n := by simp [rowOp]
    rw [e1] at h3
    change rowOp p mu a inc n = - R0 n at h1
    rw [h3, h1, h2]; ring

/-- **C68 (`relative=True`).** With `relative` an exact solve fixes the first unknown to 0 and solves every other row of the original system. -/
theorem C68_solver_linear_relative {p : Poisson ns} {opp : Fin ns → Fin ns} (hm : p.msh.Valid opp) {mu : ℝ} {a b : ℕ → ℝ} (h : LinearProblem p mu a b)
    (bicgstab : ((ℕ → ℝ) → ℕ → ℝ) → (ℕ → ℝ) → ℕ → ℝ)
    (hex : ∀ A R0, p.newtonUpdate (fun _ => 0) = .ok A → p.computeResidual (fun _ => 0) = .ok R0 →
      let A' := fun n => if n = 0 then (fun c => if c = 0 then 1 else 0) else A n
      let b := fun n => if n = 0 then 0 else -R0 n
      ∀ n < p.msh.N, Poisson.linearized p.msh A' (bicgstab (Poisson.linearized p.msh A') b) n = b n) :
    ∃ U R, solverLinear p bicgstab true = .ok U ∧ p.computeResidual U = .ok R ∧ (0 < p.msh.N → U 0 = 0) ∧ ∀ n < p.msh.N, n ≠ 0 → R n = 0 := by
  obtain ⟨A, hA, hA'⟩ := linear_row hm h (fun _ => 0)
  obtain ⟨R0, hR0, hR0'⟩ := linear_residual hm h (fun _ => 0)
  let A2 : ℕ → Fin (ns + 1) → ℝ := fun n => if n = 0 then (fun c => if c = 0 then 1 else 0) else A n
  let inc := bicgstab (Poisson.linearized p.msh A2) (fun n => if n = 0 then 0 else -R0 n)
  obtain ⟨R, hR, hR'⟩ := linear_residual hm h (fun n => 0 + inc n)
  have hx : ∀ n < p.msh.N, Poisson.linearized p.msh A2 inc n = if n = 0 then 0 else -R0 n := hex A R0 hA hR0
  refine ⟨fun n => 0 + inc n, R, ?_, hR, fun h0 => ?_, fun n hn hne => ?_⟩
  · unfold solverLinear
    rw [hR0, hA]
    rfl
  · have h1 := hx 0 h0
    unfold Poisson.linearized at h1
    simp only [A2, if_true] at h1
    rw [Finset.sum_eq_single 0 (fun c _ hc => by rw [if_neg hc, zero_mul]) (by simp), if_pos rfl, one_mul, hm.conn0 0 h0] at h1
    show 0 + inc 0 = 0
    rw [h1, add_zero]
  · have h1 := hx n hn
    have e2 : Poisson.linearized p.msh A2 inc n = Poisson.linearized p.msh A inc n := by
      unfold Poisson.linearized
      simp only [A2, if_neg hne]
    rw [e2, hA' _ n hn, if_neg hne] at h1
    have e0 : rowOp p mu a (fun _ => 0) n = 0 := by simp [rowOp]
    have h2 := hR0' n hn
    rw [e0] at h2
    have h3 := hR' n hn
    have e1 : rowOp p mu a (fun n => 0 + inc n) n = rowOp p mu a inc n := by simp [rowOp]
    rw [e1] at h3
    rw [h3, h1, h2]; ring

/-- **C68 (unique velocity).** With nonnegative viscosity and a negative reaction coefficient in every cell (velocity prediction: `-rho/dt - Darcy`) two fields with equal residuals agree on every cell. -/
theorem C68_unique {p : Poisson ns} {opp : Fin ns → Fin ns} (hm : p.msh.Valid opp) {mu : ℝ} {a b : ℕ → ℝ} (h : LinearProblem p mu a b) (hmu : 0 ≤ mu)
    (ha : ∀ n < p.msh.N, a n < 0) (U U' : ℕ → ℝ) (R R' : ℕ → ℝ) (hR : p.computeResidual U = .ok R) (hR' : p.computeResidual U' = .ok R')
    (he : ∀ n < p.msh.N, R n = R' n) : ∀ n < p.msh.N, U n = U' n := by
  obtain ⟨A, S, S', hA, hS, hS', haff⟩ := C54_affine hm h U U (fun k => U' k - U k)
  have eS : S = R := by rw [hR] at hS; injection hS with h; exact h.symm
  have eS' : S' = R' := by
    have : (fun k => U k + (U' k - U k)) = U' := by funext k; ring
    rw [this, hR'] at hS'; injection hS' with h; exact h.symm
  subst eS eS'
  obtain ⟨A', hA', hq⟩ := C54_psd hm h U
  have : A' = A := by rw [hA] at hA'; injection hA' with h; exact h.symm
  subst this
  have hz : ∑ n ∈ range p.msh.N, (U' n - U n) * Poisson.linearized p.msh A' (fun k => U' k - U k) n = 0 := by
    refine sum_eq_zero fun n hn => ?_
    have := haff n (mem_range.mp hn)
    rw [he n (mem_range.mp hn)] at this
    have e : Poisson.linearized p.msh A' (fun k => U' k - U k) n = 0 := by linarith
    rw [e, mul_zero]
  have hform := (hq (fun k => U' k - U k)).1
  rw [hz] at hform
  have h1 : 0 ≤ mu * (1 / 2 * ∑ n ∈ range p.msh.N, ∑ s : Fin ns, (p.msh.dS s / p.msh.D s) * ((U' n - U n) - (U' (p.msh.conn n s.succ) - U (p.msh.conn n s.succ))) ^ 2) :=
    mul_nonneg hmu (mul_nonneg (by norm_num) (sum_nonneg fun n _ => sum_nonneg fun s _ => mul_nonneg (hm.pos s).le (sq_nonneg _)))
  have hcoef : ∀ n < p.msh.N, 0 < p.diagOf (fun _ => mu) n - a n * p.msh.dV := by
    intro n hn
    have h1 := diag_nonneg (p := p) hm hmu n
    have h2 := mul_pos (neg_pos.mpr (ha n hn)) hm.dV_pos
    linarith
  have h2 : ∑ n ∈ range p.msh.N, (p.diagOf (fun _ => mu) n - a n * p.msh.dV) * (U' n - U n) ^ 2 ≤ 0 := by linarith
  have hnn : ∀ n ∈ range p.msh.N, 0 ≤ (p.diagOf (fun _ => mu) n - a n * p.msh.dV) * (U' n - U n) ^ 2 :=
    fun n hn => mul_nonneg (hcoef n (mem_range.mp hn)).le (sq_nonneg _)
  have h3 := (sum_eq_zero_iff_of_nonneg hnn).mp (le_antisymm h2 (sum_nonneg hnn))
  intro n hn
  have h4 := h3 n (mem_range.mpr hn)
  rcases mul_eq_zero.mp h4 with h5 | h5
  · exact absurd h5 (hcoef n hn).ne'
  · have := pow_eq_zero_iff (two_ne_zero) |>.mp h5
    linarith

/-- **C68 (velocity prediction).** For positive density and step and liquid fractions in [0, 1], the reaction coefficient of the velocity prediction is negative in every cell, so C68 applies: the predicted velocity is unique. -/
theorem C68_velocity_reaction (rho dt fl : ℝ) (hrho : 0 < rho) (hdt : 0 < dt) (hfl : 0 ≤ fl) :
    -(rho / dt) - 1e7 * rho * (1 - fl) ^ 2 / (fl ^ 3 + 1e-5) < 0
      ∧ (∀ u u' u0 conv gradp : ℝ, velSource rho dt u u0 conv gradp fl - velSource rho dt u' u0 conv gradp fl
          = (-(rho / dt) - 1e7 * rho * (1 - fl) ^ 2 / (fl ^ 3 + 1e-5)) * (u - u'))
      ∧ (∀ u u' u0 conv gradp : ℝ, u < u' → velSource rho dt u' u0 conv gradp fl < velSource rho dt u u0 conv gradp fl) := by
  have h1 : 0 < rho / dt := by positivity
  have h2 : 0 ≤ 1e7 * rho * (1 - fl) ^ 2 / (fl ^ 3 + 1e-5) := by positivity
  have h3 : ∀ u u' u0 conv gradp : ℝ, velSource rho dt u u0 conv gradp fl - velSource rho dt u' u0 conv gradp fl
          = (-(rho / dt) - 1e7 * rho * (1 - fl) ^ 2 / (fl ^ 3 + 1e-5)) * (u - u') := by
    intro u u' u0 conv gradp
    unfold velSource
    ring
  refine ⟨by linarith, h3, fun u u' u0 conv gradp huu => ?_⟩
  have := h3 u u' u0 conv gradp
  nlinarith [mul_pos_of_neg_of_neg (show -(rho / dt) - 1e7 * rho * (1 - fl) ^ 2 / (fl ^ 3 + 1e-5) < 0 by linarith) (show u - u' < 0 by linarith)]

/-- **C67 (compatibility).** The rows of the pressure problem sum to minus the total divergence: if the divergence sums to zero, an exact solution of all rows but one solves the remaining row too. -/
theorem C67_pressure_compatible {m : FvMesh ns} {opp : Fin ns → Fin ns} (hm : m.Valid opp) (divv : ℕ → ℝ) (hdiv : ∑ n ∈ range m.N, divv n = 0)
    (p : Poisson ns) (hp : presPoisson m divv = .ok p) (P R : ℕ → ℝ) (hR : p.computeResidual P = .ok R) (n0 : ℕ) (h0 : n0 < m.N)
    (hrows : ∀ n < m.N, n ≠ n0 → R n = 0) : R n0 = 0 := by
  obtain ⟨p', hp', rfl, hbt, hlin⟩ := presPoisson_linear m divv
  rw [hp] at hp'
  cases hp'
  have hR2 := residual_none p hbt P
  rw [hR] at hR2
  injection hR2 with hR2
  have hsum : ∑ n ∈ range p.msh.N, R n = 0 := by
    rw [hR2]
    simp only [sum_sub_distrib, sum_neg_distrib]
    have hin : ∑ n ∈ range p.msh.N, p.laplaceKernel (P (p.msh.conn n 0)) (fun s => P (p.msh.conn n s.succ)) = 0 := by
      have := antisym_sum hm (fun s n n' => (P n' - P n) * (p.msh.dS s / p.msh.D s) * p.faceMu (P n) (P n')) (fun s n => by ring) (fun s n n' => by
        have hsym : p.faceMu (P n') (P n) = p.faceMu (P n) (P n') := by simp [Poisson.faceMu, hlin.flag]
        simp only [hm.oppw s, hsym]; ring)
      rw [← this]
      refine sum_congr rfl fun n hn => ?_
      unfold Poisson.laplaceKernel
      rw [hm.conn0 n (mem_range.mp hn)]
      exact sum_congr rfl fun s _ => by ring
    rw [hin]
    have : ∑ n ∈ range p.msh.N, p.src n (P n) * p.msh.dV = -(∑ n ∈ range p.msh.N, divv n) * p.msh.dV := by
      rw [neg_mul, sum_mul, ← sum_neg_distrib]
      refine sum_congr rfl fun n _ => ?_
      rw [hlin.src_eq]; ring
    rw [this, hdiv]; ring
  rw [sum_eq_single n0 (fun n hn hne => hrows n (mem_range.mp hn) hne) (fun h => absurd (mem_range.mpr h0) h)] at hsum
  exact hsum

/-! ## The 3-d mesh satisfies the requirements -/

theorem mesh3d_valid (Nx Ny Nz : ℕ) (Lx Ly Lz : ℝ) (hx : 0 < Nx) (hy : 0 < Ny) (hz : 0 < Nz) (hLx : 0 < Lx) (hLy : 0 < Ly) (hLz : 0 < Lz) :
    (mesh3d Nx Ny Nz Lx Ly Lz).Valid opp := by
  obtain ⟨g1, g2, g3, g4, -, -⟩ := C05_geometry3 Nx Ny Nz Lx Ly Lz hx hy hz hLx hLy hLz
  have hcell : ∀ n < Nx * Ny * Nz, ∃ c, InGrid Nx Ny Nz c ∧ n = no3 Ny Nz c := by
    intro n hn
    obtain ⟨i, j, k, hi, hj, hk, e⟩ := Verif.Mesh.idx3_surj hn
    exact ⟨(i, j, k), ⟨hi, hj, hk⟩, e⟩
  have hlt : ∀ c, InGrid Nx Ny Nz c → no3 Ny Nz c < Nx * Ny * Nz := fun c hc => Verif.Mesh.idx3_lt hc.1 hc.2.1 hc.2.2
  refine ⟨fun s => by fin_cases s <;> rfl, ?_, ?_, ?_, ?_, ?_, g4, ?_, ?_⟩
  · intro n hn
    obtain ⟨c, hc, rfl⟩ := hcell n hn
    exact (C05_conn3 Nx Ny Nz c hc).2.1
  · intro n hn
    obtain ⟨c, hc, rfl⟩ := hcell n hn
    intro s
    refine Fin.cases ?_ (fun s => ?_) s
    · show (cellConn3 Nx Ny Nz).get (no3 Ny Nz c) 0 < _
      rw [(C05_conn3 Nx Ny Nz c hc).2.1]; exact hlt c hc
    · show (cellConn3 Nx Ny Nz).get (no3 Ny Nz c) s.succ < _
      rw [(C05_conn3 Nx Ny Nz c hc).2.2 s]
      cases hac : across Nx Ny Nz c s with
      | none => exact hlt c hc
      | some c' => exact hlt c' (across_spec Nx Ny Nz c c' s hc hac).1
  · intro n hn
    obtain ⟨c, hc, rfl⟩ := hcell n hn
    intro s hne
    change (cellConn3 Nx Ny Nz).get (no3 Ny Nz c) s.succ ≠ no3 Ny Nz c at hne
    show (cellConn3 Nx Ny Nz).get ((cellConn3 Nx Ny Nz).get (no3 Ny Nz c) s.succ) (opp s).succ = no3 Ny Nz c
    have h1 := (C05_conn3 Nx Ny Nz c hc).2.2 s
    cases hac : across Nx Ny Nz c s with
    | none => rw [hac] at h1; exact absurd h1 hne
    | some c' =>
      rw [hac] at h1
      simp only at h1
      rw [h1] at hne
      rw [h1]
      refine C05_conn3_symmetric Nx Ny Nz c c' s hc (across_spec Nx Ny Nz c c' s hc hac).1 ?_ h1
      rintro rfl; exact hne rfl
  · intro s
    have hD : D3 (dX3 ![Nx, Ny, Nz] ![Lx, Ly, Lz]) s * dS3 (dX3 ![Nx, Ny, Nz] ![Lx, Ly, Lz]) s > 0 := g1 s
    show 0 < dS3 _ s / D3 _ s
    rcases mul_pos_iff.mp hD with ⟨a, b⟩ | ⟨a, b⟩
    · exact div_pos b a
    · exact div_pos_of_neg_of_neg b a
  · intro s
    show dS3 _ (opp s) / D3 _ (opp s) = dS3 _ s / D3 _ s
    rw [(g3 s).1, (g3 s).2, neg_div_neg_eq]
  · show surfCell3 Nx Ny Nz = _
    have hb : ∀ s : Fin 6, Poisson.sideCellsOf (mesh3d Nx Ny Nz Lx Ly Lz) s = (sideCells3 Nx Ny Nz s).flatten.toList := by
      intro s
      obtain ⟨e0, e1, e2⟩ := side_get Nx Ny Nz s
      have hlen : ((sideCells3 Nx Ny Nz s).flatten.toList).length = surfSetNum3 Nx Ny Nz s := by
        rw [length_flatten2, e0, e1, num_ext]
      refine List.ext_getElem? fun t => ?_
      by_cases ht : t < surfSetNum3 Nx Ny Nz s
      · show ((List.range (surfSetNum3 Nx Ny Nz s)).map fun t => (surfCell3 Nx Ny Nz).getD (surfStart3 Nx Ny Nz s + t) 0)[t]? = _
        rw [List.getElem?_map, List.getElem?_range ht, Option.map_some, List.getD_eq_getElem?_getD, surfCell_get Nx Ny Nz s t ht, Option.getD_some]
        rw [getElem?_flatten2 _ t (by rw [e0, e1, ← num_ext]; exact ht), e2, e1]
      · rw [List.getElem?_eq_none (l := (sideCells3 Nx Ny Nz s).flatten.toList) (by rw [hlen]; omega), List.getElem?_eq_none]
        show ((List.range (surfSetNum3 Nx Ny Nz s)).map fun t => (surfCell3 Nx Ny Nz).getD (surfStart3 Nx Ny Nz s + t) 0).length ≤ t
        simp; omega
    simp only [List.finRange, List.ofFn_succ, List.ofFn_zero, List.flatMap_cons, List.flatMap_nil, hb]
    simp only [surfCell3, List.append_nil, List.append_assoc]
    rfl
  · intro i t ht
    obtain ⟨c, hc, -, hget⟩ := (C05_surf3 Nx Ny Nz hx hy hz i).2.2.1 t ht
    show (surfCell3 Nx Ny Nz).getD (surfStart3 Nx Ny Nz i + t) 0 < _
    rw [List.getD_eq_getElem?_getD, hget]
    exact hlt c hc

/-- **C67 (pressure up to a constant).** On the 3-d mesh two pressure fields with equal residuals differ by one constant. -/
theorem C67_pressure_unique (Nx Ny Nz : ℕ) (Lx Ly Lz : ℝ) (hx : 0 < Nx) (hy : 0 < Ny) (hz : 0 < Nz) (hLx : 0 < Lx) (hLy : 0 < Ly) (hLz : 0 < Lz)
    (divv : ℕ → ℝ) (p : Poisson 6) (hp : presPoisson (mesh3d Nx Ny Nz Lx Ly Lz) divv = .ok p) (P P' R R' : ℕ → ℝ)
    (hR : p.computeResidual P = .ok R) (hR' : p.computeResidual P' = .ok R') (he : ∀ n < Nx * Ny * Nz, R n = R' n) :
    ∃ C, ∀ n < Nx * Ny * Nz, P' n = P n + C := by
  have hm0 := mesh3d_valid Nx Ny Nz Lx Ly Lz hx hy hz hLx hLy hLz
  obtain ⟨p', hp', hmsh, hbt, hlin⟩ := presPoisson_linear (mesh3d Nx Ny Nz Lx Ly Lz) divv
  rw [hp] at hp'
  cases hp'
  have hm : p.msh.Valid opp := by rw [hmsh]; exact hm0
  have hN : p.msh.N = Nx * Ny * Nz := by rw [hmsh]; rfl
  obtain ⟨A, S, S', hA, hS, hS', haff⟩ := C54_affine hm hlin P P (fun k => P' k - P k)
  have eS : S = R := by rw [hR] at hS; injection hS with h; exact h.symm
  have eS' : S' = R' := by
    have : (fun k => P k + (P' k - P k)) = P' := by funext k; ring
    rw [this, hR'] at hS'; injection hS' with h; exact h.symm
  subst eS eS'
  obtain ⟨A', hA', hq⟩ := C54_psd hm hlin P
  have : A' = A := by rw [hA] at hA'; injection hA' with h; exact h.symm
  subst this
  have hz0 : ∑ n ∈ range p.msh.N, (P' n - P n) * Poisson.linearized p.msh A' (fun k => P' k - P k) n = 0 := by
    refine sum_eq_zero fun n hn => ?_
    have := haff n (mem_range.mp hn)
    rw [he n (by rw [← hN]; exact mem_range.mp hn)] at this
    have e : Poisson.linearized p.msh A' (fun k => P' k - P k) n = 0 := by linarith
    rw [e, mul_zero]
  have hform := (hq (fun k => P' k - P k)).1
  rw [hz0] at hform
  have hdiag : ∀ n, p.diagOf (fun _ => (1 : ℝ)) n = 0 := by intro n; simp [Poisson.diagOf, hbt]
  simp only [hdiag, zero_mul, sub_self, sum_const_zero, add_zero, one_mul] at hform
  have hnn : ∀ n ∈ range p.msh.N, 0 ≤ ∑ s : Fin 6, (p.msh.dS s / p.msh.D s) * ((P' n - P n) - (P' (p.msh.conn n s.succ) - P (p.msh.conn n s.succ))) ^ 2 :=
    fun n _ => sum_nonneg fun s _ => mul_nonneg (hm.pos s).le (sq_nonneg _)
  have h1 := (sum_eq_zero_iff_of_nonneg hnn).mp (by linarith)
  have hstep : ∀ n < Nx * Ny * Nz, ∀ s : Fin 6, P' (p.msh.conn n s.succ) - P (p.msh.conn n s.succ) = P' n - P n := by
    intro n hn s
    have h2 := (sum_eq_zero_iff_of_nonneg fun s _ => mul_nonneg (hm.pos s).le (sq_nonneg _)).mp (h1 n (mem_range.mpr (by rw [hN]; exact hn))) s (mem_univ s)
    rcases mul_eq_zero.mp h2 with h3 | h3
    · exact absurd h3 (hm.pos s).ne'
    · have := pow_eq_zero_iff (two_ne_zero) |>.mp h3
      linarith
  have hconn : ∀ c, InGrid Nx Ny Nz c → ∀ s c', across Nx Ny Nz c s = some c' → P' (no3 Ny Nz c') - P (no3 Ny Nz c') = P' (no3 Ny Nz c) - P (no3 Ny Nz c) := by
    intro c hc s c' hac
    have h2 := hstep (no3 Ny Nz c) (Verif.Mesh.idx3_lt hc.1 hc.2.1 hc.2.2) s
    have h3 : p.msh.conn (no3 Ny Nz c) s.succ = no3 Ny Nz c' := by
      have : p.msh.conn = (cellConn3 Nx Ny Nz).get := by rw [hmsh]; rfl
      rw [this, (C05_conn3 Nx Ny Nz c hc).2.2 s, hac]
    rw [h3] at h2
    exact h2
  have hi : ∀ i < Nx, P' (no3 Ny Nz (i, 0, 0)) - P (no3 Ny Nz (i, 0, 0)) = P' (no3 Ny Nz (0, 0, 0)) - P (no3 Ny Nz (0, 0, 0)) := by
    intro i
    induction i with
    | zero => intro _; rfl
    | succ i ih =>
      intro h
      rw [← ih (by omega)]
      exact hconn (i, 0, 0) ⟨by show i < Nx; omega, hy, hz⟩ 1 _ (by simp [across]; omega)
  have hj : ∀ i < Nx, ∀ j < Ny, P' (no3 Ny Nz (i, j, 0)) - P (no3 Ny Nz (i, j, 0)) = P' (no3 Ny Nz (0, 0, 0)) - P (no3 Ny Nz (0, 0, 0)) := by
    intro i hi' j
    induction j with
    | zero => intro _; exact hi i hi'
    | succ j ih =>
      intro h
      rw [← ih (by omega)]
      exact hconn (i, j, 0) ⟨hi', by show j < Ny; omega, hz⟩ 3 _ (by simp [across]; omega)
  have hk : ∀ i < Nx, ∀ j < Ny, ∀ k < Nz, P' (no3 Ny Nz (i, j, k)) - P (no3 Ny Nz (i, j, k)) = P' (no3 Ny Nz (0, 0, 0)) - P (no3 Ny Nz (0, 0, 0)) := by
    intro i hi' j hj' k
    induction k with
    | zero => intro _; exact hj i hi' j hj'
    | succ k ih =>
      intro h
      rw [← ih (by omega)]
      exact hconn (i, j, k) ⟨hi', hj', by show k < Nz; omega⟩ 5 _ (by simp [across]; omega)
  refine ⟨P' (no3 Ny Nz (0, 0, 0)) - P (no3 Ny Nz (0, 0, 0)), fun n hn => ?_⟩
  obtain ⟨i, j, k, hi', hj', hk', e⟩ := Verif.Mesh.idx3_surj hn
  have := hk i hi' j hj' k hk'
  rw [show n = no3 Ny Nz (i, j, k) from e]
  linarith

/-- Instance of the mesh hypotheses: a 2×3×1 grid. -/
example : (mesh3d 2 3 1 1 (3 / 2) 1).Valid opp := mesh3d_valid 2 3 1 _ _ _ (by norm_num) (by norm_num) (by norm_num) (by norm_num) (by norm_num) (by norm_num)

/-- Instance of C54: the velocity prediction on a 2×2×2 grid with three kinds of sides, a positive semidefinite matrix. -/
example (u0 conv gradp : ℕ → ℝ) : ∃ p A, velPoisson (mesh3d 2 2 2 1 1 1) 3 7 (1 / 10) u0 conv gradp (fun _ => 1 / 2) (some fun s => if s = 5 then 1 else 0) (fun _ _ => 4) = .ok p ∧
    p.newtonUpdate (fun _ => 0) = .ok A ∧ ∀ V, 0 ≤ ∑ n ∈ range p.msh.N, V n * Poisson.linearized p.msh A V n := by
  have hm := mesh3d_valid 2 2 2 1 1 1 (by norm_num) (by norm_num) (by norm_num) (by norm_num) (by norm_num) (by norm_num)
  obtain ⟨p, hp, hmsh, hlin⟩ := velPoisson_linear (mesh3d 2 2 2 1 1 1) 3 7 (1 / 10) u0 conv gradp (fun _ => 1 / 2) (some fun s => if s = 5 then 1 else 0)
    (fun ty h i => by injection h with h; subst h; by_cases h5 : i = 5 <;> simp [h5]) (fun _ _ => 4)
  obtain ⟨A, hA, hq⟩ := C54_psd (opp := opp) (by rw [hmsh]; exact hm) hlin (fun _ => 0)
  exact ⟨p, A, hp, hA, fun V => (hq V).2 (by norm_num) (fun n _ => by norm_num)⟩

/-- Instance of C55: two cells at 1 and 4 degrees, unit conductivity, capacity, step and spacing; the implicit step is solved exactly by 2 and 3 degrees, so its hypothesis is satisfiable
with a field which is not constant, and the bounds 1 and 4 are attained by the data. -/
example : ∃ p R, energyPoisson (mesh3d 2 1 1 2 1 1) ⟨fun _ => 1, fun _ => 1, 0, 1, 0, 1, 1⟩ (fun n => if n = 0 then 1 else 4) (fun _ => 0) (fun _ => 0) (some fun _ => 1) (fun _ _ => 0)
    = .ok p ∧ p.computeResidual (fun n => if n = 0 then 2 else 3) = .ok R ∧ ∀ n < 2, R n = 0 := by
  have hm := mesh3d_valid 2 1 1 2 1 1 (by norm_num) (by norm_num) (by norm_num) (by norm_num) (by norm_num) (by norm_num)
  obtain ⟨p, hp⟩ : ∃ p, energyPoisson (mesh3d 2 1 1 2 1 1) ⟨fun _ => 1, fun _ => 1, 0, 1, 0, 1, 1⟩ (fun n => if n = 0 then 1 else 4) (fun _ => 0) (fun _ => 0) (some fun _ => 1) (fun _ _ => 0)
    = .ok p := ⟨_, rfl⟩
  obtain ⟨hmsh, hr, hsrc, hbv, hmu⟩ := energy_ready (fun _ => rfl) hp
  obtain ⟨R, hR, hR'⟩ := residual_ok (opp := opp) (by rw [hmsh]; exact hm) hr (fun n => if n = 0 then 2 else 3)
  refine ⟨p, R, hp, hR, fun n hn => ?_⟩
  have hc : ∀ n < 2, ∀ c : Fin 7, (mesh3d 2 1 1 2 1 1).conn n c = if n = 0 then (if c = 2 then 1 else 0) else (if c = 1 then 0 else 1) := by
    intro n hn c
    show (cellConn3 2 1 1).get n c = _
    interval_cases n <;> fin_cases c <;> decide
  have hd : dX3 ![2, 1, 1] ![2, 1, 1] = fun _ => (1 : ℝ) := by
    funext a; fin_cases a <;> simp [dX3]
  have hD : ∀ s, p.msh.dS s / p.msh.D s = 1 := by
    intro s; rw [hmsh]
    show dS3 (dX3 ![2, 1, 1] ![2, 1, 1]) s / D3 (dX3 ![2, 1, 1] ![2, 1, 1]) s = 1
    rw [hd]; fin_cases s <;> norm_num [D3, dS3]
  have hdV : p.msh.dV = 1 := by
    rw [hmsh]; show dV3 (dX3 ![2, 1, 1] ![2, 1, 1]) = 1
    rw [hd]; norm_num [dV3]
  rw [hR', hsrc, hdV]
  have e1 : ∀ (x : ℝ) (y : Fin 6 → ℝ), p.laplaceKernel x y = ∑ s, (y s - x) := by
    intro x y
    unfold Poisson.laplaceKernel
    refine sum_congr rfl fun s _ => ?_
    have h := hD s
    rw [hmu]
    norm_num
    rw [div_mul_eq_mul_div, mul_div_assoc, h, mul_one]
  rw [e1]
  have e2 : ∀ i t, p.bflux (fun _ => 1) (fun _ => 0) (fun n => if n = 0 then 2 else 3) i t = 0 := by
    intro i t; unfold Poisson.bflux; rw [if_neg (by norm_num), hbv, zero_mul]
  simp only [e2, ite_self, sum_const_zero, sub_zero, mul_one]
  rw [hmsh]
  simp only [hc n hn]
  unfold EnergyArgs.source EnergyArgs.cpFn
  rw [Fin.sum_univ_six]
  interval_cases n
  · norm_num [Fin.ext_iff]
  · norm_num [Fin.ext_iff]

end Verif.Cfd
