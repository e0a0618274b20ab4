import Mathlib.Analysis.Calculus.Taylor
import Mathlib.Analysis.Calculus.MeanValue
import Verif.Fem.SolverProps

/-!
# C95: the matrix-free operators and debugging helpers of `jax_am/fem/solver.py`

`jax.jvp` and `jax.jacfwd` are exact derivatives along lines.
-/
namespace Verif.Fem
open Finset

variable {E : Type}

/-- `get_flatten_fn` (solver.py 157-164): reshape to `(num_total_nodes, vec)`, apply, flatten. -/
def flattenFn {K : Type} (vec : ℕ) [NeZero vec] (fn : (ℕ → Fin vec → K) → ℕ → Fin vec → K) (dofs : ℕ → K) : ℕ → K :=
  fun d => fn (fun n i => dofs (vec * n + i)) (d / vec) (Fin.ofNat vec d)

/-- `apply_bc` (solver.py 95-103). -/
def Prob.applyBc {K : Type} (ar : Arith K) (P : Prob K E) (resFn : (ℕ → K) → ℕ → K) (dofs : ℕ → K) : ℕ → K := P.applyBcVec ar (resFn dofs) dofs

/-- `get_A_fn_linear_fn` (solver.py 167-175): `jax.jvp(fn, (dofs,), (inc,))[1]`. -/
noncomputable def linearFn (dofs : ℕ → ℝ) (fn : (ℕ → ℝ) → ℕ → ℝ) (inc : ℕ → ℝ) : ℕ → ℝ := fun d => deriv (fun t : ℝ => fn (dofs + t • inc) d) 0

/-- `get_A_fn_linear_fn_JFNK` (solver.py 178-190). -/
noncomputable def linearFnJFNK (dofs : ℕ → ℝ) (fn : (ℕ → ℝ) → ℕ → ℝ) (inc : ℕ → ℝ) : ℕ → ℝ := fun d => (fn (dofs + (1e-3 : ℝ) • inc) d - fn dofs d) / 1e-3

/-- `operator_to_matrix` (solver.py 193-199): `jax.jacfwd(operator_fn)(zeros)`. -/
noncomputable def operatorToMatrix (op : (ℕ → ℝ) → ℕ → ℝ) (r c : ℕ) : ℝ := deriv (fun t : ℝ => op (0 + t • Pi.single c 1) r) 0

/-- `get_jacobi_precond` (solver.py 209-214). -/
noncomputable def jacobiPrecond (jacobi x : ℕ → ℝ) : ℕ → ℝ := fun d => x d * (1 / jacobi d)

/-- The numbers logged for one `ind` by `test_jacobi_precond` (solver.py 217-224): diagonal entry, preconditioner entry, ratio. -/
noncomputable def testJacobi (jacobi : ℕ → ℝ) (aFn : (ℕ → ℝ) → ℕ → ℝ) (ind : ℕ) : ℝ × ℝ × ℝ :=
  (aFn (Function.update (fun _ => 0) ind 1) ind, jacobi ind, aFn (Function.update (fun _ => 0) ind 1) ind / jacobi ind)

/-- `assembleCSR` (solver.py 661-682): the entries of the matrix returned, `newton_update` first. -/
noncomputable def Prob.assembleCSR (P : Prob ℝ E) (dofs : ℕ → ℝ) : Except E (ℕ → ℕ → ℝ) :=
  match P.newton dofs with
  | .error e => .error e
  | .ok nw => .ok (P.petscMatrix realArith nw.I nw.J nw.V)

/-- **C95 (Jacobian-vector products).** For a finite element problem with smooth maps the matrix-free operator `get_A_fn_linear_fn(dofs, apply_bc(get_flatten_fn(compute_residual)))` and the operator that `get_A_fn` builds
from the assembled triplets agree on every vector. -/
theorem C95_matrix_free {nn nq nf nfq dim vec : ℕ} [NeZero vec] (F : Fem nn nq nf nfq dim vec) (groups : List (Group ℝ)) (hwf : (F.toProb groups).WF)
    (ht : ∀ tm, F.tensorMap = some tm → ∀ k q, Differentiable ℝ (tm k q)) (hm : ∀ mm, F.massMap = some mm → ∀ k q, Differentiable ℝ (mm k q))
    (hc : ∀ lv ∈ Fem.pairs F.cauchy, Differentiable ℝ lv.2) (R : (ℕ → Fin vec → ℝ) → ℕ → Fin vec → ℝ) (hR : ∀ s, F.computeResidual s = .ok (R s))
    (u : ℕ → ℝ) (nw : Newton ℝ) (h : (F.toProb groups).newton u = .ok nw) (v : ℕ → ℝ) (d : ℕ) :
    linearFn u ((F.toProb groups).applyBc realArith (flattenFn vec R)) v d = (F.toProb groups).getAFn realArith false nw v d := by
  obtain ⟨R', h1, h2⟩ := C20_fem F groups hwf ht hm hc u nw h
  have hRR : R' = flattenFn vec R := by
    funext w
    obtain ⟨nw', h3, h4⟩ := h1 w
    rw [← h4]
    obtain ⟨I, J, V, hw⟩ := (C14_same_residual F _ _).mp (hR fun n i => w (vec * n + i))
    simp only [Fem.toProb] at h3
    rw [hw] at h3
    cases hneu : F.neumannIntegral with
    | error e => rw [hneu] at h3; cases h3
    | ok neu =>
      rw [hneu] at h3
      injection h3 with h3
      subst h3
      rfl
  rw [hRR] at h2
  exact (h2 v d).deriv

/-- **C95 (difference quotient, exact case).** On functions that are affine along the line the JFNK operator and the exact one agree. -/
theorem C95_jfnk_affine (dofs inc : ℕ → ℝ) (fn : (ℕ → ℝ) → ℕ → ℝ) (d : ℕ) (a : ℝ) (h : ∀ t : ℝ, fn (dofs + t • inc) d = fn dofs d + t * a) :
    linearFnJFNK dofs fn inc d = a ∧ linearFn dofs fn inc d = a := by
  constructor
  · unfold linearFnJFNK
    rw [h]
    field_simp
    ring
  · unfold linearFn
    simp only [h]
    refine HasDerivAt.deriv ?_
    simpa using ((hasDerivAt_id (0 : ℝ)).mul_const a).const_add (fn dofs d)

/-- **C95 (difference quotient, error bound).** If along the line the function has a derivative which is Lipschitz with constant `M` (for instance a second derivative bounded by `M`), the JFNK operator differs from the exact
one by at most `5e-4 * M`. -/
theorem C95_jfnk_error (dofs inc : ℕ → ℝ) (fn : (ℕ → ℝ) → ℕ → ℝ) (d : ℕ) (g' : ℝ → ℝ) (M : ℝ) (hd : ∀ t : ℝ, HasDerivAt (fun t : ℝ => fn (dofs + t • inc) d) (g' t) t)
    (hM : ∀ t ∈ Set.Icc (0 : ℝ) 1e-3, |g' t - g' 0| ≤ M * t) :
    |linearFnJFNK dofs fn inc d - linearFn dofs fn inc d| ≤ 5e-4 * M := by
  set g : ℝ → ℝ := fun t => fn (dofs + t • inc) d with hg
  have h0 : linearFn dofs fn inc d = g' 0 := (hd 0).deriv
  have hg0 : g 0 = fn dofs d := by simp [hg]
  have hJ : linearFnJFNK dofs fn inc d = (g 1e-3 - g 0) / 1e-3 := by rw [hg0]; rfl
  have key : ∀ s : ℝ, (s = 1 ∨ s = -1) → s * (g 1e-3 - g 0 - 1e-3 * g' 0) ≤ M / 2 * (1e-3) ^ 2 := by
    intro s hs
    set φ : ℝ → ℝ := fun t => s * (g t - t * g' 0) - M / 2 * t ^ 2 with hφ
    have hφd : ∀ t, HasDerivAt φ (s * (g' t - g' 0) - M * t) t := by
      intro t
      have h1 : HasDerivAt (fun t => g t - t * g' 0) (g' t - 1 * g' 0) t := (hd t).sub ((hasDerivAt_id t).mul_const _)
      have h2 := (h1.const_mul s).sub (((hasDerivAt_id t).pow 2).const_mul (M / 2))
      refine h2.congr_deriv ?_
      simp
      ring
    have hanti : AntitoneOn φ (Set.Icc (0 : ℝ) 1e-3) := by
      refine antitoneOn_of_deriv_nonpos (convex_Icc _ _) (fun t _ => (hφd t).continuousAt.continuousWithinAt) (fun t _ => (hφd t).differentiableAt.differentiableWithinAt) fun t ht => ?_
      rw [interior_Icc] at ht
      rw [(hφd t).deriv]
      have h1 := abs_le.mp (hM t ⟨ht.1.le, ht.2.le⟩)
      rcases hs with rfl | rfl <;> linarith [h1.1, h1.2]
    have h1 := hanti (Set.left_mem_Icc.mpr (by norm_num)) (Set.right_mem_Icc.mpr (by norm_num)) (by norm_num : (0 : ℝ) ≤ 1e-3)
    have h2 : φ 0 = s * g 0 := by simp [hφ]
    rw [h2] at h1
    have h3 : φ 1e-3 = s * (g 1e-3 - 1e-3 * g' 0) - M / 2 * (1e-3) ^ 2 := rfl
    rw [h3] at h1
    have : s * (g 1e-3 - g 0 - 1e-3 * g' 0) = s * (g 1e-3 - 1e-3 * g' 0) - s * g 0 := by ring
    rw [this]
    linarith
  rw [hJ, h0]
  have k1 := key 1 (Or.inl rfl)
  have k2 := key (-1) (Or.inr rfl)
  have hq : (g 1e-3 - g 0) / 1e-3 - g' 0 = (g 1e-3 - g 0 - 1e-3 * g' 0) * 1000 := by
    ring
  rw [hq, abs_le]
  constructor <;> nlinarith

theorem linear_sum (op : (ℕ → ℝ) → ℕ → ℝ) (hadd : ∀ x y r, op (x + y) r = op x r + op y r) (hsmul : ∀ (a : ℝ) x r, op (a • x) r = a * op x r) (x : ℕ → ℝ) (r : ℕ) :
    ∀ n, op (fun d => if d < n then x d else 0) r = ∑ c ∈ range n, op (Pi.single c 1) r * x c
  | 0 => by
    have := hsmul 0 0 r
    simp only [zero_smul, zero_mul] at this
    simp only [Nat.not_lt_zero, if_false, range_zero, sum_empty]
    exact this
  | n + 1 => by
    rw [sum_range_succ, ← linear_sum op hadd hsmul x r n, mul_comm, ← hsmul, ← hadd]
    congr 1
    funext d
    simp only [Pi.add_apply, Pi.smul_apply, smul_eq_mul, Pi.single_apply]
    by_cases h1 : d < n
    · rw [if_pos (by omega), if_pos h1, if_neg (by omega)]; ring
    · by_cases h2 : d = n
      · rw [if_pos (by omega), if_neg h1, if_pos h2, h2]; ring
      · rw [if_neg (by omega), if_neg h1, if_neg h2]; ring

/-- **C95 (matrix of a linear operator).** The matrix returned by `operator_to_matrix` represents the operator: for every vector with `n` entries the product is the value of the operator. -/
theorem C95_matrix (op : (ℕ → ℝ) → ℕ → ℝ) (hadd : ∀ x y r, op (x + y) r = op x r + op y r) (hsmul : ∀ (a : ℝ) x r, op (a • x) r = a * op x r) (n : ℕ) (x : ℕ → ℝ) (hx : ∀ d, n ≤ d → x d = 0) (r : ℕ) :
    ∑ c ∈ range n, operatorToMatrix op r c * x c = op x r := by
  have hcol : ∀ c, operatorToMatrix op r c = op (Pi.single c 1) r := by
    intro c
    unfold operatorToMatrix
    simp only [zero_add, hsmul]
    refine HasDerivAt.deriv ?_
    simpa using (hasDerivAt_id (0 : ℝ)).mul_const (op (Pi.single c 1) r)
  simp only [hcol]
  rw [← linear_sum op hadd hsmul x r n]
  congr 1
  funext d
  by_cases h : d < n
  · rw [if_pos h]
  · rw [if_neg h, hx d (by omega)]

/-- **C95 (same matrix as PETSc).** For the operator of `get_A_fn`, `operator_to_matrix` returns the matrix that `assembleCSR` and the PETSc path build by zeroing rows. -/
theorem C95_same_matrix (P : Prob ℝ E) (h : P.WF) (dofs : ℕ → ℝ) (nw : Newton ℝ) (hnw : P.newton dofs = .ok nw) (hJ : ∀ j ∈ nw.J, j < P.numDofs) :
    ∃ M, P.assembleCSR dofs = .ok M ∧ ∀ r < P.numDofs, ∀ c < P.numDofs, operatorToMatrix (P.getAFn realArith false nw) r c = M r c := by
  refine ⟨P.petscMatrix realArith nw.I nw.J nw.V, by simp only [Prob.assembleCSR, hnw], fun r hr c hc => ?_⟩
  unfold operatorToMatrix
  have hval : ∀ t : ℝ, P.getAFn realArith false nw (0 + t • Pi.single c 1) r = t * P.petscMatrix realArith nw.I nw.J nw.V r c := by
    intro t
    rw [← C20_petsc_eq_jax P h nw hJ _ r hr]
    show Prob.denseMul realArith P.numDofs (P.petscMatrix realArith nw.I nw.J nw.V) _ r = _
    rw [denseMul_real, sum_eq_single c]
    · simp
      ring
    · intro b _ hb
      simp [hb]
    · intro hnot
      exact absurd (mem_range.mpr hc) hnot
  simp only [hval]
  refine HasDerivAt.deriv ?_
  simpa using (hasDerivAt_id (0 : ℝ)).mul_const (P.petscMatrix realArith nw.I nw.J nw.V r c)

/-- **C95 (preconditioner).** `test_jacobi_precond` logs equal numbers for every index, with ratio one where the diagonal does not vanish; there the preconditioner inverts the operator on unit vectors up to the
off-diagonal part, and at every prescribed degree of freedom it is the identity. -/
theorem C95_precond (P : Prob ℝ E) (h : P.WF) (nw : Newton ℝ) (ind : ℕ) :
    (testJacobi (P.jacobi realArith nw) (P.getAFn realArith false nw) ind).1 = (testJacobi (P.jacobi realArith nw) (P.getAFn realArith false nw) ind).2.1 ∧
    (P.jacobi realArith nw ind ≠ 0 → (testJacobi (P.jacobi realArith nw) (P.getAFn realArith false nw) ind).2.2 = 1 ∧
      jacobiPrecond (P.jacobi realArith nw) (P.getAFn realArith false nw (Pi.single ind 1)) ind = 1) ∧
    ∀ v, LastAt P.prescriptions ind v → ∀ x, jacobiPrecond (P.jacobi realArith nw) x ind = x ind := by
  have hu : (Function.update (fun _ => (0 : ℝ)) ind 1 : ℕ → ℝ) = Pi.single ind 1 := rfl
  have hj := C20_jacobi P h nw ind
  refine ⟨?_, fun hne => ⟨?_, ?_⟩, fun v hv x => ?_⟩
  · show P.getAFn realArith false nw (Function.update (fun _ => 0) ind 1) ind = P.jacobi realArith nw ind
    rw [hu, hj]
  · show P.getAFn realArith false nw (Function.update (fun _ => 0) ind 1) ind / P.jacobi realArith nw ind = 1
    rw [hu, ← hj, div_self hne]
  · unfold jacobiPrecond
    rw [← hj, mul_one_div, div_self hne]
  · unfold jacobiPrecond
    have : P.jacobi realArith nw ind = 1 := by
      rw [Prob.jacobi, P.assignOnesBc_eq realArith h, (lastVal_some _ _ _).mpr hv]
      rfl
    rw [this]
    ring

/-- The square function: the JFNK operator at `u = 3` in direction `1` returns `6.001`, the exact one `6`. -/
example : linearFnJFNK (fun _ => 3) (fun x d => x d ^ 2) (fun _ => 1) 0 = 6.001 ∧ linearFn (fun _ => 3) (fun x d => x d ^ 2) (fun _ => 1) 0 = 6 := by
  constructor
  · simp [linearFnJFNK]
    norm_num
  · unfold linearFn
    refine HasDerivAt.deriv ?_
    have := (((hasDerivAt_id (0 : ℝ)).mul_const 1).const_add 3).pow 2
    refine (this.congr_deriv ?_)
    simp
    norm_num

/-- Its error is within the bound with `M = 2`. -/
example : |linearFnJFNK (fun _ => 3) (fun x d => x d ^ 2) (fun _ => 1) 0 - linearFn (fun _ => 3) (fun x d => x d ^ 2) (fun _ => 1) 0| ≤ 5e-4 * 2 := by
  refine C95_jfnk_error _ _ _ 0 (fun t => 2 * (3 + t)) 2 (fun t => ?_) (fun t ht => ?_)
  · have := (((hasDerivAt_id t).mul_const 1).const_add 3).pow 2
    refine (this.congr_deriv ?_)
    simp
  · have : 2 * (3 + t) - 2 * (3 + 0) = 2 * t := by ring
    rw [this, abs_of_nonneg (by linarith [ht.1])]

end Verif.Fem
