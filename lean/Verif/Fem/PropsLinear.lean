import Verif.Fem.PropsUnique
import Verif.Fem.PropsTangent
import Verif.Fem.SolverProps
import Mathlib.Analysis.Calculus.MeanValue
import Mathlib.Analysis.Calculus.FDeriv.Add
import Mathlib.LinearAlgebra.FiniteDimensional.Lemmas

/-!
# C87: linear problems, from the assembly to the solution returned by the solver
-/
namespace Verif.Fem
open Finset

variable {nn nq nf nfq dim vec : ℕ}

/-- Specification: a smooth map which is affine (linear plus constant). -/
def Affine {V W : Type*} [NormedAddCommGroup V] [NormedSpace ℝ V] [NormedAddCommGroup W] [NormedSpace ℝ W] (f : V → W) : Prop :=
  Differentiable ℝ f ∧ ∀ x y, f (x + y) + f 0 = f x + f y

/-- Specification: all maps of the problem are affine. -/
structure Fem.Linear (F : Fem nn nq nf nfq dim vec) : Prop where
  tensor : ∀ tm, F.tensorMap = some tm → ∀ k q, Affine (tm k q)
  mass : ∀ mm, F.massMap = some mm → ∀ k q, Affine (mm k q)
  cauchy : ∀ lv ∈ Fem.pairs F.cauchy, Affine lv.2

theorem fderiv_affine {V W : Type*} [NormedAddCommGroup V] [NormedSpace ℝ V] [NormedAddCommGroup W] [NormedSpace ℝ W] (f : V → W) (h : ∀ x y, f (x + y) + f 0 = f x + f y) (x : V) :
    fderiv ℝ f x = fderiv ℝ f 0 := by
  have h1 : (fun y => f (x + y)) = fun y => f y + (f x - f 0) := by
    funext y
    have := h x y
    rw [eq_sub_of_add_eq this]
    abel
  have h2 := fderiv_comp_add_left (𝕜 := ℝ) (f := f) (x := (0 : V)) x
  rw [h1, fderiv_add_const, add_zero] at h2
  exact h2.symm

theorem kernel_affine (F : Fem nn nq nf nfq dim vec) (hF : F.Linear) (r : Fem.CellRow nn nq dim vec) (x y : Fin nn → Fin vec → ℝ) :
    F.kernel r (x + y) + F.kernel r 0 = F.kernel r x + F.kernel r y := by
  funext n i
  have h1 : ∀ tm, F.tensorMap = some tm → Fem.laplaceKernel (tm r.lvar) (x + y) r.grads r.vg n i + Fem.laplaceKernel (tm r.lvar) 0 r.grads r.vg n i
      = Fem.laplaceKernel (tm r.lvar) x r.grads r.vg n i + Fem.laplaceKernel (tm r.lvar) y r.grads r.vg n i := by
    intro tm ht
    simp only [Fem.laplaceKernel, ← sum_add_distrib, ← add_mul]
    refine sum_congr rfl fun q _ => sum_congr rfl fun d _ => ?_
    have := congrFun (congrFun ((hF.tensor tm ht r.lvar q).2 (fun i' d' => ∑ n', x n' i' * r.grads q n' d') fun i' d' => ∑ n', y n' i' * r.grads q n' d') i) d
    simp only [Pi.add_apply] at this
    rw [← this]
    congr 2
    · congr 3
      funext i' d'
      simp [add_mul, sum_add_distrib]
    · congr 3
      funext i' d'
      simp
  have h2 : ∀ mm, F.massMap = some mm → Fem.massKernel F.shapeVals (mm r.mvar) (x + y) r.jxw n i + Fem.massKernel F.shapeVals (mm r.mvar) 0 r.jxw n i
      = Fem.massKernel F.shapeVals (mm r.mvar) x r.jxw n i + Fem.massKernel F.shapeVals (mm r.mvar) y r.jxw n i := by
    intro mm ht
    simp only [Fem.massKernel, ← sum_add_distrib, ← add_mul]
    refine sum_congr rfl fun q _ => ?_
    have := congrFun ((hF.mass mm ht r.mvar q).2 (fun i' => ∑ n', x n' i' * F.shapeVals q n') fun i' => ∑ n', y n' i' * F.shapeVals q n') i
    simp only [Pi.add_apply] at this
    rw [← this]
    congr 3
    · congr 2
      funext i'
      simp [add_mul, sum_add_distrib]
    · congr 2
      funext i'
      simp
  simp only [Pi.add_apply, Fem.kernel]
  cases ht : F.tensorMap with
  | none =>
    cases hm : F.massMap with
    | none => simp
    | some mm =>
      simp only [zero_add]
      exact h2 mm hm
  | some tm =>
    cases hm : F.massMap with
    | none =>
      simp only [add_zero]
      exact h1 tm ht
    | some mm =>
      have := h1 tm ht
      have := h2 mm hm
      dsimp only
      linarith

theorem faceKernel_affine (cm : (Fin vec → ℝ) → Fin vec → ℝ) (h : Affine cm) (r : Fem.FaceRow nn nfq) (x y : Fin nn → Fin vec → ℝ) :
    Fem.faceKernel cm r (x + y) + Fem.faceKernel cm r 0 = Fem.faceKernel cm r x + Fem.faceKernel cm r y := by
  funext n i
  simp only [Pi.add_apply, Fem.faceKernel, Fem.cauchyKernel, ← sum_add_distrib, ← add_mul]
  refine sum_congr rfl fun q _ => ?_
  have := congrFun (h.2 (fun i' => ∑ n', x n' i' * r.fsv q n') fun i' => ∑ n', y n' i' * r.fsv q n') i
  simp only [Pi.add_apply] at this
  rw [← this]
  congr 3
  · congr 2
    funext i'
    simp [add_mul, sum_add_distrib]
  · congr 2
    funext i'
    simp

theorem jacOf_affine (f : (Fin nn → Fin vec → ℝ) → Fin nn → Fin vec → ℝ) (h : ∀ x y, f (x + y) + f 0 = f x + f y) (x : Fin nn → Fin vec → ℝ) : jacOf f x = jacOf f 0 := by
  funext n i n' i'
  simp only [jacOf, fderiv_affine f h x]

theorem cooJ_mem (cells : List (Fin nn → ℕ)) (N : ℕ) (h : ∀ c ∈ cells, ∀ a, c a < N) : ∀ j ∈ Fem.cooJ vec cells, j < N * vec := by
  intro j hj
  unfold Fem.cooJ at hj
  obtain ⟨c, hc, hj⟩ := List.mem_flatMap.mp hj
  rw [cooJ_block] at hj
  obtain ⟨p, -, hj⟩ := List.mem_flatMap.mp hj
  obtain ⟨p', -, rfl⟩ := List.mem_map.mp hj
  have h1 := h c hc p'.1
  have h2 := p'.2.isLt
  calc vec * c p'.1 + p'.2 < vec * c p'.1 + vec := by omega
    _ = vec * (c p'.1 + 1) := by ring
    _ ≤ vec * N := Nat.mul_le_mul_left _ h1
    _ = N * vec := mul_comm _ _

/-- **C87 (assembly of a linear problem).** If all maps are affine and the residual can be computed at all, then `newton_update` returns at every state, always the same triplets, and the residual
is the product of the assembled matrix with the state minus a constant vector. -/
theorem C87_affine [NeZero vec] (F : Fem nn nq nf nfq dim vec) (hF : F.Linear) (groups : List (Group ℝ)) (hmesh : ∀ c ∈ F.cells, ∀ a, c a < F.numTotal) (h0 : ∃ s R, F.computeResidual s = .ok R) :
    ∃ (I J : List ℕ) (V : List ℝ) (f load : ℕ → ℝ), (∀ j ∈ J, j < F.numTotal * vec) ∧
      (∀ u, (F.toProb groups).newton u = .ok ⟨fun d => cooMul I J V u d - f d, I, J, V, load⟩) ∧
      ∀ u, ∃ R, F.computeResidual (fun n i => u (vec * n + i)) = .ok R ∧ ∀ n (i : Fin vec), R n i = cooMul I J V u (vec * n + i) - f (vec * n + i) := by
  have hpos : 0 < vec := Nat.pos_of_ne_zero (NeZero.ne vec)
  obtain ⟨s0, R0, hs0⟩ := h0
  obtain ⟨hr, hc, hn, -⟩ := (computeResidual_ok_iff F s0 R0).mp hs0
  have hres : ∀ s, F.computeResidual s = .ok (fun n i => F.cellSum s n i + F.faceSum s n i - F.bodySum n i - F.neumannSum n i) := fun s => (computeResidual_ok_iff F s _).mpr ⟨hr, hc, hn, rfl⟩
  set Rf : (ℕ → Fin vec → ℝ) → ℕ → Fin vec → ℝ := fun s n i => F.cellSum s n i + F.faceSum s n i - F.bodySum n i - F.neumannSum n i with hRf
  set I := Fem.cooI vec F.cells ++ Fem.cooI vec ((Fem.pairs F.cauchy).flatMap fun lv => (F.selected lv.1).map Prod.fst) with hI
  set J := Fem.cooJ vec F.cells ++ Fem.cooJ vec ((Fem.pairs F.cauchy).flatMap fun lv => (F.selected lv.1).map Prod.fst) with hJ
  set V := Fem.cooV (F.cellJacs 0) ++ Fem.cooV ((Fem.pairs F.cauchy).flatMap fun lv => (F.selected lv.1).map fun p =>
        jacOf (Fem.faceKernel lv.2 (F.rowOf p)) fun n => (0 : ℕ → Fin vec → ℝ) (p.1 n)) with hV
  have hnew : ∀ s, F.newtonUpdate s = .ok (Rf s, I, J, V) := by
    intro s
    refine (newtonUpdate_ok_iff F s _ I J V).mpr ⟨hres s, rfl, rfl, ?_⟩
    rw [hV]
    congr 2
    · unfold Fem.cellJacs
      refine List.map_congr_left fun p _ => ?_
      have e : F.kernel (F.cellRow p.2 p.1 0) = F.kernel (F.cellRow p.2 p.1 s) := rfl
      rw [jacOf_affine _ (kernel_affine F hF _) fun n => s (p.1 n), e]
      rfl
    · refine List.flatMap_congr fun lv hlv => List.map_congr_left fun p _ => ?_
      rw [jacOf_affine _ (faceKernel_affine lv.2 (hF.cauchy lv hlv) _) fun n => s (p.1 n)]
      rfl
  have hder : ∀ (s v : ℕ → Fin vec → ℝ) (x : ℕ → ℝ), (∀ m (j : Fin vec), x (vec * m + j) = v m j) → ∀ n (i : Fin vec),
      HasDerivAt (fun t : ℝ => Rf (s + t • v) n i) (cooMul I J V x (vec * n + i)) 0 := by
    intro s v x hx n i
    obtain ⟨Rg, h1, -, h3⟩ := C14_tangent_smooth F (fun tm h k q => (hF.tensor tm h k q).1) (fun mm h k q => (hF.mass mm h k q).1) (fun lv h => (hF.cauchy lv h).1) s _ I J V (hnew s)
    have : Rg = Rf := by
      funext s'
      have := (h1 s').symm.trans (hres s')
      injection this
    rw [this] at h3
    exact h3 v x hx n i
  have haff : ∀ (v : ℕ → Fin vec → ℝ) (x : ℕ → ℝ), (∀ m (j : Fin vec), x (vec * m + j) = v m j) → ∀ n (i : Fin vec), Rf v n i = cooMul I J V x (vec * n + i) + Rf 0 n i := by
    intro v x hx n i
    have hd : ∀ t : ℝ, HasDerivAt (fun t : ℝ => Rf (t • v) n i - t * cooMul I J V x (vec * n + i)) 0 t := by
      intro t
      have h1 := hder (t • v) v x hx n i
      have h2 : HasDerivAt (fun r : ℝ => Rf (r • v) n i) (cooMul I J V x (vec * n + i)) t := by
        have h3 : HasDerivAt (fun r : ℝ => r - t) 1 t := by simpa using (hasDerivAt_id t).sub_const t
        have h4 := HasDerivAt.scomp (h := fun r : ℝ => r - t) t (by simpa using h1) h3
        have h5 : ((fun r : ℝ => Rf (t • v + r • v) n i) ∘ fun r => r - t) = fun r => Rf (r • v) n i := by
          funext r
          simp only [Function.comp]
          congr 2
          rw [← add_smul]
          congr 1
          ring
        rw [h5] at h4
        simpa using h4
      have h6 := h2.fun_sub ((hasDerivAt_id t).mul_const (cooMul I J V x (vec * n + i)))
      rw [one_mul, sub_self] at h6
      exact h6
    have hconst := is_const_of_deriv_eq_zero (fun t => (hd t).differentiableAt) (fun t => (hd t).deriv) 1 0
    simp at hconst
    linarith
  have hneu := (neumannIntegral_ok_iff F _).mpr ⟨hn, rfl⟩
  have hflat : ∀ d : ℕ, vec * (d / vec) + (Fin.ofNat vec d : ℕ) = d := fun d => Nat.div_add_mod d vec
  refine ⟨I, J, V, fun d => -Rf 0 (d / vec) (Fin.ofNat vec d),
    fun d => ((match F.bodyVar with
      | none => F.bodyForceFn
      | some (s, mm) => F.bodyForceSol s mm) + F.neumannSum) (d / vec) (Fin.ofNat vec d), ?_, fun u => ?_, fun u => ⟨_, hres _, fun n i => ?_⟩⟩
  · intro j hj
    rcases List.mem_append.mp hj with hj | hj
    · exact cooJ_mem _ _ hmesh j hj
    · refine cooJ_mem _ _ (fun c hc => ?_) j hj
      obtain ⟨lv, -, hc⟩ := List.mem_flatMap.mp hc
      obtain ⟨p, hp, rfl⟩ := List.mem_map.mp hc
      exact hmesh _ (selected_mem F hp)
  · simp only [Fem.toProb]
    rw [hnew, hneu]
    show Except.ok _ = _
    congr 1
    congr 1
    funext d
    have := haff (fun n i => u (vec * n + i)) u (fun _ _ => rfl) (d / vec) (Fin.ofNat vec d)
    rw [hflat] at this
    show Rf (fun n i => u (vec * n + i)) (d / vec) (Fin.ofNat vec d) = _
    rw [this]
    ring
  · have h1 : (vec * n + i) / vec = n := by rw [Nat.mul_add_div hpos, Nat.div_eq_of_lt i.isLt, add_zero]
    have h2 : Fin.ofNat vec (vec * n + i) = i := Fin.ext (by simp [Fin.ofNat, Nat.mul_add_mod, Nat.mod_eq_of_lt i.isLt])
    show Rf (fun n i => u (vec * n + i)) n i = cooMul I J V u (vec * n + i) - -Rf 0 ((vec * n + i) / vec) (Fin.ofNat vec (vec * n + i))
    have := haff (fun n i => u (vec * n + i)) u (fun _ _ => rfl) n i
    rw [h1, h2, this]
    ring

/-- Specification: the field `s` meets the last prescribed values and has zero residual at all free degrees of freedom. -/
def Fem.Solves (F : Fem nn nq nf nfq dim vec) (pres : List (ℕ × ℝ)) (s : ℕ → Fin vec → ℝ) : Prop :=
  ∃ R, F.computeResidual s = .ok R ∧ ∀ n < F.numTotal, ∀ i : Fin vec, (∀ v, LastAt pres (vec * n + i) v → s n i = v) ∧ (FreeAt pres (vec * n + i) → R n i = 0)

/-- Specification: the linear solver returns exact solutions of all systems whose operator is the tangent operator of `P` at some state. -/
def Prob.ExactFor {E : Type} (P : Prob ℝ E) (usePetsc : Bool) (lin : ℕ → LinCall ℝ → ℕ → ℝ) : Prop :=
  ∀ k (call : LinCall ℝ), (∃ u nw, P.newton u = .ok nw ∧ call.op = P.getAFn realArith usePetsc nw) → ∀ d < P.numDofs, call.op (lin k call) d = call.b d

/-- Specification: two fields with the same values at all prescribed degrees of freedom and the same residual at all free ones are equal. -/
def Fem.Determined (F : Fem nn nq nf nfq dim vec) (pres : List (ℕ × ℝ)) : Prop :=
  ∀ u v Ru Rv : ℕ → Fin vec → ℝ, F.computeResidual u = .ok Ru → F.computeResidual v = .ok Rv →
    (∀ n < F.numTotal, ∀ i : Fin vec, ¬ FreeAt pres (vec * n + i) → u n i = v n i) → (∀ n < F.numTotal, ∀ i : Fin vec, FreeAt pres (vec * n + i) → Ru n i = Rv n i) →
    ∀ n < F.numTotal, ∀ i, u n i = v n i

theorem dof_exists [NeZero vec] (N d : ℕ) (hd : d < N * vec) : ∃ n < N, ∃ i : Fin vec, d = vec * n + i := by
  have hpos : 0 < vec := Nat.pos_of_ne_zero (NeZero.ne vec)
  refine ⟨d / vec, Nat.div_lt_of_lt_mul (by rwa [mul_comm]), ⟨d % vec, Nat.mod_lt _ hpos⟩, (Nat.div_add_mod d vec).symm⟩

theorem dof_lt (N n : ℕ) (hn : n < N) (i : Fin vec) : vec * n + i < N * vec := by
  have h2 := i.isLt
  calc vec * n + i < vec * n + vec := by omega
    _ = vec * (n + 1) := by ring
    _ ≤ vec * N := Nat.mul_le_mul_left _ hn
    _ = N * vec := mul_comm _ _

/-- The tangent operator of a linear determined problem is onto. -/
theorem operator_surjective [NeZero vec] (F : Fem nn nq nf nfq dim vec) (groups : List (Group ℝ)) (hwf : (F.toProb groups).WF) (hdet : F.Determined (F.toProb groups).prescriptions)
    (I J : List ℕ) (V : List ℝ) (f : ℕ → ℝ) (hJ : ∀ j ∈ J, j < F.numTotal * vec)
    (hres : ∀ u : ℕ → ℝ, ∃ R, F.computeResidual (fun n i => u (vec * n + i)) = .ok R ∧ ∀ n (i : Fin vec), R n i = cooMul I J V u (vec * n + i) - f (vec * n + i)) (b : ℕ → ℝ) :
    ∃ x : ℕ → ℝ, ∀ (res load : ℕ → ℝ) (usePetsc : Bool), ∀ d < (F.toProb groups).numDofs, (F.toProb groups).getAFn realArith usePetsc ⟨res, I, J, V, load⟩ x d = b d := by
  set P := F.toProb groups with hP
  set N := P.numDofs with hN
  let ext : (Fin N → ℝ) → ℕ → ℝ := fun x d => if h : d < N then x ⟨d, h⟩ else 0
  have hext : ∀ (a b : ℝ) (x y : Fin N → ℝ), ext (a • x + b • y) = fun d => a * ext x d + b * ext y d := by
    intro a b x y
    funext d
    simp only [ext]
    split_ifs <;> simp
  let op : (ℕ → ℝ) → ℕ → ℝ := fun x d => match lastVal P.prescriptions d with
    | some _ => x d
    | none => cooMul I J V x d
  have hop : ∀ (res load : ℕ → ℝ) (up : Bool) (x : ℕ → ℝ), ∀ d < N, P.getAFn realArith up ⟨res, I, J, V, load⟩ x d = op x d := by
    intro res load up x d hd
    have h1 : P.getAFn realArith false ⟨res, I, J, V, load⟩ x d = op x d := by
      have hA : P.getAFn realArith false ⟨res, I, J, V, load⟩ x d = _ := P.rowElimination_eq hwf (Prob.spMul realArith I J V) x d
      rw [hA]
      simp only [op, spMul_real]
      cases lastVal P.prescriptions d <;> rfl
    cases up with
    | false => exact h1
    | true => rw [C20_petsc_eq_jax P hwf _ hJ x d hd, h1]
  let T : (Fin N → ℝ) →ₗ[ℝ] (Fin N → ℝ) :=
    { toFun := fun x d => op (ext x) d
      map_add' := by
        intro x y
        funext d
        have h1 := hext 1 1 x y
        simp only [one_smul, one_mul] at h1
        simp only [op, h1, Pi.add_apply]
        have h2 := cooMul_linear I J V (ext x) (ext y) 1 1 d
        simp only [one_mul] at h2
        cases lastVal P.prescriptions (d : ℕ) with
        | some _ => rfl
        | none => exact h2
      map_smul' := by
        intro a x
        funext d
        have h1 := hext a 0 x x
        simp only [zero_smul, add_zero, zero_mul] at h1
        simp only [op, h1, Pi.smul_apply, smul_eq_mul, RingHom.id_apply]
        have h2 := cooMul_linear I J V (ext x) (ext x) a 0 d
        simp only [zero_mul, add_zero] at h2
        cases lastVal P.prescriptions (d : ℕ) with
        | some _ => rfl
        | none => exact h2 }
  have hinj : Function.Injective T := by
    rw [← LinearMap.ker_eq_bot, LinearMap.ker_eq_bot']
    intro x hx
    have hx' : ∀ d < N, op (ext x) d = 0 := fun d hd => congrFun hx ⟨d, hd⟩
    obtain ⟨Ru, hu, hRu⟩ := hres (ext x)
    obtain ⟨Rv, hv, hRv⟩ := hres fun _ => 0
    have hz := hdet _ _ Ru Rv hu hv
      (fun n hn i hnf => by
        have h1 := hx' (vec * n + i) (dof_lt _ n hn i)
        rcases free_or_last P.prescriptions (vec * n + i) with hf | ⟨v, hl⟩
        · exact absurd hf hnf
        · simp only [op, (lastVal_some _ _ _).mpr hl] at h1
          exact h1)
      (fun n hn i hf => by
        have h1 := hx' (vec * n + i) (dof_lt _ n hn i)
        simp only [op, (lastVal_none _ _).mpr hf] at h1
        rw [hRu, hRv, h1]
        have h2 := cooMul_linear I J V (fun _ => 0) (fun _ => 0) 0 0 (vec * n + i)
        simp only [zero_mul, add_zero] at h2
        rw [h2])
    funext d
    obtain ⟨n, hn, i, hd⟩ := dof_exists (vec := vec) F.numTotal (d : ℕ) d.isLt
    have h3 := hz n hn i
    rw [← hd] at h3
    simpa [ext] using h3
  obtain ⟨x, hx⟩ := (LinearMap.injective_iff_surjective.mp hinj) fun d => b d
  refine ⟨ext x, fun res load up d hd => ?_⟩
  rw [hop res load up _ d hd]
  exact congrFun hx ⟨d, hd⟩

/-- **C87 (solution).** A linear, determined finite element problem with well-formed boundary conditions: an exact linear solver for its tangent operator exists, and with any such solver — JAX or
PETSc variant, with or without preconditioner — the linear branch of `solver` returns the one and only discrete solution. -/
theorem C87_solution [NeZero vec] (F : Fem nn nq nf nfq dim vec) (hF : F.Linear) (groups : List (Group ℝ)) (hwf : (F.toProb groups).WF) (hmesh : ∀ c ∈ F.cells, ∀ a, c a < F.numTotal)
    (h0 : ∃ s R, F.computeResidual s = .ok R) (hdet : F.Determined (F.toProb groups).prescriptions) (usePetsc : Bool) :
    (∃ lin, (F.toProb groups).ExactFor usePetsc lin) ∧
    ∀ lin, (F.toProb groups).ExactFor usePetsc lin → ∀ (precond : Bool) (guess : Option (ℕ → ℝ)) (fuel : ℕ),
      ∃ u, (F.toProb groups).rowSolver realArith lin true precond usePetsc guess fuel = .ok u ∧ F.Solves (F.toProb groups).prescriptions (fun n i => u (vec * n + i)) ∧
        ∀ s, F.Solves (F.toProb groups).prescriptions s → ∀ n < F.numTotal, ∀ i : Fin vec, u (vec * n + i) = s n i := by
  obtain ⟨I, J, V, f, load, hJ, hnew, hres⟩ := C87_affine F hF groups hmesh h0
  refine ⟨?_, fun lin hlin precond guess fuel => ?_⟩
  · choose x hx using fun b => operator_surjective F groups hwf hdet I J V f hJ hres b
    refine ⟨fun _ call => x call.b, ?_⟩
    rintro k call ⟨u, nw, hn, hop⟩ d hd
    rw [hnew u] at hn
    injection hn with hn
    subst hn
    rw [hop]
    exact hx call.b _ _ _ d hd
  · obtain ⟨u, h1, h2, h3⟩ := C21_linear (F.toProb groups) hwf I J V hJ f load hnew precond usePetsc guess fuel lin
      (fun k call hop d hd => hlin k call ⟨fun _ => 0, _, hnew _, by rw [hop]; rfl⟩ d hd)
    have hsol : F.Solves (F.toProb groups).prescriptions (fun n i => u (vec * n + i)) := by
      obtain ⟨R, hR, hRv⟩ := hres u
      refine ⟨R, hR, fun n hn i => ⟨fun v hv => h2 _ (dof_lt _ n hn i) v hv, fun hf => ?_⟩⟩
      rw [hRv, h3 _ (dof_lt _ n hn i) hf, sub_self]
    refine ⟨u, h1, hsol, ?_⟩
    rintro s ⟨Rs, hs, hsv⟩ n hn i
    obtain ⟨R, hR, hRv⟩ := hsol
    refine hdet _ s R Rs hR hs (fun n hn i hnf => ?_) (fun n hn i hf => ?_) n hn i
    · rcases free_or_last (F.toProb groups).prescriptions (vec * n + i) with hf | ⟨v, hl⟩
      · exact absurd hf hnf
      · exact ((hRv n hn i).1 v hl).trans ((hsv n hn i).1 v hl).symm
    · rw [(hRv n hn i).2 hf, (hsv n hn i).2 hf]

end Verif.Fem
