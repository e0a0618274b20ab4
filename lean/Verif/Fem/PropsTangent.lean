import Verif.Fem.Tangent
import Verif.Fem.PropsAssembly
import Mathlib.Analysis.Calculus.FDeriv.Comp
import Mathlib.Analysis.Calculus.FDeriv.Mul
import Mathlib.Analysis.Calculus.FDeriv.Pow
import Mathlib.Analysis.Calculus.Deriv.Pow

/-!
# C14: the assembled matrix is the derivative of the assembled residual
-/
namespace Verif.Fem
open Finset

variable {nn nq nf nfq dim vec : ℕ}

theorem cellValuesJac_rowsOk (F : Fem nn nq nf nfq dim vec) (sol : ℕ → Fin vec → ℝ) (w) (h : F.cellValuesJac sol = .ok w) : F.RowsOk := by
  unfold Fem.cellValuesJac splitComputeJac at h
  cases hb : splitBatches F.cells.length (fun r => (F.kernel r r.sol, jacOf (F.kernel r) r.sol)) (F.inputTree sol) with
  | error e => rw [hb] at h; cases h
  | ok res =>
    obtain ⟨h1, h2⟩ := splitBatches_sizes F.cells.length _ (F.inputTree sol) rfl res hb
    exact ⟨h1, h2 _ (by simp [Fem.inputTree]), h2 _ (by simp [Fem.inputTree])⟩

/-- The triplets of the volume part. -/
noncomputable def Fem.cellJacs (F : Fem nn nq nf nfq dim vec) (sol : ℕ → Fin vec → ℝ) : List (Fin nn → Fin vec → Fin nn → Fin vec → ℝ) :=
  F.cells.zipIdx.map fun p => jacOf (F.kernel (F.cellRow p.2 p.1 sol)) fun n => sol (p.1 n)

theorem newtonUpdate_ok_iff (F : Fem nn nq nf nfq dim vec) (sol R : ℕ → Fin vec → ℝ) (I J : List ℕ) (V : List ℝ) :
    F.newtonUpdate sol = .ok (R, I, J, V) ↔ F.computeResidual sol = .ok R ∧
      I = Fem.cooI vec F.cells ++ Fem.cooI vec ((Fem.pairs F.cauchy).flatMap fun lv => (F.selected lv.1).map Prod.fst) ∧
      J = Fem.cooJ vec F.cells ++ Fem.cooJ vec ((Fem.pairs F.cauchy).flatMap fun lv => (F.selected lv.1).map Prod.fst) ∧
      V = Fem.cooV (F.cellJacs sol) ++ Fem.cooV ((Fem.pairs F.cauchy).flatMap fun lv => (F.selected lv.1).map fun p =>
        jacOf (Fem.faceKernel lv.2 (F.rowOf p)) fun n => sol (p.1 n)) := by
  unfold Fem.newtonUpdate Fem.computeResidual
  cases hw : F.cellValuesJac sol with
  | error e =>
    constructor
    · intro h; cases h
    · rintro ⟨h, -⟩
      exfalso
      cases hv : F.cellValues sol with
      | error e' => rw [hv] at h; cases h
      | ok w =>
        rw [cellValuesJac_ok F (cellValues_rowsOk F sol w hv)] at hw
        cases hw
  | ok w =>
    have hr := cellValuesJac_rowsOk F sol w hw
    rw [cellValuesJac_ok F hr] at hw
    injection hw with hw
    subst hw
    rw [cellValues_ok F hr]
    show (do
      let ijv ← match F.cauchy with
        | none => pure (Fem.cooI vec F.cells, Fem.cooJ vec F.cells, Fem.cooV (F.cellJacs sol))
        | some _ => do
          let dc ← F.computeFace fun cm r => jacOf (Fem.faceKernel cm r) (fun n => sol (r.cell n))
          pure (Fem.cooI vec F.cells ++ Fem.cooI vec dc.2, Fem.cooJ vec F.cells ++ Fem.cooJ vec dc.2, Fem.cooV (F.cellJacs sol) ++ Fem.cooV dc.1)
      let res ← F.residualHelper sol (F.cells.zipIdx.map fun p => F.kernel (F.cellRow p.2 p.1 sol) fun n => sol (p.1 n))
      pure (res, ijv) : Except FemErr _) = .ok (R, I, J, V) ↔
      F.residualHelper sol (F.cells.zipIdx.map fun p => F.kernel (F.cellRow p.2 p.1 sol) fun n => sol (p.1 n)) = .ok R ∧ _
    have hnone : F.cauchy = none → ∀ {β γ : Type} (f : Loc dim × ((Fin vec → ℝ) → Fin vec → ℝ) → List β) (g : List β → List γ), g [] = [] → g ((Fem.pairs F.cauchy).flatMap f) = [] := by
      intro h β γ f g hg
      rw [h]
      exact hg
    cases hres : F.residualHelper sol (F.cells.zipIdx.map fun p => F.kernel (F.cellRow p.2 p.1 sol) fun n => sol (p.1 n)) with
    | error e =>
      constructor
      · intro h
        cases hc : F.cauchy with
        | none => rw [hc] at h; cases h
        | some lv =>
          rw [hc] at h
          dsimp only at h
          cases hf : F.computeFace fun cm r => jacOf (Fem.faceKernel cm r) (fun n => sol (r.cell n)) with
          | error e' => rw [hf] at h; cases h
          | ok dc => rw [hf] at h; cases h
      · rintro ⟨h, -⟩; cases h
    | ok res =>
      obtain ⟨hco, -, -⟩ := (residualHelper_ok_iff F sol res).mp hres
      cases hc : F.cauchy with
      | none =>
        show (Except.ok (res, Fem.cooI vec F.cells, Fem.cooJ vec F.cells, Fem.cooV (F.cellJacs sol)) : Except FemErr _) = .ok (R, I, J, V) ↔ (Except.ok res : Except FemErr _) = .ok R ∧
          I = Fem.cooI vec F.cells ++ [] ∧ J = Fem.cooJ vec F.cells ++ [] ∧ V = Fem.cooV (F.cellJacs sol) ++ []
        simp only [Except.ok.injEq, Prod.mk.injEq, List.append_nil]
        constructor
        · rintro ⟨h1, h2, h3, h4⟩; exact ⟨h1, h2.symm, h3.symm, h4.symm⟩
        · rintro ⟨h1, h2, h3, h4⟩; exact ⟨h1, h2.symm, h3.symm, h4.symm⟩
      | some lv =>
        obtain ⟨locs, vals⟩ := lv
        obtain ⟨h1, h2, h3⟩ := hco locs vals hc
        have hf := (computeFace_ok_iff F (fun cm r => jacOf (Fem.faceKernel cm r) (fun n => sol (r.cell n))) _).mpr ⟨locs, vals, hc, h1, h2, h3, rfl⟩
        dsimp only
        rw [hf]
        show (Except.ok (res, _, _, _) : Except FemErr _) = .ok (R, I, J, V) ↔ (Except.ok res : Except FemErr _) = .ok R ∧ _
        simp only [Except.ok.injEq, Prod.mk.injEq]
        constructor
        · rintro ⟨h1, h2, h3, h4⟩; exact ⟨h1, h2.symm, h3.symm, h4.symm⟩
        · rintro ⟨h1, h2, h3, h4⟩; exact ⟨h1, h2.symm, h3.symm, h4.symm⟩

/-- **C14 (agreement of the two evaluations).** `newton_update` returns exactly when `compute_residual` does, and with the same residual. -/
theorem C14_same_residual (F : Fem nn nq nf nfq dim vec) (sol R : ℕ → Fin vec → ℝ) :
    F.computeResidual sol = .ok R ↔ ∃ I J V, F.newtonUpdate sol = .ok (R, I, J, V) := by
  constructor
  · intro h
    exact ⟨_, _, _, (newtonUpdate_ok_iff F sol R _ _ _).mpr ⟨h, rfl, rfl, rfl⟩⟩
  · rintro ⟨I, J, V, h⟩
    exact ((newtonUpdate_ok_iff F sol R I J V).mp h).1

/-- **C14.** Let `newton_update` return the triplets `I, J, V`, and let the element kernels and the kernels of the selected Cauchy faces be differentiable at the current element values.
Then `compute_residual` returns at every solution, and the product of the triplet matrix with any direction `v` (numbered `vec * node + component`) is the directional derivative of
`compute_residual` at `sol`: duplicates, shared nodes and boundary faces included. -/
theorem C14_tangent (F : Fem nn nq nf nfq dim vec) (sol R : ℕ → Fin vec → ℝ) (I J : List ℕ) (V : List ℝ) (h : F.newtonUpdate sol = .ok (R, I, J, V))
    (hcell : ∀ k c, F.cells[k]? = some c → DifferentiableAt ℝ (F.kernel (F.cellRow k c sol)) fun n => sol (c n))
    (hface : ∀ lv ∈ Fem.pairs F.cauchy, ∀ p ∈ F.selected lv.1, DifferentiableAt ℝ (Fem.faceKernel lv.2 (F.rowOf p)) fun n => sol (p.1 n)) :
    ∃ Rf : (ℕ → Fin vec → ℝ) → ℕ → Fin vec → ℝ, (∀ s, F.computeResidual s = .ok (Rf s)) ∧ Rf sol = R ∧
      ∀ (v : ℕ → Fin vec → ℝ) (x : ℕ → ℝ), (∀ m (j : Fin vec), x (vec * m + j) = v m j) → ∀ n (i : Fin vec),
        HasDerivAt (fun t : ℝ => Rf (sol + t • v) n i) (cooMul I J V x (vec * n + i)) 0 := by
  obtain ⟨hres, rfl, rfl, rfl⟩ := (newtonUpdate_ok_iff F sol R I J V).mp h
  obtain ⟨hr, hc, hn, hR⟩ := (computeResidual_ok_iff F sol R).mp hres
  refine ⟨fun s n i => F.cellSum s n i + F.faceSum s n i - F.bodySum n i - F.neumannSum n i, fun s => (computeResidual_ok_iff F s _).mpr ⟨hr, hc, hn, rfl⟩, hR.symm, ?_⟩
  intro v x hx n i
  have hlen : F.cells.length = (F.cellJacs sol).length := by simp [Fem.cellJacs]
  rw [cooMul_append _ _ _ (by rw [cooI_length, cooV_length, hlen]) (by rw [cooJ_length, cooV_length, hlen]),
    cooMul_row _ _ hlen x v hx, cooMul_row _ _ (by simp [List.length_flatMap]) x v hx]
  refine HasDerivAt.sub_const (c := _) (HasDerivAt.sub_const (c := _) (HasDerivAt.add ?_ ?_))
  · rw [Fem.cellJacs, zip_zipIdx_map F.cells fun c k => jacOf (F.kernel (F.cellRow k c sol)) fun n => sol (c n), List.map_map]
    refine HasDerivAt.list_sum F.cells.zipIdx (fun p t => ∑ a, if p.1 a = n then F.kernel (F.cellRow p.2 p.1 (sol + t • v)) (fun n => (sol + t • v) (p.1 n)) a i else 0) _ 0 ?_
    intro p hp
    exact hasDerivAt_nodal p.1 n i (F.kernel (F.cellRow p.2 p.1 sol)) sol v (hcell p.2 p.1 (List.mem_zipIdx_iff_getElem?.mp (show (p.1, p.2) ∈ F.cells.zipIdx from hp)))
  · have hz := zip_flatMap_map (Fem.pairs F.cauchy) (fun lv => F.selected lv.1) (fun _ p => p.1) (fun lv p => jacOf (Fem.faceKernel lv.2 (F.rowOf p)) fun n => sol (p.1 n))
    refine HasDerivAt.congr_deriv (f' := ((Fem.pairs F.cauchy).map fun lv => ((F.selected lv.1).map fun p =>
        ∑ a, if p.1 a = n then ∑ n', ∑ i', jacOf (Fem.faceKernel lv.2 (F.rowOf p)) (fun n => sol (p.1 n)) a i n' i' * v (p.1 n') i' else 0).sum).sum) ?_ ?_
    · have hfs : ∀ s, F.faceSum s n i = ((Fem.pairs F.cauchy).map fun lv => ((F.selected lv.1).map fun p =>
          ∑ a, if p.1 a = n then Fem.faceKernel lv.2 (F.rowOf p) (fun n => s (p.1 n)) a i else 0).sum).sum := by
        intro s
        unfold Fem.faceSum
        cases F.cauchy with
        | none => rfl
        | some lv => rfl
      simp only [hfs]
      refine HasDerivAt.list_sum (Fem.pairs F.cauchy) (fun lv t => ((F.selected lv.1).map fun p =>
          ∑ a, if p.1 a = n then Fem.faceKernel lv.2 (F.rowOf p) (fun n => (sol + t • v) (p.1 n)) a i else 0).sum) _ 0 fun lv hlv => ?_
      refine HasDerivAt.list_sum (F.selected lv.1) (fun p t => ∑ a, if p.1 a = n then Fem.faceKernel lv.2 (F.rowOf p) (fun n => (sol + t • v) (p.1 n)) a i else 0) _ 0 fun p hp => ?_
      exact hasDerivAt_nodal p.1 n i _ sol v (hface lv hlv p hp)
    · refine Eq.trans ?_ (congrArg (fun l => (List.map (fun p : (Fin nn → ℕ) × (Fin nn → Fin vec → Fin nn → Fin vec → ℝ) =>
        ∑ a, if p.1 a = n then ∑ n', ∑ i', p.2 a i n' i' * v (p.1 n') i' else 0) l).sum) hz.symm)
      rw [sum_flatMap_map]
      simp only [List.map_map]
      rfl

/-- **C14 (kernels).** The element kernel is differentiable where the user's maps are: the tensor map at the gradient and the mass map at the value, at every quadrature point. -/
theorem C14_kernel_differentiable (F : Fem nn nq nf nfq dim vec) (k : ℕ) (c : Fin nn → ℕ) (sol : ℕ → Fin vec → ℝ)
    (ht : ∀ tm, F.tensorMap = some tm → ∀ q, DifferentiableAt ℝ (tm k q) (F.gradAt sol c q))
    (hm : ∀ mm, F.massMap = some mm → ∀ q, DifferentiableAt ℝ (mm k q) (F.uAt sol c q)) :
    DifferentiableAt ℝ (F.kernel (F.cellRow k c sol)) fun n => sol (c n) := by
  have hpi : ∀ n' i', DifferentiableAt ℝ (fun s : Fin nn → Fin vec → ℝ => s n' i') fun n => sol (c n) := fun n' i' => by fun_prop
  rw [differentiableAt_pi]
  intro n
  rw [differentiableAt_pi]
  intro i
  unfold Fem.kernel
  refine DifferentiableAt.add ?_ ?_
  · cases htm : F.tensorMap with
    | none => exact differentiableAt_const _
    | some tm =>
      refine DifferentiableAt.fun_sum fun q _ => DifferentiableAt.fun_sum fun d _ => DifferentiableAt.mul_const ?_ _
      have hg : DifferentiableAt ℝ (fun s : Fin nn → Fin vec → ℝ => fun i' d' => ∑ n', s n' i' * (F.cellRow k c sol).grads q n' d') fun n => sol (c n) := by
        rw [differentiableAt_pi]; intro i'
        rw [differentiableAt_pi]; intro d'
        exact DifferentiableAt.fun_sum fun n' _ => (hpi n' i').mul_const _
      have := (ht tm htm q).comp (fun n => sol (c n)) hg
      exact differentiableAt_pi.mp (differentiableAt_pi.mp this i) d
  · cases hmm : F.massMap with
    | none => exact differentiableAt_const _
    | some mm =>
      refine DifferentiableAt.fun_sum fun q _ => DifferentiableAt.mul_const (DifferentiableAt.mul_const ?_ _) _
      have hg : DifferentiableAt ℝ (fun s : Fin nn → Fin vec → ℝ => fun i' => ∑ n', s n' i' * F.shapeVals q n') fun n => sol (c n) := by
        rw [differentiableAt_pi]; intro i'
        exact DifferentiableAt.fun_sum fun n' _ => (hpi n' i').mul_const _
      have := (hm mm hmm q).comp (fun n => sol (c n)) hg
      exact differentiableAt_pi.mp this i

/-- **C14 (face kernels).** Likewise for a Cauchy face. -/
theorem C14_face_differentiable (F : Fem nn nq nf nfq dim vec) (cm : (Fin vec → ℝ) → Fin vec → ℝ) (p : (Fin nn → ℕ) × Fin nf) (sol : ℕ → Fin vec → ℝ)
    (h : ∀ q, DifferentiableAt ℝ cm (F.uFace sol p q)) : DifferentiableAt ℝ (Fem.faceKernel cm (F.rowOf p)) fun n => sol (p.1 n) := by
  have hpi : ∀ n' i', DifferentiableAt ℝ (fun s : Fin nn → Fin vec → ℝ => s n' i') fun n => sol (p.1 n) := fun n' i' => by fun_prop
  rw [differentiableAt_pi]
  intro n
  rw [differentiableAt_pi]
  intro i
  unfold Fem.faceKernel Fem.cauchyKernel
  refine DifferentiableAt.fun_sum fun q _ => DifferentiableAt.mul_const (DifferentiableAt.mul_const ?_ _) _
  have hg : DifferentiableAt ℝ (fun s : Fin nn → Fin vec → ℝ => fun i' => ∑ n', s n' i' * (F.rowOf p).fsv q n') fun n => sol (p.1 n) := by
    rw [differentiableAt_pi]; intro i'
    exact DifferentiableAt.fun_sum fun n' _ => (hpi n' i').mul_const _
  have := (h q).comp (fun n => sol (p.1 n)) hg
  exact differentiableAt_pi.mp this i

/-- **C14 (in terms of the problem's functions).** For differentiable tensor, mass and Cauchy maps the triplets are the tangent at every solution. -/
theorem C14_tangent_smooth (F : Fem nn nq nf nfq dim vec) (ht : ∀ tm, F.tensorMap = some tm → ∀ k q, Differentiable ℝ (tm k q))
    (hm : ∀ mm, F.massMap = some mm → ∀ k q, Differentiable ℝ (mm k q)) (hc : ∀ lv ∈ Fem.pairs F.cauchy, Differentiable ℝ lv.2)
    (sol R : ℕ → Fin vec → ℝ) (I J : List ℕ) (V : List ℝ) (h : F.newtonUpdate sol = .ok (R, I, J, V)) :
    ∃ Rf : (ℕ → Fin vec → ℝ) → ℕ → Fin vec → ℝ, (∀ s, F.computeResidual s = .ok (Rf s)) ∧ Rf sol = R ∧
      ∀ (v : ℕ → Fin vec → ℝ) (x : ℕ → ℝ), (∀ m (j : Fin vec), x (vec * m + j) = v m j) → ∀ n (i : Fin vec),
        HasDerivAt (fun t : ℝ => Rf (sol + t • v) n i) (cooMul I J V x (vec * n + i)) 0 :=
  C14_tangent F sol R I J V h (fun k c _ => C14_kernel_differentiable F k c sol (fun tm htm q => ht tm htm k q _) (fun mm hmm q => hm mm hmm k q _))
    (fun lv hlv p _ => C14_face_differentiable F lv.2 p sol fun _ => hc lv hlv _)

/-- The bar with the nonlinear conductivity `g ↦ g + g³`: `newton_update` returns and its matrix is the tangent. -/
example (sol v : ℕ → Fin 1 → ℝ) : ∃ I J V, ∃ Rf : (ℕ → Fin 1 → ℝ) → ℕ → Fin 1 → ℝ,
    (∀ s, ({ barExample with tensorMap := some fun _ _ g i d => g i d + g i d ^ 3 } : Fem 2 1 2 1 1 1).newtonUpdate sol = .ok (Rf sol, I, J, V) ∧
      ({ barExample with tensorMap := some fun _ _ g i d => g i d + g i d ^ 3 } : Fem 2 1 2 1 1 1).computeResidual s = .ok (Rf s)) ∧
    I.length = 8 ∧ ∀ n, HasDerivAt (fun t : ℝ => Rf (sol + t • v) n 0) (cooMul I J V (fun n => v n 0) n) 0 := by
  set F : Fem 2 1 2 1 1 1 := { barExample with tensorMap := some fun _ _ g i d => g i d + g i d ^ 3 } with hF
  obtain ⟨R, hR⟩ := (C13_returns F sol).mpr ⟨by simp [hF, barExample], by simp [hF, barExample], by simp [hF, barExample], by simp [hF, barExample], by simp [hF, barExample]⟩
  obtain ⟨I, J, V, hN⟩ := (C14_same_residual F sol R).mp hR
  obtain ⟨Rf, h1, rfl, h3⟩ := C14_tangent_smooth F (by
      intro tm htm k q
      injection htm with htm
      subst htm
      intro g
      rw [differentiableAt_pi]; intro i
      rw [differentiableAt_pi]; intro d
      fun_prop) (by simp [hF, barExample]) (by simp [hF, barExample, Fem.pairs]) sol R I J V hN
  refine ⟨I, J, V, Rf, fun s => ⟨hN, h1 s⟩, ?_, fun n => ?_⟩
  · obtain ⟨-, rfl, -, -⟩ := (newtonUpdate_ok_iff F sol _ I J V).mp hN
    simp [cooI_length, hF, barExample, Fem.pairs]
  · have := h3 v (fun n => v n 0) (fun m j => by fin_cases j; simp) n 0
    simpa using this

end Verif.Fem
