import Verif.Fem.TopPlastic

/-!
# C138: calibration of a crystal plasticity model (model of applications/fem/crystal_plasticity/calibration.py 37-110)

`simulation(alpha)` scales the initial slip resistance, runs ten load steps and returns a stress; `jax.grad(simulation)(1.)` runs backwards through the steps. The displacement of the top is an attribute of the problem (`vals_list`), and so is `dt`: in the
backward pass every step sees those of the last step. The parameters are flattened into one vector; `update_int_vars_gp` and `compute_avg_stress` (their models are `Fem.cpUpdate` and `Fem.cpStress`) enter as functions `upd` and `obj` of solution and parameters.
-/
namespace Verif.Calib
open Finset Verif.Fem Verif.TopProg

variable {nn nq nf nfq dim vec M N : ℕ}

/-! ## The boundary data of a step -/

/-- `disps` (calibration.py 37). -/
noncomputable def disps (i : ℕ) : ℝ := 0 + i * ((0.005 - 0) / 10)

/-- `ts` (calibration.py 38). -/
noncomputable def ts (i : ℕ) : ℝ := 0 + i * ((0.5 - 0) / 10)

/-- `problem.dt = ts[i + 1] - ts[i]` (calibration.py 81). -/
noncomputable def stepDt (i : ℕ) : ℝ := ts (i + 1) - ts i

/-- `np.isclose(x, y, atol=1e-5)` (calibration.py 41-43, 47, 50; `rtol` is 1e-5 as well). -/
noncomputable def near (x y : ℝ) : Bool := decide (|x - y| ≤ 1e-5 + 1e-5 * |y|)

/-- `corner`, `bottom`, `top` (calibration.py 40-50); `Lz` is 1. -/
noncomputable def corner : Loc 3 := fun x => near (x 0) 0 && near (x 1) 0 && near (x 2) 0
noncomputable def bottom : Loc 3 := fun x => near (x 2) 0
noncomputable def top : Loc 3 := fun x => near (x 2) 1

/-- `dirichlet_bc_info` with the displacement of a step (calibration.py 52-62, 83). -/
noncomputable def info (disp : ℝ) : List (Loc 3) × List ℕ × List ((Fin 3 → ℝ) → ℝ) := ([corner, corner, bottom, top], [0, 1, 2, 2], [fun _ => 0, fun _ => 0, fun _ => 0, fun _ => disp])

/-- `update_Dirichlet_boundary_conditions` (calibration.py 84). -/
noncomputable def stepGroups (numTotal : ℕ) (points : ℕ → Fin 3 → ℝ) (disp : ℝ) : List (Fem.Group ℝ) :=
  match dirichletBC numTotal points (some (info disp)) with
  | .ok out => groupsOf out.1 out.2.1 out.2.2
  | .error _ => []

/-- Specification: the same degrees of freedom are prescribed, in the same order; the values may differ. -/
def SameDofs (G G' : List (Fem.Group ℝ)) : Prop := G.map (fun g => (g.nodes, g.comps)) = G'.map fun g => (g.nodes, g.comps)

theorem stepGroups_ok (numTotal : ℕ) (points : ℕ → Fin 3 → ℝ) (disp : ℝ) : ∃ A B C, dirichletBC numTotal points (some (info disp)) = .ok (A, B, C) ∧ stepGroups numTotal points disp = groupsOf A B C := by
  obtain ⟨⟨A, B, C⟩, h⟩ := (C17_accepted numTotal points (info disp).1 (info disp).2.1 (info disp).2.2).1.mpr ⟨rfl, rfl⟩
  refine ⟨A, B, C, h, ?_⟩
  unfold stepGroups
  rw [show (some (info disp)) = some ((info disp).1, (info disp).2.1, (info disp).2.2) from rfl, h]

/-- **C138 (boundary data).** All steps prescribe the same degrees of freedom, with well-formed lists, and have the same time increment 0.05; the last displacement is 0.005. -/
theorem C138_steps (numTotal : ℕ) (points : ℕ → Fin 3 → ℝ) : (∀ d d', SameDofs (stepGroups numTotal points d) (stepGroups numTotal points d')) ∧
    (∀ (P : Prob ℝ FemErr) (d : ℝ), 0 < P.vec → P.groups = stepGroups numTotal points d → P.WF) ∧ (∀ i, stepDt i = 0.05) ∧ disps 10 = 0.005 ∧ ts 10 = 0.5 := by
  refine ⟨fun d d' => ?_, fun P d hv hP => ?_, fun i => ?_, by norm_num [disps], by norm_num [ts]⟩
  · obtain ⟨A, B, C, h, e⟩ := stepGroups_ok numTotal points d
    obtain ⟨A', B', C', h', e'⟩ := stepGroups_ok numTotal points d'
    unfold SameDofs
    rw [e, e', groups_of_dirichlet numTotal points _ _ _ A B C h, groups_of_dirichlet numTotal points _ _ _ A' B' C' h']
    rfl
  · obtain ⟨A, B, C, h, e⟩ := stepGroups_ok numTotal points d
    exact C19_groups_wf P hv numTotal points _ _ _ A B C h (hP.trans e)
  · unfold stepDt ts
    push_cast
    ring

/-! ## One step backwards -/

/-- The problem of a step as `ad_wrapper` sees it (calibration.py 72; `set_params` of models.py 256-257): parameters in the tensor map, the Dirichlet values of the step. -/
noncomputable def stepProb [NeZero vec] (F : Fem nn nq nf nfq dim vec) (tau : (Fin M → ℝ) → ℕ → Fin nq → (Fin vec → Fin dim → ℝ) → Fin vec → Fin dim → ℝ) (groups : List (Fem.Group ℝ)) : ParamProb M FemErr where
  prob q := ({ F with tensorMap := some (tau q) } : Fem nn nq nf nfq dim vec).toProb groups
  res q x d := match ({ F with tensorMap := some (tau q) } : Fem nn nq nf nfq dim vec).computeResidual (fun n i => x (vec * n + i)) with
    | .ok R => R (d / vec) (Fin.ofNat vec d)
    | .error _ => 0

section
variable [NeZero vec] (F : Fem nn nq nf nfq dim vec) (tau : (Fin M → ℝ) → ℕ → Fin nq → (Fin vec → Fin dim → ℝ) → Fin vec → Fin dim → ℝ)

theorem fold_idx {β : Type} (P : Prob ℝ FemErr) (f : β → List ℕ → β) (G : List (Fem.Group ℝ)) (x : β) : G.foldl (fun r g => f r (P.idx g)) x = (G.map P.idx).foldl f x := by
  rw [List.foldl_map]

theorem idx_same (v : ℕ) {G G' : List (Fem.Group ℝ)} (h : SameDofs G G') : G.map (fun g => List.zipWith (fun n c => v * n + c) g.nodes g.comps) = G'.map fun g => List.zipWith (fun n c => v * n + c) g.nodes g.comps := by
  have := congrArg (List.map fun t : List ℕ × List ℕ => List.zipWith (fun n c => v * n + c) t.1 t.2) h
  simpa [List.map_map, Function.comp_def] using this

theorem getAFn_same (P P' : Prob ℝ FemErr) (hv : P.vec = P'.vec) (hn : P.numNodes = P'.numNodes) (h : SameDofs P.groups P'.groups) (usePetsc : Bool) (nw : Newton ℝ) :
    P.getAFn realArith usePetsc nw = P'.getAFn realArith usePetsc nw ∧ P.jacobi realArith nw = P'.jacobi realArith nw := by
  have hidx : P.groups.map P.idx = P'.groups.map P'.idx := by
    have := idx_same P.vec h
    unfold Prob.idx
    rw [← hv]
    exact this
  have hrow : ∀ fn, P.rowElimination fn = P'.rowElimination fn := by
    intro fn
    funext dofs
    unfold Prob.rowElimination
    rw [fold_idx P (fun r l => setAt r l (l.map dofs)), fold_idx P' (fun r l => setAt r l (l.map dofs)), hidx]
  constructor
  · unfold Prob.getAFn Prob.petscMatrix Prob.numDofs
    rw [fold_idx P (fun M l => Prob.zeroRows realArith M l), fold_idx P' (fun M l => Prob.zeroRows realArith M l), hidx, hv, hn, hrow]
  · unfold Prob.jacobi Prob.assignOnesBc
    rw [fold_idx P (fun r l => setAt r l (l.map fun _ => realArith.one)), fold_idx P' (fun r l => setAt r l (l.map fun _ => realArith.one)), hidx]

theorem lastVal_isSome {G G' : List (Fem.Group ℝ)} (P P' : Prob ℝ FemErr) (hv : P.vec = P'.vec) (hP : P.groups = G) (hP' : P'.groups = G') (h : SameDofs G G') (hwf : P.WF) (hwf' : P'.WF) (d : ℕ) :
    lastVal P.prescriptions d = none ↔ lastVal P'.prescriptions d = none := by
  have key : ∀ (Q : Prob ℝ FemErr), Q.WF → (lastVal Q.prescriptions d = none ↔ ∀ l ∈ Q.groups.map Q.idx, d ∉ l) := by
    intro Q hQ
    rw [lastVal_none]
    unfold FreeAt Prob.prescriptions
    constructor
    · intro hf l hl hd
      obtain ⟨g, hg, rfl⟩ := List.mem_map.1 hl
      obtain ⟨j, hj, rfl⟩ := List.mem_iff_getElem.1 hd
      have hlen : (Q.idx g).length = g.vals.length := Q.idx_length (hQ g hg)
      refine hf ((Q.idx g)[j], g.vals[j]'(hlen ▸ hj)) (List.mem_flatMap.2 ⟨g, hg, ?_⟩) rfl
      rw [List.mem_iff_getElem]
      exact ⟨j, by simp [← hlen, hj], by simp⟩
    · intro hl p hp e
      obtain ⟨g, hg, hpg⟩ := List.mem_flatMap.1 hp
      exact hl _ (List.mem_map_of_mem hg) (e ▸ (List.of_mem_zip hpg).1)
  have hidx : P.groups.map P.idx = P'.groups.map P'.idx := by
    have := idx_same P.vec h
    unfold Prob.idx
    rw [← hv, hP, hP']
    exact this
  rw [key P hwf, key P' hwf', hidx]

/-- **C138 (stale boundary values, one step).** The backward pass of a step returns the same (or raises the same) whichever values are prescribed at that time, as long as the prescribed degrees of freedom are the same. -/
theorem C138_stale_step (G G' : List (Fem.Group ℝ)) (h : SameDofs G G') (hwf : (F.toProb G).WF) (hwf' : (F.toProb G').WF) (lin : LinCall ℝ → ℕ → ℝ) (u : ℕ → ℝ) (p : Fin M → ℝ) (v : ℕ → ℝ) (usePetsc : Bool) :
    (stepProb F tau G).implicitVjp lin u p v usePetsc = (stepProb F tau G').implicitVjp lin u p v usePetsc := by
  have hcon : ∀ d, ∃ c : ℝ, ∀ q, (stepProb F tau G).con u q d = (stepProb F tau G').con u q d + c := by
    intro d
    have hw : ∀ (A : List (Fem.Group ℝ)), (F.toProb A).WF → ∀ q, (stepProb F tau A).con u q d =
        match lastVal (F.toProb A).prescriptions d with
        | some x => u d + -x
        | none => (stepProb F tau A).res q u d := by
      intro A hA q
      show (F.toProb A).applyBcVec realArith ((stepProb F tau A).res q u) u d = _
      rw [(F.toProb A).applyBcVec_eq realArith hA]
      cases lastVal (F.toProb A).prescriptions d <;> rfl
    have hiff := lastVal_isSome (F.toProb G) (F.toProb G') rfl rfl rfl h hwf hwf' d
    cases h1 : lastVal (F.toProb G).prescriptions d with
    | none =>
      have h2 := hiff.1 h1
      exact ⟨0, fun q => by rw [hw G hwf, hw G' hwf', h1, h2, add_zero]; rfl⟩
    | some x =>
      cases h2 : lastVal (F.toProb G').prescriptions d with
      | none => rw [hiff.2 h2] at h1; cases h1
      | some x' => exact ⟨x' - x, fun q => by rw [hw G hwf, hw G' hwf', h1, h2]; ring⟩
  have hder : ∀ (j : Fin M) (d : ℕ), deriv (fun t : ℝ => (stepProb F tau G).con u (p + t • Pi.single j 1) d) 0 = deriv (fun t : ℝ => (stepProb F tau G').con u (p + t • Pi.single j 1) d) 0 := by
    intro j d
    obtain ⟨c, hc⟩ := hcon d
    simp only [hc]
    exact deriv_add_const c
  have hnw : ((stepProb F tau G).prob p).newton u = ((stepProb F tau G').prob p).newton u := rfl
  unfold ParamProb.implicitVjp
  rw [hnw]
  cases ((stepProb F tau G').prob p).newton u with
  | error e => rfl
  | ok nw =>
    obtain ⟨hA, hJ⟩ := getAFn_same ((stepProb F tau G).prob p) ((stepProb F tau G').prob p) rfl rfl h usePetsc nw
    have hN : ((stepProb F tau G).prob p).numDofs = ((stepProb F tau G').prob p).numDofs := rfl
    dsimp only
    rw [hA, hJ, hN]
    simp only [hder]

end

/-! ## The whole gradient -/

/-- Specification: the initial parameters of `simulation(alpha)` (calibration.py 76-77): the entries of `params[1]` are multiplied by `alpha`. -/
def scaled (isRes : Fin M → Prop) [DecidablePred isRes] (base : Fin M → ℝ) (alpha : ℝ) : Fin M → ℝ := fun k => if isRes k then alpha * base k else base k

/-- Reverse mode of `simulation` (calibration.py 74-102, 109) over the steps `0, …, n`: the last stress depends on the last solution and on the parameters before the last step; the last update does not enter. -/
noncomputable def calGrad {Err : Type} (vjp : ℕ → (Fin N → ℝ) → Except Err (Fin M → ℝ)) (upd : (Fin N → ℝ) × (Fin M → ℝ) → Fin M → ℝ) (obj : (Fin N → ℝ) × (Fin M → ℝ) → ℝ) (u : ℕ → Fin N → ℝ) (p : ℕ → Fin M → ℝ) (n : ℕ)
    (isRes : Fin M → Prop) [DecidablePred isRes] (base : Fin M → ℝ) : Except Err ℝ := do
  let L := fderiv ℝ obj (u n, p n)
  let g ← vjp n fun d => L (Pi.single d 1, 0)
  let pbar ← backRun vjp upd u p n 0 fun k => L (0, Pi.single k 1) + g k
  pure (∑ k, if isRes k then pbar k * base k else 0)

/-- **C138 (gradient).** If the solution of every step depends differentiably on its parameters and `f_bwd` of `ad_wrapper` is its adjoint, going back through all steps returns the derivative of the last stress with respect to `alpha`. -/
theorem C138_gradient {Err : Type} (S : ℕ → (Fin M → ℝ) → Fin N → ℝ) (upd : (Fin N → ℝ) × (Fin M → ℝ) → Fin M → ℝ) (obj : (Fin N → ℝ) × (Fin M → ℝ) → ℝ) (isRes : Fin M → Prop) [DecidablePred isRes] (base : Fin M → ℝ) (alpha : ℝ) (n : ℕ)
    (hS : ∀ i ≤ n, DifferentiableAt ℝ (S i) (parAfter S upd i (scaled isRes base alpha)))
    (hupd : ∀ i ≤ n, DifferentiableAt ℝ upd (S i (parAfter S upd i (scaled isRes base alpha)), parAfter S upd i (scaled isRes base alpha)))
    (vjp : ℕ → (Fin N → ℝ) → Except Err (Fin M → ℝ))
    (hvjp : ∀ i ≤ n, ∀ w, ∃ g, vjp i w = .ok g ∧ ∀ x : Fin M → ℝ, ∑ k, g k * x k = ∑ d, w d * fderiv ℝ (S i) (parAfter S upd i (scaled isRes base alpha)) x d)
    (hobj : DifferentiableAt ℝ obj (S n (parAfter S upd n (scaled isRes base alpha)), parAfter S upd n (scaled isRes base alpha))) :
    ∃ g, calGrad vjp upd obj (fun i => S i (parAfter S upd i (scaled isRes base alpha))) (fun i => parAfter S upd i (scaled isRes base alpha)) n isRes base = .ok g ∧
      HasDerivAt (fun a => obj (S n (parAfter S upd n (scaled isRes base a)), parAfter S upd n (scaled isRes base a))) g alpha := by
  set p0 := scaled isRes base alpha with hp0
  obtain ⟨hpar, back⟩ := backRun_pull S upd p0 n hS hupd vjp hvjp
  set L := fderiv ℝ obj (S n (parAfter S upd n p0), parAfter S upd n p0) with hL
  -- the pullback through the steps before the last
  have pull : ∀ pbar : Fin M → ℝ, ∃ g, backRun vjp upd (fun i => S i (parAfter S upd i p0)) (fun i => parAfter S upd i p0) n 0 pbar = .ok g ∧
      ∀ x, ∑ k, g k * x k = ∑ j, pbar j * fderiv ℝ (parAfter S upd n) p0 x j := by
    intro pbar
    cases n with
    | zero =>
      refine ⟨pbar, rfl, fun x => ?_⟩
      have : fderiv ℝ (parAfter S upd 0) p0 x = x := by
        have : parAfter S upd 0 = id := rfl
        rw [this, fderiv_id]
        rfl
      rw [this]
    | succ m =>
      obtain ⟨g, h1, h2⟩ := back m (by omega) 0 pbar
      exact ⟨g, h1, fun x => by rw [h2 x]; simp⟩
  obtain ⟨g, hg, hg'⟩ := hvjp n le_rfl fun d => L (Pi.single d 1, 0)
  obtain ⟨pb, hpb, hpb'⟩ := pull fun k => L (0, Pi.single k 1) + g k
  have hrun : calGrad vjp upd obj (fun i => S i (parAfter S upd i p0)) (fun i => parAfter S upd i p0) n isRes base = .ok (∑ k, if isRes k then pb k * base k else 0) := by
    unfold calGrad
    dsimp only [bind, Except.bind]
    rw [← hL, hg]
    dsimp only
    rw [hpb]
    rfl
  refine ⟨_, hrun, ?_⟩
  -- the derivative of the initial parameters
  have h0 : HasDerivAt (scaled isRes base) (fun k => if isRes k then base k else 0) alpha := by
    rw [hasDerivAt_pi]
    intro k
    by_cases hk : isRes k
    · simp only [scaled, if_pos hk]
      simpa using (hasDerivAt_id alpha).mul_const (base k)
    · simp only [scaled, if_neg hk]
      exact hasDerivAt_const alpha (base k)
  have h1 : HasFDerivAt (fun q => (S n (parAfter S upd n q), parAfter S upd n q)) _ p0 := ((hS n le_rfl).hasFDerivAt.comp p0 (hpar n (by omega)).hasFDerivAt).prodMk (hpar n (by omega)).hasFDerivAt
  have h2 := HasFDerivAt.comp (g := obj) (f := fun q => (S n (parAfter S upd n q), parAfter S upd n q)) p0 hobj.hasFDerivAt h1
  have h3 := h2.comp_hasDerivAt alpha h0
  refine h3.congr_deriv ?_
  set x : Fin M → ℝ := fun k => if isRes k then base k else 0 with hx
  have e0 : (∑ k, if isRes k then pb k * base k else 0) = ∑ k, pb k * x k := sum_congr rfl fun k _ => by
    rw [hx]
    by_cases hk : isRes k <;> simp [hk]
  rw [e0, hpb' x]
  set y := fderiv ℝ (parAfter S upd n) p0 x with hy
  set z := fderiv ℝ (S n) (parAfter S upd n p0) y with hz
  have e1 : L (z, y) = ∑ d, z d * L (Pi.single d 1, 0) + ∑ k, y k * L (0, Pi.single k 1) := by
    have a1 := sum_single_pair z (L.comp (ContinuousLinearMap.inl ℝ (Fin N → ℝ) (Fin M → ℝ)))
    have a2 := sum_single_pair y (L.comp (ContinuousLinearMap.inr ℝ (Fin N → ℝ) (Fin M → ℝ)))
    simp only [ContinuousLinearMap.comp_apply, ContinuousLinearMap.inl_apply, ContinuousLinearMap.inr_apply] at a1 a2
    rw [← a1, ← a2, ← map_add]
    simp
  show L (z, y) = _
  rw [e1]
  simp only [add_mul, sum_add_distrib]
  rw [hg' y, ← hz, add_comm]
  congr 1
  · exact sum_congr rfl fun k _ => mul_comm _ _
  · exact sum_congr rfl fun d _ => mul_comm _ _

/-- **C138 (calibration).** The program: ten steps of the stated problem, Dirichlet values and `dt` of the last step in the backward pass. If in every step the solution solves the modified equations near its parameters, `newton_update` returns the tangent, and
the adjoint systems are solved exactly, then `jax.grad(simulation)(alpha)` of a first call is the derivative of the returned stress. -/
theorem C138_calibration (F : Fem nn nq nf nfq 3 3) (tau : ℝ → (Fin M → ℝ) → ℕ → Fin nq → (Fin 3 → Fin 3 → ℝ) → Fin 3 → Fin 3 → ℝ) (lin : LinCall ℝ → ℕ → ℝ)
    (S : ℕ → (Fin M → ℝ) → Fin N → ℝ) (upd : (Fin N → ℝ) × (Fin M → ℝ) → Fin M → ℝ) (obj : (Fin N → ℝ) × (Fin M → ℝ) → ℝ) (isRes : Fin M → Prop) [DecidablePred isRes] (base : Fin M → ℝ) (alpha : ℝ)
    (hS : ∀ i ≤ 9, SolvesNear (stepProb F (tau (stepDt i)) (stepGroups F.numTotal F.points (disps (i + 1)))) (parAfter S upd i (scaled isRes base alpha)) (S i))
    (hT : ∀ i ≤ 9, ∃ nw, ((stepProb F (tau (stepDt i)) (stepGroups F.numTotal F.points (disps (i + 1)))).prob (parAfter S upd i (scaled isRes base alpha))).newton (ext (S i (parAfter S upd i (scaled isRes base alpha)))) = .ok nw ∧ (∀ j ∈ nw.J, j < N) ∧
      (∀ (w : ℕ → ℝ) (d : ℕ), HasDerivAt (fun t : ℝ => (stepProb F (tau (stepDt i)) (stepGroups F.numTotal F.points (disps (i + 1)))).res (parAfter S upd i (scaled isRes base alpha)) (ext (S i (parAfter S upd i (scaled isRes base alpha))) + t • w) d)
        (cooMul nw.I nw.J nw.V w d) 0) ∧
      ∀ call : LinCall ℝ, call.op = ParamProb.transposeOp N (((stepProb F (tau (stepDt i)) (stepGroups F.numTotal F.points (disps (i + 1)))).prob (parAfter S upd i (scaled isRes base alpha))).getAFn realArith false nw) → ∀ d < N, call.op (lin call) d = call.b d)
    (hupd : ∀ i ≤ 9, DifferentiableAt ℝ upd (S i (parAfter S upd i (scaled isRes base alpha)), parAfter S upd i (scaled isRes base alpha)))
    (hobj : DifferentiableAt ℝ obj (S 9 (parAfter S upd 9 (scaled isRes base alpha)), parAfter S upd 9 (scaled isRes base alpha))) :
    ∃ g, calGrad (fun i w => (stepProb F (tau (stepDt 9)) (stepGroups F.numTotal F.points (disps 10))).implicitVjp lin (ext (S i (parAfter S upd i (scaled isRes base alpha)))) (parAfter S upd i (scaled isRes base alpha)) (ext w) false) upd obj
        (fun i => S i (parAfter S upd i (scaled isRes base alpha))) (fun i => parAfter S upd i (scaled isRes base alpha)) 9 isRes base = .ok g ∧
      HasDerivAt (fun a => obj (S 9 (parAfter S upd 9 (scaled isRes base a)), parAfter S upd 9 (scaled isRes base a))) g alpha := by
  obtain ⟨hsame, hwf, hdt, -, -⟩ := C138_steps F.numTotal F.points
  refine C138_gradient S upd obj isRes base alpha 9 (fun i hi => (hS i hi).diffU) hupd _ (fun i hi w => ?_) hobj
  obtain ⟨nw, hnw, hJ, hder, hlin⟩ := hT i hi
  obtain ⟨g, h1, h2⟩ := C27_vjp (hS i hi) (hwf _ (disps (i + 1)) (by show 0 < 3; omega) rfl) nw hnw hJ hder false (ext w) lin hlin
  refine ⟨g, ?_, fun x => ?_⟩
  · rw [← h1, hdt 9, hdt i]
    exact C138_stale_step F (tau 0.05) _ _ (hsame _ _) (hwf _ _ (by show 0 < 3; omega) rfl) (hwf _ _ (by show 0 < 3; omega) rfl) lin _ _ _ false
  · rw [h2 x]
    exact sum_congr rfl fun d _ => by rw [ext_lt]

/-! ## Calling `simulation` again -/

/-- `simulation(alpha)` on real inputs (calibration.py 74-102): the value returned, or `none` if a step raises, and `problem.internal_vars['laplace']` afterwards. `params[1] = alpha*params[1]` writes into the list the attribute refers to; `fwd_pred` stores the
parameters of its step in the attribute. -/
def simulation {P U V : Type} (scale : ℝ → P → P) (fwd_pred : ℕ → P → Option U) (stress : U → P → V) (update : ℕ → U → P → P) (alpha : ℝ) (iv : P) : Option V × P :=
  let params := scale alpha iv
  let step := fun (st : Option (P × Option V) × P) (i : ℕ) =>
    match st with
    | (none, iv) => (none, iv)
    | (some (params, _), _) =>
      match fwd_pred i params with
      | none => (none, params)
      | some sol => (some (update i sol params, some (stress sol params)), params)
  match (List.range 10).foldl step (some (params, none), params) with
  | (none, iv) => (none, iv)
  | (some (_, v), iv) => (v, iv)

/-- Specification: the parameters before each step, as long as the steps succeed. -/
def Reaches {P U : Type} (fwd_pred : ℕ → P → Option U) (update : ℕ → U → P → P) (q : P) : ℕ → P → Prop
  | 0, p => p = q
  | i + 1, p => ∃ p' u, Reaches fwd_pred update q i p' ∧ fwd_pred i p' = some u ∧ p = update i u p'

theorem reaches_unique {P U : Type} (fwd_pred : ℕ → P → Option U) (update : ℕ → U → P → P) (q : P) : ∀ i p p', Reaches fwd_pred update q i p → Reaches fwd_pred update q i p' → p = p'
  | 0, _, _, h, h' => h.trans h'.symm
  | i + 1, _, _, ⟨a, u, h1, h2, h3⟩, ⟨a', u', h1', h2', h3'⟩ => by
    obtain rfl := reaches_unique fwd_pred update q i a a' h1 h1'
    rw [h2] at h2'
    cases h2'
    rw [h3, h3']

/-- **C138 (state left behind).** A call returns iff all ten steps succeed from the scaled attribute; it returns the stress of the last step and leaves the attribute in the state before the last step. If step `k` is the first to fail, the attribute is left in the state
before step `k`. So in both cases a further call does not start from the initial material (unless nothing has changed): it scales that state. -/
theorem C138_state {P U V : Type} (scale : ℝ → P → P) (fwd_pred : ℕ → P → Option U) (stress : U → P → V) (update : ℕ → U → P → P) (alpha : ℝ) (iv : P) :
    (∀ p u, Reaches fwd_pred update (scale alpha iv) 9 p → fwd_pred 9 p = some u → simulation scale fwd_pred stress update alpha iv = (some (stress u p), p)) ∧
    (∀ k < 10, ∀ p, Reaches fwd_pred update (scale alpha iv) k p → fwd_pred k p = none → simulation scale fwd_pred stress update alpha iv = (none, p)) ∧
    ((∃ p u, Reaches fwd_pred update (scale alpha iv) 9 p ∧ fwd_pred 9 p = some u) ∨ ∃ k < 10, ∃ p, Reaches fwd_pred update (scale alpha iv) k p ∧ fwd_pred k p = none) := by
  set q := scale alpha iv with hq
  set step := fun (st : Option (P × Option V) × P) (i : ℕ) =>
    match st with
    | (none, iv) => (none, iv)
    | (some (params, _), _) =>
      match fwd_pred i params with
      | none => (none, params)
      | some sol => (some (update i sol params, some (stress sol params)), params) with hstep
  have hsim : simulation scale fwd_pred stress update alpha iv = match (List.range 10).foldl step (some (q, none), q) with
    | (none, iv) => (none, iv)
    | (some (_, v), iv) => (v, iv) := rfl
  have hsucc : ∀ n, (List.range (n + 1)).foldl step (some (q, none), q) = step ((List.range n).foldl step (some (q, none), q)) n := fun n => by rw [List.range_succ, List.foldl_append]; rfl
  -- the state while all steps succeed
  have hrun : ∀ n p, Reaches fwd_pred update q n p → ∃ v w, (List.range n).foldl step (some (q, none), q) = (some (p, v), w) ∧ ∀ m, n = m + 1 → ∃ p' u, Reaches fwd_pred update q m p' ∧ fwd_pred m p' = some u ∧ v = some (stress u p') ∧ w = p' := by
    intro n
    induction n with
    | zero => rintro p rfl; exact ⟨none, _, rfl, fun m hm => absurd hm (by omega)⟩
    | succ n ih =>
      rintro p ⟨p', u, h1, h2, rfl⟩
      obtain ⟨v, w, h3, -⟩ := ih p' h1
      refine ⟨some (stress u p'), p', ?_, fun m hm => ?_⟩
      · rw [hsucc, h3, hstep]
        simp only [h2]
      · obtain rfl : n = m := by omega
        exact ⟨p', u, h1, h2, rfl, rfl⟩
  have hfail : ∀ k p, Reaches fwd_pred update q k p → fwd_pred k p = none → ∀ n, (List.range (k + 1 + n)).foldl step (some (q, none), q) = (none, p) := by
    intro k p h1 h2 n
    induction n with
    | zero =>
      obtain ⟨v, w, h3, -⟩ := hrun k p h1
      rw [Nat.add_zero, hsucc, h3, hstep]
      simp only [h2]
    | succ n ih => rw [← Nat.add_assoc, hsucc, ih]
  refine ⟨fun p u h1 h2 => ?_, fun k hk p h1 h2 => ?_, ?_⟩
  · obtain ⟨v, w, h3, h4⟩ := hrun 10 (update 9 u p) ⟨p, u, h1, h2, rfl⟩
    obtain ⟨p', u', h5, h6, rfl, rfl⟩ := h4 9 rfl
    obtain rfl := reaches_unique fwd_pred update q 9 _ _ h1 h5
    rw [h2] at h6
    cases h6
    rw [hsim, h3]
  · have := hfail k p h1 h2 (9 - k)
    rw [show k + 1 + (9 - k) = 10 by omega] at this
    rw [hsim, this]
  · have : ∀ n ≤ 9, (∃ p, Reaches fwd_pred update q n p) ∨ ∃ k < 10, ∃ p, Reaches fwd_pred update q k p ∧ fwd_pred k p = none := by
      intro n
      induction n with
      | zero => exact fun _ => .inl ⟨q, rfl⟩
      | succ n ih =>
        intro hn
        rcases ih (by omega) with ⟨p, hp⟩ | h
        · cases hu : fwd_pred n p with
          | none => exact .inr ⟨n, by omega, p, hp, hu⟩
          | some u => exact .inl ⟨_, p, u, hp, hu, rfl⟩
        · exact .inr h
    rcases this 9 le_rfl with ⟨p, hp⟩ | h
    · cases hu : fwd_pred 9 p with
      | none => exact .inr ⟨9, by omega, p, hp, hu⟩
      | some u => exact .inl ⟨p, u, hp, hu⟩
    · exact .inr h

/-- **C138 (second call).** Two calls in a row, both returning: the second is a run from the scaled state before the last step of the first. -/
theorem C138_second {P U V : Type} (scale : ℝ → P → P) (fwd_pred : ℕ → P → Option U) (stress : U → P → V) (update : ℕ → U → P → P) (a b : ℝ) (iv iv1 iv2 : P) (v w : V)
    (h1 : simulation scale fwd_pred stress update a iv = (some v, iv1)) (h2 : simulation scale fwd_pred stress update b iv1 = (some w, iv2)) :
    Reaches fwd_pred update (scale a iv) 9 iv1 ∧ Reaches fwd_pred update (scale b iv1) 9 iv2 ∧ ∃ u, fwd_pred 9 iv2 = some u ∧ w = stress u iv2 := by
  have one : ∀ (c : ℝ) (i j : P) (x : V), simulation scale fwd_pred stress update c i = (some x, j) → Reaches fwd_pred update (scale c i) 9 j ∧ ∃ u, fwd_pred 9 j = some u ∧ x = stress u j := by
    intro c i j x h
    obtain ⟨k1, k2, k3⟩ := C138_state scale fwd_pred stress update c i
    rcases k3 with ⟨p, u, hp, hu⟩ | ⟨k, hk, p, hp, hu⟩
    · have := k1 p u hp hu
      rw [h] at this
      cases this
      exact ⟨hp, u, hu, rfl⟩
    · have := k2 k hk p hp hu
      rw [h] at this
      cases this
  exact ⟨(one a iv iv1 v h1).1, one b iv1 iv2 w h2⟩

/-- A material whose resistance grows by one in each step: the first call with `alpha = 1` returns 69, the second call with the same `alpha` returns 78. A finite difference by two calls in one process, with 1.01 and 0.99, gives 0.02 times something else than the derivative 60. -/
example : let sim := simulation (P := ℝ) (U := Unit) (fun a p => a * p) (fun _ _ => some ()) (fun _ p => p) (fun _ _ p => p + 1)
    (sim 1 60).1 = some 69 ∧ (sim 1 (sim 1 60).2).1 = some 78 ∧ ((sim 1.01 60).1 = some 69.6) ∧ (sim 0.99 (sim 1.01 60).2).1 = some 77.904 := by
  norm_num [simulation, List.range, List.range.loop]

/-- A failing sixth step leaves the state before it. -/
example : simulation (P := ℝ) (U := Unit) (fun a p => a * p) (fun i _ => if i = 5 then none else some ()) (fun _ p => p) (fun _ _ p => p + 1) 1 60 = (none, 65) := by
  norm_num [simulation, List.range, List.range.loop]

/-- Two steps of one degree of freedom: `S p = p`, update `u + p`, stress `u * p`: the last stress is `(2 alpha)² · base²`, its derivative at 1 with `base = 3` is 72, and going back returns it. -/
example : ∃ g, calGrad (Err := Unit) (N := 1) (M := 1) (fun _ w => .ok w) (fun x => x.1 + x.2) (fun x => x.1 0 * x.2 0) (fun i => parAfter (fun _ p => p) (fun x => x.1 + x.2) i (scaled (fun _ => True) (fun _ => 3) 1))
    (fun i => parAfter (fun _ p => p) (fun x => x.1 + x.2) i (scaled (fun _ => True) (fun _ => 3) 1)) 1 (fun _ => True) (fun _ => 3) = .ok g ∧ g = 72 := by
  obtain ⟨g, h1, h2⟩ := C138_gradient (Err := Unit) (N := 1) (M := 1) (fun _ p => p) (fun x => x.1 + x.2) (fun x => x.1 0 * x.2 0) (fun _ => True) (fun _ => 3) 1 1 (fun _ _ => differentiableAt_id)
    (fun _ _ => differentiableAt_fst.add differentiableAt_snd) (fun _ w => .ok w) (fun i _ w => ⟨w, rfl, fun x => by
      have : fderiv ℝ (fun p : Fin 1 → ℝ => p) (parAfter (fun _ p => p) (fun x => x.1 + x.2) i (scaled (fun _ => True) (fun _ => 3) 1)) x = x := by
        rw [show (fun p : Fin 1 → ℝ => p) = id from rfl, fderiv_id]
        rfl
      rw [this]⟩)
    (by fun_prop)
  refine ⟨g, h1, h2.unique ?_⟩
  have e : (fun a : ℝ => (fun x : (Fin 1 → ℝ) × (Fin 1 → ℝ) => x.1 0 * x.2 0) (parAfter (fun _ p => p) (fun x => x.1 + x.2) 1 (scaled (fun _ => True) (fun _ => 3) a), parAfter (fun _ p => p) (fun x => x.1 + x.2) 1 (scaled (fun _ => True) (fun _ => 3) a))) = fun a => 36 * a ^ 2 := by
    funext a
    simp [parAfter, scaled]
    ring
  rw [e]
  exact ((hasDerivAt_pow 2 (1 : ℝ)).const_mul 36).congr_deriv (by norm_num)

end Verif.Calib
