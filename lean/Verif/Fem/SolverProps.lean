import Verif.Fem.SolverLemmas
import Verif.Fem.PropsTangent

/-!
# C19-C23: the row-elimination solver
-/
namespace Verif.Fem
open Finset

variable {K E : Type}

/-! ## C19 -/

/-- **C19 (components, in every arithmetic).** At a prescribed degree of freedom the modified residual is the current value minus the last prescribed value, at a free one it is the physical residual. -/
theorem C19_components (ar : Arith K) (P : Prob K E) (h : P.WF) (res u : ℕ → K) (d : ℕ) :
    (∀ v, LastAt P.prescriptions d v → P.applyBcVec ar res u d = ar.add (u d) (ar.neg v)) ∧ (FreeAt P.prescriptions d → P.applyBcVec ar res u d = res d) := by
  rw [P.applyBcVec_eq ar h]
  refine ⟨fun v hv => ?_, fun hf => ?_⟩
  · rw [(lastVal_some _ _ _).mpr hv]
  · rw [(lastVal_none _ _).mpr hf]

/-- **C19.** The modified residual vanishes iff every prescribed degree of freedom has the last value prescribed for it and the physical residual vanishes at all free ones. -/
theorem C19_zero_iff (P : Prob ℝ E) (h : P.WF) (res u : ℕ → ℝ) :
    (∀ d < P.numDofs, P.applyBcVec realArith res u d = 0) ↔
      (∀ d < P.numDofs, ∀ v, LastAt P.prescriptions d v → u d = v) ∧ (∀ d < P.numDofs, FreeAt P.prescriptions d → res d = 0) := by
  constructor
  · intro h0
    refine ⟨fun d hd v hv => ?_, fun d hd hf => ?_⟩
    · have := h0 d hd
      rw [(C19_components realArith P h res u d).1 v hv] at this
      have h' : u d + -v = 0 := this
      linarith
    · rw [← (C19_components realArith P h res u d).2 hf]
      exact h0 d hd
  · rintro ⟨h1, h2⟩ d hd
    rcases free_or_last P.prescriptions d with hf | ⟨v, hv⟩
    · rw [(C19_components realArith P h res u d).2 hf, h2 d hd hf]
    · rw [(C19_components realArith P h res u d).1 v hv, h1 d hd v hv]
      show v + -v = 0
      ring

/-- **C19 (initial assignment).** `assign_bc` sets every prescribed degree of freedom to the last value prescribed for it and leaves the others alone; so all prescribed components of the modified residual vanish afterwards. -/
theorem C19_assign (P : Prob ℝ E) (h : P.WF) (u res : ℕ → ℝ) (d : ℕ) :
    (∀ v, LastAt P.prescriptions d v → P.assignBc u d = v ∧ P.applyBcVec realArith res (P.assignBc u) d = 0) ∧
    (FreeAt P.prescriptions d → P.assignBc u d = u d) := by
  refine ⟨fun v hv => ?_, fun hf => ?_⟩
  · have h1 : P.assignBc u d = v := by rw [P.assignBc_eq, (lastVal_some _ _ _).mpr hv]
    refine ⟨h1, ?_⟩
    rw [(C19_components realArith P h res _ d).1 v hv, h1]
    show v + -v = 0
    ring
  · rw [P.assignBc_eq, (lastVal_none _ _).mpr hf]

/-- The groups the solver sees: the three lists produced by `Dirichlet_boundary_conditions`. -/
def groupsOf (N C : List (List ℕ)) (W : List (List ℝ)) : List (Group ℝ) := (N.zip (C.zip W)).map fun t => ⟨t.1, t.2.1, t.2.2⟩

/-- Specification: `t` is the last triple (predicate, component, value function) that applies to component `c` at the point of node `n`. -/
def LastTriple {dim : ℕ} (T : List (Loc dim × ℕ × ((Fin dim → ℝ) → ℝ))) (x : Fin dim → ℝ) (c : ℕ) (t : Loc dim × ℕ × ((Fin dim → ℝ) → ℝ)) : Prop :=
  ∃ l₁ l₂, T = l₁ ++ t :: l₂ ∧ (t.1 x = true ∧ t.2.1 = c) ∧ ∀ s ∈ l₂, ¬ (s.1 x = true ∧ s.2.1 = c)

theorem groups_of_dirichlet {dim : ℕ} (numTotal : ℕ) (points : ℕ → Fin dim → ℝ) (locs : List (Loc dim)) (vecs : List ℕ) (vals : List ((Fin dim → ℝ) → ℝ))
    (N C : List (List ℕ)) (W : List (List ℝ)) (h : dirichletBC numTotal points (some (locs, vecs, vals)) = .ok (N, C, W)) :
    groupsOf N C W = (locs.zip (vecs.zip vals)).map fun t => ⟨nodesWhere numTotal points t.1, (nodesWhere numTotal points t.1).map fun _ => t.2.1,
      (nodesWhere numTotal points t.1).map fun n => t.2.2 (points n)⟩ := by
  obtain ⟨h1, h2⟩ := (C17_accepted numTotal points locs vecs vals).1.mp ⟨_, h⟩
  simp only [dirichletBC] at h
  rw [if_pos ⟨h1, h2⟩, dirichlet_loop numTotal points locs vecs vals h1 h2 _ le_rfl, List.take_of_length_le (by simp)] at h
  simp only [Except.ok.injEq, Prod.mk.injEq] at h
  obtain ⟨rfl, rfl, rfl⟩ := h
  unfold groupsOf
  generalize locs.zip (vecs.zip vals) = T
  induction T with
  | nil => rfl
  | cons t T ih => simp only [List.map_cons, List.zip_cons_cons, ih]

/-- **C19 (from the user's specification, part 1).** The lists produced by `Dirichlet_boundary_conditions` are well-formed groups. -/
theorem C19_groups_wf {dim : ℕ} (P : Prob ℝ E) (hvec : 0 < P.vec) (numTotal : ℕ) (points : ℕ → Fin dim → ℝ) (locs : List (Loc dim)) (vecs : List ℕ) (vals : List ((Fin dim → ℝ) → ℝ))
    (N C : List (List ℕ)) (W : List (List ℝ)) (h : dirichletBC numTotal points (some (locs, vecs, vals)) = .ok (N, C, W)) (hP : P.groups = groupsOf N C W) : P.WF := by
  rw [groups_of_dirichlet numTotal points locs vecs vals N C W h] at hP
  intro g hg
  rw [hP] at hg
  obtain ⟨t, -, rfl⟩ := List.mem_map.mp hg
  refine ⟨by simp, by simp, ?_⟩
  have : P.idx (⟨nodesWhere numTotal points t.1, (nodesWhere numTotal points t.1).map fun _ => t.2.1, (nodesWhere numTotal points t.1).map fun n => t.2.2 (points n)⟩ : Group ℝ)
      = (nodesWhere numTotal points t.1).map fun n => P.vec * n + t.2.1 := by
    simp only [Prob.idx]
    generalize nodesWhere numTotal points t.1 = l
    induction l with
    | nil => rfl
    | cons a l ih => simp only [List.map_cons, List.zipWith_cons_cons, ih]
  rw [this]
  refine List.Nodup.map ?_ ((sorted_nodesWhere numTotal points t.1).imp fun h => ne_of_lt h)
  intro a b hab
  have : P.vec * a = P.vec * b := by simpa using hab
  exact Nat.eq_of_mul_eq_mul_left hvec this

/-- **C19 (from the user's specification, part 2).** With components below `vec`: the modified residual vanishes at component `c` of node `n` iff the value is that of the last triple applying to
this node and component, or, if there is none, iff the physical residual vanishes there. -/
theorem C19_user {dim : ℕ} (P : Prob ℝ E) (points : ℕ → Fin dim → ℝ) (locs : List (Loc dim)) (vecs : List ℕ) (vals : List ((Fin dim → ℝ) → ℝ)) (hv : ∀ v ∈ vecs, v < P.vec)
    (N C : List (List ℕ)) (W : List (List ℝ)) (h : dirichletBC P.numNodes points (some (locs, vecs, vals)) = .ok (N, C, W)) (hP : P.groups = groupsOf N C W)
    (res u : ℕ → ℝ) (n c : ℕ) (hn : n < P.numNodes) (hc : c < P.vec) :
    (∀ t, LastTriple (locs.zip (vecs.zip vals)) (points n) c t → P.applyBcVec realArith res u (P.vec * n + c) = u (P.vec * n + c) - t.2.2 (points n)) ∧
    ((∀ t ∈ locs.zip (vecs.zip vals), ¬ (t.1 (points n) = true ∧ t.2.1 = c)) → P.applyBcVec realArith res u (P.vec * n + c) = res (P.vec * n + c)) := by
  have hvec : 0 < P.vec := by omega
  have hwf := C19_groups_wf P hvec P.numNodes points locs vecs vals N C W h hP
  rw [groups_of_dirichlet P.numNodes points locs vecs vals N C W h] at hP
  have hT : ∀ t ∈ locs.zip (vecs.zip vals), t.2.1 < P.vec := fun t ht => hv _ (List.of_mem_zip (List.of_mem_zip (show (t.1, t.2) ∈ _ from ht)).2).1
  have hpres : P.prescriptions = (locs.zip (vecs.zip vals)).flatMap fun t => (nodesWhere P.numNodes points t.1).map fun m => (P.vec * m + t.2.1, t.2.2 (points m)) := by
    unfold Prob.prescriptions
    rw [hP, List.flatMap_map]
    refine List.flatMap_congr fun t _ => ?_
    simp only [Prob.idx]
    generalize nodesWhere P.numNodes points t.1 = l
    induction l with
    | nil => rfl
    | cons a l ih => simp only [List.map_cons, List.zipWith_cons_cons, List.zip_cons_cons, ih]
  have hinj : ∀ t ∈ locs.zip (vecs.zip vals), ∀ m, P.vec * m + t.2.1 = P.vec * n + c → m = n ∧ t.2.1 = c := by
    intro t ht m hm
    obtain ⟨h1, h2⟩ := (dof_inj (vec := P.vec) (i := ⟨t.2.1, hT t ht⟩) (j := ⟨c, hc⟩)).mp hm
    exact ⟨h1, by simpa using h2⟩
  have hone : ∀ t ∈ locs.zip (vecs.zip vals), lastVal ((nodesWhere P.numNodes points t.1).map fun m => (P.vec * m + t.2.1, t.2.2 (points m))) (P.vec * n + c) =
      if t.1 (points n) = true ∧ t.2.1 = c then some (t.2.2 (points n)) else none := by
    intro t ht
    split_ifs with hcond
    · obtain ⟨h1, h2⟩ := hcond
      have hmem : n ∈ nodesWhere P.numNodes points t.1 := mem_nodesWhere.mpr ⟨hn, h1⟩
      obtain ⟨l₁, l₂, hl⟩ := List.append_of_mem hmem
      have hnd : (nodesWhere P.numNodes points t.1).Nodup := (sorted_nodesWhere P.numNodes points t.1).imp fun h => ne_of_lt h
      rw [lastVal_some]
      refine ⟨l₁.map fun m => (P.vec * m + t.2.1, t.2.2 (points m)), l₂.map fun m => (P.vec * m + t.2.1, t.2.2 (points m)), by rw [hl]; simp [h2], ?_⟩
      intro p hp
      obtain ⟨m, hm, rfl⟩ := List.mem_map.mp hp
      intro he
      obtain rfl := (hinj t ht m he).1
      rw [hl] at hnd
      have := (List.nodup_append.mp hnd).2.1
      rw [List.nodup_cons] at this
      exact this.1 hm
    · rw [lastVal_none]
      intro p hp he
      obtain ⟨m, hm, rfl⟩ := List.mem_map.mp hp
      obtain ⟨rfl, h2⟩ := hinj t ht m he
      exact hcond ⟨(mem_nodesWhere.mp hm).2, h2⟩
  have hlast : ∀ T : List (Loc dim × ℕ × ((Fin dim → ℝ) → ℝ)), (∀ t ∈ T, t ∈ locs.zip (vecs.zip vals)) → (∀ t ∈ T, ¬ (t.1 (points n) = true ∧ t.2.1 = c)) →
      lastVal (T.flatMap fun t => (nodesWhere P.numNodes points t.1).map fun m => (P.vec * m + t.2.1, t.2.2 (points m))) (P.vec * n + c) = none := by
    intro T hsub hno
    rw [lastVal_none]
    intro p hp
    obtain ⟨t, ht, hp⟩ := List.mem_flatMap.mp hp
    have := hone t (hsub t ht)
    rw [if_neg (hno t ht), lastVal_none] at this
    exact this p hp
  refine ⟨fun t ht => ?_, fun hno => ?_⟩
  · obtain ⟨l₁, l₂, hl, hcond, hrest⟩ := ht
    have : lastVal P.prescriptions (P.vec * n + c) = some (t.2.2 (points n)) := by
      rw [hpres, hl, List.flatMap_append, List.flatMap_cons, lastVal_append, lastVal_append, hlast l₂ (fun s hs => by rw [hl]; simp [hs]) hrest, hone t (by rw [hl]; simp), if_pos hcond]
      simp
    rw [(C19_components realArith P hwf res u _).1 _ ((lastVal_some _ _ _).mp this)]
    exact (sub_eq_add_neg _ _).symm
  · have : lastVal P.prescriptions (P.vec * n + c) = none := by
      rw [hpres]
      exact hlast _ (fun _ h => h) hno
    exact (C19_components realArith P hwf res u _).2 ((lastVal_none _ _).mp this)

/-- A problem with two groups which overlap at degree of freedom 0: the second value wins. -/
noncomputable def overlapExample : Prob ℝ Unit := ⟨1, 3, [⟨[0, 1], [0, 0], [5, 6]⟩, ⟨[0], [0], [7]⟩], fun _ => .ok ⟨fun d => d, [], [], [], fun _ => 0⟩⟩

example : overlapExample.WF ∧ ∀ u : ℕ → ℝ, overlapExample.applyBcVec realArith (fun d => (d : ℝ)) u 0 = u 0 - 7 ∧ overlapExample.applyBcVec realArith (fun d => (d : ℝ)) u 1 = u 1 - 6 ∧
    overlapExample.applyBcVec realArith (fun d => (d : ℝ)) u 2 = 2 := by
  have hwf : overlapExample.WF := by
    intro g hg
    simp only [overlapExample, List.mem_cons, List.not_mem_nil, or_false] at hg
    rcases hg with rfl | rfl <;> simp [Prob.idx, overlapExample]
  refine ⟨hwf, fun u => ⟨?_, ?_, ?_⟩⟩
  · rw [(C19_components realArith _ hwf _ u 0).1 7 ⟨[(0, 5), (1, 6)], [], by simp [Prob.prescriptions, Prob.idx, overlapExample], by simp⟩]
    exact (sub_eq_add_neg _ _).symm
  · rw [(C19_components realArith _ hwf _ u 1).1 6 ⟨[(0, 5)], [(0, 7)], by simp [Prob.prescriptions, Prob.idx, overlapExample], by simp⟩]
    exact (sub_eq_add_neg _ _).symm
  · rw [(C19_components realArith _ hwf _ u 2).2 (by simp [FreeAt, Prob.prescriptions, Prob.idx, overlapExample])]
    norm_num

/-! ## C20 -/

/-- **C20 (PETSc and JAX operators agree).** For triplets with columns in range, both variants of `get_A_fn` act identically on every vector, on all rows in range. -/
theorem C20_petsc_eq_jax (P : Prob ℝ E) (h : P.WF) (nw : Newton ℝ) (hJ : ∀ j ∈ nw.J, j < P.numDofs) (x : ℕ → ℝ) (r : ℕ) (hr : r < P.numDofs) :
    P.getAFn realArith true nw x r = P.getAFn realArith false nw x r := by
  show Prob.denseMul realArith P.numDofs (P.petscMatrix realArith nw.I nw.J nw.V) x r = P.rowElimination (Prob.spMul realArith nw.I nw.J nw.V) x r
  rw [denseMul_real, P.rowElimination_eq h]
  cases hl : lastVal P.prescriptions r with
  | some v =>
    rw [sum_eq_single r]
    · rw [P.petscMatrix_eq realArith h, hl]
      show (if r = r then (1 : ℝ) else 0) * x r = x r
      rw [if_pos rfl, one_mul]
    · intro c _ hc
      rw [P.petscMatrix_eq realArith h, hl]
      show (if r = c then (1 : ℝ) else 0) * x c = 0
      rw [if_neg (Ne.symm hc), zero_mul]
    · intro hnot
      exact absurd (mem_range.mpr hr) hnot
  | none =>
    dsimp only
    rw [spMul_real, ← cooMul_dense nw.I nw.J nw.V P.numDofs hJ]
    refine sum_congr rfl fun c _ => ?_
    rw [P.petscMatrix_eq realArith h, hl]

/-- **C20 (derivative).** If the triplets are the tangent of the physical residual `R` at `u`, the operator returned by `get_A_fn` is the directional derivative of the modified residual, in every direction. -/
theorem C20_derivative (P : Prob ℝ E) (h : P.WF) (nw : Newton ℝ) (R : (ℕ → ℝ) → ℕ → ℝ) (u v : ℕ → ℝ)
    (hR : ∀ d, HasDerivAt (fun t : ℝ => R (u + t • v) d) (cooMul nw.I nw.J nw.V v d) 0) (d : ℕ) :
    HasDerivAt (fun t : ℝ => P.applyBcVec realArith (R (u + t • v)) (u + t • v) d) (P.getAFn realArith false nw v d) 0 := by
  have hA : P.getAFn realArith false nw v d = _ := P.rowElimination_eq h (Prob.spMul realArith nw.I nw.J nw.V) v d
  rw [hA]
  simp only [P.applyBcVec_eq realArith h]
  cases hl : lastVal P.prescriptions d with
  | some w =>
    have h1 : HasDerivAt (fun t : ℝ => u d + t * v d) (v d) 0 := by
      simpa using ((hasDerivAt_id (0 : ℝ)).mul_const (v d)).const_add (u d)
    exact h1.add_const (-w)
  | none =>
    dsimp only
    rw [spMul_real]
    exact hR d

/-- **C20 (preconditioner).** The Jacobi preconditioner holds the diagonal of this operator. -/
theorem C20_jacobi (P : Prob ℝ E) (h : P.WF) (nw : Newton ℝ) (d : ℕ) :
    P.jacobi realArith nw d = P.getAFn realArith false nw (Pi.single d 1) d := by
  have hA : P.getAFn realArith false nw (Pi.single d 1) d = _ := P.rowElimination_eq h (Prob.spMul realArith nw.I nw.J nw.V) (Pi.single d 1) d
  rw [hA, Prob.jacobi, P.assignOnesBc_eq realArith h]
  cases lastVal P.prescriptions d with
  | some w => simp [realArith]
  | none =>
    dsimp only
    rw [spMul_real, entry_real]
    unfold cooMul
    congr 1
    refine List.map_congr_left fun t _ => ?_
    by_cases h1 : t.1 = d <;> by_cases h2 : t.2.1 = d <;> simp [h1, h2]

/-- **C20 (initial guess).** The incremental solve passes to the JAX solver the operator of `get_A_fn`, minus the residual, the Jacobi diagonal if asked for, and a starting vector which already satisfies
all constrained rows. -/
theorem C20_initial_guess (P : Prob ℝ E) (h : P.WF) (lin : ℕ → LinCall ℝ → ℕ → ℝ) (k : ℕ) (precond : Bool) (nw : Newton ℝ) (res dofs : ℕ → ℝ) :
    ∃ call : LinCall ℝ, P.linearIncremental realArith lin k precond false nw (P.applyBcVec realArith res dofs) dofs = dofs + lin k call ∧
      call.op = P.getAFn realArith false nw ∧ (∀ d, call.b d = -P.applyBcVec realArith res dofs d) ∧ call.pc = (if precond then some (P.jacobi realArith nw) else none) ∧
      ∃ x0, call.x0 = some x0 ∧ (∀ d v, LastAt P.prescriptions d v → call.op x0 d = call.b d) ∧ ∀ d, FreeAt P.prescriptions d → x0 d = 0 := by
  refine ⟨_, rfl, rfl, fun d => rfl, rfl, _, rfl, fun d v hv => ?_, fun d hf => ?_⟩
  · show P.rowElimination (Prob.spMul realArith nw.I nw.J nw.V) _ d = -P.applyBcVec realArith res dofs d
    rw [P.rowElimination_eq h, (lastVal_some _ _ _).mpr hv, (C19_components realArith P h res dofs d).1 v hv]
    show P.assignBc (fun _ => (0 : ℝ)) d + -(P.copyBc realArith dofs d) = -(dofs d + -v)
    rw [P.assignBc_eq, P.copyBc_eq realArith h, (lastVal_some _ _ _).mpr hv]
    ring
  · show P.assignBc (fun _ => (0 : ℝ)) d + -(P.copyBc realArith dofs d) = 0
    rw [P.assignBc_eq, P.copyBc_eq realArith h, (lastVal_none _ _).mpr hf]
    show (0 : ℝ) + -0 = 0
    ring

/-- The solver's view of a finite element problem. -/
noncomputable def Fem.toProb {nn nq nf nfq dim vec : ℕ} [NeZero vec] (F : Fem nn nq nf nfq dim vec) (groups : List (Group ℝ)) : Prob ℝ FemErr where
  vec := vec
  numNodes := F.numTotal
  groups := groups
  newton x := do
    let nu ← F.newtonUpdate fun n i => x (vec * n + i)
    let neu ← F.neumannIntegral
    let flat : (ℕ → Fin vec → ℝ) → ℕ → ℝ := fun f d => f (d / vec) (Fin.ofNat vec d)
    let body := match F.bodyVar with
      | none => F.bodyForceFn
      | some (s, mm) => F.bodyForceSol s mm
    pure ⟨flat nu.1, nu.2.1, nu.2.2.1, nu.2.2.2, flat (body + neu)⟩

/-- **C20 (whole chain).** For a finite element problem with smooth maps, whenever `newton_update` returns, the operator of `get_A_fn` is the directional derivative of the modified assembled residual. -/
theorem C20_fem {nn nq nf nfq dim vec : ℕ} [NeZero vec] (F : Fem nn nq nf nfq dim vec) (groups : List (Group ℝ)) (hwf : (F.toProb groups).WF)
    (ht : ∀ tm, F.tensorMap = some tm → ∀ k q, Differentiable ℝ (tm k q)) (hm : ∀ mm, F.massMap = some mm → ∀ k q, Differentiable ℝ (mm k q))
    (hc : ∀ lv ∈ Fem.pairs F.cauchy, Differentiable ℝ lv.2) (u : ℕ → ℝ) (nw : Newton ℝ) (h : (F.toProb groups).newton u = .ok nw) :
    ∃ R : (ℕ → ℝ) → ℕ → ℝ, (∀ w, ∃ nw', (F.toProb groups).newton w = .ok nw' ∧ nw'.res = R w) ∧
      ∀ (v : ℕ → ℝ) (d : ℕ), HasDerivAt (fun t : ℝ => (F.toProb groups).applyBcVec realArith (R (u + t • v)) (u + t • v) d) ((F.toProb groups).getAFn realArith false nw v d) 0 := by
  have hpos : 0 < vec := Nat.pos_of_ne_zero (NeZero.ne vec)
  cases hn : F.newtonUpdate fun n i => u (vec * n + i) with
  | error e =>
    simp only [Fem.toProb] at h
    rw [hn] at h; cases h
  | ok nu =>
    obtain ⟨R0, I, J, V⟩ := nu
    obtain ⟨Rf, h1, rfl, h3⟩ := C14_tangent_smooth F ht hm hc _ _ I J V hn
    cases hneu : F.neumannIntegral with
    | error e =>
      simp only [Fem.toProb] at h
      rw [hn, hneu] at h; cases h
    | ok neu =>
      simp only [Fem.toProb] at h
      rw [hn, hneu] at h
      injection h with h
      subst h
      have hflat : ∀ d : ℕ, vec * (d / vec) + (Fin.ofNat vec d : ℕ) = d := fun d => Nat.div_add_mod d vec
      refine ⟨fun w d => Rf (fun n i => w (vec * n + i)) (d / vec) (Fin.ofNat vec d), fun w => ?_, fun v d => ?_⟩
      · obtain ⟨I', J', V', hw⟩ := (C14_same_residual F _ _).mp (h1 fun n i => w (vec * n + i))
        have hw' : ∃ nw', (F.toProb groups).newton w = .ok nw' ∧ nw'.res = fun d => Rf (fun n i => w (vec * n + i)) (d / vec) (Fin.ofNat vec d) := by
          simp only [Fem.toProb]
          rw [hw, hneu]
          exact ⟨_, rfl, rfl⟩
        exact hw'
      · refine C20_derivative (F.toProb groups) hwf _ (fun w d => Rf (fun n i => w (vec * n + i)) (d / vec) (Fin.ofNat vec d)) u v (fun d => ?_) d
        have := h3 (fun n i => v (vec * n + i)) v (fun _ _ => rfl) (d / vec) (Fin.ofNat vec d)
        rw [hflat] at this
        exact this

/-! ## C21 -/

/-- **C21.** For a problem whose residual is `K u - f` with constant triplets, and a linear solver which solves exactly the systems with the operator of this problem (rows in range), the linear branch of the solver returns — in the
JAX variant and in the PETSc variant — a solution with all prescribed values met exactly and zero residual at all free degrees of freedom. -/
theorem C21_linear (P : Prob ℝ E) (h : P.WF) (I J : List ℕ) (V : List ℝ) (hJ : ∀ j ∈ J, j < P.numDofs) (f load : ℕ → ℝ)
    (haff : ∀ u, P.newton u = .ok ⟨fun d => cooMul I J V u d - f d, I, J, V, load⟩)
    (precond usePetsc : Bool) (guess : Option (ℕ → ℝ)) (fuel : ℕ)
    (lin : ℕ → LinCall ℝ → ℕ → ℝ) (hlin : ∀ k (call : LinCall ℝ), call.op = P.getAFn realArith usePetsc ⟨f, I, J, V, load⟩ → ∀ d < P.numDofs, call.op (lin k call) d = call.b d) :
    ∃ u, P.rowSolver realArith lin true precond usePetsc guess fuel = .ok u ∧
      (∀ d < P.numDofs, ∀ v, LastAt P.prescriptions d v → u d = v) ∧ (∀ d < P.numDofs, FreeAt P.prescriptions d → cooMul I J V u d = f d) := by
  have hhelp : ∀ u, P.helper realArith u = .ok (⟨fun d => cooMul I J V u d - f d, I, J, V, load⟩, P.applyBcVec realArith (fun d => cooMul I J V u d - f d) u) := by
    intro u
    simp only [Prob.helper, haff u]
  set u0 := P.assignBc fun _ => (0 : ℝ) with hu0
  set nw : Newton ℝ := ⟨fun d => cooMul I J V u0 d - f d, I, J, V, load⟩ with hnw
  set res := P.applyBcVec realArith (fun d => cooMul I J V u0 d - f d) u0 with hres
  have hrun : P.rowSolver realArith lin true precond usePetsc guess fuel = .ok (P.linearIncremental realArith lin 0 precond usePetsc nw res u0) := by
    unfold Prob.rowSolver
    have hz : (P.assignBc fun _ => realArith.zero) = u0 := rfl
    simp only [if_true, hz]
    rw [hhelp u0]
    show (do
      let out ← (do
        let st ← P.helper realArith (P.linearIncremental realArith lin 0 precond usePetsc nw res u0)
        pure (P.linearIncremental realArith lin 0 precond usePetsc nw res u0, P.resNorm realArith st.2))
      P.checkFinite realArith out : Except (SolveErr E) _) = _
    rw [hhelp]
    show P.checkFinite realArith _ = _
    simp [Prob.checkFinite, realArith]
  refine ⟨_, hrun, ?_⟩
  obtain ⟨inc, hinc, hsol⟩ : ∃ inc : ℕ → ℝ, P.linearIncremental realArith lin 0 precond usePetsc nw res u0 = (fun d => u0 d + inc d) ∧
      ∀ d < P.numDofs, P.getAFn realArith false nw inc d = -res d := by
    cases usePetsc with
    | true =>
      refine ⟨lin 0 ⟨true, P.getAFn realArith true nw, fun d => realArith.neg (res d), none, none⟩, rfl, fun d hd => ?_⟩
      rw [← C20_petsc_eq_jax P h nw hJ _ d hd]
      exact hlin 0 ⟨true, P.getAFn realArith true nw, fun d => realArith.neg (res d), none, none⟩ rfl d hd
    | false =>
      exact ⟨lin 0 ⟨false, P.getAFn realArith false nw, fun d => realArith.neg (res d), some fun d => realArith.add (P.assignBc (fun _ => realArith.zero) d) (realArith.neg (P.copyBc realArith u0 d)),
        if precond then some (P.jacobi realArith nw) else none⟩, rfl, fun d hd => hlin 0 ⟨false, _, _, _, _⟩ rfl d hd⟩
  rw [hinc]
  refine ⟨fun d hd v hv => ?_, fun d hd hf => ?_⟩
  · have h1 := hsol d hd
    have hA : P.getAFn realArith false nw inc d = _ := P.rowElimination_eq h (Prob.spMul realArith nw.I nw.J nw.V) inc d
    rw [hA, (lastVal_some _ _ _).mpr hv, hres, (C19_components realArith P h _ u0 d).1 v hv] at h1
    have h2 : inc d = -(u0 d + -v) := h1
    show u0 d + inc d = v
    rw [h2]
    ring
  · have h1 := hsol d hd
    have hA : P.getAFn realArith false nw inc d = _ := P.rowElimination_eq h (Prob.spMul realArith nw.I nw.J nw.V) inc d
    rw [hA, (lastVal_none _ _).mpr hf, hres, (C19_components realArith P h _ u0 d).2 hf] at h1
    dsimp only at h1
    rw [spMul_real] at h1
    have h2 : cooMul I J V inc d = -(cooMul I J V u0 d - f d) := h1
    have h3 := cooMul_linear I J V u0 inc 1 1 d
    simp only [one_mul] at h3
    rw [h3, h2]
    ring

/-- Two unknowns, `u₀` prescribed to 3, equation `-u₀ + 2 u₁ = 5` for the second. -/
noncomputable def twoUnknowns : Prob ℝ Unit :=
  ⟨1, 2, [⟨[0], [0], [3]⟩], fun u => .ok ⟨fun d => cooMul [0, 0, 1, 1] [0, 1, 0, 1] [2, -1, -1, 2] u d - 5, [0, 0, 1, 1], [0, 1, 0, 1], [2, -1, -1, 2], fun _ => 5⟩⟩

/-- The inverse of its operator. -/
noncomputable def twoSolve : ℕ → LinCall ℝ → ℕ → ℝ := fun _ call d => if d = 0 then call.b 0 else (call.b 1 + call.b 0) / 2

/-- The linear branch returns `(3, 4)`. -/
example : ∃ u, twoUnknowns.rowSolver realArith twoSolve true true false none 0 = .ok u ∧ u 0 = 3 ∧ u 1 = 4 := by
  have hwf : twoUnknowns.WF := by
    intro g hg
    simp only [twoUnknowns, List.mem_singleton] at hg
    subst hg
    simp [Prob.idx]
  have hpre : twoUnknowns.prescriptions = [(0, 3)] := by simp [Prob.prescriptions, Prob.idx, twoUnknowns]
  obtain ⟨u, h1, h2, h3⟩ := C21_linear twoUnknowns hwf [0, 0, 1, 1] [0, 1, 0, 1] [2, -1, -1, 2] (by simp [twoUnknowns, Prob.numDofs]) (fun _ => 5) (fun _ => 5)
    (fun u => rfl) true false none 0 twoSolve (by
      intro k call hop d hd
      have hd : d < 2 := hd
      rw [hop]
      show twoUnknowns.rowElimination (Prob.spMul realArith _ _ _) _ d = _
      rw [twoUnknowns.rowElimination_eq hwf, hpre]
      interval_cases d
      · simp [lastVal, twoSolve]
      · simp [lastVal, spMul_real, cooMul, twoSolve]
        ring)
  have hu0 : u 0 = 3 := h2 0 (by simp [twoUnknowns, Prob.numDofs]) 3 ⟨[], [], by rw [hpre]; rfl, by simp⟩
  have hu1 := h3 1 (by simp [twoUnknowns, Prob.numDofs]) (by rw [hpre]; simp [FreeAt])
  refine ⟨u, h1, hu0, ?_⟩
  simp [cooMul] at hu1
  linarith

/-- C20 on the same problem: the operator is `(x₀, -x₀ + 2 x₁)`, its diagonal `(1, 2)`. -/
example (x : ℕ → ℝ) : ∃ nw, twoUnknowns.newton x = .ok nw ∧ (∀ b, twoUnknowns.getAFn realArith b nw x 0 = x 0 ∧ twoUnknowns.getAFn realArith b nw x 1 = -x 0 + 2 * x 1) ∧
    twoUnknowns.jacobi realArith nw 0 = 1 ∧ twoUnknowns.jacobi realArith nw 1 = 2 := by
  have hwf : twoUnknowns.WF := by
    intro g hg
    simp only [twoUnknowns, List.mem_singleton] at hg
    subst hg
    simp [Prob.idx]
  have hpre : twoUnknowns.prescriptions = [(0, 3)] := by simp [Prob.prescriptions, Prob.idx, twoUnknowns]
  refine ⟨_, rfl, ?_, ?_, ?_⟩
  · have hjax : ∀ d, twoUnknowns.getAFn realArith false ⟨fun d => cooMul [0, 0, 1, 1] [0, 1, 0, 1] [2, -1, -1, 2] x d - 5, [0, 0, 1, 1], [0, 1, 0, 1], [2, -1, -1, 2], fun _ => 5⟩ x d = _ :=
      fun d => twoUnknowns.rowElimination_eq hwf (Prob.spMul realArith _ _ _) x d
    have h0 := hjax 0
    have h1 := hjax 1
    rw [hpre] at h0 h1
    simp only [lastVal, spMul_real, cooMul] at h0 h1
    simp at h0 h1
    intro b
    cases b with
    | false => exact ⟨h0, h1⟩
    | true =>
      rw [C20_petsc_eq_jax _ hwf _ (by simp [twoUnknowns, Prob.numDofs]) x 0 (by simp [twoUnknowns, Prob.numDofs]),
        C20_petsc_eq_jax _ hwf _ (by simp [twoUnknowns, Prob.numDofs]) x 1 (by simp [twoUnknowns, Prob.numDofs])]
      exact ⟨h0, h1⟩
  · rw [Prob.jacobi, Prob.assignOnesBc_eq _ _ hwf, hpre]
    simp [lastVal, realArith]
  · rw [Prob.jacobi, Prob.assignOnesBc_eq _ _ hwf, hpre]
    simp [lastVal, entry_real]

/-! ## C22 -/

theorem newtonLoop_ok (ar : Arith K) (P : Prob K E) (lin : ℕ → LinCall K → ℕ → K) (precond usePetsc : Bool) : ∀ (fuel k : ℕ) (dofs : ℕ → K) (st : Newton K × (ℕ → K)) (out : (ℕ → K) × K),
    P.helper ar dofs = .ok st → P.newtonLoop ar lin precond usePetsc fuel k dofs st = .ok out →
    ∃ st', P.helper ar out.1 = .ok st' ∧ out.2 = P.resNorm ar st'.2 ∧ ar.gt out.2 ar.tol = false := by
  intro fuel
  induction fuel with
  | zero =>
    intro k dofs st out hst h
    unfold Prob.newtonLoop at h
    split_ifs at h with hc
    injection h with h
    subst h
    exact ⟨st, hst, rfl, by simpa using hc⟩
  | succ fuel ih =>
    intro k dofs st out hst h
    unfold Prob.newtonLoop at h
    split_ifs at h with hc
    · dsimp only at h
      cases hh : P.helper ar (P.linearIncremental ar lin k precond usePetsc st.1 st.2 dofs) with
      | error e => rw [hh] at h; cases h
      | ok st' =>
        rw [hh] at h
        exact ih _ _ _ _ hh h
    · injection h with h
      subst h
      exact ⟨st, hst, rfl, by simpa using hc⟩

/-- **C22 (in every arithmetic).** Whenever the nonlinear branch returns, for any arithmetic (also a rounding one), problem, linear solver, initial guess and number of iterations: the returned vector has
finite entries, the problem can be evaluated there, and the modified residual's norm is finite and not above the tolerance. -/
theorem C22_any_arithmetic (ar : Arith K) (P : Prob K E) (lin : ℕ → LinCall K → ℕ → K) (precond usePetsc : Bool) (guess : Option (ℕ → K)) (fuel : ℕ) (u : ℕ → K)
    (h : P.rowSolver ar lin false precond usePetsc guess fuel = .ok u) :
    ∃ nw, P.newton u = .ok nw ∧ ar.gt (P.resNorm ar (P.applyBcVec ar nw.res u)) ar.tol = false ∧ ar.isFinite (P.resNorm ar (P.applyBcVec ar nw.res u)) = true ∧
      ∀ d < P.numDofs, ar.isFinite (u d) = true := by
  obtain ⟨dofs, st, out, hst, hloop, hfin⟩ : ∃ dofs st out, P.helper ar dofs = .ok st ∧ P.newtonLoop ar lin precond usePetsc fuel 1 dofs st = .ok out ∧ P.checkFinite (E := E) ar out = .ok u := by
    unfold Prob.rowSolver at h
    simp only [Bool.false_eq_true, if_false] at h
    have go : ∀ dofs : ℕ → K, (do
        let out ← (do
          let st ← P.helper ar dofs
          P.newtonLoop ar lin precond usePetsc fuel 1 dofs st)
        P.checkFinite ar out : Except (SolveErr E) _) = .ok u →
        ∃ dofs st out, P.helper ar dofs = .ok st ∧ P.newtonLoop ar lin precond usePetsc fuel 1 dofs st = .ok out ∧ P.checkFinite (E := E) ar out = .ok u := by
      intro dofs h
      cases hst : P.helper ar dofs with
      | error e => rw [hst] at h; cases h
      | ok st =>
        rw [hst] at h
        cases hl : P.newtonLoop ar lin precond usePetsc fuel 1 dofs st with
        | error e =>
          have h : (do
            let out ← P.newtonLoop ar lin precond usePetsc fuel 1 dofs st
            P.checkFinite ar out : Except (SolveErr E) _) = .ok u := h
          rw [hl] at h; cases h
        | ok out =>
          have h : (do
            let out ← P.newtonLoop ar lin precond usePetsc fuel 1 dofs st
            P.checkFinite ar out : Except (SolveErr E) _) = .ok u := h
          rw [hl] at h
          exact ⟨dofs, st, out, hst, hl, h⟩
    cases guess with
    | some g => exact go g h
    | none =>
      cases hst0 : P.helper ar fun _ => ar.zero with
      | error e =>
        have h : (do
          let out ← (do
            let dofs ← (do
              let st ← P.helper ar fun _ => ar.zero
              pure (P.linearGuess ar lin 0 precond usePetsc st.1))
            let st ← P.helper ar dofs
            P.newtonLoop ar lin precond usePetsc fuel 1 dofs st)
          P.checkFinite ar out : Except (SolveErr E) _) = .ok u := h
        rw [hst0] at h; cases h
      | ok st0 =>
        have h : (do
          let out ← (do
            let dofs ← (do
              let st ← P.helper ar fun _ => ar.zero
              pure (P.linearGuess ar lin 0 precond usePetsc st.1))
            let st ← P.helper ar dofs
            P.newtonLoop ar lin precond usePetsc fuel 1 dofs st)
          P.checkFinite ar out : Except (SolveErr E) _) = .ok u := h
        rw [hst0] at h
        exact go _ h
  obtain ⟨st', hst', hval, hgt⟩ := newtonLoop_ok ar P lin precond usePetsc fuel 1 dofs st out hst hloop
  unfold Prob.checkFinite at hfin
  split_ifs at hfin with h1 h2
  injection hfin with hfin
  subst hfin
  unfold Prob.helper at hst'
  cases hnw : P.newton out.1 with
  | error e => rw [hnw] at hst'; cases hst'
  | ok nw =>
    rw [hnw] at hst'
    injection hst' with hst'
    subst hst'
    refine ⟨nw, rfl, ?_, ?_, fun d hd => ?_⟩
    · rw [← hval]; exact hgt
    · rw [← hval]; exact h1
    · exact List.all_eq_true.mp h2 d (List.mem_range.mpr hd)

theorem Fl.norm_fin {l : List Fl} (h1 : (Fl.norm l).isFinite = true) (h2 : Fl.gt (Fl.norm l) (.fin 1e-6) = false) : ∀ x ∈ l, ∃ y, x = .fin y ∧ |y| ≤ 1e-6 := by
  unfold Fl.norm at h1 h2
  split_ifs at h1 h2 with ha hb
  · cases h1
  · have hle : Real.sqrt (l.map fun x => x.val ^ 2).sum ≤ 1e-6 := by simpa [Fl.gt] using h2
    intro x hx
    have hfin := List.all_eq_true.mp hb x hx
    cases x with
    | fin y =>
      refine ⟨y, rfl, ?_⟩
      refine le_trans ?_ hle
      rw [← Real.sqrt_sq_eq_abs]
      refine Real.sqrt_le_sqrt ?_
      have hmem : y ^ 2 ∈ l.map fun x => x.val ^ 2 := List.mem_map.mpr ⟨.fin y, hx, rfl⟩
      exact List.single_le_sum (fun z hz => by
        obtain ⟨w, -, rfl⟩ := List.mem_map.mp hz
        exact sq_nonneg _) _ hmem
    | pinf => cases hfin
    | ninf => cases hfin
    | nan => cases hfin
  · cases h1

/-- **C22.** In arithmetic with infinities and NaN: whenever the nonlinear branch returns, every entry of the solution is a real number, every prescribed degree of freedom is within `1e-6` of the last
value prescribed for it, and the physical residual at every free one is a real number of size at most `1e-6` — for every residual function (which may produce NaN), every linear solver (which may return
anything), every initial guess and iteration count. -/
theorem C22_converged (P : Prob Fl E) (h : P.WF) (lin : ℕ → LinCall Fl → ℕ → Fl) (precond usePetsc : Bool) (guess : Option (ℕ → Fl)) (fuel : ℕ) (u : ℕ → Fl)
    (hu : P.rowSolver flArith lin false precond usePetsc guess fuel = .ok u) :
    ∃ nw, P.newton u = .ok nw ∧ ∀ d < P.numDofs, ∃ x, u d = .fin x ∧
      (∀ v, LastAt P.prescriptions d v → ∃ y, v = .fin y ∧ |x - y| ≤ 1e-6) ∧ (FreeAt P.prescriptions d → ∃ r, nw.res d = .fin r ∧ |r| ≤ 1e-6) := by
  obtain ⟨nw, hnw, hgt, hfin, hall⟩ := C22_any_arithmetic flArith P lin precond usePetsc guess fuel u hu
  refine ⟨nw, hnw, fun d hd => ?_⟩
  have hres := Fl.norm_fin hfin hgt _ (List.mem_map.mpr ⟨d, List.mem_range.mpr hd, rfl⟩)
  obtain ⟨x, hx⟩ : ∃ x, u d = .fin x := by
    have := hall d hd
    cases hud : u d with
    | fin x => exact ⟨x, rfl⟩
    | pinf => rw [hud] at this; cases this
    | ninf => rw [hud] at this; cases this
    | nan => rw [hud] at this; cases this
  refine ⟨x, hx, fun v hv => ?_, fun hf => ?_⟩
  · obtain ⟨r, hr, hle⟩ := hres
    rw [(C19_components flArith P h nw.res u d).1 v hv, hx] at hr
    cases v with
    | fin y =>
      refine ⟨y, rfl, ?_⟩
      have : x + -y = r := by
        have : Fl.fin (x + -y) = Fl.fin r := hr
        injection this
      rw [sub_eq_add_neg, this]
      exact hle
    | pinf => cases hr
    | ninf => cases hr
    | nan => cases hr
  · rw [(C19_components flArith P h nw.res u d).2 hf] at hres
    exact hres

/-- **C22 (NaN ends in the assertion).** If the norm of the modified residual at the initial guess is NaN the solver raises `AssertionError`, whatever the linear solver does. -/
theorem C22_nan (P : Prob Fl E) (lin : ℕ → LinCall Fl → ℕ → Fl) (precond usePetsc : Bool) (g : ℕ → Fl) (fuel : ℕ) (nw : Newton Fl) (hnw : P.newton g = .ok nw)
    (hnan : P.resNorm flArith (P.applyBcVec flArith nw.res g) = .nan) : P.rowSolver flArith lin false precond usePetsc (some g) fuel = .error .assertion := by
  have hst : P.helper flArith g = .ok (nw, P.applyBcVec flArith nw.res g) := by simp only [Prob.helper, hnw]
  have hl : P.newtonLoop flArith lin precond usePetsc fuel 1 g (nw, P.applyBcVec flArith nw.res g) = .ok (g, .nan) := by
    unfold Prob.newtonLoop
    rw [hnan]
    rfl
  show (do
    let out ← (do
      let st ← P.helper flArith g
      P.newtonLoop flArith lin precond usePetsc fuel 1 g st)
    P.checkFinite flArith out : Except (SolveErr E) _) = _
  rw [hst]
  show (do
    let out ← P.newtonLoop flArith lin precond usePetsc fuel 1 g (nw, P.applyBcVec flArith nw.res g)
    P.checkFinite flArith out : Except (SolveErr E) _) = _
  rw [hl]
  rfl

/-- The one-unknown problem `u - 1 = 0` without constraints. -/
noncomputable def oneUnknown : Prob ℝ Unit := ⟨1, 1, [], fun u => .ok ⟨fun d => u d - 1, [0], [0], [1], fun _ => 0⟩⟩

/-- **C22 (the linear branch gives no guarantee).** With a linear solver which fails (returns zero), the linear branch returns a vector whose residual is not small. -/
theorem C22_linear_unchecked : ∃ u : ℕ → ℝ, oneUnknown.rowSolver realArith (fun _ _ _ => 0) true true false none 0 = .ok u ∧ u 0 - 1 = -1 := by
  refine ⟨fun _ => 0, ?_, by norm_num⟩
  have : (fun _ : ℕ => (0 : ℝ) + 0) = fun _ => 0 := by funext d; ring
  show (Except.ok (fun _ : ℕ => (0 : ℝ) + 0) : Except (SolveErr Unit) _) = _
  rw [this]

/-- With an exact linear solver the nonlinear branch solves the same problem (one guess, no iteration needed). -/
example : ∃ u : ℕ → ℝ, oneUnknown.rowSolver realArith (fun _ _ _ => 1) false true false (some fun _ => 1) 0 = .ok u ∧ u 0 = 1 := by
  refine ⟨fun _ => 1, ?_, rfl⟩
  have hst : oneUnknown.helper realArith (fun _ => (1 : ℝ)) = .ok (⟨fun _ => (1 : ℝ) - 1, [0], [0], [1], fun _ => 0⟩, fun _ => (1 : ℝ) - 1) := rfl
  have hl : oneUnknown.newtonLoop realArith (fun _ _ _ => 1) true false 0 1 (fun _ => (1 : ℝ)) (⟨fun _ => (1 : ℝ) - 1, [0], [0], [1], fun _ => 0⟩, fun _ => (1 : ℝ) - 1) = .ok (fun _ => 1, 0) := by
    have hz : oneUnknown.resNorm realArith (fun _ => (1 : ℝ) - 1) = 0 := by
      simp [Prob.resNorm, realArith]
    unfold Prob.newtonLoop
    dsimp only
    rw [hz, if_neg (by simp only [realArith, gt_iff_lt, decide_eq_true_eq, not_lt]; norm_num)]
  show (do
    let out ← (do
      let st ← oneUnknown.helper realArith (fun _ => (1 : ℝ))
      oneUnknown.newtonLoop realArith (fun _ _ _ => 1) true false 0 1 (fun _ => (1 : ℝ)) st)
    oneUnknown.checkFinite realArith out : Except (SolveErr Unit) _) = _
  rw [hst]
  show (do
    let out ← oneUnknown.newtonLoop realArith (fun _ _ _ => 1) true false 0 1 (fun _ => (1 : ℝ)) (⟨fun _ => (1 : ℝ) - 1, [0], [0], [1], fun _ => 0⟩, fun _ => (1 : ℝ) - 1)
    oneUnknown.checkFinite realArith out : Except (SolveErr Unit) _) = _
  rw [hl]
  simp [Prob.checkFinite, realArith, bind, Except.bind]

/-- The same equation in arithmetic with NaN, below `bad` a residual which is NaN away from 1. -/
noncomputable def oneUnknownFl (bad : Bool) : Prob Fl Unit :=
  ⟨1, 1, [], fun u => .ok ⟨fun d => if bad then Fl.nan else Fl.add (u d) (.fin (-1)), [0], [0], [.fin 1], fun _ => .fin 0⟩⟩

example (lin : ℕ → LinCall Fl → ℕ → Fl) : (oneUnknownFl false).rowSolver flArith lin false true false (some fun _ => .fin 1) 0 = .ok (fun _ => .fin 1) := by
  have hz : Fl.norm [Fl.fin (1 + -1)] = .fin 0 := by simp [Fl.norm, Fl.isNan, Fl.isFinite, Fl.val]
  have hl : (oneUnknownFl false).newtonLoop flArith lin true false 0 1 (fun _ => Fl.fin 1) (⟨fun _ => Fl.fin (1 + -1), [0], [0], [.fin 1], fun _ => .fin 0⟩, fun _ => Fl.fin (1 + -1)) =
      .ok (fun _ => Fl.fin 1, .fin 0) := by
    have hz' : (oneUnknownFl false).resNorm flArith (fun _ => Fl.fin (1 + -1)) = .fin 0 := hz
    unfold Prob.newtonLoop
    dsimp only
    rw [hz', if_neg (by simp only [flArith, Fl.gt, gt_iff_lt, decide_eq_true_eq, not_lt]; norm_num)]
  show (do
    let out ← (oneUnknownFl false).newtonLoop flArith lin true false 0 1 (fun _ => Fl.fin 1) (⟨fun _ => Fl.fin (1 + -1), [0], [0], [.fin 1], fun _ => .fin 0⟩, fun _ => Fl.fin (1 + -1))
    (oneUnknownFl false).checkFinite flArith out : Except (SolveErr Unit) _) = _
  rw [hl]
  rfl

example (lin : ℕ → LinCall Fl → ℕ → Fl) : (oneUnknownFl true).rowSolver flArith lin false true false (some fun _ => .fin 1) 0 = .error .assertion := by
  refine C22_nan _ lin true false _ 0 _ rfl ?_
  show Fl.norm [Fl.nan] = .nan
  simp [Fl.norm, Fl.isNan]

/-! ## C23 -/

theorem lineSearchLoop_spec (f : ℝ → ℝ) : ∀ (i : ℕ) (alpha : ℝ), f (Prob.lineSearchLoop realArith f i alpha (f alpha)) ≤ f alpha ∧
    ∃ j ≤ i, Prob.lineSearchLoop realArith f i alpha (f alpha) = alpha / 2 ^ j := by
  intro i
  induction i with
  | zero => intro alpha; exact ⟨le_rfl, 0, le_rfl, by simp [Prob.lineSearchLoop]⟩
  | succ i ih =>
    intro alpha
    unfold Prob.lineSearchLoop
    dsimp only
    split_ifs with hc
    · have : alpha * 0.5 * 2 = alpha := by ring
      rw [this]
      exact ⟨le_rfl, 0, by omega, by simp⟩
    · have hle : f (alpha * 0.5) ≤ f alpha := by
        simpa [realArith] using hc
      obtain ⟨h1, j, hj, h2⟩ := ih (alpha * 0.5)
      refine ⟨h1.trans hle, j + 1, by omega, ?_⟩
      rw [h2, pow_succ]
      ring

/-- **C23.** The result of the line search is `dofs + alpha * inc` with `alpha` one of `1, 1/2, 1/4, 1/8`, and the norm of the modified residual there is not larger than after the full step. -/
theorem C23_line_search (P : Prob ℝ E) (res : (ℕ → ℝ) → ℕ → ℝ) (dofs inc : ℕ → ℝ) :
    ∃ alpha ∈ ({1, 1 / 2, 1 / 4, 1 / 8} : Set ℝ), P.lineSearch realArith res dofs inc = (fun d => dofs d + alpha * inc d) ∧
      P.resNorm realArith (P.applyBcVec realArith (res (P.lineSearch realArith res dofs inc)) (P.lineSearch realArith res dofs inc)) ≤
        P.resNorm realArith (P.applyBcVec realArith (res fun d => dofs d + 1 * inc d) fun d => dofs d + 1 * inc d) := by
  obtain ⟨h1, j, hj, h2⟩ := lineSearchLoop_spec (P.resNormFn realArith res dofs inc) 3 1
  refine ⟨_, ?_, rfl, h1⟩
  rw [h2]
  interval_cases j <;> norm_num

/-- With residual norm `|alpha - 1/4|` along the step the search stops at `1/4`. -/
example : Prob.lineSearchLoop realArith (fun a => |a - 1 / 4|) 3 1 |(1 : ℝ) - 1 / 4| = 1 / 4 := by
  simp only [Prob.lineSearchLoop, realArith, gt_iff_lt, decide_eq_true_eq]
  norm_num [abs_of_pos, abs_of_neg]

/-- **C23 (NaN is not filtered out).** In arithmetic with NaN the comparison `half > res_norm` is false for a NaN, so a half step with NaN residual is accepted although the full step has residual zero. -/
theorem C23_nan_accepted : Prob.lineSearchLoop flArith (fun a => open Classical in if a = 1 then Fl.fin 0 else Fl.nan) 3 1 (.fin 0) = 1 / 8 := by
  have h1 : ((1 : ℝ) * 0.5 = 1) = False := by norm_num
  have h2 : ((1 : ℝ) * 0.5 * 0.5 = 1) = False := by norm_num
  have h3 : ((1 : ℝ) * 0.5 * 0.5 * 0.5 = 1) = False := by norm_num
  simp only [Prob.lineSearchLoop, flArith, h1, h2, h3, if_false, Fl.gt, Bool.false_eq_true]
  norm_num

end Verif.Fem
