import Verif.Fem.Lemmas
import Verif.Fem.BasisProps

/-!
# Dirichlet and periodic specifications (model of `FEM.Dirichlet_boundary_conditions`, `FEM.periodic_boundary_conditions`)
-/
namespace Verif.Fem
open Finset

variable {dim : ℕ}

/-- `onp.argwhere(jax.vmap(location_fn)(self.mesh.points)).reshape(-1)` (core.py 293-294, 322-325). -/
def nodesWhere (numTotal : ℕ) (points : ℕ → Fin dim → ℝ) (loc : Loc dim) : List ℕ :=
  (((List.range numTotal).map points).map loc).zipIdx.filterMap fun p => if p.1 then some p.2 else none

/-- `Dirichlet_boundary_conditions` (core.py 269-302), also behind `update_Dirichlet_boundary_conditions` (304-313). -/
def dirichletBC (numTotal : ℕ) (points : ℕ → Fin dim → ℝ) (info : Option (List (Loc dim) × List ℕ × List ((Fin dim → ℝ) → ℝ))) :
    Except FemErr (List (List ℕ) × List (List ℕ) × List (List ℝ)) :=
  match info with
  | none => .ok ([], [], [])
  | some (locs, vecs, vals) =>
    if locs.length = vals.length ∧ vals.length = vecs.length then
      (List.range locs.length).foldlM (fun acc i => do
        let loc ← (locs[i]?).elim (Except.error FemErr.index) pure
        let nodes := nodesWhere numTotal points loc
        let v ← (vecs[i]?).elim (Except.error FemErr.index) pure
        let val ← (vals[i]?).elim (Except.error FemErr.index) pure
        pure (acc.1 ++ [nodes], acc.2.1 ++ [nodes.map fun _ => 1 * v], acc.2.2 ++ [(nodes.map points).map val])) ([], [], [])
    else .error .assertion

/-- `dist < EPS` (core.py 333-336). -/
noncomputable def distance (x y : Fin dim → ℝ) : ℝ := Real.sqrt (∑ d, (x d - y d) ^ 2)

/-- `node_inds_B[onp.argwhere(dist < EPS)].reshape(-1)` (core.py 333-337). -/
noncomputable def nearNodes (points : ℕ → Fin dim → ℝ) (nodesB : List ℕ) (y : Fin dim → ℝ) : List ℕ :=
  open Classical in nodesB.filter fun b => distance y (points b) < 1e-5

/-- One pass of the loop of `periodic_boundary_conditions` (core.py 320-347); `mappings[i]` is only evaluated for a selected node. -/
noncomputable def periodicRow (numTotal : ℕ) (points : ℕ → Fin dim → ℝ) (locA : Loc dim) (locB? : Option (Loc dim)) (map? : Option ((Fin dim → ℝ) → Fin dim → ℝ)) (vec? : Option ℕ) :
    Except FemErr (List ℕ × List ℕ × List ℕ) := do
  let nodesA := nodesWhere numTotal points locA
  let locB ← locB?.elim (Except.error FemErr.index) pure
  let nodesB := nodesWhere numTotal points locB
  let rows ← nodesA.mapM fun a => do
    let m ← map?.elim (Except.error FemErr.index) pure
    pure (nearNodes points nodesB (m (points a)))
  let ordered ← (npArrayFlat rows).elim (Except.error FemErr.shape) pure
  let v ← vec?.elim (Except.error FemErr.index) pure
  if nodesA.length = ordered.length then pure (nodesA, ordered, nodesA.map fun _ => 1 * v) else .error .assertion

/-- `periodic_boundary_conditions` (core.py 315-350). -/
noncomputable def periodicBC (numTotal : ℕ) (points : ℕ → Fin dim → ℝ)
    (info : Option (List (Loc dim) × List (Loc dim) × List ((Fin dim → ℝ) → Fin dim → ℝ) × List ℕ)) :
    Except FemErr (List (List ℕ) × List (List ℕ) × List (List ℕ)) :=
  match info with
  | none => .ok ([], [], [])
  | some (locsA, locsB, maps, vecs) => do
    let rows ← locsA.zipIdx.mapM fun p => periodicRow numTotal points p.1 locsB[p.2]? maps[p.2]? vecs[p.2]?
    pure (rows.map (·.1), rows.map (·.2.1), rows.map (·.2.2))

/-! ## C17 -/

theorem nodesWhere_eq (numTotal : ℕ) (points : ℕ → Fin dim → ℝ) (loc : Loc dim) :
    nodesWhere numTotal points loc = (List.range numTotal).filter fun n => loc (points n) := by
  unfold nodesWhere
  have h : ((((List.range numTotal).map points).map loc).zipIdx) = (List.range numTotal).map fun n => (loc (points n), n) := by
    refine List.ext_getElem (by simp) fun i h1 h2 => ?_
    simp
  rw [h, List.filterMap_map]
  induction (List.range numTotal) with
  | nil => rfl
  | cons a l ih =>
    simp only [Function.comp_def] at ih
    rw [List.filterMap_cons, List.filter_cons]
    by_cases hl : loc (points a) = true <;> simp [hl, ih, Function.comp_def]

theorem sorted_nodesWhere (numTotal : ℕ) (points : ℕ → Fin dim → ℝ) (loc : Loc dim) : (nodesWhere numTotal points loc).Pairwise (· < ·) := by
  rw [nodesWhere_eq]
  exact List.Pairwise.filter _ (List.pairwise_lt_range)

theorem mem_nodesWhere {numTotal : ℕ} {points : ℕ → Fin dim → ℝ} {loc : Loc dim} {n : ℕ} : n ∈ nodesWhere numTotal points loc ↔ n < numTotal ∧ loc (points n) = true := by
  rw [nodesWhere_eq]
  simp

theorem dirichlet_loop (numTotal : ℕ) (points : ℕ → Fin dim → ℝ) (locs : List (Loc dim)) (vecs : List ℕ) (vals : List ((Fin dim → ℝ) → ℝ))
    (h1 : locs.length = vals.length) (h2 : vals.length = vecs.length) (k : ℕ) (hk : k ≤ locs.length) :
    (List.range k).foldlM (fun acc i => do
        let loc ← (locs[i]?).elim (Except.error FemErr.index) pure
        let nodes := nodesWhere numTotal points loc
        let v ← (vecs[i]?).elim (Except.error FemErr.index) pure
        let val ← (vals[i]?).elim (Except.error FemErr.index) pure
        pure (acc.1 ++ [nodes], acc.2.1 ++ [nodes.map fun _ => 1 * v], acc.2.2 ++ [(nodes.map points).map val])) (([], [], []) : List (List ℕ) × List (List ℕ) × List (List ℝ))
      = .ok (((locs.zip (vecs.zip vals)).take k).map fun t => nodesWhere numTotal points t.1,
        ((locs.zip (vecs.zip vals)).take k).map fun t => (nodesWhere numTotal points t.1).map fun _ => t.2.1,
        ((locs.zip (vecs.zip vals)).take k).map fun t => (nodesWhere numTotal points t.1).map fun n => t.2.2 (points n)) := by
  induction k with
  | zero => rfl
  | succ k ih =>
    rw [List.range_succ, List.foldlM_append, ih (by omega)]
    have hl : k < locs.length := by omega
    have hv : k < vecs.length := by omega
    have hw : k < vals.length := by omega
    simp only [List.foldlM_cons, List.foldlM_nil]
    rw [List.getElem?_eq_getElem hl, List.getElem?_eq_getElem hv, List.getElem?_eq_getElem hw]
    show Except.ok _ = Except.ok _
    have hz : k < (locs.zip (vecs.zip vals)).length := by simp; omega
    rw [List.take_add_one, List.getElem?_eq_getElem hz]
    simp [List.getElem_zip, Function.comp_def]

/-- **C17 (which lists are accepted).** The call returns iff there is no specification or the three lists have the same length. -/
theorem C17_accepted (numTotal : ℕ) (points : ℕ → Fin dim → ℝ) (locs : List (Loc dim)) (vecs : List ℕ) (vals : List ((Fin dim → ℝ) → ℝ)) :
    ((∃ out, dirichletBC numTotal points (some (locs, vecs, vals)) = .ok out) ↔ locs.length = vals.length ∧ vals.length = vecs.length) ∧
    (¬ (locs.length = vals.length ∧ vals.length = vecs.length) → dirichletBC numTotal points (some (locs, vecs, vals)) = .error .assertion) ∧
    dirichletBC numTotal points none = .ok ([], [], []) := by
  refine ⟨⟨?_, ?_⟩, ?_, rfl⟩
  · rintro ⟨out, h⟩
    by_contra hne
    simp only [dirichletBC, if_neg hne, reduceCtorEq] at h
  · rintro ⟨h1, h2⟩
    simp only [dirichletBC]
    rw [if_pos ⟨h1, h2⟩, dirichlet_loop numTotal points locs vecs vals h1 h2 _ le_rfl]
    exact ⟨_, rfl⟩
  · intro hne
    simp only [dirichletBC, if_neg hne]

/-- **C17.** Whenever the call returns there is one entry per triple; the `i`-th node list is strictly increasing and consists of exactly the nodes of the mesh whose point satisfies the
`i`-th predicate; the component list is constantly the `i`-th component and the value list holds the `i`-th value function at these nodes' points, in the same order. -/
theorem C17_dirichlet (numTotal : ℕ) (points : ℕ → Fin dim → ℝ) (locs : List (Loc dim)) (vecs : List ℕ) (vals : List ((Fin dim → ℝ) → ℝ))
    (N C : List (List ℕ)) (W : List (List ℝ)) (h : dirichletBC numTotal points (some (locs, vecs, vals)) = .ok (N, C, W)) :
    N.length = locs.length ∧ C.length = locs.length ∧ W.length = locs.length ∧
    ∀ (i : ℕ) (loc : Loc dim) (v : ℕ) (val : (Fin dim → ℝ) → ℝ), locs[i]? = some loc → vecs[i]? = some v → vals[i]? = some val →
      ∃ ns cs ws, N[i]? = some ns ∧ C[i]? = some cs ∧ W[i]? = some ws ∧
        ns.Pairwise (· < ·) ∧ (∀ n, n ∈ ns ↔ n < numTotal ∧ loc (points n) = true) ∧
        cs.length = ns.length ∧ (∀ x ∈ cs, x = v) ∧ List.Forall₂ (fun n w => w = val (points n)) ns ws := by
  obtain ⟨h1, h2⟩ := (C17_accepted numTotal points locs vecs vals).1.mp ⟨_, h⟩
  simp only [dirichletBC] at h
  rw [if_pos ⟨h1, h2⟩, dirichlet_loop numTotal points locs vecs vals h1 h2 _ le_rfl, List.take_of_length_le (by simp)] at h
  simp only [Except.ok.injEq, Prod.mk.injEq] at h
  obtain ⟨rfl, rfl, rfl⟩ := h
  refine ⟨by simp; omega, by simp; omega, by simp; omega, ?_⟩
  intro i loc v val hl hv hw
  have hz : (locs.zip (vecs.zip vals))[i]? = some (loc, v, val) := by
    rw [List.getElem?_zip_eq_some]
    exact ⟨hl, List.getElem?_zip_eq_some.mpr ⟨hv, hw⟩⟩
  refine ⟨nodesWhere numTotal points loc, (nodesWhere numTotal points loc).map fun _ => v, (nodesWhere numTotal points loc).map fun n => val (points n), by simp [hz], by simp [hz], by simp [hz],
    sorted_nodesWhere _ _ _, fun n => mem_nodesWhere, by simp, ?_, ?_⟩
  · intro x hx
    obtain ⟨_, _, rfl⟩ := List.mem_map.mp hx
    rfl
  · rw [List.forall₂_map_right_iff]
    exact List.forall₂_same.mpr fun _ _ => rfl

/-- Left side of three points on a line: nodes 0 and 2 are selected, in this order, with their own values. -/
example : dirichletBC 3 (fun n (_ : Fin 1) => if n = 1 then (1 : ℝ) else 0) (some ([fun x => decide (x 0 = 0)], [2], [fun x => x 0 + 5]))
    = .ok ([[0, 2]], [[2, 2]], [[5, 5]]) := by
  simp only [dirichletBC]
  rw [if_pos (by simp), dirichlet_loop _ _ _ _ _ rfl rfl _ le_rfl]
  have hr : List.range 3 = [0, 1, 2] := rfl
  simp [nodesWhere_eq, hr]

/-! ## C18 -/

/-- Specification: node `b` is a candidate for the image `y` on the boundary `locB`. -/
def Candidate (numTotal : ℕ) (points : ℕ → Fin dim → ℝ) (locB : Loc dim) (y : Fin dim → ℝ) (b : ℕ) : Prop :=
  b < numTotal ∧ locB (points b) = true ∧ Real.sqrt (∑ d, (y d - points b d) ^ 2) < 1e-5

theorem mem_nearNodes {numTotal : ℕ} {points : ℕ → Fin dim → ℝ} {locB : Loc dim} {y : Fin dim → ℝ} {b : ℕ} :
    b ∈ nearNodes points (nodesWhere numTotal points locB) y ↔ Candidate numTotal points locB y b := by
  unfold nearNodes Candidate
  rw [List.mem_filter, mem_nodesWhere, decide_eq_true_iff, and_assoc]
  rfl

theorem nodup_nearNodes (numTotal : ℕ) (points : ℕ → Fin dim → ℝ) (locB : Loc dim) (y : Fin dim → ℝ) : (nearNodes points (nodesWhere numTotal points locB) y).Nodup := by
  unfold nearNodes
  exact List.Nodup.filter _ ((sorted_nodesWhere numTotal points locB).imp fun h => ne_of_lt h)

theorem nearNodes_singleton {numTotal : ℕ} {points : ℕ → Fin dim → ℝ} {locB : Loc dim} {y : Fin dim → ℝ} {b : ℕ} :
    nearNodes points (nodesWhere numTotal points locB) y = [b] ↔ Candidate numTotal points locB y b ∧ ∀ b', Candidate numTotal points locB y b' → b' = b := by
  constructor
  · intro h
    simp only [← mem_nearNodes, h, List.mem_singleton, imp_self, implies_true, and_self]
  · rintro ⟨h1, h2⟩
    have hn := nodup_nearNodes numTotal points locB y
    have hall : ∀ x ∈ nearNodes points (nodesWhere numTotal points locB) y, x = b := fun x hx => h2 x (mem_nearNodes.mp hx)
    have hmem := mem_nearNodes.mpr h1
    revert hn hall hmem
    generalize nearNodes points (nodesWhere numTotal points locB) y = l
    intro hn hall hmem
    match l, hn, hall, hmem with
    | [], _, _, h => simp at h
    | [x], _, hall, _ => rw [hall x (by simp)]
    | x :: z :: t, hn, hall, _ =>
      rw [hall x (by simp), hall z (by simp)] at hn
      simp at hn

theorem periodicRow_ok_iff (numTotal : ℕ) (points : ℕ → Fin dim → ℝ) (locA : Loc dim) (locB? : Option (Loc dim)) (map? : Option ((Fin dim → ℝ) → Fin dim → ℝ)) (vec? : Option ℕ)
    (as bs vs : List ℕ) :
    periodicRow numTotal points locA locB? map? vec? = .ok (as, bs, vs) ↔ as = nodesWhere numTotal points locA ∧ ∃ locB v, locB? = some locB ∧ vec? = some v ∧ vs = as.map (fun _ => v) ∧
      (as = [] ∧ bs = [] ∨ ∃ m, map? = some m ∧ List.Forall₂ (fun a b => nearNodes points (nodesWhere numTotal points locB) (m (points a)) = [b]) as bs) := by
  unfold periodicRow
  dsimp only
  set nA := nodesWhere numTotal points locA with hnA
  cases locB? with
  | none =>
    constructor
    · intro h; cases h
    · rintro ⟨-, locB, v, h, -⟩; cases h
  | some locB =>
    show (do
      let rows ← nA.mapM fun a => do
        let m ← map?.elim (Except.error FemErr.index) pure
        pure (nearNodes points (nodesWhere numTotal points locB) (m (points a)))
      let ordered ← (npArrayFlat rows).elim (Except.error FemErr.shape) pure
      let v ← vec?.elim (Except.error FemErr.index) pure
      if nA.length = ordered.length then pure (nA, ordered, nA.map fun _ => 1 * v) else .error .assertion : Except FemErr _) = _ ↔ _
    cases map? with
    | none =>
      cases hA : nA with
      | nil =>
        show (do
          let v ← vec?.elim (Except.error FemErr.index) pure
          if ([] : List ℕ).length = ([] : List ℕ).length then pure (([] : List ℕ), ([] : List ℕ), ([] : List ℕ).map fun _ => 1 * v) else .error .assertion : Except FemErr _) = _ ↔ _
        cases vec? with
        | none =>
          constructor
          · intro h; cases h
          · rintro ⟨-, locB, v, -, h, -⟩; cases h
        | some v =>
          show (Except.ok (([] : List ℕ), ([] : List ℕ), ([] : List ℕ)) : Except FemErr _) = _ ↔ _
          constructor
          · intro h; injection h with h; cases h
            exact ⟨rfl, locB, v, rfl, rfl, rfl, Or.inl ⟨rfl, rfl⟩⟩
          · rintro ⟨rfl, _, _, -, -, rfl, ⟨-, rfl⟩ | ⟨m, h, -⟩⟩
            · rfl
            · cases h
      | cons a l =>
        constructor
        · intro h; cases h
        · rintro ⟨rfl, _, _, -, -, -, ⟨h, -⟩ | ⟨m, h, -⟩⟩ <;> cases h
    | some m =>
      have hm : (nA.mapM fun a => do
          let m ← (some m).elim (Except.error FemErr.index) pure
          pure (nearNodes points (nodesWhere numTotal points locB) (m (points a))) : Except FemErr _) = .ok (nA.map fun a => nearNodes points (nodesWhere numTotal points locB) (m (points a))) := by
        rw [mapM_ok_iff, List.forall₂_map_right_iff]
        exact List.forall₂_same.mpr fun _ _ => rfl
      rw [hm]
      show (do
        let ordered ← (npArrayFlat (nA.map fun a => nearNodes points (nodesWhere numTotal points locB) (m (points a)))).elim (Except.error FemErr.shape) pure
        let v ← vec?.elim (Except.error FemErr.index) pure
        if nA.length = ordered.length then pure (nA, ordered, nA.map fun _ => 1 * v) else .error .assertion : Except FemErr _) = _ ↔ _
      have key := npArrayFlat_length (nA.map fun a => nearNodes points (nodesWhere numTotal points locB) (m (points a)))
      have hflat : ∀ flat, npArrayFlat (nA.map fun a => nearNodes points (nodesWhere numTotal points locB) (m (points a))) = some flat → nA.length = flat.length →
          List.Forall₂ (fun a b => nearNodes points (nodesWhere numTotal points locB) (m (points a)) = [b]) nA flat := by
        intro flat h1 h2
        have h3 := key.mp ⟨flat, h1, by rw [List.length_map]; exact h2.symm⟩
        rw [(npArrayFlat_some.mp h1).2]
        exact flatten_singletons fun a ha => h3 _ (List.mem_map_of_mem ha)
      have hback : ∀ bs, List.Forall₂ (fun a b => nearNodes points (nodesWhere numTotal points locB) (m (points a)) = [b]) nA bs →
          npArrayFlat (nA.map fun a => nearNodes points (nodesWhere numTotal points locB) (m (points a))) = some bs ∧ nA.length = bs.length := by
        intro bs hbs
        have hlen := hbs.length_eq
        have h3 : ∀ r ∈ (nA.map fun a => nearNodes points (nodesWhere numTotal points locB) (m (points a))), r.length = 1 := by
          intro r hr
          obtain ⟨a, ha, rfl⟩ := List.mem_map.mp hr
          obtain ⟨j, hj, rfl⟩ := List.mem_iff_getElem.mp ha
          have hj2 := (List.forall₂_iff_get.mp hbs).2 j hj (hlen ▸ hj)
          rw [List.get_eq_getElem] at hj2
          rw [hj2]
          rfl
        obtain ⟨flat, h4, h5⟩ := key.mpr h3
        have h6 := hflat flat h4 (by rw [h5, List.length_map])
        have h7 : flat = bs := by
          refine List.ext_getElem (by rw [← h6.length_eq, hlen]) fun j hj1 hj2 => ?_
          have a1 := (List.forall₂_iff_get.mp h6).2 j (h6.length_eq ▸ hj1) hj1
          have a2 := (List.forall₂_iff_get.mp hbs).2 j (hlen ▸ hj2) hj2
          rw [a1] at a2
          simpa using a2
        exact ⟨h7 ▸ h4, hlen⟩
      cases hf : npArrayFlat (nA.map fun a => nearNodes points (nodesWhere numTotal points locB) (m (points a))) with
      | none =>
        constructor
        · intro h; cases h
        · rintro ⟨rfl, locB', v, hB, -, -, h | ⟨m', hm', h⟩⟩
          · rw [h.1] at hf
            simp [npArrayFlat] at hf
          · injection hB with hB; injection hm' with hm'
            subst hB hm'
            rw [(hback bs h).1] at hf
            cases hf
      | some flat =>
        cases vec? with
        | none =>
          constructor
          · intro h; cases h
          · rintro ⟨-, locB, v, -, h, -⟩; cases h
        | some v =>
          show (if nA.length = flat.length then Except.ok (nA, flat, nA.map fun _ => 1 * v) else Except.error FemErr.assertion : Except FemErr _) = _ ↔ _
          by_cases hl : nA.length = flat.length
          · rw [if_pos hl]
            simp only [Except.ok.injEq, Prod.mk.injEq, one_mul]
            constructor
            · rintro ⟨rfl, rfl, rfl⟩
              exact ⟨rfl, locB, v, rfl, rfl, rfl, Or.inr ⟨m, rfl, hflat flat hf hl⟩⟩
            · rintro ⟨rfl, locB', v', hB, hv, rfl, h⟩
              injection hB with hB; injection hv with hv
              subst hB hv
              refine ⟨rfl, ?_, rfl⟩
              rcases h with ⟨h1, h2⟩ | ⟨m', hm', h⟩
              · rw [h2]
                rw [h1] at hl
                exact List.length_eq_zero_iff.mp hl.symm
              · injection hm' with hm'
                subst hm'
                have := (hback bs h).1
                rw [hf] at this
                injection this
          · rw [if_neg hl]
            constructor
            · intro h; cases h
            · rintro ⟨rfl, locB', v', hB, hv, rfl, h⟩
              exfalso
              injection hB with hB
              subst hB
              rcases h with ⟨h1, h2⟩ | ⟨m', hm', h⟩
              · rw [h1] at hf hl
                simp [npArrayFlat] at hf
                exact hl (by rw [← hf])
              · injection hm' with hm'
                subst hm'
                have := hback bs h
                rw [hf] at this
                injection this.1 with h9
                exact hl (h9 ▸ this.2)

/-- **C18 (accepted pairings are right).** If `periodic_boundary_conditions` returns, then for each specification the A list holds exactly the nodes on A in increasing order; the B list has the same length and
its entries are, position by position, nodes on B within `1e-5` of the image of the A node and the only such nodes; the component list is constant with the same length. -/
theorem C18_pairs (numTotal : ℕ) (points : ℕ → Fin dim → ℝ) (locsA locsB : List (Loc dim)) (maps : List ((Fin dim → ℝ) → Fin dim → ℝ)) (vecs : List ℕ) (A B C : List (List ℕ))
    (h : periodicBC numTotal points (some (locsA, locsB, maps, vecs)) = .ok (A, B, C)) :
    A.length = locsA.length ∧ B.length = locsA.length ∧ C.length = locsA.length ∧
    ∀ (i : ℕ) (locA : Loc dim), locsA[i]? = some locA → ∃ locB v as bs cs, locsB[i]? = some locB ∧ vecs[i]? = some v ∧ A[i]? = some as ∧ B[i]? = some bs ∧ C[i]? = some cs ∧
      as.Pairwise (· < ·) ∧ (∀ n, n ∈ as ↔ n < numTotal ∧ locA (points n) = true) ∧ cs.length = as.length ∧ (∀ x ∈ cs, x = v) ∧
      List.Forall₂ (fun a b => ∃ m, maps[i]? = some m ∧ Candidate numTotal points locB (m (points a)) b ∧ ∀ b', Candidate numTotal points locB (m (points a)) b' → b' = b) as bs := by
  unfold periodicBC at h
  cases hr : (locsA.zipIdx.mapM fun p => periodicRow numTotal points p.1 locsB[p.2]? maps[p.2]? vecs[p.2]?) with
  | error e =>
    dsimp only at h
    rw [hr] at h; cases h
  | ok rows =>
    dsimp only at h
    rw [hr] at h
    have h : (Except.ok (rows.map (·.1), rows.map (·.2.1), rows.map (·.2.2)) : Except FemErr _) = .ok (A, B, C) := h
    simp only [Except.ok.injEq, Prod.mk.injEq] at h
    obtain ⟨rfl, rfl, rfl⟩ := h
    have hF := mapM_ok_iff.mp hr
    have hlen : rows.length = locsA.length := by rw [← hF.length_eq]; simp
    refine ⟨by simp [hlen], by simp [hlen], by simp [hlen], ?_⟩
    intro i locA hA
    have hi : i < locsA.length := (List.getElem?_eq_some_iff.mp hA).1
    have hi' : i < rows.length := hlen ▸ hi
    have hrow := (List.forall₂_iff_get.mp hF).2 i (by simpa using hi) hi'
    obtain ⟨as, bs, cs, hrr⟩ : ∃ as bs cs, rows[i] = (as, bs, cs) := ⟨_, _, _, rfl⟩
    have hget : rows.get ⟨i, hi'⟩ = (as, bs, cs) := hrr
    rw [hget] at hrow
    simp only [List.get_eq_getElem, List.getElem_zipIdx, zero_add] at hrow
    have hlA : locsA[i] = locA := (List.getElem?_eq_some_iff.mp hA).2
    rw [hlA] at hrow
    obtain ⟨rfl, locB, v, hB, hv, rfl, hpair⟩ := (periodicRow_ok_iff _ _ _ _ _ _ _ _ _).mp hrow
    have hg : rows[i]? = some (nodesWhere numTotal points locA, bs, (nodesWhere numTotal points locA).map fun _ => v) := by rw [List.getElem?_eq_getElem hi', hrr]
    refine ⟨locB, v, _, bs, _, hB, hv, by rw [List.getElem?_map, hg]; rfl, by rw [List.getElem?_map, hg]; rfl, by rw [List.getElem?_map, hg]; rfl, sorted_nodesWhere _ _ _, fun n => mem_nodesWhere, by simp, ?_, ?_⟩
    · intro x hx
      obtain ⟨_, _, rfl⟩ := List.mem_map.mp hx
      rfl
    · rcases hpair with ⟨h1, rfl⟩ | ⟨m, hm, hF2⟩
      · rw [h1]; exact List.Forall₂.nil
      · exact hF2.imp fun a b hab => ⟨m, hm, nearNodes_singleton.mp hab⟩

/-- **C18 (exactly these specifications are accepted).** The call returns iff for each A predicate there are a B predicate and a component, and (if A is nonempty) a mapping such that every node on A
has exactly one candidate on B; otherwise it raises. -/
theorem C18_accepted (numTotal : ℕ) (points : ℕ → Fin dim → ℝ) (locsA locsB : List (Loc dim)) (maps : List ((Fin dim → ℝ) → Fin dim → ℝ)) (vecs : List ℕ) :
    (∃ out, periodicBC numTotal points (some (locsA, locsB, maps, vecs)) = .ok out) ↔
      ∀ (i : ℕ) (locA : Loc dim), locsA[i]? = some locA → ∃ locB v, locsB[i]? = some locB ∧ vecs[i]? = some v ∧
        ((∀ a < numTotal, locA (points a) = false) ∨ ∃ m, maps[i]? = some m ∧ ∀ a < numTotal, locA (points a) = true → ∃! b, Candidate numTotal points locB (m (points a)) b) := by
  constructor
  · rintro ⟨⟨A, B, C⟩, h⟩ i locA hA
    obtain ⟨-, -, -, h4⟩ := C18_pairs numTotal points locsA locsB maps vecs A B C h
    obtain ⟨locB, v, as, bs, cs, hB, hv, -, -, -, -, hmem, -, -, hF⟩ := h4 i locA hA
    refine ⟨locB, v, hB, hv, ?_⟩
    by_cases hex : ∃ a < numTotal, locA (points a) = true
    · right
      have hall : ∀ a ∈ as, ∃ m, maps[i]? = some m ∧ ∃! b, Candidate numTotal points locB (m (points a)) b := by
        intro a ha
        obtain ⟨j, hj, rfl⟩ := List.mem_iff_getElem.mp ha
        obtain ⟨m, hm, h5, h6⟩ := (List.forall₂_iff_get.mp hF).2 j hj (hF.length_eq ▸ hj)
        exact ⟨m, hm, _, h5, h6⟩
      obtain ⟨a, ha1, ha2⟩ := hex
      obtain ⟨m, hm, -⟩ := hall a ((hmem a).mpr ⟨ha1, ha2⟩)
      refine ⟨m, hm, fun a' h1 h2 => ?_⟩
      obtain ⟨m', hm', h⟩ := hall a' ((hmem a').mpr ⟨h1, h2⟩)
      rw [hm] at hm'
      injection hm' with hm'
      subst hm'
      exact h
    · left
      intro a ha
      by_contra hne
      exact hex ⟨a, ha, by simpa using hne⟩
  · intro h
    have hrow : ∀ p ∈ locsA.zipIdx, ∃ r, periodicRow numTotal points p.1 locsB[p.2]? maps[p.2]? vecs[p.2]? = .ok r := by
      intro p hp
      obtain ⟨locB, v, hB, hv, hc⟩ := h p.2 p.1 (List.mem_zipIdx_iff_getElem?.mp (show (p.1, p.2) ∈ locsA.zipIdx from hp))
      rcases hc with hno | ⟨m, hm, hall⟩
      · have hnil : nodesWhere numTotal points p.1 = [] := by
          rw [List.eq_nil_iff_forall_not_mem]
          intro n hn
          obtain ⟨h1, h2⟩ := mem_nodesWhere.mp hn
          rw [hno n h1] at h2
          cases h2
        exact ⟨_, (periodicRow_ok_iff _ _ _ _ _ _ _ _ _).mpr ⟨rfl, locB, v, hB, hv, rfl, Or.inl ⟨hnil, rfl⟩⟩⟩
      · have hb : ∀ a : ℕ, ∃ b, a ∈ nodesWhere numTotal points p.1 → nearNodes points (nodesWhere numTotal points locB) (m (points a)) = [b] := by
          intro a
          by_cases ha : a ∈ nodesWhere numTotal points p.1
          · obtain ⟨h1, h2⟩ := mem_nodesWhere.mp ha
            obtain ⟨b, h3, h4⟩ := hall a h1 h2
            exact ⟨b, fun _ => nearNodes_singleton.mpr ⟨h3, h4⟩⟩
          · exact ⟨0, fun h => absurd h ha⟩
        choose g hg using hb
        refine ⟨_, (periodicRow_ok_iff _ _ _ _ _ _ _ ((nodesWhere numTotal points p.1).map g) _).mpr ⟨rfl, locB, v, hB, hv, rfl, Or.inr ⟨m, hm, ?_⟩⟩⟩
        rw [List.forall₂_map_right_iff]
        exact List.forall₂_same.mpr fun a ha => hg a ha
    choose! r hr using hrow
    have hm : (locsA.zipIdx.mapM fun p => periodicRow numTotal points p.1 locsB[p.2]? maps[p.2]? vecs[p.2]?) = .ok (locsA.zipIdx.map r) := by
      rw [mapM_ok_iff, List.forall₂_map_right_iff]
      exact List.forall₂_same.mpr fun p hp => hr p hp
    unfold periodicBC
    dsimp only
    rw [hm]
    exact ⟨_, rfl⟩

/-- Two points at distance one: node 0 (left) is paired with node 1 (right). -/
example : ∃ out, periodicBC 2 (fun n (_ : Fin 1) => (n : ℝ)) (some ([fun x => decide (x 0 = 0)], [fun x => decide (x 0 = 1)], [fun x d => x d + 1], [0])) = .ok out := by
  rw [C18_accepted]
  intro i locA hA
  match i with
  | 0 =>
    simp only [List.length_singleton, List.getElem?_cons_zero, Option.some.injEq] at hA
    subst hA
    refine ⟨_, 0, rfl, rfl, Or.inr ⟨_, rfl, ?_⟩⟩
    intro a ha h0
    obtain rfl : a = 0 := by simpa using h0
    refine ⟨1, ⟨by norm_num, by simp, by norm_num⟩, ?_⟩
    rintro b ⟨-, hb, -⟩
    simpa using hb
  | i + 1 => simp at hA

/-- With an image that hits no node the same call raises. -/
example : ¬ ∃ out, periodicBC 2 (fun n (_ : Fin 1) => (n : ℝ)) (some ([fun x => decide (x 0 = 0)], [fun x => decide (x 0 = 1)], [fun x d => x d + 3], [0])) = .ok out := by
  rw [C18_accepted]
  intro h
  obtain ⟨locB, v, hB, -, h⟩ := h 0 _ rfl
  simp only [List.getElem?_cons_zero, Option.some.injEq] at hB
  subst hB
  rcases h with h | ⟨m, hm, h⟩
  · have := h 0 (by norm_num)
    simp at this
  · simp only [List.getElem?_cons_zero, Option.some.injEq] at hm
    subst hm
    obtain ⟨b, ⟨-, hb, hd⟩, -⟩ := h 0 (by norm_num) (by simp)
    have hb : (b : ℝ) = 1 := by simpa using hb
    simp only [hb, univ_unique, sum_const, card_singleton, one_smul, Nat.cast_zero, zero_add] at hd
    rw [show ((3 : ℝ) - 1) ^ 2 = 2 ^ 2 by norm_num, Real.sqrt_sq (by norm_num)] at hd
    norm_num at hd

end Verif.Fem
