import Verif.Fem.Lagrange
import Verif.Fem.SolverProps

/-!
# C24-C26, C28: the Lagrange multiplier solver, the dispatcher, the damping coefficient
-/
namespace Verif.Fem
open Finset

variable {K E : Type}

/-! ## Lemmas on the multiplier blocks -/

theorem zipWith_append_right {α β γ : Type} (f : α → β → γ) : ∀ (a b : List β) (l : List α),
    List.zipWith f l (a ++ b) = List.zipWith f (l.take a.length) a ++ List.zipWith f (l.drop a.length) b
  | [], b, l => by simp
  | y :: a, b, [] => by simp
  | y :: a, b, x :: l => by simp [zipWith_append_right f a b l]

theorem split_sum {α : Type} (c : α → List ℝ) (size : α → ℕ) (l : List ℝ) : ∀ (gs : List α) (s : ℕ), (∀ g ∈ gs, (c g).length = size g) →
    ((gs.zip (npSplit l s (npCumsum s (gs.map size)))).map fun p => (List.zipWith (· * ·) p.2 (c p.1)).sum).sum = (List.zipWith (· * ·) (l.drop s) (gs.flatMap c)).sum
  | [], s, _ => by simp
  | g :: gs, s, h => by
    have ih := split_sum c size l gs (s + size g) fun g' hg' => h g' (by simp [hg'])
    simp only [List.map_cons, npCumsum, npSplit, List.zip_cons_cons, List.sum_cons, List.flatMap_cons]
    rw [ih, zipWith_append_right, List.sum_append, h g (by simp), List.drop_drop, Nat.add_sub_cancel_left]

theorem npCumsum_last : ∀ (ns : List ℕ) (s : ℕ), ns ≠ [] → (npCumsum s ns).getLast? = some (s + ns.sum)
  | [], _, h => absurd rfl h
  | [n], s, _ => by simp [npCumsum]
  | n :: m :: ns, s, _ => by
    have ih := npCumsum_last (m :: ns) (s + n) (by simp)
    rw [npCumsum]
    have hne : npCumsum (s + n) (m :: ns) ≠ [] := by simp [npCumsum]
    rw [List.getLast?_cons_of_ne_nil hne, ih]
    simp [add_assoc]

theorem npCumsum_getLast (ns : List ℕ) : (npCumsum 0 ns).getLast?.getD 0 = ns.sum := by
  cases ns with
  | nil => rfl
  | cons n ns => rw [npCumsum_last _ _ (by simp)]; simp

/-- **C24 (multiplier blocks).** For any number and sizes of groups: splitting a vector of multipliers at the cumulative sizes gives blocks of exactly these sizes (and a final empty one),
in order and without loss. -/
theorem C24_split {K : Type} (l : List K) (sizes : List ℕ) (h : sizes.sum = l.length) :
    (npSplit l 0 (npCumsum 0 sizes)).flatten = l ∧ (npSplit l 0 (npCumsum 0 sizes)).map List.length = sizes ++ [0] := by
  have key : ∀ (sizes : List ℕ) (s : ℕ), s + sizes.sum = l.length →
      (npSplit l s (npCumsum s sizes)).flatten = l.drop s ∧ (npSplit l s (npCumsum s sizes)).map List.length = sizes ++ [0] := by
    intro sizes
    induction sizes with
    | nil => intro s hs; simp at hs; simp [npSplit, npCumsum, hs]
    | cons n ns ih =>
      intro s hs
      simp only [List.sum_cons] at hs
      obtain ⟨h1, h2⟩ := ih (s + n) (by omega)
      simp only [npCumsum, npSplit, List.flatten_cons, List.map_cons, h1, h2, Nat.add_sub_cancel_left, List.length_take, List.length_drop, List.cons_append]
      refine ⟨?_, by congr 1; omega⟩
      rw [← List.drop_drop, List.take_append_drop]
  simpa using key sizes 0 (by simpa using h)

example : npSplit [10, 11, 12, 13, 14] 0 (npCumsum 0 [2, 0, 3]) = [[10, 11], [], [12, 13, 14], []] := by decide

/-- Specification: the pairs tied by periodic conditions, in order. -/
def LProb.ties (L : LProb K E) : List (ℕ × ℕ) := L.pgroups.flatMap fun g => (L.idxA g).zip (L.idxB g)

/-- Well-formed constraints: array lengths agree and all positions are degrees of freedom. -/
structure LProb.WF (L : LProb K E) : Prop where
  lens : ∀ g ∈ L.groups, g.nodes.length = g.comps.length ∧ g.comps.length = g.vals.length
  plens : ∀ g ∈ L.pgroups, g.nodesA.length = g.nodesB.length ∧ g.nodesB.length = g.comps.length
  range : ∀ p ∈ L.prescriptions, p.1 < L.numDofs
  prange : ∀ p ∈ L.ties, p.1 < L.numDofs ∧ p.2 < L.numDofs

namespace LProb

theorem rows_eq (ar : Arith K) (L : LProb K E) : L.rows ar = (L.prescriptions.map fun p => (⟨p.1, none, p.2⟩ : CRow K)) ++ L.ties.map fun p => ⟨p.1, some p.2, ar.zero⟩ := by
  unfold rows Prob.prescriptions ties
  rw [List.map_flatMap, List.map_flatMap]

variable {L : LProb K E}

theorem prescriptions_length (h : L.WF) : L.prescriptions.length = (L.groups.map fun g => g.nodes.length).sum := by
  unfold Prob.prescriptions
  rw [List.length_flatMap]
  congr 1
  refine List.map_congr_left fun g hg => ?_
  have := h.lens g hg
  simp [Prob.idx]
  omega

theorem ties_length (h : L.WF) : L.ties.length = (L.pgroups.map fun g => g.nodesA.length).sum := by
  unfold ties
  rw [List.length_flatMap]
  congr 1
  refine List.map_congr_left fun g hg => ?_
  have := h.plens g hg
  simp [idxA, idxB]
  omega

theorem rows_length (ar : Arith K) (h : L.WF) : (L.rows ar).length = L.augSize := by
  rw [rows_eq, List.length_append, List.length_map, List.length_map, prescriptions_length h, ties_length h]
  rfl

theorem zip_map_left {α β γ δ : Type} (f : α → γ) (h : γ → β → δ) : ∀ (a : List α) (b : List β), List.zipWith h (a.map f) b = (a.zip b).map fun p => h (f p.1) p.2
  | [], _ => by simp
  | _ :: _, [] => by simp
  | x :: a, y :: b => by simp [zip_map_left f h a b]

theorem zip_map_both {α β γ δ ε : Type} (f : α → γ) (g : β → ε) (h : γ → ε → δ) : ∀ (a : List α) (b : List β),
    List.zipWith h (a.map f) (b.map g) = (a.zip b).map fun p => h (f p.1) (g p.2)
  | [], _ => by simp
  | _ :: _, [] => by simp
  | x :: a, y :: b => by simp [zip_map_both f g h a b]

theorem zipIdx_sum {α : Type} (f : α → ℝ) (x : ℕ → ℝ) : ∀ (l : List α) (N : ℕ),
    (List.zipWith (· * ·) ((List.range l.length).map fun k => x (N + k)) (l.map f)).sum = ((l.zipIdx N).map fun p => x p.2 * f p.1).sum
  | [], N => by simp
  | a :: l, N => by
    have ih := zipIdx_sum f x l (N + 1)
    rw [List.length_cons, List.range_succ_eq_map, List.map_cons, List.map_map, List.map_cons, List.zipWith_cons_cons, List.sum_cons, List.zipIdx_cons, List.map_cons, List.sum_cons, ← ih]
    congr 3
    refine List.map_congr_left fun k _ => ?_
    simp only [Function.comp_apply, Nat.succ_eq_add_one]
    congr 1
    omega

/-- The Lagrangian is `eps` times the sum of multiplier times violation over all constraints. -/
theorem lagrangian_eq {L : LProb ℝ E} (h : L.WF) (x : ℕ → ℝ) :
    L.lagrangian x = L.eps * (((L.rows realArith).zipIdx L.numDofs).map fun p => x p.2 * gap realArith p.1 x).sum := by
  unfold lagrangian
  dsimp only
  rw [split_sum (fun g : Group ℝ => List.zipWith (· - ·) ((L.idx g).map x) g.vals) (fun g => g.nodes.length) _ L.groups 0 ?_,
    split_sum (fun g : PGroup => List.zipWith (· - ·) ((L.idxA g).map x) ((L.idxB g).map x)) (fun g => g.nodesA.length) _ L.pgroups 0 ?_]
  · rw [npCumsum_getLast]
    have h1 : (L.groups.flatMap fun g => List.zipWith (· - ·) ((L.idx g).map x) g.vals) = (L.prescriptions.map fun p => (⟨p.1, none, p.2⟩ : CRow ℝ)).map fun r => gap realArith r x := by
      unfold Prob.prescriptions
      rw [List.map_map, List.map_flatMap]
      refine List.flatMap_congr fun g _ => ?_
      rw [zip_map_left]
      refine List.map_congr_left fun p _ => ?_
      exact sub_eq_add_neg _ _
    have h2 : (L.pgroups.flatMap fun g => List.zipWith (· - ·) ((L.idxA g).map x) ((L.idxB g).map x)) =
        (L.ties.map fun p => (⟨p.1, some p.2, 0⟩ : CRow ℝ)).map fun r => gap realArith r x := by
      unfold ties
      rw [List.map_map, List.map_flatMap]
      refine List.flatMap_congr fun g _ => ?_
      rw [zip_map_both]
      refine List.map_congr_left fun p _ => ?_
      exact sub_eq_add_neg _ _
    rw [h1, h2, List.drop_zero, List.drop_zero, ← prescriptions_length h, ← zipIdx_sum (fun r => gap realArith r x) x, rows_length realArith h, rows_eq, List.map_append,
      zipWith_append_right, List.sum_append]
    simp only [List.length_map]
    rfl
  · intro g hg
    have := h.plens g hg
    simp [idxA, idxB]
    omega
  · intro g hg
    have := h.lens g hg
    simp [Prob.idx]
    omega

/-- The linear part of a constraint. -/
def dgap (r : CRow ℝ) (v : ℕ → ℝ) : ℝ :=
  match r.b with
  | none => v r.a
  | some b => v r.a - v b

theorem gap_line (r : CRow ℝ) (x v : ℕ → ℝ) (t : ℝ) : gap realArith r (x + t • v) = gap realArith r x + t * dgap r v := by
  unfold gap dgap
  cases r.b with
  | none =>
    show x r.a + t * v r.a + -r.rhs = x r.a + -r.rhs + t * v r.a
    ring
  | some b =>
    show x r.a + t * v r.a + -(x b + t * v b) = x r.a + -x b + t * (v r.a - v b)
    ring

theorem gap_hasDeriv (r : CRow ℝ) (x v : ℕ → ℝ) : HasDerivAt (fun t : ℝ => gap realArith r (x + t • v)) (dgap r v) 0 := by
  simp only [gap_line]
  simpa using ((hasDerivAt_id (0 : ℝ)).mul_const (dgap r v)).const_add (gap realArith r x)

theorem coord_hasDeriv (x v : ℕ → ℝ) (k : ℕ) : HasDerivAt (fun t : ℝ => (x + t • v) k) (v k) 0 := by
  have : ∀ t : ℝ, (x + t • v) k = x k + t * v k := fun t => rfl
  simp only [this]
  simpa using ((hasDerivAt_id (0 : ℝ)).mul_const (v k)).const_add (x k)

theorem lagrangian_hasDeriv {L : LProb ℝ E} (h : L.WF) (x v : ℕ → ℝ) :
    HasDerivAt (fun t : ℝ => L.lagrangian (x + t • v)) (L.eps * (((L.rows realArith).zipIdx L.numDofs).map fun p => v p.2 * gap realArith p.1 x + x p.2 * dgap p.1 v).sum) 0 := by
  simp only [lagrangian_eq h]
  refine HasDerivAt.const_mul _ ?_
  refine HasDerivAt.list_sum _ _ _ _ fun p _ => ?_
  have := (coord_hasDeriv x v p.2).mul (gap_hasDeriv p.1 x v)
  simp only [zero_smul, add_zero] at this
  exact this

/-- The gradient of the Lagrangian, entry by entry. -/
theorem grad_eq {L : LProb ℝ E} (h : L.WF) (x : ℕ → ℝ) (d : ℕ) : deriv (fun t : ℝ => L.lagrangian (x + t • Pi.single d 1)) 0 =
    L.eps * (((L.rows realArith).zipIdx L.numDofs).map fun p => (if p.2 = d then gap realArith p.1 x else 0) + x p.2 * dgap p.1 (Pi.single d 1)).sum := by
  rw [(lagrangian_hasDeriv h x _).deriv]
  congr 2
  refine List.map_congr_left fun p _ => ?_
  congr 1
  by_cases hp : p.2 = d <;> simp [hp]

theorem rows_range {L : LProb K E} (ar : Arith K) (h : L.WF) : ∀ r ∈ L.rows ar, r.a < L.numDofs ∧ ∀ b, r.b = some b → b < L.numDofs := by
  intro r hr
  rw [rows_eq, List.mem_append] at hr
  rcases hr with hr | hr
  · obtain ⟨p, hp, rfl⟩ := List.mem_map.mp hr
    exact ⟨h.range p hp, fun b hb => by cases hb⟩
  · obtain ⟨p, hp, rfl⟩ := List.mem_map.mp hr
    refine ⟨(h.prange p hp).1, fun b hb => ?_⟩
    cases hb
    exact (h.prange p hp).2

theorem mem_zipIdx_ge {α : Type} {l : List α} {N : ℕ} {p : α × ℕ} (hp : p ∈ l.zipIdx N) : N ≤ p.2 ∧ p.2 < N + l.length ∧ l[p.2 - N]? = some p.1 := by
  obtain ⟨r, k⟩ := p
  obtain ⟨h1, h2, h3⟩ := List.mem_zipIdx hp
  refine ⟨h1, h2, ?_⟩
  rw [h3]
  simp

theorem sum_zipIdx_single {α : Type} (f : α → ℝ) : ∀ (l : List α) (N d : ℕ), ((l.zipIdx N).map fun p => if p.2 = d then f p.1 else 0).sum =
    if N ≤ d then (match l[d - N]? with | some a => f a | none => 0) else 0
  | [], N, d => by simp
  | a :: l, N, d => by
    rw [List.zipIdx_cons, List.map_cons, List.sum_cons, sum_zipIdx_single f l (N + 1) d]
    rcases Nat.lt_trichotomy N d with h | h | h
    · obtain ⟨k, rfl⟩ := Nat.exists_eq_add_of_lt h
      have e1 : N + k + 1 - N = k + 1 := by omega
      have e2 : N + k + 1 - (N + 1) = k := by omega
      rw [if_neg (by simp only; omega), if_pos (by omega), if_pos (by omega), e1, e2]
      simp
    · subst h
      simp
    · rw [if_neg (by simp only; omega), if_neg (by omega), if_neg (by omega)]
      simp

/-- **C24 (reverse mode).** Over the reals the scatter form evaluated by the solver model is the gradient of the Lagrangian. -/
theorem C24_reverse_mode {L : LProb ℝ E} (h : L.WF) (x : ℕ → ℝ) (d : ℕ) (hd : d < L.numDofs + L.augSize) :
    L.gradLag realArith x d = deriv (fun t : ℝ => L.lagrangian (x + t • Pi.single d 1)) 0 := by
  rw [grad_eq h]
  unfold gradLag
  split_ifs with hN
  · have key : ∀ (T : List (CRow ℝ × ℕ)) (s : ℝ), (∀ p ∈ T, L.numDofs ≤ p.2) → T.foldl (fun s p =>
        let s := if p.1.a = d then realArith.add s (realArith.scale L.eps (x p.2)) else s
        if p.1.b = some d then realArith.add s (realArith.neg (realArith.scale L.eps (x p.2))) else s) s =
        s + L.eps * (T.map fun p => (if p.2 = d then gap realArith p.1 x else 0) + x p.2 * dgap p.1 (Pi.single d 1)).sum := by
      intro T
      induction T with
      | nil => intro s _; simp
      | cons p T ih =>
        intro s hT
        have hp := hT p (by simp)
        rw [List.foldl_cons, ih _ fun q hq => hT q (by simp [hq]), List.map_cons, List.sum_cons, if_neg (show p.2 ≠ d by omega)]
        have : (let s := if p.1.a = d then realArith.add s (realArith.scale L.eps (x p.2)) else s
            if p.1.b = some d then realArith.add s (realArith.neg (realArith.scale L.eps (x p.2))) else s) = s + L.eps * (x p.2 * dgap p.1 (Pi.single d 1)) := by
          simp only [realArith, dgap]
          cases hb : p.1.b with
          | none =>
            by_cases ha : p.1.a = d <;> simp [ha]
          | some b =>
            by_cases ha : p.1.a = d <;> by_cases hbd : b = d <;> simp [ha, hbd]
        rw [this]
        ring
    rw [key _ _ fun p hp => (mem_zipIdx_ge hp).1]
    show (0 : ℝ) + _ = _
    ring
  · have hz : ∀ p ∈ (L.rows realArith).zipIdx L.numDofs, x p.2 * dgap p.1 (Pi.single d (1 : ℝ)) = 0 := by
      intro p hp
      obtain ⟨r, k⟩ := p
      have hmem : r ∈ L.rows realArith := List.mem_of_getElem? (mem_zipIdx_ge hp).2.2
      obtain ⟨ha, hb⟩ := rows_range realArith h r hmem
      unfold dgap
      cases hrb : r.b with
      | none => simp [show r.a ≠ d by omega]
      | some b => simp [show r.a ≠ d by omega, show b ≠ d by have := hb b hrb; omega]
    have : (((L.rows realArith).zipIdx L.numDofs).map fun p => (if p.2 = d then gap realArith p.1 x else 0) + x p.2 * dgap p.1 (Pi.single d (1 : ℝ))) =
        ((L.rows realArith).zipIdx L.numDofs).map fun p => if p.2 = d then gap realArith p.1 x else 0 := by
      refine List.map_congr_left fun p hp => ?_
      rw [hz p hp, add_zero]
    rw [this, sum_zipIdx_single (fun r => gap realArith r x), if_pos (by omega)]
    cases hr : (L.rows realArith)[d - L.numDofs]? with
    | none => simp [realArith]
    | some r => rfl

end LProb

/-! ## C24 -/

/-- Specification: entry `d` of `Bᵀ λ`, the constraint forces: `+λ` at a Dirichlet position, `+λ` and `-λ` at the two sides of a tie. -/
def LProb.forces (L : LProb ℝ E) (x : ℕ → ℝ) (d : ℕ) : ℝ :=
  ((L.prescriptions.zipIdx L.numDofs).map fun p => if p.1.1 = d then x p.2 else 0).sum +
    ((L.ties.zipIdx (L.numDofs + L.prescriptions.length)).map fun p => (if p.1.1 = d then x p.2 else 0) - (if p.1.2 = d then x p.2 else 0)).sum

theorem LProb.residual_dof {L : LProb ℝ E} (h : L.WF) (res x : ℕ → ℝ) (d : ℕ) (hd : d < L.numDofs) : L.residualLm res x d = res d + L.eps * L.forces x d := by
  unfold LProb.residualLm LProb.augZero
  rw [LProb.grad_eq h, if_pos hd, add_comm]
  congr 2
  have : (((L.rows realArith).zipIdx L.numDofs).map fun p => (if p.2 = d then LProb.gap realArith p.1 x else 0) + x p.2 * LProb.dgap p.1 (Pi.single d (1 : ℝ))) =
      ((L.rows realArith).zipIdx L.numDofs).map fun p => x p.2 * LProb.dgap p.1 (Pi.single d (1 : ℝ)) := by
    refine List.map_congr_left fun p hp => ?_
    have := (LProb.mem_zipIdx_ge hp).1
    rw [if_neg (by omega), zero_add]
  rw [this, LProb.rows_eq, List.zipIdx_append, List.map_append, List.sum_append, List.length_map, List.zipIdx_map, List.zipIdx_map, List.map_map, List.map_map]
  unfold LProb.forces
  congr 2
  · refine List.map_congr_left fun p _ => ?_
    simp only [Function.comp_apply, Prod.map, id_eq, LProb.dgap, Pi.single_apply]
    split_ifs <;> simp
  · refine List.map_congr_left fun p _ => ?_
    simp only [Function.comp_apply, Prod.map, id_eq, LProb.dgap, Pi.single_apply]
    split_ifs <;> simp

theorem LProb.residual_mult {L : LProb ℝ E} (h : L.WF) (res x : ℕ → ℝ) (k : ℕ) (r : LProb.CRow ℝ) (hr : (L.rows realArith)[k]? = some r) :
    L.residualLm res x (L.numDofs + k) = L.eps * LProb.gap realArith r x := by
  have hk : k < (L.rows realArith).length := (List.getElem?_eq_some_iff.mp hr).1
  have hlen := LProb.rows_length realArith h
  unfold LProb.residualLm LProb.augZero
  rw [← LProb.C24_reverse_mode h x _ (by omega), if_neg (by omega)]
  unfold LProb.gradLag
  rw [if_neg (by omega), Nat.add_sub_cancel_left, hr]
  show L.eps * _ + 0 = _
  ring

/-- **C24 (zeros).** With `eps ≠ 0` the augmented residual vanishes iff the physical residual plus `eps` times the constraint forces vanishes, every prescribed value is met exactly, and the two sides of
every tie agree exactly. -/
theorem C24_zero_iff (L : LProb ℝ E) (h : L.WF) (heps : L.eps ≠ 0) (res x : ℕ → ℝ) :
    (∀ d < L.numDofs + L.augSize, L.residualLm res x d = 0) ↔
      (∀ d < L.numDofs, res d + L.eps * L.forces x d = 0) ∧ (∀ p ∈ L.prescriptions, x p.1 = p.2) ∧ (∀ p ∈ L.ties, x p.1 = x p.2) := by
  have hlen := LProb.rows_length realArith h
  have hgap : (∀ r ∈ L.rows realArith, LProb.gap realArith r x = 0) ↔ (∀ p ∈ L.prescriptions, x p.1 = p.2) ∧ (∀ p ∈ L.ties, x p.1 = x p.2) := by
    rw [LProb.rows_eq]
    simp only [List.mem_append, List.mem_map, or_imp, forall_and, forall_exists_index, and_imp]
    refine and_congr ⟨fun H p hp => ?_, fun H r p hp hr => ?_⟩ ⟨fun H p hp => ?_, fun H r p hp hr => ?_⟩
    · have : x p.1 + -p.2 = 0 := H _ p hp rfl
      linarith
    · subst hr
      show x p.1 + -p.2 = 0
      rw [H p hp]; ring
    · have : x p.1 + -x p.2 = 0 := H _ p hp rfl
      linarith
    · subst hr
      show x p.1 + -x p.2 = 0
      rw [H p hp]; ring
  rw [← hgap]
  constructor
  · intro H
    refine ⟨fun d hd => ?_, fun r hr => ?_⟩
    · rw [← LProb.residual_dof h res x d hd]
      exact H d (by omega)
    · obtain ⟨k, hk⟩ := List.getElem?_of_mem hr
      have hk' := (List.getElem?_eq_some_iff.mp hk).1
      have := H (L.numDofs + k) (by omega)
      rw [LProb.residual_mult h res x k r hk] at this
      exact (mul_eq_zero.mp this).resolve_left heps
  · rintro ⟨H1, H2⟩ d hd
    by_cases hN : d < L.numDofs
    · rw [LProb.residual_dof h res x d hN, H1 d hN]
    · obtain ⟨k, rfl⟩ := Nat.exists_eq_add_of_le (Nat.le_of_not_lt hN)
      have hk : k < (L.rows realArith).length := by omega
      rw [LProb.residual_mult h res x k _ (List.getElem?_eq_getElem hk), H2 _ (List.getElem_mem hk), mul_zero]

/-! ### The augmented matrix -/

namespace LProb

theorem zipWith_range_offset {α β : Type} (f : α → ℕ → β) : ∀ (l : List α) (gi n : ℕ), l.length = n →
    List.zipWith (fun i j => f i (gi + j)) l (List.range n) = (l.zipIdx gi).map fun p => f p.1 p.2
  | [], gi, n, h => by simp
  | a :: l, gi, n, h => by
    obtain ⟨m, rfl⟩ : ∃ m, n = m + 1 := ⟨l.length, by simpa using h.symm⟩
    have ih := zipWith_range_offset f l (gi + 1) m (by simpa using h)
    rw [List.range_succ_eq_map, List.zipWith_cons_cons, List.zipIdx_cons, List.map_cons, ← ih, List.zipWith_map_right]
    simp only [Nat.succ_eq_add_one, Nat.add_zero]
    congr 2
    funext i j
    congr 1
    omega

theorem zipIdx_zip_sum {β : Type} (F : ℕ → ℕ → ℝ) : ∀ (l : List ℕ) (v : List β) (gi : ℕ), l.length = v.length →
    ((l.zipIdx gi).map fun p => F p.1 p.2).sum = (((l.zip v).zipIdx gi).map fun p => F p.1.1 p.2).sum
  | [], _, _, _ => by simp
  | _ :: _, [], _, h => by simp at h
  | a :: l, b :: v, gi, h => by
    simp only [List.zip_cons_cons, List.zipIdx_cons, List.map_cons, List.sum_cons]
    rw [zipIdx_zip_sum F l v (gi + 1) (by simpa using h)]

theorem zipIdx_zip_sum_right {β : Type} (F : ℕ → ℕ → ℝ) : ∀ (l : List ℕ) (v : List β) (gi : ℕ), l.length = v.length →
    ((l.zipIdx gi).map fun p => F p.1 p.2).sum = (((v.zip l).zipIdx gi).map fun p => F p.1.2 p.2).sum
  | [], _, _, _ => by simp
  | _ :: _, [], _, h => by simp at h
  | a :: l, b :: v, gi, h => by
    simp only [List.zip_cons_cons, List.zipIdx_cons, List.map_cons, List.sum_cons]
    rw [zipIdx_zip_sum_right F l v (gi + 1) (by simpa using h)]

theorem sum_map_add' {α : Type} (l : List α) (f g : α → ℝ) : (l.map fun a => f a + g a).sum = (l.map f).sum + (l.map g).sum := by
  induction l with
  | nil => simp
  | cons a l ih => simp only [List.map_cons, List.sum_cons, ih]; ring

theorem dTriplets_sum {L : LProb ℝ E} (F : ℕ × ℕ × ℝ → ℝ) : ∀ (gs : List (Group ℝ)) (gi : ℕ), (∀ g ∈ gs, g.nodes.length = g.comps.length ∧ g.comps.length = g.vals.length) →
    ((L.dTriplets realArith gi gs).1.map F).sum = (((gs.flatMap fun g => (L.idx g).zip g.vals).zipIdx gi).map fun p => F (p.1.1, p.2, L.eps)).sum ∧
      (L.dTriplets realArith gi gs).2 = gi + (gs.flatMap fun g => (L.idx g).zip g.vals).length
  | [], gi, _ => by simp [dTriplets]
  | g :: gs, gi, h => by
    obtain ⟨h1, h2⟩ := h g (by simp)
    have hl : (L.idx g).length = g.nodes.length := by simp [Prob.idx]; omega
    have hz : ((L.idx g).zip g.vals).length = g.nodes.length := by simp [hl]; omega
    obtain ⟨ih1, ih2⟩ := dTriplets_sum (L := L) F gs (gi + g.nodes.length) fun g' hg' => h g' (by simp [hg'])
    simp only [dTriplets]
    have he : realArith.scale L.eps realArith.one = L.eps := mul_one _
    rw [List.flatMap_cons, List.zipIdx_append, List.map_append, List.map_append, List.sum_append, List.sum_append, hz, ih1, ih2, he]
    refine ⟨?_, by rw [List.length_append, hz]; omega⟩
    congr 1
    rw [zipWith_range_offset (fun i j => (i, j, L.eps)) _ gi _ hl, List.map_map]
    exact zipIdx_zip_sum (fun i j => F (i, j, L.eps)) _ _ gi (by rw [hl]; omega)

theorem pTriplets_sum {L : LProb ℝ E} (F : ℕ × ℕ × ℝ → ℝ) : ∀ (gs : List PGroup) (gi : ℕ), (∀ g ∈ gs, g.nodesA.length = g.nodesB.length ∧ g.nodesB.length = g.comps.length) →
    ((L.pTriplets realArith gi gs).1.map F).sum = (((gs.flatMap fun g => (L.idxA g).zip (L.idxB g)).zipIdx gi).map fun p => F (p.1.1, p.2, L.eps) + F (p.1.2, p.2, -L.eps)).sum ∧
      (L.pTriplets realArith gi gs).2 = gi + (gs.flatMap fun g => (L.idxA g).zip (L.idxB g)).length
  | [], gi, _ => by simp [pTriplets]
  | g :: gs, gi, h => by
    obtain ⟨h1, h2⟩ := h g (by simp)
    have hA : (L.idxA g).length = g.nodesA.length := by simp [idxA]; omega
    have hB : (L.idxB g).length = g.nodesA.length := by simp [idxB]; omega
    have hz : ((L.idxA g).zip (L.idxB g)).length = g.nodesA.length := by simp [hA, hB]
    obtain ⟨ih1, ih2⟩ := pTriplets_sum (L := L) F gs (gi + g.nodesA.length) fun g' hg' => h g' (by simp [hg'])
    simp only [pTriplets]
    have he : realArith.scale L.eps realArith.one = L.eps := mul_one _
    have hn : realArith.neg L.eps = -L.eps := rfl
    rw [List.flatMap_cons, List.zipIdx_append, List.map_append, List.map_append, List.map_append, List.sum_append, List.sum_append, List.sum_append, hz, ih1, ih2, he, hn]
    refine ⟨?_, by rw [List.length_append, hz]; omega⟩
    congr 1
    rw [zipWith_range_offset (fun i j => (i, j, L.eps)) _ gi _ hA, zipWith_range_offset (fun i j => (i, j, -L.eps)) _ gi _ hB, List.map_map, List.map_map, sum_map_add']
    congr 1
    · exact zipIdx_zip_sum (fun i j => F (i, j, L.eps)) _ _ gi (by rw [hA, hB])
    · exact zipIdx_zip_sum_right (fun i j => F (i, j, -L.eps)) _ _ gi (by rw [hA, hB])

/-- The contribution of the constraints to any sum over the augmented triplets. -/
theorem augTriplets_sum {L : LProb ℝ E} (h : L.WF) (nw : Newton ℝ) (F : ℕ × ℕ × ℝ → ℝ) :
    ((L.augTriplets realArith nw).1.map F).sum = ((nw.I.zip (nw.J.zip nw.V)).map F).sum +
      ((L.prescriptions.zipIdx L.numDofs).map fun p => F (p.1.1, p.2, L.eps) + F (p.2, p.1.1, L.eps)).sum +
      ((L.ties.zipIdx (L.numDofs + L.prescriptions.length)).map fun p => F (p.1.1, p.2, L.eps) + F (p.1.2, p.2, -L.eps) + (F (p.2, p.1.1, L.eps) + F (p.2, p.1.2, -L.eps))).sum := by
  unfold augTriplets symmetry
  dsimp only
  obtain ⟨hd1, hd2⟩ := dTriplets_sum (L := L) F L.groups L.numDofs h.lens
  obtain ⟨hd3, -⟩ := dTriplets_sum (L := L) (fun t => F (t.2.1, t.1, t.2.2)) L.groups L.numDofs h.lens
  rw [hd2]
  obtain ⟨hp1, -⟩ := pTriplets_sum (L := L) F L.pgroups (L.numDofs + (L.groups.flatMap fun g => (L.idx g).zip g.vals).length) h.plens
  obtain ⟨hp3, -⟩ := pTriplets_sum (L := L) (fun t => F (t.2.1, t.1, t.2.2)) L.pgroups (L.numDofs + (L.groups.flatMap fun g => (L.idx g).zip g.vals).length) h.plens
  simp only [List.map_append, List.sum_append, List.map_map]
  have e1 : ∀ T : List (ℕ × ℕ × ℝ), (T.map (F ∘ fun t => (t.2.1, t.1, t.2.2))).sum = (T.map fun t => F (t.2.1, t.1, t.2.2)).sum := fun T => rfl
  rw [e1, e1, hd1, hd3, hp1, hp3, ← sum_map_add', ← sum_map_add']
  rfl

end LProb

theorem zip3_eta {α β γ : Type} (T : List (α × β × γ)) : (T.map fun t => t.1).zip ((T.map fun t => t.2.1).zip (T.map fun t => t.2.2)) = T := by
  induction T with
  | nil => rfl
  | cons t T ih => simp only [List.map_cons, List.zip_cons_cons, ih]

theorem augOp_real (L : LProb ℝ E) (nw : Newton ℝ) (v : ℕ → ℝ) (d : ℕ) :
    L.augOp realArith nw v d = ((L.augTriplets realArith nw).1.map fun t => if t.1 = d then t.2.2 * v t.2.1 else 0).sum := by
  unfold LProb.augOp
  rw [spMul_real]
  unfold cooMul
  rw [zip3_eta]

/-- **C24 (derivative).** If the triplets are the tangent of the physical residual `R` at `x` then the augmented matrix is the derivative of the augmented residual in every direction, in every row. -/
theorem C24_tangent (L : LProb ℝ E) (h : L.WF) (nw : Newton ℝ) (hI : ∀ i ∈ nw.I, i < L.numDofs) (hJ : ∀ j ∈ nw.J, j < L.numDofs) (R : (ℕ → ℝ) → ℕ → ℝ) (x : ℕ → ℝ)
    (hR : ∀ (w : ℕ → ℝ), ∀ d < L.numDofs, HasDerivAt (fun t : ℝ => R (L.augZero realArith x + t • w) d) (cooMul nw.I nw.J nw.V w d) 0) (v : ℕ → ℝ) (d : ℕ) :
    HasDerivAt (fun t : ℝ => L.residualLm (R (L.augZero realArith (x + t • v))) (x + t • v) d) (L.augOp realArith nw v d) 0 := by
  rw [augOp_real, LProb.augTriplets_sum h]
  have hK : HasDerivAt (fun t : ℝ => L.augZero realArith (R (L.augZero realArith (x + t • v))) d) ((nw.I.zip (nw.J.zip nw.V)).map fun t => if t.1 = d then t.2.2 * v t.2.1 else 0).sum 0 := by
    by_cases hd : d < L.numDofs
    · have hlin : ∀ t : ℝ, L.augZero realArith (x + t • v) = L.augZero realArith x + t • L.augZero realArith v := by
        intro t
        funext e
        show (if e < L.numDofs then x e + t * v e else 0) = (if e < L.numDofs then x e else 0) + t * (if e < L.numDofs then v e else 0)
        split_ifs <;> ring
      have := hR (L.augZero realArith v) d hd
      have hc : cooMul nw.I nw.J nw.V (L.augZero realArith v) d = ((nw.I.zip (nw.J.zip nw.V)).map fun t => if t.1 = d then t.2.2 * v t.2.1 else 0).sum := by
        unfold cooMul
        congr 1
        refine List.map_congr_left fun t ht => ?_
        have := hJ _ (List.of_mem_zip (List.of_mem_zip (show (t.1, t.2) ∈ _ from ht)).2).1
        unfold LProb.augZero
        rw [if_pos this]
      rw [hc] at this
      simp only [LProb.augZero, if_pos hd] at this ⊢
      simpa only [LProb.augZero, hlin] using this
    · have h0 : ((nw.I.zip (nw.J.zip nw.V)).map fun t => if t.1 = d then t.2.2 * v t.2.1 else 0).sum = 0 := by
        refine List.sum_eq_zero fun y hy => ?_
        obtain ⟨t, ht, rfl⟩ := List.mem_map.mp hy
        have := hI _ (List.of_mem_zip (show (t.1, t.2) ∈ _ from ht)).1
        rw [if_neg (by omega)]
      rw [h0]
      simp only [LProb.augZero, if_neg hd]
      exact hasDerivAt_const _ _
  have hG : HasDerivAt (fun t : ℝ => deriv (fun s : ℝ => L.lagrangian (x + t • v + s • Pi.single d 1)) 0)
      (((L.prescriptions.zipIdx L.numDofs).map fun p => (if p.1.1 = d then L.eps * v p.2 else 0) + (if p.2 = d then L.eps * v p.1.1 else 0)).sum +
      ((L.ties.zipIdx (L.numDofs + L.prescriptions.length)).map fun p => (if p.1.1 = d then L.eps * v p.2 else 0) + (if p.1.2 = d then -L.eps * v p.2 else 0) +
        ((if p.2 = d then L.eps * v p.1.1 else 0) + (if p.2 = d then -L.eps * v p.1.2 else 0))).sum) 0 := by
    simp only [LProb.grad_eq h]
    have hterm : ∀ p : LProb.CRow ℝ × ℕ, HasDerivAt (fun t : ℝ => (if p.2 = d then LProb.gap realArith p.1 (x + t • v) else 0) + (x + t • v) p.2 * LProb.dgap p.1 (Pi.single d 1))
        ((if p.2 = d then LProb.dgap p.1 v else 0) + v p.2 * LProb.dgap p.1 (Pi.single d 1)) 0 := by
      intro p
      refine HasDerivAt.fun_add ?_ ((LProb.coord_hasDeriv x v p.2).mul_const _)
      split_ifs
      · exact LProb.gap_hasDeriv p.1 x v
      · exact hasDerivAt_const _ _
    have := (HasDerivAt.list_sum ((L.rows realArith).zipIdx L.numDofs) (fun p t => (if p.2 = d then LProb.gap realArith p.1 (x + t • v) else 0) + (x + t • v) p.2 * LProb.dgap p.1 (Pi.single d 1))
      (fun p => (if p.2 = d then LProb.dgap p.1 v else 0) + v p.2 * LProb.dgap p.1 (Pi.single d 1)) 0 fun p _ => hterm p).const_mul L.eps
    refine this.congr_deriv ?_
    rw [LProb.rows_eq, List.zipIdx_append, List.map_append, List.sum_append, List.length_map, List.zipIdx_map, List.zipIdx_map, List.map_map, List.map_map, mul_add,
      ← List.sum_map_mul_left, ← List.sum_map_mul_left]
    congr 2
    · refine List.map_congr_left fun p _ => ?_
      simp only [Function.comp_apply, Prod.map, id_eq, LProb.dgap, Pi.single_apply]
      split_ifs <;> ring
    · refine List.map_congr_left fun p _ => ?_
      simp only [Function.comp_apply, Prod.map, id_eq, LProb.dgap, Pi.single_apply]
      split_ifs <;> ring
  have := hG.fun_add hK
  refine this.congr_deriv ?_
  ring

/-- **C24 (symmetry).** The augmented matrix is symmetric whenever the matrix of the problem is. -/
theorem C24_symmetric (L : LProb ℝ E) (h : L.WF) (nw : Newton ℝ) (hsym : ∀ r c, Prob.entry realArith nw.I nw.J nw.V r c = Prob.entry realArith nw.I nw.J nw.V c r) (r c : ℕ) :
    ((L.augTriplets realArith nw).1.map fun t => if t.1 = r ∧ t.2.1 = c then t.2.2 else 0).sum = ((L.augTriplets realArith nw).1.map fun t => if t.1 = c ∧ t.2.1 = r then t.2.2 else 0).sum := by
  rw [LProb.augTriplets_sum h, LProb.augTriplets_sum h, ← entry_real, ← entry_real, hsym]
  congr 2
  · congr 1
    refine List.map_congr_left fun p _ => ?_
    simp only [and_comm]
    ring
  · refine List.map_congr_left fun p _ => ?_
    simp only [and_comm]
    ring

/-- **C24 (size).** The matrix has one row per degree of freedom and per multiplier. -/
theorem C24_size (L : LProb ℝ E) (h : L.WF) (nw : Newton ℝ) : (L.augTriplets realArith nw).2 = L.numDofs + L.augSize := by
  unfold LProb.augTriplets
  dsimp only
  rw [(LProb.pTriplets_sum (L := L) (fun _ => 0) L.pgroups _ h.plens).2, (LProb.dTriplets_sum (L := L) (fun _ => 0) L.groups _ h.lens).2]
  have h1 : (L.groups.flatMap fun g => (L.idx g).zip g.vals).length = (L.groups.map fun g => g.nodes.length).sum := LProb.prescriptions_length h
  have h2 : (L.pgroups.flatMap fun g => (L.idxA g).zip (L.idxB g)).length = (L.pgroups.map fun g => g.nodesA.length).sum := LProb.ties_length h
  rw [h1, h2]
  unfold LProb.augSize
  omega

/-- Two nodes with two unknowns each: one prescribed value and one tie between the first components. -/
noncomputable def tieExample : LProb ℝ Unit where
  vec := 2
  numNodes := 2
  groups := [⟨[1], [1], [7]⟩]
  newton := fun u => .ok ⟨u, [0, 1, 2, 3], [0, 1, 2, 3], [1, 1, 1, 1], fun _ => 0⟩
  pgroups := [⟨[0], [1], [0]⟩]
  eps := 2

theorem tieExample_wf : tieExample.WF where
  lens := by simp [tieExample]
  plens := by simp [tieExample]
  range := by simp [tieExample, Prob.prescriptions, Prob.idx, Prob.numDofs]
  prange := by simp [tieExample, LProb.ties, LProb.idxA, LProb.idxB, Prob.numDofs]

/-- For it the augmented residual vanishes iff `u₀ + 2 λ₁ = 0`, `u₁ = 0`, `u₂ - 2 λ₁ = 0`, `u₃ + 2 λ₀ = 0`, `u₃ = 7` and `u₀ = u₂`. -/
example (x : ℕ → ℝ) : (∀ d < 6, tieExample.residualLm x x d = 0) ↔
    (x 0 + 2 * x 5 = 0 ∧ x 1 = 0 ∧ x 2 - 2 * x 5 = 0 ∧ x 3 + 2 * x 4 = 0) ∧ x 3 = 7 ∧ x 0 = x 2 := by
  have := C24_zero_iff tieExample tieExample_wf (by simp [tieExample]) x x
  have hn : tieExample.numDofs + tieExample.augSize = 6 := by simp [tieExample, Prob.numDofs, LProb.augSize]
  have h4 : tieExample.numDofs = 4 := by simp [tieExample, Prob.numDofs]
  have hp : tieExample.prescriptions = [(3, 7)] := by simp [tieExample, Prob.prescriptions, Prob.idx]
  have ht : tieExample.ties = [(0, 2)] := by simp [tieExample, LProb.ties, LProb.idxA, LProb.idxB]
  have he : tieExample.eps = 2 := rfl
  rw [hn, hp, ht, h4] at this
  rw [this]
  simp only [LProb.forces, hp, ht, h4, he, List.mem_singleton, forall_eq]
  refine and_congr ⟨fun H => ?_, fun H => ?_⟩ Iff.rfl
  · have h0 := H 0 (by norm_num)
    have h1 := H 1 (by norm_num)
    have h2 := H 2 (by norm_num)
    have h3 := H 3 (by norm_num)
    simp at h0 h1 h2 h3
    exact ⟨h0, h1, by linarith, h3⟩
  · obtain ⟨h0, h1, h2, h3⟩ := H
    intro d hd
    interval_cases d <;> simp <;> linarith

/-! ## C25 -/

theorem lmLoop_ok (ar : Arith K) (L : LProb K E) (lin : ℕ → LinCall K → ℕ → K) (usePetsc : Bool) : ∀ (fuel k : ℕ) (x : ℕ → K) (nw : Newton K) (st : ((ℕ → K) → ℕ → K) × (ℕ → K)) (y : ℕ → K),
    L.augHelper ar usePetsc x = .ok (nw, st) → L.lmLoop ar lin usePetsc fuel k x st = .ok y →
    ∃ nw' st', L.augHelper ar usePetsc y = .ok (nw', st') ∧ ar.gt (L.normLm ar st'.2) ar.tol = false := by
  intro fuel
  induction fuel with
  | zero =>
    intro k x nw st y hst h
    unfold LProb.lmLoop at h
    split_ifs at h with hc
    injection h with h
    subst h
    exact ⟨nw, st, hst, by simpa using hc⟩
  | succ fuel ih =>
    intro k x nw st y hst h
    unfold LProb.lmLoop at h
    split_ifs at h with hc
    · dsimp only at h
      cases hh : L.augHelper ar usePetsc (LProb.linearIncrementalLm ar lin k usePetsc st.1 st.2 x) with
      | error e => rw [hh] at h; cases h
      | ok st' =>
        rw [hh] at h
        exact ih _ _ st'.1 st'.2 _ hh h
    · injection h with h
      subst h
      exact ⟨nw, st, hst, by simpa using hc⟩

/-- **C25 (in every arithmetic).** Whenever the nonlinear branch of the Lagrange multiplier solver returns `u`, `u` is the front part of a vector at which the norm of the augmented residual is not above
the tolerance. -/
theorem C25_any_arithmetic (ar : Arith K) (L : LProb K E) (lin : ℕ → LinCall K → ℕ → K) (usePetsc : Bool) (fuel : ℕ) (u : ℕ → K) (h : L.lmSolver ar lin false usePetsc fuel = .ok u) :
    ∃ x nw, u = L.augZero ar x ∧ L.newton u = .ok nw ∧ ar.gt (L.normLm ar (L.residualAr ar nw.res x)) ar.tol = false := by
  unfold LProb.lmSolver LProb.lmSolverAug at h
  simp only [Bool.false_eq_true, if_false] at h
  cases h1 : L.augHelper ar usePetsc (L.augZero ar fun _ => ar.zero) with
  | error e => rw [h1] at h; cases h
  | ok st1 =>
    rw [h1] at h
    have h : (do
      let y ← (do
        let st ← L.augHelper ar usePetsc (L.linearGuessLm ar lin usePetsc st1.1 st1.2.1)
        L.lmLoop ar lin usePetsc fuel 1 (L.linearGuessLm ar lin usePetsc st1.1 st1.2.1) st.2)
      pure (L.augZero ar y) : Except (SolveErr E) _) = .ok u := h
    cases h2 : L.augHelper ar usePetsc (L.linearGuessLm ar lin usePetsc st1.1 st1.2.1) with
    | error e => rw [h2] at h; cases h
    | ok st2 =>
      rw [h2] at h
      have h : (do
        let y ← L.lmLoop ar lin usePetsc fuel 1 (L.linearGuessLm ar lin usePetsc st1.1 st1.2.1) st2.2
        pure (L.augZero ar y) : Except (SolveErr E) _) = .ok u := h
      cases h3 : L.lmLoop ar lin usePetsc fuel 1 (L.linearGuessLm ar lin usePetsc st1.1 st1.2.1) st2.2 with
      | error e => rw [h3] at h; cases h
      | ok y =>
        rw [h3] at h
        have hu : L.augZero ar y = u := by injection h
        obtain ⟨nw', st', h4, h5⟩ := lmLoop_ok ar L lin usePetsc fuel 1 _ st2.1 st2.2 y h2 h3
        unfold LProb.augHelper at h4
        cases hn : L.newton (L.augZero ar y) with
        | error e => rw [hn] at h4; cases h4
        | ok nw =>
          rw [hn] at h4
          cases usePetsc with
          | true => cases h4
          | false =>
            injection h4 with h4
            obtain ⟨rfl, rfl⟩ := Prod.mk.inj h4
            exact ⟨y, nw, hu.symm, by rw [← hu]; exact hn, h5⟩

theorem Fl.norm_small {l : List Fl} (h0 : Fl.norm l ≠ .nan) (h : Fl.gt (Fl.norm l) (.fin 1e-6) = false) : ∀ x ∈ l, ∃ y, x = .fin y ∧ |y| ≤ 1e-6 := by
  refine Fl.norm_fin ?_ h
  unfold Fl.norm at h0 h ⊢
  split_ifs at h0 h ⊢ with h1 h2
  · exact absurd rfl h0
  · rfl
  · simp [Fl.gt] at h

/-- **C25.** In arithmetic with infinities and NaN: whenever the nonlinear branch returns and the norm of the final augmented residual is not NaN, every prescribed value is met up to `1e-6 / |eps|`
and the two sides of every tie differ by at most `1e-6 / |eps|` — for every residual, linear solver and iteration count. -/
theorem C25_converged (L : LProb Fl E) (hwf : L.WF) (heps : L.eps ≠ 0) (lin : ℕ → LinCall Fl → ℕ → Fl) (usePetsc : Bool) (fuel : ℕ) (u : ℕ → Fl)
    (h : L.lmSolver flArith lin false usePetsc fuel = .ok u) :
    ∃ x nw, u = L.augZero flArith x ∧ L.newton u = .ok nw ∧ (L.normLm flArith (L.residualAr flArith nw.res x) = .nan ∨
      ((∀ p ∈ L.prescriptions, ∃ a b, u p.1 = .fin a ∧ p.2 = .fin b ∧ |a - b| ≤ 1e-6 / |L.eps|) ∧ ∀ p ∈ L.ties, ∃ a b, u p.1 = .fin a ∧ u p.2 = .fin b ∧ |a - b| ≤ 1e-6 / |L.eps|)) := by
  obtain ⟨x, nw, rfl, hnw, hgt⟩ := C25_any_arithmetic flArith L lin usePetsc fuel u h
  refine ⟨x, nw, rfl, hnw, ?_⟩
  by_cases hnan : L.normLm flArith (L.residualAr flArith nw.res x) = .nan
  · exact Or.inl hnan
  right
  have hall := Fl.norm_small hnan hgt
  have hlen := LProb.rows_length flArith hwf
  have hrow : ∀ r ∈ L.rows flArith, ∃ y, LProb.gap flArith r x = .fin y ∧ |y| ≤ 1e-6 / |L.eps| := by
    intro r hr
    obtain ⟨k, hk⟩ := List.getElem?_of_mem hr
    have hk' := (List.getElem?_eq_some_iff.mp hk).1
    obtain ⟨z, hz, hle⟩ := hall _ (List.mem_map.mpr ⟨L.numDofs + k, List.mem_range.mpr (by omega), rfl⟩)
    unfold LProb.residualAr LProb.gradLag LProb.augZero at hz
    rw [if_neg (by omega), if_neg (by omega), Nat.add_sub_cancel_left, hk] at hz
    have hz : Fl.add (Fl.mul (.fin L.eps) (LProb.gap flArith r x)) (.fin 0) = .fin z := hz
    cases hg : LProb.gap flArith r x with
    | fin y =>
      rw [hg] at hz
      have hz : Fl.fin (L.eps * y + 0) = .fin z := hz
      injection hz with hz
      refine ⟨y, rfl, ?_⟩
      rw [le_div_iff₀ (abs_pos.mpr heps), mul_comm, ← abs_mul]
      rw [add_zero] at hz
      rw [hz]
      exact hle
    | pinf =>
      rw [hg] at hz
      simp only [Fl.mul, Fl.infMul] at hz
      split_ifs at hz <;> cases hz
    | ninf =>
      rw [hg] at hz
      simp only [Fl.mul, Fl.infMul] at hz
      split_ifs at hz <;> cases hz
    | nan => rw [hg] at hz; cases hz
  have hsum : ∀ a b : Fl, ∀ y, Fl.add a (Fl.neg b) = .fin y → ∃ s t, a = .fin s ∧ b = .fin t ∧ s - t = y := by
    intro a b y hy
    cases a <;> cases b <;> simp only [Fl.neg, Fl.add] at hy <;> first
      | (injection hy with hy; exact ⟨_, _, rfl, rfl, by rw [← hy]; ring⟩)
      | cases hy
  rw [LProb.rows_eq] at hrow
  refine ⟨fun p hp => ?_, fun p hp => ?_⟩
  · obtain ⟨y, hy, hle⟩ := hrow ⟨p.1, none, p.2⟩ (List.mem_append.mpr (Or.inl (List.mem_map.mpr ⟨p, hp, rfl⟩)))
    obtain ⟨s, t, hs, ht, rfl⟩ := hsum _ _ _ hy
    refine ⟨s, t, ?_, ht, hle⟩
    unfold LProb.augZero
    rw [if_pos (hwf.range p hp), hs]
  · obtain ⟨y, hy, hle⟩ := hrow ⟨p.1, some p.2, flArith.zero⟩ (List.mem_append.mpr (Or.inr (List.mem_map.mpr ⟨p, hp, rfl⟩)))
    obtain ⟨s, t, hs, ht, rfl⟩ := hsum _ _ _ hy
    obtain ⟨h1, h2⟩ := hwf.prange p hp
    refine ⟨s, t, ?_, ?_, hle⟩
    · unfold LProb.augZero; rw [if_pos h1, hs]
    · unfold LProb.augZero; rw [if_pos h2, ht]

/-- One unknown tied to another, with a residual that is NaN everywhere. -/
noncomputable def nanExample : LProb Fl Unit where
  vec := 1
  numNodes := 2
  groups := []
  newton := fun _ => .ok ⟨fun _ => .nan, [], [], [], fun _ => .fin 0⟩
  pgroups := [⟨[0], [1], [0]⟩]
  eps := 1

/-- **C25 (NaN is returned silently).** There is no check at the end: on a problem whose residual is NaN the solver returns whatever the linear solver produced, here values which violate the tie. The row
elimination solver raises on such a residual (`C22_nan`). -/
theorem C25_nan_silent : ∃ u, nanExample.solver flArith (fun _ _ d => .fin d) true false true false none 0 = .ok u ∧ u 0 = .fin 0 ∧ u 1 = .fin 1 := by
  have hnan : ∀ x, nanExample.normLm flArith (nanExample.residualAr flArith (fun _ => .nan) x) = .nan := by
    intro x
    have : nanExample.residualAr flArith (fun _ => .nan) x 0 = .nan := by
      unfold LProb.residualAr LProb.augZero
      rw [if_pos (by simp [nanExample, Prob.numDofs])]
      show Fl.add _ .nan = .nan
      cases nanExample.gradLag flArith x 0 <;> rfl
    show Fl.norm _ = _
    unfold Fl.norm
    rw [if_pos]
    rw [List.any_eq_true]
    exact ⟨.nan, List.mem_map.mpr ⟨0, by simp [nanExample, Prob.numDofs], this⟩, rfl⟩
  have hh : ∀ x, nanExample.augHelper flArith false x = .ok (⟨fun _ => .nan, [], [], [], fun _ => .fin 0⟩, nanExample.augOp flArith ⟨fun _ => .nan, [], [], [], fun _ => .fin 0⟩,
      nanExample.residualAr flArith (fun _ => .nan) x) := fun x => rfl
  have hl : ∀ x, nanExample.lmLoop flArith (fun _ _ d => .fin d) false 0 1 x (nanExample.augOp flArith ⟨fun _ => .nan, [], [], [], fun _ => .fin 0⟩,
      nanExample.residualAr flArith (fun _ => .nan) x) = .ok x := by
    intro x
    unfold LProb.lmLoop
    dsimp only
    rw [hnan x]
    rfl
  refine ⟨nanExample.augZero flArith fun d => .fin d, ?_, ?_, ?_⟩
  · show (do
      let y ← (do
        let st ← nanExample.augHelper flArith false (nanExample.augZero flArith fun _ => flArith.zero)
        let st' ← nanExample.augHelper flArith false (nanExample.linearGuessLm flArith (fun _ _ d => .fin d) false st.1 st.2.1)
        nanExample.lmLoop flArith (fun _ _ d => .fin d) false 0 1 (nanExample.linearGuessLm flArith (fun _ _ d => .fin d) false st.1 st.2.1) st'.2)
      pure (nanExample.augZero flArith y) : Except (SolveErr Unit) _) = _
    rw [hh]
    show (do
      let y ← (do
        let st' ← nanExample.augHelper flArith false fun d => .fin d
        nanExample.lmLoop flArith (fun _ _ d => .fin d) false 0 1 (fun d => .fin d) st'.2)
      pure (nanExample.augZero flArith y) : Except (SolveErr Unit) _) = _
    rw [hh]
    show (do
      let y ← nanExample.lmLoop flArith (fun _ _ d => .fin d) false 0 1 (fun d => .fin d) (nanExample.augOp flArith ⟨fun _ => .nan, [], [], [], fun _ => .fin 0⟩,
        nanExample.residualAr flArith (fun _ => .nan) fun d => .fin d)
      pure (nanExample.augZero flArith y) : Except (SolveErr Unit) _) = _
    rw [hl]
    rfl
  · simp [LProb.augZero, nanExample, Prob.numDofs]
  · simp [LProb.augZero, nanExample, Prob.numDofs]

/-- The same tie with residual zero: the solver returns, and by `C25_converged` the tie holds up to `1e-6`. -/
noncomputable def calmExample : LProb Fl Unit := { nanExample with newton := fun _ => .ok ⟨fun _ => .fin 0, [], [], [], fun _ => .fin 0⟩ }

example : ∃ u, calmExample.lmSolver flArith (fun _ _ _ => .fin 0) false false 0 = .ok u ∧ u 0 = .fin 0 ∧ u 1 = .fin 0 := by
  have hr : ∀ d ∈ List.range 3, calmExample.residualAr flArith (fun _ => .fin 0) (fun _ => .fin 0) d = .fin 0 := by
    intro d hd
    have hd := List.mem_range.mp hd
    interval_cases d <;> simp [LProb.residualAr, LProb.gradLag, LProb.augZero, calmExample, nanExample, Prob.numDofs, LProb.rows, LProb.idxA, LProb.idxB, flArith, Fl.add, Fl.mul, Fl.neg, LProb.gap]
  have hn : calmExample.normLm flArith (calmExample.residualAr flArith (fun _ => .fin 0) fun _ => .fin 0) = .fin 0 := by
    have : (List.range 3).map (calmExample.residualAr flArith (fun _ => .fin 0) fun _ => .fin 0) = (List.range 3).map fun _ => Fl.fin 0 := List.map_congr_left hr
    have h3 : calmExample.numDofs + calmExample.augSize = 3 := by simp [calmExample, nanExample, Prob.numDofs, LProb.augSize]
    unfold LProb.normLm
    rw [h3, this]
    simp [List.range_succ, flArith, Fl.norm, Fl.isNan, Fl.isFinite, Fl.val]
  refine ⟨calmExample.augZero flArith fun _ => .fin 0, ?_, ?_, ?_⟩
  · show (do
      let y ← calmExample.lmLoop flArith (fun _ _ _ => .fin 0) false 0 1 (fun _ => .fin 0) (calmExample.augOp flArith ⟨fun _ => .fin 0, [], [], [], fun _ => .fin 0⟩,
        calmExample.residualAr flArith (fun _ => .fin 0) fun _ => .fin 0)
      pure (calmExample.augZero flArith y) : Except (SolveErr Unit) _) = _
    have hl : calmExample.lmLoop flArith (fun _ _ _ => .fin 0) false 0 1 (fun _ => .fin 0) (calmExample.augOp flArith ⟨fun _ => .fin 0, [], [], [], fun _ => .fin 0⟩,
        calmExample.residualAr flArith (fun _ => .fin 0) fun _ => .fin 0) = .ok fun _ => .fin 0 := by
      unfold LProb.lmLoop
      dsimp only
      rw [hn, if_neg]
      simp only [flArith, Fl.gt, gt_iff_lt, decide_eq_true_eq, not_lt]
      norm_num
    rw [hl]
    rfl
  · simp [LProb.augZero, calmExample, nanExample, Prob.numDofs]
  · simp [LProb.augZero, calmExample, nanExample, Prob.numDofs]

/-! ## C26 -/

/-- **C26 (periodic conditions with PETSc).** With periodic conditions and `use_petsc=True` the solver raises on every problem, in both branches, whatever the linear solver does; if the problem's own
`newton_update` does not raise, the exception is the unbound local variable `A_aug`. -/
theorem C26_petsc_periodic (ar : Arith K) (L : LProb K E) (lin : ℕ → LinCall K → ℕ → K) (linear precond : Bool) (guess : Option (ℕ → K)) (fuel : ℕ) :
    (∃ e, L.solver ar lin true linear precond true guess fuel = .error e) ∧
    ((∀ x, ∃ nw, L.newton x = .ok nw) → L.solver ar lin true linear precond true guess fuel = .error .unboundLocal) := by
  have hh : ∀ x, (∃ e, L.augHelper ar true x = .error e) ∧ ((∀ x, ∃ nw, L.newton x = .ok nw) → L.augHelper ar true x = .error .unboundLocal) := by
    intro x
    unfold LProb.augHelper
    cases hn : L.newton (L.augZero ar x) with
    | error e =>
      refine ⟨⟨_, rfl⟩, fun h => ?_⟩
      obtain ⟨nw, h⟩ := h (L.augZero ar x)
      rw [hn] at h; cases h
    | ok nw => exact ⟨⟨_, rfl⟩, fun _ => rfl⟩
  have hs : ∀ e, (∃ x, L.augHelper ar true x = .error e ∧ x = L.augZero ar (if linear then L.assignBc fun _ => ar.zero else fun _ => ar.zero)) →
      L.solver ar lin true linear precond true guess fuel = .error e := by
    rintro e ⟨x, hx, rfl⟩
    unfold LProb.solver LProb.lmSolver LProb.lmSolverAug
    rw [if_pos rfl]
    cases linear with
    | true =>
      rw [if_pos rfl] at hx ⊢
      dsimp only
      rw [hx]; rfl
    | false =>
      rw [if_neg (by simp)] at hx ⊢
      dsimp only
      rw [hx]; rfl
  obtain ⟨h1, h2⟩ := hh (L.augZero ar (if linear then L.assignBc fun _ => ar.zero else fun _ => ar.zero))
  refine ⟨?_, fun h => hs _ ⟨_, h2 h, rfl⟩⟩
  obtain ⟨e, he⟩ := h1
  exact ⟨e, hs e ⟨_, he, rfl⟩⟩

/-- Without PETSc the same problem is solvable: the dispatcher returns a value. -/
example : ∃ u, tieExample.solver realArith (fun _ _ _ => 0) true true true false none 0 = .ok u := ⟨_, rfl⟩
example : tieExample.solver realArith (fun _ _ _ => 0) true true true true none 0 = .error .unboundLocal :=
  (C26_petsc_periodic realArith tieExample _ true true none 0).2 fun _ => ⟨_, rfl⟩

/-- **C26 (dynamic relaxation).** `dynamic_relax_solve` raises on every input, without calling the problem, the linear solver or anything after its first statement; and a caller that could supply the missing
`dofs` would still hit the undefined `sol_shape`. -/
theorem C26_dynamic_relax (ar : Arith K) (L : LProb K E) (lin : ℕ → LinCall K → ℕ → K) (rest : (ℕ → K) → Except (SolveErr E) (ℕ → K)) :
    L.dynamicRelax ar lin rest = .error .unboundLocal ∧ ∀ dofs, L.dynamicRelaxFrom ar lin (some dofs) none rest = .error .nameError := ⟨rfl, fun _ => rfl⟩

/-- **C26 (dispatcher).** Without periodic conditions the dispatcher is the row elimination solver; with them it ignores the preconditioner switch and the initial guess. -/
theorem C26_dispatch (ar : Arith K) (L : LProb K E) (lin : ℕ → LinCall K → ℕ → K) (linear usePetsc : Bool) (fuel : ℕ) :
    (∀ precond guess, L.solver ar lin false linear precond usePetsc guess fuel = L.rowSolver ar lin linear precond usePetsc guess fuel) ∧
    ∀ p p' g g', L.solver ar lin true linear p usePetsc g fuel = L.solver ar lin true linear p' usePetsc g' fuel := ⟨fun _ _ => rfl, fun _ _ _ _ => rfl⟩

/-! ## C28 -/

/-- **C28.** `calC` stays between `cmin` and `cmax`. -/
theorem C28_range (t cmin cmax : ℝ) (h : cmin ≤ cmax) : cmin ≤ calC t cmin cmax ∧ calC t cmin cmax ≤ cmax := by
  unfold calC
  dsimp only
  split_ifs <;> constructor <;> linarith

/-- **C28.** `calC` is monotone in `t`. -/
theorem C28_monotone (cmin cmax : ℝ) : Monotone fun t => calC t cmin cmax := by
  intro a b hab
  have h0 : (if a < 0 then (0 : ℝ) else a) ≤ if b < 0 then 0 else b := by split_ifs <;> linarith
  have h1 := Real.sqrt_le_sqrt h0
  simp only [calC]
  generalize Real.sqrt (if a < 0 then (0 : ℝ) else a) = x at h1 ⊢
  generalize Real.sqrt (if b < 0 then (0 : ℝ) else b) = y at h1 ⊢
  split_ifs <;> linarith

/-- **C28 (value).** Inside the limits it is `2 √t`. -/
theorem C28_value (t cmin cmax : ℝ) (ht : 0 ≤ t) (h1 : cmin ≤ 2 * Real.sqrt t) (h2 : 2 * Real.sqrt t ≤ cmax) : calC t cmin cmax = 2 * Real.sqrt t := by
  unfold calC
  dsimp only
  rw [if_neg (not_lt.mpr ht), if_neg (not_lt.mpr h1), if_neg (not_lt.mpr h2)]

example : calC 1 1e-3 3.9 = 2 := by
  rw [C28_value] <;> norm_num
example : calC (-5) 1e-3 3.9 = 1e-3 := by
  unfold calC
  norm_num

end Verif.Fem
