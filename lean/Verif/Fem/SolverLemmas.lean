import Verif.Fem.Solver

/-!
# Lemmas on prescribed values, for C19-C25
-/
namespace Verif.Fem
open Finset

variable {K E : Type}

/-- Specification: the prescribed (degree of freedom, value) pairs, in the order in which they are imposed. -/
def Prob.prescriptions (P : Prob K E) : List (ℕ × K) := P.groups.flatMap fun g => (P.idx g).zip g.vals

/-- Specification: `v` is the last value prescribed at `d`. -/
def LastAt (L : List (ℕ × K)) (d : ℕ) (v : K) : Prop := ∃ l₁ l₂, L = l₁ ++ (d, v) :: l₂ ∧ ∀ p ∈ l₂, p.1 ≠ d

/-- Specification: nothing is prescribed at `d`. -/
def FreeAt (L : List (ℕ × K)) (d : ℕ) : Prop := ∀ p ∈ L, p.1 ≠ d

/-- Well-formed groups: the three arrays have the same length and no degree of freedom is repeated within one group (what `C17` delivers, and what `unique_indices=True` promises). -/
def Prob.WF (P : Prob K E) : Prop := ∀ g ∈ P.groups, g.nodes.length = g.comps.length ∧ g.comps.length = g.vals.length ∧ (P.idx g).Nodup

/-- The last value prescribed at `d`, computed. -/
def lastVal : List (ℕ × K) → ℕ → Option K
  | [], _ => none
  | p :: L, d => (lastVal L d).or (if p.1 = d then some p.2 else none)

theorem lastVal_append (L M : List (ℕ × K)) (d : ℕ) : lastVal (L ++ M) d = (lastVal M d).or (lastVal L d) := by
  induction L with
  | nil => simp [lastVal]
  | cons p L ih => simp only [List.cons_append, lastVal, ih, Option.or_assoc]

theorem lastVal_none (L : List (ℕ × K)) (d : ℕ) : lastVal L d = none ↔ FreeAt L d := by
  induction L with
  | nil => simp [lastVal, FreeAt]
  | cons p L ih =>
    simp only [lastVal, Option.or_eq_none_iff, ih, FreeAt, List.mem_cons, forall_eq_or_imp]
    constructor
    · rintro ⟨h1, h2⟩
      exact ⟨fun h => by simp [h] at h2, h1⟩
    · rintro ⟨h1, h2⟩
      exact ⟨h2, if_neg h1⟩

theorem lastVal_some (L : List (ℕ × K)) (d : ℕ) (v : K) : lastVal L d = some v ↔ LastAt L d v := by
  constructor
  · induction L with
    | nil => intro h; cases h
    | cons p L ih =>
      intro h
      simp only [lastVal] at h
      cases hL : lastVal L d with
      | some w =>
        rw [hL] at h
        have : w = v := by simpa using h
        subst this
        obtain ⟨l₁, l₂, rfl, h2⟩ := ih hL
        exact ⟨p :: l₁, l₂, rfl, h2⟩
      | none =>
        rw [hL] at h
        by_cases hp : p.1 = d
        · have h' : p.2 = v := by simpa [hp] using h
          exact ⟨[], L, by rw [List.nil_append, ← hp, ← h'], (lastVal_none L d).mp hL⟩
        · simp [hp] at h
  · rintro ⟨l₁, l₂, rfl, h⟩
    rw [lastVal_append]
    simp only [lastVal, (lastVal_none l₂ d).mpr h]
    simp

theorem lastAt_unique {L : List (ℕ × K)} {d : ℕ} {v w : K} (h1 : LastAt L d v) (h2 : LastAt L d w) : v = w := by
  rw [← lastVal_some] at h1 h2
  rw [h1] at h2
  exact Option.some.inj h2

theorem free_or_last (L : List (ℕ × K)) (d : ℕ) : FreeAt L d ∨ ∃ v, LastAt L d v := by
  cases h : lastVal L d with
  | none => exact Or.inl ((lastVal_none L d).mp h)
  | some v => exact Or.inr ⟨v, (lastVal_some L d v).mp h⟩

theorem setAt_lastVal (x : ℕ → K) (idx : List ℕ) (vals : List K) (d : ℕ) : setAt x idx vals d = (lastVal (idx.zip vals) d).getD (x d) := by
  unfold setAt
  generalize idx.zip vals = L
  induction L generalizing x with
  | nil => rfl
  | cons p L ih =>
    rw [List.foldl_cons, ih]
    simp only [lastVal]
    by_cases hp : p.1 = d
    · subst hp
      cases lastVal L p.1 <;> simp
    · cases lastVal L d <;> simp [hp, Function.update_of_ne (Ne.symm hp)]

theorem lastVal_zip_map (idx : List ℕ) (f : ℕ → K) (d : ℕ) : lastVal (idx.zip (idx.map f)) d = if d ∈ idx then some (f d) else none := by
  induction idx with
  | nil => rfl
  | cons a l ih =>
    simp only [List.map_cons, List.zip_cons_cons, lastVal, ih, List.mem_cons]
    by_cases h1 : d ∈ l
    · simp [h1]
    · by_cases h2 : d = a
      · subst h2; simp [h1]
      · simp [h1, h2, Ne.symm h2]

theorem setAt_map (x f : ℕ → K) (idx : List ℕ) (d : ℕ) : setAt x idx (idx.map f) d = if d ∈ idx then f d else x d := by
  rw [setAt_lastVal, lastVal_zip_map]
  split_ifs <;> rfl

theorem lastVal_zip_mem (idx : List ℕ) (vals : List K) (h : idx.length = vals.length) (d : ℕ) : (∃ v, lastVal (idx.zip vals) d = some v) ↔ d ∈ idx := by
  constructor
  · rintro ⟨v, hv⟩
    obtain ⟨l₁, l₂, he, -⟩ := (lastVal_some _ _ _).mp hv
    have : (d, v) ∈ idx.zip vals := by rw [he]; simp
    exact (List.of_mem_zip this).1
  · intro hd
    rcases free_or_last (idx.zip vals) d with hf | ⟨v, hv⟩
    · obtain ⟨j, hj, rfl⟩ := List.mem_iff_getElem.mp hd
      exact absurd rfl (hf (idx[j], vals[j]) (List.mem_iff_getElem.mpr ⟨j, by simp [hj, h ▸ hj], by simp⟩))
    · exact ⟨v, (lastVal_some _ _ _).mpr hv⟩

theorem addAt_nodup (ar : Arith K) (x : ℕ → K) : ∀ (idx : List ℕ) (vals : List K), idx.Nodup → ∀ d,
    addAt ar x idx vals d = match lastVal (idx.zip vals) d with
      | some v => ar.add (x d) v
      | none => x d := by
  intro idx
  unfold addAt
  induction idx generalizing x with
  | nil => intro vals _ d; rfl
  | cons a l ih =>
    intro vals hn d
    cases vals with
    | nil => rfl
    | cons v vals =>
      rw [List.nodup_cons] at hn
      rw [List.zip_cons_cons, List.foldl_cons, ih _ vals hn.2 d]
      simp only [lastVal]
      by_cases hd : a = d
      · subst hd
        have : lastVal (l.zip vals) a = none := by
          rw [lastVal_none]
          intro p hp h
          exact hn.1 (h ▸ (List.of_mem_zip hp).1)
        rw [this]
        simp
      · cases lastVal (l.zip vals) d <;> simp [hd, Function.update_of_ne (Ne.symm hd)]

theorem lastVal_map {K' : Type} (f : K → K') (idx : List ℕ) (vals : List K) (d : ℕ) : lastVal (idx.zip (vals.map f)) d = (lastVal (idx.zip vals) d).map f := by
  induction idx generalizing vals with
  | nil => rfl
  | cons a l ih =>
    cases vals with
    | nil => rfl
    | cons v vals =>
      simp only [List.map_cons, List.zip_cons_cons, lastVal, ih]
      cases lastVal (l.zip vals) d <;> by_cases h : a = d <;> simp [h]

namespace Prob
variable (ar : Arith K) (P : Prob K E)

theorem idx_length {g : Group K} (h : g.nodes.length = g.comps.length ∧ g.comps.length = g.vals.length ∧ (P.idx g).Nodup) : (P.idx g).length = g.vals.length := by
  simp only [idx, List.length_zipWith]
  omega

/-- Every loop over the groups that assigns per group acts by the last prescription. -/
theorem fold_groups (idx : Group K → List ℕ) (step : (ℕ → K) → Group K → ℕ → K) (val : ℕ → K → K) (gs : List (Group K)) (x : ℕ → K)
    (hstep : ∀ g ∈ gs, ∀ y d, step y g d = match lastVal ((idx g).zip g.vals) d with
      | some v => val d v
      | none => y d) (d : ℕ) :
    gs.foldl step x d = match lastVal (gs.flatMap fun g => (idx g).zip g.vals) d with
      | some v => val d v
      | none => x d := by
  induction gs generalizing x with
  | nil => rfl
  | cons g gs ih =>
    rw [List.foldl_cons, ih (step x g) fun g' hg' => hstep g' (by simp [hg']), List.flatMap_cons, lastVal_append, hstep g (by simp)]
    cases lastVal (gs.flatMap fun g => (idx g).zip g.vals) d <;> simp

theorem applyBcVec_eq (h : P.WF) (res u : ℕ → K) (d : ℕ) :
    P.applyBcVec ar res u d = match lastVal P.prescriptions d with
      | some v => ar.add (u d) (ar.neg v)
      | none => res d := by
  refine fold_groups P.idx _ (fun d v => ar.add (u d) (ar.neg v)) P.groups res ?_ d
  intro g hg y d
  have hw := h g hg
  rw [addAt_nodup ar _ _ _ hw.2.2, lastVal_map, setAt_map]
  have hm := lastVal_zip_mem (P.idx g) g.vals (P.idx_length hw) d
  cases hl : lastVal ((P.idx g).zip g.vals) d with
  | some v => simp only [Option.map_some, if_pos (hm.mp ⟨v, hl⟩)]
  | none =>
    have : d ∉ P.idx g := fun hd => by
      obtain ⟨v, hv⟩ := hm.mpr hd
      rw [hl] at hv; cases hv
    simp only [Option.map_none, if_neg this]

theorem set_eq (h : P.WF) (f : ℕ → K) (x : ℕ → K) (d : ℕ) :
    P.groups.foldl (fun s g => setAt s (P.idx g) ((P.idx g).map f)) x d = match lastVal P.prescriptions d with
      | some _ => f d
      | none => x d := by
  refine fold_groups P.idx _ (fun d _ => f d) P.groups x ?_ d
  intro g hg y d
  rw [setAt_map]
  have hm := lastVal_zip_mem (P.idx g) g.vals (P.idx_length (h g hg)) d
  cases hl : lastVal ((P.idx g).zip g.vals) d with
  | some v => exact if_pos (hm.mp ⟨v, hl⟩)
  | none =>
    refine if_neg fun hd => ?_
    obtain ⟨v, hv⟩ := hm.mpr hd
    rw [hl] at hv; cases hv

theorem rowElimination_eq (h : P.WF) (fn : (ℕ → K) → ℕ → K) (u : ℕ → K) (d : ℕ) :
    P.rowElimination fn u d = match lastVal P.prescriptions d with
      | some _ => u d
      | none => fn u d := P.set_eq h u (fn u) d

theorem assignBc_eq (u : ℕ → K) (d : ℕ) :
    P.assignBc u d = match lastVal P.prescriptions d with
      | some v => v
      | none => u d := by
  refine fold_groups P.idx _ (fun _ v => v) P.groups u ?_ d
  intro g hg y d
  rw [setAt_lastVal]
  cases lastVal ((P.idx g).zip g.vals) d <;> rfl

theorem assignOnesBc_eq (h : P.WF) (u : ℕ → K) (d : ℕ) :
    P.assignOnesBc ar u d = match lastVal P.prescriptions d with
      | some _ => ar.one
      | none => u d := P.set_eq h (fun _ => ar.one) u d

theorem assignZerosBc_eq (h : P.WF) (u : ℕ → K) (d : ℕ) :
    P.assignZerosBc ar u d = match lastVal P.prescriptions d with
      | some _ => ar.zero
      | none => u d := P.set_eq h (fun _ => ar.zero) u d

theorem copyBc_eq (h : P.WF) (u : ℕ → K) (d : ℕ) :
    P.copyBc ar u d = match lastVal P.prescriptions d with
      | some _ => u d
      | none => ar.zero := P.set_eq h u (fun _ => ar.zero) d

theorem petscMatrix_eq (h : P.WF) (I J : List ℕ) (V : List K) (r c : ℕ) :
    P.petscMatrix ar I J V r c = match lastVal P.prescriptions r with
      | some _ => if r = c then ar.one else ar.zero
      | none => entry ar I J V r c := by
  have key : ∀ (gs : List (Group K)) (hg : ∀ g ∈ gs, g ∈ P.groups) (M : ℕ → ℕ → K), gs.foldl (fun M g => zeroRows ar M (P.idx g)) M r c =
      match lastVal (gs.flatMap fun g => (P.idx g).zip g.vals) r with
      | some _ => if r = c then ar.one else ar.zero
      | none => M r c := by
    intro gs
    induction gs with
    | nil => intro _ M; rfl
    | cons g gs ih =>
      intro hg M
      rw [List.foldl_cons, ih (fun g' h' => hg g' (by simp [h'])), List.flatMap_cons, lastVal_append]
      have hm := lastVal_zip_mem (P.idx g) g.vals (P.idx_length (h g (hg g (by simp)))) r
      cases lastVal (gs.flatMap fun g => (P.idx g).zip g.vals) r with
      | some v => simp
      | none =>
        cases hl : lastVal ((P.idx g).zip g.vals) r with
        | some v => simp [zeroRows, hm.mp ⟨v, hl⟩]
        | none =>
          have : r ∉ P.idx g := fun hd => by
            obtain ⟨v, hv⟩ := hm.mpr hd
            rw [hl] at hv; cases hv
          simp [zeroRows, this]
  exact key P.groups (fun _ h => h) _

end Prob

/-! ## Exact arithmetic -/

theorem entry_real (I J : List ℕ) (V : List ℝ) (r c : ℕ) :
    Prob.entry realArith I J V r c = ((I.zip (J.zip V)).map fun t => if t.1 = r ∧ t.2.1 = c then t.2.2 else 0).sum := by
  unfold Prob.entry
  have : ∀ (L : List (ℕ × ℕ × ℝ)) (s : ℝ), L.foldl (fun s t => if t.1 = r ∧ t.2.1 = c then realArith.add s t.2.2 else s) s =
      s + (L.map fun t => if t.1 = r ∧ t.2.1 = c then t.2.2 else 0).sum := by
    intro L
    induction L with
    | nil => intro s; simp
    | cons t L ih =>
      intro s
      rw [List.foldl_cons, ih, List.map_cons, List.sum_cons]
      split_ifs
      · show s + t.2.2 + _ = _; ring
      · ring
  rw [this]
  show (0 : ℝ) + _ = _
  rw [zero_add]

theorem spMul_real (I J : List ℕ) (V : List ℝ) (x : ℕ → ℝ) (r : ℕ) : Prob.spMul realArith I J V x r = cooMul I J V x r := by
  unfold Prob.spMul cooMul
  have : ∀ (L : List (ℕ × ℕ × ℝ)) (s : ℝ), L.foldl (fun s t => if t.1 = r then realArith.add s (realArith.mul t.2.2 (x t.2.1)) else s) s =
      s + (L.map fun t => if t.1 = r then t.2.2 * x t.2.1 else 0).sum := by
    intro L
    induction L with
    | nil => intro s; simp
    | cons t L ih =>
      intro s
      rw [List.foldl_cons, ih, List.map_cons, List.sum_cons]
      split_ifs
      · show s + t.2.2 * x t.2.1 + _ = _; ring
      · ring
  rw [this]
  show (0 : ℝ) + _ = _
  rw [zero_add]

theorem denseMul_real (n : ℕ) (M : ℕ → ℕ → ℝ) (x : ℕ → ℝ) (r : ℕ) : Prob.denseMul realArith n M x r = ∑ c ∈ range n, M r c * x c := by
  unfold Prob.denseMul
  induction n with
  | zero => rfl
  | succ n ih =>
    rw [List.range_succ, List.foldl_append, ih, sum_range_succ]
    rfl

theorem cooMul_dense (I J : List ℕ) (V : List ℝ) (n : ℕ) (hJ : ∀ j ∈ J, j < n) (x : ℕ → ℝ) (r : ℕ) :
    ∑ c ∈ range n, Prob.entry realArith I J V r c * x c = cooMul I J V x r := by
  simp only [entry_real]
  unfold cooMul
  have hL : ∀ t ∈ I.zip (J.zip V), t.2.1 < n := fun t ht => hJ _ (List.of_mem_zip (List.of_mem_zip (show (t.1, t.2) ∈ _ from ht)).2).1
  revert hL
  generalize I.zip (J.zip V) = L
  intro hL
  induction L with
  | nil => simp
  | cons t L ih =>
    simp only [List.map_cons, List.sum_cons, add_mul, sum_add_distrib]
    rw [ih fun s hs => hL s (by simp [hs])]
    congr 1
    by_cases hr : t.1 = r
    · simp only [hr, true_and, if_true]
      rw [sum_eq_single t.2.1]
      · simp
      · intro c _ hc
        rw [if_neg (Ne.symm hc), zero_mul]
      · intro hnot
        exact absurd (mem_range.mpr (hL t (by simp))) hnot
    · simp [hr]

theorem cooMul_linear (I J : List ℕ) (V : List ℝ) (x y : ℕ → ℝ) (a b : ℝ) (r : ℕ) :
    cooMul I J V (fun d => a * x d + b * y d) r = a * cooMul I J V x r + b * cooMul I J V y r := by
  unfold cooMul
  generalize I.zip (J.zip V) = L
  induction L with
  | nil => simp
  | cons t L ih =>
    simp only [List.map_cons, List.sum_cons, ih]
    split_ifs <;> ring

end Verif.Fem
