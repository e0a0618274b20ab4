import Verif.Fem.Core
import Mathlib.Algebra.BigOperators.Fin
import Mathlib.Algebra.BigOperators.Group.List.Lemmas

/-!
# Helper lemmas for the finite element core
-/
namespace Verif.Fem
open Finset

/-! ## Exceptions in lists -/

theorem mapM_ok_iff {α β : Type} {f : α → Except FemErr β} {l : List α} {out : List β} :
    l.mapM f = .ok out ↔ List.Forall₂ (fun a b => f a = .ok b) l out := by
  induction l generalizing out with
  | nil =>
    rw [List.mapM_nil]
    constructor
    · intro h
      injection h with h
      subst h
      exact List.Forall₂.nil
    · intro h
      cases h
      rfl
  | cons a l ih =>
    rw [List.mapM_cons]
    constructor
    · intro h
      cases ha : f a with
      | error e => rw [ha] at h; cases h
      | ok b =>
        rw [ha] at h
        cases hl : l.mapM f with
        | error e => rw [hl] at h; cases h
        | ok bs =>
          rw [hl] at h
          cases h
          exact List.Forall₂.cons ha (ih.mp hl)
    · intro h
      cases h with
      | cons ha hl =>
        rw [ha, ih.mpr hl]
        rfl

theorem forall₂_map_iff {α β : Type} {f : α → Except FemErr β} {g : α → β} {l : List α} {out : List β}
    (hfg : ∀ a b, f a = .ok b → b = g a) (h : List.Forall₂ (fun a b => f a = .ok b) l out) : out = l.map g := by
  induction h with
  | nil => rfl
  | cons ha _ ih => rw [List.map_cons, hfg _ _ ha, ih]

/-! ## Scatter -/

theorem foldl_scatter {V : Type*} [AddCommMonoid V] (L : List (ℕ × V)) (x : ℕ → V) (n : ℕ) :
    L.foldl (fun y p => Function.update y p.1 (y p.1 + p.2)) x n = x n + (L.map fun p => if p.1 = n then p.2 else 0).sum := by
  induction L generalizing x with
  | nil => simp
  | cons p l ih =>
    rw [List.foldl_cons, ih, List.map_cons, List.sum_cons]
    by_cases h : p.1 = n
    · subst h; simp [add_assoc]
    · rw [Function.update_of_ne (Ne.symm h), if_neg h, zero_add]

theorem scatterAdd_apply {V : Type*} [AddCommMonoid V] (x : ℕ → V) (idx : List ℕ) (vals : List V) (n : ℕ) :
    scatterAdd x idx vals n = x n + ((idx.zip vals).map fun p => if p.1 = n then p.2 else 0).sum := foldl_scatter _ x n

theorem zip_ofFn {m : ℕ} {α β : Type*} (f : Fin m → α) (g : Fin m → β) : (List.ofFn f).zip (List.ofFn g) = List.ofFn fun i => (f i, g i) := by
  refine List.ext_getElem (by simp) fun i h1 h2 => ?_
  simp

theorem zip_flat2 {m : ℕ} {α β : Type*} : ∀ (as : List (Fin m → α)) (bs : List (Fin m → β)), as.length = bs.length →
    (flat2 as).zip (flat2 bs) = flat2 ((as.zip bs).map fun p i => (p.1 i, p.2 i))
  | [], [], _ => rfl
  | a :: as, b :: bs, h => by
    have ih := zip_flat2 as bs (by simpa using h)
    simp only [flat2, List.flatMap_cons, List.zip_cons_cons, List.map_cons] at ih ⊢
    rw [List.zip_append (by simp), zip_ofFn, ih]

theorem sum_map_flat2 {m : ℕ} {α M : Type*} [AddCommMonoid M] (rows : List (Fin m → α)) (f : α → M) :
    ((flat2 rows).map f).sum = (rows.map fun r => ∑ i, f (r i)).sum := by
  induction rows with
  | nil => rfl
  | cons r l ih =>
    simp only [flat2, List.flatMap_cons, List.map_append, List.sum_append, List.map_cons, List.sum_cons] at ih ⊢
    rw [ih, List.map_ofFn, List.sum_ofFn]
    rfl

/-- Scatter-add of rows of cell values: every node collects the values of all (cell, local node) pairs attached to it. -/
theorem scatterAdd_flat2 {m : ℕ} {V : Type*} [AddCommMonoid V] (x : ℕ → V) (cells : List (Fin m → ℕ)) (vals : List (Fin m → V))
    (h : cells.length = vals.length) (n : ℕ) :
    scatterAdd x (flat2 cells) (flat2 vals) n = x n + ((cells.zip vals).map fun p => ∑ a, if p.1 a = n then p.2 a else 0).sum := by
  rw [scatterAdd_apply, zip_flat2 _ _ h, sum_map_flat2 _ (fun p : ℕ × V => if p.1 = n then p.2 else 0), List.map_map]
  rfl

theorem zip_map_self {α β : Type*} (l : List α) (f : α → β) : l.zip (l.map f) = l.map fun a => (a, f a) := by
  induction l with
  | nil => rfl
  | cons a l ih => simp [ih]

theorem list_sum_sum {α M : Type*} [AddCommMonoid M] (l : List α) (N : Finset ℕ) (f : ℕ → α → M) :
    ∑ n ∈ N, (l.map (f n)).sum = (l.map fun a => ∑ n ∈ N, f n a).sum := by
  induction l with
  | nil => simp
  | cons a l ih => simp only [List.map_cons, List.sum_cons, sum_add_distrib, ih]

theorem list_sum_apply {α ι M : Type*} [AddCommMonoid M] (l : List α) (f : α → ι → M) (i : ι) :
    (l.map f).sum i = (l.map fun a => f a i).sum := by
  induction l with
  | nil => rfl
  | cons a l ih => simp [List.map_cons, List.sum_cons, ih]

/-! ## Batches -/
section Batch
variable {γ δ : Type}

theorem Tree.vmap_ok {t : Tree γ} {f : γ → δ} {m : ℕ} (hne : t.sizes ≠ []) (h : ∀ n ∈ t.sizes, n = m) :
    t.vmap f = .ok ((List.range m).map fun k => f (t.row k)) := by
  have h0 : t.sizes.headD 0 = m := by
    cases hs : t.sizes with
    | nil => exact absurd hs hne
    | cons a l => exact h a (by rw [hs]; simp)
  unfold Tree.vmap
  rw [h0, if_pos h]

theorem Tree.vmap_inv {t : Tree γ} {f : γ → δ} {out : List δ} (h : t.vmap f = .ok out) : ∀ n ∈ t.sizes, n = t.sizes.headD 0 := by
  unfold Tree.vmap at h
  split_ifs at h with h1
  exact h1

/-- concatenating the first `j` batches gives the rows before `min (j * b) m`. -/
theorem flatten_batches (g : ℕ → δ) (b m : ℕ) (j : ℕ) :
    ((List.range j).map fun i => (List.range (min ((i + 1) * b) m - min (i * b) m)).map fun k => g (i * b + k)).flatten
      = (List.range (min (j * b) m)).map g := by
  induction j with
  | zero => simp
  | succ j ih =>
    rw [List.range_succ, List.map_append, List.flatten_append, ih]
    simp only [List.map_cons, List.map_nil, List.flatten_cons, List.flatten_nil, List.append_nil]
    by_cases hm : j * b ≤ m
    · rw [Nat.min_eq_left hm]
      have hle : j * b ≤ min ((j + 1) * b) m := le_min (Nat.mul_le_mul_right b (Nat.le_succ j)) hm
      obtain ⟨r, hr⟩ := Nat.exists_eq_add_of_le hle
      rw [hr, Nat.add_sub_cancel_left, List.range_add, List.map_append, List.map_map]
      rfl
    · push Not at hm
      have h2 : m ≤ (j + 1) * b := hm.le.trans (Nat.mul_le_mul_right b (Nat.le_succ j))
      rw [Nat.min_eq_right hm.le, Nat.min_eq_right h2, Nat.sub_self]
      simp

theorem splitBatches_ok (n : ℕ) (hn : 0 < n) (f : γ → δ) (t : Tree γ) (m : ℕ) (hne : t.sizes ≠ []) (h : ∀ s ∈ t.sizes, s = m) :
    ∃ res, splitBatches n f t = .ok res ∧ res.flatten = (List.range m).map fun k => f (t.row k) := by
  obtain ⟨c, hc, hcdef⟩ : ∃ c, (if 20 > n then n else 20) = c + 1 ∧ c + 1 ≤ 20 := by
    split_ifs with h1
    · exact ⟨n - 1, by omega, by omega⟩
    · exact ⟨19, rfl, le_refl _⟩
  set b := n / (c + 1) with hb
  refine ⟨(List.range (c + 1)).map fun i => if i < c then (List.range (min ((i + 1) * b) m - min (i * b) m)).map fun k => f (t.row (i * b + k))
    else (List.range (m - i * b)).map fun k => f (t.row (i * b + k)), ?_, ?_⟩
  · unfold splitBatches
    simp only [hc, Nat.succ_ne_zero, if_false, Nat.add_sub_cancel]
    rw [mapM_ok_iff, List.forall₂_map_right_iff, List.forall₂_same]
    intro i _
    rw [← hb]
    split_ifs with hi
    · refine Tree.vmap_ok (t := t.slice _ _) (by simpa [Tree.slice] using hne) ?_
      intro s hs
      obtain ⟨s', hs', rfl⟩ := List.mem_map.mp hs
      rw [h s' hs']
    · refine Tree.vmap_ok (t := t.sliceFrom _) (by simpa [Tree.sliceFrom] using hne) ?_
      intro s hs
      obtain ⟨s', hs', rfl⟩ := List.mem_map.mp hs
      rw [h s' hs']
  · rw [List.range_succ, List.map_append, List.flatten_append]
    have h1 : ((List.range c).map fun i => if i < c then (List.range (min ((i + 1) * b) m - min (i * b) m)).map fun k => f (t.row (i * b + k))
        else (List.range (m - i * b)).map fun k => f (t.row (i * b + k)))
        = (List.range c).map fun i => (List.range (min ((i + 1) * b) m - min (i * b) m)).map fun k => (fun r => f (t.row r)) (i * b + k) := by
      refine List.map_congr_left fun i hi => ?_
      rw [if_pos (List.mem_range.mp hi)]
    rw [h1]
    refine (congrArg₂ (· ++ ·) (flatten_batches (fun r => f (t.row r)) b m c) rfl).trans ?_
    simp only [List.map_cons, List.map_nil, List.flatten_cons, List.flatten_nil, List.append_nil, lt_irrefl, if_false]
    by_cases hm : c * b ≤ m
    · obtain ⟨r, rfl⟩ := Nat.exists_eq_add_of_le hm
      rw [Nat.min_eq_left hm, Nat.add_sub_cancel_left, List.range_add, List.map_append, List.map_map]
      rfl
    · push Not at hm
      rw [Nat.min_eq_right hm.le, Nat.sub_eq_zero_of_le hm.le]
      simp

theorem splitBatches_sizes (n : ℕ) (f : γ → δ) (t : Tree γ) (hhead : t.sizes.headD 0 = n) (res : List (List δ)) (h : splitBatches n f t = .ok res) :
    0 < n ∧ ∀ s ∈ t.sizes, s = n := by
  have hn : 0 < n := by
    by_contra h0
    have h0 : n = 0 := by omega
    subst h0
    simp [splitBatches] at h
  refine ⟨hn, ?_⟩
  obtain ⟨c, hc, hcn⟩ : ∃ c, (if 20 > n then n else 20) = c + 1 ∧ c + 1 ≤ n := by
    split_ifs with h1
    · exact ⟨n - 1, by omega, by omega⟩
    · exact ⟨19, rfl, by omega⟩
  unfold splitBatches at h
  simp only [hc, Nat.succ_ne_zero, if_false, Nat.add_sub_cancel] at h
  rw [mapM_ok_iff] at h
  set b := n / (c + 1) with hb
  have hlt : c * b < n := by
    have h1 : (c + 1) * b ≤ n := Nat.mul_div_le n (c + 1)
    have h2 : 0 < b := Nat.div_pos hcn (Nat.succ_pos c)
    nlinarith
  obtain ⟨out, hout⟩ : ∃ out, (if c < c then (t.slice (c * b) ((c + 1) * b)).vmap f else (t.sliceFrom (c * b)).vmap f) = .ok out := by
    have hlen := h.length_eq
    have hlt' : c < res.length := by rw [← hlen, List.length_range]; omega
    have := h.get (i := c) (by rw [List.length_range]; omega) hlt'
    simp only [List.get_eq_getElem, List.getElem_range] at this
    exact ⟨_, this⟩
  rw [if_neg (lt_irrefl c)] at hout
  have hs := Tree.vmap_inv hout
  intro s hsm
  have h1 := hs (s - c * b) (List.mem_map.mpr ⟨s, hsm, rfl⟩)
  have h2 : (t.sliceFrom (c * b)).sizes.headD 0 = n - c * b := by
    show (t.sizes.map fun n => n - c * b).headD 0 = _
    cases ht : t.sizes with
    | nil => rw [ht] at hsm; exact absurd hsm List.not_mem_nil
    | cons a l => rw [ht] at hhead; simp at hhead ⊢; omega
  rw [h2] at h1
  omega

theorem splitCompute_ok (n : ℕ) (hn : 0 < n) (f : γ → δ) (t : Tree γ) (m : ℕ) (hne : t.sizes ≠ []) (h : ∀ s ∈ t.sizes, s = m) :
    splitCompute n f t = .ok ((List.range m).map fun k => f (t.row k)) := by
  obtain ⟨res, h1, h2⟩ := splitBatches_ok n hn f t m hne h
  unfold splitCompute
  rw [h1, ← h2]
  rfl

theorem splitComputeJac_ok {ε : Type} (n : ℕ) (hn : 0 < n) (f : γ → δ × ε) (t : Tree γ) (m : ℕ) (hne : t.sizes ≠ []) (h : ∀ s ∈ t.sizes, s = m) :
    splitComputeJac n f t = .ok ((List.range m).map fun k => (f (t.row k)).1, (List.range m).map fun k => (f (t.row k)).2) := by
  obtain ⟨res, h1, h2⟩ := splitBatches_ok n hn f t m hne h
  unfold splitComputeJac
  rw [h1]
  show Except.ok _ = _
  congr 2
  · rw [← List.map_flatten, h2, List.map_map]
    rfl
  · rw [← List.map_flatten, h2, List.map_map]
    rfl

end Batch
end Verif.Fem
