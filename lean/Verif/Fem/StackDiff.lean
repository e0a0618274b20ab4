import Verif.Fem.Lemmas
import Mathlib.Data.Real.Basic

/-!
# C127: stacking the pieces of `split_and_compute_cell` (model of `jax_array_list_to_numpy_diff`, jax_am/fem/autodiff_utils.py 143-183)

The calls in core.py 641-642 are commented out in favour of `np_version.vstack`.
-/
namespace Verif.Fem

variable {α : Type*} {γ δ : Type}

/-- `jax_array_list_to_numpy_diff` (autodiff_utils.py 143-172): a list of arrays, each given by its rows (of one type, hence of one trailing shape). The shape announced to `pure_callback` is that of the first array with the number of
rows times the number of arrays; a result of another shape raises. -/
def stackDiff (arrs : List (List α)) : Except FemErr (List α) :=
  match arrs with
  | [] => .error .index
  | x :: xs =>
    let out := (x :: xs).flatten
    if out.length = x.length * (x :: xs).length then .ok out else .error .shape

/-- `jax_array_list_to_numpy_diff_jvp` (autodiff_utils.py 175-183). -/
def stackDiffJvp (primals tangents : List (List α)) : Except FemErr (List α × List α) := do
  let out ← stackDiff primals
  let dot ← stackDiff tangents
  pure (out, dot)

theorem stackDiff_ok (arrs : List (List α)) (out : List α) : stackDiff arrs = .ok out ↔ ∃ x xs, arrs = x :: xs ∧ out = arrs.flatten ∧ arrs.flatten.length = x.length * arrs.length := by
  cases arrs with
  | nil => simp [stackDiff]
  | cons x xs =>
    unfold stackDiff
    simp only
    split_ifs with h
    · constructor
      · intro h1
        injection h1 with h1
        exact ⟨x, xs, rfl, h1.symm, h⟩
      · rintro ⟨y, ys, -, h1, -⟩
        rw [h1]
    · constructor
      · intro h1; cases h1
      · rintro ⟨y, ys, h1, -, h2⟩
        injection h1 with h1 _
        subst h1
        exact absurd h2 h

/-- **C127 (equal pieces).** Arrays of the same height are stacked; nothing else comes out of a call that returns, and an empty list raises. -/
theorem C127_stack (arrs : List (List α)) : (∀ out, stackDiff arrs = .ok out → out = arrs.flatten) ∧ (arrs ≠ [] → (∀ x ∈ arrs, ∀ y ∈ arrs, x.length = y.length) → stackDiff arrs = .ok arrs.flatten) ∧
    (stackDiff ([] : List (List α)) = .error .index) := by
  refine ⟨fun out h => ?_, fun hne h => ?_, rfl⟩
  · obtain ⟨_, _, -, h1, -⟩ := (stackDiff_ok arrs out).mp h
    exact h1
  · cases arrs with
    | nil => exact absurd rfl hne
    | cons x xs =>
      refine (stackDiff_ok _ _).mpr ⟨x, xs, rfl, rfl, ?_⟩
      rw [List.length_flatten]
      have : ((x :: xs).map List.length) = (x :: xs).map fun _ => x.length := List.map_congr_left fun y hy => h y hy x (by simp)
      rw [this, List.map_const', List.sum_replicate, smul_eq_mul, mul_comm]

theorem Tree.vmap_length {t : Tree γ} {f : γ → δ} {out : List δ} (h : t.vmap f = .ok out) : out.length = t.sizes.headD 0 := by
  unfold Tree.vmap at h
  split_ifs at h
  injection h with h
  rw [← h]
  simp

/-- The number of pieces and the height of the first one. -/
theorem splitBatches_shape (n : ℕ) (f : γ → δ) (t : Tree γ) (hhead : t.sizes.headD 0 = n) (res : List (List δ)) (h : splitBatches n f t = .ok res) :
    res.length = min n 20 ∧ ∃ x xs, res = x :: xs ∧ x.length = n / min n 20 := by
  obtain ⟨hn, hs⟩ := splitBatches_sizes n f t hhead res h
  obtain ⟨c, hc, hcn, hmin⟩ : ∃ c, (if 20 > n then n else 20) = c + 1 ∧ c + 1 ≤ n ∧ min n 20 = c + 1 := by
    split_ifs with h1
    · exact ⟨n - 1, by omega, by omega, by omega⟩
    · exact ⟨19, rfl, by omega, by omega⟩
  unfold splitBatches at h
  simp only [hc, Nat.succ_ne_zero, if_false, Nat.add_sub_cancel] at h
  rw [mapM_ok_iff] at h
  have hlen := h.length_eq
  rw [List.length_range] at hlen
  refine ⟨by omega, ?_⟩
  cases res with
  | nil => simp at hlen
  | cons x xs =>
    refine ⟨x, xs, rfl, ?_⟩
    have h0 := h.get (i := 0) (by rw [List.length_range]; omega) (by simp)
    simp only [List.get_eq_getElem, List.getElem_range, List.getElem_cons_zero, Nat.zero_mul, Nat.zero_add, Nat.one_mul] at h0
    rw [hmin]
    split_ifs at h0 with hpos
    · rw [Tree.vmap_length h0]
      have hb : n / (c + 1) ≤ n := Nat.div_le_self _ _
      show (t.sizes.map fun s => min (n / (c + 1)) s - min 0 s).headD 0 = _
      cases ht : t.sizes with
      | nil => rw [ht] at hhead; simp at hhead; omega
      | cons a l => rw [ht] at hhead; simp at hhead ⊢; omega
    · rw [Tree.vmap_length h0]
      have hc0 : c = 0 := by omega
      subst hc0
      show (t.sizes.map fun s => s - 0).headD 0 = _
      cases ht : t.sizes with
      | nil => rw [ht] at hhead; simp at hhead; omega
      | cons a l => rw [ht] at hhead; simp at hhead ⊢; omega

/-- **C127 (the pieces of `split_and_compute_cell`).** Stacked by this function (the commented lines of core.py), the pieces of a mesh with `n` cells give the cell values of all cells in order if `n ≤ 20` or 20 divides `n`, and raise a shape error
for every other number of cells: the last piece is then higher than the first. -/
theorem C127_pieces (n : ℕ) (f : γ → δ) (t : Tree γ) (hhead : t.sizes.headD 0 = n) (res : List (List δ)) (h : splitBatches n f t = .ok res) :
    (n ≤ 20 ∨ 20 ∣ n → stackDiff res = .ok ((List.range n).map fun k => f (t.row k))) ∧ (¬(n ≤ 20 ∨ 20 ∣ n) → stackDiff res = .error .shape) := by
  obtain ⟨hn, hs⟩ := splitBatches_sizes n f t hhead res h
  have hne : t.sizes ≠ [] := by
    intro h0
    rw [h0] at hhead
    simp at hhead
    omega
  obtain ⟨res', h1, hflat⟩ := splitBatches_ok n hn f t n hne hs
  rw [h] at h1
  injection h1 with h1
  subst h1
  obtain ⟨hlen, x, xs, hx, hxl⟩ := splitBatches_shape n f t hhead res h
  have hfl : res.flatten.length = n := by rw [hflat]; simp
  have key : res.flatten.length = x.length * res.length ↔ n ≤ 20 ∨ 20 ∣ n := by
    rw [hfl, hxl, hlen]
    constructor
    · intro h2
      by_cases h3 : n ≤ 20
      · exact .inl h3
      · rw [min_eq_right (by omega)] at h2
        exact .inr ⟨n / 20, by omega⟩
    · rintro (h2 | h2)
      · rw [min_eq_left h2, Nat.div_self hn, one_mul]
      · obtain ⟨k, rfl⟩ := h2
        rw [min_eq_right (by omega)]
        omega
  refine ⟨fun h2 => ?_, fun h2 => ?_⟩
  · rw [← hflat]
    exact (stackDiff_ok res _).mpr ⟨x, xs, hx, rfl, key.mpr h2⟩
  · subst hx
    unfold stackDiff
    simp only
    rw [if_neg fun h3 => h2 (key.mp h3)]

theorem zipWith_flatten {β : Type*} (g : α → β → γ) : ∀ (A : List (List α)) (B : List (List β)), List.Forall₂ (fun a b => a.length = b.length) A B →
    (List.zipWith (List.zipWith g) A B).flatten = List.zipWith g A.flatten B.flatten := by
  intro A B h
  induction h with
  | nil => rfl
  | cons h1 _ ih => rw [List.zipWith_cons_cons, List.flatten_cons, List.flatten_cons, List.flatten_cons, ih, List.zipWith_append h1]

/-- **C127 (forward derivative).** For pieces of the same shapes as their tangents, the rule returns iff the function does, the value and the tangent it returns are those of the stacked array, and the function maps the perturbed
pieces exactly to the perturbed stack: the returned tangent is the derivative in the direction of the given one. -/
theorem C127_jvp (arrs dots : List (List ℝ)) (hshape : List.Forall₂ (fun a b => a.length = b.length) arrs dots) :
    (∀ e, stackDiff arrs = .error e ↔ stackDiffJvp arrs dots = .error e) ∧
    ∀ out, stackDiff arrs = .ok out → ∃ dot, stackDiffJvp arrs dots = .ok (out, dot) ∧ dot.length = out.length ∧
      ∀ s : ℝ, stackDiff (List.zipWith (List.zipWith fun a b => a + s * b) arrs dots) = .ok (List.zipWith (fun a b => a + s * b) out dot) := by
  have hlen : arrs.map List.length = dots.map List.length := by
    induction hshape with
    | nil => rfl
    | cons h _ ih => rw [List.map_cons, List.map_cons, ih, h]
  have hfl : arrs.flatten.length = dots.flatten.length := by rw [List.length_flatten, List.length_flatten, hlen]
  have hcount := hshape.length_eq
  have hdot : ∀ out, stackDiff arrs = .ok out → stackDiff dots = .ok dots.flatten := by
    intro out h
    obtain ⟨x, xs, rfl, -, h2⟩ := (stackDiff_ok arrs out).mp h
    cases hshape with
    | cons h1 h3 => exact (stackDiff_ok _ _).mpr ⟨_, _, rfl, rfl, by rw [← hfl, ← hcount, ← h1]; exact h2⟩
  constructor
  · intro e
    unfold stackDiffJvp
    cases h : stackDiff arrs with
    | error e' => simp [bind, Except.bind]
    | ok out => rw [hdot out h]; simp [bind, Except.bind, pure, Except.pure]
  · intro out h
    refine ⟨dots.flatten, ?_, ?_, fun s => ?_⟩
    · unfold stackDiffJvp
      rw [h, hdot out h]
      rfl
    · obtain ⟨_, _, -, h1, -⟩ := (stackDiff_ok arrs out).mp h
      rw [h1, hfl]
    · obtain ⟨x, xs, rfl, h1, h2⟩ := (stackDiff_ok arrs out).mp h
      rw [h1, ← zipWith_flatten _ _ _ hshape]
      cases hshape with
      | @cons _ y _ ys h3 h4 =>
        refine (stackDiff_ok _ _).mpr ⟨_, _, rfl, rfl, ?_⟩
        rw [zipWith_flatten _ _ _ (List.Forall₂.cons h3 h4), List.length_zipWith, ← hfl, min_self, h2, List.length_zipWith, List.length_zipWith, ← hcount, ← h3, min_self, min_self]

/-- Examples: three pieces of two rows; a mesh of 21 cells raises, one of 40 cells does not. -/
example : stackDiff [[1, 2], [3, 4], [5, 6]] = .ok [1, 2, 3, 4, 5, 6] ∧ stackDiff [[1], [2, 3]] = .error .shape := ⟨rfl, rfl⟩

example : (∃ res, splitBatches 21 (fun k : ℕ => 2 * k) ⟨[21], fun k => k⟩ = .ok res ∧ stackDiff res = .error .shape) ∧
    ∃ res, splitBatches 40 (fun k : ℕ => 2 * k) ⟨[40], fun k => k⟩ = .ok res ∧ stackDiff res = .ok ((List.range 40).map fun k => 2 * k) := by
  obtain ⟨r1, h1, -⟩ := splitBatches_ok 21 (by norm_num) (fun k : ℕ => 2 * k) ⟨[21], fun k => k⟩ 21 (by simp) (by simp)
  obtain ⟨r2, h2, -⟩ := splitBatches_ok 40 (by norm_num) (fun k : ℕ => 2 * k) ⟨[40], fun k => k⟩ 40 (by simp) (by simp)
  exact ⟨⟨r1, h1, (C127_pieces 21 _ _ rfl r1 h1).2 (by norm_num)⟩, r2, h2, (C127_pieces 40 _ _ rfl r2 h2).1 (by norm_num)⟩

end Verif.Fem
