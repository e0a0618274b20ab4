import Verif.PhaseField.Graph
import Verif.Mesh.Lemmas
import Mathlib.Logic.Relation
import Mathlib.Algebra.BigOperators.Group.List.Basic
import Mathlib.Algebra.BigOperators.Group.Finset.Basic

/-!
# C04 (neighbour lists) and C51 (grain search)
-/
namespace Verif.PhaseField
open Verif Verif.Mesh

set_option linter.unusedSimpArgs false

/-! ## C04 -/

/-- Number of the cell with grid position `(x, y, z)`; `x` runs fastest. -/
def cellNo (Nx Ny : ℕ) (x y z : ℕ) : ℕ := (z * Ny + y) * Nx + x

/-- Specification: two cells share a face iff their positions differ by one in exactly one coordinate. -/
def ShareFace (p q : ℕ × ℕ × ℕ) : Prop :=
  (p.2 = q.2 ∧ (p.1 + 1 = q.1 ∨ q.1 + 1 = p.1)) ∨
  (p.1 = q.1 ∧ p.2.2 = q.2.2 ∧ (p.2.1 + 1 = q.2.1 ∨ q.2.1 + 1 = p.2.1)) ∨
  (p.1 = q.1 ∧ p.2.1 = q.2.1 ∧ (p.2.2 + 1 = q.2.2 ∨ q.2.2 + 1 = p.2.2))

/-- Adjacency list produced by the loop, in closed form. -/
def adjOf (E : List (ℕ × ℕ)) (v : ℕ) : List ℕ :=
  E.flatMap fun e => (if e.1 = v then [e.2] else []) ++ (if e.2 = v then [e.1] else [])

theorem foldl_addEdge (E : List (ℕ × ℕ)) : ∀ (e0 : ℕ → List ℕ) (v : ℕ),
    E.foldl addEdge e0 v = e0 v ++ adjOf E v := by
  induction E with
  | nil => intro e0 v; simp [adjOf]
  | cons e E ih =>
    intro e0 v
    rw [List.foldl_cons, ih]
    have : adjOf (e :: E) v = ((if e.1 = v then [e.2] else []) ++ (if e.2 = v then [e.1] else [])) ++ adjOf E v := rfl
    rw [this, ← List.append_assoc]
    congr 1
    simp only [addEdge, Function.update_apply]
    by_cases h1 : e.1 = v <;> by_cases h2 : e.2 = v
    · subst h1; simp [h2]
    · have h2' : ¬ v = e.2 := fun h => h2 h.symm
      subst h1; simp [h2, h2']
    · have h1' : ¬ v = e.1 := fun h => h1 h.symm
      subst h2; simp [h1, h1']
    · have h1' : ¬ v = e.1 := fun h => h1 h.symm
      have h2' : ¬ v = e.2 := fun h => h2 h.symm
      simp [h1, h2, h1', h2']

theorem mem_adjOf {E : List (ℕ × ℕ)} {v w : ℕ} : w ∈ adjOf E v ↔ (v, w) ∈ E ∨ (w, v) ∈ E := by
  simp only [adjOf, List.mem_flatMap, List.mem_append]
  constructor
  · rintro ⟨⟨a, b⟩, he, h | h⟩
    · split_ifs at h with h1
      · simp at h; subst h; simp at h1; subst h1; exact Or.inl he
      · simp at h
    · split_ifs at h with h1
      · simp at h; subst h; simp at h1; subst h1; exact Or.inr he
      · simp at h
  · rintro (h | h)
    · exact ⟨_, h, Or.inl (by simp)⟩
    · exact ⟨_, h, Or.inr (by simp)⟩

theorem nodup_adjOf {E : List (ℕ × ℕ)} (hE : E.Nodup) (hlt : ∀ e ∈ E, e.1 < e.2) (v : ℕ) :
    (adjOf E v).Nodup := by
  unfold adjOf
  rw [List.nodup_flatMap]
  constructor
  · intro e he
    have := hlt e he
    by_cases h1 : e.1 = v <;> by_cases h2 : e.2 = v <;> simp [h1, h2]
    omega
  · refine List.Pairwise.imp_of_mem ?_ hE
    rintro ⟨a, b⟩ ⟨c, d⟩ h1 h2 hne
    have l1 : a < b := hlt _ h1
    have l2 : c < d := hlt _ h2
    simp only [Function.onFun, List.disjoint_left]
    intro w hw hw'
    apply hne
    simp only [List.mem_append] at hw hw'
    rcases hw with hw | hw <;> rcases hw' with hw' | hw' <;> split_ifs at hw hw' <;>
      simp only [List.mem_singleton, List.not_mem_nil] at hw hw' <;> simp only [Prod.mk.injEq] <;> omega

theorem mem_toList3 {α : Type*} (a : Arr3 α) (x : α) :
    x ∈ a.flatten.toList ↔ ∃ i j k, i < a.n0 ∧ j < a.n1 ∧ k < a.n2 ∧ a.get i j k = x := by
  simp only [Arr1.toList, List.mem_map, List.mem_range]
  constructor
  · rintro ⟨t, ht, rfl⟩
    obtain ⟨i, j, k, hi, hj, hk, rfl⟩ := idx3_surj (show t < a.n0 * a.n1 * a.n2 from ht)
    exact ⟨i, j, k, hi, hj, hk, (Arr3.flatten_get a hj hk).symm⟩
  · rintro ⟨i, j, k, hi, hj, hk, rfl⟩
    exact ⟨_, idx3_lt hi hj hk, Arr3.flatten_get a hj hk⟩

theorem nodup_toList3 {α : Type*} (a : Arr3 α)
    (h : ∀ i j k i' j' k', j < a.n1 → k < a.n2 → j' < a.n1 → k' < a.n2 →
      a.get i j k = a.get i' j' k' → i = i' ∧ j = j' ∧ k = k') : a.flatten.toList.Nodup := by
  refine List.Nodup.map_on ?_ List.nodup_range
  intro t ht t' ht' he
  rw [List.mem_range] at ht ht'
  obtain ⟨i, j, k, hi, hj, hk, rfl⟩ := idx3_surj (show t < a.n0 * a.n1 * a.n2 from ht)
  obtain ⟨i', j', k', hi', hj', hk', rfl⟩ := idx3_surj (show t' < a.n0 * a.n1 * a.n2 from ht')
  rw [Arr3.flatten_get a hj hk, Arr3.flatten_get a hj' hk'] at he
  obtain ⟨rfl, rfl, rfl⟩ := h _ _ _ _ _ _ hj hk hj' hk' he
  rfl

theorem mem_edges (Nx Ny Nz a b : ℕ) : (a, b) ∈ edges Nx Ny Nz ↔
    (∃ z y x, z < Nz ∧ y < Ny ∧ x < Nx - 1 ∧ a = cellNo Nx Ny x y z ∧ b = cellNo Nx Ny (x + 1) y z) ∨
    (∃ z y x, z < Nz ∧ y < Ny - 1 ∧ x < Nx ∧ a = cellNo Nx Ny x y z ∧ b = cellNo Nx Ny x (y + 1) z) ∨
    (∃ z y x, z < Nz - 1 ∧ y < Ny ∧ x < Nx ∧ a = cellNo Nx Ny x y z ∧ b = cellNo Nx Ny x y (z + 1)) := by
  have key : ∀ (A : Arr3 (Fin 2 → ℕ)), (a, b) ∈ A.flatten.toList.map toPair ↔
      ∃ i j k, i < A.n0 ∧ j < A.n1 ∧ k < A.n2 ∧ a = A.get i j k 0 ∧ b = A.get i j k 1 := by
    intro A
    simp only [List.mem_map, mem_toList3, toPair, Prod.mk.injEq]
    constructor
    · rintro ⟨_, ⟨i, j, k, hi, hj, hk, rfl⟩, h1, h2⟩
      exact ⟨i, j, k, hi, hj, hk, h1.symm, h2.symm⟩
    · rintro ⟨i, j, k, hi, hj, hk, h1, h2⟩
      exact ⟨_, ⟨i, j, k, hi, hj, hk, rfl⟩, h1.symm, h2.symm⟩
  unfold edges
  simp only [List.mem_append, key, or_assoc]
  rfl

theorem nodup_edges (Nx Ny Nz : ℕ) : (edges Nx Ny Nz).Nodup := by
  have tp : Function.Injective toPair := by
    intro e e' h
    simp only [toPair, Prod.mk.injEq] at h
    funext i; fin_cases i
    · exact h.1
    · exact h.2
  unfold edges
  rw [List.nodup_append', List.nodup_append']
  refine ⟨⟨?_, ?_, ?_⟩, ?_, ?_⟩
  · refine List.Nodup.map tp (nodup_toList3 _ ?_)
    intro i j k i' j' k' hj hk hj' hk' he
    have hk2 : k < Nx - 1 := hk
    have hk2' : k' < Nx - 1 := hk'
    exact idx3_inj (n1 := Ny) (n2 := Nx) hj (by omega) hj' (by omega) (congrFun he 0)
  · refine List.Nodup.map tp (nodup_toList3 _ ?_)
    intro i j k i' j' k' hj hk hj' hk' he
    have hk2 : j < Ny - 1 := hj
    have hk2' : j' < Ny - 1 := hj'
    exact idx3_inj (n1 := Ny) (n2 := Nx) (by omega) hk (by omega) hk' (congrFun he 0)
  · rw [List.disjoint_left]
    intro e h1 h2
    simp only [List.mem_map, mem_toList3] at h1 h2
    obtain ⟨_, ⟨i, j, k, hi, hj, hk, rfl⟩, rfl⟩ := h1
    obtain ⟨_, ⟨i', j', k', hi', hj', hk', rfl⟩, he⟩ := h2
    have hk2 : k < Nx - 1 := hk
    have hj2' : j' < Ny - 1 := hj'
    have hj2 : j < Ny := hj
    have hk2' : k' < Nx := hk'
    have he' := tp he
    have e0 : (i' * Ny + j') * Nx + k' = (i * Ny + j) * Nx + k := congrFun he' 0
    have e1 : (i' * Ny + (j' + 1)) * Nx + k' = (i * Ny + j) * Nx + (k + 1) := congrFun he' 1
    have a0 := idx3_inj (by omega) hk2' hj2 (by omega) e0
    have a1 := idx3_inj (by omega) hk2' hj2 (by omega) e1
    omega
  · refine List.Nodup.map tp (nodup_toList3 _ ?_)
    intro i j k i' j' k' hj hk hj' hk' he
    exact idx3_inj (n1 := Ny) (n2 := Nx) hj hk hj' hk' (congrFun he 0)
  · rw [List.disjoint_left]
    intro e h1 h2
    rw [List.mem_append] at h1
    simp only [List.mem_map, mem_toList3] at h1 h2
    obtain ⟨_, ⟨i', j', k', hi', hj', hk', rfl⟩, rfl⟩ := h2
    have hj2' : j' < Ny := hj'
    have hk2' : k' < Nx := hk'
    rcases h1 with ⟨_, ⟨i, j, k, hi, hj, hk, rfl⟩, he⟩ | ⟨_, ⟨i, j, k, hi, hj, hk, rfl⟩, he⟩
    · have he' := tp he
      have hk2 : k < Nx - 1 := hk
      have hj2 : j < Ny := hj
      have e0 : (i * Ny + j) * Nx + k = (i' * Ny + j') * Nx + k' := congrFun he' 0
      have e1 : (i * Ny + j) * Nx + (k + 1) = ((i' + 1) * Ny + j') * Nx + k' := congrFun he' 1
      have a0 := idx3_inj hj2 (by omega) hj2' hk2' e0
      have a1 := idx3_inj hj2 (by omega) hj2' hk2' e1
      omega
    · have he' := tp he
      have hk2 : k < Nx := hk
      have hj2 : j < Ny - 1 := hj
      have e0 : (i * Ny + j) * Nx + k = (i' * Ny + j') * Nx + k' := congrFun he' 0
      have e1 : (i * Ny + (j + 1)) * Nx + k = ((i' + 1) * Ny + j') * Nx + k' := congrFun he' 1
      have a0 := idx3_inj (by omega) hk2 hj2' hk2' e0
      have a1 := idx3_inj (by omega) hk2 hj2' hk2' e1
      omega

theorem lt_edges (Nx Ny Nz : ℕ) : ∀ e ∈ edges Nx Ny Nz, e.1 < e.2 ∧ e.2 < Nz * Ny * Nx := by
  rintro ⟨a, b⟩ he
  rw [mem_edges] at he
  rcases he with ⟨z, y, x, hz, hy, hx, rfl, rfl⟩ | ⟨z, y, x, hz, hy, hx, rfl, rfl⟩ | ⟨z, y, x, hz, hy, hx, rfl, rfl⟩
  · refine ⟨by simp only [cellNo]; omega, idx3_lt hz hy (by omega)⟩
  · refine ⟨?_, idx3_lt hz (by omega) hx⟩
    simp only [cellNo]
    nlinarith [Nat.zero_lt_of_lt hx]
  · refine ⟨?_, idx3_lt (by omega) hy hx⟩
    simp only [cellNo]
    have : 0 < Ny * Nx := Nat.mul_pos (by omega) (by omega)
    nlinarith

/-- **C04.** For every grid: the neighbour list of a cell contains exactly the cells sharing a face with it, each once; all entries
are valid cell numbers. -/
theorem C04_neighbours (Nx Ny Nz : ℕ) (x y z x' y' z' : ℕ)
    (hx : x < Nx) (hy : y < Ny) (hz : z < Nz) (hx' : x' < Nx) (hy' : y' < Ny) (hz' : z' < Nz) :
    cellNo Nx Ny x' y' z' ∈ computeEdgesInOrder Nx Ny Nz (cellNo Nx Ny x y z) ↔
      ShareFace (x, y, z) (x', y', z') := by
  have inj : ∀ {a b c a' b' c' : ℕ}, a < Nx → b < Ny → a' < Nx → b' < Ny →
      cellNo Nx Ny a b c = cellNo Nx Ny a' b' c' → a = a' ∧ b = b' ∧ c = c' := by
    intro a b c a' b' c' ha hb ha' hb' h
    have := idx3_inj hb ha hb' ha' h
    exact ⟨this.2.2, this.2.1, this.1⟩
  unfold computeEdgesInOrder
  rw [foldl_addEdge, List.nil_append, mem_adjOf, mem_edges, mem_edges]
  unfold ShareFace
  simp only [Prod.mk.injEq]
  constructor
  · rintro ((⟨c, b, a, hc, hb, ha, h1, h2⟩ | ⟨c, b, a, hc, hb, ha, h1, h2⟩ | ⟨c, b, a, hc, hb, ha, h1, h2⟩) |
      (⟨c, b, a, hc, hb, ha, h1, h2⟩ | ⟨c, b, a, hc, hb, ha, h1, h2⟩ | ⟨c, b, a, hc, hb, ha, h1, h2⟩))
    all_goals
      have e1 := inj (by omega) (by omega) (by omega) (by omega) h1
      have e2 := inj (by omega) (by omega) (by omega) (by omega) h2
      omega
  · rintro (⟨⟨h1, h2⟩, h | h⟩ | ⟨h1, h2, h | h⟩ | ⟨h1, h2, h | h⟩)
    · subst h1 h2 h; exact Or.inl (Or.inl ⟨z, y, x, hz, hy, by omega, rfl, rfl⟩)
    · subst h1 h2 h; exact Or.inr (Or.inl ⟨z, y, x', hz, hy, by omega, rfl, rfl⟩)
    · subst h1 h2 h; exact Or.inl (Or.inr (Or.inl ⟨z, y, x, hz, by omega, hx, rfl, rfl⟩))
    · subst h1 h2 h; exact Or.inr (Or.inr (Or.inl ⟨z, y', x, hz, by omega, hx, rfl, rfl⟩))
    · subst h1 h2 h; exact Or.inl (Or.inr (Or.inr ⟨z, y, x, by omega, hy, hx, rfl, rfl⟩))
    · subst h1 h2 h; exact Or.inr (Or.inr (Or.inr ⟨z', y, x, by omega, hy, hx, rfl, rfl⟩))

/-- **C04.** No duplicates, no self loops, symmetry, entries in range (so no `IndexError` in the loop and in `BFS`). -/
theorem C04_well_formed (Nx Ny Nz v w : ℕ) :
    (computeEdgesInOrder Nx Ny Nz v).Nodup ∧ v ∉ computeEdgesInOrder Nx Ny Nz v ∧
    (w ∈ computeEdgesInOrder Nx Ny Nz v ↔ v ∈ computeEdgesInOrder Nx Ny Nz w) ∧
    (w ∈ computeEdgesInOrder Nx Ny Nz v → v < Nz * Ny * Nx ∧ w < Nz * Ny * Nx) := by
  have hl := lt_edges Nx Ny Nz
  unfold computeEdgesInOrder
  simp only [foldl_addEdge, List.nil_append]
  refine ⟨nodup_adjOf (nodup_edges Nx Ny Nz) (fun e he => (hl e he).1) v, ?_, ?_, ?_⟩
  · rw [mem_adjOf]; rintro (h | h) <;> exact absurd (hl _ h).1 (lt_irrefl _)
  · simp only [mem_adjOf]; tauto
  · rw [mem_adjOf]
    rintro (h | h)
    · have := hl _ h; simp only at this; omega
    · have := hl _ h; simp only at this; omega

/-- Instance: in a 2×2×1 grid cell 0 = (0,0,0) has the neighbours 1 and 2. -/
example : computeEdgesInOrder 2 2 1 0 = [1, 2] := by decide

/-! ## C51 -/
section BFS
variable {n m : ℕ}

/-- Specification: solid cells of the same orientation that are listed as neighbours. -/
def Linked (G : Graph n m) (a b : Fin n) : Prop :=
  b ∈ G.adj a ∧ G.nonliquid a = true ∧ G.nonliquid b = true ∧ G.ori a = G.ori b

/-- Specification: joined by a path of linked cells. -/
def Connected (G : Graph n m) : Fin n → Fin n → Prop := Relation.ReflTransGen (Linked G)

theorem linked_symm (G : Graph n m) (hs : ∀ a b, b ∈ G.adj a → a ∈ G.adj b) {a b : Fin n}
    (h : Linked G a b) : Linked G b a := ⟨hs _ _ h.1, h.2.2.1, h.2.1, h.2.2.2.symm⟩

theorem connected_symm (G : Graph n m) (hs : ∀ a b, b ∈ G.adj a → a ∈ G.adj b) {a b : Fin n}
    (h : Connected G a b) : Connected G b a := by
  induction h with
  | refl => exact Relation.ReflTransGen.refl
  | tail _ hl ih => exact Relation.ReflTransGen.head (linked_symm G hs hl) ih

/-- Effect of the inner loop. -/
theorem pushAll_spec (G : Graph n m) (o : Fin m) (cns : List (Fin n)) :
    ∀ (vis : Fin n → Bool) (q : List (Fin n)), ∃ ext : List (Fin n),
      (pushAll G o cns (vis, q)).2 = q ++ ext ∧ ext.Nodup ∧
      (∀ v ∈ ext, vis v = false ∧ v ∈ cns ∧ G.ori v = o ∧ G.nonliquid v = true) ∧
      (∀ v, (pushAll G o cns (vis, q)).1 v = true ↔ vis v = true ∨ v ∈ ext) ∧
      (∀ v ∈ cns, G.ori v = o → G.nonliquid v = true → (pushAll G o cns (vis, q)).1 v = true) := by
  induction cns with
  | nil => intro vis q; exact ⟨[], by simp [pushAll], by simp, by simp, by simp [pushAll], by simp⟩
  | cons a l ih =>
    intro vis q
    have hun : pushAll G o (a :: l) (vis, q) = pushAll G o l (pushIf G o (vis, q) a) := rfl
    by_cases h : vis a = false ∧ G.ori a = o ∧ G.nonliquid a = true
    · have hp : pushIf G o (vis, q) a = (Function.update vis a true, q ++ [a]) := by
        simp only [pushIf]; rw [if_pos h]
      obtain ⟨ext, h1, h2, h3, h4, h5⟩ := ih (Function.update vis a true) (q ++ [a])
      rw [hun, hp]
      have hna : a ∉ ext := by
        intro ha
        have := (h3 a ha).1
        simp at this
      refine ⟨a :: ext, by rw [h1]; simp, List.nodup_cons.mpr ⟨hna, h2⟩, ?_, ?_, ?_⟩
      · intro v hv
        rcases List.mem_cons.mp hv with rfl | hv
        · exact ⟨h.1, List.mem_cons_self .., h.2.1, h.2.2⟩
        · obtain ⟨k1, k2, k3, k4⟩ := h3 v hv
          have hva : v ≠ a := fun e => hna (e ▸ hv)
          rw [Function.update_of_ne hva] at k1
          exact ⟨k1, List.mem_cons_of_mem _ k2, k3, k4⟩
      · intro v
        rw [h4 v, List.mem_cons]
        by_cases hva : v = a
        · subst hva; simp
        · simp [Function.update_of_ne hva, hva]
      · intro v hv ho hn
        rcases List.mem_cons.mp hv with rfl | hv
        · rw [h4]; left; simp
        · exact h5 v hv ho hn
    · have hp : pushIf G o (vis, q) a = (vis, q) := by
        simp only [pushIf]; rw [if_neg h]
      obtain ⟨ext, h1, h2, h3, h4, h5⟩ := ih vis q
      rw [hun, hp]
      refine ⟨ext, h1, h2, ?_, h4, ?_⟩
      · intro v hv
        obtain ⟨k1, k2, k3, k4⟩ := h3 v hv
        exact ⟨k1, List.mem_cons_of_mem _ k2, k3, k4⟩
      · intro v hv ho hn
        rcases List.mem_cons.mp hv with rfl | hv
        · rw [h4]
          by_contra hc
          push Not at hc
          exact h ⟨by simpa using hc.1, ho, hn⟩
        · exact h5 v hv ho hn

/-- Invariant of the `while` loop started from cell `i` with already visited cells `V`. -/
structure LoopInv (G : Graph n m) (V : Fin n → Prop) (i : Fin n) (vis : Fin n → Bool)
    (queue grain : List (Fin n)) : Prop where
  vis_iff : ∀ v, vis v = true ↔ V v ∨ v ∈ grain ∨ v ∈ queue
  nodup : (grain ++ queue).Nodup
  disj : ∀ v ∈ grain ++ queue, ¬ V v
  reach : ∀ v ∈ grain ++ queue, Connected G i v ∧ G.nonliquid v = true ∧ G.ori v = G.ori i
  closed : ∀ v ∈ grain, ∀ w, Linked G v w → vis w = true

theorem loopInv_step (G : Graph n m) (V : Fin n → Prop) (i : Fin n) (vis : Fin n → Bool)
    (s : Fin n) (q grain : List (Fin n)) (h : LoopInv G V i vis (s :: q) grain) :
    LoopInv G V i (pushAll G (G.ori i) (G.adj s) (vis, q)).1 (pushAll G (G.ori i) (G.adj s) (vis, q)).2
      (grain ++ [s]) := by
  obtain ⟨ext, h1, h2, h3, h4, h5⟩ := pushAll_spec G (G.ori i) (G.adj s) vis q
  have hs := h.reach s (by simp)
  have hext : ∀ v ∈ ext, v ∉ grain ++ (s :: q) := by
    intro v hv hm
    have hf := (h3 v hv).1
    have : vis v = true := (h.vis_iff v).mpr (Or.inr (List.mem_append.mp hm))
    rw [this] at hf; cases hf
  rw [h1]
  have heq : grain ++ [s] ++ (q ++ ext) = (grain ++ (s :: q)) ++ ext := by simp
  refine ⟨?_, ?_, ?_, ?_, ?_⟩
  · intro v
    rw [h4, h.vis_iff]
    simp only [List.mem_append, List.mem_cons, List.not_mem_nil, or_false]
    tauto
  · rw [heq, List.nodup_append']
    exact ⟨h.nodup, h2, fun v hv hv' => hext v hv' hv⟩
  · rw [heq]
    intro v hv
    rcases List.mem_append.mp hv with hv | hv
    · exact h.disj v hv
    · intro hV
      have := (h.vis_iff v).mpr (Or.inl hV)
      rw [(h3 v hv).1] at this; cases this
  · rw [heq]
    intro v hv
    rcases List.mem_append.mp hv with hv | hv
    · exact h.reach v hv
    · obtain ⟨k1, k2, k3, k4⟩ := h3 v hv
      exact ⟨Relation.ReflTransGen.tail hs.1 ⟨k2, hs.2.1, k4, by rw [hs.2.2, k3]⟩, k4, k3⟩
  · intro v hv w hw
    rcases List.mem_append.mp hv with hv | hv
    · rw [h4]; exact Or.inl (h.closed v hv w hw)
    · rw [List.mem_singleton] at hv
      subst hv
      exact h5 w hw.1 (by rw [← hw.2.2.2, hs.2.2]) hw.2.2.1

theorem bfsLoop_spec (G : Graph n m) (V : Fin n → Prop) (i : Fin n) :
    ∀ (vis : Fin n → Bool) (queue grain : List (Fin n)), LoopInv G V i vis queue grain →
      LoopInv G V i (bfsLoop G (G.ori i) vis queue grain).1 [] (bfsLoop G (G.ori i) vis queue grain).2
        ∧ (∀ v, v ∈ grain ∨ v ∈ queue → v ∈ (bfsLoop G (G.ori i) vis queue grain).2) := by
  intro vis queue grain
  induction vis, queue, grain using bfsLoop.induct (G := G) (o := G.ori i) with
  | case1 vis grain =>
    intro h
    rw [bfsLoop]
    exact ⟨h, by simp⟩
  | case2 vis grain s q ih =>
    intro h
    rw [bfsLoop]
    obtain ⟨k1, k2⟩ := ih (loopInv_step G V i vis s q grain h)
    refine ⟨k1, ?_⟩
    obtain ⟨ext, h1, -⟩ := pushAll_spec G (G.ori i) (G.adj s) vis q
    intro v hv
    apply k2
    rw [h1]
    simp only [List.mem_append, List.mem_cons, List.not_mem_nil, or_false] at hv ⊢
    tauto

/-- Complete grain found from an unvisited solid cell. -/
theorem grain_spec (G : Graph n m) (hs : ∀ a b, b ∈ G.adj a → a ∈ G.adj b) (vis : Fin n → Bool)
    (i : Fin n) (hi : vis i = false) (hl : G.nonliquid i = true)
    (hclosed : ∀ v w, vis v = true → Linked G v w → vis w = true) :
    let r := bfsLoop G (G.ori i) (Function.update vis i true) [i] []
    (∀ v, r.1 v = true ↔ vis v = true ∨ v ∈ r.2) ∧ r.2.Nodup ∧ (∀ v ∈ r.2, vis v = false) ∧
      (∀ v, v ∈ r.2 ↔ Connected G i v) ∧ (∀ v ∈ r.2, G.nonliquid v = true ∧ G.ori v = G.ori i) := by
  intro r
  have h0 : LoopInv G (fun v => vis v = true) i (Function.update vis i true) [i] [] := by
    refine ⟨?_, by simp, ?_, ?_, by simp⟩
    · intro v
      by_cases hv : v = i
      · subst hv; simp
      · simp [Function.update_of_ne hv, hv]
    · intro v hv
      simp at hv; subst hv; simp [hi]
    · intro v hv
      simp at hv; subst hv
      exact ⟨Relation.ReflTransGen.refl, hl, rfl⟩
  obtain ⟨k, kin⟩ := bfsLoop_spec G _ i _ _ _ h0
  have hmem : i ∈ r.2 := kin i (Or.inr (by simp))
  have hd : ∀ v ∈ r.2, vis v = false := by
    intro v hv
    have := k.disj v (by simpa using hv)
    simpa using this
  refine ⟨?_, ?_, hd, ?_, ?_⟩
  · intro v
    have := k.vis_iff v
    simpa using this
  · simpa using k.nodup
  · intro v
    refine ⟨fun hv => (k.reach v (by simpa using hv)).1, fun hc => ?_⟩
    induction hc with
    | refl => exact hmem
    | tail _ hl ih =>
      rename_i b c _
      have := k.closed b ih c hl
      rw [k.vis_iff] at this
      rcases this with hV | hg | hq
      · have hb := hclosed c b hV (linked_symm G hs hl)
        rw [hd b ih] at hb; cases hb
      · exact hg
      · simp at hq
  · intro v hv
    exact (k.reach v (by simpa using hv)).2

theorem perm_update {ι α : Type*} [DecidableEq ι] (L : List ι) (F : ι → List α) (o : ι) (g : α)
    (hL : L.Nodup) (ho : o ∈ L) :
    (L.flatMap (Function.update F o (F o ++ [g]))).Perm (L.flatMap F ++ [g]) := by
  induction L with
  | nil => simp at ho
  | cons a l ih =>
    rw [List.nodup_cons] at hL
    rw [List.flatMap_cons, List.flatMap_cons]
    by_cases ha : a = o
    · subst ha
      have : l.flatMap (Function.update F a (F a ++ [g])) = l.flatMap F := by
        apply List.flatMap_congr
        intro b hb
        rw [Function.update_of_ne]
        rintro rfl; exact hL.1 hb
      rw [this, Function.update_self, List.append_assoc, List.append_assoc]
      exact List.Perm.append_left _ List.perm_append_comm
    · rw [Function.update_of_ne ha, List.append_assoc]
      refine List.Perm.append_left _ (ih hL.2 ?_)
      rcases List.mem_cons.mp ho with h | h
      · exact absurd h.symm ha
      · exact h

/-- Invariant of the loop over the cells after the cells in `done`. -/
structure OuterInv (G : Graph n m) (done : List (Fin n))
    (st : (Fin n → Bool) × (Fin m → List (List (Fin n)))) : Prop where
  vis_iff : ∀ v, st.1 v = true ↔ ∃ o, ∃ g ∈ st.2 o, v ∈ g
  nodup : ((List.finRange m).flatMap st.2).flatten.Nodup
  solid : ∀ v, st.1 v = true → G.nonliquid v = true
  doneVis : ∀ v ∈ done, G.nonliquid v = true → st.1 v = true
  closed : ∀ v w, st.1 v = true → Linked G v w → st.1 w = true
  comp : ∀ o, ∀ g ∈ st.2 o, g ≠ [] ∧ ∀ u ∈ g, G.ori u = o ∧ ∀ v, v ∈ g ↔ Connected G u v

theorem outer_step (G : Graph n m) (hs : ∀ a b, b ∈ G.adj a → a ∈ G.adj b) (done : List (Fin n))
    (st : (Fin n → Bool) × (Fin m → List (List (Fin n)))) (i : Fin n) (h : OuterInv G done st) :
    OuterInv G (done ++ [i]) (bfsCell G st i) := by
  unfold bfsCell
  split_ifs with hc
  · obtain ⟨g1, g2, g3, g4, g5⟩ := grain_spec G hs st.1 i hc.1 hc.2 h.closed
    set r := bfsLoop G (G.ori i) (Function.update st.1 i true) [i] [] with hr
    simp only
    have hup : ∀ (v : Fin n), (∃ o, ∃ g ∈ Function.update st.2 (G.ori i) (st.2 (G.ori i) ++ [r.2]) o, v ∈ g)
        ↔ (∃ o, ∃ g ∈ st.2 o, v ∈ g) ∨ v ∈ r.2 := by
      intro v
      constructor
      · rintro ⟨o, g, hg, hv⟩
        by_cases ho : o = G.ori i
        · subst ho
          rw [Function.update_self, List.mem_append, List.mem_singleton] at hg
          rcases hg with hg | rfl
          · exact Or.inl ⟨_, g, hg, hv⟩
          · exact Or.inr hv
        · rw [Function.update_of_ne ho] at hg
          exact Or.inl ⟨o, g, hg, hv⟩
      · rintro (⟨o, g, hg, hv⟩ | hv)
        · by_cases ho : o = G.ori i
          · subst ho
            exact ⟨_, g, by rw [Function.update_self]; exact List.mem_append_left _ hg, hv⟩
          · exact ⟨o, g, by rw [Function.update_of_ne ho]; exact hg, hv⟩
        · exact ⟨G.ori i, r.2, by rw [Function.update_self]; simp, hv⟩
    refine ⟨?_, ?_, ?_, ?_, ?_, ?_⟩
    · intro v
      rw [g1, h.vis_iff]
      exact (hup v).symm
    · have hp := (perm_update (List.finRange m) st.2 (G.ori i) r.2 (List.nodup_finRange m) (List.mem_finRange _)).flatten
      rw [hp.nodup_iff, List.flatten_append, List.nodup_append']
      refine ⟨h.nodup, by simpa using g2, ?_⟩
      intro v hv hv'
      have hv2 : v ∈ r.2 := by simpa using hv'
      have : st.1 v = true := by
        rw [h.vis_iff]
        simp only [List.mem_flatten, List.mem_flatMap] at hv
        obtain ⟨g, ⟨o, -, hg⟩, hvg⟩ := hv
        exact ⟨o, g, hg, hvg⟩
      rw [g3 v hv2] at this; cases this
    · intro v hv
      rcases (g1 v).mp hv with hv | hv
      · exact h.solid v hv
      · exact (g5 v hv).1
    · intro v hv hn
      rw [g1]
      rcases List.mem_append.mp hv with hv | hv
      · exact Or.inl (h.doneVis v hv hn)
      · rw [List.mem_singleton] at hv
        subst hv
        exact Or.inr ((g4 v).mpr Relation.ReflTransGen.refl)
    · intro v w hv hl
      rw [g1]
      rcases (g1 v).mp hv with hv | hv
      · exact Or.inl (h.closed v w hv hl)
      · exact Or.inr ((g4 w).mpr (Relation.ReflTransGen.tail ((g4 v).mp hv) hl))
    · have hnew : r.2 ≠ [] ∧ ∀ u ∈ r.2, G.ori u = G.ori i ∧ ∀ v, v ∈ r.2 ↔ Connected G u v := by
        refine ⟨List.ne_nil_of_mem ((g4 i).mpr Relation.ReflTransGen.refl), fun u hu => ⟨(g5 u hu).2, fun v => ?_⟩⟩
        have hiu := (g4 u).mp hu
        rw [g4]
        exact ⟨fun hv => (connected_symm G hs hiu).trans hv, fun hv => hiu.trans hv⟩
      intro o g hg
      change g ∈ Function.update st.2 (G.ori i) (st.2 (G.ori i) ++ [r.2]) o at hg
      by_cases ho : o = G.ori i
      · subst ho
        rw [Function.update_self, List.mem_append, List.mem_singleton] at hg
        rcases hg with hg | rfl
        · exact h.comp _ g hg
        · exact hnew
      · rw [Function.update_of_ne ho] at hg
        exact h.comp o g hg
  · refine ⟨h.vis_iff, h.nodup, h.solid, ?_, h.closed, h.comp⟩
    intro v hv hn
    rcases List.mem_append.mp hv with hv | hv
    · exact h.doneVis v hv hn
    · rw [List.mem_singleton] at hv
      subst hv
      by_contra hc'
      exact hc ⟨by simpa using hc', hn⟩

theorem outer_inv (G : Graph n m) (hs : ∀ a b, b ∈ G.adj a → a ∈ G.adj b) :
    ∀ (L done : List (Fin n)) st, OuterInv G done st → OuterInv G (done ++ L) (L.foldl (bfsCell G) st) := by
  intro L
  induction L with
  | nil => intro done st h; simpa using h
  | cons a l ih =>
    intro done st h
    have := ih (done ++ [a]) _ (outer_step G hs done st a h)
    simpa using this

theorem final_inv (G : Graph n m) (hs : ∀ a b, b ∈ G.adj a → a ∈ G.adj b) :
    OuterInv G (List.finRange n) ((List.finRange n).foldl (bfsCell G) (fun _ => false, fun _ => [])) := by
  have h0 : OuterInv G [] ((fun _ => false, fun _ => []) : (Fin n → Bool) × (Fin m → List (List (Fin n)))) := by
    refine ⟨by simp, ?_, by simp, by simp, by simp, by simp⟩
    have : (List.finRange m).flatMap (fun _ => ([] : List (List (Fin n)))) = [] := by
      rw [List.flatMap_eq_nil_iff]; simp
    simp only [this]; simp
  simpa using outer_inv G hs (List.finRange n) [] _ h0

/-- **C51 (partition).** Every solid cell occurs in exactly one grain and exactly once; no liquid cell occurs; no grain is empty. -/
theorem C51_partition (G : Graph n m) (hs : ∀ a b, b ∈ G.adj a → a ∈ G.adj b) :
    (∀ v, (bfs G).flatten.count v = if G.nonliquid v = true then 1 else 0) ∧ (∀ g ∈ bfs G, g ≠ []) := by
  have h := final_inv G hs
  set st := (List.finRange n).foldl (bfsCell G) (fun _ => false, fun _ => []) with hst
  have hb : bfs G = (List.finRange m).flatMap st.2 := rfl
  have hmem : ∀ v, v ∈ (bfs G).flatten ↔ st.1 v = true := by
    intro v
    rw [h.vis_iff, hb]
    simp only [List.mem_flatten, List.mem_flatMap, List.mem_finRange, true_and]
    constructor
    · rintro ⟨g, ⟨o, hg⟩, hv⟩; exact ⟨o, g, hg, hv⟩
    · rintro ⟨o, g, hg, hv⟩; exact ⟨g, ⟨o, hg⟩, hv⟩
  constructor
  · intro v
    have hn : (bfs G).flatten.Nodup := h.nodup
    split_ifs with hl
    · exact List.count_eq_one_of_mem hn ((hmem v).mpr (h.doneVis v (List.mem_finRange v) hl))
    · refine List.count_eq_zero_of_not_mem fun hv => hl (h.solid v ((hmem v).mp hv))
  · intro g hg
    rw [hb, List.mem_flatMap] at hg
    obtain ⟨o, -, hg⟩ := hg
    exact (h.comp o g hg).1

/-- **C51 (grains are connected components).** Two solid cells are in a common grain iff they are joined by a path of neighbouring solid cells of the same orientation. -/
theorem C51_components (G : Graph n m) (hs : ∀ a b, b ∈ G.adj a → a ∈ G.adj b) (u v : Fin n)
    (hu : G.nonliquid u = true) :
    (∃ g ∈ bfs G, u ∈ g ∧ v ∈ g) ↔ Connected G u v := by
  have h := final_inv G hs
  set st := (List.finRange n).foldl (bfsCell G) (fun _ => false, fun _ => []) with hst
  have hb : bfs G = (List.finRange m).flatMap st.2 := rfl
  rw [hb]
  simp only [List.mem_flatMap, List.mem_finRange, true_and]
  constructor
  · rintro ⟨g, ⟨o, hg⟩, hug, hvg⟩
    exact (((h.comp o g hg).2 u hug).2 v).mp hvg
  · intro hc
    obtain ⟨o, g, hg, hug⟩ := (h.vis_iff u).mp (h.doneVis u (List.mem_finRange u) hu)
    exact ⟨g, ⟨o, hg⟩, hug, (((h.comp o g hg).2 u hug).2 v).mpr hc⟩

/-- **C51 (uncombined result).** With `combined=False` the list of grains of orientation `o` contains only cells of orientation `o`. -/
theorem C51_orientation (G : Graph n m) (hs : ∀ a b, b ∈ G.adj a → a ∈ G.adj b) (o : Fin m)
    (g : List (Fin n)) (hg : g ∈ bfsGrains G o) : ∀ v ∈ g, G.ori v = o := by
  intro v hv
  exact (((final_inv G hs).comp o g hg).2 v hv).1

/-- **C51 (volumes).** The grain volumes add up to the volume of the solid cells. -/
theorem C51_volume {K : Type*} [AddCommMonoid K] (G : Graph n m)
    (hs : ∀ a b, b ∈ G.adj a → a ∈ G.adj b) (vol : Fin n → K) :
    ((grainVols (bfs G) vol).map List.sum).sum = ∑ v with G.nonliquid v = true, vol v := by
  have hc := (C51_partition G hs).1
  have h1 : ((grainVols (bfs G) vol).map List.sum).sum = ((bfs G).flatten.map vol).sum := by
    unfold grainVols
    rw [List.map_flatten, List.sum_flatten]
  rw [h1]
  have hn : (bfs G).flatten.Nodup := (final_inv G hs).nodup
  rw [← List.sum_toFinset _ hn]
  refine Finset.sum_congr ?_ fun _ _ => rfl
  ext v
  rw [List.mem_toFinset, ← List.count_pos_iff, hc]
  by_cases hl : G.nonliquid v = true <;> simp [hl]

/-- The grain search applied to the neighbour lists of a grid. -/
def gridGraph (Nx Ny Nz : ℕ) (nonliquid : Fin (Nz * Ny * Nx) → Bool) (ori : Fin (Nz * Ny * Nx) → Fin m) :
    Graph (Nz * Ny * Nx) m :=
  ⟨fun v => (computeEdgesInOrder Nx Ny Nz v).filterMap fun w => if h : w < Nz * Ny * Nx then some ⟨w, h⟩ else none,
    nonliquid, ori⟩

/-- **C51 (hypothesis discharged for grids).** The neighbour lists of `compute_edges_in_order` are symmetric, and dropping nothing:
every listed number is a cell. -/
theorem C51_grid_symmetric (Nx Ny Nz : ℕ) (nonliquid : Fin (Nz * Ny * Nx) → Bool)
    (ori : Fin (Nz * Ny * Nx) → Fin m) :
    (∀ a b, b ∈ (gridGraph Nx Ny Nz nonliquid ori).adj a → a ∈ (gridGraph Nx Ny Nz nonliquid ori).adj b) ∧
    (∀ a, ((gridGraph Nx Ny Nz nonliquid ori).adj a).map Fin.val = computeEdgesInOrder Nx Ny Nz a) := by
  have mem : ∀ a b : Fin (Nz * Ny * Nx), b ∈ (gridGraph Nx Ny Nz nonliquid ori).adj a ↔
      b.1 ∈ computeEdgesInOrder Nx Ny Nz a := by
    intro a b
    simp only [gridGraph, List.mem_filterMap]
    constructor
    · rintro ⟨w, hw, he⟩
      split_ifs at he with h
      simp only [Option.some.injEq] at he
      subst he; exact hw
    · intro h
      exact ⟨b, h, by simp⟩
  refine ⟨?_, ?_⟩
  · intro a b h
    rw [mem] at h ⊢
    exact ((C04_well_formed Nx Ny Nz a b).2.2.1).mp h
  · intro a
    simp only [gridGraph]
    have hr : ∀ w ∈ computeEdgesInOrder Nx Ny Nz a, w < Nz * Ny * Nx := fun w hw =>
      ((C04_well_formed Nx Ny Nz a w).2.2.2 hw).2
    generalize computeEdgesInOrder Nx Ny Nz a = l at hr
    induction l with
    | nil => rfl
    | cons w l ih =>
      have hw := hr w (List.mem_cons_self ..)
      rw [List.filterMap_cons]
      simp only [hw, dif_pos, List.map_cons]
      rw [ih fun x hx => hr x (List.mem_cons_of_mem _ hx)]

/-- Instance: a 4-cell row with one liquid cell and two orientations: grains {0,1} and {3}. -/
example : (gridGraph (m := 2) 4 1 1 (fun v => v.1 ≠ 2) (fun v => if v.1 = 3 then 1 else 0)).adj ⟨1, by decide⟩
    = [⟨0, by decide⟩, ⟨2, by decide⟩] := by decide

end BFS
end Verif.PhaseField
