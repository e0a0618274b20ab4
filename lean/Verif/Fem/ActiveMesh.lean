import Verif.Fem.Core
import Mathlib.Data.List.Sort
import Mathlib.Data.List.Nodup

/-!
# Element birth (model of applications/fem/thermal/models.py 71-125)

The mesh of the cells deposited so far, and the table from which the external faces are found after every deposition without going through all cells again.

A truth table is a function of the cell number (its length is the number of cells, lines 53, 96); Python lists and dictionaries that the functions modify in place are returned.
`set(..) - set(..)` has no defined order; the model keeps the order of `all_faces`, and nothing below depends on the order.
-/
namespace Verif.Fem

variable {nn nf dim : ℕ}

/-! ## The table of faces -/

/-- `cells_face` (models.py 92-93): for each cell and face the sorted numbers of its nodes. `onp.sort` sorts along the last axis. -/
def cellsFace (cells : List (Fin nn → ℕ)) (faces : Fin nf → List (Fin nn)) : List (Fin nf → List ℕ) :=
  cells.map fun c f => ((faces f).map c).insertionSort (· ≤ ·)

/-- `hash_map`, `inner_faces` and `all_faces`. -/
structure FaceBook (nf : ℕ) where
  hash : List ℕ → Option (ℕ × Fin nf)
  inner : List (ℕ × Fin nf)
  all : List (ℕ × Fin nf)

/-- The empty table (models.py 94-96). -/
def FaceBook.empty : FaceBook nf := ⟨fun _ => none, [], []⟩

/-- One face (models.py 77-83). -/
def bookFace (keys : List (Fin nf → List ℕ)) (c : ℕ) (B : FaceBook nf) (f : Fin nf) : FaceBook nf :=
  let key := keys.getD c (fun _ => []) f
  match B.hash key with
  | some p => ⟨B.hash, B.inner ++ [p, (c, f)], B.all ++ [(c, f)]⟩
  | none => ⟨Function.update B.hash key (some (c, f)), B.inner, B.all ++ [(c, f)]⟩

/-- The loops of `hash_map_for_faces` (models.py 74-83). -/
def bookCells (act : ℕ → Bool) (keys : List (Fin nf → List ℕ)) (B : FaceBook nf) (inds : List ℕ) : FaceBook nf :=
  inds.foldl (fun B c => if act c then (List.finRange nf).foldl (bookFace keys c) B else B) B

/-- `hash_map_for_faces` (models.py 71-85). -/
def hashMapForFaces (act : ℕ → Bool) (keys : List (Fin nf → List ℕ)) (B : FaceBook nf) (inds : List ℕ) : FaceBook nf × List (ℕ × Fin nf) :=
  let B := bookCells act keys B inds
  (B, B.all.dedup.filter fun p => p ∉ B.inner)

/-- `external_faces[:, 0] = cells_map_full[external_faces[:, 0]]` (models.py 99, 107): the array made from an empty list has one axis only, and `[:, 0]` raises. -/
def renumberFaces (cellsMap : ℕ → ℕ) (ext : List (ℕ × Fin nf)) : Except FemErr (List (ℕ × Fin nf)) :=
  if ext = [] then .error .index else .ok (ext.map fun p => (cellsMap p.1, p.2))

/-- `initialize_hash_map` (models.py 88-100). -/
def initializeHashMap (cells : List (Fin nn → ℕ)) (faces : Fin nf → List (Fin nn)) (act : ℕ → Bool) (cellsMap : ℕ → ℕ) :
    Except FemErr (List (ℕ × Fin nf) × List (Fin nf → List ℕ) × FaceBook nf) := do
  let keys := cellsFace cells faces
  let r := hashMapForFaces act keys FaceBook.empty (List.range keys.length)
  let ext ← renumberFaces cellsMap r.2
  pure (ext, keys, r.1)

/-- `update_hash_map` (models.py 103-108). -/
def updateHashMap (numCells : ℕ) (old new : ℕ → Bool) (cellsMap : ℕ → ℕ) (keys : List (Fin nf → List ℕ)) (B : FaceBook nf) :
    Except FemErr (List (ℕ × Fin nf) × FaceBook nf) := do
  let newBorn := (List.range numCells).filter fun c => old c != new c
  let r := hashMapForFaces new keys B newBorn
  let ext ← renumberFaces cellsMap r.2
  pure (ext, r.1)

/-! ## The active mesh -/

/-- `m = onp.zeros(..); m[l] = onp.arange(len(l))` (models.py 115-116, 120-121). -/
def inverseMap (l : List ℕ) : ℕ → ℕ := l.zipIdx.foldl (fun g p => Function.update g p.1 p.2) fun _ => 0

/-- What `get_active_mesh` returns. -/
structure ActiveMesh (nn dim : ℕ) where
  points : List (Fin dim → ℝ)
  cells : List (Fin nn → ℕ)
  pointsMap : List ℕ
  cellsMap : ℕ → ℕ

/-- `get_active_mesh` (models.py 111-125). A node number outside `points` raises (line 118). -/
def getActiveMesh (points : List (Fin dim → ℝ)) (cells : List (Fin nn → ℕ)) (act : ℕ → Bool) : Except FemErr (ActiveMesh nn dim) := do
  let cellMapActive := ((List.range cells.length).filter act).insertionSort (· ≤ ·)
  let activeCells := cellMapActive.filterMap fun k => cells[k]?
  let cellsMapFull := inverseMap cellMapActive
  let used := activeCells.flatMap List.ofFn
  if used.any fun v => points.length ≤ v then .error .index
  else
    let tab := used.foldl (fun t v => Function.update t v true) fun _ => false
    let pointsMapActive := (List.range points.length).filter tab
    let pointsMapFull := inverseMap pointsMapActive
    let activeCells := activeCells.map fun c a => pointsMapFull (c a)
    let activePoints := (points.zipIdx.filter fun p => tab p.2).map Prod.fst
    pure ⟨activePoints, activeCells, pointsMapActive, cellsMapFull⟩

/-- `full_sol.at[points_map_active].set(sol)` (thin_wall.py 97, 137). -/
def scatterSet {α : Type*} (full : ℕ → α) (idx : List ℕ) (sol : ℕ → α) : ℕ → α := idx.zipIdx.foldl (fun g p => Function.update g p.1 (sol p.2)) full

/-! ## Specification -/

/-- Face `f` of cell `c` is a face of the active part. -/
def IsFace (cells : List (Fin nn → ℕ)) (act : ℕ → Bool) (p : ℕ × Fin nf) : Prop := p.1 < cells.length ∧ act p.1 = true

/-- The nodes of a face. -/
def faceNodes (cells : List (Fin nn → ℕ)) (faces : Fin nf → List (Fin nn)) (p : ℕ × Fin nf) : List ℕ := (faces p.2).map (cells.getD p.1 fun _ => 0)

/-- A face of the active part is external when no other face of the active part has the same nodes. -/
def IsExternal (cells : List (Fin nn → ℕ)) (faces : Fin nf → List (Fin nn)) (act : ℕ → Bool) (p : ℕ × Fin nf) : Prop :=
  IsFace cells act p ∧ ∀ p', IsFace cells act p' → (faceNodes cells faces p').Perm (faceNodes cells faces p) → p' = p

/-! ## Lemmas -/

theorem sort_eq_iff (l l' : List ℕ) : l.insertionSort (· ≤ ·) = l'.insertionSort (· ≤ ·) ↔ l.Perm l' := by
  constructor
  · intro h
    exact (List.perm_insertionSort _ l).symm.trans (h ▸ List.perm_insertionSort _ l')
  · intro h
    exact List.Perm.eq_of_pairwise (fun a b _ _ h1 h2 => le_antisymm h1 h2) (List.pairwise_insertionSort _ l) (List.pairwise_insertionSort _ l')
      (((List.perm_insertionSort _ l).trans h).trans (List.perm_insertionSort _ l').symm)

/-- What the table knows: `S` is the set of faces entered so far. -/
structure FaceBook.Inv (B : FaceBook nf) (key : ℕ × Fin nf → List ℕ) : Prop where
  nodup : B.all.Nodup
  hash : ∀ k p, B.hash k = some p → p ∈ B.all ∧ key p = k
  known : ∀ p ∈ B.all, ∃ p', B.hash (key p) = some p'
  inner : ∀ p, p ∈ B.inner ↔ p ∈ B.all ∧ ∃ p' ∈ B.all, p' ≠ p ∧ key p' = key p
  
theorem bookFace_inv (keys : List (Fin nf → List ℕ)) (c : ℕ) (B : FaceBook nf) (f : Fin nf) (h : B.Inv fun p => keys.getD p.1 (fun _ => []) p.2) (hn : (c, f) ∉ B.all) :
    (bookFace keys c B f).Inv (fun p => keys.getD p.1 (fun _ => []) p.2) ∧ (bookFace keys c B f).all = B.all ++ [(c, f)] := by
  unfold bookFace
  set key : ℕ × Fin nf → List ℕ := fun p => keys.getD p.1 (fun _ => []) p.2 with hkey
  have hk : keys.getD c (fun _ => []) f = key (c, f) := rfl
  simp only [hk]
  have hnd : (B.all ++ [(c, f)]).Nodup := by
    rw [List.nodup_append]
    refine ⟨h.nodup, by simp, ?_⟩
    rintro a ha b hb rfl
    rw [List.mem_singleton] at hb
    exact hn (hb ▸ ha)
  cases hh : B.hash (key (c, f)) with
  | some p =>
    obtain ⟨hp1, hp2⟩ := h.hash _ _ hh
    refine ⟨⟨hnd, ?_, ?_, ?_⟩, rfl⟩
    · intro k q hq
      obtain ⟨a, b⟩ := h.hash k q hq
      exact ⟨List.mem_append_left _ a, b⟩
    · intro q hq
      rcases List.mem_append.mp hq with hq | hq
      · exact h.known q hq
      · rw [List.mem_singleton] at hq
        exact ⟨p, hq ▸ hh⟩
    · intro q
      have hne : p ≠ (c, f) := fun e => hn (e ▸ hp1)
      simp only [List.mem_append, List.mem_cons, List.not_mem_nil, or_false, h.inner]
      constructor
      · rintro (⟨a, q', b, d, e⟩ | rfl | rfl)
        · exact ⟨Or.inl a, q', Or.inl b, d, e⟩
        · exact ⟨Or.inl hp1, (c, f), Or.inr rfl, hne.symm, hp2.symm⟩
        · exact ⟨Or.inr rfl, p, Or.inl hp1, hne, hp2⟩
      · rintro ⟨a | rfl, q', b, d, e⟩
        · rcases b with b | rfl
          · exact Or.inl ⟨a, q', b, d, e⟩
          · by_cases hqp : q = p
            · exact Or.inr (Or.inl hqp)
            · exact Or.inl ⟨a, p, hp1, fun e' => hqp e'.symm, hp2.trans e⟩
        · exact Or.inr (Or.inr rfl)
  | none =>
    dsimp only
    have hnone : ∀ q ∈ B.all, key q ≠ key (c, f) := by
      intro q hq e
      obtain ⟨p', hp'⟩ := h.known q hq
      rw [e, hh] at hp'
      cases hp'
    refine ⟨⟨hnd, ?_, ?_, ?_⟩, rfl⟩
    · intro k q hq
      dsimp only at hq ⊢
      by_cases hkk : k = key (c, f)
      · subst hkk
        rw [Function.update_self] at hq
        injection hq with hq
        subst hq
        exact ⟨by simp, rfl⟩
      · rw [Function.update_of_ne hkk] at hq
        obtain ⟨a, b⟩ := h.hash k q hq
        exact ⟨List.mem_append_left _ a, b⟩
    · intro q hq
      dsimp only
      by_cases hkk : key q = key (c, f)
      · exact ⟨(c, f), by rw [hkk, Function.update_self]⟩
      · rw [Function.update_of_ne hkk]
        rcases List.mem_append.mp hq with hq | hq
        · exact h.known q hq
        · rw [List.mem_singleton] at hq
          exact absurd (congrArg key hq) hkk
    · intro q
      simp only [List.mem_append, List.mem_cons, List.not_mem_nil, or_false, h.inner]
      constructor
      · rintro ⟨a, q', b, d, e⟩
        exact ⟨Or.inl a, q', Or.inl b, d, e⟩
      · rintro ⟨a | rfl, q', b | rfl, d, e⟩
        · exact ⟨a, q', b, d, e⟩
        · exact absurd e.symm (hnone q a)
        · exact absurd e (hnone q' b)
        · exact absurd rfl d

theorem bookFaces_inv (keys : List (Fin nf → List ℕ)) (c : ℕ) (fs : List (Fin nf)) : ∀ (B : FaceBook nf), B.Inv (fun p => keys.getD p.1 (fun _ => []) p.2) → fs.Nodup → (∀ f ∈ fs, (c, f) ∉ B.all) →
    (fs.foldl (bookFace keys c) B).Inv (fun p => keys.getD p.1 (fun _ => []) p.2) ∧ (fs.foldl (bookFace keys c) B).all = B.all ++ fs.map fun f => (c, f) := by
  induction fs with
  | nil => intro B h _ _; exact ⟨h, by simp⟩
  | cons f fs ih =>
    intro B h hnd hn
    obtain ⟨h1, h2⟩ := bookFace_inv keys c B f h (hn f (by simp))
    rw [List.nodup_cons] at hnd
    obtain ⟨h3, h4⟩ := ih _ h1 hnd.2 (by
      intro g hg
      rw [h2, List.mem_append, List.mem_singleton, not_or]
      refine ⟨hn g (by simp [hg]), ?_⟩
      intro e
      injection e with _ e
      exact hnd.1 (e ▸ hg))
    refine ⟨h3, ?_⟩
    rw [List.foldl_cons, h4, h2]
    simp

theorem bookCells_inv (act : ℕ → Bool) (keys : List (Fin nf → List ℕ)) (inds : List ℕ) : ∀ (B : FaceBook nf), B.Inv (fun p => keys.getD p.1 (fun _ => []) p.2) → inds.Nodup → (∀ c ∈ inds, ∀ f, (c, f) ∉ B.all) →
    (bookCells act keys B inds).Inv (fun p => keys.getD p.1 (fun _ => []) p.2) ∧ ∀ p, p ∈ (bookCells act keys B inds).all ↔ p ∈ B.all ∨ (p.1 ∈ inds ∧ act p.1 = true) := by
  unfold bookCells
  induction inds with
  | nil => intro B h _ _; exact ⟨h, by simp⟩
  | cons c inds ih =>
    intro B h hnd hn
    rw [List.nodup_cons] at hnd
    rw [List.foldl_cons]
    by_cases hc : act c = true
    · rw [if_pos hc]
      obtain ⟨h1, h2⟩ := bookFaces_inv keys c (List.finRange nf) B h (List.nodup_finRange nf) (fun f _ => hn c (by simp) f)
      obtain ⟨h3, h4⟩ := ih _ h1 hnd.2 (by
        intro c' hc' f
        rw [h2, List.mem_append, not_or]
        refine ⟨hn c' (by simp [hc']) f, ?_⟩
        intro e
        obtain ⟨g, -, e⟩ := List.mem_map.mp e
        injection e with e _
        exact hnd.1 (e ▸ hc'))
      refine ⟨h3, ?_⟩
      intro p
      rw [h4, h2, List.mem_append, List.mem_map]
      constructor
      · rintro ((a | ⟨f, -, rfl⟩) | ⟨a, b⟩)
        · exact Or.inl a
        · exact Or.inr ⟨by simp, hc⟩
        · exact Or.inr ⟨by simp [a], b⟩
      · rintro (a | ⟨a, b⟩)
        · exact Or.inl (Or.inl a)
        · rcases List.mem_cons.mp a with a | a
          · exact Or.inl (Or.inr ⟨p.2, by simp, by rw [← a]⟩)
          · exact Or.inr ⟨a, b⟩
    · rw [if_neg hc]
      obtain ⟨h3, h4⟩ := ih B h hnd.2 (fun c' hc' f => hn c' (by simp [hc']) f)
      refine ⟨h3, ?_⟩
      intro p
      rw [h4]
      constructor
      · rintro (a | ⟨a, b⟩)
        · exact Or.inl a
        · exact Or.inr ⟨by simp [a], b⟩
      · rintro (a | ⟨a, b⟩)
        · exact Or.inl a
        · rcases List.mem_cons.mp a with a | a
          · rw [a] at b; exact absurd b hc
          · exact Or.inr ⟨a, b⟩

theorem empty_inv (key : ℕ × Fin nf → List ℕ) : (FaceBook.empty : FaceBook nf).Inv key :=
  ⟨by simp [FaceBook.empty], by simp [FaceBook.empty], by simp [FaceBook.empty], by simp [FaceBook.empty]⟩

theorem cellsFace_getD (cells : List (Fin nn → ℕ)) (faces : Fin nf → List (Fin nn)) (p : ℕ × Fin nf) (h : p.1 < cells.length) :
    (cellsFace cells faces).getD p.1 (fun _ => []) p.2 = (faceNodes cells faces p).insertionSort (· ≤ ·) := by
  unfold cellsFace faceNodes
  rw [List.getD_eq_getElem?_getD, List.getElem?_map, List.getD_eq_getElem?_getD, List.getElem?_eq_getElem h]
  rfl

/-- A table that has seen exactly the active faces. -/
structure FaceBook.Holds (B : FaceBook nf) (cells : List (Fin nn → ℕ)) (faces : Fin nf → List (Fin nn)) (act : ℕ → Bool) : Prop where
  inv : B.Inv fun p => (cellsFace cells faces).getD p.1 (fun _ => []) p.2
  all : ∀ p, p ∈ B.all ↔ IsFace cells act p

theorem holds_external (B : FaceBook nf) (cells : List (Fin nn → ℕ)) (faces : Fin nf → List (Fin nn)) (act : ℕ → Bool) (h : B.Holds cells faces act) (p : ℕ × Fin nf) :
    p ∈ B.all.dedup.filter (fun p => p ∉ B.inner) ↔ IsExternal cells faces act p := by
  simp only [List.mem_filter, List.mem_dedup, decide_eq_true_eq, h.inv.inner, h.all, IsExternal, not_and, not_exists]
  constructor
  · rintro ⟨a, b⟩
    refine ⟨a, fun p' hp' hperm => ?_⟩
    by_contra hne
    refine b a p' hp' hne ?_
    rw [cellsFace_getD _ _ _ hp'.1, cellsFace_getD _ _ _ a.1, sort_eq_iff]
    exact hperm
  · rintro ⟨a, b⟩
    refine ⟨a, fun _ p' hp' hne e => hne (b p' hp' ?_)⟩
    rwa [cellsFace_getD _ _ _ hp'.1, cellsFace_getD _ _ _ a.1, sort_eq_iff] at e

theorem bookCells_init (cells : List (Fin nn → ℕ)) (faces : Fin nf → List (Fin nn)) (act : ℕ → Bool) :
    (bookCells act (cellsFace cells faces) FaceBook.empty (List.range (cellsFace cells faces).length)).Holds cells faces act := by
  obtain ⟨h1, h2⟩ := bookCells_inv act (cellsFace cells faces) (List.range (cellsFace cells faces).length) FaceBook.empty (empty_inv _) List.nodup_range (by simp [FaceBook.empty])
  refine ⟨h1, fun p => ?_⟩
  rw [h2, List.mem_range]
  simp [FaceBook.empty, cellsFace, IsFace]

theorem bookCells_update (cells : List (Fin nn → ℕ)) (faces : Fin nf → List (Fin nn)) (old new : ℕ → Bool) (B : FaceBook nf) (h : B.Holds cells faces old)
    (hgrow : ∀ c < cells.length, old c = true → new c = true) :
    (bookCells new (cellsFace cells faces) B ((List.range cells.length).filter fun c => old c != new c)).Holds cells faces new := by
  obtain ⟨h1, h2⟩ := bookCells_inv new (cellsFace cells faces) ((List.range cells.length).filter fun c => old c != new c) B h.inv (List.nodup_range.filter _) (by
    intro c hc f hcf
    rw [h.all] at hcf
    simp only [List.mem_filter, List.mem_range, bne_iff_ne] at hc
    have h2 : old c = true := hcf.2
    exact hc.2 (h2.trans (hgrow c hc.1 h2).symm))
  refine ⟨h1, fun p => ?_⟩
  rw [h2, h.all]
  simp only [List.mem_filter, List.mem_range, bne_iff_ne, IsFace]
  constructor
  · rintro (⟨a, b⟩ | ⟨⟨a, -⟩, b⟩)
    · exact ⟨a, hgrow _ a b⟩
    · exact ⟨a, b⟩
  · rintro ⟨a, b⟩
    by_cases ho : old p.1 = true
    · exact Or.inl ⟨a, ho⟩
    · refine Or.inr ⟨⟨a, ?_⟩, b⟩
      rw [b]
      exact ho

/-! ## Renumbering -/

theorem foldl_update_notMem {α β : Type*} [DecidableEq α] (l : List (α × β)) : ∀ (g : α → β) (a : α), a ∉ l.map Prod.fst → l.foldl (fun g p => Function.update g p.1 p.2) g a = g a := by
  induction l with
  | nil => intros; rfl
  | cons p l ih =>
    intro g a ha
    simp only [List.map_cons, List.mem_cons, not_or] at ha
    rw [List.foldl_cons, ih _ _ ha.2, Function.update_of_ne ha.1]

theorem foldl_update_mem {α β : Type*} [DecidableEq α] (l : List (α × β)) : ∀ (g : α → β) (p : α × β), p ∈ l → (l.map Prod.fst).Nodup → l.foldl (fun g p => Function.update g p.1 p.2) g p.1 = p.2 := by
  induction l with
  | nil => intro g p hp; cases hp
  | cons q l ih =>
    intro g p hp hnd
    rw [List.map_cons, List.nodup_cons] at hnd
    rw [List.foldl_cons]
    rcases List.mem_cons.mp hp with rfl | hp
    · rw [foldl_update_notMem _ _ _ hnd.1, Function.update_self]
    · exact ih _ _ hp hnd.2

theorem zipIdx_fst {α : Type*} (l : List α) : l.zipIdx.map Prod.fst = l := by
  apply List.ext_getElem <;> simp

theorem scatterSet_getElem {α : Type*} (full : ℕ → α) (idx : List ℕ) (hnd : idx.Nodup) (sol : ℕ → α) (k : ℕ) (hk : k < idx.length) : scatterSet full idx sol idx[k] = sol k := by
  have e : scatterSet full idx sol = (idx.zipIdx.map fun p => (p.1, sol p.2)).foldl (fun g p => Function.update g p.1 p.2) full := by
    unfold scatterSet
    rw [List.foldl_map]
  rw [e]
  have hm : (idx[k], k) ∈ idx.zipIdx := List.mem_zipIdx_iff_getElem?.mpr (List.getElem?_eq_getElem hk)
  exact foldl_update_mem _ full (idx[k], sol k) (List.mem_map.mpr ⟨_, hm, rfl⟩) (by rw [List.map_map]; exact (zipIdx_fst idx).symm ▸ hnd)

theorem scatterSet_notMem {α : Type*} (full : ℕ → α) (idx : List ℕ) (sol : ℕ → α) (n : ℕ) (hn : n ∉ idx) : scatterSet full idx sol n = full n := by
  have e : scatterSet full idx sol = (idx.zipIdx.map fun p => (p.1, sol p.2)).foldl (fun g p => Function.update g p.1 p.2) full := by
    unfold scatterSet
    rw [List.foldl_map]
  rw [e]
  apply foldl_update_notMem
  rw [List.map_map]
  intro h
  have : n ∈ idx.zipIdx.map Prod.fst := h
  rw [zipIdx_fst] at this
  exact hn this

theorem inverseMap_getElem (l : List ℕ) (hnd : l.Nodup) (k : ℕ) (hk : k < l.length) : inverseMap l l[k] = k :=
  scatterSet_getElem (fun _ => 0) l hnd id k hk

theorem sort_range (n : ℕ) (act : ℕ → Bool) : ((List.range n).filter act).insertionSort (· ≤ ·) = (List.range n).filter act := by
  refine List.Pairwise.insertionSort_eq ?_
  have : ((List.range n).filter act).Pairwise (· < ·) := List.pairwise_lt_range.filter _
  exact this.imp fun h => le_of_lt h

theorem tab_iff (used : List ℕ) (v : ℕ) : used.foldl (fun t v => Function.update t v true) (fun _ => false) v = true ↔ v ∈ used := by
  have key : ∀ (used : List ℕ) (t : ℕ → Bool), used.foldl (fun t v => Function.update t v true) t v = true ↔ v ∈ used ∨ t v = true := by
    intro used
    induction used with
    | nil => simp
    | cons a l ih =>
      intro t
      rw [List.foldl_cons, ih]
      by_cases h : v = a
      · subst h; simp
      · rw [Function.update_of_ne h]; simp [h]
  rw [key]
  simp

theorem zipIdx_filter (points : List (Fin dim → ℝ)) (tab : ℕ → Bool) :
    (points.zipIdx.filter fun p => tab p.2).map Prod.fst = ((List.range points.length).filter tab).filterMap fun k => points[k]? := by
  induction points using List.reverseRecOn with
  | nil => simp
  | append_singleton l x ih =>
    rw [List.zipIdx_append, List.filter_append, List.map_append, ih, List.length_append, List.length_singleton, List.range_succ, List.filter_append, List.filterMap_append]
    congr 1
    · refine List.filterMap_congr fun k hk => ?_
      have hk := List.mem_range.mp (List.mem_filter.mp hk).1
      rw [List.getElem?_append_left hk]
    · by_cases h : tab l.length = true
      · simp [h]
      · simp [h]

/-! ## Properties -/

/-- **C99 (active mesh).** The mesh of the active cells is the given mesh restricted to them: each active cell has exactly one new number, in the old order, its nodes keep their positions, the
points are exactly the nodes of active cells, each once and in the old order, and `points_map_active` gives their old numbers. -/
theorem C99_active_mesh (points : List (Fin dim → ℝ)) (cells : List (Fin nn → ℕ)) (act : ℕ → Bool) (M : ActiveMesh nn dim) (h : getActiveMesh points cells act = .ok M) :
    (∀ c, c < cells.length → act c = true → M.cellsMap c < M.cells.length ∧ ∀ a, ∃ hp : M.cells.getD (M.cellsMap c) (fun _ => 0) a < M.pointsMap.length,
      M.pointsMap[M.cells.getD (M.cellsMap c) (fun _ => 0) a] = cells.getD c (fun _ => 0) a ∧
      M.points[M.cells.getD (M.cellsMap c) (fun _ => 0) a]? = points[cells.getD c (fun _ => 0) a]? ∧ cells.getD c (fun _ => 0) a < points.length) ∧
    (∀ c c', c < cells.length → c' < cells.length → act c = true → act c' = true → (M.cellsMap c < M.cellsMap c' ↔ c < c')) ∧
    (∀ k < M.cells.length, ∃ c, c < cells.length ∧ act c = true ∧ M.cellsMap c = k) ∧
    M.pointsMap.Pairwise (· < ·) ∧ M.points.length = M.pointsMap.length ∧
    ∀ n, n ∈ M.pointsMap ↔ ∃ c, c < cells.length ∧ act c = true ∧ ∃ a, cells.getD c (fun _ => 0) a = n := by
  unfold getActiveMesh at h
  rw [sort_range] at h
  dsimp only [pure, Except.pure] at h
  set L := (List.range cells.length).filter act with hL
  set AC := L.filterMap (fun k => cells[k]?) with hAC
  have hLmem : ∀ c, c ∈ L ↔ c < cells.length ∧ act c = true := by intro c; simp [hL]
  have hLs : L.Pairwise (· < ·) := List.pairwise_lt_range.filter _
  have hLnd : L.Nodup := hLs.imp fun h => Nat.ne_of_lt h
  have hACm : AC = L.map fun k => cells.getD k fun _ => 0 := by
    rw [hAC, ← List.filterMap_eq_map']
    refine List.filterMap_congr fun k hk => ?_
    rw [List.getD_eq_getElem?_getD, List.getElem?_eq_getElem ((hLmem k).mp hk).1]
    rfl
  have hlen : AC.length = L.length := by rw [hACm, List.length_map]
  set used := AC.flatMap List.ofFn with hused
  have hu : ∀ n, n ∈ used ↔ ∃ c, c < cells.length ∧ act c = true ∧ ∃ a, cells.getD c (fun _ => 0) a = n := by
    intro n
    rw [hused, hACm]
    simp only [List.mem_flatMap, List.mem_map, List.mem_ofFn']
    constructor
    · rintro ⟨c', ⟨c, hc, rfl⟩, a, ha⟩
      obtain ⟨h1, h2⟩ := (hLmem c).mp hc
      exact ⟨c, h1, h2, a, ha⟩
    · rintro ⟨c, h1, h2, a, ha⟩
      exact ⟨_, ⟨c, (hLmem c).mpr ⟨h1, h2⟩, rfl⟩, a, ha⟩
  by_cases hbad : (used.any fun v => decide (points.length ≤ v)) = true
  · rw [if_pos hbad] at h
    cases h
  rw [if_neg hbad] at h
  have hgood : ∀ v ∈ used, v < points.length := by
    intro v hv
    by_contra hc
    exact hbad (List.any_eq_true.mpr ⟨v, hv, by simp; omega⟩)
  set tab := used.foldl (fun t v => Function.update t v true) fun _ => false with htab
  set PM := (List.range points.length).filter tab with hPM
  injection h with h
  subst h
  dsimp only
  have hPmem : ∀ n, n ∈ PM ↔ n ∈ used := by
    intro n
    rw [hPM, List.mem_filter, List.mem_range, htab, tab_iff]
    exact ⟨fun h => h.2, fun h => ⟨hgood n h, h⟩⟩
  have hPs : PM.Pairwise (· < ·) := List.pairwise_lt_range.filter _
  have hPnd : PM.Nodup := hPs.imp fun h => Nat.ne_of_lt h
  have hpts : (points.zipIdx.filter fun p => tab p.2).map Prod.fst = PM.map fun k => points.getD k 0 := by
    rw [zipIdx_filter, ← hPM, ← List.filterMap_eq_map']
    refine List.filterMap_congr fun k hk => ?_
    have hk' := hgood k ((hPmem k).mp hk)
    rw [List.getD_eq_getElem?_getD, List.getElem?_eq_getElem hk']
    rfl
  have hrank : ∀ c, c < cells.length → act c = true → ∃ k, ∃ hk : k < L.length, L[k] = c ∧ inverseMap L c = k := by
    intro c h1 h2
    obtain ⟨k, hk, e⟩ := List.mem_iff_getElem.mp ((hLmem c).mpr ⟨h1, h2⟩)
    exact ⟨k, hk, e, by rw [← e, inverseMap_getElem L hLnd k hk]⟩
  refine ⟨?_, ?_, ?_, hPs, by rw [hpts, List.length_map], fun n => by rw [hPmem, hu]⟩
  · intro c h1 h2
    obtain ⟨k, hk, e, hr⟩ := hrank c h1 h2
    rw [hr, List.length_map, hlen]
    refine ⟨hk, fun a => ?_⟩
    have hcell : (AC.map fun c a => inverseMap PM (c a)).getD k (fun _ => 0) a = inverseMap PM (cells.getD c (fun _ => 0) a) := by
      rw [List.getD_eq_getElem?_getD, List.getElem?_map, hACm, List.getElem?_map, List.getElem?_eq_getElem hk, e]
      rfl
    rw [hcell]
    have hmem : cells.getD c (fun _ => 0) a ∈ PM := (hPmem _).mpr ((hu _).mpr ⟨c, h1, h2, a, rfl⟩)
    obtain ⟨j, hj, ej⟩ := List.mem_iff_getElem.mp hmem
    have hinv : inverseMap PM (cells.getD c (fun _ => 0) a) = j := by rw [← ej, inverseMap_getElem PM hPnd j hj]
    have hlt := hgood _ ((hPmem _).mp hmem)
    simp only [hinv]
    refine ⟨hj, ej, ?_, hlt⟩
    rw [hpts, List.getElem?_map, List.getElem?_eq_getElem hj, ej, List.getElem?_eq_getElem hlt, Option.map_some, List.getD_eq_getElem?_getD, List.getElem?_eq_getElem hlt]
    rfl
  · intro c c' h1 h1' h2 h2'
    obtain ⟨k, hk, e, hr⟩ := hrank c h1 h2
    obtain ⟨k', hk', e', hr'⟩ := hrank c' h1' h2'
    rw [hr, hr', ← e, ← e']
    constructor
    · intro hkk
      exact List.pairwise_iff_getElem.mp hLs k k' hk hk' hkk
    · intro hlt
      by_contra hge
      rcases Nat.lt_or_eq_of_le (Nat.le_of_not_lt hge) with hl | hl
      · have := List.pairwise_iff_getElem.mp hLs k' k hk' hk hl
        omega
      · subst hl
        omega
  · intro k hk
    rw [List.length_map, hlen] at hk
    obtain ⟨h1, h2⟩ := (hLmem _).mp (List.getElem_mem hk)
    exact ⟨L[k], h1, h2, inverseMap_getElem L hLnd k hk⟩

/-- **C99 (when the active mesh exists).** `get_active_mesh` raises exactly when an active cell names a point that does not exist. -/
theorem C99_active_returns (points : List (Fin dim → ℝ)) (cells : List (Fin nn → ℕ)) (act : ℕ → Bool) :
    (∃ M, getActiveMesh points cells act = .ok M) ↔ ∀ c, c < cells.length → act c = true → ∀ a, cells.getD c (fun _ => 0) a < points.length := by
  unfold getActiveMesh
  rw [sort_range]
  dsimp only [pure, Except.pure]
  constructor
  · rintro ⟨M, h⟩ c h1 h2 a
    by_contra hge
    rw [if_pos] at h
    · cases h
    refine List.any_eq_true.mpr ⟨cells.getD c (fun _ => 0) a, ?_, by simp at hge ⊢; omega⟩
    refine List.mem_flatMap.mpr ⟨cells.getD c (fun _ => 0), List.mem_filterMap.mpr ⟨c, by simp [h1, h2], ?_⟩, (List.mem_ofFn' _ _).mpr ⟨a, rfl⟩⟩
    rw [List.getD_eq_getElem?_getD, List.getElem?_eq_getElem h1]
    rfl
  · intro h
    rw [if_neg]
    · exact ⟨_, rfl⟩
    intro hany
    obtain ⟨v, hv, hlt⟩ := List.any_eq_true.mp hany
    obtain ⟨c', hc', ha⟩ := List.mem_flatMap.mp hv
    obtain ⟨c, hc, hcc⟩ := List.mem_filterMap.mp hc'
    obtain ⟨a, rfl⟩ := (List.mem_ofFn' _ _).mp ha
    simp only [List.mem_filter, List.mem_range] at hc
    have := h c hc.1 hc.2 a
    rw [List.getD_eq_getElem?_getD, hcc] at this
    simp at hlt this
    omega

/-- **C99 (writing back).** After `full_sol = full_sol.at[points_map_active].set(sol)` the entries of the active points are `sol`, in its order, and all others are as before. -/
theorem C99_write_back {α : Type*} (points : List (Fin dim → ℝ)) (cells : List (Fin nn → ℕ)) (act : ℕ → Bool) (M : ActiveMesh nn dim) (h : getActiveMesh points cells act = .ok M) (full sol : ℕ → α) :
    (∀ k (hk : k < M.pointsMap.length), scatterSet full M.pointsMap sol M.pointsMap[k] = sol k) ∧ ∀ n, n ∉ M.pointsMap → scatterSet full M.pointsMap sol n = full n := by
  obtain ⟨-, -, -, hs, -, -⟩ := C99_active_mesh points cells act M h
  exact ⟨fun k hk => scatterSet_getElem full M.pointsMap (hs.imp fun h => Nat.ne_of_lt h) sol k hk, fun n hn => scatterSet_notMem full M.pointsMap sol n hn⟩

/-- The external faces as they are handed to the problem: new cell numbers. `map` is the renumbering of the active cells. -/
def ExternalFaces (cells : List (Fin nn → ℕ)) (faces : Fin nf → List (Fin nn)) (act : ℕ → Bool) (map : ℕ → ℕ) (ext : List (ℕ × Fin nf)) : Prop :=
  ext.Nodup ∧ ∀ q, q ∈ ext ↔ ∃ p, IsExternal cells faces act p ∧ q = (map p.1, p.2)

theorem renumber_ok (cells : List (Fin nn → ℕ)) (faces : Fin nf → List (Fin nn)) (act : ℕ → Bool) (B : FaceBook nf) (hB : B.Holds cells faces act) (map : ℕ → ℕ)
    (hmap : ∀ c c', c < cells.length → c' < cells.length → act c = true → act c' = true → map c = map c' → c = c') :
    (∀ ext, renumberFaces map (B.all.dedup.filter fun p => p ∉ B.inner) = .ok ext → ExternalFaces cells faces act map ext) ∧
    ((∃ p, IsExternal cells faces act p) → ∃ ext, renumberFaces map (B.all.dedup.filter fun p => p ∉ B.inner) = .ok ext) ∧
    ((¬ ∃ p, IsExternal cells faces act p) → renumberFaces map (B.all.dedup.filter fun p => p ∉ B.inner) = .error .index) := by
  have hm := holds_external B cells faces act hB
  have hnd : (B.all.dedup.filter fun p => p ∉ B.inner).Nodup := (List.nodup_dedup _).filter _
  set E := B.all.dedup.filter fun p => p ∉ B.inner with hE
  unfold renumberFaces
  refine ⟨?_, ?_, ?_⟩
  · intro ext h
    by_cases he : E = []
    · rw [if_pos he] at h; cases h
    rw [if_neg he] at h
    injection h with h
    subst h
    constructor
    · refine hnd.map_on ?_
      intro p hp q hq e
      injection e with e1 e2
      obtain ⟨⟨a1, a2⟩, -⟩ := (hm p).mp hp
      obtain ⟨⟨b1, b2⟩, -⟩ := (hm q).mp hq
      exact Prod.ext (hmap _ _ a1 b1 a2 b2 e1) e2
    · intro q
      rw [List.mem_map]
      constructor
      · rintro ⟨p, hp, rfl⟩
        exact ⟨p, (hm p).mp hp, rfl⟩
      · rintro ⟨p, hp, rfl⟩
        exact ⟨p, (hm p).mpr hp, rfl⟩
  · rintro ⟨p, hp⟩
    rw [if_neg]
    · exact ⟨_, rfl⟩
    intro he
    have := (hm p).mpr hp
    rw [he] at this
    cases this
  · intro hno
    rw [if_pos]
    rw [List.eq_nil_iff_forall_not_mem]
    exact fun p hp => hno ⟨p, (hm p).mp hp⟩

/-- The calls of thin_wall.py: `initialize_hash_map` for the first truth table, then `update_hash_map` for each following one (lines 60-61, 122-123), with the cell maps of the active meshes. The external
faces after the last call. -/
def facesRun (points : List (Fin dim → ℝ)) (cells : List (Fin nn → ℕ)) (faces : Fin nf → List (Fin nn)) (first : ℕ → Bool) (later : List (ℕ → Bool)) : Except FemErr (List (ℕ × Fin nf) × FaceBook nf) := do
  let M ← getActiveMesh points cells first
  let r ← initializeHashMap cells faces first M.cellsMap
  let s ← later.foldlM (fun (s : (ℕ → Bool) × List (ℕ × Fin nf) × FaceBook nf) new => do
    let M ← getActiveMesh points cells new
    let u ← updateHashMap cells.length s.1 new M.cellsMap r.2.1 s.2.2
    pure (new, u)) (first, r.1, r.2.2)
  pure s.2

/-- Each truth table contains the one before it. -/
def Growing (n : ℕ) : (ℕ → Bool) → List (ℕ → Bool) → Prop
  | _, [] => True
  | a, b :: rest => (∀ c < n, a c = true → b c = true) ∧ Growing n b rest

theorem map_inj_of_mono (n : ℕ) (act : ℕ → Bool) (map : ℕ → ℕ) (h : ∀ c c', c < n → c' < n → act c = true → act c' = true → (map c < map c' ↔ c < c')) :
    ∀ c c', c < n → c' < n → act c = true → act c' = true → map c = map c' → c = c' := by
  intro c c' h1 h2 h3 h4 e
  have a := h c c' h1 h2 h3 h4
  have b := h c' c h2 h1 h4 h3
  rw [e] at a b
  omega

/-- **C99 (external faces).** However the cells are deposited, as long as none is taken away: the faces found after the last deposition are exactly the faces of active cells whose nodes are not those of
another face of an active cell, each once and with the new cell number. -/
theorem C99_external (points : List (Fin dim → ℝ)) (cells : List (Fin nn → ℕ)) (faces : Fin nf → List (Fin nn)) (first : ℕ → Bool) (later : List (ℕ → Bool)) (hgrow : Growing cells.length first later)
    (ext : List (ℕ × Fin nf)) (B : FaceBook nf) (h : facesRun points cells faces first later = .ok (ext, B)) :
    ∃ M, getActiveMesh points cells ((first :: later).getLast (by simp)) = .ok M ∧ ExternalFaces cells faces ((first :: later).getLast (by simp)) M.cellsMap ext := by
  unfold facesRun at h
  dsimp only [bind, Except.bind, pure, Except.pure] at h
  cases hM : getActiveMesh points cells first with
  | error e => rw [hM] at h; cases h
  | ok M =>
    rw [hM] at h
    dsimp only at h
    unfold initializeHashMap hashMapForFaces at h
    dsimp only [bind, Except.bind, pure, Except.pure] at h
    have hB0 := bookCells_init cells faces first
    set B0 := bookCells first (cellsFace cells faces) FaceBook.empty (List.range (cellsFace cells faces).length) with hB0d
    cases hr : renumberFaces M.cellsMap (B0.all.dedup.filter fun p => p ∉ B0.inner) with
    | error e => rw [hr] at h; cases h
    | ok e0 =>
      rw [hr] at h
      dsimp only at h
      have hext := (renumber_ok cells faces first B0 hB0 M.cellsMap (map_inj_of_mono _ _ _ (C99_active_mesh points cells first M hM).2.1)).1 e0 hr
      clear_value B0
      have key : ∀ (later : List (ℕ → Bool)) (first : ℕ → Bool) (e0 : List (ℕ × Fin nf)) (B0 : FaceBook nf) (M : ActiveMesh nn dim), Growing cells.length first later → B0.Holds cells faces first →
          getActiveMesh points cells first = .ok M → ExternalFaces cells faces first M.cellsMap e0 → ∀ r : (ℕ → Bool) × List (ℕ × Fin nf) × FaceBook nf,
          later.foldlM (fun (s : (ℕ → Bool) × List (ℕ × Fin nf) × FaceBook nf) new => do
            let M ← getActiveMesh points cells new
            let u ← updateHashMap cells.length s.1 new M.cellsMap (cellsFace cells faces) s.2.2
            pure (new, u)) (first, e0, B0) = .ok r →
          ∃ M, getActiveMesh points cells ((first :: later).getLast (by simp)) = .ok M ∧ ExternalFaces cells faces ((first :: later).getLast (by simp)) M.cellsMap r.2.1 := by
        intro later
        induction later with
        | nil =>
          intro first e0 B0 M _ _ hM hext r hr
          injection hr with hr
          subst hr
          exact ⟨M, hM, hext⟩
        | cons new later ih =>
          intro first e0 B0 M hgrow hB0 hM hext r hr
          rw [List.foldlM_cons] at hr
          dsimp only [bind, Except.bind, pure, Except.pure] at hr
          cases hM' : getActiveMesh points cells new with
          | error e => rw [hM'] at hr; cases hr
          | ok M' =>
            rw [hM'] at hr
            dsimp only at hr
            unfold updateHashMap hashMapForFaces at hr
            dsimp only [bind, Except.bind, pure, Except.pure] at hr
            have hB1 := bookCells_update cells faces first new B0 hB0 hgrow.1
            set B1 := bookCells new (cellsFace cells faces) B0 ((List.range cells.length).filter fun c => first c != new c) with hB1d
            cases hren : renumberFaces M'.cellsMap (B1.all.dedup.filter fun p => p ∉ B1.inner) with
            | error e => rw [hren] at hr; cases hr
            | ok e1 =>
              rw [hren] at hr
              dsimp only at hr
              have hext' := (renumber_ok cells faces new B1 hB1 M'.cellsMap (map_inj_of_mono _ _ _ (C99_active_mesh points cells new M' hM').2.1)).1 e1 hren
              have := ih new e1 B1 M' hgrow.2 hB1 hM' hext' r hr
              simpa using this
      split at h
      · cases h
      · rename_i r hr'
        injection h with h
        have := key later first e0 B0 M hgrow hB0 hM hext r hr'
        rw [h] at this
        exact this

/-- **C99 (no exception).** The calls succeed for every growing sequence of tables in which each table has valid cells and an external face. -/
theorem C99_returns (points : List (Fin dim → ℝ)) (cells : List (Fin nn → ℕ)) (faces : Fin nf → List (Fin nn)) (first : ℕ → Bool) (later : List (ℕ → Bool)) (hgrow : Growing cells.length first later)
    (hvalid : ∀ act ∈ first :: later, ∀ c, c < cells.length → act c = true → ∀ a, cells.getD c (fun _ => 0) a < points.length) (hext : ∀ act ∈ first :: later, ∃ p, IsExternal cells faces act p) :
    ∃ r, facesRun points cells faces first later = .ok r := by
  unfold facesRun
  obtain ⟨M, hM⟩ := (C99_active_returns points cells first).mpr (hvalid first (by simp))
  have hB0 := bookCells_init cells faces first
  unfold initializeHashMap hashMapForFaces
  dsimp only [bind, Except.bind, pure, Except.pure]
  rw [hM]
  dsimp only
  set B0 := bookCells first (cellsFace cells faces) FaceBook.empty (List.range (cellsFace cells faces).length) with hB0d
  obtain ⟨e0, he0⟩ := (renumber_ok cells faces first B0 hB0 M.cellsMap (map_inj_of_mono _ _ _ (C99_active_mesh points cells first M hM).2.1)).2.1 (hext first (by simp))
  rw [he0]
  dsimp only
  clear_value B0
  have key : ∀ (later : List (ℕ → Bool)) (first : ℕ → Bool) (e0 : List (ℕ × Fin nf)) (B0 : FaceBook nf), Growing cells.length first later → B0.Holds cells faces first →
      (∀ act ∈ later, ∀ c, c < cells.length → act c = true → ∀ a, cells.getD c (fun _ => 0) a < points.length) → (∀ act ∈ later, ∃ p, IsExternal cells faces act p) →
      ∃ r : (ℕ → Bool) × List (ℕ × Fin nf) × FaceBook nf, later.foldlM (fun (s : (ℕ → Bool) × List (ℕ × Fin nf) × FaceBook nf) new => do
        let M ← getActiveMesh points cells new
        let u ← updateHashMap cells.length s.1 new M.cellsMap (cellsFace cells faces) s.2.2
        pure (new, u)) (first, e0, B0) = (.ok r : Except FemErr _) := by
    intro later
    induction later with
    | nil => intro first e0 B0 _ _ _ _; exact ⟨_, rfl⟩
    | cons new later ih =>
      intro first e0 B0 hgrow hB0 hv he
      obtain ⟨M', hM'⟩ := (C99_active_returns points cells new).mpr (hv new (by simp))
      have hB1 := bookCells_update cells faces first new B0 hB0 hgrow.1
      obtain ⟨e1, he1⟩ := (renumber_ok cells faces new _ hB1 M'.cellsMap (map_inj_of_mono _ _ _ (C99_active_mesh points cells new M' hM').2.1)).2.1 (he new (by simp))
      obtain ⟨r, hr⟩ := ih new e1 _ hgrow.2 hB1 (fun act ha => hv act (by simp [ha])) (fun act ha => he act (by simp [ha]))
      refine ⟨r, ?_⟩
      rw [List.foldlM_cons]
      unfold updateHashMap hashMapForFaces
      dsimp only [bind, Except.bind, pure, Except.pure]
      rw [hM']
      dsimp only
      rw [he1]
      exact hr
  obtain ⟨r, hr⟩ := key later first e0 B0 hgrow hB0 (fun act ha => hvalid act (by simp [ha])) (fun act ha => hext act (by simp [ha]))
  refine ⟨r.2, ?_⟩
  dsimp only [bind, Except.bind, pure, Except.pure] at hr
  rw [hr]

theorem bookCells_dead (act : ℕ → Bool) (keys : List (Fin nf → List ℕ)) (B : FaceBook nf) (inds : List ℕ) (h : ∀ c ∈ inds, act c = false) : bookCells act keys B inds = B := by
  unfold bookCells
  induction inds with
  | nil => rfl
  | cons c l ih =>
    rw [List.foldl_cons, if_neg (by rw [h c (by simp)]; simp)]
    exact ih fun c' hc' => h c' (by simp [hc'])

/-- **C99 (the hypothesis is needed).** `update_hash_map` looks at every changed cell but acts on the activated ones only: when cells are taken away, the faces reported are still those of the old table,
and those of the missing cells carry the cell number 0. -/
theorem C99_not_removed (points : List (Fin dim → ℝ)) (cells : List (Fin nn → ℕ)) (faces : Fin nf → List (Fin nn)) (old new : ℕ → Bool) (B : FaceBook nf) (hB : B.Holds cells faces old)
    (hless : ∀ c, new c = true → old c = true) (M : ActiveMesh nn dim) (hM : getActiveMesh points cells new = .ok M) (ext : List (ℕ × Fin nf)) (B' : FaceBook nf)
    (h : updateHashMap cells.length old new M.cellsMap (cellsFace cells faces) B = .ok (ext, B')) :
    B'.Holds cells faces old ∧ ∀ c f, IsExternal cells faces old (c, f) → new c = false → ((0, f) : ℕ × Fin nf) ∈ ext := by
  unfold updateHashMap hashMapForFaces at h
  dsimp only [bind, Except.bind, pure, Except.pure] at h
  rw [bookCells_dead] at h
  swap
  · intro c hc
    simp only [List.mem_filter, bne_iff_ne] at hc
    cases hn : new c with
    | false => rfl
    | true => exact absurd ((hless c hn).trans hn.symm) hc.2
  cases hr : renumberFaces M.cellsMap (B.all.dedup.filter fun p => p ∉ B.inner) with
  | error e => rw [hr] at h; cases h
  | ok e0 =>
    rw [hr] at h
    injection h with h
    injection h with h1 h2
    subst h1 h2
    refine ⟨hB, fun c f hc hn => ?_⟩
    have hm := (holds_external B cells faces old hB (c, f)).mpr hc
    unfold renumberFaces at hr
    split at hr
    · cases hr
    injection hr with hr
    rw [← hr, List.mem_map]
    refine ⟨_, hm, ?_⟩
    have : M.cellsMap c = 0 := by
      unfold getActiveMesh at hM
      dsimp only [pure, Except.pure] at hM
      split at hM
      · cases hM
      injection hM with hM
      rw [← hM, sort_range]
      refine scatterSet_notMem (fun _ => 0) _ id c ?_
      simp [hn]
    rw [this]

/-! ## Examples -/

/-- Two squares side by side, and their edges. -/
def twoQuads : List (Fin 4 → ℕ) := [![0, 1, 4, 3], ![1, 2, 5, 4]]
def quadEdges : Fin 4 → List (Fin 4) := ![[0, 1], [1, 2], [2, 3], [3, 0]]
noncomputable def sixPoints : List (Fin 2 → ℝ) := [![0, 0], ![1, 0], ![2, 0], ![0, 1], ![1, 1], ![2, 1]]

/-- The second square is deposited after the first: the common edge is no longer external. -/
example : (match facesRun sixPoints twoQuads quadEdges (fun c => c == 0) [fun _ => true] with
    | .ok r => r.1 == [(0, 0), (0, 2), (0, 3), (1, 0), (1, 1), (1, 2)]
    | .error _ => false) = true := by decide +kernel

/-- Only the second square: it has the new number 0, its four edges are external. -/
example : (match facesRun sixPoints twoQuads quadEdges (fun c => c == 1) [] with
    | .ok r => r.1 == [(0, 0), (0, 1), (0, 2), (0, 3)]
    | .error _ => false) = true := by decide +kernel

/-- The second square is taken away again: its edges are still there, under the number of the first, and the common edge is missing. -/
example : (match facesRun sixPoints twoQuads quadEdges (fun _ => true) [fun c => c == 0] with
    | .ok r => r.1 == [(0, 0), (0, 2), (0, 3), (0, 0), (0, 1), (0, 2)]
    | .error _ => false) = true := by decide +kernel

/-- The active mesh of the second square alone. -/
example : (match getActiveMesh sixPoints twoQuads (fun c => c == 1) with
    | .ok M => (M.pointsMap == [1, 2, 4, 5]) && (M.cells.map List.ofFn == [[0, 1, 3, 2]])
    | .error _ => false) = true := by decide +kernel

/-- No active cell: the exception of `[:, 0]`. -/
example : (match facesRun sixPoints twoQuads quadEdges (fun _ => false) [] with
    | .ok _ => false
    | .error e => e == .index) = true := by decide +kernel

end Verif.Fem
