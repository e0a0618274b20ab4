import Verif.Fem.Box
import Verif.Fem.ActiveMesh

/-!
# Element birth on a brick of hexahedra

On `box_mesh` the notion of C99 is the geometric one: a face is external when the cell on its other side is missing.
-/
namespace Verif.Fem

/-- `face_inds` of `get_face_shape_vals_and_grads('HEX8')` (models.py 91). -/
def hexFaces (f : Fin 6) : List (Fin 8) := (((faceInds hex8).getD []).getD f []).filterMap fun k => if h : k < 8 then some ⟨k, h⟩ else none

theorem mem_hexFaces (f : Fin 6) (p : Fin 8) : p ∈ hexFaces f ↔ Verif.Mesh.hexCorner p (hexAxis f) = hexSide f := by
  revert f p; decide +kernel

theorem hexFaces_nodup (f : Fin 6) : (hexFaces f).Nodup := by
  revert f; decide +kernel

/-- Number of the cell at grid position `g`. -/
def boxIndex (N : Fin 3 → ℕ) (g : Fin 3 → ℕ) : ℕ := (g 0 * N 1 + g 1) * N 2 + g 2

variable (N : Fin 3 → ℕ) (L : Fin 3 → ℝ)

theorem boxIndex_lt (g : Fin 3 → ℕ) (hg : ∀ a, g a < N a) : boxIndex N g < (Verif.Mesh.boxMesh (N 0) (N 1) (N 2) (L 0) (L 1) (L 2)).cells.toList.length := by
  simp only [Arr1.toList, List.length_map, List.length_range, Verif.Mesh.boxMesh_cells_n]
  exact Verif.Mesh.idx3_lt (hg 0) (hg 1) (hg 2)

theorem boxIndex_surj (c : ℕ) (hc : c < (Verif.Mesh.boxMesh (N 0) (N 1) (N 2) (L 0) (L 1) (L 2)).cells.toList.length) : ∃ g, (∀ a, g a < N a) ∧ boxIndex N g = c := by
  simp only [Arr1.toList, List.length_map, List.length_range, Verif.Mesh.boxMesh_cells_n] at hc
  obtain ⟨i, j, k, hi, hj, hk, rfl⟩ := Verif.Mesh.idx3_surj hc
  exact ⟨![i, j, k], by intro a; fin_cases a; exacts [hi, hj, hk], rfl⟩

theorem boxIndex_inj (g g' : Fin 3 → ℕ) (hg : ∀ a, g a < N a) (hg' : ∀ a, g' a < N a) (e : boxIndex N g = boxIndex N g') : g = g' := by
  obtain ⟨h0, h1, h2⟩ := Verif.Mesh.idx3_inj (hg 1) (hg 2) (hg' 1) (hg' 2) e
  funext a
  fin_cases a
  exacts [h0, h1, h2]

theorem boxIndex_cell (g : Fin 3 → ℕ) (hg : ∀ a, g a < N a) : (Verif.Mesh.boxMesh (N 0) (N 1) (N 2) (L 0) (L 1) (L 2)).cells.toList.getD (boxIndex N g) (fun _ => 0) = boxCell N g := by
  have h := boxIndex_lt N L g hg
  rw [List.getD_eq_getElem?_getD, List.getElem?_eq_getElem h, Option.getD_some]
  simp only [Arr1.toList, List.getElem_map, List.getElem_range]
  exact box_cell_get N L g hg

theorem mem_faceNodes_box (g : Fin 3 → ℕ) (hg : ∀ a, g a < N a) (f : Fin 6) (n : ℕ) :
    n ∈ faceNodes (Verif.Mesh.boxMesh (N 0) (N 1) (N 2) (L 0) (L 1) (L 2)).cells.toList hexFaces (boxIndex N g, f) ↔
      ∃ p, Verif.Mesh.hexCorner p (hexAxis f) = hexSide f ∧ n = gridNode N fun a => g a + Verif.Mesh.hexCorner p a := by
  unfold faceNodes
  rw [boxIndex_cell N L g hg, List.mem_map]
  simp only [mem_hexFaces]
  constructor
  · rintro ⟨p, h, rfl⟩; exact ⟨p, h, rfl⟩
  · rintro ⟨p, h, rfl⟩; exact ⟨p, h, rfl⟩

theorem faceNodes_box_nodup (g : Fin 3 → ℕ) (hg : ∀ a, g a < N a) (f : Fin 6) :
    (faceNodes (Verif.Mesh.boxMesh (N 0) (N 1) (N 2) (L 0) (L 1) (L 2)).cells.toList hexFaces (boxIndex N g, f)).Nodup := by
  unfold faceNodes
  rw [boxIndex_cell N L g hg]
  refine (hexFaces_nodup f).map ?_
  intro p p' e
  have := gridNode_inj N _ _ (fun a => by have := hg a; have := hexCorner_le p a; omega) (fun a => by have := hg a; have := hexCorner_le p' a; omega) e
  have hc : ∀ p p' : Fin 8, (∀ a, Verif.Mesh.hexCorner p a = Verif.Mesh.hexCorner p' a) → p = p' := by decide
  exact hc p p' fun a => by have := congrFun this a; omega

/-- Two faces of cells of the brick have the same nodes exactly when they are the same square. -/
theorem faceNodes_box_perm (g g' : Fin 3 → ℕ) (hg : ∀ a, g a < N a) (hg' : ∀ a, g' a < N a) (f f' : Fin 6) :
    (faceNodes (Verif.Mesh.boxMesh (N 0) (N 1) (N 2) (L 0) (L 1) (L 2)).cells.toList hexFaces (boxIndex N g, f)).Perm
      (faceNodes (Verif.Mesh.boxMesh (N 0) (N 1) (N 2) (L 0) (L 1) (L 2)).cells.toList hexFaces (boxIndex N g', f')) ↔
      hexAxis f = hexAxis f' ∧ g (hexAxis f) + hexSide f = g' (hexAxis f) + hexSide f' ∧ ∀ b, b ≠ hexAxis f → g b = g' b := by
  rw [List.perm_ext_iff_of_nodup (faceNodes_box_nodup N L g hg f) (faceNodes_box_nodup N L g' hg' f')]
  simp only [mem_faceNodes_box N L g hg, mem_faceNodes_box N L g' hg']
  have hb : ∀ g : Fin 3 → ℕ, (∀ a, g a < N a) → ∀ p a, g a + Verif.Mesh.hexCorner p a ≤ N a := fun g hg p a => by have := hg a; have := hexCorner_le p a; omega
  constructor
  · intro h
    have h1 : ∀ p, Verif.Mesh.hexCorner p (hexAxis f) = hexSide f → ∃ p', Verif.Mesh.hexCorner p' (hexAxis f') = hexSide f' ∧ ∀ a, g a + Verif.Mesh.hexCorner p a = g' a + Verif.Mesh.hexCorner p' a := by
      intro p hp
      obtain ⟨p', hp', e⟩ := (h _).mp ⟨p, hp, rfl⟩
      exact ⟨p', hp', fun a => congrFun (gridNode_inj N _ _ (hb g hg p) (hb g' hg' p') e) a⟩
    have h2 : ∀ p, Verif.Mesh.hexCorner p (hexAxis f') = hexSide f' → ∃ p', Verif.Mesh.hexCorner p' (hexAxis f) = hexSide f ∧ ∀ a, g' a + Verif.Mesh.hexCorner p a = g a + Verif.Mesh.hexCorner p' a := by
      intro p hp
      obtain ⟨p', hp', e⟩ := (h _).mpr ⟨p, hp, rfl⟩
      exact ⟨p', hp', fun a => congrFun (gridNode_inj N _ _ (hb g' hg' p) (hb g hg p') e) a⟩
    have ex : ∀ f a, hexAxis f ≠ a → ∃ p p', Verif.Mesh.hexCorner p (hexAxis f) = hexSide f ∧ Verif.Mesh.hexCorner p' (hexAxis f) = hexSide f ∧
        Verif.Mesh.hexCorner p a = 0 ∧ Verif.Mesh.hexCorner p' a = 1 := by decide
    have hax : hexAxis f = hexAxis f' := by
      by_contra hne
      obtain ⟨p, p', a1, a2, a3, a4⟩ := ex f (hexAxis f') hne
      obtain ⟨r, b1, b2⟩ := h1 p a1
      obtain ⟨r', c1, c2⟩ := h1 p' a2
      have e1 := b2 (hexAxis f')
      have e2 := c2 (hexAxis f')
      omega
    refine ⟨hax, ?_, ?_⟩
    · have : ∀ f, ∃ p, Verif.Mesh.hexCorner p (hexAxis f) = hexSide f := by decide
      obtain ⟨p, hp⟩ := this f
      obtain ⟨p', hp', e⟩ := h1 p hp
      rw [← hax] at hp'
      have := e (hexAxis f)
      omega
    · intro b hbne
      obtain ⟨p, -, a1, -, a3, -⟩ := ex f b (Ne.symm hbne)
      obtain ⟨r, -, b2⟩ := h1 p a1
      obtain ⟨p', -, c1, -, c3, -⟩ := ex f' b (by rw [← hax]; exact Ne.symm hbne)
      obtain ⟨r', -, d2⟩ := h2 p' c1
      have e1 := b2 b
      have e2 := d2 b
      omega
  · rintro ⟨hax, hs, ho⟩ n
    have ex : ∀ p f f', hexAxis f = hexAxis f' → Verif.Mesh.hexCorner p (hexAxis f) = hexSide f → ∃ p', Verif.Mesh.hexCorner p' (hexAxis f') = hexSide f' ∧
        ∀ b, b ≠ hexAxis f → Verif.Mesh.hexCorner p' b = Verif.Mesh.hexCorner p b := by decide
    constructor
    · rintro ⟨p, hp, rfl⟩
      obtain ⟨p', hp', e⟩ := ex p f f' hax hp
      refine ⟨p', hp', congrArg _ (funext fun a => ?_)⟩
      by_cases ha : a = hexAxis f
      · subst ha
        rw [hp, hax, hp', ← hax]
        exact hs
      · rw [e a ha, ho a ha]
    · rintro ⟨p, hp, rfl⟩
      obtain ⟨p', hp', e⟩ := ex p f' f hax.symm hp
      refine ⟨p', hp', congrArg _ (funext fun a => ?_)⟩
      by_cases ha : a = hexAxis f
      · subst ha
        rw [hp', hs, hax, hp]
      · rw [e a (by rw [← hax]; exact ha), ho a ha]

/-- The cell `g'` lies on the other side of face `f` of cell `g`. -/
def Across (g : Fin 3 → ℕ) (f : Fin 6) (g' : Fin 3 → ℕ) : Prop :=
  (if hexSide f = 1 then g' (hexAxis f) = g (hexAxis f) + 1 else g' (hexAxis f) + 1 = g (hexAxis f)) ∧ ∀ b, b ≠ hexAxis f → g' b = g b

/-- **C99 (brick).** On `box_mesh`, whatever cells are active: a face of an active cell is external exactly when there is no active cell on its other side. -/
theorem C99_box (act : ℕ → Bool) (g : Fin 3 → ℕ) (hg : ∀ a, g a < N a) (f : Fin 6) :
    IsExternal (Verif.Mesh.boxMesh (N 0) (N 1) (N 2) (L 0) (L 1) (L 2)).cells.toList hexFaces act (boxIndex N g, f) ↔
      act (boxIndex N g) = true ∧ ¬ ∃ g', (∀ a, g' a < N a) ∧ act (boxIndex N g') = true ∧ Across g f g' := by
  unfold IsExternal IsFace
  have hside : ∀ f, hexSide f = 0 ∨ hexSide f = 1 := by decide
  constructor
  · rintro ⟨⟨-, ha⟩, h⟩
    refine ⟨ha, ?_⟩
    rintro ⟨g', hg', ha', hs, ho⟩
    have exf : ∀ f : Fin 6, ∃ f', hexAxis f' = hexAxis f ∧ hexSide f' + hexSide f = 1 := by decide
    obtain ⟨f', hf1, hf2⟩ := exf f
    have := h (boxIndex N g', f') ⟨boxIndex_lt N L g' hg', ha'⟩ ((faceNodes_box_perm N L g' g hg' hg f' f).mpr ⟨hf1, ?_, ?_⟩)
    · injection this with _ e
      subst e
      omega
    · rw [hf1]
      rcases hside f with e | e <;> simp [e] at hs hf2 ⊢ <;> omega
    · intro b hb
      rw [hf1] at hb
      exact ho b hb
  · rintro ⟨ha, hno⟩
    refine ⟨⟨boxIndex_lt N L g hg, ha⟩, ?_⟩
    rintro ⟨c', f'⟩ ⟨hc', ha'⟩ hperm
    obtain ⟨g', hg', rfl⟩ := boxIndex_surj N L c' hc'
    obtain ⟨hax, hs, ho⟩ := (faceNodes_box_perm N L g' g hg' hg f' f).mp hperm
    have inj : ∀ f f' : Fin 6, hexAxis f' = hexAxis f → hexSide f' = hexSide f → f' = f := by decide
    by_cases hsd : hexSide f' = hexSide f
    · have hff := inj f f' hax hsd
      subst hff
      have : g' = g := by
        funext a
        by_cases hae : a = hexAxis f'
        · subst hae; omega
        · exact ho a hae
      rw [this]
    · exfalso
      refine hno ⟨g', hg', ha', ?_, ?_⟩
      · rw [hax] at hs
        rcases hside f with e | e <;> rcases hside f' with e' | e' <;> simp [e, e'] at hs hsd ⊢ <;> omega
      · intro b hb
        exact ho b (by rw [hax]; exact hb)

/-- All cells active (bare_plate.py 66): the external faces are the faces on the surface of the brick. -/
theorem C99_plate (g : Fin 3 → ℕ) (hg : ∀ a, g a < N a) (f : Fin 6) :
    IsExternal (Verif.Mesh.boxMesh (N 0) (N 1) (N 2) (L 0) (L 1) (L 2)).cells.toList hexFaces (fun _ => true) (boxIndex N g, f) ↔
      g (hexAxis f) + hexSide f = 0 ∨ g (hexAxis f) + hexSide f = N (hexAxis f) := by
  rw [C99_box N L _ g hg f]
  have hside : ∀ f, hexSide f = 0 ∨ hexSide f = 1 := by decide
  have hgf := hg (hexAxis f)
  simp only [true_and]
  constructor
  · intro h
    by_contra hno
    rw [not_or] at hno
    apply h
    rcases hside f with e | e
    · refine ⟨Function.update g (hexAxis f) (g (hexAxis f) - 1), ?_, ?_, ?_⟩
      · intro a
        by_cases ha : a = hexAxis f
        · subst ha; rw [Function.update_self]; omega
        · rw [Function.update_of_ne ha]; exact hg a
      · rw [e, if_neg (by omega), Function.update_self]; omega
      · intro b hb
        rw [Function.update_of_ne hb]
    · refine ⟨Function.update g (hexAxis f) (g (hexAxis f) + 1), ?_, ?_, ?_⟩
      · intro a
        by_cases ha : a = hexAxis f
        · subst ha; rw [Function.update_self]; omega
        · rw [Function.update_of_ne ha]; exact hg a
      · rw [e, if_pos rfl, Function.update_self]
      · intro b hb
        rw [Function.update_of_ne hb]
  · rintro h ⟨g', hg', hs, -⟩
    have := hg' (hexAxis f)
    rcases hside f with e | e <;> simp [e] at hs h <;> omega

/-! ## Example -/

/-- In a row of two cells with both active, the side between them is not external, their outer sides are; with one active, the side between them is. -/
example : ¬ IsExternal (Verif.Mesh.boxMesh 2 1 1 (4 : ℝ) 3 6).cells.toList hexFaces (fun _ => true) (0, 3) ∧ IsExternal (Verif.Mesh.boxMesh 2 1 1 (4 : ℝ) 3 6).cells.toList hexFaces (fun _ => true) (0, 2) ∧
    IsExternal (Verif.Mesh.boxMesh 2 1 1 (4 : ℝ) 3 6).cells.toList hexFaces (fun c => c == 0) (0, 3) := by
  have h := fun act f => C99_box ![2, 1, 1] ![4, 3, 6] act ![0, 0, 0] (by decide) f
  refine ⟨fun hc => ?_, ?_, ?_⟩
  · exact ((h (fun _ => true) 3).mp hc).2 ⟨![1, 0, 0], by decide, rfl, by decide +kernel, by decide +kernel⟩
  · refine (h (fun _ => true) 2).mpr ⟨rfl, fun ⟨g', _, _, hc⟩ => ?_⟩
    have := hc.1
    rw [if_neg (by decide)] at this
    exact Nat.succ_ne_zero _ this
  · refine (h (fun c => c == 0) 3).mpr ⟨rfl, fun ⟨g', hg', hact, hc⟩ => ?_⟩
    have h0 := hc.1
    have h1 := hc.2 1 (by decide)
    have h2 := hc.2 2 (by decide)
    rw [if_pos (by decide)] at h0
    have e : boxIndex ![2, 1, 1] g' = (g' 0 * 1 + g' 1) * 1 + g' 2 := rfl
    have e0 : g' 0 = 1 := h0
    rw [e, e0, h1, h2] at hact
    revert hact
    decide

end Verif.Fem
