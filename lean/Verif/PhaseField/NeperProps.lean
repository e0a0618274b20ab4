import Verif.PhaseField.Neper
import Mathlib.Algebra.Quaternion
import Mathlib.Tactic.LinearCombination
import Mathlib.Tactic.FieldSimp
import Mathlib.Tactic.Linarith
import Mathlib.Tactic.Positivity
import Mathlib.LinearAlgebra.Matrix.Determinant.Basic

/-!
# C91: reading the polycrystal
-/
namespace Verif.PhaseField
open Verif

/-! ## Grid size -/

theorem pyRound_near (x : ℝ) (n : ℤ) (h : |x - n| < 1 / 2) : pyRound x = n := by
  rw [abs_lt] at h
  unfold pyRound
  by_cases hx : (n : ℝ) ≤ x
  · have hf : ⌊x⌋ = n := Int.floor_eq_iff.mpr ⟨hx, by linarith⟩
    rw [hf, if_pos (by linarith)]
  · push Not at hx
    have hf : ⌊x⌋ = n - 1 := Int.floor_eq_iff.mpr ⟨by push_cast; linarith, by push_cast; linarith⟩
    rw [hf, if_neg (by push_cast; linarith), if_pos (by push_cast; linarith)]
    ring

theorem round_ratio (N : ℕ) (hN : 0 < N) (h p : ℝ) (hh : 0 < h) (hp : |p - h| * (2 * N + 1) < h) : p ≠ 0 ∧ pyRound (N * h / p) = N := by
  have hN' : (1 : ℝ) ≤ N := by exact_mod_cast hN
  have hpp : 0 < p := by
    have := neg_abs_le (p - h)
    have h3 : |p - h| * 3 ≤ |p - h| * (2 * N + 1) := mul_le_mul_of_nonneg_left (by linarith) (abs_nonneg _)
    have := abs_nonneg (p - h)
    linarith
  refine ⟨hpp.ne', pyRound_near _ _ ?_⟩
  have e : (N : ℝ) * h / p - ((N : ℕ) : ℤ) = N * (h - p) / p := by push_cast; field_simp
  rw [e, abs_div, abs_of_pos hpp, div_lt_iff₀ hpp, abs_mul, abs_of_pos (by linarith : (0 : ℝ) < N), abs_sub_comm h p]
  have := neg_abs_le (p - h)
  nlinarith

/-- **C91 (grid size).** If the mesh file lists the lattice points `x` fastest, starting at the origin, with coordinates accurate to within `h / (2 N + 1)` at the three points that are looked at,
then the numbers of cells are recovered exactly, the assertion holds, and the spacing used by the solver is the true one. -/
theorem C91_grid (Nx Ny Nz : ℕ) (hx : 0 < Nx) (hy : 0 < Ny) (hz : 0 < Nz) (h : Fin 3 → ℝ) (hh : ∀ i, 0 < h i)
    (points : List (Fin 3 → ℝ)) (p1 p2 p3 : Fin 3 → ℝ)
    (g1 : points[1]? = some p1) (g2 : points[Nx + 1]? = some p2) (g3 : points[(Nx + 1) * (Ny + 1)]? = some p3)
    (t1 : |p1 0 - h 0| * (2 * Nx + 1) < h 0) (t2 : |p2 1 - h 1| * (2 * Ny + 1) < h 1) (t3 : |p3 2 - h 2| * (2 * Nz + 1) < h 2) :
    gridSize ![Nx * h 0, Ny * h 1, Nz * h 2] points (Nx * Ny * Nz) = .ok ((Nx : ℤ), (Ny : ℤ), (Nz : ℤ)) ∧
    meshH ![Nx * h 0, Ny * h 1, Nz * h 2] ((Nx : ℤ), (Ny : ℤ), (Nz : ℤ)) = h := by
  obtain ⟨n1, r1⟩ := round_ratio Nx hx (h 0) (p1 0) (hh 0) t1
  obtain ⟨n2, r2⟩ := round_ratio Ny hy (h 1) (p2 1) (hh 1) t2
  obtain ⟨n3, r3⟩ := round_ratio Nz hz (h 2) (p3 2) (hh 2) t3
  have nat : ∀ n : ℕ, pyGet points (n : ℤ) = points[n]? := fun n => by simp [pyGet]
  constructor
  · unfold gridSize
    have e1 : pyGet points 1 = some p1 := by rw [← g1, ← nat 1]; rfl
    have e2 : pyGet points ((Nx : ℤ) + 1) = some p2 := by rw [← g2, ← nat (Nx + 1)]; push_cast; rfl
    have e3 : pyGet points (((Nx : ℤ) + 1) * ((Ny : ℤ) + 1)) = some p3 := by
      rw [← g3, ← nat ((Nx + 1) * (Ny + 1))]; push_cast; rfl
    have s1 : roundAt ((![Nx * h 0, Ny * h 1, Nz * h 2] : Fin 3 → ℝ) 0) (pyGet points 1) 0 = .ok (Nx : ℤ) := by
      rw [e1]; simp only [roundAt]; rw [if_neg n1]; exact congrArg _ r1
    have s2 : roundAt ((![Nx * h 0, Ny * h 1, Nz * h 2] : Fin 3 → ℝ) 1) (pyGet points ((Nx : ℤ) + 1)) 1 = .ok (Ny : ℤ) := by
      rw [e2]; simp only [roundAt]; rw [if_neg n2]; exact congrArg _ r2
    have s3 : roundAt ((![Nx * h 0, Ny * h 1, Nz * h 2] : Fin 3 → ℝ) 2) (pyGet points (((Nx : ℤ) + 1) * ((Ny : ℤ) + 1))) 2 = .ok (Nz : ℤ) := by
      rw [e3]; simp only [roundAt]; rw [if_neg n3]; exact congrArg _ r3
    rw [s1]
    dsimp only [bind, Except.bind]
    rw [s2]
    dsimp only [bind, Except.bind]
    rw [s3]
    dsimp only [bind, Except.bind]
    rw [if_pos (by push_cast; ring)]
  · have hxr : (Nx : ℝ) ≠ 0 := by exact_mod_cast hx.ne'
    have hyr : (Ny : ℝ) ≠ 0 := by exact_mod_cast hy.ne'
    have hzr : (Nz : ℝ) ≠ 0 := by exact_mod_cast hz.ne'
    funext i
    fin_cases i
    · show (Nx : ℝ) * h 0 / (((Nx : ℕ) : ℤ) : ℝ) = h 0
      push_cast; field_simp
    · show (Ny : ℝ) * h 1 / (((Ny : ℕ) : ℤ) : ℝ) = h 1
      push_cast; field_simp
    · show (Nz : ℝ) * h 2 / (((Nz : ℕ) : ℤ) : ℝ) = h 2
      push_cast; field_simp

/-- **C91 (assertion).** Whatever the file, accepted numbers multiply to the number of cells. -/
theorem C91_grid_sound (domain : Fin 3 → ℝ) (points : List (Fin 3 → ℝ)) (num_cells : ℕ) (N : ℤ × ℤ × ℤ)
    (h : gridSize domain points num_cells = .ok N) : N.1 * N.2.1 * N.2.2 = num_cells := by
  unfold gridSize at h
  dsimp only [bind, Except.bind] at h
  cases h1 : roundAt (domain 0) (pyGet points 1) 0 with
  | error e => rw [h1] at h; cases h
  | ok a =>
    rw [h1] at h; dsimp only at h
    cases h2 : roundAt (domain 1) (pyGet points (a + 1)) 1 with
    | error e => rw [h2] at h; cases h
    | ok b =>
      rw [h2] at h; dsimp only at h
      cases h3 : roundAt (domain 2) (pyGet points ((a + 1) * (b + 1))) 2 with
      | error e => rw [h3] at h; cases h
      | ok c =>
        rw [h3] at h; dsimp only at h
        split_ifs at h with hc
        injection h with h
        subst h
        exact hc

/-- **C91 (ordering matters).** If `x` is not the fastest coordinate (the second listed point has `x = 0`), reading stops with an error for every domain. -/
theorem C91_grid_order (domain : Fin 3 → ℝ) (points : List (Fin 3 → ℝ)) (num_cells : ℕ) (p : Fin 3 → ℝ)
    (h1 : points[1]? = some p) (hp : p 0 = 0) : ∃ e, gridSize domain points num_cells = .error e := by
  have e1 : pyGet points 1 = some p := by rw [← h1]; simp [pyGet]
  refine ⟨"OverflowError", ?_⟩
  unfold gridSize
  rw [e1]
  simp [roundAt, hp, bind, Except.bind]

/-- Instance: two unit cells in `x`, one in `y` and `z`. -/
example : gridSize ![2, 1, 1] [![0,0,0], ![1,0,0], ![2,0,0], ![0,1,0], ![1,1,0], ![2,1,0], ![0,0,1], ![1,0,1], ![2,0,1]] 2 = .ok (2, 1, 1) := by
  have := (C91_grid 2 1 1 (by norm_num) (by norm_num) (by norm_num) (fun _ => 1) (fun _ => one_pos)
    [![0,0,0], ![1,0,0], ![2,0,0], ![0,1,0], ![1,1,0], ![2,1,0], ![0,0,1], ![1,0,1], ![2,0,1]] ![1,0,0] ![0,1,0] ![0,0,1]
    rfl rfl rfl (by simp) (by simp) (by simp)).1
  simpa using this

/-! ## Orientations of the cells -/

theorem foldl_max_mem (l : List ℤ) : ∀ a, l.foldl max a ∈ a :: l ∧ ∀ x ∈ a :: l, x ≤ l.foldl max a := by
  induction l with
  | nil => intro a; simp
  | cons b l ih =>
    intro a
    obtain ⟨h1, h2⟩ := ih (max a b)
    rw [List.foldl_cons]
    constructor
    · rcases List.mem_cons.mp h1 with h | h
      · rw [h]
        rcases max_choice a b with e | e <;> rw [e] <;> simp
      · simp [h]
    · intro x hx
      have hm := h2 (max a b) (List.mem_cons_self ..)
      rcases List.mem_cons.mp hx with rfl | hx
      · exact (le_max_left _ _).trans hm
      rcases List.mem_cons.mp hx with rfl | hx
      · exact (le_max_right _ _).trans hm
      · exact h2 x (List.mem_cons_of_mem _ hx)

theorem listMax_eq (l : List ℤ) (m : ℤ) (hm : m ∈ l) (h : ∀ x ∈ l, x ≤ m) : listMax l = some m := by
  cases l with
  | nil => simp at hm
  | cons a l =>
    obtain ⟨h1, h2⟩ := foldl_max_mem l a
    exact congrArg some (le_antisymm (h _ h1) (h2 _ hm))

theorem mapM_some {α β : Type*} (f : α → Option β) (g : α → β) (l : List α) (h : ∀ a ∈ l, f a = some (g a)) : l.mapM f = some (l.map g) := by
  induction l with
  | nil => rfl
  | cons a l ih =>
    rw [List.mapM_cons, h a (List.mem_cons_self ..), ih fun b hb => h b (List.mem_cons_of_mem _ hb)]
    rfl

/-- **C91 (orientations).** If the physical tags of the cells are numbers from 1 to the number of grains and the last grain occurs, the assertion holds and the
cell of tag `t` gets the orientation drawn for grain `t - 1`: equal tags, equal orientation. -/
theorem C91_orientations (num_grains : ℕ) (physical : List ℤ) (oris : List ℕ) (hlen : oris.length = num_grains)
    (hr : ∀ t ∈ physical, 1 ≤ t ∧ t ≤ num_grains) (hm : (num_grains : ℤ) ∈ physical) :
    cellOriInds num_grains physical oris = .ok (physical.map fun t => oris.getD (t - 1).toNat 0) := by
  unfold cellOriInds
  have h1 : listMax (physical.map fun p => p - 1) = some ((num_grains : ℤ) - 1) :=
    listMax_eq _ _ (List.mem_map.mpr ⟨_, hm, rfl⟩) fun x hx => by
      obtain ⟨t, ht, rfl⟩ := List.mem_map.mp hx
      have := (hr t ht).2
      omega
  have h2 : (physical.map fun p => p - 1).mapM (pyGet oris) = some ((physical.map fun p => p - 1).map fun i => oris.getD i.toNat 0) := by
    refine mapM_some _ _ _ fun i hi => ?_
    obtain ⟨t, ht, rfl⟩ := List.mem_map.mp hi
    obtain ⟨ht1, ht2⟩ := hr t ht
    unfold pyGet
    rw [if_pos (by omega)]
    have : (t - 1).toNat < oris.length := by omega
    rw [List.getElem?_eq_getElem this, List.getD_eq_getElem?_getD, List.getElem?_eq_getElem this]
    rfl
  dsimp only
  rw [h1]
  dsimp only
  rw [if_pos (by ring), h2, List.map_map]
  rfl

/-- **C91 (wrong grain count).** The assertion fails exactly when the largest tag differs from the configured number of grains. -/
theorem C91_grain_count (num_grains : ℕ) (physical : List ℤ) (oris : List ℕ) (m : ℤ) (hm : m ∈ physical) (hmax : ∀ t ∈ physical, t ≤ m) :
    cellOriInds num_grains physical oris = .error "AssertionError" ↔ m ≠ num_grains := by
  unfold cellOriInds
  have h1 : listMax (physical.map fun p => p - 1) = some (m - 1) :=
    listMax_eq _ _ (List.mem_map.mpr ⟨_, hm, rfl⟩) fun x hx => by
      obtain ⟨t, ht, rfl⟩ := List.mem_map.mp hx
      have := hmax t ht
      omega
  dsimp only
  rw [h1]
  dsimp only
  constructor
  · intro h he
    rw [if_pos (by omega)] at h
    cases hc : (physical.map fun p => p - 1).mapM (pyGet oris) with
    | none => rw [hc] at h; simp at h
    | some l => rw [hc] at h; simp at h
  · intro h
    rw [if_neg (by omega)]

/-- **C91 (untagged cells).** A cell without a physical tag (tag 0) is not rejected: it silently gets the orientation of the last grain. -/
theorem C91_untagged : cellOriInds 2 [1, 0, 2] [5, 7] = .ok [5, 7, 7] := by decide

/-! ## The `.obj` reader -/

/-- Specification: the text of a polyhedral mesh in Neper's format: vertices, then per polyhedron one group line and its faces (numbered from 1). -/
def objText (sf : ℝ → String) (si : ℤ → String) (points : List (Fin 3 → ℝ)) (polys : List (List (List ℤ))) : List (List String) :=
  points.map (fun p => ["v", sf (p 0), sf (p 1), sf (p 2)]) ++
  polys.flatMap fun faces => ["g", "cell"] :: faces.map fun f => "f" :: f.map fun i => si (i + 1)

theorem foldlM_append_ok {α β : Type*} (f : β → α → Except String β) (l l' : List α) (b c : β) (h : l.foldlM f b = .ok c) :
    (l ++ l').foldlM f b = l'.foldlM f c := by
  rw [List.foldlM_append, h]; rfl

theorem readObj_vertices (float : String → Option ℝ) (int : String → Option ℤ) (sf : ℝ → String)
    (points : List (Fin 3 → ℝ)) (hf : ∀ p ∈ points, ∀ i, float (sf (p i)) = some (p i)) : ∀ s : ObjState,
    (points.map (fun p => ["v", sf (p 0), sf (p 1), sf (p 2)])).foldlM (objLine float int) s
      = .ok (s.1 ++ points.map (fun p => [p 0, p 1, p 2]), s.2) := by
  induction points with
  | nil => intro s; simp; rfl
  | cons p l ih =>
    intro s
    rw [List.map_cons, List.foldlM_cons]
    have : objLine float int s ["v", sf (p 0), sf (p 1), sf (p 2)] = .ok (s.1 ++ [[p 0, p 1, p 2]], s.2) := by
      have h := hf p (List.mem_cons_self ..)
      simp [objLine, h]
    rw [this]
    show (l.map _).foldlM (objLine float int) _ = _
    rw [ih fun p hp => hf p (List.mem_cons_of_mem _ hp)]
    simp

theorem readObj_faces (float : String → Option ℝ) (int : String → Option ℤ) (si : ℤ → String) (hi : ∀ i, int (si i) = some i)
    (faces : List (List ℤ)) : ∀ (ps : List (List ℝ)) (done : List (List (List ℤ))) (cur : List (List ℤ)),
    (faces.map fun f => "f" :: f.map fun i => si (i + 1)).foldlM (objLine float int) (ps, done ++ [cur])
      = .ok (ps, done ++ [cur ++ faces]) := by
  induction faces with
  | nil => intro ps done cur; simp; rfl
  | cons f l ih =>
    intro ps done cur
    rw [List.map_cons, List.foldlM_cons]
    have hm : (f.map fun i => si (i + 1)).mapM int = some (f.map fun i => i + 1) := by
      clear ih
      induction f with
      | nil => rfl
      | cons a g ih => rw [List.map_cons, List.mapM_cons, hi, ih]; rfl
    have : objLine float int (ps, done ++ [cur]) ("f" :: f.map fun i => si (i + 1)) = .ok (ps, done ++ [cur ++ [f]]) := by
      simp only [objLine]
      rw [if_neg (by decide), if_neg (by decide), if_pos trivial, List.getLast?_concat, hm, List.dropLast_concat]
      simp [Function.comp_def]
    rw [this]
    show (l.map _).foldlM (objLine float int) _ = _
    rw [ih]
    simp

theorem readObj_groups (float : String → Option ℝ) (int : String → Option ℤ) (si : ℤ → String) (hi : ∀ i, int (si i) = some i)
    (polys : List (List (List ℤ))) : ∀ (ps : List (List ℝ)) (done : List (List (List ℤ))),
    (polys.flatMap fun faces => ["g", "cell"] :: faces.map fun f => "f" :: f.map fun i => si (i + 1)).foldlM (objLine float int) (ps, done)
      = .ok (ps, done ++ polys) := by
  induction polys with
  | nil => intro ps done; simp; rfl
  | cons p l ih =>
    intro ps done
    rw [List.flatMap_cons]
    have : (["g", "cell"] :: p.map fun f => "f" :: f.map fun i => si (i + 1)).foldlM (objLine float int) (ps, done)
        = .ok (ps, done ++ [p]) := by
      rw [List.foldlM_cons]
      have : objLine float int (ps, done) ["g", "cell"] = .ok (ps, done ++ [[]]) := by simp [objLine]
      rw [this]
      show (p.map _).foldlM (objLine float int) _ = _
      rw [readObj_faces float int si hi]
      simp
    rw [foldlM_append_ok _ _ _ _ _ this, ih]
    simp

/-- **C91 (obj round trip).** Reading the text of any polyhedral mesh (coordinates and numbers written so that Python reads them back) returns its vertices and, per polyhedron, its faces numbered from 0. -/
theorem C91_obj (float : String → Option ℝ) (int : String → Option ℤ) (sf : ℝ → String) (si : ℤ → String)
    (points : List (Fin 3 → ℝ)) (hf : ∀ p ∈ points, ∀ i, float (sf (p i)) = some (p i)) (hi : ∀ i, int (si i) = some i) (polys : List (List (List ℤ))) :
    readObj float int (objText sf si points polys) = .ok (points.map (fun p => [p 0, p 1, p 2]), polys) := by
  unfold readObj objText
  rw [foldlM_append_ok _ _ _ _ _ (readObj_vertices float int sf points hf ([], [])), readObj_groups float int si hi]
  simp

theorem foldlM_error {α β : Type*} (f : β → α → Except String β) (x : α) (e : String) (hx : ∀ b, f b x = .error e) (l : List α) (h : x ∈ l) :
    ∀ b, ∃ e', l.foldlM f b = .error e' := by
  induction l with
  | nil => simp at h
  | cons a l ih =>
    intro b
    rw [List.foldlM_cons]
    cases hab : f b a with
    | error e' => exact ⟨e', rfl⟩
    | ok c =>
      rcases List.mem_cons.mp h with rfl | h
      · rw [hx] at hab; cases hab
      · exact ih h c

/-- **C91 (blank lines).** A blank line anywhere in the file makes the reader fail. -/
theorem C91_obj_blank (float : String → Option ℝ) (int : String → Option ℤ) (lines : List (List String)) (h : [] ∈ lines) :
    ∃ e, readObj float int lines = .error e :=
  foldlM_error _ [] "IndexError: list index out of range" (fun _ => rfl) lines h _

/-- **C91 (faces without a group).** A file with vertices and faces but no group line makes the reader fail. -/
theorem C91_obj_no_group (float : String → Option ℝ) (int : String → Option ℤ) (lines : List (List String)) (args : List String)
    (h : ("f" :: args) ∈ lines) (hg : ∀ l ∈ lines, l.head? ≠ some "g") : ∃ e, readObj float int lines = .error e := by
  have key : ∀ (lines : List (List String)), ("f" :: args) ∈ lines → (∀ l ∈ lines, l.head? ≠ some "g") →
      ∀ ps, ∃ e, lines.foldlM (objLine float int) (ps, []) = .error e := by
    intro lines
    induction lines with
    | nil => intro h; simp at h
    | cons l ls ih =>
      intro h hg ps
      rw [List.foldlM_cons]
      cases hl : objLine float int (ps, []) l with
      | error e => exact ⟨e, rfl⟩
      | ok c =>
        have hc : c.2 = [] ∧ l ≠ "f" :: args := by
          cases l with
          | nil => simp [objLine] at hl
          | cons hd tl =>
            have hh : hd ≠ "g" := by
              intro e; exact hg _ (List.mem_cons_self ..) (by simp [e])
            simp only [objLine] at hl
            by_cases h1 : hd = "v"
            · rw [if_pos h1] at hl
              refine ⟨?_, by simp [h1]⟩
              split at hl
              · split at hl
                · injection hl with hl; subst hl; rfl
                · cases hl
              · cases hl
            · rw [if_neg h1, if_neg hh] at hl
              by_cases h2 : hd = "f"
              · rw [if_pos h2] at hl; simp at hl
              · rw [if_neg h2] at hl
                injection hl with hl; subst hl
                exact ⟨rfl, by simp [h2]⟩
        obtain ⟨c1, c2⟩ := c
        obtain ⟨hc1, hc2⟩ := hc
        simp only at hc1
        subst hc1
        rcases List.mem_cons.mp h with h | h
        · exact absurd h.symm hc2
        · exact ih h (fun l hl => hg l (List.mem_cons_of_mem _ hl)) c1
  exact key lines h hg []

/-! ## Crystal directions -/

/-- The quaternion `w + x i + y j + z k`. -/
def quat (w x y z : ℝ) : Quaternion ℝ := ⟨w, x, y, z⟩
@[simp] theorem quat_re (w x y z : ℝ) : (quat w x y z).re = w := rfl
@[simp] theorem quat_imI (w x y z : ℝ) : (quat w x y z).imI = x := rfl
@[simp] theorem quat_imJ (w x y z : ℝ) : (quat w x y z).imJ = y := rfl
@[simp] theorem quat_imK (w x y z : ℝ) : (quat w x y z).imK = z := rfl

/-- Specification: rotation of a vector by a quaternion, `q v q⁻¹` in Hamilton's algebra. -/
noncomputable def hamiltonRotate (q : Quaternion ℝ) (v : Fin 3 → ℝ) : Quaternion ℝ := q * quat 0 (v 0) (v 1) (v 2) * q⁻¹

/-- Norm of the quaternion in scipy's order. -/
noncomputable def qnorm (q : Fin 4 → ℝ) : ℝ := Real.sqrt (scipyQuat q 0 ^ 2 + scipyQuat q 1 ^ 2 + scipyQuat q 2 ^ 2 + scipyQuat q 3 ^ 2)

theorem qnorm_pos (q : Fin 4 → ℝ) (hq : q ≠ 0) : 0 < qnorm q := by
  refine Real.sqrt_pos.mpr ?_
  show 0 < q 1 ^ 2 + q 2 ^ 2 + q 3 ^ 2 + q 0 ^ 2
  obtain ⟨i, hi⟩ := Function.ne_iff.mp hq
  have := pow_pos (abs_pos.mpr hi) 2
  rw [sq_abs] at this
  have h0 := sq_nonneg (q 0); have h1 := sq_nonneg (q 1); have h2 := sq_nonneg (q 2); have h3 := sq_nonneg (q 3)
  fin_cases i <;> simp at this <;> nlinarith

theorem qnorm_sq (q : Fin 4 → ℝ) : qnorm q ^ 2 = q 0 ^ 2 + q 1 ^ 2 + q 2 ^ 2 + q 3 ^ 2 := by
  unfold qnorm
  rw [Real.sq_sqrt (by positivity)]
  show q 1 ^ 2 + q 2 ^ 2 + q 3 ^ 2 + q 0 ^ 2 = _
  ring

theorem rotApply_ok (q : Fin 4 → ℝ) (hq : q ≠ 0) (v : Fin 3 → ℝ) :
    rotApply (scipyQuat q) v = .ok (rotMatApply (fun i => scipyQuat q i / qnorm q) v) := by
  have := (qnorm_pos q hq).ne'
  unfold qnorm at this ⊢
  unfold rotApply
  rw [if_neg this]

/-- **C91 (rotation).** For every nonzero quaternion stored by orix as `(w, x, y, z)`, the direction computed for a vector `v` is `q v q⁻¹`. -/
theorem C91_rotation (q : Fin 4 → ℝ) (hq : q ≠ 0) (v : Fin 3 → ℝ) :
    ∃ r, rotApply (scipyQuat q) v = .ok r ∧ hamiltonRotate (quat (q 0) (q 1) (q 2) (q 3)) v = quat 0 (r 0) (r 1) (r 2) := by
  refine ⟨_, rotApply_ok q hq v, ?_⟩
  have hnp := qnorm_pos q hq
  have hn2 := qnorm_sq q
  set n := qnorm q
  unfold hamiltonRotate
  have hns : Quaternion.normSq (quat (q 0) (q 1) (q 2) (q 3)) = n ^ 2 := by
    rw [Quaternion.normSq_def', hn2]; rfl
  rw [Quaternion.inv_def, hns]
  ext
  all_goals
    simp [rotMatApply, scipyQuat]
    field_simp
    ring

/-- **C91 (crystal frame).** The three crystal directions of an orientation are unit vectors, pairwise orthogonal, and right-handed. -/
theorem C91_frame (q : Fin 4 → ℝ) (hq : q ≠ 0) :
    ∃ D, grainDirections q = .ok D ∧ (∀ a b, ∑ c, D a c * D b c = if a = b then 1 else 0) ∧ (Matrix.of D).det = 1 := by
  refine ⟨![_, _, _], by unfold grainDirections; rw [rotApply_ok q hq, rotApply_ok q hq, rotApply_ok q hq]; rfl, ?_, ?_⟩
  all_goals
    have hnp := qnorm_pos q hq
    have hn2 := qnorm_sq q
    set n := qnorm q
  · have h4 : n ^ 4 = (q 0 ^ 2 + q 1 ^ 2 + q 2 ^ 2 + q 3 ^ 2) ^ 2 := by rw [← hn2]; ring
    intro a b
    rw [Fin.sum_univ_three]
    fin_cases a <;> fin_cases b <;> simp [rotMatApply, scipyQuat] <;> field_simp <;> (try rw [h4]) <;> ring
  · have h6 : n ^ 6 = (q 0 ^ 2 + q 1 ^ 2 + q 2 ^ 2 + q 3 ^ 2) ^ 3 := by rw [← hn2]; ring
    rw [Matrix.det_fin_three]
    simp [rotMatApply, scipyQuat]
    field_simp
    rw [h6]
    ring

/-- **C91 (representation).** A quaternion and any nonzero multiple of it (in particular `-q`) give the same directions. -/
theorem C91_scale (q : Fin 4 → ℝ) (hq : q ≠ 0) (s : ℝ) (hs : s ≠ 0) : grainDirections (fun i => s * q i) = grainDirections q := by
  have hq' : (fun i => s * q i) ≠ 0 := by
    intro h; apply hq; funext i
    have := congrFun h i
    simpa [hs] using this
  have hn : qnorm (fun i => s * q i) = |s| * qnorm q := by
    have h1 := qnorm_sq fun i => s * q i
    have h2 := qnorm_sq q
    have : qnorm (fun i => s * q i) ^ 2 = (|s| * qnorm q) ^ 2 := by rw [mul_pow |s|, h1, h2, sq_abs]; ring
    exact (pow_left_inj₀ (qnorm_pos _ hq').le (mul_nonneg (abs_nonneg s) (qnorm_pos q hq).le) two_ne_zero).mp this
  have hnp := qnorm_pos q hq
  have key : ∀ v, rotApply (scipyQuat fun i => s * q i) v = rotApply (scipyQuat q) v := by
    intro v
    rw [rotApply_ok _ hq', rotApply_ok _ hq, hn]
    congr 1
    rcases abs_choice s with h | h
    · rw [h]
      congr 1
      funext i
      fin_cases i <;> simp [scipyQuat] <;> field_simp
    · rw [h]
      have : (fun i => scipyQuat (fun i => s * q i) i / (-s * qnorm q)) = fun i => -(scipyQuat q i / qnorm q) := by
        funext i
        fin_cases i <;> simp [scipyQuat] <;> field_simp
      rw [this]
      funext i
      fin_cases i <;> simp [rotMatApply]
  unfold grainDirections
  rw [key, key, key]

/-- **C91 (zero quaternion).** It raises. -/
theorem C91_zero : ∃ e, grainDirections 0 = .error e := by
  refine ⟨"ValueError: Found zero norm quaternions", ?_⟩
  unfold grainDirections rotApply
  simp [scipyQuat, bind, Except.bind]

/-- Instance: the quarter turn about `z`, `(w, x, y, z) = (1, 0, 0, 1)`, sends the x axis to the y axis. -/
example : rotApply (scipyQuat ![1, 0, 0, 1]) ![1, 0, 0] = .ok ![0, 1, 0] := by
  have hq : (![1, 0, 0, 1] : Fin 4 → ℝ) ≠ 0 := by intro h; have := congrFun h 0; simp at this
  have hn2 := qnorm_sq ![1, 0, 0, 1]
  have hnp := qnorm_pos _ hq
  rw [rotApply_ok _ hq]
  set n := qnorm ![1, 0, 0, 1]
  simp at hn2
  congr 1
  funext i
  fin_cases i <;> simp [rotMatApply, scipyQuat]
  field_simp
  linarith

end Verif.PhaseField
