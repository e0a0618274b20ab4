import Verif.Cfd.MeshModel
import Verif.Mesh.Lemmas

/-!
# C05: neighbour tables and boundary faces of the finite-volume meshes
-/
namespace Verif.Cfd
open Verif Verif.Mesh

/-! ## Specification -/

/-- Number of cell `(i, j, k)`. -/
def no3 (Ny Nz : ℕ) (c : ℕ × ℕ × ℕ) : ℕ := (c.1 * Ny + c.2.1) * Nz + c.2.2

/-- `c` is a cell of the grid. -/
def InGrid (Nx Ny Nz : ℕ) (c : ℕ × ℕ × ℕ) : Prop := c.1 < Nx ∧ c.2.1 < Ny ∧ c.2.2 < Nz

/-- The cell across side `s` (x-, x+, y-, y+, z-, z+), if there is one. -/
def across (Nx Ny Nz : ℕ) (c : ℕ × ℕ × ℕ) : Fin 6 → Option (ℕ × ℕ × ℕ)
  | 0 => if c.1 = 0 then none else some (c.1 - 1, c.2.1, c.2.2)
  | 1 => if c.1 + 1 < Nx then some (c.1 + 1, c.2.1, c.2.2) else none
  | 2 => if c.2.1 = 0 then none else some (c.1, c.2.1 - 1, c.2.2)
  | 3 => if c.2.1 + 1 < Ny then some (c.1, c.2.1 + 1, c.2.2) else none
  | 4 => if c.2.2 = 0 then none else some (c.1, c.2.1, c.2.2 - 1)
  | 5 => if c.2.2 + 1 < Nz then some (c.1, c.2.1, c.2.2 + 1) else none

/-- The opposite side. -/
def opp : Fin 6 → Fin 6 := ![1, 0, 3, 2, 5, 4]

theorem padIdx_mid {n i : ℕ} (h : i < n) : padIdx n (i + 1) = i := by
  unfold padIdx; rw [if_neg (by omega), if_pos (by omega)]; omega

theorem padIdx_low (n i : ℕ) (h : i < n) : padIdx n i = if i = 0 then 0 else i - 1 := by
  unfold padIdx; split_ifs <;> omega

theorem padIdx_high (n i : ℕ) (h : i < n) : padIdx n (i + 2) = if i + 1 < n then i + 1 else i := by
  have h2 : ¬ (i + 2 = 0) := by omega
  unfold padIdx
  rw [if_neg h2]
  by_cases h1 : i + 1 < n
  · rw [if_pos h1, if_pos (show i + 2 ≤ n by omega)]; rfl
  · rw [if_neg h1, if_neg (show ¬ i + 2 ≤ n by omega)]; omega

theorem conn3_get (Nx Ny Nz : ℕ) {i j k : ℕ} (hi : i < Nx) (hj : j < Ny) (hk : k < Nz) :
    (cellConn3 Nx Ny Nz).get ((i * Ny + j) * Nz + k) =
      ![(i * Ny + j) * Nz + k,
        ((if i = 0 then 0 else i - 1) * Ny + j) * Nz + k,
        ((if i + 1 < Nx then i + 1 else i) * Ny + j) * Nz + k,
        (i * Ny + (if j = 0 then 0 else j - 1)) * Nz + k,
        (i * Ny + (if j + 1 < Ny then j + 1 else j)) * Nz + k,
        (i * Ny + j) * Nz + (if k = 0 then 0 else k - 1),
        (i * Ny + j) * Nz + (if k + 1 < Nz then k + 1 else k)] := by
  have h := Arr3.flatten_get (Arr3.stack ![slice3 1 1 1 (pad3 (cellIdx3 Nx Ny Nz)), slice3 0 1 1 (pad3 (cellIdx3 Nx Ny Nz)),
    slice3 2 1 1 (pad3 (cellIdx3 Nx Ny Nz)), slice3 1 0 1 (pad3 (cellIdx3 Nx Ny Nz)), slice3 1 2 1 (pad3 (cellIdx3 Nx Ny Nz)),
    slice3 1 1 0 (pad3 (cellIdx3 Nx Ny Nz)), slice3 1 1 2 (pad3 (cellIdx3 Nx Ny Nz))])
    (i := i) (j := j) (k := k) hj hk
  refine h.trans ?_
  funext a
  have e0 := padIdx_mid hi
  have e1 := padIdx_mid hj
  have e2 := padIdx_mid hk
  have l0 := padIdx_low _ _ hi
  have l1 := padIdx_low _ _ hj
  have l2 := padIdx_low _ _ hk
  have u0 := padIdx_high _ _ hi
  have u1 := padIdx_high _ _ hj
  have u2 := padIdx_high _ _ hk
  fin_cases a
  · show (padIdx Nx (i + 1) * Ny + padIdx Ny (j + 1)) * Nz + padIdx Nz (k + 1) = _
    rw [e0, e1, e2]; rfl
  · show (padIdx Nx i * Ny + padIdx Ny (j + 1)) * Nz + padIdx Nz (k + 1) = _
    rw [l0, e1, e2]; rfl
  · show (padIdx Nx (i + 2) * Ny + padIdx Ny (j + 1)) * Nz + padIdx Nz (k + 1) = _
    rw [u0, e1, e2]; rfl
  · show (padIdx Nx (i + 1) * Ny + padIdx Ny j) * Nz + padIdx Nz (k + 1) = _
    rw [e0, l1, e2]; rfl
  · show (padIdx Nx (i + 1) * Ny + padIdx Ny (j + 2)) * Nz + padIdx Nz (k + 1) = _
    rw [e0, u1, e2]; rfl
  · show (padIdx Nx (i + 1) * Ny + padIdx Ny (j + 1)) * Nz + padIdx Nz k = _
    rw [e0, e1, l2]; rfl
  · show (padIdx Nx (i + 1) * Ny + padIdx Ny (j + 1)) * Nz + padIdx Nz (k + 2) = _
    rw [e0, e1, u2]; rfl

/-- **C05 (neighbour table, 3-d).** For every grid and cell the row is the cell itself followed by the cells across its six sides, the cell itself standing in for a
missing neighbour. -/
theorem C05_conn3 (Nx Ny Nz : ℕ) (c : ℕ × ℕ × ℕ) (hc : InGrid Nx Ny Nz c) :
    (cellConn3 Nx Ny Nz).n = Nx * Ny * Nz ∧
    (cellConn3 Nx Ny Nz).get (no3 Ny Nz c) 0 = no3 Ny Nz c ∧
    ∀ s : Fin 6, (cellConn3 Nx Ny Nz).get (no3 Ny Nz c) s.succ =
      match across Nx Ny Nz c s with
      | some c' => no3 Ny Nz c'
      | none => no3 Ny Nz c := by
  obtain ⟨i, j, k⟩ := c
  obtain ⟨hi, hj, hk⟩ := hc
  refine ⟨rfl, ?_, ?_⟩
  · simp only [no3]; rw [conn3_get Nx Ny Nz hi hj hk]; rfl
  · intro s
    simp only [no3]
    rw [conn3_get Nx Ny Nz hi hj hk]
    fin_cases s
    · show ((if i = 0 then 0 else i - 1) * Ny + j) * Nz + k = match (if i = 0 then none else some (i - 1, j, k)) with
        | some c' => (c'.1 * Ny + c'.2.1) * Nz + c'.2.2
        | none => (i * Ny + j) * Nz + k
      by_cases h : i = 0 <;> simp [h]
    · show ((if i + 1 < Nx then i + 1 else i) * Ny + j) * Nz + k = match (if i + 1 < Nx then some (i + 1, j, k) else none) with
        | some c' => (c'.1 * Ny + c'.2.1) * Nz + c'.2.2
        | none => (i * Ny + j) * Nz + k
      by_cases h : i + 1 < Nx <;> simp [h]
    · show (i * Ny + (if j = 0 then 0 else j - 1)) * Nz + k = match (if j = 0 then none else some (i, j - 1, k)) with
        | some c' => (c'.1 * Ny + c'.2.1) * Nz + c'.2.2
        | none => (i * Ny + j) * Nz + k
      by_cases h : j = 0 <;> simp [h]
    · show (i * Ny + (if j + 1 < Ny then j + 1 else j)) * Nz + k = match (if j + 1 < Ny then some (i, j + 1, k) else none) with
        | some c' => (c'.1 * Ny + c'.2.1) * Nz + c'.2.2
        | none => (i * Ny + j) * Nz + k
      by_cases h : j + 1 < Ny <;> simp [h]
    · show (i * Ny + j) * Nz + (if k = 0 then 0 else k - 1) = match (if k = 0 then none else some (i, j, k - 1)) with
        | some c' => (c'.1 * Ny + c'.2.1) * Nz + c'.2.2
        | none => (i * Ny + j) * Nz + k
      by_cases h : k = 0 <;> simp [h]
    · show (i * Ny + j) * Nz + (if k + 1 < Nz then k + 1 else k) = match (if k + 1 < Nz then some (i, j, k + 1) else none) with
        | some c' => (c'.1 * Ny + c'.2.1) * Nz + c'.2.2
        | none => (i * Ny + j) * Nz + k
      by_cases h : k + 1 < Nz <;> simp [h]

theorem across_spec (Nx Ny Nz : ℕ) (c c' : ℕ × ℕ × ℕ) (s : Fin 6) (hc : InGrid Nx Ny Nz c)
    (h : across Nx Ny Nz c s = some c') :
    InGrid Nx Ny Nz c' ∧ across Nx Ny Nz c' (opp s) = some c := by
  obtain ⟨i, j, k⟩ := c
  obtain ⟨hi, hj, hk⟩ := hc
  simp only at hi hj hk
  fin_cases s <;> simp [across] at h <;> obtain ⟨h1, rfl⟩ := h <;>
    refine ⟨⟨?_, ?_, ?_⟩, ?_⟩ <;> simp [across, opp] <;> omega

/-- **C05 (symmetry).** Walking across a side and back across the opposite one returns to the cell. -/
theorem C05_conn3_symmetric (Nx Ny Nz : ℕ) (c c' : ℕ × ℕ × ℕ) (s : Fin 6) (hc : InGrid Nx Ny Nz c)
    (hc' : InGrid Nx Ny Nz c') (hne : c' ≠ c)
    (h : (cellConn3 Nx Ny Nz).get (no3 Ny Nz c) s.succ = no3 Ny Nz c') :
    (cellConn3 Nx Ny Nz).get (no3 Ny Nz c') (opp s).succ = no3 Ny Nz c := by
  have inj : ∀ {a b}, InGrid Nx Ny Nz a → InGrid Nx Ny Nz b → no3 Ny Nz a = no3 Ny Nz b → a = b := by
    intro a b ha hb hab
    have := idx3_inj ha.2.1 ha.2.2 hb.2.1 hb.2.2 hab
    exact Prod.ext this.1 (Prod.ext this.2.1 this.2.2)
  rw [(C05_conn3 Nx Ny Nz c hc).2.2 s] at h
  rw [(C05_conn3 Nx Ny Nz c' hc').2.2 (opp s)]
  cases hx : across Nx Ny Nz c s with
  | none => rw [hx] at h; exact absurd (inj hc hc' h).symm hne
  | some d =>
    rw [hx] at h
    obtain ⟨hd, ho⟩ := across_spec Nx Ny Nz c d s hc hx
    have := inj hd hc' h
    subst this
    rw [ho]

/-- Instance: the two cells of a 2×1×1 grid. -/
example : InGrid 2 1 1 (0, 0, 0) ∧ InGrid 2 1 1 (1, 0, 0) ∧
    (cellConn3 2 1 1).get (no3 1 1 (0, 0, 0)) (Fin.succ 1) = no3 1 1 (1, 0, 0) := by
  refine ⟨⟨by decide, by decide, by decide⟩, ⟨by decide, by decide, by decide⟩, by decide⟩

/-! ### Boundary faces -/

theorem getElem?_flatten2 {α : Type*} (a : Arr2 α) (t : ℕ) (h : t < a.n0 * a.n1) :
    a.flatten.toList[t]? = some (a.get (t / a.n1) (t % a.n1)) := by
  simp only [Arr1.toList, List.getElem?_map]
  rw [List.getElem?_range (show t < a.flatten.n from h)]
  rfl

theorem length_flatten2 {α : Type*} (a : Arr2 α) : a.flatten.toList.length = a.n0 * a.n1 := by
  simp [Arr1.toList, Arr2.flatten]

/-- Entry `t` of block `s` in a concatenation of six lists. -/
theorem block6 {α : Type*} (b : Fin 6 → List α) (n : Fin 6 → ℕ) (hn : ∀ s, (b s).length = n s)
    (off : Fin 6 → ℕ) (h0 : off 0 = 0) (h1 : off 1 = n 0) (h2 : off 2 = n 0 + n 1)
    (h3 : off 3 = n 0 + n 1 + n 2) (h4 : off 4 = n 0 + n 1 + n 2 + n 3)
    (h5 : off 5 = n 0 + n 1 + n 2 + n 3 + n 4) (s : Fin 6) (t : ℕ) (ht : t < n s) :
    (b 0 ++ b 1 ++ b 2 ++ b 3 ++ b 4 ++ b 5)[off s + t]? = (b s)[t]? := by
  have l0 := hn 0
  have l1 := hn 1
  have l2 := hn 2
  have l3 := hn 3
  have l4 := hn 4
  have l5 := hn 5
  have : ∀ (x y : ℕ), x = y → ∀ l : List α, l[x]? = l[y]? := by rintro x y rfl l; rfl
  fin_cases s
  · simp only [Fin.zero_eta] at ht ⊢
    rw [List.getElem?_append_left (by simp only [List.length_append]; omega),
      List.getElem?_append_left (by simp only [List.length_append]; omega),
      List.getElem?_append_left (by simp only [List.length_append]; omega),
      List.getElem?_append_left (by simp only [List.length_append]; omega),
      List.getElem?_append_left (by omega)]
    exact this _ _ (by omega) _
  · change t < n 1 at ht
    change (b 0 ++ b 1 ++ b 2 ++ b 3 ++ b 4 ++ b 5)[off 1 + t]? = (b 1)[t]?
    rw [List.getElem?_append_left (by simp only [List.length_append]; omega),
      List.getElem?_append_left (by simp only [List.length_append]; omega),
      List.getElem?_append_left (by simp only [List.length_append]; omega),
      List.getElem?_append_left (by simp only [List.length_append]; omega),
      List.getElem?_append_right (by omega)]
    exact this _ _ (by omega) _
  · change t < n 2 at ht
    change (b 0 ++ b 1 ++ b 2 ++ b 3 ++ b 4 ++ b 5)[off 2 + t]? = (b 2)[t]?
    rw [List.getElem?_append_left (by simp only [List.length_append]; omega),
      List.getElem?_append_left (by simp only [List.length_append]; omega),
      List.getElem?_append_left (by simp only [List.length_append]; omega),
      List.getElem?_append_right (by simp only [List.length_append]; omega)]
    exact this _ _ (by simp only [List.length_append]; omega) _
  · change t < n 3 at ht
    change (b 0 ++ b 1 ++ b 2 ++ b 3 ++ b 4 ++ b 5)[off 3 + t]? = (b 3)[t]?
    rw [List.getElem?_append_left (by simp only [List.length_append]; omega),
      List.getElem?_append_left (by simp only [List.length_append]; omega),
      List.getElem?_append_right (by simp only [List.length_append]; omega)]
    exact this _ _ (by simp only [List.length_append]; omega) _
  · change t < n 4 at ht
    change (b 0 ++ b 1 ++ b 2 ++ b 3 ++ b 4 ++ b 5)[off 4 + t]? = (b 4)[t]?
    rw [List.getElem?_append_left (by simp only [List.length_append]; omega),
      List.getElem?_append_right (by simp only [List.length_append]; omega)]
    exact this _ _ (by simp only [List.length_append]; omega) _
  · change t < n 5 at ht
    change (b 0 ++ b 1 ++ b 2 ++ b 3 ++ b 4 ++ b 5)[off 5 + t]? = (b 5)[t]?
    rw [List.getElem?_append_right (by simp only [List.length_append]; omega)]
    exact this _ _ (by simp only [List.length_append]; omega) _

/-- Position on side `s` of the cell with in-plane indices `a, b`. -/
def sideCoord (Nx Ny Nz : ℕ) (a b : ℕ) : Fin 6 → ℕ × ℕ × ℕ :=
  ![(0, a, b), (Nx - 1, a, b), (a, 0, b), (a, Ny - 1, b), (a, b, 0), (a, b, Nz - 1)]

/-- Extents of the in-plane indices of side `s`. -/
def ext0 (Nx Ny : ℕ) : Fin 6 → ℕ := ![Ny, Ny, Nx, Nx, Nx, Nx]
def ext1 (Ny Nz : ℕ) : Fin 6 → ℕ := ![Nz, Nz, Nz, Nz, Ny, Ny]

theorem side_get (Nx Ny Nz : ℕ) (s : Fin 6) : (sideCells3 Nx Ny Nz s).n0 = ext0 Nx Ny s ∧
    (sideCells3 Nx Ny Nz s).n1 = ext1 Ny Nz s ∧
    ∀ a b, (sideCells3 Nx Ny Nz s).get a b = no3 Ny Nz (sideCoord Nx Ny Nz a b s) := by
  fin_cases s <;> exact ⟨rfl, rfl, fun _ _ => rfl⟩

theorem num_ext (Nx Ny Nz : ℕ) (s : Fin 6) : surfSetNum3 Nx Ny Nz s = ext0 Nx Ny s * ext1 Ny Nz s := by
  fin_cases s <;> first | rfl | exact Nat.mul_comm _ _

theorem start_spec (Nx Ny Nz : ℕ) : let n := surfSetNum3 Nx Ny Nz; let off := surfStart3 Nx Ny Nz
    off 0 = 0 ∧ off 1 = n 0 ∧ off 2 = n 0 + n 1 ∧ off 3 = n 0 + n 1 + n 2 ∧ off 4 = n 0 + n 1 + n 2 + n 3 ∧
    off 5 = n 0 + n 1 + n 2 + n 3 + n 4 := by
  intro n off
  refine ⟨rfl, rfl, ?_, ?_, ?_, ?_⟩
  · show Ny * Nz * 2 = Ny * Nz + Ny * Nz; ring
  · show Ny * Nz * 2 + Nx * Nz = Ny * Nz + Ny * Nz + Nx * Nz; ring
  · show Ny * Nz * 2 + Nx * Nz * 2 = Ny * Nz + Ny * Nz + Nx * Nz + Nx * Nz; ring
  · show Ny * Nz * 2 + Nx * Nz * 2 + Nx * Ny = Ny * Nz + Ny * Nz + Nx * Nz + Nx * Nz + Ny * Nx; ring

theorem sideCoord_spec (Nx Ny Nz : ℕ) (hx : 0 < Nx) (hy : 0 < Ny) (hz : 0 < Nz) (s : Fin 6) (c : ℕ × ℕ × ℕ) :
    (InGrid Nx Ny Nz c ∧ across Nx Ny Nz c s = none) ↔
      ∃ a b, a < ext0 Nx Ny s ∧ b < ext1 Ny Nz s ∧ c = sideCoord Nx Ny Nz a b s := by
  obtain ⟨i, j, k⟩ := c
  unfold InGrid
  fin_cases s
  · show ((i < Nx ∧ j < Ny ∧ k < Nz) ∧ (if i = 0 then none else some (i - 1, j, k)) = none) ↔
      ∃ a b, a < Ny ∧ b < Nz ∧ (i, j, k) = (0, a, b)
    constructor
    · rintro ⟨h, h'⟩; exact ⟨j, k, h.2.1, h.2.2, by simpa using h'⟩
    · rintro ⟨a, b, ha, hb, h⟩; simp only [Prod.mk.injEq] at h; simp; omega
  · show ((i < Nx ∧ j < Ny ∧ k < Nz) ∧ (if i + 1 < Nx then some (i + 1, j, k) else none) = none) ↔
      ∃ a b, a < Ny ∧ b < Nz ∧ (i, j, k) = (Nx - 1, a, b)
    constructor
    · rintro ⟨h, h'⟩; refine ⟨j, k, h.2.1, h.2.2, ?_⟩; simp at h' ⊢; omega
    · rintro ⟨a, b, ha, hb, h⟩; simp only [Prod.mk.injEq] at h; simp; omega
  · show ((i < Nx ∧ j < Ny ∧ k < Nz) ∧ (if j = 0 then none else some (i, j - 1, k)) = none) ↔
      ∃ a b, a < Nx ∧ b < Nz ∧ (i, j, k) = (a, 0, b)
    constructor
    · rintro ⟨h, h'⟩; exact ⟨i, k, h.1, h.2.2, by simpa using h'⟩
    · rintro ⟨a, b, ha, hb, h⟩; simp only [Prod.mk.injEq] at h; simp; omega
  · show ((i < Nx ∧ j < Ny ∧ k < Nz) ∧ (if j + 1 < Ny then some (i, j + 1, k) else none) = none) ↔
      ∃ a b, a < Nx ∧ b < Nz ∧ (i, j, k) = (a, Ny - 1, b)
    constructor
    · rintro ⟨h, h'⟩; refine ⟨i, k, h.1, h.2.2, ?_⟩; simp at h' ⊢; omega
    · rintro ⟨a, b, ha, hb, h⟩; simp only [Prod.mk.injEq] at h; simp; omega
  · show ((i < Nx ∧ j < Ny ∧ k < Nz) ∧ (if k = 0 then none else some (i, j, k - 1)) = none) ↔
      ∃ a b, a < Nx ∧ b < Ny ∧ (i, j, k) = (a, b, 0)
    constructor
    · rintro ⟨h, h'⟩; exact ⟨i, j, h.1, h.2.1, by simpa using h'⟩
    · rintro ⟨a, b, ha, hb, h⟩; simp only [Prod.mk.injEq] at h; simp; omega
  · show ((i < Nx ∧ j < Ny ∧ k < Nz) ∧ (if k + 1 < Nz then some (i, j, k + 1) else none) = none) ↔
      ∃ a b, a < Nx ∧ b < Ny ∧ (i, j, k) = (a, b, Nz - 1)
    constructor
    · rintro ⟨h, h'⟩; refine ⟨i, j, h.1, h.2.1, ?_⟩; simp at h' ⊢; omega
    · rintro ⟨a, b, ha, hb, h⟩; simp only [Prod.mk.injEq] at h; simp; omega

theorem sideCoord_inj (Nx Ny Nz : ℕ) (s : Fin 6) (a b a' b' : ℕ)
    (h : sideCoord Nx Ny Nz a b s = sideCoord Nx Ny Nz a' b' s) : a = a' ∧ b = b' := by
  fin_cases s <;> simp [sideCoord] at h <;> exact h

theorem surfCell_get (Nx Ny Nz : ℕ) (s : Fin 6) (t : ℕ) (ht : t < surfSetNum3 Nx Ny Nz s) :
    (surfCell3 Nx Ny Nz)[surfStart3 Nx Ny Nz s + t]? =
      some (no3 Ny Nz (sideCoord Nx Ny Nz (t / ext1 Ny Nz s) (t % ext1 Ny Nz s) s)) := by
  obtain ⟨h0, h1, h2, h3, h4, h5⟩ := start_spec Nx Ny Nz
  have hn : ∀ s, ((sideCells3 Nx Ny Nz s).flatten.toList).length = surfSetNum3 Nx Ny Nz s := by
    intro s
    obtain ⟨e0, e1, -⟩ := side_get Nx Ny Nz s
    rw [length_flatten2, e0, e1, num_ext]
  have := block6 (fun s => (sideCells3 Nx Ny Nz s).flatten.toList) _ hn (surfStart3 Nx Ny Nz) h0 h1 h2 h3 h4 h5 s t ht
  refine this.trans ?_
  obtain ⟨e0, e1, e2⟩ := side_get Nx Ny Nz s
  rw [num_ext] at ht
  rw [getElem?_flatten2 _ _ (by rw [e0, e1]; exact ht), e2, e1]

/-- **C05 (boundary faces, 3-d).** The index sets are consecutive ranges of the sizes in `surf_set_num`; on the set of side `s` the recorded orientation is `s`, and
its cells are exactly the cells without a neighbour across side `s`, each once. -/
theorem C05_surf3 (Nx Ny Nz : ℕ) (hx : 0 < Nx) (hy : 0 < Ny) (hz : 0 < Nz) (s : Fin 6) :
    surfEnd3 Nx Ny Nz s = surfStart3 Nx Ny Nz s + surfSetNum3 Nx Ny Nz s ∧
    (∀ t < surfSetNum3 Nx Ny Nz s, (surfOrient3 Nx Ny Nz)[surfStart3 Nx Ny Nz s + t]? = some s) ∧
    (∀ t < surfSetNum3 Nx Ny Nz s, ∃ c, InGrid Nx Ny Nz c ∧ across Nx Ny Nz c s = none ∧
      (surfCell3 Nx Ny Nz)[surfStart3 Nx Ny Nz s + t]? = some (no3 Ny Nz c)) ∧
    (∀ c, InGrid Nx Ny Nz c → across Nx Ny Nz c s = none →
      ∃! t, t < surfSetNum3 Nx Ny Nz s ∧ (surfCell3 Nx Ny Nz)[surfStart3 Nx Ny Nz s + t]? = some (no3 Ny Nz c)) := by
  obtain ⟨h0, h1, h2, h3, h4, h5⟩ := start_spec Nx Ny Nz
  refine ⟨?_, ?_, ?_, ?_⟩
  · fin_cases s
    · show Ny * Nz = 0 + Ny * Nz; ring
    · show Ny * Nz * 2 = Ny * Nz + Ny * Nz; ring
    · rfl
    · show Ny * Nz * 2 + Nx * Nz * 2 = Ny * Nz * 2 + Nx * Nz + Nx * Nz; ring
    · show Ny * Nz * 2 + Nx * Nz * 2 + Nx * Ny = Ny * Nz * 2 + Nx * Nz * 2 + Ny * Nx; ring
    · show Ny * Nz * 2 + Nx * Nz * 2 + Nx * Ny * 2 = Ny * Nz * 2 + Nx * Nz * 2 + Nx * Ny + Ny * Nx; ring
  · intro t ht
    have := block6 (fun s => List.replicate (surfSetNum3 Nx Ny Nz s) s) (surfSetNum3 Nx Ny Nz) (by simp)
      (surfStart3 Nx Ny Nz) h0 h1 h2 h3 h4 h5 s t ht
    refine Eq.trans this ?_
    rw [List.getElem?_replicate, if_pos ht]
  · intro t ht
    refine ⟨_, ?_, ?_, surfCell_get Nx Ny Nz s t ht⟩
    all_goals
      have hpos : 0 < ext1 Ny Nz s := by
        rw [num_ext] at ht
        exact Nat.pos_of_ne_zero (by intro h; rw [h] at ht; simp at ht)
      have := (sideCoord_spec Nx Ny Nz hx hy hz s (sideCoord Nx Ny Nz (t / ext1 Ny Nz s) (t % ext1 Ny Nz s) s)).mpr
        ⟨_, _, by rw [num_ext] at ht; rw [Nat.div_lt_iff_lt_mul hpos]; exact ht, Nat.mod_lt _ hpos, rfl⟩
    · exact this.1
    · exact this.2
  · intro c hc hn
    obtain ⟨a, b, ha, hb, rfl⟩ := (sideCoord_spec Nx Ny Nz hx hy hz s c).mp ⟨hc, hn⟩
    have hlt : a * ext1 Ny Nz s + b < surfSetNum3 Nx Ny Nz s := by rw [num_ext]; exact idx2_lt ha hb
    refine ⟨a * ext1 Ny Nz s + b, ⟨hlt, ?_⟩, ?_⟩
    · rw [surfCell_get _ _ _ _ _ hlt, idx_div _ hb, idx_mod _ hb]
    · rintro t ⟨ht, he⟩
      rw [surfCell_get _ _ _ _ _ ht, Option.some.injEq] at he
      have hpos : 0 < ext1 Ny Nz s := by omega
      have hg := (sideCoord_spec Nx Ny Nz hx hy hz s (sideCoord Nx Ny Nz (t / ext1 Ny Nz s) (t % ext1 Ny Nz s) s)).mpr
        ⟨_, _, by rw [num_ext] at ht; rw [Nat.div_lt_iff_lt_mul hpos]; exact ht, Nat.mod_lt _ hpos, rfl⟩
      have hinj := idx3_inj hg.1.2.1 hg.1.2.2 hc.2.1 hc.2.2 he
      have := sideCoord_inj Nx Ny Nz s _ _ _ _ (Prod.ext hinj.1 (Prod.ext hinj.2.1 hinj.2.2))
      rw [← this.1, ← this.2, Nat.mul_comm]
      exact (Nat.div_add_mod t _).symm

/-- **C05 (nothing else is listed).** The six sets exhaust the face list. -/
theorem C05_surf3_total (Nx Ny Nz : ℕ) : surfStart3 Nx Ny Nz 0 = 0 ∧
    (∀ s : Fin 5, surfStart3 Nx Ny Nz s.succ = surfEnd3 Nx Ny Nz s.castSucc) ∧
    (surfCell3 Nx Ny Nz).length = surfEnd3 Nx Ny Nz 5 ∧ (surfOrient3 Nx Ny Nz).length = surfEnd3 Nx Ny Nz 5 := by
  refine ⟨rfl, ?_, ?_, ?_⟩
  · intro s; fin_cases s <;> rfl
  · have l : ∀ s, (sideCells3 Nx Ny Nz s).flatten.toList.length = ext0 Nx Ny s * ext1 Ny Nz s := by
      intro s
      obtain ⟨e0, e1, -⟩ := side_get Nx Ny Nz s
      rw [length_flatten2, e0, e1]
    show (_ ++ _ ++ _ ++ _ ++ _ ++ _ : List ℕ).length = _
    simp only [List.length_append, l]
    show Ny * Nz + Ny * Nz + Nx * Nz + Nx * Nz + Nx * Ny + Nx * Ny = Ny * Nz * 2 + Nx * Nz * 2 + Nx * Ny * 2
    ring
  · unfold surfOrient3
    simp only [List.length_append, List.length_replicate]
    show Ny * Nz + Ny * Nz + Nx * Nz + Nx * Nz + Ny * Nx + Ny * Nx = Ny * Nz * 2 + Nx * Nz * 2 + Nx * Ny * 2
    ring

/-- Instance: a 3×2×2 grid has positive extents; its x- side has 4 faces. -/
example : surfSetNum3 3 2 2 0 = 4 ∧ (0 : ℕ) < 3 ∧ (0 : ℕ) < 2 := by decide

variable {K : Type*} [Field K] [LinearOrder K] [IsStrictOrderedRing K]

/-- Coordinate of the centre of side `s` of cell `c` in a grid with spacing `d`. -/
def faceCentre (d : Fin 3 → K) (c : ℕ × ℕ × ℕ) (s : Fin 6) : Fin 3 → K := fun a =>
  ((![c.1, c.2.1, c.2.2] a : ℕ) : K) * d a + d a / 2 +
    (if s = 2 * a.1 then -(d a / 2) else if s = 2 * a.1 + 1 then d a / 2 else 0)

theorem Xc3_get (Nx Ny Nz : ℕ) (Lx Ly Lz : K) {i j k : ℕ} (hj : j < Ny) (hk : k < Nz) :
    (Xc3 Nx Ny Nz Lx Ly Lz).get ((i * Ny + j) * Nz + k) =
      ![(i : K) * (Lx / Nx) + Lx / Nx / 2, (j : K) * (Ly / Ny) + Ly / Ny / 2, (k : K) * (Lz / Nz) + Lz / Nz / 2] := by
  let xc : Arr3 K := ⟨Nx, Ny, Nz, fun i j k => ((meshgrid3 (Arr1.linspace 0 Lx (Nx + 1)) (Arr1.linspace 0 Ly (Ny + 1)) (Arr1.linspace 0 Lz (Nz + 1)) 0).get (i + 1) (j + 1) (k + 1) + (meshgrid3 (Arr1.linspace 0 Lx (Nx + 1)) (Arr1.linspace 0 Ly (Ny + 1)) (Arr1.linspace 0 Lz (Nz + 1)) 0).get i (j + 1) (k + 1)) / 2⟩
  let yc : Arr3 K := ⟨Nx, Ny, Nz, fun i j k => ((meshgrid3 (Arr1.linspace 0 Lx (Nx + 1)) (Arr1.linspace 0 Ly (Ny + 1)) (Arr1.linspace 0 Lz (Nz + 1)) 1).get (i + 1) (j + 1) (k + 1) + (meshgrid3 (Arr1.linspace 0 Lx (Nx + 1)) (Arr1.linspace 0 Ly (Ny + 1)) (Arr1.linspace 0 Lz (Nz + 1)) 1).get (i + 1) j (k + 1)) / 2⟩
  let zc : Arr3 K := ⟨Nx, Ny, Nz, fun i j k => ((meshgrid3 (Arr1.linspace 0 Lx (Nx + 1)) (Arr1.linspace 0 Ly (Ny + 1)) (Arr1.linspace 0 Lz (Nz + 1)) 2).get (i + 1) (j + 1) (k + 1) + (meshgrid3 (Arr1.linspace 0 Lx (Nx + 1)) (Arr1.linspace 0 Ly (Ny + 1)) (Arr1.linspace 0 Lz (Nz + 1)) 2).get (i + 1) (j + 1) k) / 2⟩
  have h := Arr3.flatten_get (Arr3.stack ![xc, yc, zc]) (i := i) (j := j) (k := k) hj hk
  refine h.trans ?_
  funext a
  fin_cases a
  · show (0 + ((i + 1 : ℕ) : K) * ((Lx - 0) / (((Nx + 1 : ℕ) : K) - 1)) + (0 + (i : K) * ((Lx - 0) / (((Nx + 1 : ℕ) : K) - 1)))) / 2 = (i : K) * (Lx / Nx) + Lx / Nx / 2
    push_cast; rw [add_sub_cancel_right]; ring
  · show (0 + ((j + 1 : ℕ) : K) * ((Ly - 0) / (((Ny + 1 : ℕ) : K) - 1)) + (0 + (j : K) * ((Ly - 0) / (((Ny + 1 : ℕ) : K) - 1)))) / 2 = (j : K) * (Ly / Ny) + Ly / Ny / 2
    push_cast; rw [add_sub_cancel_right]; ring
  · show (0 + ((k + 1 : ℕ) : K) * ((Lz - 0) / (((Nz + 1 : ℕ) : K) - 1)) + (0 + (k : K) * ((Lz - 0) / (((Nz + 1 : ℕ) : K) - 1)))) / 2 = (k : K) * (Lz / Nz) + Lz / Nz / 2
    push_cast; rw [add_sub_cancel_right]; ring

/-- **C05 (geometry, 3-d).** Cell centres, signs of distances and face areas (`D[s]` and `dS[s]` point the same way), cell volume. -/
theorem C05_geometry3 (Nx Ny Nz : ℕ) (Lx Ly Lz : K) (hx : 0 < Nx) (hy : 0 < Ny) (hz : 0 < Nz)
    (hLx : 0 < Lx) (hLy : 0 < Ly) (hLz : 0 < Lz) :
    let d := dX3 ![Nx, Ny, Nz] ![Lx, Ly, Lz]
    (∀ s, 0 < D3 d s * dS3 d s) ∧ (∀ s, D3 d s * dS3 d s = dV3 d) ∧
    (∀ s, D3 d (opp s) = - D3 d s ∧ dS3 d (opp s) = - dS3 d s) ∧ 0 < dV3 d ∧
    (Nx * Ny * Nz : K) * dV3 d = Lx * Ly * Lz ∧
    ∀ c, InGrid Nx Ny Nz c → ∀ a, (Xc3 Nx Ny Nz Lx Ly Lz).get (no3 Ny Nz c) a =
      ((![c.1, c.2.1, c.2.2] a : ℕ) : K) * d a + d a / 2 := by
  intro d
  have hd0 : d 0 = Lx / Nx := rfl
  have hd1 : d 1 = Ly / Ny := rfl
  have hd2 : d 2 = Lz / Nz := rfl
  have hNx : (0 : K) < Nx := by exact_mod_cast hx
  have hNy : (0 : K) < Ny := by exact_mod_cast hy
  have hNz : (0 : K) < Nz := by exact_mod_cast hz
  have p0 : 0 < d 0 := by rw [hd0]; positivity
  have p1 : 0 < d 1 := by rw [hd1]; positivity
  have p2 : 0 < d 2 := by rw [hd2]; positivity
  have key : ∀ s, D3 d s * dS3 d s = dV3 d := by
    intro s
    fin_cases s
    · show -d 0 * (-d 1 * d 2) = d 0 * d 1 * d 2; ring
    · show d 0 * (d 1 * d 2) = d 0 * d 1 * d 2; ring
    · show -d 1 * (-d 2 * d 0) = d 0 * d 1 * d 2; ring
    · show d 1 * (d 2 * d 0) = d 0 * d 1 * d 2; ring
    · show -d 2 * (-d 0 * d 1) = d 0 * d 1 * d 2; ring
    · show d 2 * (d 0 * d 1) = d 0 * d 1 * d 2; ring
  have pV : 0 < dV3 d := by unfold dV3; positivity
  refine ⟨fun s => by rw [key]; exact pV, key, ?_, pV, ?_, ?_⟩
  · intro s
    fin_cases s <;> refine ⟨?_, ?_⟩
    · show d 0 = - -d 0; ring
    · show d 1 * d 2 = -(-d 1 * d 2); ring
    · show -d 0 = -d 0; ring
    · show -d 1 * d 2 = -(d 1 * d 2); ring
    · show d 1 = - -d 1; ring
    · show d 2 * d 0 = -(-d 2 * d 0); ring
    · show -d 1 = -d 1; ring
    · show -d 2 * d 0 = -(d 2 * d 0); ring
    · show d 2 = - -d 2; ring
    · show d 0 * d 1 = -(-d 0 * d 1); ring
    · show -d 2 = -d 2; ring
    · show -d 0 * d 1 = -(d 0 * d 1); ring
  · show (Nx * Ny * Nz : K) * (d 0 * d 1 * d 2) = _
    rw [hd0, hd1, hd2]; field_simp
  · rintro ⟨i, j, k⟩ ⟨hi, hj, hk⟩ a
    simp only [no3]
    rw [Xc3_get Nx Ny Nz Lx Ly Lz hj hk]
    fin_cases a <;> rfl

/-- Instance for the hypotheses. -/
example : (0 : ℕ) < 4 ∧ (0 : ℚ) < 1 / 2 := by norm_num

/-- **C05 (face centres, 3-d).** Entry `t` of the set of side `s` in `surface` is the centre of side `s` of the cell recorded at the same place in `surf_cell`. -/
theorem C05_face_centres3 (Nx Ny Nz : ℕ) (Lx Ly Lz : K) (hx : 0 < Nx) (hy : 0 < Ny) (hz : 0 < Nz) (s : Fin 6)
    (t : ℕ) (ht : t < surfSetNum3 Nx Ny Nz s) :
    let d := dX3 ![Nx, Ny, Nz] ![Lx, Ly, Lz]
    ∃ c, InGrid Nx Ny Nz c ∧ (surfCell3 Nx Ny Nz)[surfStart3 Nx Ny Nz s + t]? = some (no3 Ny Nz c) ∧
      (surface3 Nx Ny Nz Lx Ly Lz)[surfStart3 Nx Ny Nz s + t]? = some (faceCentre d c s) := by
  intro d
  obtain ⟨h0, h1, h2, h3, h4, h5⟩ := start_spec Nx Ny Nz
  obtain ⟨e0, e1, e2⟩ := side_get Nx Ny Nz s
  have hpos : 0 < ext1 Ny Nz s := by
    rw [num_ext] at ht
    exact Nat.pos_of_ne_zero (by intro h; rw [h] at ht; simp at ht)
  have hg := (sideCoord_spec Nx Ny Nz hx hy hz s (sideCoord Nx Ny Nz (t / ext1 Ny Nz s) (t % ext1 Ny Nz s) s)).mpr
    ⟨_, _, by rw [num_ext] at ht; rw [Nat.div_lt_iff_lt_mul hpos]; exact ht, Nat.mod_lt _ hpos, rfl⟩
  refine ⟨_, hg.1, surfCell_get Nx Ny Nz s t ht, ?_⟩
  have hn : ∀ s, ((sideCells3 Nx Ny Nz s).flatten.toList.map fun n a => (Xc3 Nx Ny Nz Lx Ly Lz).get n a + faceShift3 d s a).length
      = surfSetNum3 Nx Ny Nz s := by
    intro s
    obtain ⟨e0, e1, -⟩ := side_get Nx Ny Nz s
    rw [List.length_map, length_flatten2, e0, e1, num_ext]
  have := block6 (fun s => (sideCells3 Nx Ny Nz s).flatten.toList.map fun n a => (Xc3 Nx Ny Nz Lx Ly Lz).get n a + faceShift3 d s a)
    _ hn (surfStart3 Nx Ny Nz) h0 h1 h2 h3 h4 h5 s t ht
  refine this.trans ?_
  have ht' : t < ext0 Nx Ny s * ext1 Ny Nz s := by rw [← num_ext Nx Ny Nz]; exact ht
  rw [List.getElem?_map, getElem?_flatten2 _ _ (by rw [e0, e1]; exact ht'), e2, e1, Option.map_some]
  congr 1
  funext a
  generalize sideCoord Nx Ny Nz (t / ext1 Ny Nz s) (t % ext1 Ny Nz s) s = c at hg
  obtain ⟨⟨hi, hj, hk⟩, -⟩ := hg
  simp only [no3]
  rw [Xc3_get Nx Ny Nz Lx Ly Lz hj hk]
  unfold faceCentre
  have hX : (![(c.1 : K) * (Lx / Nx) + Lx / Nx / 2, (c.2.1 : K) * (Ly / Ny) + Ly / Ny / 2, (c.2.2 : K) * (Lz / Nz) + Lz / Nz / 2] : Fin 3 → K) a
      = ((![c.1, c.2.1, c.2.2] a : ℕ) : K) * d a + d a / 2 := by
    fin_cases a <;> rfl
  rw [hX]
  congr 1
  fin_cases s <;> fin_cases a <;> rfl

/-! ## mesh2d -/

/-- Number of cell `(i, j)`. -/
def no2 (Ny : ℕ) (c : ℕ × ℕ) : ℕ := c.1 * Ny + c.2

/-- The cell across side `s` (x-, x+, y-, y+), if there is one. -/
def across2 (Nx Ny : ℕ) (c : ℕ × ℕ) : Fin 4 → Option (ℕ × ℕ)
  | 0 => if c.1 = 0 then none else some (c.1 - 1, c.2)
  | 1 => if c.1 + 1 < Nx then some (c.1 + 1, c.2) else none
  | 2 => if c.2 = 0 then none else some (c.1, c.2 - 1)
  | 3 => if c.2 + 1 < Ny then some (c.1, c.2 + 1) else none

/-- **C05 (neighbour table, 2-d).** -/
theorem C05_conn2 (Nx Ny : ℕ) (c : ℕ × ℕ) (h1 : c.1 < Nx) (h2 : c.2 < Ny) :
    (cellConn2 Nx Ny).n = Nx * Ny ∧
    (cellConn2 Nx Ny).get (no2 Ny c) 0 = no2 Ny c ∧
    ∀ s : Fin 4, (cellConn2 Nx Ny).get (no2 Ny c) s.succ =
      match across2 Nx Ny c s with
      | some c' => no2 Ny c'
      | none => no2 Ny c := by
  obtain ⟨i, j⟩ := c
  simp only at h1 h2
  have h := Arr2.flatten_get (Arr2.stack ![slice2 1 1 (pad2 (cellIdx2 Nx Ny)), slice2 0 1 (pad2 (cellIdx2 Nx Ny)),
    slice2 2 1 (pad2 (cellIdx2 Nx Ny)), slice2 1 0 (pad2 (cellIdx2 Nx Ny)), slice2 1 2 (pad2 (cellIdx2 Nx Ny))])
    (i := i) (j := j) h2
  have h' : (cellConn2 Nx Ny).get (i * Ny + j) = _ := h
  simp only [no2]
  refine ⟨rfl, ?_, ?_⟩
  · rw [h']
    show padIdx Nx (i + 1) * Ny + padIdx Ny (j + 1) = _
    rw [padIdx_mid h1, padIdx_mid h2]
  · intro s
    rw [h']
    fin_cases s
    · show padIdx Nx i * Ny + padIdx Ny (j + 1) = match (if i = 0 then none else some (i - 1, j)) with
        | some c' => c'.1 * Ny + c'.2
        | none => i * Ny + j
      rw [padIdx_low _ _ h1, padIdx_mid h2]
      by_cases h : i = 0 <;> simp [h]
    · show padIdx Nx (i + 2) * Ny + padIdx Ny (j + 1) = match (if i + 1 < Nx then some (i + 1, j) else none) with
        | some c' => c'.1 * Ny + c'.2
        | none => i * Ny + j
      rw [padIdx_high _ _ h1, padIdx_mid h2]
      by_cases h : i + 1 < Nx <;> simp [h]
    · show padIdx Nx (i + 1) * Ny + padIdx Ny j = match (if j = 0 then none else some (i, j - 1)) with
        | some c' => c'.1 * Ny + c'.2
        | none => i * Ny + j
      rw [padIdx_low _ _ h2, padIdx_mid h1]
      by_cases h : j = 0 <;> simp [h]
    · show padIdx Nx (i + 1) * Ny + padIdx Ny (j + 2) = match (if j + 1 < Ny then some (i, j + 1) else none) with
        | some c' => c'.1 * Ny + c'.2
        | none => i * Ny + j
      rw [padIdx_high _ _ h2, padIdx_mid h1]
      by_cases h : j + 1 < Ny <;> simp [h]

/-- Position on side `s` of the cell with in-plane index `a`. -/
def sideCoord2 (Nx Ny : ℕ) (a : ℕ) : Fin 4 → ℕ × ℕ := ![(0, a), (Nx - 1, a), (a, 0), (a, Ny - 1)]

theorem length_toList {α : Type*} (a : Arr1 α) : a.toList.length = a.n := by simp [Arr1.toList]

theorem getElem?_toList {α : Type*} (a : Arr1 α) (t : ℕ) (h : t < a.n) : a.toList[t]? = some (a.get t) := by
  simp [Arr1.toList, h]

theorem surfCell2_get (Nx Ny : ℕ) (s : Fin 4) (t : ℕ) (ht : t < surfSetNum2 Nx Ny s) :
    (surfCell2 Nx Ny)[surfStart2 Nx Ny s + t]? = some (no2 Ny (sideCoord2 Nx Ny t s)) ∧
    (surfOrient2 Nx Ny)[surfStart2 Nx Ny s + t]? = some s := by
  have l0 : (sideCells2 Nx Ny 0).toList.length = Ny := length_toList _
  have l1 : (sideCells2 Nx Ny 1).toList.length = Ny := length_toList _
  have l2 : (sideCells2 Nx Ny 2).toList.length = Nx := length_toList _
  have l3 : (sideCells2 Nx Ny 3).toList.length = Nx := length_toList _
  unfold surfCell2 surfOrient2
  fin_cases s
  · change t < Ny at ht
    change (_ : List ℕ)[0 + t]? = some (0 * Ny + t) ∧ (_ : List (Fin 4))[0 + t]? = some 0
    rw [Nat.zero_add]
    constructor
    · rw [List.getElem?_append_left (by simp only [List.length_append]; omega),
        List.getElem?_append_left (by simp only [List.length_append]; omega),
        List.getElem?_append_left (by omega), getElem?_toList _ _ ht]
      rfl
    · rw [List.getElem?_append_left (by simp only [List.length_append, List.length_replicate]; omega),
        List.getElem?_append_left (by simp only [List.length_append, List.length_replicate]; omega),
        List.getElem?_append_left (by simp only [List.length_replicate]; omega), List.getElem?_replicate, if_pos ht]
  · change t < Ny at ht
    change (_ : List ℕ)[Ny + t]? = some ((Nx - 1) * Ny + t) ∧ (_ : List (Fin 4))[Ny + t]? = some 1
    constructor
    · rw [List.getElem?_append_left (by simp only [List.length_append]; omega),
        List.getElem?_append_left (by simp only [List.length_append]; omega),
        List.getElem?_append_right (by omega), l0, Nat.add_sub_cancel_left, getElem?_toList _ _ ht]
      rfl
    · rw [List.getElem?_append_left (by simp only [List.length_append, List.length_replicate]; omega),
        List.getElem?_append_left (by simp only [List.length_append, List.length_replicate]; omega),
        List.getElem?_append_right (by simp only [List.length_replicate]; omega), List.length_replicate,
        Nat.add_sub_cancel_left, List.getElem?_replicate, if_pos ht]
  · change t < Nx at ht
    change (_ : List ℕ)[Ny * 2 + t]? = some (t * Ny + 0) ∧ (_ : List (Fin 4))[Ny * 2 + t]? = some 2
    constructor
    · rw [List.getElem?_append_left (by simp only [List.length_append]; omega),
        List.getElem?_append_right (by simp only [List.length_append]; omega), List.length_append, l0, l1,
        show Ny * 2 + t - (Ny + Ny) = t by omega, getElem?_toList _ _ ht]
      rfl
    · rw [List.getElem?_append_left (by simp only [List.length_append, List.length_replicate]; omega),
        List.getElem?_append_right (by simp only [List.length_append, List.length_replicate]; omega),
        List.length_append, List.length_replicate, List.length_replicate,
        show Ny * 2 + t - (Ny + Ny) = t by omega, List.getElem?_replicate, if_pos ht]
  · change t < Nx at ht
    change (_ : List ℕ)[Ny * 2 + Nx + t]? = some (t * Ny + (Ny - 1)) ∧ (_ : List (Fin 4))[Ny * 2 + Nx + t]? = some 3
    constructor
    · rw [List.getElem?_append_right (by simp only [List.length_append]; omega), List.length_append, List.length_append, l0, l1, l2,
        show Ny * 2 + Nx + t - (Ny + Ny + Nx) = t by omega, getElem?_toList _ _ ht]
      rfl
    · rw [List.getElem?_append_right (by simp only [List.length_append, List.length_replicate]; omega),
        List.length_append, List.length_append, List.length_replicate, List.length_replicate, List.length_replicate,
        show Ny * 2 + Nx + t - (Ny + Ny + Nx) = t by omega, List.getElem?_replicate, if_pos ht]

/-- **C05 (boundary faces, 2-d).** -/
theorem C05_surf2 (Nx Ny : ℕ) (hx : 0 < Nx) (hy : 0 < Ny) (s : Fin 4) :
    surfEnd2 Nx Ny s = surfStart2 Nx Ny s + surfSetNum2 Nx Ny s ∧
    (∀ t < surfSetNum2 Nx Ny s, (surfOrient2 Nx Ny)[surfStart2 Nx Ny s + t]? = some s) ∧
    (∀ t < surfSetNum2 Nx Ny s, ∃ c : ℕ × ℕ, c.1 < Nx ∧ c.2 < Ny ∧ across2 Nx Ny c s = none ∧
      (surfCell2 Nx Ny)[surfStart2 Nx Ny s + t]? = some (no2 Ny c)) ∧
    (∀ c : ℕ × ℕ, c.1 < Nx → c.2 < Ny → across2 Nx Ny c s = none →
      ∃! t, t < surfSetNum2 Nx Ny s ∧ (surfCell2 Nx Ny)[surfStart2 Nx Ny s + t]? = some (no2 Ny c)) := by
  have spec : ∀ c : ℕ × ℕ, (c.1 < Nx ∧ c.2 < Ny ∧ across2 Nx Ny c s = none) ↔
      ∃ a, a < surfSetNum2 Nx Ny s ∧ c = sideCoord2 Nx Ny a s := by
    rintro ⟨i, j⟩
    fin_cases s
    · show (i < Nx ∧ j < Ny ∧ (if i = 0 then none else some (i - 1, j)) = none) ↔ ∃ a, a < Ny ∧ (i, j) = (0, a)
      constructor
      · rintro ⟨h1, h2, h3⟩; exact ⟨j, h2, by simpa using h3⟩
      · rintro ⟨a, ha, h⟩; simp only [Prod.mk.injEq] at h; simp; omega
    · show (i < Nx ∧ j < Ny ∧ (if i + 1 < Nx then some (i + 1, j) else none) = none) ↔ ∃ a, a < Ny ∧ (i, j) = (Nx - 1, a)
      constructor
      · rintro ⟨h1, h2, h3⟩; refine ⟨j, h2, ?_⟩; simp at h3 ⊢; omega
      · rintro ⟨a, ha, h⟩; simp only [Prod.mk.injEq] at h; simp; omega
    · show (i < Nx ∧ j < Ny ∧ (if j = 0 then none else some (i, j - 1)) = none) ↔ ∃ a, a < Nx ∧ (i, j) = (a, 0)
      constructor
      · rintro ⟨h1, h2, h3⟩; exact ⟨i, h1, by simpa using h3⟩
      · rintro ⟨a, ha, h⟩; simp only [Prod.mk.injEq] at h; simp; omega
    · show (i < Nx ∧ j < Ny ∧ (if j + 1 < Ny then some (i, j + 1) else none) = none) ↔ ∃ a, a < Nx ∧ (i, j) = (a, Ny - 1)
      constructor
      · rintro ⟨h1, h2, h3⟩; refine ⟨i, h1, ?_⟩; simp at h3 ⊢; omega
      · rintro ⟨a, ha, h⟩; simp only [Prod.mk.injEq] at h; simp; omega
  have inj : ∀ a b, sideCoord2 Nx Ny a s = sideCoord2 Nx Ny b s → a = b := by
    intro a b h
    fin_cases s <;> simp [sideCoord2] at h <;> exact h
  refine ⟨?_, fun t ht => (surfCell2_get Nx Ny s t ht).2, ?_, ?_⟩
  · fin_cases s
    · show Ny = 0 + Ny; ring
    · show Ny * 2 = Ny + Ny; ring
    · rfl
    · show Ny * 2 + Nx * 2 = Ny * 2 + Nx + Nx; ring
  · intro t ht
    have := (spec _).mpr ⟨t, ht, rfl⟩
    exact ⟨_, this.1, this.2.1, this.2.2, (surfCell2_get Nx Ny s t ht).1⟩
  · intro c h1 h2 h3
    obtain ⟨a, ha, rfl⟩ := (spec c).mp ⟨h1, h2, h3⟩
    refine ⟨a, ⟨ha, (surfCell2_get Nx Ny s a ha).1⟩, ?_⟩
    rintro t ⟨ht, he⟩
    rw [(surfCell2_get Nx Ny s t ht).1, Option.some.injEq] at he
    have hg := (spec _).mpr ⟨t, ht, rfl⟩
    have := idx_inj hg.2.1 h2 he
    exact inj _ _ (Prod.ext this.1 this.2)

/-- **C05 (nothing else is listed, 2-d).** -/
theorem C05_surf2_total (Nx Ny : ℕ) : surfStart2 Nx Ny 0 = 0 ∧
    (∀ s : Fin 3, surfStart2 Nx Ny s.succ = surfEnd2 Nx Ny s.castSucc) ∧
    (surfCell2 Nx Ny).length = surfEnd2 Nx Ny 3 ∧ (surfOrient2 Nx Ny).length = surfEnd2 Nx Ny 3 := by
  refine ⟨rfl, ?_, ?_, ?_⟩
  · intro s; fin_cases s <;> rfl
  · show (_ ++ _ ++ _ ++ _ : List ℕ).length = _
    simp only [List.length_append, length_toList]
    show Ny + Ny + Nx + Nx = Ny * 2 + Nx * 2
    ring
  · unfold surfOrient2
    simp only [List.length_append, List.length_replicate]
    show Ny + Ny + Nx + Nx = Ny * 2 + Nx * 2
    ring

/-- **C05 (geometry, 2-d).** Distances and face lengths point the same way on every side and their product is the cell area. -/
theorem C05_geometry2 (d : Fin 2 → K) (h0 : 0 < d 0) (h1 : 0 < d 1) (s : Fin 4) :
    D2 d s * dS2 d s = d 0 * d 1 ∧ 0 < D2 d s * dS2 d s ∧ D2 d (![1, 0, 3, 2] s) = - D2 d s ∧
      dS2 d (![1, 0, 3, 2] s) = - dS2 d s := by
  have p : 0 < d 0 * d 1 := mul_pos h0 h1
  have key : D2 d s * dS2 d s = d 0 * d 1 := by
    fin_cases s
    · show -d 0 * -d 1 = _; ring
    · show d 0 * d 1 = _; ring
    · show -d 1 * -d 0 = _; ring
    · show d 1 * d 0 = _; ring
  refine ⟨key, by rw [key]; exact p, ?_, ?_⟩
  · fin_cases s
    · show d 0 = - -d 0; ring
    · show -d 0 = -d 0; ring
    · show d 1 = - -d 1; ring
    · show -d 1 = -d 1; ring
  · fin_cases s
    · show d 1 = - -d 1; ring
    · show -d 1 = -d 1; ring
    · show d 0 = - -d 0; ring
    · show -d 0 = -d 0; ring

example : (0 : ℚ) < (![1 / 2, 1 / 3] : Fin 2 → ℚ) 0 ∧ (0 : ℚ) < (![1 / 2, 1 / 3] : Fin 2 → ℚ) 1 := by norm_num

end Verif.Cfd
