import Verif.Base.Tactics
import Mathlib.Data.Fin.VecNotation
import Mathlib.Algebra.Field.Basic
import Mathlib.Algebra.BigOperators.Fin
import Mathlib.Data.List.GetD

/-!
# Renumbering of cylinder meshes (C07) and stacking of layers (C08)
-/
namespace Verif.Mesh

/-! ## C07: `cylinder_mesh` renumbering (jax_am/fem/generate_mesh.py 224-226) -/

/-- `onp.vstack((points[1:14], points[15:]))` (generate_mesh.py 225). -/
def cylPoints {α : Type*} (points : List α) : List α := (points.take 14).drop 1 ++ points.drop 15

/-- `onp.where(cells > 14, cells - 2, cells - 1)` on one entry (generate_mesh.py 226). -/
def cylCell (c : ℤ) : ℤ := if c > 14 then c - 2 else c - 1

/-- numpy indexing with a possibly negative index. -/
def npGet {α : Type*} (l : List α) (i : ℤ) : Option α :=
  if 0 ≤ i then l[i.toNat]? else if 0 ≤ i + l.length then l[(i + l.length).toNat]? else none

/-- **C07.** A connectivity entry other than 0 and 14 refers to the same point after the renumbering, and is in range. -/
theorem C07_renumber {α : Type*} (points : List α) (hl : 15 ≤ points.length) (c : ℤ) (h0 : 0 ≤ c)
    (hc : c < points.length) (hne0 : c ≠ 0) (hne14 : c ≠ 14) :
    npGet (cylPoints points) (cylCell c) = npGet points c ∧
      0 ≤ cylCell c ∧ cylCell c < (cylPoints points).length ∧
      (cylPoints points).length + 2 = points.length := by
  have hlen : (cylPoints points).length + 2 = points.length := by
    simp only [cylPoints, List.length_append, List.length_drop, List.length_take]; omega
  have hr : 0 ≤ cylCell c ∧ cylCell c < (cylPoints points).length := by
    unfold cylCell
    have : ((cylPoints points).length : ℤ) + 2 = points.length := by exact_mod_cast hlen
    split_ifs with h <;> constructor <;> omega
  refine ⟨?_, hr.1, hr.2, hlen⟩
  unfold npGet
  rw [if_pos hr.1, if_pos h0]
  unfold cylCell cylPoints
  have hl1 : ((points.take 14).drop 1).length = 13 := by
    simp only [List.length_drop, List.length_take]; omega
  split_ifs with h
  · rw [List.getElem?_append_right (by rw [hl1]; omega), hl1, List.getElem?_drop]
    congr 1; omega
  · rw [List.getElem?_append_left (by rw [hl1]; omega), List.getElem?_drop,
      List.getElem?_take_of_lt (by omega)]
    congr 1; omega

/-- Instance: 16 points, entry 15. -/
example : 15 ≤ (List.range 16).length ∧ (15 : ℤ) < (List.range 16).length := by decide

/-- **C07 (what the precondition protects from).** An entry 14 is silently re-attached to the former point 15, an entry 0 to the last point. -/
theorem C07_dropped_points {α : Type*} (points : List α) (hl : 16 ≤ points.length) :
    npGet (cylPoints points) (cylCell 14) = points[15]? ∧
    npGet (cylPoints points) (cylCell 0) = points[points.length - 1]? := by
  have hl1 : ((points.take 14).drop 1).length = 13 := by
    simp only [List.length_drop, List.length_take]; omega
  have hlen : (cylPoints points).length = points.length - 2 := by
    simp only [cylPoints, List.length_append, List.length_drop, List.length_take]; omega
  constructor
  · have : cylCell 14 = 13 := by decide
    rw [this]
    simp only [npGet, Int.reduceLE, if_true]
    unfold cylPoints
    rw [List.getElem?_append_right (by rw [hl1]; decide), hl1, List.getElem?_drop]
    rfl
  · have : cylCell 0 = -1 := by decide
    rw [this]
    unfold npGet
    rw [if_neg (by decide), if_pos (by rw [hlen]; omega), hlen]
    unfold cylPoints
    rw [List.getElem?_append_right (by rw [hl1]; omega), hl1, List.getElem?_drop]
    congr 1; omega

/-! ## C08: `generate_new_mesh` (jax_am/phase_field/utils.py 151-179) -/
section Layers
variable {K : Type*} [Field K]

/-- The parts of a `Field` object that `generate_new_mesh` uses. -/
structure Poly (K : Type*) where
  points : List (Fin 3 → K)
  cells : List (Fin 8 → ℕ)
  physical : List ℕ
  geometrical : List ℕ
  grain_inds : List ℕ
  cell_ori_inds : List ℕ
  centroids : List (Fin 3 → K)

/-- `a[:, 2] + dz`. -/
def shiftZ (dz : K) (p : Fin 3 → K) : Fin 3 → K := fun i => if i = 2 then p i + dz else p i

/-- `generate_new_mesh` (utils.py 151-179); `next` is the freshly constructed `Field(pf_args, ori2)`. -/
def generateNewMesh (domain_z : K) (next poly : Poly K) (layer : ℕ) : Poly K :=
  let points := next.points.map (shiftZ (domain_z * layer))
  let cells := next.cells.map fun c a => c a + points.length * layer
  let centroids := next.centroids.map (shiftZ (domain_z * layer))
  { points := poly.points ++ points
    cells := poly.cells ++ cells
    physical := poly.physical ++ next.physical
    geometrical := poly.geometrical ++ next.geometrical
    grain_inds := poly.grain_inds ++ next.grain_inds
    cell_ori_inds := poly.cell_ori_inds ++ next.cell_ori_inds
    centroids := poly.centroids ++ centroids }

/-- Use of `generate_new_mesh` for layers `1, 2, ...` in turn (one fresh `Field` per layer). -/
def buildLayers (domain_z : K) (first : Poly K) (nexts : List (Poly K)) : Poly K :=
  (nexts.foldl (fun (st : Poly K × ℕ) nx => (generateNewMesh domain_z nx st.1 st.2, st.2 + 1)) (first, 1)).1

/-- Every `Field` is read from the same neper file: same points, cells, grain numbers; only the (random) orientation of the cells may differ, with one entry per cell. -/
structure SameMesh (a b : Poly K) : Prop where
  points : b.points = a.points
  cells : b.cells = a.cells
  centroids : b.centroids = a.centroids
  physical : b.physical = a.physical
  geometrical : b.geometrical = a.geometrical
  grain_inds : b.grain_inds = a.grain_inds
  ori : b.cell_ori_inds.length = a.cells.length

/-- Specification of a stack of `k+1` layers over the base mesh. -/
structure Stacked (dz : K) (base : Poly K) (oris : ℕ → List ℕ) (k : ℕ) (m : Poly K) : Prop where
  lpoints : m.points.length = (k + 1) * base.points.length
  lcells : m.cells.length = (k + 1) * base.cells.length
  lcent : m.centroids.length = (k + 1) * base.cells.length
  lphys : m.physical.length = (k + 1) * base.cells.length
  lgeom : m.geometrical.length = (k + 1) * base.cells.length
  lgrain : m.grain_inds.length = (k + 1) * base.cells.length
  lori : m.cell_ori_inds.length = (k + 1) * base.cells.length
  point : ∀ l ≤ k, ∀ p < base.points.length,
    m.points[l * base.points.length + p]? = (base.points[p]?).map (shiftZ (dz * l))
  cell : ∀ l ≤ k, ∀ c < base.cells.length,
    m.cells[l * base.cells.length + c]? = (base.cells[c]?).map fun e a => l * base.points.length + e a
  cent : ∀ l ≤ k, ∀ c < base.cells.length,
    m.centroids[l * base.cells.length + c]? = (base.centroids[c]?).map (shiftZ (dz * l))
  grain : ∀ l ≤ k, ∀ c < base.cells.length,
    m.grain_inds[l * base.cells.length + c]? = base.grain_inds[c]? ∧
    m.physical[l * base.cells.length + c]? = base.physical[c]? ∧
    m.geometrical[l * base.cells.length + c]? = base.geometrical[c]?
  ori : ∀ l ≤ k, ∀ c < base.cells.length,
    m.cell_ori_inds[l * base.cells.length + c]? = (oris l)[c]?

/-- per-cell data of the base mesh has one entry per cell. -/
structure Aligned (base : Poly K) : Prop where
  cent : base.centroids.length = base.cells.length
  phys : base.physical.length = base.cells.length
  geom : base.geometrical.length = base.cells.length
  grain : base.grain_inds.length = base.cells.length

theorem append_block {α : Type*} {n k : ℕ} {l b : List α} {g : ℕ → ℕ → Option α}
    (hl : l.length = (k + 1) * n) (h : ∀ i ≤ k, ∀ c < n, l[i * n + c]? = g i c)
    (hb : ∀ c < n, b[c]? = g (k + 1) c) :
    ∀ i ≤ k + 1, ∀ c < n, (l ++ b)[i * n + c]? = g i c := by
  intro i hi c hc
  rcases Nat.lt_or_ge i (k + 1) with h1 | h1
  · have : i * n + c < l.length := by
      rw [hl]
      calc i * n + c < i * n + n := by omega
        _ = (i + 1) * n := by ring
        _ ≤ (k + 1) * n := Nat.mul_le_mul_right _ h1
    rw [List.getElem?_append_left this]
    exact h i (by omega) c hc
  · have : i = k + 1 := by omega
    subst this
    rw [List.getElem?_append_right (by rw [hl]; omega), hl, Nat.add_sub_cancel_left]
    exact hb c hc

theorem stacked_step (dz : K) (base nx : Poly K) (oris : ℕ → List ℕ) (k : ℕ) (m : Poly K)
    (hal : Aligned base) (hs : SameMesh base nx) (ho : oris (k + 1) = nx.cell_ori_inds)
    (h : Stacked dz base oris k m) :
    Stacked dz base oris (k + 1) (generateNewMesh dz nx m (k + 1)) := by
  have e : ∀ n : ℕ, (k + 1 + 1) * n = (k + 1) * n + n := fun n => by ring
  refine ⟨?_, ?_, ?_, ?_, ?_, ?_, ?_, ?_, ?_, ?_, ?_, ?_⟩
  · simp only [generateNewMesh, List.length_append, List.length_map, h.lpoints, hs.points, e]
  · simp only [generateNewMesh, List.length_append, List.length_map, h.lcells, hs.cells, e]
  · simp only [generateNewMesh, List.length_append, List.length_map, h.lcent, hs.centroids, hal.cent, e]
  · simp only [generateNewMesh, List.length_append, h.lphys, hs.physical, hal.phys, e]
  · simp only [generateNewMesh, List.length_append, h.lgeom, hs.geometrical, hal.geom, e]
  · simp only [generateNewMesh, List.length_append, h.lgrain, hs.grain_inds, hal.grain, e]
  · simp only [generateNewMesh, List.length_append, h.lori, hs.ori, e]
  · refine append_block (g := fun l p => (base.points[p]?).map (shiftZ (dz * (l : K)))) h.lpoints h.point ?_
    intro c hc
    rw [List.getElem?_map, hs.points]
  · refine append_block (g := fun l c => (base.cells[c]?).map fun e a => l * base.points.length + e a) h.lcells h.cell ?_
    intro c hc
    rw [List.getElem?_map, hs.cells, List.length_map, hs.points]
    congr 1
    funext e a
    ring
  · refine append_block (g := fun l p => (base.centroids[p]?).map (shiftZ (dz * (l : K)))) h.lcent h.cent ?_
    intro c hc
    rw [List.getElem?_map, hs.centroids]
  · intro l hl c hc
    refine ⟨?_, ?_, ?_⟩
    · refine append_block (g := fun _ c => base.grain_inds[c]?) h.lgrain (fun l hl c hc => (h.grain l hl c hc).1) ?_ l hl c hc
      intro c hc; rw [hs.grain_inds]
    · refine append_block (g := fun _ c => base.physical[c]?) h.lphys (fun l hl c hc => (h.grain l hl c hc).2.1) ?_ l hl c hc
      intro c hc; rw [hs.physical]
    · refine append_block (g := fun _ c => base.geometrical[c]?) h.lgeom (fun l hl c hc => (h.grain l hl c hc).2.2) ?_ l hl c hc
      intro c hc; rw [hs.geometrical]
  · refine append_block (g := fun l c => (oris l)[c]?) h.lori h.ori ?_
    intro c hc
    rw [ho]

theorem stacked_all (dz : K) (base : Poly K) (oris : ℕ → List ℕ) (hal : Aligned base) :
    ∀ (nexts : List (Poly K)) (k : ℕ) (m : Poly K),
      (∀ i, (h : i < nexts.length) → SameMesh base nexts[i] ∧ oris (k + 1 + i) = nexts[i].cell_ori_inds) →
      Stacked dz base oris k m →
      Stacked dz base oris (k + nexts.length)
        (nexts.foldl (fun (st : Poly K × ℕ) nx => (generateNewMesh dz nx st.1 st.2, st.2 + 1)) (m, k + 1)).1 := by
  intro nexts
  induction nexts with
  | nil => intro k m _ h; simpa using h
  | cons a l ih =>
    intro k m hn h
    rw [List.foldl_cons, List.length_cons, show k + (l.length + 1) = (k + 1) + l.length by omega]
    have h0 := hn 0 (by simp)
    refine ih (k + 1) _ ?_ (stacked_step dz base a oris k m hal h0.1 (by simpa using h0.2) h)
    intro i hi
    have := hn (i + 1) (by simpa using hi)
    simp only [List.getElem_cons_succ] at this
    rw [show k + 1 + 1 + i = k + 1 + (i + 1) by omega]
    exact this

/-- **C08.** Layers `0, .., k` built one after another from the same base mesh: lengths, points, cells, centroids and per-cell arrays of the result are those of
`k+1` copies of the base mesh, the copy of layer `l` shifted by `l * domain_z`, with orientation data of its own layer. -/
theorem C08_layers (dz : K) (first : Poly K) (nexts : List (Poly K)) (hal : Aligned first)
    (hori : first.cell_ori_inds.length = first.cells.length) (hs : ∀ nx ∈ nexts, SameMesh first nx) :
    Stacked dz first (fun l => ((first :: nexts).map (·.cell_ori_inds)).getD l []) nexts.length
      (buildLayers dz first nexts) := by
  have h0 : Stacked dz first (fun l => ((first :: nexts).map (·.cell_ori_inds)).getD l []) 0 first := by
    refine ⟨?_, ?_, ?_, ?_, ?_, ?_, ?_, ?_, ?_, ?_, ?_, ?_⟩
    · simp
    · simp
    · simp [hal.cent]
    · simp [hal.phys]
    · simp [hal.geom]
    · simp [hal.grain]
    · simp [hori]
    · intro l hl p hp
      obtain rfl : l = 0 := by omega
      simp [show shiftZ (0 : K) = id from by funext p i; simp [shiftZ]]
    · intro l hl p hp
      obtain rfl : l = 0 := by omega
      simp
    · intro l hl p hp
      obtain rfl : l = 0 := by omega
      simp [show shiftZ (0 : K) = id from by funext p i; simp [shiftZ]]
    · intro l hl p hp
      obtain rfl : l = 0 := by omega
      simp
    · intro l hl p hp
      obtain rfl : l = 0 := by omega
      simp
  have := stacked_all dz first _ hal nexts 0 first ?_ h0
  · simpa [buildLayers] using this
  · intro i hi
    refine ⟨hs _ (List.getElem_mem hi), ?_⟩
    rw [show 0 + 1 + i = i + 1 by omega, List.map_cons, List.getD_cons_succ,
      List.getD_eq_getElem _ _ (by simpa using hi), List.getElem_map]

/-- **C08 (geometry).** If every base cell only uses existing points, then every connectivity entry of the result is in range, cell `c` of layer `l` refers to the points of
layer `l`, and the point it refers to is the base point shifted by `l * domain_z`. -/
theorem C08_references (dz : K) (first : Poly K) (nexts : List (Poly K)) (hal : Aligned first)
    (hori : first.cell_ori_inds.length = first.cells.length) (hs : ∀ nx ∈ nexts, SameMesh first nx)
    (hr : ∀ e ∈ first.cells, ∀ a, e a < first.points.length)
    (l c : ℕ) (hl : l ≤ nexts.length) (hc : c < first.cells.length) :
    ∃ e, (buildLayers dz first nexts).cells[l * first.cells.length + c]? = some e ∧
      ∀ a, l * first.points.length ≤ e a ∧ e a < (l + 1) * first.points.length ∧
        e a < (buildLayers dz first nexts).points.length ∧
        (buildLayers dz first nexts).points[e a]? =
          (first.points[first.cells[c] a]?).map (shiftZ (dz * l)) := by
  have h := C08_layers dz first nexts hal hori hs
  have hcell := h.cell l hl c hc
  rw [List.getElem?_eq_getElem hc, Option.map_some] at hcell
  refine ⟨_, hcell, fun a => ?_⟩
  have hlt := hr _ (List.getElem_mem hc) a
  have e1 : (l + 1) * first.points.length = l * first.points.length + first.points.length := by ring
  have e2 : (l + 1) * first.points.length ≤ (nexts.length + 1) * first.points.length :=
    Nat.mul_le_mul_right _ (by omega)
  refine ⟨by omega, by omega, ?_, h.point l hl _ hlt⟩
  rw [h.lpoints]; omega

/-- Instance for the hypotheses: a one-cell base mesh. -/
example : let base : Poly ℚ := ⟨List.replicate 8 (fun _ => 0), [fun a => a.1], [1], [1], [0], [0], [fun _ => 0]⟩
    Aligned base ∧ base.cell_ori_inds.length = base.cells.length ∧ SameMesh base base ∧
      ∀ e ∈ base.cells, ∀ a, e a < base.points.length := by
  refine ⟨⟨rfl, rfl, rfl, rfl⟩, rfl, ⟨rfl, rfl, rfl, rfl, rfl, rfl, rfl⟩, ?_⟩
  simp

end Layers
end Verif.Mesh
