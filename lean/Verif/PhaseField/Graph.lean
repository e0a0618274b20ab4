import Verif.Base.Arr
import Mathlib.Data.Fintype.Card
import Mathlib.Data.Fintype.EquivFin
import Mathlib.Data.List.FinRange

/-!
# Cell graph and grain search of the phase-field code (model)

`jax_am/phase_field/utils.py`: `compute_edges_in_order` (217-233), `BFS` (236-265),
`get_aspect_ratio_inputs` (266-278).
-/
namespace Verif.PhaseField
open Verif

/-! ## `compute_edges_in_order` -/

/-- A 2-component entry as a Python pair. -/
def toPair (e : Fin 2 → ℕ) : ℕ × ℕ := (e 0, e 1)

/-- The `edges` array (utils.py 219-224). -/
def edges (Nx Ny Nz : ℕ) : List (ℕ × ℕ) :=
  let num_total_cells := Nx * Ny * Nz
  let cell_inds := (Arr1.arange num_total_cells).reshape3 Nz Ny Nx
  let edges_x := (Arr3.stack ![cell_inds.init2, cell_inds.tail2]).flatten
  let edges_y := (Arr3.stack ![cell_inds.init1, cell_inds.tail1]).flatten
  let edges_z := (Arr3.stack ![cell_inds.init0, cell_inds.tail0]).flatten
  edges_x.toList.map toPair ++ edges_y.toList.map toPair ++ edges_z.toList.map toPair

/-- Body of the loop over edges (utils.py 228-232): `edges_in_order[node1].append(node2)` and vice versa.
The list of lists is a function of the node number. -/
def addEdge (e : ℕ → List ℕ) (edge : ℕ × ℕ) : ℕ → List ℕ :=
  let e1 := Function.update e edge.1 (e edge.1 ++ [edge.2])
  Function.update e1 edge.2 (e1 edge.2 ++ [edge.1])

/-- `compute_edges_in_order` (utils.py 217-233). -/
def computeEdgesInOrder (Nx Ny Nz : ℕ) : ℕ → List ℕ :=
  (edges Nx Ny Nz).foldl addEdge fun _ => []

/-! ## `BFS` -/
section BFS
variable {n m : ℕ}

/-- Inputs of `BFS`: adjacency lists, solid mask and orientation of each of the `n` cells; `m = num_oris`. Out-of-range indices (an `IndexError` in Python) are excluded by the types. -/
structure Graph (n m : ℕ) where
  adj : Fin n → List (Fin n)
  nonliquid : Fin n → Bool
  ori : Fin n → Fin m

/-- Number of unvisited cells. -/
def unvisited (vis : Fin n → Bool) : ℕ := (Finset.univ.filter fun v => vis v = false).card

/-- Body of the inner `for cn in connected_nodes` loop (utils.py 251-254). -/
def pushIf (G : Graph n m) (o : Fin m) (st : (Fin n → Bool) × List (Fin n)) (cn : Fin n) :
    (Fin n → Bool) × List (Fin n) :=
  if st.1 cn = false ∧ G.ori cn = o ∧ G.nonliquid cn = true then
    (Function.update st.1 cn true, st.2 ++ [cn])
  else st

/-- The inner `for cn in connected_nodes` loop (utils.py 251-254). -/
def pushAll (G : Graph n m) (o : Fin m) (cns : List (Fin n)) (st : (Fin n → Bool) × List (Fin n)) :
    (Fin n → Bool) × List (Fin n) := cns.foldl (pushIf G o) st

theorem unvisited_update (vis : Fin n → Bool) (cn : Fin n) (h : vis cn = false) :
    unvisited (Function.update vis cn true) + 1 = unvisited vis := by
  unfold unvisited
  rw [← Finset.card_erase_add_one (s := Finset.univ.filter fun v => vis v = false) (a := cn)
    (by simp [h])]
  congr 2
  ext v
  by_cases hv : v = cn
  · subst hv; simp
  · simp [hv]

theorem measure_pushIf (G : Graph n m) (o : Fin m) (cns : List (Fin n)) :
    ∀ st : (Fin n → Bool) × List (Fin n),
      unvisited (pushAll G o cns st).1 + (pushAll G o cns st).2.length
        = unvisited st.1 + st.2.length := by
  induction cns with
  | nil => intro st; rfl
  | cons a l ih =>
    intro st
    rw [show pushAll G o (a :: l) st = pushAll G o l (pushIf G o st a) from rfl, ih]
    unfold pushIf
    split_ifs with h
    · have := unvisited_update st.1 a h.1
      simp only [List.length_append, List.length_singleton]
      omega
    · rfl

/-- The `while queue` loop (utils.py 247-254). It terminates because every pass removes one queue entry and moves each cell it pushes from unvisited to visited. -/
def bfsLoop (G : Graph n m) (o : Fin m) (vis : Fin n → Bool) (queue grain : List (Fin n)) :
    (Fin n → Bool) × List (Fin n) :=
  match queue with
  | [] => (vis, grain)
  | s :: q =>
    bfsLoop G o (pushAll G o (G.adj s) (vis, q)).1 (pushAll G o (G.adj s) (vis, q)).2 (grain ++ [s])
termination_by unvisited vis + queue.length
decreasing_by
  rw [measure_pushIf]
  simp

/-- Body of the loop over the cells (utils.py 241-254); `grains[o].append([])` followed by appends to `grains[o][-1]` adds one completed list. -/
def bfsCell (G : Graph n m) (st : (Fin n → Bool) × (Fin m → List (List (Fin n)))) (i : Fin n) :
    (Fin n → Bool) × (Fin m → List (List (Fin n))) :=
  if st.1 i = false ∧ G.nonliquid i = true then
    let o := G.ori i
    let r := bfsLoop G o (Function.update st.1 i true) [i] []
    (r.1, Function.update st.2 o (st.2 o ++ [r.2]))
  else st

/-- `BFS(..., combined=False)` (utils.py 236-265). -/
def bfsGrains (G : Graph n m) : Fin m → List (List (Fin n)) :=
  ((List.finRange n).foldl (bfsCell G) (fun _ => false, fun _ => [])).2

/-- `BFS(..., combined=True)` (utils.py 256-265). -/
def bfs (G : Graph n m) : List (List (Fin n)) :=
  (List.finRange m).flatMap (bfsGrains G)

/-- `get_aspect_ratio_inputs` (utils.py 268-279), volumes: one list of cell volumes per grain. -/
def grainVols {K : Type*} (grains : List (List (Fin n))) (volumes : Fin n → K) : List (List K) :=
  grains.map fun g => g.map volumes

end BFS
end Verif.PhaseField
