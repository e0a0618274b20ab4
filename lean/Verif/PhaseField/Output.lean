import Verif.PhaseField.AllenCahn
import Verif.PhaseField.Graph
import Mathlib.Analysis.Matrix.Spectrum
import Mathlib.LinearAlgebra.Matrix.Charpoly.Coeff

/-!
# Output and post-processing of the phase-field code (model)

`jax_am/phase_field/allen_cahn.py`: `PFSolver.inspect_sol` (172-188), `PFSolver.write_sols` (190-217).
`jax_am/phase_field/utils.py`: `process_eta` (181-214), `compute_aspect_ratios_and_vols` (281-310).

Files are not modelled: what `write_sols` puts into `mesh.cell_data` is what `process_eta` takes out of it
(`process_eta` always reads file number 13).
-/
namespace Verif.PhaseField
open Verif

/-- `argmax` of one row, as numpy defines it: the first position of the largest entry. A row of length 0 raises in numpy, hence `m + 1`. -/
noncomputable def argmax {m : ℕ} (x : Fin (m + 1) → ℝ) : Fin (m + 1) :=
  (List.finRange (m + 1)).foldl (fun best o => if x best < x o then o else best) 0

/-- The two percentages printed by `inspect_sol` (allen_cahn.py 165-180): share of cells whose orientation changed, share of cells with `T >= T_liquidus`. -/
noncomputable def inspectPercents {m d : ℕ} (P : PfArgs (m + 1) d) (N : ℕ) (pf_sol pf_sol0 : ℕ → Fin (m + 1) → ℝ) (T : ℕ → ℝ) :
    ℝ × ℝ :=
  let eta0 := fun n => argmax (pf_sol0 n)
  let eta := fun n => argmax (pf_sol n)
  let change_eta : ℕ → ℝ := fun n => if eta0 n = eta n then 0 else 1
  let change_T : ℕ → ℝ := fun n => if T n ≥ P.T_liquidus then 1 else 0
  ((∑ n ∈ Finset.range N, change_eta n) / N * 100, (∑ n ∈ Finset.range N, change_T n) / N * 100)

/-- The cell data written by `write_sols` (allen_cahn.py 186-204). -/
structure CellData (m : ℕ) where
  T : ℕ → ℝ
  ipf_x : ℕ → Fin 3 → ℝ
  ipf_y : ℕ → Fin 3 → ℝ
  ipf_z : ℕ → Fin 3 → ℝ
  ori_inds : ℕ → Fin m

/-- `a[liquid] = 0.` -/
noncomputable def blackOut (liquid : ℕ → Prop) [DecidablePred liquid] (a : ℕ → Fin 3 → ℝ) : ℕ → Fin 3 → ℝ :=
  fun n => if liquid n then fun _ => 0 else a n

/-- `write_sols` (allen_cahn.py 182-210); `rgb` is `unique_oris_rgb`, shape (3, num_oris, 3). -/
noncomputable def writeSols {m d : ℕ} (P : PfArgs (m + 1) d) (rgb : Fin 3 → Fin (m + 1) → Fin 3 → ℝ)
    (pf_sol : ℕ → Fin (m + 1) → ℝ) (T : ℕ → ℝ) : CellData (m + 1) :=
  let liquid := fun n => T n > P.T_liquidus
  let cell_ori_inds := fun n => argmax (pf_sol n)
  let ipf_x := fun n => rgb 0 (cell_ori_inds n)
  let ipf_y := fun n => rgb 1 (cell_ori_inds n)
  let ipf_z := fun n => rgb 2 (cell_ori_inds n)
  ⟨T, blackOut liquid ipf_x, blackOut liquid ipf_y, blackOut liquid ipf_z, cell_ori_inds⟩

/-! ## Principal component analysis -/

/-- Column means. -/
noncomputable def colMean (X : List (Fin 3 → ℝ)) (i : Fin 3) : ℝ := (X.map fun x => x i).sum / X.length

/-- Sample covariance matrix (divisor `n - 1`), whose eigenvalues are `explained_variance_` of scikit-learn's `PCA` (utils.py 299-301). -/
noncomputable def cov (X : List (Fin 3 → ℝ)) : Matrix (Fin 3) (Fin 3) ℝ :=
  Matrix.of fun i j => (X.map fun x => (x i - colMean X i) * (x j - colMean X j)).sum / ((X.length : ℝ) - 1)

theorem cov_herm (X : List (Fin 3 → ℝ)) : (cov X).IsHermitian := by
  ext i j
  simp only [cov, Matrix.conjTranspose_apply, Matrix.of_apply, star_trivial]
  congr 2
  exact List.map_congr_left fun x _ => mul_comm _ _

/-- `pca.explained_variance_` after `pca.fit(X)` with `n_components=3` (utils.py 283, 299-301): the eigenvalues in decreasing order. Trusted: scikit-learn computes these (by a singular value decomposition). -/
noncomputable def explainedVariance (X : List (Fin 3 → ℝ)) (i : Fin 3) : ℝ :=
  (cov_herm X).eigenvalues₀ (Fin.cast (by simp) i)

/-- `directions * grain_vol[:, None]` (utils.py 296-297). -/
def weightedDirections (directions : List (Fin 3 → ℝ)) (grain_vol : List ℝ) : List (Fin 3 → ℝ) :=
  List.zipWith (fun x v i => x i * v) directions grain_vol

/-- The aspect ratio of one grain (utils.py 292-304); `none` is the division by zero (numpy gives `inf` or `nan`). -/
noncomputable def aspectRatio (grain_vol : List ℝ) (directions : List (Fin 3 → ℝ)) : Option ℝ :=
  if grain_vol.length < 5 then some 1
  else
    let ev := explainedVariance (weightedDirections directions grain_vol)
    let lengths := fun i => Real.sqrt (ev i)
    if lengths 1 + lengths 2 = 0 then none else some (2 * lengths 0 / (lengths 1 + lengths 2))

/-- Body of the loop (utils.py 288-306): both lists grow by one entry. -/
noncomputable def aspectStep (acc : List ℝ × List (Option ℝ)) (g : List ℝ × List (Fin 3 → ℝ)) : List ℝ × List (Option ℝ) :=
  let ratios := acc.2 ++ [aspectRatio g.1 g.2]
  (acc.1 ++ [g.1.sum], ratios)

/-- `compute_aspect_ratios_and_vols` (utils.py 282-310). The two inputs have one entry per grain each (`get_aspect_ratio_inputs`). -/
noncomputable def computeAspectRatiosAndVols (grain_vols : List (List ℝ)) (grain_centroids : List (List (Fin 3 → ℝ))) :
    List ℝ × List (Option ℝ) :=
  (grain_vols.zip grain_centroids).foldl aspectStep ([], [])

/-- `get_aspect_ratio_inputs` (utils.py 268-279), centroids: `onp.take(centroids, grain, axis=0)`. -/
def grainCentroids {n : ℕ} (grains : List (List (Fin n))) (centroids : Fin n → Fin 3 → ℝ) : List (List (Fin 3 → ℝ)) :=
  grains.map fun g => g.map centroids

/-- Mean of the eight corners: `onp.mean(onp.take(points, cells, axis=0), axis=1)` (utils.py 200-203). -/
noncomputable def hexCentroid (points : ℕ → Fin 3 → ℝ) (cell : Fin 8 → ℕ) (i : Fin 3) : ℝ := (∑ a, points (cell a) i) / 8

/-- The neighbour lists of `compute_edges_in_order` together with the mask and the orientations, as `BFS` receives them (utils.py 196-197, 208).
All listed numbers are cells (C51_grid_symmetric), so the range test drops nothing. -/
def bfsInput {m : ℕ} (Nx Ny Nz : ℕ) (nonliquid : Fin (Nz * Ny * Nx) → Bool) (ori : Fin (Nz * Ny * Nx) → Fin m) :
    Graph (Nz * Ny * Nx) m :=
  ⟨fun v => (computeEdgesInOrder Nx Ny Nz v).filterMap fun w => if h : w < Nz * Ny * Nx then some ⟨w, h⟩ else none,
    nonliquid, ori⟩

/-- `process_eta` (utils.py 181-214) on the data of one file. `num_cells = len(cells)`; the reshape (188) raises if it is not `Nz*Ny*Nx`. -/
noncomputable def processEta {m d : ℕ} (P : PfArgs m d) (domain : Fin 3 → ℝ) (D : CellData m) (num_cells : ℕ)
    (points : ℕ → Fin 3 → ℝ) (cells : ℕ → Fin 8 → ℕ) : Except String (List ℝ × List (Option ℝ)) :=
  if num_cells = P.Nz * P.Ny * P.Nx then
    let nonliquid : Fin (P.Nz * P.Ny * P.Nx) → Bool := fun v => decide (D.T v < P.T_liquidus)
    let centroids : Fin (P.Nz * P.Ny * P.Nx) → Fin 3 → ℝ := fun v => hexCentroid points (cells v)
    let domain_vol := domain 0 * domain 1 * domain 2
    let volumes : Fin (P.Nz * P.Ny * P.Nx) → ℝ := fun _ => domain_vol / num_cells * 1
    let grains := bfs (bfsInput P.Nx P.Ny P.Nz nonliquid fun v => D.ori_inds v)
    .ok (computeAspectRatiosAndVols (grainVols grains volumes) (grainCentroids grains centroids))
  else .error "ValueError: cannot reshape array"

end Verif.PhaseField
