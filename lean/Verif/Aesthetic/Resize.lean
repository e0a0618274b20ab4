import Verif.Mesh.Props
import Mathlib.Analysis.Calculus.FDeriv.Comp
import Mathlib.Analysis.Calculus.FDeriv.Linear
import Mathlib.Analysis.Normed.Module.FiniteDimension

/-!
# Aesthetic topology optimisation: the gradient of the style loss (C154)

`applications/fem/aesthetic/style_loss.py`: the density of the structure is resized to the image of the network, the loss and its gradient are computed there, and the gradient is resized back.
-/
namespace Verif.Aesthetic
open Finset Verif.Mesh

/-! ## Model -/

/-- `np.mean(np.take(points, cells, axis=0), axis=1)` (style_loss.py 111, 115). -/
noncomputable def centroids (M : FMesh ℝ 2 4) : Arr1 (Fin 2 → ℝ) := M.cells.map fun c i => (∑ p, M.points.get (c p) i) / 4

/-- `xc[:, 0]` and `yc[0, :]` (style_loss.py 112-113, 116-117, 123, 129) of a rectangle mesh. -/
noncomputable def xLine (Nx Ny : ℕ) (Lx Ly : ℝ) (i : ℕ) : ℝ := (centroids (rectangleMesh Nx Ny Lx Ly)).get (i * Ny + 0) 0
@[inherit_doc xLine]
noncomputable def yLine (Nx Ny : ℕ) (Lx Ly : ℝ) (j : ℕ) : ℝ := (centroids (rectangleMesh Nx Ny Lx Ly)).get (0 * Ny + j) 1

open Classical in
/-- The interval of scipy's `RegularGridInterpolator`: `searchsorted(grid, x) - 1`, clipped to `[0, n - 2]`. -/
noncomputable def interval (n : ℕ) (g : ℕ → ℝ) (x : ℝ) : ℕ := min (((range n).filter fun i => g i < x).card - 1) (n - 2)

/-- The distance from the lower end of the interval, relative to its length. -/
noncomputable def frac (n : ℕ) (g : ℕ → ℝ) (x : ℝ) : ℝ := (x - g (interval n g x)) / (g (interval n g x + 1) - g (interval n g x))

/-- `RegularGridInterpolator((gx, gy), data, method='linear', bounds_error=False, fill_value=None)` at a point: bilinear, extended beyond the grid (style_loss.py 123-124, 129-130). -/
noncomputable def interp2 (nx ny : ℕ) (gx gy : ℕ → ℝ) (data : ℕ → ℕ → ℝ) (x : Fin 2 → ℝ) : ℝ :=
  let i := interval nx gx (x 0)
  let j := interval ny gy (x 1)
  let s := frac nx gx (x 0)
  let t := frac ny gy (x 1)
  (1 - s) * ((1 - t) * data i j + t * data i (j + 1)) + s * ((1 - t) * data (i + 1) j + t * data (i + 1) (j + 1))

/-- The sizes: cells of the structure, pixels of the square image, the domain (arguments.py 10, 45-48). -/
structure Sizes where
  Nx : ℕ
  Ny : ℕ
  S : ℕ
  Lx : ℝ
  Ly : ℝ

variable (A : Sizes)

/-- `resize_fwd` (style_loss.py 120-124) as array over the image cells. -/
noncomputable def resizeFwd (toData : ℕ → ℕ → ℝ) (k : ℕ) : ℝ :=
  interp2 A.Nx A.Ny (xLine A.Nx A.Ny A.Lx A.Ly) (yLine A.Nx A.Ny A.Lx A.Ly) toData ((centroids (rectangleMesh A.S A.S A.Lx A.Ly)).get k)

/-- `resize_bwd` (style_loss.py 126-130) as array over the cells of the structure. -/
noncomputable def resizeBwd (imageData : ℕ → ℕ → ℝ) (n : ℕ) : ℝ :=
  interp2 A.S A.S (xLine A.S A.S A.Lx A.Ly) (yLine A.S A.S A.Lx A.Ly) imageData ((centroids (rectangleMesh A.Nx A.Ny A.Lx A.Ly)).get n)

/-- An image with three channels (the batch dimension left out). -/
abbrev Image (S : ℕ) := Fin 3 → Fin S → Fin S → ℝ

/-- `rho.reshape((args.Nx, args.Ny))` (style_loss.py 144). -/
def reshapeRho (rho : Fin (A.Nx * A.Ny) → ℝ) (i j : ℕ) : ℝ := if h : i * A.Ny + j < A.Nx * A.Ny then rho ⟨i * A.Ny + j, h⟩ else 0

/-- `image_theta` (style_loss.py 144-148; the cast to float32 is left out): resized, the same in the three channels. -/
noncomputable def imageOf (rho : Fin (A.Nx * A.Ny) → ℝ) : Image A.S := fun _ p q => resizeFwd A (reshapeRho A rho) (p * A.S + q)

open Classical in
/-- One pixel of one channel. -/
def pixel {S : ℕ} (c : Fin 3) (p q : Fin S) : Image S := fun c' p' q' => if c' = c ∧ p' = p ∧ q' = q then 1 else 0

/-- `grads_image_grey` (style_loss.py 132-139, 150-153): `jax.grad` of the loss with respect to the image, mean over the channels. -/
noncomputable def greyGrad {S : ℕ} (L : Image S → ℝ) (x : Image S) (p q : ℕ) : ℝ :=
  if h : p < S ∧ q < S then (∑ c, fderiv ℝ L x (pixel c ⟨p, h.1⟩ ⟨q, h.2⟩)) / 3 else 0

/-- `style_value_and_grad` (style_loss.py 141-165): the value and the returned gradient; `L` is `loss` as a function of the image. -/
noncomputable def styleValue (L : Image A.S → ℝ) (rho : Fin (A.Nx * A.Ny) → ℝ) : ℝ := L (imageOf A rho)
@[inherit_doc styleValue]
noncomputable def styleGrad (L : Image A.S → ℝ) (rho : Fin (A.Nx * A.Ny) → ℝ) (n : Fin (A.Nx * A.Ny)) : ℝ := resizeBwd A (greyGrad L (imageOf A rho)) n

/-! ## Interpolation -/

theorem centroid_get (Nx Ny : ℕ) (Lx Ly : ℝ) {i j : ℕ} (hj : j < Ny) : (centroids (rectangleMesh Nx Ny Lx Ly)).get (i * Ny + j) = ![(i + 1 / 2) * (Lx / Nx), (j + 1 / 2) * (Ly / Ny)] := by
  funext a
  show (∑ p, (rectangleMesh Nx Ny Lx Ly).points.get ((rectangleMesh Nx Ny Lx Ly).cells.get (i * Ny + j) p) a) / 4 = _
  rw [rectangleMesh_cell Nx Ny Lx Ly hj, Fin.sum_univ_four]
  simp only [Matrix.cons_val_zero, Matrix.cons_val_one, Matrix.cons_val]
  rw [rectangleMesh_point Nx Ny Lx Ly (by omega), rectangleMesh_point Nx Ny Lx Ly (by omega), rectangleMesh_point Nx Ny Lx Ly (by omega), rectangleMesh_point Nx Ny Lx Ly (by omega)]
  fin_cases a
  · simp; ring
  · simp; ring

theorem xLine_eq (Nx Ny : ℕ) (Lx Ly : ℝ) (hNy : 0 < Ny) (i : ℕ) : xLine Nx Ny Lx Ly i = (i + 1 / 2) * (Lx / Nx) := by
  unfold xLine
  rw [centroid_get Nx Ny Lx Ly hNy]
  rfl

theorem yLine_eq (Nx Ny : ℕ) (Lx Ly : ℝ) {j : ℕ} (hj : j < Ny) : yLine Nx Ny Lx Ly j = (j + 1 / 2) * (Ly / Ny) := by
  unfold yLine
  rw [centroid_get Nx Ny Lx Ly hj]
  rfl

/-- The weight of the grid point `i` in the value at `x`. -/
noncomputable def wt (n : ℕ) (g : ℕ → ℝ) (x : ℝ) (i : ℕ) : ℝ := (if i = interval n g x then 1 - frac n g x else 0) + if i = interval n g x + 1 then frac n g x else 0

theorem interval_lt {n : ℕ} (hn : 2 ≤ n) (g : ℕ → ℝ) (x : ℝ) : interval n g x + 1 < n := by
  have : interval n g x ≤ n - 2 := min_le_right _ _
  omega

theorem sum_wt {n : ℕ} (hn : 2 ≤ n) (g : ℕ → ℝ) (x : ℝ) (f : ℕ → ℝ) : ∑ i ∈ range n, wt n g x i * f i = (1 - frac n g x) * f (interval n g x) + frac n g x * f (interval n g x + 1) := by
  have h := interval_lt hn g x
  simp only [wt, add_mul, sum_add_distrib, ite_mul, zero_mul, sum_ite_eq', mem_range]
  rw [if_pos (by omega), if_pos h]

theorem wt_one {n : ℕ} (hn : 2 ≤ n) (g : ℕ → ℝ) (x : ℝ) : ∑ i ∈ range n, wt n g x i = 1 := by
  have := sum_wt hn g x fun _ => 1
  simp only [mul_one] at this
  rw [this]; ring

theorem interp2_eq {nx ny : ℕ} (hx : 2 ≤ nx) (hy : 2 ≤ ny) (gx gy : ℕ → ℝ) (data : ℕ → ℕ → ℝ) (x : Fin 2 → ℝ) :
    interp2 nx ny gx gy data x = ∑ i ∈ range nx, wt nx gx (x 0) i * ∑ j ∈ range ny, wt ny gy (x 1) j * data i j := by
  rw [sum_wt hx, sum_wt hy, sum_wt hy]
  rfl

theorem interp2_const {nx ny : ℕ} (gx gy : ℕ → ℝ) (c : ℝ) {data : ℕ → ℕ → ℝ} (hx : 2 ≤ nx) (hy : 2 ≤ ny) (h : ∀ i < nx, ∀ j < ny, data i j = c) (x : Fin 2 → ℝ) : interp2 nx ny gx gy data x = c := by
  rw [interp2_eq hx hy]
  calc _ = ∑ i ∈ range nx, wt nx gx (x 0) i * c := sum_congr rfl fun i hi => by
        congr 1
        rw [sum_congr rfl fun j hj => by rw [h i (mem_range.mp hi) j (mem_range.mp hj)], ← sum_mul, wt_one hy, one_mul]
    _ = c := by rw [← sum_mul, wt_one hx, one_mul]

theorem interp2_congr {nx ny : ℕ} (gx gy : ℕ → ℝ) {data data' : ℕ → ℕ → ℝ} (hx : 2 ≤ nx) (hy : 2 ≤ ny) (h : ∀ i < nx, ∀ j < ny, data i j = data' i j) (x : Fin 2 → ℝ) : interp2 nx ny gx gy data x = interp2 nx ny gx gy data' x := by
  rw [interp2_eq hx hy, interp2_eq hx hy]
  exact sum_congr rfl fun i hi => by rw [sum_congr rfl fun j hj => by rw [h i (mem_range.mp hi) j (mem_range.mp hj)]]

/-- On an increasing grid, interpolation at a grid point returns the value there. -/
theorem interp_node {n : ℕ} (hn : 2 ≤ n) {g : ℕ → ℝ} (hg : ∀ i j, i < j → j < n → g i < g j) {k : ℕ} (hk : k < n) (f : ℕ → ℝ) : (1 - frac n g (g k)) * f (interval n g (g k)) + frac n g (g k) * f (interval n g (g k) + 1) = f k := by
  have hc : ((range n).filter fun i => g i < g k) = range k := by
    ext i
    rw [mem_filter, mem_range, mem_range]
    refine ⟨fun ⟨hi, h⟩ => ?_, fun hi => ⟨by omega, hg i k hi hk⟩⟩
    by_contra hik
    rcases Nat.lt_or_eq_of_le (not_lt.mp hik) with h' | h'
    · exact absurd (hg k i h' hi) (not_lt.mpr h.le)
    · rw [h'] at h; exact lt_irrefl _ h
  have hi : interval n g (g k) = k - 1 := by
    unfold interval
    have : (@Finset.filter ℕ (fun i => g i < g k) (fun a => Classical.propDecidable _) (range n)) = range k := by
      rw [← hc]
    rw [this, card_range]
    omega
  by_cases h0 : k = 0
  · subst h0
    unfold frac
    rw [hi]
    simp
  · unfold frac
    rw [hi, Nat.sub_add_cancel (Nat.pos_of_ne_zero h0), div_self (sub_pos.mpr (hg _ _ (by omega) hk)).ne']
    ring

theorem interp2_node {nx ny : ℕ} (hx : 2 ≤ nx) (hy : 2 ≤ ny) {gx gy : ℕ → ℝ} (hgx : ∀ i j, i < j → j < nx → gx i < gx j) (hgy : ∀ i j, i < j → j < ny → gy i < gy j) {k l : ℕ} (hk : k < nx) (hl : l < ny) (data : ℕ → ℕ → ℝ) {x : Fin 2 → ℝ}
    (h0 : x 0 = gx k) (h1 : x 1 = gy l) : interp2 nx ny gx gy data x = data k l := by
  rw [interp2_eq hx hy, sum_wt hx, sum_wt hy, sum_wt hy, h0, h1, interp_node hy hgy hl, interp_node hy hgy hl, interp_node hx hgx hk (fun i => data i l)]

theorem xLine_mono {Nx Ny : ℕ} {Lx Ly : ℝ} (hNx : 0 < Nx) (hNy : 0 < Ny) (hL : 0 < Lx) (i j : ℕ) (h : i < j) (_ : j < Nx) : xLine Nx Ny Lx Ly i < xLine Nx Ny Lx Ly j := by
  rw [xLine_eq _ _ _ _ hNy, xLine_eq _ _ _ _ hNy]
  have : (0 : ℝ) < Lx / Nx := div_pos hL (by exact_mod_cast hNx)
  have h' : (i : ℝ) < j := by exact_mod_cast h
  exact mul_lt_mul_of_pos_right (by linarith) this

theorem yLine_mono {Nx Ny : ℕ} {Lx Ly : ℝ} (hNy : 0 < Ny) (hL : 0 < Ly) (i j : ℕ) (h : i < j) (hj : j < Ny) : yLine Nx Ny Lx Ly i < yLine Nx Ny Lx Ly j := by
  rw [yLine_eq _ _ _ _ (h.trans hj), yLine_eq _ _ _ _ hj]
  have : (0 : ℝ) < Ly / Ny := div_pos hL (by exact_mod_cast hNy)
  have h' : (i : ℝ) < j := by exact_mod_cast h
  exact mul_lt_mul_of_pos_right (by linarith) this

/-! ## The derivative of the value -/

theorem image_add (r r' : Fin (A.Nx * A.Ny) → ℝ) : imageOf A (r + r') = imageOf A r + imageOf A r' := by
  funext c p q
  have h : ∀ i j, reshapeRho A (r + r') i j = reshapeRho A r i j + reshapeRho A r' i j := fun i j => by
    unfold reshapeRho
    split_ifs
    · rfl
    · ring
  show resizeFwd A _ _ = resizeFwd A _ _ + resizeFwd A _ _
  unfold resizeFwd interp2
  simp only [h]
  ring

theorem image_smul (t : ℝ) (r : Fin (A.Nx * A.Ny) → ℝ) : imageOf A (t • r) = t • imageOf A r := by
  funext c p q
  have h : ∀ i j, reshapeRho A (t • r) i j = t * reshapeRho A r i j := fun i j => by
    unfold reshapeRho
    split_ifs
    · rfl
    · ring
  show resizeFwd A _ _ = t * resizeFwd A _ _
  unfold resizeFwd interp2
  simp only [h]
  ring

/-- The derivative of the value along `d`. -/
theorem deriv_value {L : Image A.S → ℝ} {rho : Fin (A.Nx * A.Ny) → ℝ} (hL : DifferentiableAt ℝ L (imageOf A rho)) (d : Fin (A.Nx * A.Ny) → ℝ) : fderiv ℝ (styleValue A L) rho d = fderiv ℝ L (imageOf A rho) (imageOf A d) := by
  let I : (Fin (A.Nx * A.Ny) → ℝ) →ₗ[ℝ] Image A.S := { toFun := imageOf A, map_add' := image_add A, map_smul' := image_smul A }
  have h1 : HasFDerivAt (imageOf A) (LinearMap.toContinuousLinearMap I) rho := (LinearMap.toContinuousLinearMap I).hasFDerivAt
  have h2 : HasFDerivAt (styleValue A L) ((fderiv ℝ L (imageOf A rho)).comp (LinearMap.toContinuousLinearMap I)) rho := hL.hasFDerivAt.comp rho h1
  rw [h2.fderiv]
  rfl

theorem image_sum {S : ℕ} (x : Image S) : x = ∑ c, ∑ p, ∑ q, x c p q • pixel c p q := by
  classical
  funext c' p' q'
  simp only [Finset.sum_apply, Pi.smul_apply, smul_eq_mul, pixel, mul_ite, mul_one, mul_zero]
  rw [sum_eq_single c' (fun c _ hc => sum_eq_zero fun p _ => sum_eq_zero fun q _ => if_neg fun h => hc h.1.symm) (fun h => absurd (mem_univ _) h),
    sum_eq_single p' (fun p _ hp => sum_eq_zero fun q _ => if_neg fun h => hp h.2.1.symm) (fun h => absurd (mem_univ _) h),
    sum_eq_single q' (fun q _ hq => if_neg fun h => hq h.2.2.symm) (fun h => absurd (mem_univ _) h), if_pos ⟨rfl, rfl, rfl⟩]

theorem fderiv_image {S : ℕ} (l : Image S →L[ℝ] ℝ) (x : Image S) : l x = ∑ c, ∑ p, ∑ q, x c p q * l (pixel c p q) := by
  conv_lhs => rw [image_sum x]
  simp only [map_sum, map_smul, smul_eq_mul]

theorem sum_flat {N M : ℕ} (f : ℕ → ℝ) : ∑ n : Fin (N * M), f n = ∑ i : Fin N, ∑ j : Fin M, f (i * M + j) := by
  rw [← Fintype.sum_prod_type', ← finProdFinEquiv.sum_comp]
  refine sum_congr rfl fun x _ => ?_
  congr 1
  simp only [finProdFinEquiv_apply_val]
  ring

/-- **C154 (a third).** When structure and image have the same cells, the returned gradient is exactly one third of the gradient of the returned value. -/
theorem C154_third (N : ℕ) (hN : 2 ≤ N) (Lx Ly : ℝ) (hx : 0 < Lx) (hy : 0 < Ly) (L : Image N → ℝ) (rho : Fin (N * N) → ℝ) (hL : DifferentiableAt ℝ L (imageOf ⟨N, N, N, Lx, Ly⟩ rho)) (d : Fin (N * N) → ℝ) :
    fderiv ℝ (styleValue ⟨N, N, N, Lx, Ly⟩ L) rho d = 3 * ∑ n, styleGrad ⟨N, N, N, Lx, Ly⟩ L rho n * d n := by
  have hN0 : 0 < N := by omega
  have hnode : ∀ (data : ℕ → ℕ → ℝ) (p q : ℕ), p < N → q < N → interp2 N N (xLine N N Lx Ly) (yLine N N Lx Ly) data ((centroids (rectangleMesh N N Lx Ly)).get (p * N + q)) = data p q := by
    intro data p q hp hq
    refine interp2_node hN hN (xLine_mono hN0 hN0 hx) (yLine_mono hN0 hy) hp hq data ?_ ?_
    · rw [xLine_eq _ _ _ _ hN0, centroid_get N N Lx Ly hq]; rfl
    · rw [yLine_eq _ _ _ _ hq, centroid_get N N Lx Ly hq]; rfl
  have hlt : ∀ p q : Fin N, (p : ℕ) * N + q < N * N := fun p q => by nlinarith [p.2, q.2]
  rw [deriv_value _ hL, fderiv_image]
  have h1 : ∀ c p q, imageOf ⟨N, N, N, Lx, Ly⟩ d c p q = d ⟨p * N + q, hlt p q⟩ := fun c p q => by
    refine (hnode (reshapeRho ⟨N, N, N, Lx, Ly⟩ d) p q p.2 q.2).trans ?_
    unfold reshapeRho
    rw [dif_pos (hlt p q)]
  have h2 : ∀ p q : Fin N, styleGrad ⟨N, N, N, Lx, Ly⟩ L rho ⟨p * N + q, hlt p q⟩ = (∑ c, fderiv ℝ L (imageOf ⟨N, N, N, Lx, Ly⟩ rho) (pixel c p q)) / 3 := fun p q => by
    refine (hnode (greyGrad L (imageOf ⟨N, N, N, Lx, Ly⟩ rho)) p q p.2 q.2).trans ?_
    unfold greyGrad
    rw [dif_pos ⟨p.2, q.2⟩]
  have h3 : ∑ n : Fin (N * N), styleGrad ⟨N, N, N, Lx, Ly⟩ L rho n * d n = ∑ p : Fin N, ∑ q : Fin N, styleGrad ⟨N, N, N, Lx, Ly⟩ L rho ⟨p * N + q, hlt p q⟩ * d ⟨p * N + q, hlt p q⟩ := by
    have := sum_flat (N := N) (M := N) fun n => if h : n < N * N then styleGrad ⟨N, N, N, Lx, Ly⟩ L rho ⟨n, h⟩ * d ⟨n, h⟩ else 0
    refine (sum_congr rfl fun n _ => ?_).trans (this.trans (sum_congr rfl fun p _ => sum_congr rfl fun q _ => ?_))
    · rw [dif_pos n.2]
    · rw [dif_pos (hlt p q)]
  rw [h3]
  simp only [h1, h2]
  rw [sum_comm, mul_sum]
  refine sum_congr rfl fun p _ => ?_
  rw [sum_comm, mul_sum]
  refine sum_congr rfl fun q _ => ?_
  rw [← mul_sum]
  ring

end Verif.Aesthetic
