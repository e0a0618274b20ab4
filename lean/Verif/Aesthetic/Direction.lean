import Verif.Aesthetic.Resize
import Mathlib.Algebra.Order.BigOperators.Ring.Finset

/-!
# Aesthetic topology optimisation: where the returned gradient points, and the range of the image (C154)
-/
namespace Verif.Aesthetic
open Finset Verif.Mesh

variable (A : Sizes)

theorem flat_split {N M : ℕ} (hM : 0 < M) (n : ℕ) (h : n < N * M) : n / M < N ∧ n % M < M ∧ n / M * M + n % M = n :=
  ⟨Nat.div_lt_of_lt_mul (by rwa [mul_comm]), Nat.mod_lt _ hM, Nat.div_add_mod' n M⟩

theorem reshape_lt {i j : ℕ} (hi : i < A.Nx) (hj : j < A.Ny) : i * A.Ny + j < A.Nx * A.Ny := by nlinarith

theorem image_const {rho : Fin (A.Nx * A.Ny) → ℝ} {c : ℝ} (hNx : 2 ≤ A.Nx) (hNy : 2 ≤ A.Ny) (h : ∀ n, rho n = c) : imageOf A rho = fun _ _ _ => c := by
  funext k p q
  refine interp2_const _ _ c hNx hNy (fun i hi j hj => ?_) _
  unfold reshapeRho
  rw [dif_pos (reshape_lt A hi hj), h]

/-- **C154 (total).** Along the direction in which all densities grow alike, the derivative of the value and the sum of the returned gradient differ by the factor `3 S² / (Nx Ny)`, for every loss whose image gradient is the same `g` in all pixels. -/
theorem C154_total (hNx : 2 ≤ A.Nx) (hNy : 2 ≤ A.Ny) (hS : 2 ≤ A.S) (L : Image A.S → ℝ) (rho : Fin (A.Nx * A.Ny) → ℝ) (hL : DifferentiableAt ℝ L (imageOf A rho)) (g : ℝ) (hg : ∀ c p q, fderiv ℝ L (imageOf A rho) (pixel c p q) = g) :
    fderiv ℝ (styleValue A L) rho (fun _ => 1) = 3 * A.S ^ 2 * g ∧ ∑ n, styleGrad A L rho n = A.Nx * A.Ny * g := by
  refine ⟨?_, ?_⟩
  · rw [deriv_value A hL, image_const A hNx hNy fun _ => rfl, fderiv_image]
    simp only [hg, one_mul, sum_const, card_univ, Fintype.card_fin, nsmul_eq_mul]
    push_cast; ring
  · have : ∀ n, styleGrad A L rho n = g := fun n => by
      refine interp2_const _ _ g hS hS (fun p hp q hq => ?_) _
      unfold greyGrad
      rw [dif_pos ⟨hp, hq⟩]
      simp only [hg, sum_const, card_univ, Fintype.card_fin, nsmul_eq_mul]
      push_cast; ring
    simp only [this, sum_const, card_univ, Fintype.card_fin, nsmul_eq_mul]
    push_cast; ring

/-- The weights of the other image rows vanish. -/
theorem wt_zero {n : ℕ} {g : ℕ → ℝ} {x : ℝ} {i : ℕ} (h : i ≠ interval n g x) (h' : i ≠ interval n g x + 1) : wt n g x i = 0 := by
  unfold wt
  rw [if_neg h, if_neg h', add_zero]

/-- With more than twice as many pixels as cells along `x`, some pixel row is used for no cell. -/
theorem unused_row (h : 2 * A.Nx < A.S) (g x : ℕ → ℝ) : ∃ p < A.S, ∀ i < A.Nx, wt A.S g (x i) p = 0 := by
  classical
  let U := (range A.Nx).image (fun i => interval A.S g (x i)) ∪ (range A.Nx).image (fun i => interval A.S g (x i) + 1)
  have hU : U.card < (range A.S).card := by
    have h1 := card_union_le ((range A.Nx).image (fun i => interval A.S g (x i))) ((range A.Nx).image (fun i => interval A.S g (x i) + 1))
    have h2 := card_image_le (s := range A.Nx) (f := fun i => interval A.S g (x i))
    have h3 := card_image_le (s := range A.Nx) (f := fun i => interval A.S g (x i) + 1)
    rw [card_range] at h2 h3 ⊢
    exact lt_of_le_of_lt h1 (by omega)
  obtain ⟨p, hp, hpU⟩ := exists_mem_notMem_of_card_lt_card hU
  refine ⟨p, mem_range.mp hp, fun i hi => wt_zero (fun e => hpU ?_) (fun e => hpU ?_)⟩
  · exact mem_union_left _ (mem_image.mpr ⟨i, mem_range.mpr hi, e.symm⟩)
  · exact mem_union_right _ (mem_image.mpr ⟨i, mem_range.mpr hi, e.symm⟩)

/-- The linear loss with the image gradient `w p` in the row `p`. -/
noncomputable def rowLoss (S : ℕ) (w : ℕ → ℝ) : Image S →L[ℝ] ℝ :=
  LinearMap.toContinuousLinearMap
    { toFun := fun x => ∑ c, ∑ p : Fin S, ∑ q, w p * x c p q
      map_add' := fun x y => by simp only [Pi.add_apply, mul_add, sum_add_distrib]
      map_smul' := fun t x => by
        simp only [Pi.smul_apply, smul_eq_mul, RingHom.id_apply, mul_sum]
        exact sum_congr rfl fun c _ => sum_congr rfl fun p _ => sum_congr rfl fun q _ => by ring }

theorem rowLoss_apply {S : ℕ} (w : ℕ → ℝ) (x : Image S) : rowLoss S w x = ∑ c, ∑ p : Fin S, ∑ q, w p * x c p q := rfl

theorem rowLoss_pixel {S : ℕ} (w : ℕ → ℝ) (c : Fin 3) (p q : Fin S) : rowLoss S w (pixel c p q) = w p := by
  classical
  rw [rowLoss_apply]
  simp only [pixel, mul_ite, mul_one, mul_zero]
  rw [sum_eq_single c (fun c' _ hc => sum_eq_zero fun p' _ => sum_eq_zero fun q' _ => if_neg fun h => hc h.1) (fun h => absurd (mem_univ _) h),
    sum_eq_single p (fun p' _ hp => sum_eq_zero fun q' _ => if_neg fun h => hp h.2.1) (fun h => absurd (mem_univ _) h),
    sum_eq_single q (fun q' _ hq => if_neg fun h => hq h.2.2) (fun h => absurd (mem_univ _) h), if_pos ⟨rfl, rfl, rfl⟩]

/-- **C154 (direction).** With more than twice as many pixels as cells along `x`, there is a loss (a linear one) whose value strictly decreases along the returned gradient, so that it strictly increases along the negative returned gradient, at every density. -/
theorem C154_direction (hNx : 2 ≤ A.Nx) (hNy : 2 ≤ A.Ny) (hS : 2 * A.Nx < A.S) :
    ∃ L : Image A.S →L[ℝ] ℝ, ∀ rho, fderiv ℝ (styleValue A L) rho (styleGrad A L rho) < 0 := by
  have hS2 : 2 ≤ A.S := by omega
  have hSpos : (0 : ℝ) < A.S := by exact_mod_cast (by omega : 0 < A.S)
  obtain ⟨p0, hp0, hun⟩ := unused_row A hS (xLine A.S A.S A.Lx A.Ly) fun i => (i + 1 / 2) * (A.Lx / A.Nx)
  let e : ℝ := 1 / (2 * A.S)
  let w : ℕ → ℝ := fun p => (if p = p0 then 1 else 0) - e
  refine ⟨rowLoss A.S w, fun rho => ?_⟩
  have hgrey : ∀ p < A.S, ∀ q < A.S, greyGrad (rowLoss A.S w) (imageOf A rho) p q = w p := fun p hp q hq => by
    unfold greyGrad
    rw [dif_pos ⟨hp, hq⟩, ContinuousLinearMap.fderiv]
    simp only [rowLoss_pixel, sum_const, card_univ, Fintype.card_fin, nsmul_eq_mul]
    push_cast; ring
  have hgrad : ∀ n, styleGrad A (rowLoss A.S w) rho n = -e := fun n => by
    obtain ⟨h1, h2, h3⟩ := flat_split (N := A.Nx) (M := A.Ny) (by omega) n n.2
    show interp2 _ _ _ _ _ _ = _
    rw [interp2_congr _ _ hS2 hS2 hgrey, interp2_eq hS2 hS2]
    rw [sum_congr rfl fun p _ => by rw [← sum_mul, wt_one hS2, one_mul]]
    have hx : (centroids (rectangleMesh A.Nx A.Ny A.Lx A.Ly)).get n 0 = ((n / A.Ny : ℕ) + 1 / 2) * (A.Lx / A.Nx) := by
      conv_lhs => rw [← h3]
      rw [centroid_get A.Nx A.Ny A.Lx A.Ly h2]; rfl
    rw [hx]
    show ∑ p ∈ range A.S, wt _ _ _ p * ((if p = p0 then 1 else 0) - e) = _
    simp only [mul_sub, sum_sub_distrib, mul_ite, mul_one, mul_zero, sum_ite_eq', mem_range]
    rw [if_pos hp0, hun _ h1, ← sum_mul, wt_one hS2]
    ring
  rw [deriv_value A (rowLoss A.S w).differentiableAt, image_const A hNx hNy hgrad, ContinuousLinearMap.fderiv, rowLoss_apply]
  have hw : ∑ p : Fin A.S, w p = 1 / 2 := by
    rw [Fin.sum_univ_eq_sum_range (fun p => w p)]
    show ∑ p ∈ range A.S, ((if p = p0 then 1 else 0) - e) = _
    rw [sum_sub_distrib, sum_ite_eq', if_pos (mem_range.mpr hp0), sum_const, card_range, nsmul_eq_mul]
    show 1 - (A.S : ℝ) * (1 / (2 * A.S)) = 1 / 2
    field_simp; norm_num
  simp only [sum_const, card_univ, Fintype.card_fin, nsmul_eq_mul]
  rw [← mul_sum, ← sum_mul, hw]
  have he : 0 < e := by positivity
  have : 0 < (A.S : ℝ) * (1 / 2 * e) := by positivity
  push_cast
  linarith

/-- **C154 (the sizes of the files).** The sizes of tree.py and to.py (200 cells, 512 pixels) and of building.py (100 by 500 cells) are such sizes. -/
theorem C154_files (Lx Ly : ℝ) : (∃ L : Image 512 →L[ℝ] ℝ, ∀ rho, fderiv ℝ (styleValue ⟨200, 200, 512, Lx, Ly⟩ L) rho (styleGrad ⟨200, 200, 512, Lx, Ly⟩ L rho) < 0) ∧
    ∃ L : Image 512 →L[ℝ] ℝ, ∀ rho, fderiv ℝ (styleValue ⟨100, 500, 512, Lx, Ly⟩ L) rho (styleGrad ⟨100, 500, 512, Lx, Ly⟩ L rho) < 0 :=
  ⟨C154_direction ⟨200, 200, 512, Lx, Ly⟩ (by norm_num) (by norm_num) (by norm_num), C154_direction ⟨100, 500, 512, Lx, Ly⟩ (by norm_num) (by norm_num) (by norm_num)⟩

/-! ## The range of the image -/

theorem frac_mem {n : ℕ} (hn : 2 ≤ n) {h : ℝ} (hh : 0 < h) {g : ℕ → ℝ} (hg : ∀ i < n, g i = (i + 1 / 2) * h) {x : ℝ} (h0 : g 0 ≤ x) (h1 : x ≤ g (n - 1)) : 0 ≤ frac n g x ∧ frac n g x ≤ 1 := by
  classical
  have hlt := interval_lt hn g x
  have hd : g (interval n g x + 1) - g (interval n g x) = h := by
    rw [hg _ hlt, hg _ (by omega)]; push_cast; ring
  have hm : ∀ i j, i ≤ j → j < n → g i ≤ g j := fun i j hij hj => by
    rw [hg i (by omega), hg j hj]
    have : (i : ℝ) ≤ j := by exact_mod_cast hij
    exact mul_le_mul_of_nonneg_right (by linarith) hh.le
  -- the points below `x` are an initial piece
  have hset : ∀ k, k < n → (g k < x ↔ k < ((range n).filter fun i => g i < x).card) := by
    intro k hk
    constructor
    · intro hkx
      have : range (k + 1) ⊆ (range n).filter fun i => g i < x := fun i hi => by
        have := mem_range.mp hi
        exact mem_filter.mpr ⟨mem_range.mpr (by omega), (hm i k (by omega) hk).trans_lt hkx⟩
      have := card_le_card this
      rw [card_range] at this; omega
    · intro hkc
      by_contra hkx
      have : ((range n).filter fun i => g i < x) ⊆ range k := fun i hi => by
        have := mem_filter.mp hi
        by_contra hik
        exact hkx ((hm k i (not_lt.mp fun h => hik (mem_range.mpr h)) (mem_range.mp this.1)).trans_lt this.2)
      have := card_le_card this
      rw [card_range] at this; omega
  have hint : interval n g x = min (((range n).filter fun i => g i < x).card - 1) (n - 2) := by
    unfold interval
    congr!
  set m := ((range n).filter fun i => g i < x).card with hmdef
  have hmn : m < n := by
    by_contra hc
    exact absurd ((hset (n - 1) (by omega)).mpr (by omega)) (not_lt.mpr h1)
  have hlow : g (interval n g x) ≤ x := by
    by_cases hz : m = 0
    · rw [hint, hz]; simpa using h0
    · exact ((hset _ (by omega)).mpr (by rw [hint]; omega)).le
  have hup : x ≤ g (interval n g x + 1) := by
    by_contra hc
    have := (hset _ hlt).mp (not_le.mp hc)
    rw [hint] at this
    omega
  unfold frac
  rw [hd, div_le_one hh]
  exact ⟨div_nonneg (by linarith) hh.le, by linarith⟩

/-- **C154 (range).** With no more pixels than cells in both directions, the image stays within the bounds of the densities. -/
theorem C154_range (hNx : 2 ≤ A.Nx) (hNy : 2 ≤ A.Ny) (hx : 0 < A.Lx) (hy : 0 < A.Ly) (hSx : A.S ≤ A.Nx) (hSy : A.S ≤ A.Ny) (rho : Fin (A.Nx * A.Ny) → ℝ) (lo hi : ℝ) (hrho : ∀ n, lo ≤ rho n ∧ rho n ≤ hi) (c : Fin 3) (p q : Fin A.S) :
    lo ≤ imageOf A rho c p q ∧ imageOf A rho c p q ≤ hi := by
  have hSpos : 0 < A.S := by have := p.2; omega
  -- a pixel centre lies between the outermost cell centres
  have hin : ∀ (N : ℕ) (L : ℝ) (r : Fin A.S), 2 ≤ N → 0 < L → A.S ≤ N → ((0 : ℕ) + 1 / 2 : ℝ) * (L / N) ≤ ((r : ℕ) + 1 / 2) * (L / A.S) ∧ ((r : ℕ) + 1 / 2) * (L / A.S) ≤ ((N - 1 : ℕ) + 1 / 2) * (L / N) := by
    intro N L r hN hL hSN
    have hS' : (0 : ℝ) < A.S := by exact_mod_cast hSpos
    have hN' : (0 : ℝ) < N := by exact_mod_cast (by omega : 0 < N)
    have hSN' : (A.S : ℝ) ≤ N := by exact_mod_cast hSN
    have hr : ((r : ℕ) : ℝ) + 1 ≤ A.S := by exact_mod_cast r.2
    have hr0 : (0 : ℝ) ≤ ((r : ℕ) : ℝ) := Nat.cast_nonneg _
    have hle : L / N ≤ L / A.S := div_le_div_of_nonneg_left hL.le hS' hSN'
    have e1 : (A.S : ℝ) * (L / A.S) = L := by field_simp
    have e2 : (N : ℝ) * (L / N) = L := by field_simp
    have hp : 0 < L / A.S := div_pos hL hS'
    rw [Nat.cast_sub (by omega : 1 ≤ N)]
    push_cast
    constructor
    · nlinarith
    · nlinarith
  have hsx := frac_mem hNx (h := A.Lx / A.Nx) (div_pos hx (by exact_mod_cast (by omega : 0 < A.Nx))) (g := xLine A.Nx A.Ny A.Lx A.Ly) (fun i _ => xLine_eq _ _ _ _ (by omega) i)
    (x := ((p : ℕ) + 1 / 2) * (A.Lx / A.S)) (by rw [xLine_eq _ _ _ _ (by omega)]; exact (hin _ _ p hNx hx hSx).1) (by rw [xLine_eq _ _ _ _ (by omega)]; exact (hin _ _ p hNx hx hSx).2)
  have hsy := frac_mem hNy (h := A.Ly / A.Ny) (div_pos hy (by exact_mod_cast (by omega : 0 < A.Ny))) (g := yLine A.Nx A.Ny A.Lx A.Ly) (fun j hj => yLine_eq _ _ _ _ hj)
    (x := ((q : ℕ) + 1 / 2) * (A.Ly / A.S)) (by rw [yLine_eq _ _ _ _ (by omega)]; exact (hin _ _ q hNy hy hSy).1) (by rw [yLine_eq _ _ _ _ (by omega)]; exact (hin _ _ q hNy hy hSy).2)
  have hb : ∀ i j, i < A.Nx → j < A.Ny → lo ≤ reshapeRho A rho i j ∧ reshapeRho A rho i j ≤ hi := fun i j h1 h2 => by
    unfold reshapeRho
    rw [dif_pos (reshape_lt A h1 h2)]
    exact hrho _
  have hmix : ∀ s a b : ℝ, 0 ≤ s → s ≤ 1 → lo ≤ a ∧ a ≤ hi → lo ≤ b ∧ b ≤ hi → lo ≤ (1 - s) * a + s * b ∧ (1 - s) * a + s * b ≤ hi := fun s a b h0 h1 ha hb => by
    constructor <;> nlinarith [mul_nonneg h0 (sub_nonneg.mpr hb.1), mul_nonneg h0 (sub_nonneg.mpr hb.2), mul_nonneg (sub_nonneg.mpr h1) (sub_nonneg.mpr ha.1), mul_nonneg (sub_nonneg.mpr h1) (sub_nonneg.mpr ha.2)]
  show lo ≤ interp2 _ _ _ _ _ _ ∧ interp2 _ _ _ _ _ _ ≤ hi
  rw [centroid_get A.S A.S A.Lx A.Ly q.2]
  have hi1 := interval_lt hNx (xLine A.Nx A.Ny A.Lx A.Ly) (((p : ℕ) + 1 / 2) * (A.Lx / A.S))
  have hj1 := interval_lt hNy (yLine A.Nx A.Ny A.Lx A.Ly) (((q : ℕ) + 1 / 2) * (A.Ly / A.S))
  exact hmix _ _ _ hsx.1 hsx.2 (hmix _ _ _ hsy.1 hsy.2 (hb _ _ (Nat.lt_of_succ_lt hi1) (Nat.lt_of_succ_lt hj1)) (hb _ _ (Nat.lt_of_succ_lt hi1) hj1)) (hmix _ _ _ hsy.1 hsy.2 (hb _ _ hi1 (Nat.lt_of_succ_lt hj1)) (hb _ _ hi1 hj1))

/-- **C154 (overshoot).** With more pixels than cells along `x`, densities in `[0, 1]` can give pixels above one: the first row of pixels lies outside the cell centres and is extrapolated. -/
theorem C154_overshoot (hNx : 2 ≤ A.Nx) (hNy : 2 ≤ A.Ny) (hx : 0 < A.Lx) (hS : A.Nx < A.S) :
    ∃ rho : Fin (A.Nx * A.Ny) → ℝ, (∀ n, 0 ≤ rho n ∧ rho n ≤ 1) ∧ ∀ c q, imageOf A rho c ⟨0, by omega⟩ q = 3 / 2 - A.Nx / (2 * A.S) ∧ 1 < imageOf A rho c ⟨0, by omega⟩ q := by
  classical
  refine ⟨fun n => if (n : ℕ) < A.Ny then 1 else 0, fun n => ?_, fun c q => ?_⟩
  · dsimp only
    split_ifs <;> norm_num
  have hSpos : (0 : ℝ) < A.S := by exact_mod_cast (by omega : 0 < A.S)
  have hNpos : (0 : ℝ) < A.Nx := by exact_mod_cast (by omega : 0 < A.Nx)
  have hlt : (A.Nx : ℝ) < A.S := by exact_mod_cast hS
  have hxv : ((centroids (rectangleMesh A.S A.S A.Lx A.Ly)).get (((⟨0, by omega⟩ : Fin A.S) : ℕ) * A.S + q)) 0 = 1 / 2 * (A.Lx / A.S) := by
    rw [centroid_get A.S A.S A.Lx A.Ly q.2]
    simp
  have hdata : ∀ i j, i < A.Nx → j < A.Ny → reshapeRho A (fun n => if (n : ℕ) < A.Ny then (1 : ℝ) else 0) i j = if i = 0 then 1 else 0 := fun i j hi hj => by
    unfold reshapeRho
    rw [dif_pos (reshape_lt A hi hj)]
    show (if i * A.Ny + j < A.Ny then (1 : ℝ) else 0) = _
    by_cases h0 : i = 0
    · rw [if_pos h0, if_pos (by subst h0; simpa using hj)]
    · rw [if_neg h0, if_neg (by
        have : 1 ≤ i := Nat.pos_of_ne_zero h0
        have := Nat.mul_le_mul_right A.Ny this
        omega)]
  have hint : interval A.Nx (xLine A.Nx A.Ny A.Lx A.Ly) (1 / 2 * (A.Lx / A.S)) = 0 := by
    unfold interval
    have : (@Finset.filter ℕ (fun i => xLine A.Nx A.Ny A.Lx A.Ly i < 1 / 2 * (A.Lx / A.S)) (fun a => Classical.propDecidable _) (range A.Nx)) = ∅ := by
      rw [filter_eq_empty_iff]
      intro i _
      rw [xLine_eq _ _ _ _ (by omega), not_lt]
      have h1 : A.Lx / A.S ≤ A.Lx / A.Nx := div_le_div_of_nonneg_left hx.le hNpos hlt.le
      have h2 : 0 < A.Lx / A.Nx := div_pos hx hNpos
      have h3 : (0 : ℝ) ≤ i := Nat.cast_nonneg i
      nlinarith
    rw [this]
    simp
  have hfrac : frac A.Nx (xLine A.Nx A.Ny A.Lx A.Ly) (1 / 2 * (A.Lx / A.S)) = (A.Nx / A.S - 1) / 2 := by
    unfold frac
    rw [hint, xLine_eq _ _ _ _ (by omega), xLine_eq _ _ _ _ (by omega)]
    push_cast
    field_simp
    ring
  have hval : imageOf A (fun n => if (n : ℕ) < A.Ny then (1 : ℝ) else 0) c ⟨0, by omega⟩ q = 3 / 2 - A.Nx / (2 * A.S) := by
    show interp2 _ _ _ _ _ _ = _
    rw [interp2_congr (data' := fun i _ => if i = 0 then 1 else 0) _ _ hNx hNy (fun i hi j hj => hdata i j hi hj), interp2_eq hNx hNy]
    rw [sum_congr rfl fun i _ => by rw [← sum_mul, wt_one hNy, one_mul], sum_wt hNx, hxv, hint, hfrac]
    simp
    field_simp
    ring
  refine ⟨hval, ?_⟩
  rw [hval]
  have : (A.Nx : ℝ) / (2 * A.S) < 1 / 2 := by rw [div_lt_div_iff₀ (by positivity) (by norm_num)]; linarith
  linarith

/-- 200 cells and 512 pixels: the extrapolated row reaches `3/2 - 200/1024`, about `1.3`. -/
example : ∃ rho : Fin (200 * 200) → ℝ, (∀ n, 0 ≤ rho n ∧ rho n ≤ 1) ∧ ∀ c q, imageOf ⟨200, 200, 512, 1, 1⟩ rho c ⟨0, by norm_num⟩ q = 167 / 128 := by
  obtain ⟨rho, h, h'⟩ := C154_overshoot ⟨200, 200, 512, 1, 1⟩ (by norm_num) (by norm_num) (by norm_num) (by norm_num)
  exact ⟨rho, h, fun c q => by rw [(h' c q).1]; norm_num⟩

/-- A mean brightness of 2 by 2 pixels on 3 by 2 cells: the constant image gradient of `C154_total`. -/
example (rho : Fin (3 * 2) → ℝ) : fderiv ℝ (styleValue ⟨3, 2, 2, 1, 1⟩ (rowLoss 2 fun _ => 1 / 12)) rho (fun _ => 1) = 1 ∧ ∑ n, styleGrad ⟨3, 2, 2, 1, 1⟩ (rowLoss 2 fun _ => 1 / 12) rho n = 1 / 2 := by
  have h := C154_total ⟨3, 2, 2, 1, 1⟩ (by norm_num) (by norm_num) (by norm_num) (rowLoss 2 fun _ => 1 / 12) rho (rowLoss 2 fun _ => 1 / 12).differentiableAt (1 / 12) fun c p q => by
    rw [ContinuousLinearMap.fderiv, rowLoss_pixel]
  refine ⟨h.1.trans (by norm_num), h.2.trans (by norm_num)⟩

end Verif.Aesthetic
