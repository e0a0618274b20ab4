import Verif.PhaseField.AllenCahnLemmas
import Mathlib.Analysis.SpecialFunctions.Trigonometric.Bounds
import Mathlib.Algebra.BigOperators.Field

/-!
# C48, C49, C50: initial condition, gradient flow, equivariance and stationarity of the grain-growth model
-/
namespace Verif.PhaseField
open Verif Verif.Mesh

variable {m d : ℕ}

/-! ## C48 -/

theorem foldl_setEntry (l : List ℕ) (ori : ℕ → Fin m) (eta : ℕ → Fin m → ℝ) (n : ℕ) (o : Fin m) :
    ((l.map fun n : ℕ => (n, ori n)).foldl (fun eta (p : ℕ × Fin m) => setEntry eta p.1 p.2 1) eta) n o =
      if n ∈ l ∧ o = ori n then 1 else eta n o := by
  induction l generalizing eta with
  | nil => simp
  | cons a l ih =>
    rw [List.map_cons, List.foldl_cons, ih]
    by_cases hn : n = a
    · subst hn
      by_cases ho : o = ori n
      · subst ho; simp [setEntry]
      · simp [setEntry, ho]
    · simp [setEntry, hn]

/-- **C48.** Every cell has exactly one order parameter equal to 1, the one of its orientation; all others are 0; the sum over orientations is 1. -/
theorem C48_one_hot (num_nodes : ℕ) (ori : ℕ → Fin m) {n : ℕ} (hn : n < num_nodes) :
    (∀ o, iniCond num_nodes ori n o = if o = ori n then 1 else 0) ∧
    (∃! o, iniCond num_nodes ori n o = 1) ∧ ∑ o, iniCond num_nodes ori n o = 1 := by
  have h : ∀ o, iniCond num_nodes ori n o = if o = ori n then 1 else 0 := by
    intro o
    unfold iniCond
    rw [foldl_setEntry]
    simp [hn]
  refine ⟨h, ⟨ori n, by simp [h], ?_⟩, by simp [h]⟩
  intro o ho
  by_contra hne
  have := h o
  rw [if_neg hne] at this
  have ho' : iniCond num_nodes ori n o = 1 := ho
  rw [this] at ho'
  exact zero_ne_one ho'

/-- Instance: cell 1 of 3 with orientations 0, 1, 0. -/
example : (1 : ℕ) < 3 ∧ iniCond 3 (fun n : ℕ => if n = 1 then 1 else 0) 1 (1 : Fin 2) = 1 := by
  refine ⟨by norm_num, ?_⟩
  rw [(C48_one_hot 3 _ (by norm_num)).1]
  rfl

/-! ## C49: specification of the free energy -/

/-- Double-well plus obstacle energy density of one cell: `Σ (η⁴/4 - η²/2) + Σ_{o≠p} η_o² η_p² + (1-ζ)² Σ η²`. -/
noncomputable def bulkDensity (x : Fin m → ℝ) (z : ℝ) : ℝ :=
  (∑ o, (x o ^ 4 / 4 - x o ^ 2 / 2)) + (∑ o, ∑ p ∈ Finset.univ.erase o, x o ^ 2 * x p ^ 2) + (1 - z) ^ 2 * ∑ o, x o ^ 2

/-- Sum of squared face differences divided by the squared spacing. -/
noncomputable def faceSum (P : PfArgs m d) (eta : ℕ → Fin m → ℝ) (o : Fin m) : ℝ :=
  (∑ k ∈ Finset.range P.Nz, ∑ j ∈ Finset.range P.Ny, ∑ i ∈ Finset.range (P.Nx - 1),
      ((eta (etaNo P k j (i + 1)) o - eta (etaNo P k j i) o) / P.hx) ^ 2)
  + (∑ k ∈ Finset.range P.Nz, ∑ i ∈ Finset.range P.Nx, ∑ j ∈ Finset.range (P.Ny - 1),
      ((eta (etaNo P k (j + 1) i) o - eta (etaNo P k j i) o) / P.hy) ^ 2)
  + (∑ j ∈ Finset.range P.Ny, ∑ i ∈ Finset.range P.Nx, ∑ k ∈ Finset.range (P.Nz - 1),
      ((eta (etaNo P (k + 1) j i) o - eta (etaNo P k j i) o) / P.hz) ^ 2)

/-- Free energy; `ad_hoc` is the interface-width factor of the code (1 leaves the physical energy). -/
noncomputable def freeEnergy (P : PfArgs m d) (zeta : ℕ → ℝ) (eta : ℕ → Fin m → ℝ) : ℝ :=
  P.m_g / P.ad_hoc * (∑ n ∈ Finset.range P.N, bulkDensity (eta n) (zeta n))
    + P.ad_hoc * (P.kappa_g / 2 * ∑ o, faceSum P eta o)

theorem localEnergy_eq (P : PfArgs m d) (eta : ℕ → Fin m → ℝ) (zeta : ℕ → ℝ) :
    localEnergy P eta zeta = P.m_g * ∑ n ∈ Finset.range P.N, bulkDensity (eta n) (zeta n) := by
  unfold localEnergy bulkDensity
  simp only [one_mul]
  rw [← Finset.sum_sub_distrib, ← Finset.sum_add_distrib, ← Finset.sum_add_distrib]
  congr 1
  refine Finset.sum_congr rfl fun n _ => ?_
  congr 2
  rw [← Finset.sum_sub_distrib]
  refine Finset.sum_congr rfl fun o _ => ?_
  rw [← Finset.add_sum_erase _ _ (Finset.mem_univ o)]
  rw [show (eta n o * eta n o) ^ 2 = eta n o ^ 4 by ring, add_sub_cancel_left]
  exact Finset.sum_congr rfl fun p _ => by ring

theorem line_dir (N : ℕ) (g v : ℕ → ℝ) (h : ℝ) :
    HasDerivAt (fun s : ℝ => ∑ i ∈ Finset.range (N - 1), (((g (i + 1) + s * v (i + 1)) - (g i + s * v i)) / h) ^ 2)
      (-2 * ∑ i ∈ Finset.range N, lap1 N g i / h ^ 2 * v i) 0 := by
  have h1 : HasDerivAt (fun s : ℝ => ∑ i ∈ Finset.range (N - 1), (((g (i + 1) + s * v (i + 1)) - (g i + s * v i)) / h) ^ 2)
      (∑ i ∈ Finset.range (N - 1), 2 * ((g (i + 1) - g i) / h) * ((v (i + 1) - v i) / h)) 0 :=
    HasDerivAt.fun_sum fun i _ =>
      ((((hasDerivAt_entry (g (i + 1)) (v (i + 1))).fun_sub (hasDerivAt_entry (g i) (v i))).div_const h).fun_pow 2).congr_deriv
        (by simp)
  refine h1.congr_deriv ?_
  have := lap1_parts N g v
  have e1 : ∑ i ∈ Finset.range N, lap1 N g i / h ^ 2 * v i = (∑ i ∈ Finset.range N, lap1 N g i * v i) / h ^ 2 := by
    rw [Finset.sum_div]; exact Finset.sum_congr rfl fun i _ => by ring
  rw [e1, this, neg_div, neg_mul_neg, Finset.sum_div, Finset.mul_sum]
  exact Finset.sum_congr rfl fun i _ => by ring

theorem faceSum_dir (P : PfArgs m d) (eta v : ℕ → Fin m → ℝ) (o : Fin m) :
    HasDerivAt (fun s : ℝ => faceSum P (fun n o => eta n o + s * v n o) o)
      (-2 * ∑ k ∈ Finset.range P.Nz, ∑ j ∈ Finset.range P.Ny, ∑ i ∈ Finset.range P.Nx,
        (lap1 P.Nx (fun i => eta (etaNo P k j i) o) i / P.hx ^ 2
        + lap1 P.Ny (fun j => eta (etaNo P k j i) o) j / P.hy ^ 2
        + lap1 P.Nz (fun k => eta (etaNo P k j i) o) k / P.hz ^ 2) * v (etaNo P k j i) o) 0 := by
  unfold faceSum
  have hx : HasDerivAt (fun s : ℝ => ∑ k ∈ Finset.range P.Nz, ∑ j ∈ Finset.range P.Ny, ∑ i ∈ Finset.range (P.Nx - 1),
      (((eta (etaNo P k j (i + 1)) o + s * v (etaNo P k j (i + 1)) o) - (eta (etaNo P k j i) o + s * v (etaNo P k j i) o)) / P.hx) ^ 2)
      (∑ k ∈ Finset.range P.Nz, ∑ j ∈ Finset.range P.Ny, (-2 * ∑ i ∈ Finset.range P.Nx, lap1 P.Nx (fun i => eta (etaNo P k j i) o) i / P.hx ^ 2 * v (etaNo P k j i) o)) 0 :=
    HasDerivAt.fun_sum fun k _ => HasDerivAt.fun_sum fun j _ =>
      line_dir P.Nx (fun i => eta (etaNo P k j i) o) (fun i => v (etaNo P k j i) o) P.hx
  have hy : HasDerivAt (fun s : ℝ => ∑ k ∈ Finset.range P.Nz, ∑ i ∈ Finset.range P.Nx, ∑ j ∈ Finset.range (P.Ny - 1),
      (((eta (etaNo P k (j + 1) i) o + s * v (etaNo P k (j + 1) i) o) - (eta (etaNo P k j i) o + s * v (etaNo P k j i) o)) / P.hy) ^ 2)
      (∑ k ∈ Finset.range P.Nz, ∑ i ∈ Finset.range P.Nx, (-2 * ∑ j ∈ Finset.range P.Ny, lap1 P.Ny (fun j => eta (etaNo P k j i) o) j / P.hy ^ 2 * v (etaNo P k j i) o)) 0 :=
    HasDerivAt.fun_sum fun k _ => HasDerivAt.fun_sum fun i _ =>
      line_dir P.Ny (fun j => eta (etaNo P k j i) o) (fun j => v (etaNo P k j i) o) P.hy
  have hz : HasDerivAt (fun s : ℝ => ∑ j ∈ Finset.range P.Ny, ∑ i ∈ Finset.range P.Nx, ∑ k ∈ Finset.range (P.Nz - 1),
      (((eta (etaNo P (k + 1) j i) o + s * v (etaNo P (k + 1) j i) o) - (eta (etaNo P k j i) o + s * v (etaNo P k j i) o)) / P.hz) ^ 2)
      (∑ j ∈ Finset.range P.Ny, ∑ i ∈ Finset.range P.Nx, (-2 * ∑ k ∈ Finset.range P.Nz, lap1 P.Nz (fun k => eta (etaNo P k j i) o) k / P.hz ^ 2 * v (etaNo P k j i) o)) 0 :=
    HasDerivAt.fun_sum fun j _ => HasDerivAt.fun_sum fun i _ =>
      line_dir P.Nz (fun k => eta (etaNo P k j i) o) (fun k => v (etaNo P k j i) o) P.hz
  refine ((hx.fun_add hy).fun_add hz).congr_deriv ?_
  simp only [← Finset.mul_sum]
  have cy : ∑ k ∈ Finset.range P.Nz, ∑ i ∈ Finset.range P.Nx, ∑ j ∈ Finset.range P.Ny, lap1 P.Ny (fun j => eta (etaNo P k j i) o) j / P.hy ^ 2 * v (etaNo P k j i) o
      = ∑ k ∈ Finset.range P.Nz, ∑ j ∈ Finset.range P.Ny, ∑ i ∈ Finset.range P.Nx, lap1 P.Ny (fun j => eta (etaNo P k j i) o) j / P.hy ^ 2 * v (etaNo P k j i) o :=
    Finset.sum_congr rfl fun k _ => Finset.sum_comm
  have cz : ∑ j ∈ Finset.range P.Ny, ∑ i ∈ Finset.range P.Nx, ∑ k ∈ Finset.range P.Nz, lap1 P.Nz (fun k => eta (etaNo P k j i) o) k / P.hz ^ 2 * v (etaNo P k j i) o
      = ∑ k ∈ Finset.range P.Nz, ∑ j ∈ Finset.range P.Ny, ∑ i ∈ Finset.range P.Nx, lap1 P.Nz (fun k => eta (etaNo P k j i) o) k / P.hz ^ 2 * v (etaNo P k j i) o := by
    rw [Finset.sum_congr rfl fun j _ => Finset.sum_comm (s := Finset.range P.Nx) (t := Finset.range P.Nz)
      (f := fun i k => lap1 P.Nz (fun k => eta (etaNo P k j i) o) k / P.hz ^ 2 * v (etaNo P k j i) o)]
    exact Finset.sum_comm
  rw [cy, cz, ← mul_add, ← mul_add]
  congr 1
  rw [← Finset.sum_add_distrib, ← Finset.sum_add_distrib]
  refine Finset.sum_congr rfl fun k _ => ?_
  rw [← Finset.sum_add_distrib, ← Finset.sum_add_distrib]
  refine Finset.sum_congr rfl fun j _ => ?_
  rw [← Finset.sum_add_distrib, ← Finset.sum_add_distrib]
  exact Finset.sum_congr rfl fun i _ => by ring

theorem sum_cells (P : PfArgs m d) (f : ℕ → ℝ) : ∑ n ∈ Finset.range P.N, f n =
    ∑ k ∈ Finset.range P.Nz, ∑ j ∈ Finset.range P.Ny, ∑ i ∈ Finset.range P.Nx, f (etaNo P k j i) :=
  sum_range_mul3 _ _ _ _

/-- **C49 (gradient flow).** Without anisotropy there is a vector field `g` that is the gradient of the free energy (directional derivative `Σ g·v` in every direction `v`) and the right-hand side is
`-Lg·g`, for every grid, state and temperature field. -/
theorem C49_gradient_flow (th : ℝ → ℝ) (P : PfArgs m d) (T : ℕ → ℝ) (eta : ℕ → Fin m → ℝ) (hiso : ¬ P.anisotropy > 0) :
    ∃ g : ℕ → Fin m → ℝ,
      (∀ v : ℕ → Fin m → ℝ, HasDerivAt (fun s : ℝ => freeEnergy P (zetaOf th P T) (fun n o => eta n o + s * v n o))
        (∑ n ∈ Finset.range P.N, ∑ o, g n o * v n o) 0) ∧
      ∀ n < P.N, ∀ o, stateRhs th P T eta n o = -LgOf P T n * g n o := by
  refine ⟨fun n o => localGradExplicit P eta (zetaOf th P T) n o / P.ad_hoc + (laplaceTerm P eta).get n o, ?_, ?_⟩
  · intro v
    have h1 := (localEnergy_dir P eta v (zetaOf th P T)).div_const P.ad_hoc
    have h2 := ((HasDerivAt.fun_sum (u := Finset.univ) fun o _ => faceSum_dir P eta v o).const_mul (P.kappa_g / 2)).const_mul P.ad_hoc
    have h := h1.fun_add h2
    have hf : (fun s : ℝ => freeEnergy P (zetaOf th P T) (fun n o => eta n o + s * v n o)) =
        fun s : ℝ => localEnergy P (fun n o => eta n o + s * v n o) (zetaOf th P T) / P.ad_hoc
          + P.ad_hoc * (P.kappa_g / 2 * ∑ o, faceSum P (fun n o => eta n o + s * v n o) o) := by
      funext s
      unfold freeEnergy
      rw [localEnergy_eq]; ring
    rw [hf]
    refine h.congr_deriv ?_
    have hsplit : ∀ A B : ℕ → Fin m → ℝ, ∑ n ∈ Finset.range P.N, ∑ o, (A n o + B n o) * v n o =
        (∑ n ∈ Finset.range P.N, ∑ o, A n o * v n o) + ∑ n ∈ Finset.range P.N, ∑ o, B n o * v n o := by
      intro A B
      simp only [add_mul, Finset.sum_add_distrib]
    rw [hsplit]
    congr 1
    · rw [Finset.sum_div]
      refine Finset.sum_congr rfl fun n _ => ?_
      rw [Finset.sum_div]
      exact Finset.sum_congr rfl fun o _ => by ring
    · rw [Finset.sum_comm, ← mul_assoc, Finset.mul_sum]
      refine Finset.sum_congr rfl fun o _ => ?_
      rw [sum_cells, ← mul_assoc, Finset.mul_sum]
      refine Finset.sum_congr rfl fun k hk => ?_
      rw [Finset.mul_sum]
      refine Finset.sum_congr rfl fun j hj => ?_
      rw [Finset.mul_sum]
      refine Finset.sum_congr rfl fun i hi => ?_
      rw [Finset.mem_range] at hk hj hi
      obtain ⟨a, ha, -, h⟩ := laplaceTerm_get P eta hk hj hi o
      rw [h, ha hiso]
      ring
  · intro n hn o
    simp only [stateRhs]
    rw [localEnergyGrad_eq P eta _ hn o]

/-- **C49 (dissipation).** Along the computed right-hand side the free energy does not increase. -/
theorem C49_dissipation (th : ℝ → ℝ) (P : PfArgs m d) (T : ℕ → ℝ) (eta : ℕ → Fin m → ℝ) (hiso : ¬ P.anisotropy > 0)
    (hL : 0 ≤ P.L0) :
    ∃ D ≤ 0, HasDerivAt (fun s : ℝ => freeEnergy P (zetaOf th P T)
      (fun n o => eta n o + s * stateRhs th P T eta n o)) D 0 := by
  obtain ⟨g, hg, hr⟩ := C49_gradient_flow th P T eta hiso
  refine ⟨_, ?_, hg _⟩
  refine Finset.sum_nonpos fun n hn => Finset.sum_nonpos fun o _ => ?_
  rw [hr n (Finset.mem_range.mp hn) o]
  have hLg : 0 ≤ LgOf P T n := mul_nonneg hL (Real.exp_pos _).le
  nlinarith [mul_nonneg hLg (sq_nonneg (g n o))]

/-- **C49 (diffusion conserves).** Without anisotropy the diffusion part of each order parameter sums to zero over the cells. -/
theorem C49_diffusion_conserves (P : PfArgs m d) (eta : ℕ → Fin m → ℝ) (hiso : ¬ P.anisotropy > 0) (o : Fin m) :
    ∑ n ∈ Finset.range P.N, (laplaceTerm P eta).get n o = 0 := by
  rw [sum_cells]
  have h := faceSum_dir P eta (fun _ _ => 1) o
  have h0 : (fun s : ℝ => faceSum P (fun n o => eta n o + s * 1) o) = fun _ => faceSum P eta o := by
    funext s; unfold faceSum; simp
  rw [h0] at h
  have hz := (hasDerivAt_const (0 : ℝ) (faceSum P eta o)).unique h
  have : ∑ k ∈ Finset.range P.Nz, ∑ j ∈ Finset.range P.Ny, ∑ i ∈ Finset.range P.Nx,
        (lap1 P.Nx (fun i => eta (etaNo P k j i) o) i / P.hx ^ 2
        + lap1 P.Ny (fun j => eta (etaNo P k j i) o) j / P.hy ^ 2
        + lap1 P.Nz (fun k => eta (etaNo P k j i) o) k / P.hz ^ 2) = 0 := by
    simp only [mul_one] at hz
    linarith
  calc _ = ∑ k ∈ Finset.range P.Nz, ∑ j ∈ Finset.range P.Ny, ∑ i ∈ Finset.range P.Nx,
        -(P.kappa_g * P.ad_hoc) * (lap1 P.Nx (fun i => eta (etaNo P k j i) o) i / P.hx ^ 2
        + lap1 P.Ny (fun j => eta (etaNo P k j i) o) j / P.hy ^ 2
        + lap1 P.Nz (fun k => eta (etaNo P k j i) o) k / P.hz ^ 2) := by
        refine Finset.sum_congr rfl fun k hk => Finset.sum_congr rfl fun j hj => Finset.sum_congr rfl fun i hi => ?_
        rw [Finset.mem_range] at hk hj hi
        obtain ⟨a, ha, -, h⟩ := laplaceTerm_get P eta hk hj hi o
        rw [h, ha hiso]; ring
    _ = 0 := by simp only [← Finset.mul_sum]; rw [this, mul_zero]

theorem lap1_const (N : ℕ) (c : ℝ) (i : ℕ) : lap1 N (fun _ => c) i = 0 := by simp [lap1]

/-- **C49 (diffusion vanishes on constants).** Also with anisotropy: a spatially constant order parameter has no diffusion term. -/
theorem C49_diffusion_constant (P : PfArgs m d) (eta : ℕ → Fin m → ℝ) (o : Fin m) (c : ℝ) (hc : ∀ n < P.N, eta n o = c)
    {n : ℕ} (hn : n < P.N) : (laplaceTerm P eta).get n o = 0 := by
  obtain ⟨k, j, i, hk, hj, hi, rfl⟩ := idx3_surj hn
  obtain ⟨a, -, -, h⟩ := laplaceTerm_get P eta hk hj hi o
  have hlt : ∀ {k j i}, k < P.Nz → j < P.Ny → i < P.Nx → eta (etaNo P k j i) o = c :=
    fun hk hj hi => hc _ (idx3_lt hk hj hi)
  have hx : lap1 P.Nx (fun i => eta (etaNo P k j i) o) i = 0 := by
    unfold lap1
    beta_reduce
    rw [hlt hk hj hi]
    split_ifs with h1 h2 h2
    · rw [hlt hk hj h1, hlt hk hj (show i - 1 < P.Nx by omega)]; ring
    · rw [hlt hk hj h1]; ring
    · rw [hlt hk hj (show i - 1 < P.Nx by omega)]; ring
    · ring
  have hy : lap1 P.Ny (fun j => eta (etaNo P k j i) o) j = 0 := by
    unfold lap1
    beta_reduce
    rw [hlt hk hj hi]
    split_ifs with h1 h2 h2
    · rw [hlt hk h1 hi, hlt hk (show j - 1 < P.Ny by omega) hi]; ring
    · rw [hlt hk h1 hi]; ring
    · rw [hlt hk (show j - 1 < P.Ny by omega) hi]; ring
    · ring
  have hz : lap1 P.Nz (fun k => eta (etaNo P k j i) o) k = 0 := by
    unfold lap1
    beta_reduce
    rw [hlt hk hj hi]
    split_ifs with h1 h2 h2
    · rw [hlt h1 hj hi, hlt (show k - 1 < P.Nz by omega) hj hi]; ring
    · rw [hlt h1 hj hi]; ring
    · rw [hlt (show k - 1 < P.Nz by omega) hj hi]; ring
    · ring
  have e : (laplaceTerm P eta).get ((k * P.Ny + j) * P.Nx + i) o = _ := h
  rw [e, hx, hy, hz]; ring

/-! ## C50 -/

/-- Exact right-hand side of a uniform single-grain field: only the melting term `2 m_g (1-ζ)²` acts, and only on that grain. -/
theorem C50_single_grain (th : ℝ → ℝ) (P : PfArgs m d) (T : ℕ → ℝ) (eta : ℕ → Fin m → ℝ) (g : Fin m)
    (he : ∀ n < P.N, ∀ o, eta n o = if o = g then 1 else 0) {n : ℕ} (hn : n < P.N) (o : Fin m) :
    stateRhs th P T eta n o =
      if o = g then -LgOf P T n * (2 * P.m_g * (1 - zetaOf th P T n) ^ 2 / P.ad_hoc) else 0 := by
  simp only [stateRhs]
  rw [localEnergyGrad_eq P eta _ hn o, C49_diffusion_constant P eta o (if o = g then 1 else 0) (fun n hn => he n hn o) hn]
  unfold localGradExplicit
  have hs : ∑ p, eta n p ^ 2 = 1 := by
    simp [he n hn]
  rw [hs, he n hn]
  split_ifs <;> ring

/-- **C50 (stationarity).** A uniform single-grain field does not change in a step of any length if the material is solid (`ζ = 1`) everywhere, and any other order parameter never appears. -/
theorem C50_stationary (th : ℝ → ℝ) (P : PfArgs m d) (T : ℕ → ℝ) (eta : ℕ → Fin m → ℝ) (g : Fin m)
    (he : ∀ n < P.N, ∀ o, eta n o = if o = g then 1 else 0) (hz : ∀ n < P.N, zetaOf th P T n = 1) (t0 t1 : ℝ)
    {n : ℕ} (hn : n < P.N) (o : Fin m) :
    (stepper th P (eta, t0) t1 T).1 n o = eta n o := by
  show eta n o + (t1 - t0) * stateRhs th P T eta n o = eta n o
  rw [C50_single_grain th P T eta g he hn o, hz n hn]
  split_ifs <;> ring

/-- **C50 (stationarity over a history).** -/
theorem C50_stationary_run (th : ℝ → ℝ) (P : PfArgs m d) (steps : List (ℝ × (ℕ → ℝ))) (g : Fin m)
    (hz : ∀ s ∈ steps, ∀ n < P.N, zetaOf th P s.2 n = 1) (eta : ℕ → Fin m → ℝ) (t0 : ℝ)
    (he : ∀ n < P.N, ∀ o, eta n o = if o = g then 1 else 0) {n : ℕ} (hn : n < P.N) (o : Fin m) :
    (runSteps th P steps (eta, t0)).1 n o = if o = g then 1 else 0 := by
  induction steps generalizing eta t0 with
  | nil => exact he n hn o
  | cons s l ih =>
    have hstep : ∀ n < P.N, ∀ o, (stepper th P (eta, t0) s.1 s.2).1 n o = if o = g then 1 else 0 := by
      intro n hn o
      rw [C50_stationary th P s.2 eta g he (hz s (by simp)) t0 s.1 hn o]
      exact he n hn o
    exact ih (fun s' hs' => hz s' (by simp [hs'])) _ s.1 hstep

/-- **C50 (phase indicator).** For a `tanh` with values in [-1, 1] that is monotone and vanishes at 0: `ζ` lies in [0, 1], does not increase with temperature, and is 1/2 at a liquidus not above 2000 K. -/
theorem C50_zeta (th : ℝ → ℝ) (hth : ∀ x, |th x| ≤ 1) (hmono : Monotone th) (h0 : th 0 = 0) (P : PfArgs m d)
    (hliq : 0 < P.T_liquidus) (hl2 : P.T_liquidus ≤ 2000) (T T' : ℕ → ℝ) (n : ℕ) :
    0 ≤ zetaOf th P T n ∧ zetaOf th P T n ≤ 1 ∧ (T n ≤ T' n → zetaOf th P T' n ≤ zetaOf th P T n) ∧
    (T n = P.T_liquidus → zetaOf th P T n = 1 / 2) := by
  unfold zetaOf
  refine ⟨?_, ?_, ?_, ?_⟩
  · have := (abs_le.mp (hth (1e10 * (capT (T n) / P.T_liquidus - 1)))).2; linarith
  · have := (abs_le.mp (hth (1e10 * (capT (T n) / P.T_liquidus - 1)))).1; linarith
  · intro hT
    have hc : capT (T n) ≤ capT (T' n) := by unfold capT; split_ifs <;> linarith
    have hd : capT (T n) / P.T_liquidus ≤ capT (T' n) / P.T_liquidus := div_le_div_of_nonneg_right hc hliq.le
    have := hmono (show 1e10 * (capT (T n) / P.T_liquidus - 1) ≤ 1e10 * (capT (T' n) / P.T_liquidus - 1) by linarith)
    linarith
  · intro hT
    have hc : capT (T n) = P.T_liquidus := by unfold capT; rw [hT, if_neg (not_lt.mpr hl2)]
    rw [hc, div_self hliq.ne', sub_self, mul_zero, h0]; norm_num

/-- **C50 (solid stays put).** With a `tanh` that saturates below -20 (as in floating point), a uniform single grain whose temperatures all stay below the liquidus by two parts in 10⁹ never changes. -/
theorem C50_solid_run (th : ℝ → ℝ) (hsat : ∀ x ≤ -20, th x = -1) (P : PfArgs m d) (hliq : 0 < P.T_liquidus)
    (steps : List (ℝ × (ℕ → ℝ))) (g : Fin m) (hT : ∀ s ∈ steps, ∀ n < P.N, s.2 n ≤ P.T_liquidus * (1 - 2 / 10 ^ 9))
    (eta : ℕ → Fin m → ℝ) (t0 : ℝ) (he : ∀ n < P.N, ∀ o, eta n o = if o = g then 1 else 0) {n : ℕ} (hn : n < P.N) (o : Fin m) :
    (runSteps th P steps (eta, t0)).1 n o = if o = g then 1 else 0 := by
  refine C50_stationary_run th P steps g ?_ eta t0 he hn o
  intro s hs n hn
  have h1 := hT s hs n hn
  have hc : capT (s.2 n) ≤ s.2 n := by unfold capT; split_ifs <;> linarith
  have h2 : capT (s.2 n) / P.T_liquidus ≤ 1 - 2 / 10 ^ 9 := by
    rw [div_le_iff₀ hliq]; linarith
  unfold zetaOf
  rw [hsat _ (by norm_num at h2 ⊢; linarith)]
  norm_num

theorem laplaceTerm_perm (P : PfArgs m d) (eta : ℕ → Fin m → ℝ) (σ : Equiv.Perm (Fin m)) (n : ℕ) (o : Fin m) :
    (laplaceTerm { P with dirs := fun q o => P.dirs q (σ o) } (fun n o => eta n (σ o))).get n o = (laplaceTerm P eta).get n (σ o) := by
  let e : Arr3 (Fin m → ℝ) := (⟨P.N, eta⟩ : Arr1 _).reshape3 P.Nz P.Ny P.Nx
  let e' : Arr3 (Fin m → ℝ) := (⟨P.N, fun n o => eta n (σ o)⟩ : Arr1 _).reshape3 P.Nz P.Ny P.Nx
  have hp : ∀ (c : Prop) [Decidable c] (a b a' b' : Fin m → ℝ), a' o = a (σ o) → b' o = b (σ o) →
      (if c then a' else b') o = (if c then a else b) (σ o) := by
    intro c _ a b a' b' h1 h2; split_ifs <;> assumption
  have x1 : ∀ k j i, (posX e').get k j i o = (posX e).get k j i (σ o) := fun k j i => by
    rw [posX_get, posX_get]; exact hp _ _ _ _ _ rfl rfl
  have x2 : ∀ k j i, (negX e').get k j i o = (negX e).get k j i (σ o) := fun k j i => by
    rw [negX_get, negX_get]; exact hp _ _ _ _ _ rfl rfl
  have y1 : ∀ k j i, (posY e').get k j i o = (posY e).get k j i (σ o) := fun k j i => by
    rw [posY_get, posY_get]; exact hp _ _ _ _ _ rfl rfl
  have y2 : ∀ k j i, (negY e').get k j i o = (negY e).get k j i (σ o) := fun k j i => by
    rw [negY_get, negY_get]; exact hp _ _ _ _ _ rfl rfl
  have z1 : ∀ k j i, (posZ e').get k j i o = (posZ e).get k j i (σ o) := fun k j i => by
    rw [posZ_get, posZ_get]; exact hp _ _ _ _ _ rfl rfl
  have z2 : ∀ k j i, (negZ e').get k j i o = (negZ e).get k j i (σ o) := fun k j i => by
    rw [negZ_get, negZ_get]; exact hp _ _ _ _ _ rfl rfl
  have han : ∀ k j i, (anisoField { P with dirs := fun q o => P.dirs q (σ o) } e').get k j i o = (anisoField P e).get k j i (σ o) := by
    intro k j i
    unfold anisoField
    simp only [x1, x2, y1, y2, z1, z2]
    rfl
  let k := n / P.Nx / P.Ny
  let j := n / P.Nx % P.Ny
  let i := n % P.Nx
  show -((((posX e').get k j i o - e'.get k j i o) + ((negX e').get k j i o - e'.get k j i o)) / P.hx ^ 2
        * (anisoField { P with dirs := fun q o => P.dirs q (σ o) } e').get k j i o * P.kappa_g * P.ad_hoc)
    + -((((posY e').get k j i o - e'.get k j i o) + ((negY e').get k j i o - e'.get k j i o)) / P.hy ^ 2
        * (anisoField { P with dirs := fun q o => P.dirs q (σ o) } e').get k j i o * P.kappa_g * P.ad_hoc)
    + -((((posZ e').get k j i o - e'.get k j i o) + ((negZ e').get k j i o - e'.get k j i o)) / P.hz ^ 2
        * (anisoField { P with dirs := fun q o => P.dirs q (σ o) } e').get k j i o * P.kappa_g * P.ad_hoc) = _
  rw [x1, x2, y1, y2, z1, z2, han]
  rfl

/-- **C50 (equivariance of the right-hand side).** Relabelling the orientations (and their crystal directions) permutes the right-hand side. -/
theorem C50_equivariant (th : ℝ → ℝ) (P : PfArgs m d) (T : ℕ → ℝ) (eta : ℕ → Fin m → ℝ) (σ : Equiv.Perm (Fin m))
    {n : ℕ} (hn : n < P.N) (o : Fin m) :
    stateRhs th { P with dirs := fun q o => P.dirs q (σ o) } T (fun n o => eta n (σ o)) n o = stateRhs th P T eta n (σ o) := by
  have hn' : n < PfArgs.N { P with dirs := fun q o => P.dirs q (σ o) } := hn
  simp only [stateRhs]
  rw [localEnergyGrad_eq _ _ _ hn' o, localEnergyGrad_eq P eta _ hn (σ o)]
  congr 2
  unfold localGradExplicit
  have : ∑ p, eta n (σ p) ^ 2 = ∑ p, eta n p ^ 2 := Equiv.sum_comp σ (fun p => eta n p ^ 2)
  · simp only [this]
    rfl
  · exact laplaceTerm_perm P eta σ n o

/-- Numbers after a run agree with the requested ones. -/
theorem runSteps_time (th : ℝ → ℝ) (P : PfArgs m d) (steps : List (ℝ × (ℕ → ℝ))) (s0 : (ℕ → Fin m → ℝ) × ℝ) :
    (runSteps th P steps s0).2 = ((steps.map Prod.fst).getLast?).getD s0.2 := by
  induction steps generalizing s0 with
  | nil => rfl
  | cons s l ih =>
    have := ih (stepper th P s0 s.1 s.2)
    rw [show runSteps th P (s :: l) s0 = runSteps th P l (stepper th P s0 s.1 s.2) from rfl, this]
    cases l with
    | nil => rfl
    | cons a l' => simp [List.getLast?_cons]

/-- **C50 (time bookkeeping and single step).** Each step is `y + h f(y)` with `h` the difference of the times, and after any history the recorded time is the last requested time. -/
theorem C50_step (th : ℝ → ℝ) (P : PfArgs m d) (steps : List (ℝ × (ℕ → ℝ))) (s0 : (ℕ → Fin m → ℝ) × ℝ) (t : ℝ) (T : ℕ → ℝ) :
    runSteps th P (steps ++ [(t, T)]) s0 =
      (fun n o => (runSteps th P steps s0).1 n o
          + (t - ((steps.map Prod.fst).getLast?).getD s0.2) * stateRhs th P T (runSteps th P steps s0).1 n o, t) := by
  have h : runSteps th P (steps ++ [(t, T)]) s0 = stepper th P (runSteps th P steps s0) t T := by
    simp [runSteps, List.foldl_append]
  rw [h, ← runSteps_time th P steps s0]
  rfl

theorem laplaceTerm_congr (P : PfArgs m d) (eta eta' : ℕ → Fin m → ℝ) (h : ∀ n < P.N, eta n = eta' n) {n : ℕ} (hn : n < P.N) :
    (laplaceTerm P eta).get n = (laplaceTerm P eta').get n := by
  obtain ⟨k, j, i, hk, hj, hi, rfl⟩ := idx3_surj hn
  let e : Arr3 (Fin m → ℝ) := (⟨P.N, eta⟩ : Arr1 _).reshape3 P.Nz P.Ny P.Nx
  let e' : Arr3 (Fin m → ℝ) := (⟨P.N, eta'⟩ : Arr1 _).reshape3 P.Nz P.Ny P.Nx
  have he : ∀ {k j i}, k < P.Nz → j < P.Ny → i < P.Nx → e.get k j i = e'.get k j i :=
    fun hk hj hi => h _ (idx3_lt hk hj hi)
  have h0 := he hk hj hi
  have x1 : (posX e).get k j i = (posX e').get k j i := by
    rw [posX_get, posX_get]
    show (if i + 1 < P.Nx then _ else _) = (if i + 1 < P.Nx then _ else _)
    split_ifs with h1
    · exact he hk hj h1
    · exact he hk hj (show P.Nx - 1 + (i - (P.Nx - 1)) < P.Nx by omega)
  have x2 : (negX e).get k j i = (negX e').get k j i := by
    rw [negX_get, negX_get]
    split_ifs with h1
    · exact he hk hj (show i - 1 < P.Nx by omega)
    · exact h0
  have y1 : (posY e).get k j i = (posY e').get k j i := by
    rw [posY_get, posY_get]
    show (if j + 1 < P.Ny then _ else _) = (if j + 1 < P.Ny then _ else _)
    split_ifs with h1
    · exact he hk h1 hi
    · exact he hk (show P.Ny - 1 + (j - (P.Ny - 1)) < P.Ny by omega) hi
  have y2 : (negY e).get k j i = (negY e').get k j i := by
    rw [negY_get, negY_get]
    split_ifs with h1
    · exact he hk (show j - 1 < P.Ny by omega) hi
    · exact h0
  have z1 : (posZ e).get k j i = (posZ e').get k j i := by
    rw [posZ_get, posZ_get]
    show (if k + 1 < P.Nz then _ else _) = (if k + 1 < P.Nz then _ else _)
    split_ifs with h1
    · exact he h1 hj hi
    · exact he (show P.Nz - 1 + (k - (P.Nz - 1)) < P.Nz by omega) hj hi
  have z2 : (negZ e).get k j i = (negZ e').get k j i := by
    rw [negZ_get, negZ_get]
    split_ifs with h1
    · exact he (show k - 1 < P.Nz by omega) hj hi
    · exact h0
  have hf' : ∀ a : Arr3 (Fin m → ℝ), a.n1 = P.Ny → a.n2 = P.Nx →
      a.flatten.get ((k * P.Ny + j) * P.Nx + i) = a.get k j i := by
    intro a h1 h2
    rw [← h1, ← h2]
    exact Arr3.flatten_get a (i := k) (j := j) (k := i) (by rw [h1]; exact hj) (by rw [h2]; exact hi)
  have han : (anisoField P e).get k j i = (anisoField P e').get k j i := by
    unfold anisoField
    simp only [x1, x2, y1, y2, z1, z2]
  unfold laplaceTerm
  refine (hf' _ rfl rfl).trans (Eq.trans ?_ (hf' _ rfl rfl).symm)
  funext o
  show -((((posX e).get k j i o - e.get k j i o) + ((negX e).get k j i o - e.get k j i o)) / P.hx ^ 2
        * (anisoField P e).get k j i o * P.kappa_g * P.ad_hoc)
    + -((((posY e).get k j i o - e.get k j i o) + ((negY e).get k j i o - e.get k j i o)) / P.hy ^ 2
        * (anisoField P e).get k j i o * P.kappa_g * P.ad_hoc)
    + -((((posZ e).get k j i o - e.get k j i o) + ((negZ e).get k j i o - e.get k j i o)) / P.hz ^ 2
        * (anisoField P e).get k j i o * P.kappa_g * P.ad_hoc) = _
  rw [x1, x2, y1, y2, z1, z2, h0, han]

/-- Only the entries of existing cells matter. -/
theorem stateRhs_congr (th : ℝ → ℝ) (P : PfArgs m d) (T : ℕ → ℝ) (eta eta' : ℕ → Fin m → ℝ) (h : ∀ n < P.N, eta n = eta' n)
    {n : ℕ} (hn : n < P.N) (o : Fin m) : stateRhs th P T eta n o = stateRhs th P T eta' n o := by
  simp only [stateRhs]
  rw [localEnergyGrad_eq _ _ _ hn o, localEnergyGrad_eq _ _ _ hn o, laplaceTerm_congr P eta eta' h hn]
  unfold localGradExplicit
  rw [h n hn]

/-- **C50 (equivariance over a history).** -/
theorem C50_equivariant_run (th : ℝ → ℝ) (P : PfArgs m d) (σ : Equiv.Perm (Fin m)) (steps : List (ℝ × (ℕ → ℝ)))
    (eta eta' : ℕ → Fin m → ℝ) (t0 : ℝ) (he : ∀ n < P.N, ∀ o, eta' n o = eta n (σ o)) {n : ℕ} (hn : n < P.N) (o : Fin m) :
    (runSteps th { P with dirs := fun q o => P.dirs q (σ o) } steps (eta', t0)).1 n o =
      (runSteps th P steps (eta, t0)).1 n (σ o) := by
  induction steps generalizing eta eta' t0 with
  | nil => exact he n hn o
  | cons s l ih =>
    refine ih _ _ s.1 ?_
    intro n hn o
    have h1 := stateRhs_congr th { P with dirs := fun q o => P.dirs q (σ o) } s.2 eta' (fun n o => eta n (σ o))
      (fun n hn => funext fun o => he n hn o) hn o
    show eta' n o + (s.1 - t0) * stateRhs th { P with dirs := fun q o => P.dirs q (σ o) } s.2 eta' n o =
      eta n (σ o) + (s.1 - t0) * stateRhs th P s.2 eta n (σ o)
    rw [h1, C50_equivariant th P s.2 eta σ hn o, he n hn o]

/-- Instance of the hypotheses of the stationarity theorems: a 1×1×1 grid at 300 K with liquidus 1700 K and the saturating `tanh` of floating point arithmetic. -/
example : ∃ (th : ℝ → ℝ) (P : PfArgs 2 0) (T : ℕ → ℝ), 0 < P.N ∧ ∀ n < P.N, zetaOf th P T n = 1 := by
  refine ⟨fun x => if x ≤ -20 then -1 else if x ≥ 20 then 1 else x / 20,
    ⟨1, 1, 1, 1, 1, 1, 1, 1, 1, 1, 1, 1, 1700, 0, fun _ _ _ => 0⟩, fun _ => 300, by simp [PfArgs.N], ?_⟩
  intro n _
  unfold zetaOf capT
  norm_num

end Verif.PhaseField
