import Verif.PhaseField.GrainRun

/-!
# Grain growth at constant temperature: the free energy of every step, and where runs end (C150)
-/
namespace Verif.PhaseField.Ode
open Set Verif Verif.Mesh Filter Topology

variable {m d : ℕ}

/-! ## Specification -/

/-- The largest mobility (at the cap of 2000 degrees, allen_cahn.py 56, 83). -/
noncomputable def Lmax (P : PfArgs m d) : ℝ := P.L0 * Real.exp (-P.Qg / (2000 * P.gas_const))

/-- Half of the largest curvature of the free energy on `[0, 1]`. -/
noncomputable def Kq (P : PfArgs m d) : ℝ := P.m_g / P.ad_hoc * (6 * m - 4) + 2 * (P.kappa_g * P.ad_hoc * (1 / P.hx ^ 2 + 1 / P.hy ^ 2 + 1 / P.hz ^ 2))

/-- The sum of the squared rates of all order parameters. -/
noncomputable def rates2 (th : ℝ → ℝ) (P : PfArgs m d) (T : ℕ → ℝ) (eta : ℕ → Fin m → ℝ) : ℝ := ∑ n ∈ Finset.range P.N, ∑ o, stateRhs th P T eta n o ^ 2

/-! ## The free energy of a changed state -/

theorem well_rem {x u : ℝ} (hx : 0 ≤ x ∧ x ≤ 1) (hX : 0 ≤ x + u ∧ x + u ≤ 1) : (x + u) ^ 4 / 4 - (x + u) ^ 2 / 2 ≤ x ^ 4 / 4 - x ^ 2 / 2 + (x ^ 3 - x) * u + u ^ 2 := by
  have hb : 3 / 4 * x ^ 2 + x * (x + u) / 2 + (x + u) ^ 2 / 4 ≤ 3 / 2 := by
    have h1 : x ^ 2 ≤ 1 := by nlinarith [hx.1, hx.2]
    have h2 : (x + u) ^ 2 ≤ 1 := by nlinarith [hX.1, hX.2]
    have h3 : x * (x + u) ≤ 1 := mul_le_one₀ hx.2 hX.1 hX.2
    linarith
  have := mul_le_mul_of_nonneg_left hb (sq_nonneg u)
  nlinarith [this]

theorem pair_rem {x u y v : ℝ} (hx : 0 ≤ x ∧ x ≤ 1) (hy : 0 ≤ y ∧ y ≤ 1) (hY : 0 ≤ y + v ∧ y + v ≤ 1) :
    (x + u) ^ 2 * (y + v) ^ 2 ≤ x ^ 2 * y ^ 2 + 2 * (x * y ^ 2 * u) + 2 * (y * x ^ 2 * v) + 3 * (u ^ 2 + v ^ 2) := by
  have e : (x + u) ^ 2 * (y + v) ^ 2 = x ^ 2 * y ^ 2 + 2 * (x * y ^ 2 * u) + 2 * (y * x ^ 2 * v) + (x ^ 2 * v ^ 2 + u ^ 2 * (y + v) ^ 2 + 2 * (x * ((y + v) + y)) * (u * v)) := by ring
  rw [e]
  have h1 : x ^ 2 * v ^ 2 ≤ v ^ 2 := mul_le_of_le_one_left (sq_nonneg v) (by nlinarith [hx.1, hx.2])
  have h2 : u ^ 2 * (y + v) ^ 2 ≤ u ^ 2 := mul_le_of_le_one_right (sq_nonneg u) (by nlinarith [hY.1, hY.2])
  have hc0 : 0 ≤ x * ((y + v) + y) := mul_nonneg hx.1 (by linarith [hY.1, hy.1])
  have hc : x * ((y + v) + y) ≤ 2 := by
    calc x * ((y + v) + y) ≤ 1 * ((y + v) + y) := mul_le_mul_of_nonneg_right hx.2 (by linarith [hY.1, hy.1])
      _ ≤ 2 := by linarith [hY.2, hy.2]
  have h3 : 2 * (x * ((y + v) + y)) * (u * v) ≤ 2 * (u ^ 2 + v ^ 2) := by
    have a : u * v ≤ (u ^ 2 + v ^ 2) / 2 := by nlinarith [sq_nonneg (u - v)]
    have b := mul_le_mul_of_nonneg_left a (mul_nonneg (by norm_num : (0 : ℝ) ≤ 2) hc0)
    have c := mul_le_mul_of_nonneg_right hc (by positivity : 0 ≤ u ^ 2 + v ^ 2)
    linarith
  linarith

theorem erase_sum (f : Fin m → Fin m → ℝ) : ∑ o, ∑ p ∈ Finset.univ.erase o, f o p = (∑ o, ∑ p, f o p) - ∑ o, f o o := by
  rw [← Finset.sum_sub_distrib]
  refine Finset.sum_congr rfl fun o _ => ?_
  rw [← Finset.add_sum_erase _ _ (Finset.mem_univ o)]
  ring

theorem bulk_rem {e u : Fin m → ℝ} {z : ℝ} (he : ∀ o, 0 ≤ e o ∧ e o ≤ 1) (hE : ∀ o, 0 ≤ e o + u o ∧ e o + u o ≤ 1) (hz : (1 - z) ^ 2 ≤ 1) :
    bulkDensity (fun o => e o + u o) z ≤ bulkDensity e z
      + (∑ o, (e o ^ 3 - e o + 4 * e o * ((∑ p, e p ^ 2) - e o ^ 2) + 2 * (1 - z) ^ 2 * e o) * u o) + (6 * m - 4) * ∑ o, u o ^ 2 := by
  unfold bulkDensity
  have h1 : ∑ o, ((e o + u o) ^ 4 / 4 - (e o + u o) ^ 2 / 2) ≤ (∑ o, (e o ^ 4 / 4 - e o ^ 2 / 2)) + (∑ o, (e o ^ 3 - e o) * u o) + ∑ o, u o ^ 2 := by
    rw [← Finset.sum_add_distrib, ← Finset.sum_add_distrib]
    exact Finset.sum_le_sum fun o _ => well_rem (he o) (hE o)
  have h2 : ∑ o, ∑ p ∈ Finset.univ.erase o, (e o + u o) ^ 2 * (e p + u p) ^ 2 ≤
      (∑ o, ∑ p ∈ Finset.univ.erase o, e o ^ 2 * e p ^ 2) + (∑ o, 4 * e o * ((∑ p, e p ^ 2) - e o ^ 2) * u o) + (6 * m - 6) * ∑ o, u o ^ 2 := by
    have ha : ∑ o, ∑ p ∈ Finset.univ.erase o, (e o + u o) ^ 2 * (e p + u p) ^ 2 ≤
        ∑ o, ∑ p ∈ Finset.univ.erase o, (e o ^ 2 * e p ^ 2 + 2 * (e o * e p ^ 2 * u o) + 2 * (e p * e o ^ 2 * u p) + 3 * (u o ^ 2 + u p ^ 2)) :=
      Finset.sum_le_sum fun o _ => Finset.sum_le_sum fun p _ => pair_rem (he o) (he p) (hE p)
    refine ha.trans (le_of_eq ?_)
    have hs : ∑ o, ∑ p ∈ Finset.univ.erase o, 2 * (e p * e o ^ 2 * u p) = ∑ o, ∑ p ∈ Finset.univ.erase o, 2 * (e o * e p ^ 2 * u o) := by
      rw [erase_sum (fun o p => 2 * (e p * e o ^ 2 * u p)), erase_sum (fun o p => 2 * (e o * e p ^ 2 * u o)), Finset.sum_comm]
    have hg : ∑ o, ∑ p ∈ Finset.univ.erase o, 2 * (e o * e p ^ 2 * u o) = ∑ o, 2 * e o * ((∑ p, e p ^ 2) - e o ^ 2) * u o := by
      refine Finset.sum_congr rfl fun o _ => ?_
      rw [← Finset.add_sum_erase Finset.univ (fun p => e p ^ 2) (Finset.mem_univ o), add_sub_cancel_left, Finset.mul_sum, Finset.sum_mul]
      exact Finset.sum_congr rfl fun p _ => by ring
    have hu : ∑ o, ∑ p ∈ Finset.univ.erase o, 3 * (u o ^ 2 + u p ^ 2) = (6 * m - 6) * ∑ o, u o ^ 2 := by
      rw [erase_sum (fun o p => 3 * (u o ^ 2 + u p ^ 2))]
      simp only [← Finset.mul_sum, Finset.sum_add_distrib, Finset.sum_const, Finset.card_univ, Fintype.card_fin, nsmul_eq_mul]
      ring
    simp only [Finset.sum_add_distrib]
    rw [hs, hg, hu]
    have : ∑ o, 4 * e o * ((∑ p, e p ^ 2) - e o ^ 2) * u o = (∑ o, 2 * e o * ((∑ p, e p ^ 2) - e o ^ 2) * u o) + ∑ o, 2 * e o * ((∑ p, e p ^ 2) - e o ^ 2) * u o := by
      rw [← Finset.sum_add_distrib]; exact Finset.sum_congr rfl fun o _ => by ring
    rw [this]
    ring
  have h3 : (1 - z) ^ 2 * ∑ o, (e o + u o) ^ 2 ≤ (1 - z) ^ 2 * (∑ o, e o ^ 2) + (∑ o, 2 * (1 - z) ^ 2 * e o * u o) + ∑ o, u o ^ 2 := by
    rw [Finset.mul_sum, Finset.mul_sum, ← Finset.sum_add_distrib, ← Finset.sum_add_distrib]
    refine Finset.sum_le_sum fun o _ => ?_
    have := mul_le_of_le_one_left (sq_nonneg (u o)) hz
    nlinarith [this]
  have hsum : ∑ o, (e o ^ 3 - e o + 4 * e o * ((∑ p, e p ^ 2) - e o ^ 2) + 2 * (1 - z) ^ 2 * e o) * u o =
      (∑ o, (e o ^ 3 - e o) * u o) + (∑ o, 4 * e o * ((∑ p, e p ^ 2) - e o ^ 2) * u o) + ∑ o, 2 * (1 - z) ^ 2 * e o * u o := by
    rw [← Finset.sum_add_distrib, ← Finset.sum_add_distrib]; exact Finset.sum_congr rfl fun o _ => by ring
  rw [hsum]
  linarith

/-- Sums of squares over three indices. -/
theorem quad3 (A B C : ℕ) (a b : ℕ → ℕ → ℕ → ℝ) (s : ℝ) :
    ∑ k ∈ Finset.range A, ∑ j ∈ Finset.range B, ∑ i ∈ Finset.range C, (a k j i + s * b k j i) ^ 2 =
      (∑ k ∈ Finset.range A, ∑ j ∈ Finset.range B, ∑ i ∈ Finset.range C, a k j i ^ 2)
      + s * (∑ k ∈ Finset.range A, ∑ j ∈ Finset.range B, ∑ i ∈ Finset.range C, 2 * a k j i * b k j i)
      + s ^ 2 * ∑ k ∈ Finset.range A, ∑ j ∈ Finset.range B, ∑ i ∈ Finset.range C, b k j i ^ 2 := by
  simp only [Finset.mul_sum, ← Finset.sum_add_distrib]
  exact Finset.sum_congr rfl fun k _ => Finset.sum_congr rfl fun j _ => Finset.sum_congr rfl fun i _ => by ring

theorem face_quad (P : PfArgs m d) (eta v : ℕ → Fin m → ℝ) (o : Fin m) : ∃ X, ∀ s : ℝ, faceSum P (fun n o => eta n o + s * v n o) o = faceSum P eta o + s * X + s ^ 2 * faceSum P v o := by
  let S : ℕ → ℕ → ℕ → (ℕ → ℕ → ℕ → ℝ) → (ℕ → ℕ → ℕ → ℝ) → ℝ := fun A B C a b => ∑ k ∈ Finset.range A, ∑ j ∈ Finset.range B, ∑ i ∈ Finset.range C, 2 * a k j i * b k j i
  refine ⟨S P.Nz P.Ny (P.Nx - 1) (fun k j i => (eta (etaNo P k j (i + 1)) o - eta (etaNo P k j i) o) / P.hx) (fun k j i => (v (etaNo P k j (i + 1)) o - v (etaNo P k j i) o) / P.hx)
    + S P.Nz P.Nx (P.Ny - 1) (fun k i j => (eta (etaNo P k (j + 1) i) o - eta (etaNo P k j i) o) / P.hy) (fun k i j => (v (etaNo P k (j + 1) i) o - v (etaNo P k j i) o) / P.hy)
    + S P.Ny P.Nx (P.Nz - 1) (fun j i k => (eta (etaNo P (k + 1) j i) o - eta (etaNo P k j i) o) / P.hz) (fun j i k => (v (etaNo P (k + 1) j i) o - v (etaNo P k j i) o) / P.hz), fun s => ?_⟩
  unfold faceSum
  have q1 := quad3 P.Nz P.Ny (P.Nx - 1) (fun k j i => (eta (etaNo P k j (i + 1)) o - eta (etaNo P k j i) o) / P.hx) (fun k j i => (v (etaNo P k j (i + 1)) o - v (etaNo P k j i) o) / P.hx) s
  have q2 := quad3 P.Nz P.Nx (P.Ny - 1) (fun k i j => (eta (etaNo P k (j + 1) i) o - eta (etaNo P k j i) o) / P.hy) (fun k i j => (v (etaNo P k (j + 1) i) o - v (etaNo P k j i) o) / P.hy) s
  have q3 := quad3 P.Ny P.Nx (P.Nz - 1) (fun j i k => (eta (etaNo P (k + 1) j i) o - eta (etaNo P k j i) o) / P.hz) (fun j i k => (v (etaNo P (k + 1) j i) o - v (etaNo P k j i) o) / P.hz) s
  have e : ∀ a b c d h : ℝ, (a + s * b - (c + s * d)) / h = (a - c) / h + s * ((b - d) / h) := fun a b c d h => by ring
  simp only [e]
  rw [q1, q2, q3]
  have c : ∀ a1 a2 a3 b1 b2 b3 c1 c2 c3 : ℝ, (a1 + s * b1 + s ^ 2 * c1) + (a2 + s * b2 + s ^ 2 * c2) + (a3 + s * b3 + s ^ 2 * c3) = (a1 + a2 + a3) + s * (b1 + b2 + b3) + s ^ 2 * (c1 + c2 + c3) := fun _ _ _ _ _ _ _ _ _ => by ring
  exact c _ _ _ _ _ _ _ _ _

theorem line_bound (N : ℕ) (v : ℕ → ℝ) (h : ℝ) : ∑ i ∈ Finset.range (N - 1), ((v (i + 1) - v i) / h) ^ 2 ≤ 4 * (1 / h ^ 2) * ∑ i ∈ Finset.range N, v i ^ 2 := by
  have h1 : ∑ i ∈ Finset.range (N - 1), ((v (i + 1) - v i) / h) ^ 2 ≤ ∑ i ∈ Finset.range (N - 1), (1 / h ^ 2) * (2 * v (i + 1) ^ 2 + 2 * v i ^ 2) := by
    refine Finset.sum_le_sum fun i _ => ?_
    rw [div_pow, div_eq_mul_one_div, mul_comm]
    exact mul_le_mul_of_nonneg_left (by nlinarith [sq_nonneg (v (i + 1) + v i)]) (by positivity)
  refine h1.trans ?_
  rw [← Finset.mul_sum, Finset.sum_add_distrib, ← Finset.mul_sum, ← Finset.mul_sum]
  have a1 : ∑ i ∈ Finset.range (N - 1), v i ^ 2 ≤ ∑ i ∈ Finset.range N, v i ^ 2 :=
    Finset.sum_le_sum_of_subset_of_nonneg (Finset.range_mono (Nat.sub_le _ _)) fun _ _ _ => sq_nonneg _
  have a2 : ∑ i ∈ Finset.range (N - 1), v (i + 1) ^ 2 ≤ ∑ i ∈ Finset.range N, v i ^ 2 := by
    cases N with
    | zero => simp
    | succ M =>
      rw [Nat.add_sub_cancel, Finset.sum_range_succ' (fun i => v i ^ 2)]
      linarith [sq_nonneg (v 0)]
  have hw : 0 ≤ 1 / h ^ 2 := by positivity
  calc 1 / h ^ 2 * (2 * ∑ i ∈ Finset.range (N - 1), v (i + 1) ^ 2 + 2 * ∑ i ∈ Finset.range (N - 1), v i ^ 2)
      ≤ 1 / h ^ 2 * (2 * ∑ i ∈ Finset.range N, v i ^ 2 + 2 * ∑ i ∈ Finset.range N, v i ^ 2) := mul_le_mul_of_nonneg_left (by linarith) hw
    _ = _ := by ring

theorem face_bound (P : PfArgs m d) (v : ℕ → Fin m → ℝ) (o : Fin m) : faceSum P v o ≤ 4 * (1 / P.hx ^ 2 + 1 / P.hy ^ 2 + 1 / P.hz ^ 2) * ∑ n ∈ Finset.range P.N, v n o ^ 2 := by
  have hx : ∑ k ∈ Finset.range P.Nz, ∑ j ∈ Finset.range P.Ny, ∑ i ∈ Finset.range (P.Nx - 1), ((v (etaNo P k j (i + 1)) o - v (etaNo P k j i) o) / P.hx) ^ 2 ≤ 4 * (1 / P.hx ^ 2) * ∑ n ∈ Finset.range P.N, v n o ^ 2 := by
    rw [sum_cells, Finset.mul_sum]
    refine Finset.sum_le_sum fun k _ => ?_
    rw [Finset.mul_sum]
    exact Finset.sum_le_sum fun j _ => line_bound P.Nx (fun i => v (etaNo P k j i) o) P.hx
  have hy : ∑ k ∈ Finset.range P.Nz, ∑ i ∈ Finset.range P.Nx, ∑ j ∈ Finset.range (P.Ny - 1), ((v (etaNo P k (j + 1) i) o - v (etaNo P k j i) o) / P.hy) ^ 2 ≤ 4 * (1 / P.hy ^ 2) * ∑ n ∈ Finset.range P.N, v n o ^ 2 := by
    rw [sum_cells, Finset.mul_sum]
    refine Finset.sum_le_sum fun k _ => ?_
    rw [Finset.sum_comm (s := Finset.range P.Ny) (t := Finset.range P.Nx), Finset.mul_sum]
    exact Finset.sum_le_sum fun i _ => line_bound P.Ny (fun j => v (etaNo P k j i) o) P.hy
  have hz : ∑ j ∈ Finset.range P.Ny, ∑ i ∈ Finset.range P.Nx, ∑ k ∈ Finset.range (P.Nz - 1), ((v (etaNo P (k + 1) j i) o - v (etaNo P k j i) o) / P.hz) ^ 2 ≤ 4 * (1 / P.hz ^ 2) * ∑ n ∈ Finset.range P.N, v n o ^ 2 := by
    rw [sum_cells, Finset.sum_comm (s := Finset.range P.Nz) (t := Finset.range P.Ny), Finset.mul_sum]
    refine Finset.sum_le_sum fun j _ => ?_
    rw [Finset.sum_comm (s := Finset.range P.Nz) (t := Finset.range P.Nx), Finset.mul_sum]
    exact Finset.sum_le_sum fun i _ => line_bound P.Nz (fun k => v (etaNo P k j i) o) P.hz
  unfold faceSum
  refine (add_le_add (add_le_add hx hy) hz).trans (le_of_eq ?_)
  ring

/-- The free energy after a change, by the gradient and the squares of the change. -/
theorem energy_rem (th : ℝ → ℝ) (hth : ∀ x, -1 ≤ th x ∧ th x ≤ 1) (P : PfArgs m d) (hiso : ¬ P.anisotropy > 0) (hm : 0 ≤ P.m_g) (hk : 0 ≤ P.kappa_g) (had : 0 < P.ad_hoc) (T : ℕ → ℝ) (eta v : ℕ → Fin m → ℝ)
    (he : ∀ n < P.N, ∀ o, 0 ≤ eta n o ∧ eta n o ≤ 1) (hE : ∀ n < P.N, ∀ o, 0 ≤ eta n o + v n o ∧ eta n o + v n o ≤ 1) :
    ∃ g : ℕ → Fin m → ℝ, (∀ n < P.N, ∀ o, stateRhs th P T eta n o = -LgOf P T n * g n o) ∧
      freeEnergy P (zetaOf th P T) (fun n o => eta n o + v n o) ≤ freeEnergy P (zetaOf th P T) eta + (∑ n ∈ Finset.range P.N, ∑ o, g n o * v n o) + Kq P * ∑ n ∈ Finset.range P.N, ∑ o, v n o ^ 2 := by
  have hα : 0 ≤ P.m_g / P.ad_hoc := div_nonneg hm had.le
  choose X hX using fun o => face_quad P eta v o
  -- the derivative of the face sum
  have hd : ∀ o, X o = -2 * ∑ k ∈ Finset.range P.Nz, ∑ j ∈ Finset.range P.Ny, ∑ i ∈ Finset.range P.Nx,
        (lap1 P.Nx (fun i => eta (etaNo P k j i) o) i / P.hx ^ 2 + lap1 P.Ny (fun j => eta (etaNo P k j i) o) j / P.hy ^ 2 + lap1 P.Nz (fun k => eta (etaNo P k j i) o) k / P.hz ^ 2) * v (etaNo P k j i) o := by
    intro o
    have h := faceSum_dir P eta v o
    have h' : HasDerivAt (fun s : ℝ => faceSum P (fun n o => eta n o + s * v n o) o) (X o) 0 := by
      simp only [hX o]
      have h1 : HasDerivAt (fun s : ℝ => faceSum P eta o + s * X o + s ^ 2 * faceSum P v o) (0 + 1 * X o + (2 : ℕ) * (0 : ℝ) ^ (2 - 1) * 1 * faceSum P v o) 0 :=
        (((hasDerivAt_const (0 : ℝ) (faceSum P eta o)).fun_add ((hasDerivAt_id (0 : ℝ)).mul_const (X o))).fun_add (((hasDerivAt_id (0 : ℝ)).fun_pow 2).mul_const (faceSum P v o)))
      exact h1.congr_deriv (by simp)
    exact h'.unique h
  refine ⟨fun n o => localGradExplicit P eta (zetaOf th P T) n o / P.ad_hoc + (laplaceTerm P eta).get n o, fun n hn o => ?_, ?_⟩
  · simp only [stateRhs]
    rw [localEnergyGrad_eq P eta _ hn o]
  · have hbulk : ∑ n ∈ Finset.range P.N, bulkDensity (fun o => eta n o + v n o) (zetaOf th P T n) ≤ (∑ n ∈ Finset.range P.N, bulkDensity (eta n) (zetaOf th P T n))
        + (∑ n ∈ Finset.range P.N, ∑ o, (eta n o ^ 3 - eta n o + 4 * eta n o * ((∑ p, eta n p ^ 2) - eta n o ^ 2) + 2 * (1 - zetaOf th P T n) ^ 2 * eta n o) * v n o)
        + (6 * m - 4) * ∑ n ∈ Finset.range P.N, ∑ o, v n o ^ 2 := by
      rw [Finset.mul_sum, ← Finset.sum_add_distrib, ← Finset.sum_add_distrib]
      refine Finset.sum_le_sum fun n hn => bulk_rem (he n (Finset.mem_range.mp hn)) (hE n (Finset.mem_range.mp hn)) ?_
      have := hth (1e10 * (capT (T n) / P.T_liquidus - 1))
      unfold zetaOf
      generalize th (1e10 * (capT (T n) / P.T_liquidus - 1)) = w at this
      nlinarith [this.1, this.2]
    have hface : ∑ o, faceSum P (fun n o => eta n o + v n o) o ≤ (∑ o, faceSum P eta o) + (∑ o, X o) + 4 * (1 / P.hx ^ 2 + 1 / P.hy ^ 2 + 1 / P.hz ^ 2) * ∑ n ∈ Finset.range P.N, ∑ o, v n o ^ 2 := by
      rw [Finset.sum_comm (s := Finset.range P.N), Finset.mul_sum, ← Finset.sum_add_distrib, ← Finset.sum_add_distrib]
      refine Finset.sum_le_sum fun o _ => ?_
      have := hX o 1
      simp only [one_mul, one_pow] at this
      rw [this]
      linarith [face_bound P v o]
    have hlap : ∑ n ∈ Finset.range P.N, ∑ o, (laplaceTerm P eta).get n o * v n o = P.ad_hoc * (P.kappa_g / 2 * ∑ o, X o) := by
      rw [Finset.sum_comm, ← mul_assoc, Finset.mul_sum]
      refine Finset.sum_congr rfl fun o _ => ?_
      rw [hd o, sum_cells, ← mul_assoc, Finset.mul_sum]
      refine Finset.sum_congr rfl fun k hk => ?_
      rw [Finset.mul_sum]
      refine Finset.sum_congr rfl fun j hj => ?_
      rw [Finset.mul_sum]
      refine Finset.sum_congr rfl fun i hi => ?_
      rw [Finset.mem_range] at hk hj hi
      obtain ⟨a, ha, -, h⟩ := laplaceTerm_get P eta hk hj hi o
      rw [h, ha hiso]
      ring
    have hsplit : ∑ n ∈ Finset.range P.N, ∑ o, (localGradExplicit P eta (zetaOf th P T) n o / P.ad_hoc + (laplaceTerm P eta).get n o) * v n o =
        P.m_g / P.ad_hoc * (∑ n ∈ Finset.range P.N, ∑ o, (eta n o ^ 3 - eta n o + 4 * eta n o * ((∑ p, eta n p ^ 2) - eta n o ^ 2) + 2 * (1 - zetaOf th P T n) ^ 2 * eta n o) * v n o)
        + P.ad_hoc * (P.kappa_g / 2 * ∑ o, X o) := by
      rw [← hlap, Finset.mul_sum, ← Finset.sum_add_distrib]
      refine Finset.sum_congr rfl fun n _ => ?_
      rw [Finset.mul_sum, ← Finset.sum_add_distrib]
      refine Finset.sum_congr rfl fun o _ => ?_
      unfold localGradExplicit
      ring
    show P.m_g / P.ad_hoc * _ + P.ad_hoc * (P.kappa_g / 2 * _) ≤ P.m_g / P.ad_hoc * _ + P.ad_hoc * (P.kappa_g / 2 * _) + _ + _
    rw [hsplit]
    have a1 := mul_le_mul_of_nonneg_left hbulk hα
    have a2 := mul_le_mul_of_nonneg_left hface (mul_nonneg had.le (by linarith : 0 ≤ P.kappa_g / 2))
    unfold Kq
    linarith

variable {th : ℝ → ℝ} {P : PfArgs m d} {T : ℝ → ℕ → ℝ} {Te Tmin V : ℝ}

theorem Lg_le (h : Physical th P T Te Tmin V) {t : ℝ} (ht : t ∈ Icc 0 Te) {n : ℕ} (hn : n < P.N) : 0 ≤ LgOf P (T t) n ∧ LgOf P (T t) n ≤ Lmax P := by
  refine ⟨(Lg_range h ht hn).1, mul_le_mul_of_nonneg_left (Real.exp_le_exp.mpr ?_) h.L0⟩
  have hp := h.Tmin_pos.trans_le (h.warm t ht n hn)
  have hc : capT (T t n) ≤ 2000 := by unfold capT; split_ifs with hT <;> linarith
  rw [neg_div, neg_div, neg_le_neg_iff]
  exact div_le_div_of_nonneg_left h.Qg (mul_pos hp h.gas) (mul_le_mul_of_nonneg_right hc h.gas.le)

theorem Lmax_nonneg (hL : 0 ≤ P.L0) : 0 ≤ Lmax P := mul_nonneg hL (Real.exp_pos _).le

/-- The step-size condition of the energy contains the one of the bounds. -/
theorem rate_ok (hm : 0 < m) (h1 : 0 ≤ P.m_g) (h2 : 0 < P.ad_hoc) (h3 : 0 ≤ P.kappa_g) (hL : 0 ≤ P.L0) {dt : ℝ} (hdt : 0 ≤ dt) (hr : dt * Lmax P * Kq P ≤ 1 / 2) : dt * rate P ≤ 1 := by
  have hm' : (1 : ℝ) ≤ m := by exact_mod_cast hm
  have hα : 0 ≤ P.m_g / P.ad_hoc := div_nonneg h1 h2.le
  have hw : 0 ≤ P.kappa_g * P.ad_hoc * (1 / P.hx ^ 2 + 1 / P.hy ^ 2 + 1 / P.hz ^ 2) := by positivity
  have hle : P.m_g / P.ad_hoc * (4 * m - 2) + 2 * (P.kappa_g * P.ad_hoc * (1 / P.hx ^ 2 + 1 / P.hy ^ 2 + 1 / P.hz ^ 2)) ≤ 2 * Kq P := by
    unfold Kq
    nlinarith [mul_le_mul_of_nonneg_left hm' hα]
  have := mul_le_mul_of_nonneg_left hle (mul_nonneg hdt (Lmax_nonneg hL))
  have e : dt * rate P = dt * Lmax P * (P.m_g / P.ad_hoc * (4 * m - 2) + 2 * (P.kappa_g * P.ad_hoc * (1 / P.hx ^ 2 + 1 / P.hy ^ 2 + 1 / P.hz ^ 2))) := by unfold rate Lmax; ring
  rw [e]
  linarith

/-- The free energy is bounded from below. -/
theorem energy_low (h1 : 0 ≤ P.m_g) (h2 : 0 < P.ad_hoc) (h3 : 0 ≤ P.kappa_g) (zeta : ℕ → ℝ) (eta : ℕ → Fin m → ℝ) : -(P.m_g / P.ad_hoc * (P.N * (m / 4))) ≤ freeEnergy P zeta eta := by
  have hα : 0 ≤ P.m_g / P.ad_hoc := div_nonneg h1 h2.le
  have hb : ∀ n, -(m / 4 : ℝ) ≤ bulkDensity (eta n) (zeta n) := by
    intro n
    unfold bulkDensity
    have a : -(m / 4 : ℝ) ≤ ∑ o, (eta n o ^ 4 / 4 - eta n o ^ 2 / 2) := by
      have := Finset.sum_le_sum fun (o : Fin m) (_ : o ∈ Finset.univ) => (by nlinarith [sq_nonneg (eta n o ^ 2 - 1)] : (-(1 / 4) : ℝ) ≤ eta n o ^ 4 / 4 - eta n o ^ 2 / 2)
      simp only [Finset.sum_const, Finset.card_univ, Fintype.card_fin, nsmul_eq_mul] at this
      linarith
    have b : 0 ≤ ∑ o, ∑ p ∈ Finset.univ.erase o, eta n o ^ 2 * eta n p ^ 2 := Finset.sum_nonneg fun o _ => Finset.sum_nonneg fun p _ => by positivity
    have c : 0 ≤ (1 - zeta n) ^ 2 * ∑ o, eta n o ^ 2 := mul_nonneg (sq_nonneg _) (Finset.sum_nonneg fun o _ => sq_nonneg _)
    linarith
  have hs : -(P.N * (m / 4) : ℝ) ≤ ∑ n ∈ Finset.range P.N, bulkDensity (eta n) (zeta n) := by
    have := Finset.sum_le_sum fun n (_ : n ∈ Finset.range P.N) => hb n
    simp only [Finset.sum_const, Finset.card_range, nsmul_eq_mul] at this
    linarith
  have hf : 0 ≤ P.ad_hoc * (P.kappa_g / 2 * ∑ o, faceSum P eta o) := by
    refine mul_nonneg h2.le (mul_nonneg (by linarith) (Finset.sum_nonneg fun o _ => ?_))
    unfold faceSum
    exact add_nonneg (add_nonneg (Finset.sum_nonneg fun _ _ => Finset.sum_nonneg fun _ _ => Finset.sum_nonneg fun _ _ => sq_nonneg _)
      (Finset.sum_nonneg fun _ _ => Finset.sum_nonneg fun _ _ => Finset.sum_nonneg fun _ _ => sq_nonneg _)) (Finset.sum_nonneg fun _ _ => Finset.sum_nonneg fun _ _ => Finset.sum_nonneg fun _ _ => sq_nonneg _)
  show _ ≤ P.m_g / P.ad_hoc * _ + P.ad_hoc * (P.kappa_g / 2 * _)
  have := mul_le_mul_of_nonneg_left hs hα
  linarith

/-! ## C150 -/

/-- **C150 (one pass).** With a step of at most `1 / (2 · Lmax · Kq)` a pass of the loop lowers the free energy at the temperature of that pass by at least `dt / (2 · Lmax)` times the sum of the squared rates. -/
theorem C150_step (h : Physical th P T Te Tmin V) (hm : 0 < m) {dt : ℝ} (hdt : 0 ≤ dt) (hr : dt * Lmax P * Kq P ≤ 1 / 2) {sol0 : ℕ → Fin m → ℝ} (h0 : ∀ n < P.N, ∀ o, 0 ≤ sol0 n o ∧ sol0 n o ≤ 1)
    (k : ℕ) (hk : (k + 1) * dt ≤ Te) :
    dt * rates2 th P (T (k * dt)) (integrate th P T sol0 dt k).1.1 ≤
      2 * Lmax P * (freeEnergy P (zetaOf th P (T (k * dt))) (integrate th P T sol0 dt k).1.1 - freeEnergy P (zetaOf th P (T (k * dt))) (integrate th P T sol0 dt (k + 1)).1.1) := by
  have hrate := rate_ok hm h.m_g h.ad_hoc h.kappa h.L0 hdt hr
  have hk0 : (k : ℝ) * dt ∈ Icc 0 Te := ⟨by positivity, by nlinarith⟩
  have b0 := integrate_box h hdt hrate h0 k hk0.2
  have b1 := integrate_box h hdt hrate h0 (k + 1) (by push_cast; exact hk)
  set eta := (integrate th P T sol0 dt k).1.1 with heta
  have hstep : (integrate th P T sol0 dt (k + 1)).1.1 = fun n o => eta n o + dt * stateRhs th P (T (k * dt)) eta n o := by funext n o; exact integrate_step th P T sol0 dt k n o
  rw [hstep] at b1 ⊢
  obtain ⟨g, hg, hE⟩ := energy_rem th h.th_range P h.iso h.m_g h.kappa h.ad_hoc (T (k * dt)) eta (fun n o => dt * stateRhs th P (T (k * dt)) eta n o) b0 b1
  have hL := fun n (hn : n < P.N) => Lg_le h hk0 hn
  have hM := Lmax_nonneg h.L0
  set R : ℕ → Fin m → ℝ := stateRhs th P (T (k * dt)) eta
  have hKq0 : 0 ≤ Kq P := by
    have hm' : (1 : ℝ) ≤ m := by exact_mod_cast hm
    have hα : 0 ≤ P.m_g / P.ad_hoc := div_nonneg h.m_g h.ad_hoc.le
    have hw : 0 ≤ P.kappa_g * P.ad_hoc * (1 / P.hx ^ 2 + 1 / P.hy ^ 2 + 1 / P.hz ^ 2) := by have := h.kappa; have := h.ad_hoc; positivity
    unfold Kq
    nlinarith [mul_le_mul_of_nonneg_left hm' hα]
  -- every entry: `R² dt ≤ -2 Lmax (g dt R + Kq dt² R²)`
  have hkey : ∀ n ∈ Finset.range P.N, ∀ o, dt * R n o ^ 2 ≤ 2 * Lmax P * -(g n o * (dt * R n o) + Kq P * (dt * R n o) ^ 2) := by
    intro n hn o
    obtain ⟨l0, l1⟩ := hL n (Finset.mem_range.mp hn)
    have e : R n o = -LgOf P (T (k * dt)) n * g n o := hg n (Finset.mem_range.mp hn) o
    set L := LgOf P (T (k * dt)) n
    have hA : dt * L * Kq P ≤ 1 / 2 := (mul_le_mul_of_nonneg_right (mul_le_mul_of_nonneg_left l1 hdt) hKq0).trans hr
    have e1 : -(g n o * (dt * R n o) + Kq P * (dt * R n o) ^ 2) = dt * L * g n o ^ 2 * (1 - dt * L * Kq P) := by rw [e]; ring
    rw [e1]
    have hp : 0 ≤ dt * L * g n o ^ 2 := mul_nonneg (mul_nonneg hdt l0) (sq_nonneg _)
    have s1 : dt * L * g n o ^ 2 * (1 / 2) ≤ dt * L * g n o ^ 2 * (1 - dt * L * Kq P) := mul_le_mul_of_nonneg_left (by linarith) hp
    have s2 := mul_le_mul_of_nonneg_left s1 (by linarith : 0 ≤ 2 * Lmax P)
    refine le_trans ?_ s2
    have s3 : dt * R n o ^ 2 = L * (dt * L * g n o ^ 2) := by rw [e]; ring
    rw [s3]
    have := mul_le_mul_of_nonneg_right l1 hp
    linarith
  have hsum : dt * rates2 th P (T (k * dt)) eta ≤ 2 * Lmax P * -((∑ n ∈ Finset.range P.N, ∑ o, g n o * (dt * R n o)) + Kq P * ∑ n ∈ Finset.range P.N, ∑ o, (dt * R n o) ^ 2) := by
    unfold rates2
    rw [Finset.mul_sum, Finset.mul_sum, ← Finset.sum_add_distrib, ← Finset.sum_neg_distrib, Finset.mul_sum]
    refine Finset.sum_le_sum fun n hn => ?_
    rw [Finset.mul_sum, Finset.mul_sum, ← Finset.sum_add_distrib, ← Finset.sum_neg_distrib, Finset.mul_sum]
    exact Finset.sum_le_sum fun o _ => hkey n hn o
  refine hsum.trans (mul_le_mul_of_nonneg_left ?_ (by linarith))
  linarith

/-- A constant temperature can be taken for any length of time. -/
theorem any_time {T : ℕ → ℝ} (h : Physical th P (fun _ => T) 0 Tmin 0) (Te : ℝ) : Physical th P (fun _ => T) Te Tmin 0 :=
  ⟨h.th_range, h.th_lip, h.iso, h.m_g, h.kappa, h.ad_hoc, h.L0, h.Qg, h.gas, h.liq, h.Tmin_pos, le_rfl, fun _ _ n hn => h.warm 0 ⟨le_rfl, le_rfl⟩ n hn, fun s _ t _ n _ => by simp⟩

section anneal
variable {T : ℕ → ℝ}

/-- **C150 (annealing).** At constant temperature the free energy never increases from one pass to the next. -/
theorem C150_antitone (h : Physical th P (fun _ => T) 0 Tmin 0) (hm : 0 < m) (hL : 0 < P.L0) {dt : ℝ} (hdt : 0 ≤ dt) (hr : dt * Lmax P * Kq P ≤ 1 / 2) {sol0 : ℕ → Fin m → ℝ}
    (h0 : ∀ n < P.N, ∀ o, 0 ≤ sol0 n o ∧ sol0 n o ≤ 1) : Antitone fun k => freeEnergy P (zetaOf th P T) (integrate th P (fun _ => T) sol0 dt k).1.1 := by
  refine antitone_nat_of_succ_le fun k => ?_
  have := C150_step (any_time h ((k + 1) * dt)) hm hdt hr h0 k le_rfl
  have h1 : 0 ≤ dt * rates2 th P T (integrate th P (fun _ => T) sol0 dt k).1.1 := mul_nonneg hdt (Finset.sum_nonneg fun _ _ => Finset.sum_nonneg fun _ _ => sq_nonneg _)
  have hM : 0 < 2 * Lmax P := mul_pos two_pos (mul_pos hL (Real.exp_pos _))
  have := (mul_nonneg_iff_of_pos_left hM).mp (h1.trans this)
  linarith

/-- **C150 (all rates together).** The squared rates of all passes together, times the step, are bounded by the free energy of the start. -/
theorem C150_total (h : Physical th P (fun _ => T) 0 Tmin 0) (hm : 0 < m) {dt : ℝ} (hdt : 0 ≤ dt) (hr : dt * Lmax P * Kq P ≤ 1 / 2) {sol0 : ℕ → Fin m → ℝ}
    (h0 : ∀ n < P.N, ∀ o, 0 ≤ sol0 n o ∧ sol0 n o ≤ 1) (k : ℕ) :
    dt * ∑ j ∈ Finset.range k, rates2 th P T (integrate th P (fun _ => T) sol0 dt j).1.1 ≤ 2 * Lmax P * (freeEnergy P (zetaOf th P T) sol0 + P.m_g / P.ad_hoc * (P.N * (m / 4))) := by
  have hstep : dt * ∑ j ∈ Finset.range k, rates2 th P T (integrate th P (fun _ => T) sol0 dt j).1.1 ≤
      2 * Lmax P * (freeEnergy P (zetaOf th P T) sol0 - freeEnergy P (zetaOf th P T) (integrate th P (fun _ => T) sol0 dt k).1.1) := by
    induction k with
    | zero => simp [integrate]
    | succ k ih =>
      rw [Finset.sum_range_succ, mul_add]
      have := C150_step (any_time h ((k + 1) * dt)) hm hdt hr h0 k le_rfl
      linarith
  refine hstep.trans (mul_le_mul_of_nonneg_left ?_ (by linarith [Lmax_nonneg (P := P) h.L0]))
  have := energy_low h.m_g h.ad_hoc h.kappa (zetaOf th P T) (integrate th P (fun _ => T) sol0 dt k).1.1
  linarith

/-- **C150 (rates die out).** At constant temperature the rate of every order parameter goes to zero as the number of passes grows. -/
theorem C150_rates (h : Physical th P (fun _ => T) 0 Tmin 0) (hm : 0 < m) {dt : ℝ} (hdt : 0 < dt) (hr : dt * Lmax P * Kq P ≤ 1 / 2) {sol0 : ℕ → Fin m → ℝ}
    (h0 : ∀ n < P.N, ∀ o, 0 ≤ sol0 n o ∧ sol0 n o ≤ 1) {n : ℕ} (hn : n < P.N) (o : Fin m) :
    Tendsto (fun k => stateRhs th P T (integrate th P (fun _ => T) sol0 dt k).1.1 n o) atTop (𝓝 0) := by
  have hs : Summable fun j => rates2 th P T (integrate th P (fun _ => T) sol0 dt j).1.1 := by
    refine summable_of_sum_range_le (c := 2 * Lmax P * (freeEnergy P (zetaOf th P T) sol0 + P.m_g / P.ad_hoc * (P.N * (m / 4))) / dt) (fun j => Finset.sum_nonneg fun _ _ => Finset.sum_nonneg fun _ _ => sq_nonneg _) fun k => ?_
    rw [le_div_iff₀ hdt, mul_comm]
    exact C150_total h hm hdt.le hr h0 k
  have hz := hs.tendsto_atTop_zero
  have hsq : Tendsto (fun k => stateRhs th P T (integrate th P (fun _ => T) sol0 dt k).1.1 n o ^ 2) atTop (𝓝 0) := by
    refine squeeze_zero (fun _ => sq_nonneg _) (fun k => ?_) hz
    exact (Finset.single_le_sum (f := fun o => stateRhs th P T (integrate th P (fun _ => T) sol0 dt k).1.1 n o ^ 2) (fun _ _ => sq_nonneg _) (Finset.mem_univ o)).trans
      (Finset.single_le_sum (f := fun n => ∑ o, stateRhs th P T (integrate th P (fun _ => T) sol0 dt k).1.1 n o ^ 2) (fun _ _ => Finset.sum_nonneg fun _ _ => sq_nonneg _) (Finset.mem_range.mpr hn))
  have := hsq.sqrt
  rw [Real.sqrt_zero] at this
  refine (tendsto_zero_iff_abs_tendsto_zero _).mpr ?_
  refine this.congr fun k => ?_
  exact Real.sqrt_sq_eq_abs _

/-- **C150 (where a run can end).** Every state that a run at constant temperature comes close to again and again is a rest state: its order parameters lie in `[0, 1]` and all its rates are zero. -/
theorem C150_limits (h : Physical th P (fun _ => T) 0 Tmin 0) (hm : 0 < m) {dt : ℝ} (hdt : 0 < dt) (hr : dt * Lmax P * Kq P ≤ 1 / 2) {sol0 : ℕ → Fin m → ℝ}
    (h0 : ∀ n < P.N, ∀ o, 0 ≤ sol0 n o ∧ sol0 n o ≤ 1) {φ : ℕ → ℕ} (hφ : Tendsto φ atTop atTop) {lim : ℕ → Fin m → ℝ}
    (hlim : ∀ n < P.N, ∀ o, Tendsto (fun q => (integrate th P (fun _ => T) sol0 dt (φ q)).1.1 n o) atTop (𝓝 (lim n o))) :
    (∀ n < P.N, ∀ o, 0 ≤ lim n o ∧ lim n o ≤ 1) ∧ ∀ n < P.N, ∀ o, stateRhs th P T lim n o = 0 := by
  have hbox : ∀ k, ∀ n < P.N, ∀ o, 0 ≤ (integrate th P (fun _ => T) sol0 dt k).1.1 n o ∧ (integrate th P (fun _ => T) sol0 dt k).1.1 n o ≤ 1 := fun k =>
    integrate_box (any_time h (k * dt)) hdt.le (rate_ok hm h.m_g h.ad_hoc h.kappa h.L0 hdt.le hr) h0 k le_rfl
  have hb : ∀ n < P.N, ∀ o, 0 ≤ lim n o ∧ lim n o ≤ 1 := fun n hn o =>
    isClosed_Icc.mem_of_tendsto (hlim n hn o) (Eventually.of_forall fun q => hbox (φ q) n hn o)
  refine ⟨hb, fun n hn o => ?_⟩
  -- the rates of the run converge to the rate of the limit
  have hD : Tendsto (fun q => ∑ n ∈ Finset.range P.N, ∑ o, |(integrate th P (fun _ => T) sol0 dt (φ q)).1.1 n o - lim n o|) atTop (𝓝 0) := by
    have : Tendsto (fun q => ∑ n ∈ Finset.range P.N, ∑ o, |(integrate th P (fun _ => T) sol0 dt (φ q)).1.1 n o - lim n o|) atTop (𝓝 (∑ n ∈ Finset.range P.N, ∑ o : Fin m, (0 : ℝ))) := by
      refine tendsto_finsetSum _ fun n hn => tendsto_finsetSum _ fun o _ => ?_
      have := ((hlim n (Finset.mem_range.mp hn) o).sub_const (lim n o)).abs
      simpa using this
    simpa using this
  have habs : ∀ {x : ℕ → Fin m → ℝ}, (∀ n < P.N, ∀ o, 0 ≤ x n o ∧ x n o ≤ 1) → ∀ n < P.N, ∀ o, |x n o| ≤ 1 := fun hx n hn o => abs_le.mpr ⟨by linarith [(hx n hn o).1], (hx n hn o).2⟩
  have hR : Tendsto (fun q => stateRhs th P T (integrate th P (fun _ => T) sol0 dt (φ q)).1.1 n o) atTop (𝓝 (stateRhs th P T lim n o)) := by
    rw [tendsto_iff_dist_tendsto_zero]
    refine squeeze_zero (fun _ => dist_nonneg) (g := fun q => P.L0 * K0 P 1 * ∑ n ∈ Finset.range P.N, ∑ o, |(integrate th P (fun _ => T) sol0 dt (φ q)).1.1 n o - lim n o|) (fun q => ?_) (by simpa using hD.const_mul (P.L0 * K0 P 1))
    rw [Real.dist_eq]
    exact rhs_lip h (t := 0) ⟨le_rfl, le_rfl⟩ (habs (hbox (φ q))) (habs hb) (fun n hn o =>
      (Finset.single_le_sum (f := fun o => |(integrate th P (fun _ => T) sol0 dt (φ q)).1.1 n o - lim n o|) (fun _ _ => abs_nonneg _) (Finset.mem_univ o)).trans
      (Finset.single_le_sum (f := fun n => ∑ o, |(integrate th P (fun _ => T) sol0 dt (φ q)).1.1 n o - lim n o|) (fun _ _ => Finset.sum_nonneg fun _ _ => abs_nonneg _) (Finset.mem_range.mpr hn))) hn o
  exact tendsto_nhds_unique hR ((C150_rates h hm hdt hr h0 hn o).comp hφ)

/-- **C150 (such states exist).** Every run at constant temperature comes close to some rest state again and again. -/
theorem C150_limit_exists (h : Physical th P (fun _ => T) 0 Tmin 0) (hm : 0 < m) {dt : ℝ} (hdt : 0 < dt) (hr : dt * Lmax P * Kq P ≤ 1 / 2) {sol0 : ℕ → Fin m → ℝ}
    (h0 : ∀ n < P.N, ∀ o, 0 ≤ sol0 n o ∧ sol0 n o ≤ 1) :
    ∃ (φ : ℕ → ℕ) (lim : ℕ → Fin m → ℝ), StrictMono φ ∧ (∀ n < P.N, ∀ o, Tendsto (fun q => (integrate th P (fun _ => T) sol0 dt (φ q)).1.1 n o) atTop (𝓝 (lim n o))) ∧
      (∀ n < P.N, ∀ o, 0 ≤ lim n o ∧ lim n o ≤ 1) ∧ ∀ n < P.N, ∀ o, stateRhs th P T lim n o = 0 := by
  have hbox : ∀ k, ∀ n < P.N, ∀ o, 0 ≤ (integrate th P (fun _ => T) sol0 dt k).1.1 n o ∧ (integrate th P (fun _ => T) sol0 dt k).1.1 n o ≤ 1 := fun k =>
    integrate_box (any_time h (k * dt)) hdt.le (rate_ok hm h.m_g h.ad_hoc h.kappa h.L0 hdt.le hr) h0 k le_rfl
  obtain ⟨a, -, φ, hφ, ha⟩ := (isCompact_univ_pi fun _ : Fin P.N × Fin m => isCompact_Icc (a := (0 : ℝ)) (b := 1)).tendsto_subseq (x := fun k => res P (integrate th P (fun _ => T) sol0 dt k).1.1)
    (fun k p _ => hbox k p.1 p.1.2 p.2)
  have hl : ∀ n < P.N, ∀ o, Tendsto (fun q => (integrate th P (fun _ => T) sol0 dt (φ q)).1.1 n o) atTop (𝓝 (ext P a n o)) := by
    intro n hn o
    rw [ext_apply _ hn]
    exact (tendsto_pi_nhds.mp ha) (⟨n, hn⟩, o)
  exact ⟨φ, ext P a, hφ, hl, C150_limits h hm hdt hr h0 hφ.tendsto_atTop hl⟩

theorem cell_lt (P : PfArgs m d) {k j i : ℕ} (hk : k < P.Nz) (hj : j < P.Ny) (hi : i < P.Nx) : etaNo P k j i < P.N := by
  show (k * P.Ny + j) * P.Nx + i < P.N
  have h1 : k * P.Ny + j + 1 ≤ P.Nz * P.Ny := by nlinarith [Nat.succ_le_of_lt hk]
  have h2 : (k * P.Ny + j + 1) * P.Nx ≤ P.Nz * P.Ny * P.Nx := Nat.mul_le_mul_right _ h1
  have h3 : P.N = P.Nz * P.Ny * P.Nx := by unfold PfArgs.N; ring
  rw [h3]
  nlinarith

/-- The free energy is a continuous function of the values in the cells. -/
theorem energy_tendsto (P : PfArgs m d) (zeta : ℕ → ℝ) {x : ℕ → ℕ → Fin m → ℝ} {a : ℕ → Fin m → ℝ} (hx : ∀ n < P.N, ∀ o, Tendsto (fun q => x q n o) atTop (𝓝 (a n o))) :
    Tendsto (fun q => freeEnergy P zeta (x q)) atTop (𝓝 (freeEnergy P zeta a)) := by
  have hc : ∀ {k j i : ℕ}, k < P.Nz → j < P.Ny → i < P.Nx → ∀ o, Tendsto (fun q => x q (etaNo P k j i) o) atTop (𝓝 (a (etaNo P k j i) o)) := fun hk hj hi o => hx _ (cell_lt P hk hj hi) o
  have hb : ∀ n < P.N, Tendsto (fun q => bulkDensity (x q n) (zeta n)) atTop (𝓝 (bulkDensity (a n) (zeta n))) := by
    intro n hn
    unfold bulkDensity
    refine ((tendsto_finsetSum _ fun o _ => ?_).add (tendsto_finsetSum _ fun o _ => tendsto_finsetSum _ fun p _ => ?_)).add (Tendsto.const_mul _ (tendsto_finsetSum _ fun o _ => (hx n hn o).pow 2))
    · exact (((hx n hn o).pow 4).div_const _).sub (((hx n hn o).pow 2).div_const _)
    · exact ((hx n hn o).pow 2).mul ((hx n hn p).pow 2)
  have hf : ∀ o, Tendsto (fun q => faceSum P (x q) o) atTop (𝓝 (faceSum P a o)) := by
    intro o
    unfold faceSum
    refine ((tendsto_finsetSum _ fun k hk => tendsto_finsetSum _ fun j hj => tendsto_finsetSum _ fun i hi => ?_).add
      (tendsto_finsetSum _ fun k hk => tendsto_finsetSum _ fun i hi => tendsto_finsetSum _ fun j hj => ?_)).add
      (tendsto_finsetSum _ fun j hj => tendsto_finsetSum _ fun i hi => tendsto_finsetSum _ fun k hk => ?_)
    all_goals
      rw [Finset.mem_range] at hk hj hi
      exact (((hc (by omega) (by omega) (by omega) o).sub (hc (by omega) (by omega) (by omega) o)).div_const _).pow 2
  show Tendsto (fun q => P.m_g / P.ad_hoc * (∑ n ∈ Finset.range P.N, bulkDensity (x q n) (zeta n)) + P.ad_hoc * (P.kappa_g / 2 * ∑ o, faceSum P (x q) o)) atTop
    (𝓝 (P.m_g / P.ad_hoc * (∑ n ∈ Finset.range P.N, bulkDensity (a n) (zeta n)) + P.ad_hoc * (P.kappa_g / 2 * ∑ o, faceSum P a o)))
  exact (Tendsto.const_mul _ (tendsto_finsetSum _ fun n hn => hb n (Finset.mem_range.mp hn))).add (Tendsto.const_mul _ (Tendsto.const_mul _ (tendsto_finsetSum _ fun o _ => hf o)))

/-- A solution at constant temperature does not end above the free energy of its start. -/
theorem flow_le (h : Physical th P (fun _ => T) 0 Tmin 0) (hm : 0 < m) (hL : 0 < P.L0) {Te : ℝ} {y : ℝ → ℕ → Fin m → ℝ} (hTe : 0 ≤ Te) (hy : Grows th P (fun _ => T) Te y) (h0 : ∀ n < P.N, ∀ o, 0 ≤ y 0 n o ∧ y 0 n o ≤ 1) :
    freeEnergy P (zetaOf th P T) (y Te) ≤ freeEnergy P (zetaOf th P T) (y 0) := by
  have hh := any_time h Te
  have hsmall : Tendsto (fun q : ℕ => Te / ((q + 1 : ℕ) : ℝ)) atTop (𝓝 0) := (tendsto_const_div_atTop_nhds_zero_nat Te).comp (tendsto_add_atTop_nat 1)
  have hev : ∀ᶠ q : ℕ in atTop, Te / ((q + 1 : ℕ) : ℝ) * Lmax P * Kq P ≤ 1 / 2 := by
    have := (hsmall.mul_const (Lmax P)).mul_const (Kq P)
    rw [zero_mul, zero_mul] at this
    exact (this.eventually (gt_mem_nhds (by norm_num : (0 : ℝ) < 1 / 2))).mono fun q hq => hq.le
  have hconv : ∀ n < P.N, ∀ o, Tendsto (fun q : ℕ => (integrate th P (fun _ => T) (y 0) (Te / ((q + 1 : ℕ) : ℝ)) (q + 1)).1.1 n o) atTop (𝓝 (y Te n o)) := by
    intro n hn o
    rw [tendsto_iff_dist_tendsto_zero]
    refine squeeze_zero' (Eventually.of_forall fun _ => dist_nonneg) (g := fun q : ℕ => errConst P Te Tmin 0 * (Te / ((q + 1 : ℕ) : ℝ))) ?_ (by simpa using hsmall.const_mul (errConst P Te Tmin 0))
    filter_upwards [hev] with q hq
    have e : ((q + 1 : ℕ) : ℝ) * (Te / ((q + 1 : ℕ) : ℝ)) = Te := mul_div_cancel₀ _ (by positivity)
    have hd : 0 ≤ Te / ((q + 1 : ℕ) : ℝ) := div_nonneg hTe (by positivity)
    have := C149_error hh hy (fun n _ o => rfl) h0 hd (rate_ok hm h.m_g h.ad_hoc h.kappa h.L0 hd hq) (q + 1) (by rw [e]) hn o
    rw [e] at this
    rw [Real.dist_eq]
    exact this
  refine le_of_tendsto (energy_tendsto P (zetaOf th P T) hconv) ?_
  filter_upwards [hev] with q hq
  have ha := C150_antitone h hm hL (dt := Te / ((q + 1 : ℕ) : ℝ)) (div_nonneg hTe (by positivity)) hq h0
  have hz := ha (Nat.zero_le (q + 1))
  have e0 : (integrate th P (fun _ => T) (y 0) (Te / ((q + 1 : ℕ) : ℝ)) 0).1.1 = y 0 := by simp only [integrate]
  simp only [e0] at hz
  exact hz

/-- **C150 (exact solution).** The free energy never increases along a solution of the grain-growth equations at constant temperature. -/
theorem C150_flow (h : Physical th P (fun _ => T) 0 Tmin 0) (hm : 0 < m) (hL : 0 < P.L0) {Te : ℝ} {y : ℝ → ℕ → Fin m → ℝ} (hy : Grows th P (fun _ => T) Te y) (h0 : ∀ n < P.N, ∀ o, 0 ≤ y 0 n o ∧ y 0 n o ≤ 1) :
    AntitoneOn (fun t => freeEnergy P (zetaOf th P T) (y t)) (Icc 0 Te) := by
  intro s hs t ht hst
  have hy' : Grows th P (fun _ => T) (t - s) (fun r => y (s + r)) := by
    intro r hr n hn o
    have hm : s + r ∈ Icc 0 Te := ⟨by linarith [hs.1, hr.1], by linarith [hr.2, ht.2]⟩
    have h1 := hy (s + r) hm n hn o
    have h2 : HasDerivWithinAt (fun r => s + r) 1 (Icc 0 (t - s)) r := ((hasDerivAt_id r).const_add s).hasDerivWithinAt
    exact (HasDerivWithinAt.comp r h1 h2 fun r' hr' => ⟨by linarith [hs.1, hr'.1], by linarith [hr'.2, ht.2]⟩).congr_deriv (mul_one _)
  have := flow_le h hm hL (sub_nonneg.mpr hst) hy' (fun n hn o => by
    have := stays_in_box (any_time h Te) hy h0 s hs n hn o
    simpa using this)
  simpa using this

end anneal

/-- One cell with two orientations, unit constants. -/
noncomputable def unitCell : PfArgs 2 0 := ⟨1, 1, 1, 1, 1, 1, 1, 0, 1, 1, 0, 1, 1, 0, fun _ _ _ => 0⟩

/-- **C150 (the condition is needed).** With a too large step the free energy of the unit cell increases. -/
theorem C150_large_step : ∃ dt sol0, 0 < dt ∧ (∀ n < unitCell.N, ∀ o, 0 ≤ sol0 n o ∧ sol0 n o ≤ 1) ∧
    freeEnergy unitCell (zetaOf (fun _ => -1) unitCell fun _ => 1) (integrate (fun _ => -1) unitCell (fun _ _ => 1) sol0 dt 0).1.1 <
      freeEnergy unitCell (zetaOf (fun _ => -1) unitCell fun _ => 1) (integrate (fun _ => -1) unitCell (fun _ _ => 1) sol0 dt 1).1.1 := by
  refine ⟨4, fun _ => ![1 / 2, 0], by norm_num, fun n _ o => by fin_cases o <;> norm_num, ?_⟩
  have e0 : (integrate (fun _ => -1) unitCell (fun _ _ => 1) (fun _ => ![1 / 2, 0]) 4 0).1.1 = fun _ => ![1 / 2, 0] := by simp only [integrate]
  have hrhs : ∀ o, stateRhs (fun _ => -1) unitCell (fun _ => 1) (fun _ => ![1 / 2, 0]) 0 o = ![3 / 8, 0] o := by
    intro o
    have h := rhs_eq (fun _ => -1) unitCell (by simp [unitCell]) (fun _ => 1) (fun _ => ![1 / 2, 0]) (k := 0) (j := 0) (i := 0) (by simp [unitCell]) (by simp [unitCell]) (by simp [unitCell]) o
    have en : etaNo unitCell 0 0 0 = 0 := by simp [etaNo]
    rw [en] at h
    rw [h]
    fin_cases o <;> simp [core, lap1, LgOf, zetaOf, unitCell, Fin.sum_univ_two] <;> norm_num
  have e1 : ∀ o, (integrate (fun _ => -1) unitCell (fun _ _ => 1) (fun _ => ![1 / 2, 0]) 4 (0 + 1)).1.1 0 o = ![2, 0] o := by
    intro o
    rw [integrate_step, e0, hrhs]
    fin_cases o <;> norm_num
  have hE : ∀ x : ℕ → Fin 2 → ℝ, freeEnergy unitCell (zetaOf (fun _ => -1) unitCell fun _ => 1) x = bulkDensity (x 0) (zetaOf (fun _ => -1) unitCell (fun _ => 1) 0) := by
    intro x
    simp [freeEnergy, faceSum, unitCell, PfArgs.N]
  have e1' : (integrate (fun _ => -1) unitCell (fun _ _ => 1) (fun _ => ![1 / 2, 0]) 4 1).1.1 0 = ![2, 0] := funext e1
  rw [hE, hE, e0, e1']
  have hz : zetaOf (fun _ => -1) unitCell (fun _ => 1) 0 = 1 := by unfold zetaOf; norm_num
  rw [hz]
  have hb : ∀ x : ℝ, bulkDensity ![x, 0] 1 = x ^ 4 / 4 - x ^ 2 / 2 := by
    intro x
    unfold bulkDensity
    rw [erase_sum (fun o p => (![x, 0] : Fin 2 → ℝ) o ^ 2 * (![x, 0] : Fin 2 → ℝ) p ^ 2)]
    simp [Fin.sum_univ_two]
  show bulkDensity ![1 / 2, 0] 1 < bulkDensity ![2, 0] 1
  rw [hb, hb]
  norm_num

/-- Instance: the unit cell satisfies the conditions with the step 1/16. -/
example : Physical (fun _ => -1) unitCell (fun _ _ => 1) 0 1 0 ∧ (1 / 16 : ℝ) * Lmax unitCell * Kq unitCell ≤ 1 / 2 := by
  refine ⟨⟨fun _ => ⟨le_rfl, by norm_num⟩, fun _ _ => by simp, by simp [unitCell], by simp [unitCell], by simp [unitCell], by simp [unitCell], by simp [unitCell], by simp [unitCell], by simp [unitCell], by simp [unitCell], one_pos, le_rfl,
    fun _ _ _ _ => by simp [capT_min], fun _ _ _ _ _ _ => by simp⟩, ?_⟩
  simp only [Lmax, Kq, unitCell]
  norm_num

end Verif.PhaseField.Ode
