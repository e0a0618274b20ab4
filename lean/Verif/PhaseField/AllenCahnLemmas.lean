import Verif.PhaseField.AllenCahn
import Verif.Mesh.Lemmas
import Mathlib.Analysis.Calculus.Deriv.Add
import Mathlib.Analysis.Calculus.Deriv.Mul
import Mathlib.Analysis.Calculus.Deriv.Pow
import Mathlib.Analysis.Calculus.Deriv.Shift
import Mathlib.Algebra.BigOperators.Intervals

/-! Helper lemmas for the Allen–Cahn properties. -/
namespace Verif.PhaseField
open Verif Verif.Mesh

variable {m d : ℕ}

/-! ### Sums over grids -/

theorem sum_range_mul (a b : ℕ) (f : ℕ → ℝ) :
    ∑ n ∈ Finset.range (a * b), f n = ∑ i ∈ Finset.range a, ∑ j ∈ Finset.range b, f (i * b + j) := by
  induction a with
  | zero => simp
  | succ a ih => rw [Nat.succ_mul, Finset.sum_range_add, ih, Finset.sum_range_succ]

theorem sum_range_mul3 (a b c : ℕ) (f : ℕ → ℝ) :
    ∑ n ∈ Finset.range (a * b * c), f n =
      ∑ i ∈ Finset.range a, ∑ j ∈ Finset.range b, ∑ k ∈ Finset.range c, f ((i * b + j) * c + k) := by
  rw [sum_range_mul, sum_range_mul a b (fun n => ∑ k ∈ Finset.range c, f (n * c + k))]

/-- Second difference with missing neighbours dropped. -/
def lap1 (N : ℕ) (g : ℕ → ℝ) (i : ℕ) : ℝ :=
  (if i + 1 < N then g (i + 1) - g i else 0) + (if 0 < i then g (i - 1) - g i else 0)

theorem abel (F v : ℕ → ℝ) (M : ℕ) :
    ∑ i ∈ Finset.range (M + 1), (F (i + 1) - F i) * v i =
      F (M + 1) * v M - F 0 * v 0 - ∑ i ∈ Finset.range M, F (i + 1) * (v (i + 1) - v i) := by
  induction M with
  | zero => simp; ring
  | succ M ih => rw [Finset.sum_range_succ, ih, Finset.sum_range_succ _ M]; ring

/-- Summation by parts. -/
theorem lap1_parts (N : ℕ) (g v : ℕ → ℝ) :
    ∑ i ∈ Finset.range N, lap1 N g i * v i =
      -∑ i ∈ Finset.range (N - 1), (g (i + 1) - g i) * (v (i + 1) - v i) := by
  cases N with
  | zero => simp
  | succ M =>
    let F : ℕ → ℝ := fun i => if i = 0 then 0 else if i ≤ M then g i - g (i - 1) else 0
    have h1 : ∀ i ∈ Finset.range (M + 1), lap1 (M + 1) g i * v i = (F (i + 1) - F i) * v i := by
      intro i hi
      rw [Finset.mem_range] at hi
      congr 1
      simp only [lap1, F, Nat.add_sub_cancel, Nat.succ_ne_zero, if_false]
      rcases Nat.eq_zero_or_pos i with h | h
      · subst h
        by_cases hM : 1 ≤ M
        · simp [hM]; omega
        · simp; split_ifs <;> first | rfl | omega
      · have : ¬ i = 0 := by omega
        by_cases hM : i + 1 ≤ M
        · simp [h, this, hM, show i + 1 < M + 1 by omega, show i ≤ M by omega]
          have : i < M := by omega
          ring
        · simp [h, this, hM, show i ≤ M by omega]
    rw [Finset.sum_congr rfl h1, abel F v M]
    have hF0 : F 0 = 0 := by simp [F]
    have hFM : F (M + 1) = 0 := by simp [F]
    rw [hF0, hFM, Nat.add_sub_cancel]
    have : ∀ i ∈ Finset.range M, F (i + 1) * (v (i + 1) - v i) = (g (i + 1) - g i) * (v (i + 1) - v i) := by
      intro i hi
      rw [Finset.mem_range] at hi
      simp [F, show i + 1 ≤ M by omega]
    rw [Finset.sum_congr rfl this]; ring

theorem lap1_sum (N : ℕ) (g : ℕ → ℝ) : ∑ i ∈ Finset.range N, lap1 N g i = 0 := by
  have := lap1_parts N g (fun _ => 1)
  simpa using this

/-! ### Neighbour fields -/

theorem posX_get (e : Arr3 (Fin m → ℝ)) (k j i : ℕ) : (posX e).get k j i =
    if i + 1 < e.n2 then e.get k j (i + 1) else e.get k j (e.n2 - 1 + (i - (e.n2 - 1))) := by
  show (if i < e.n2 - 1 then e.get k j (i + 1) else e.get k j (e.n2 - 1 + (i - (e.n2 - 1)))) = _
  by_cases h : i + 1 < e.n2
  · rw [if_pos h, if_pos (show i < e.n2 - 1 by omega)]
  · rw [if_neg h, if_neg (show ¬ i < e.n2 - 1 by omega)]

theorem negX_get (e : Arr3 (Fin m → ℝ)) (k j i : ℕ) : (negX e).get k j i =
    if 0 < i then e.get k j (i - 1) else e.get k j i := by
  show (if i < 1 then e.get k j i else e.get k j (i - 1)) = _
  by_cases h : 0 < i
  · rw [if_pos h, if_neg (show ¬ i < 1 by omega)]
  · rw [if_neg h, if_pos (show i < 1 by omega)]

theorem posX_diff (e : Arr3 (Fin m → ℝ)) (k j i : ℕ) (o : Fin m) (hi : i < e.n2) :
    ((posX e).get k j i o - e.get k j i o) + ((negX e).get k j i o - e.get k j i o) =
      lap1 e.n2 (fun i => e.get k j i o) i := by
  unfold lap1
  rw [posX_get, negX_get]
  congr 1
  · by_cases h : i + 1 < e.n2
    · rw [if_pos h, if_pos h]
    · rw [if_neg h, if_neg h, show e.n2 - 1 + (i - (e.n2 - 1)) = i by omega, sub_self]
  · by_cases h : 0 < i
    · rw [if_pos h, if_pos h]
    · rw [if_neg h, if_neg h, sub_self]

theorem posY_get (e : Arr3 (Fin m → ℝ)) (k j i : ℕ) : (posY e).get k j i =
    if j + 1 < e.n1 then e.get k (j + 1) i else e.get k (e.n1 - 1 + (j - (e.n1 - 1))) i := by
  show (if j < e.n1 - 1 then e.get k (j + 1) i else e.get k (e.n1 - 1 + (j - (e.n1 - 1))) i) = _
  by_cases h : j + 1 < e.n1
  · rw [if_pos h, if_pos (show j < e.n1 - 1 by omega)]
  · rw [if_neg h, if_neg (show ¬ j < e.n1 - 1 by omega)]

theorem negY_get (e : Arr3 (Fin m → ℝ)) (k j i : ℕ) : (negY e).get k j i =
    if 0 < j then e.get k (j - 1) i else e.get k j i := by
  show (if j < 1 then e.get k j i else e.get k (j - 1) i) = _
  by_cases h : 0 < j
  · rw [if_pos h, if_neg (show ¬ j < 1 by omega)]
  · rw [if_neg h, if_pos (show j < 1 by omega)]

theorem posY_diff (e : Arr3 (Fin m → ℝ)) (k j i : ℕ) (o : Fin m) (hi : j < e.n1) :
    ((posY e).get k j i o - e.get k j i o) + ((negY e).get k j i o - e.get k j i o) =
      lap1 e.n1 (fun j => e.get k j i o) j := by
  unfold lap1
  rw [posY_get, negY_get]
  congr 1
  · by_cases h : j + 1 < e.n1
    · rw [if_pos h, if_pos h]
    · rw [if_neg h, if_neg h, show e.n1 - 1 + (j - (e.n1 - 1)) = j by omega, sub_self]
  · by_cases h : 0 < j
    · rw [if_pos h, if_pos h]
    · rw [if_neg h, if_neg h, sub_self]

theorem posZ_get (e : Arr3 (Fin m → ℝ)) (k j i : ℕ) : (posZ e).get k j i =
    if k + 1 < e.n0 then e.get (k + 1) j i else e.get (e.n0 - 1 + (k - (e.n0 - 1))) j i := by
  show (if k < e.n0 - 1 then e.get (k + 1) j i else e.get (e.n0 - 1 + (k - (e.n0 - 1))) j i) = _
  by_cases h : k + 1 < e.n0
  · rw [if_pos h, if_pos (show k < e.n0 - 1 by omega)]
  · rw [if_neg h, if_neg (show ¬ k < e.n0 - 1 by omega)]

theorem negZ_get (e : Arr3 (Fin m → ℝ)) (k j i : ℕ) : (negZ e).get k j i =
    if 0 < k then e.get (k - 1) j i else e.get k j i := by
  show (if k < 1 then e.get k j i else e.get (k - 1) j i) = _
  by_cases h : 0 < k
  · rw [if_pos h, if_neg (show ¬ k < 1 by omega)]
  · rw [if_neg h, if_pos (show k < 1 by omega)]

theorem posZ_diff (e : Arr3 (Fin m → ℝ)) (k j i : ℕ) (o : Fin m) (hi : k < e.n0) :
    ((posZ e).get k j i o - e.get k j i o) + ((negZ e).get k j i o - e.get k j i o) =
      lap1 e.n0 (fun k => e.get k j i o) k := by
  unfold lap1
  rw [posZ_get, negZ_get]
  congr 1
  · by_cases h : k + 1 < e.n0
    · rw [if_pos h, if_pos h]
    · rw [if_neg h, if_neg h, show e.n0 - 1 + (k - (e.n0 - 1)) = k by omega, sub_self]
  · by_cases h : 0 < k
    · rw [if_pos h, if_pos h]
    · rw [if_neg h, if_neg h, sub_self]

/-- Number of cell `(k, j, i)`. -/
def etaNo (P : PfArgs m d) (k j i : ℕ) : ℕ := (k * P.Ny + j) * P.Nx + i

/-- Entry of the diffusion term: aniso coefficient times the sum of second differences. -/
theorem laplaceTerm_get (P : PfArgs m d) (eta : ℕ → Fin m → ℝ) {k j i : ℕ} (hk : k < P.Nz) (hj : j < P.Ny)
    (hi : i < P.Nx) (o : Fin m) : ∃ a, (¬ P.anisotropy > 0 → a = 1) ∧
    (∃ edge, (P.anisotropy > 0 → a = anisoTerm P o edge)) ∧
    (laplaceTerm P eta).get (etaNo P k j i) o =
      -(P.kappa_g * P.ad_hoc * a * (lap1 P.Nx (fun i => eta (etaNo P k j i) o) i / P.hx ^ 2
        + lap1 P.Ny (fun j => eta (etaNo P k j i) o) j / P.hy ^ 2
        + lap1 P.Nz (fun k => eta (etaNo P k j i) o) k / P.hz ^ 2)) := by
  let e : Arr3 (Fin m → ℝ) := (⟨P.N, eta⟩ : Arr1 _).reshape3 P.Nz P.Ny P.Nx
  refine ⟨(anisoField P e).get k j i o, ?_, ⟨![(posX e).get k j i o - (negX e).get k j i o, (posY e).get k j i o - (negY e).get k j i o,
        (posZ e).get k j i o - (negZ e).get k j i o], ?_⟩, ?_⟩
  · intro h; simp [anisoField, h]
  · intro h; simp only [anisoField]; rw [if_pos h]
  · unfold laplaceTerm
    have hx := posX_diff e k j i o hi
    have hy := posY_diff e k j i o hj
    have hz := posZ_diff e k j i o hk
    unfold etaNo
    simp only
    have hf' : ∀ a : Arr3 (Fin m → ℝ), a.n1 = P.Ny → a.n2 = P.Nx →
        a.flatten.get ((k * P.Ny + j) * P.Nx + i) o = a.get k j i o := by
      intro a h1 h2
      rw [← h1, ← h2]
      exact congrFun (Arr3.flatten_get a (i := k) (j := j) (k := i) (by rw [h1]; exact hj) (by rw [h2]; exact hi)) o
    refine (hf' _ rfl rfl).trans ?_
    simp only
    rw [hx, hy, hz]
    show -(lap1 P.Nx (fun i => e.get k j i o) i / P.hx ^ 2 * (anisoField P e).get k j i o * P.kappa_g * P.ad_hoc) +
      -(lap1 P.Ny (fun j => e.get k j i o) j / P.hy ^ 2 * (anisoField P e).get k j i o * P.kappa_g * P.ad_hoc) +
      -(lap1 P.Nz (fun k => e.get k j i o) k / P.hz ^ 2 * (anisoField P e).get k j i o * P.kappa_g * P.ad_hoc) =
      -(P.kappa_g * P.ad_hoc * (anisoField P e).get k j i o * (lap1 P.Nx (fun i => e.get k j i o) i / P.hx ^ 2
        + lap1 P.Ny (fun j => e.get k j i o) j / P.hy ^ 2 + lap1 P.Nz (fun k => e.get k j i o) k / P.hz ^ 2))
    ring

/-! ### Local energy -/

/-- Explicit partial derivatives of the local energy. -/
noncomputable def localGradExplicit (P : PfArgs m d) (eta : ℕ → Fin m → ℝ) (zeta : ℕ → ℝ) (n : ℕ) (o : Fin m) : ℝ :=
  P.m_g * (eta n o ^ 3 - eta n o + 4 * eta n o * ((∑ p, eta n p ^ 2) - eta n o ^ 2) + 2 * (1 - zeta n) ^ 2 * eta n o)

theorem hasDerivAt_entry (x w : ℝ) : HasDerivAt (fun s : ℝ => x + s * w) w 0 := by
  simpa using ((hasDerivAt_id (0 : ℝ)).mul_const w).const_add x

theorem localEnergy_dir (P : PfArgs m d) (eta v : ℕ → Fin m → ℝ) (zeta : ℕ → ℝ) :
    HasDerivAt (fun s : ℝ => localEnergy P (fun n o => eta n o + s * v n o) zeta)
      (∑ n ∈ Finset.range P.N, ∑ o, localGradExplicit P eta zeta n o * v n o) 0 := by
  unfold localEnergy
  have hq : ∀ n o (r : ℕ), HasDerivAt (fun s : ℝ => (eta n o + s * v n o) ^ r) (r * eta n o ^ (r - 1) * v n o) 0 := by
    intro n o r
    exact ((hasDerivAt_entry (eta n o) (v n o)).fun_pow r).congr_deriv (by simp)
  have h1 : HasDerivAt (fun s : ℝ => ∑ n ∈ Finset.range P.N, ∑ o, ((eta n o + s * v n o) ^ 4 / 4 - (eta n o + s * v n o) ^ 2 / 2))
      (∑ n ∈ Finset.range P.N, ∑ o, ((4 : ℕ) * eta n o ^ (4 - 1) * v n o / 4 - (2 : ℕ) * eta n o ^ (2 - 1) * v n o / 2)) 0 :=
    HasDerivAt.fun_sum fun n _ => HasDerivAt.fun_sum fun o _ => ((hq n o 4).div_const 4).sub ((hq n o 2).div_const 2)
  have h2 : HasDerivAt (fun s : ℝ => ∑ n ∈ Finset.range P.N, ∑ o, (eta n o + s * v n o) ^ 4)
      (∑ n ∈ Finset.range P.N, ∑ o, (4 : ℕ) * eta n o ^ (4 - 1) * v n o) 0 :=
    HasDerivAt.fun_sum fun n _ => HasDerivAt.fun_sum fun o _ => hq n o 4
  have h3 : HasDerivAt (fun s : ℝ => ∑ n ∈ Finset.range P.N, (1 - zeta n) ^ 2 * ∑ o, (eta n o + s * v n o) ^ 2)
      (∑ n ∈ Finset.range P.N, (1 - zeta n) ^ 2 * ∑ o, (2 : ℕ) * eta n o ^ (2 - 1) * v n o) 0 :=
    HasDerivAt.fun_sum fun n _ => (HasDerivAt.fun_sum fun o _ => hq n o 2).const_mul _
  have h4 : HasDerivAt (fun s : ℝ => ∑ n ∈ Finset.range P.N, ∑ o, ∑ p, ((eta n o + s * v n o) * (eta n p + s * v n p)) ^ 2)
      (∑ n ∈ Finset.range P.N, ∑ o, ∑ p, (2 * (eta n o * eta n p) * (v n o * eta n p + eta n o * v n p))) 0 := by
    refine HasDerivAt.fun_sum fun n _ => HasDerivAt.fun_sum fun o _ => HasDerivAt.fun_sum fun p _ => ?_
    exact (((hasDerivAt_entry (eta n o) (v n o)).fun_mul (hasDerivAt_entry (eta n p) (v n p))).fun_pow 2).congr_deriv
      (by simp)
  have := (((h1.add ((h4.sub h2).const_mul (1 : ℝ))).add h3).const_mul P.m_g)
  refine HasDerivAt.congr_deriv this (Eq.symm ?_)
  rw [one_mul, ← Finset.sum_sub_distrib, ← Finset.sum_add_distrib, ← Finset.sum_add_distrib, Finset.mul_sum]
  refine Finset.sum_congr rfl fun n _ => ?_
  have e4 : ∑ o, ∑ p, (2 * (eta n o * eta n p) * (v n o * eta n p + eta n o * v n p))
      = ∑ o, 4 * eta n o * v n o * ∑ p, eta n p ^ 2 := by
    have a1 : ∀ o, ∑ p, (2 * (eta n o * eta n p) * (v n o * eta n p + eta n o * v n p))
        = 2 * (eta n o * v n o) * (∑ p, eta n p ^ 2) + 2 * eta n o ^ 2 * ∑ p, eta n p * v n p := by
      intro o
      rw [Finset.mul_sum, Finset.mul_sum, ← Finset.sum_add_distrib]
      exact Finset.sum_congr rfl fun p _ => by ring
    rw [Finset.sum_congr rfl fun o _ => a1 o, Finset.sum_add_distrib, ← Finset.sum_mul, ← Finset.sum_mul, ← Finset.sum_mul,
      ← Finset.mul_sum, ← Finset.mul_sum]
    rw [show (∑ i, 4 * eta n i * v n i) = 4 * ∑ i, eta n i * v n i by
      rw [Finset.mul_sum]; exact Finset.sum_congr rfl fun p _ => by ring]
    ring
  rw [e4, Finset.mul_sum, ← Finset.sum_sub_distrib, ← Finset.sum_add_distrib, ← Finset.sum_add_distrib, Finset.mul_sum]
  refine Finset.sum_congr rfl fun o _ => ?_
  unfold localGradExplicit
  norm_num
  ring

theorem localEnergyGrad_eq (P : PfArgs m d) (eta : ℕ → Fin m → ℝ) (zeta : ℕ → ℝ) {n : ℕ} (hn : n < P.N) (o : Fin m) :
    localEnergyGrad P eta zeta n o = localGradExplicit P eta zeta n o := by
  unfold localEnergyGrad
  have h := localEnergy_dir P eta (fun n' o' => if n' = n ∧ o' = o then 1 else 0) zeta
  have hs : (∑ n' ∈ Finset.range P.N, ∑ o', localGradExplicit P eta zeta n' o' * (if n' = n ∧ o' = o then (1 : ℝ) else 0))
      = localGradExplicit P eta zeta n o := by
    rw [Finset.sum_eq_single n]
    · rw [Finset.sum_eq_single o]
      · simp
      · intro b _ hb; simp [hb]
      · intro h; exact absurd (Finset.mem_univ _) h
    · intro b _ hb
      exact Finset.sum_eq_zero fun o' _ => by simp [hb]
    · intro h; exact absurd (Finset.mem_range.mpr hn) h
  rw [hs] at h
  have h3 := HasDerivAt.comp_sub_const (eta n o) (eta n o) (by rw [sub_self]; exact h)
  rw [← h3.deriv]
  congr 1
  funext s
  congr 1
  funext n' o'
  unfold setEntry
  by_cases h1 : n' = n
  · subst h1
    by_cases h4 : o' = o
    · subst h4; simp
    · simp [h4]
  · simp [h1]

end Verif.PhaseField
