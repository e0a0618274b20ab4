import Verif.Fem.DynRelax
import Mathlib.Algebra.BigOperators.Field

/-!
# Dynamic relaxation on linear problems: energy balance, stability, number of passes
-/

namespace Verif.DynRelax

variable {n : ℕ}

/-- `xᵀ A y`. -/
def form (A : Fin (n + 1) → Fin (n + 1) → ℝ) (x y : V n) : ℝ := ∑ i, x i * ∑ j, A i j * y j

/-- `xᵀ diag(m) y`. -/
def mdot (m x y : V n) : ℝ := ∑ i, m i * x i * y i

theorem form_symm (A : Fin (n + 1) → Fin (n + 1) → ℝ) (hA : ∀ i j, A i j = A j i) (x y : V n) : form A x y = form A y x := by
  unfold form
  simp only [Finset.mul_sum]
  rw [Finset.sum_comm]
  refine Finset.sum_congr rfl fun i _ => Finset.sum_congr rfl fun j _ => ?_
  rw [hA i j]; ring

/-- **C134 (stability).** The lumped masses are large enough for the step: on displacements that vanish on the constrained
unknowns, `xᵀ A x` is at most `4/1.21` times the mass form, below the limit 4 of the central difference scheme with unit step. -/
theorem C134_stable (P : Prob n) (A : Fin (n + 1) → Fin (n + 1) → ℝ) (hA : ∀ i j, A i j = A j i) (x : V n) (hx : ∀ i, Fixed P i → x i = 0) :
    ∑ i, x i * ∑ j, A i j * x j ≤ 4 / 1.21 * ∑ i, massOf (writeRows P.bcs A) i * x i ^ 2 := by
  have e1 : ∑ i, massOf (writeRows P.bcs A) i * x i ^ 2 = 1.21 / 4 * ∑ i, ∑ j, |A i j| * x i ^ 2 := by
    rw [Finset.mul_sum]
    refine Finset.sum_congr rfl fun i _ => ?_
    by_cases hi : Fixed P i
    · rw [hx i hi]; simp
    · unfold massOf
      rw [writeRows_not P.bcs A i hi, Finset.mul_sum, Finset.mul_sum, Finset.sum_mul]
      refine Finset.sum_congr rfl fun j _ => ?_
      unfold h_tilde; ring
  have e2 : ∑ i, ∑ j, |A i j| * x i ^ 2 = ∑ i, ∑ j, |A i j| * x j ^ 2 := by
    rw [Finset.sum_comm]
    refine Finset.sum_congr rfl fun i _ => Finset.sum_congr rfl fun j _ => ?_
    rw [hA j i]
  have e3 : ∑ i, x i * ∑ j, A i j * x j ≤ ∑ i, ∑ j, (|A i j| * x i ^ 2 + |A i j| * x j ^ 2) / 2 := by
    refine Finset.sum_le_sum fun i _ => ?_
    rw [Finset.mul_sum]
    refine Finset.sum_le_sum fun j _ => ?_
    have h1 : x i * (A i j * x j) ≤ |A i j| * (|x i| * |x j|) := by
      calc x i * (A i j * x j) ≤ |x i * (A i j * x j)| := le_abs_self _
        _ = _ := by rw [abs_mul, abs_mul]; ring
    have h2 : |x i| * |x j| ≤ (x i ^ 2 + x j ^ 2) / 2 := by
      have := sq_nonneg (|x i| - |x j|)
      rw [sub_sq, sq_abs, sq_abs] at this
      linarith
    have h3 := mul_le_mul_of_nonneg_left h2 (abs_nonneg (A i j))
    linarith
  have e4 : ∑ i, ∑ j, (|A i j| * x i ^ 2 + |A i j| * x j ^ 2) / 2 = ∑ i, ∑ j, |A i j| * x i ^ 2 := by
    have : ∑ i, ∑ j, (|A i j| * x i ^ 2 + |A i j| * x j ^ 2) / 2 = (∑ i, ∑ j, |A i j| * x i ^ 2 + ∑ i, ∑ j, |A i j| * x j ^ 2) / 2 := by
      simp only [← Finset.sum_div, Finset.sum_add_distrib]
    rw [this, ← e2]; ring
  rw [e1]
  rw [e4] at e3
  linarith

/-- The recurrence of the linear problem in the unknowns `d = q - exact solution`. -/
structure Motion (A : Fin (n + 1) → Fin (n + 1) → ℝ) (fix : Fin (n + 1) → Prop) (m : V n) (d v r : ℕ → V n) (c : ℕ → ℝ) (K : ℕ) : Prop where
  mpos : ∀ i, 0 < m i
  dfix : ∀ k i, k ≤ K → fix i → d k i = 0
  vfix : ∀ k i, k ≤ K → fix i → v k i = 0
  move : ∀ k i, k < K → d (k + 1) i = d k i + v k i
  rfree : ∀ k i, k ≤ K → ¬ fix i → r k i = ∑ j, A i j * d k j
  rfix : ∀ k i, k ≤ K → fix i → r k i = 0
  damp : ∀ k i, k < K → (2 + c k) * v (k + 1) i = (2 - c k) * v k i - 2 * (r (k + 1) i / m i)
  clow : ∀ k, k < K → 1e-3 ≤ c k
  chigh : ∀ k, k < K → c k ≤ 3.9

/-- The energy of the half step: kinetic energy plus the elastic product of two successive positions. -/
noncomputable def energy (A : Fin (n + 1) → Fin (n + 1) → ℝ) (m : V n) (d v : V n) : ℝ :=
  (mdot m v v + form A d (fun i => d i + v i)) / 2

/-- The mean of two successive velocities. -/
noncomputable def avg (v w : V n) : V n := fun i => (v i + w i) / 2

variable {A : Fin (n + 1) → Fin (n + 1) → ℝ} {fix : Fin (n + 1) → Prop} {m : V n} {d v r : ℕ → V n} {c : ℕ → ℝ} {K : ℕ}

theorem Motion.work (H : Motion A fix m d v r c K) (k : ℕ) (hk : k ≤ K) (x : V n) (hx : ∀ i, fix i → x i = 0) : form A x (d k) = ∑ i, x i * r k i := by
  refine Finset.sum_congr rfl fun i _ => ?_
  by_cases hi : fix i
  · rw [hx i hi]; ring
  · rw [H.rfree k i hk hi]

theorem Motion.force (H : Motion A fix m d v r c K) (k : ℕ) (hk : k < K) (i : Fin (n + 1)) : r (k + 1) i = - (m i * (v (k + 1) i - v k i) + c k * m i * avg (v k) (v (k + 1)) i) := by
  have h1 := H.damp k i hk
  have h2 := (H.mpos i).ne'
  unfold avg
  field_simp at h1
  linarith

theorem Motion.balance (H : Motion A fix m d v r c K) (hA : ∀ i j, A i j = A j i) (k : ℕ) (hk : k < K) :
    energy A m (d (k + 1)) (v (k + 1)) = energy A m (d k) (v k) - c k * mdot m (avg (v k) (v (k + 1))) (avg (v k) (v (k + 1))) := by
  have e0 : (fun i => d k i + v k i) = d (k + 1) := by funext i; rw [H.move k i hk]
  have e1 : form A (d (k + 1)) (fun i => d (k + 1) i + v (k + 1) i) - form A (d k) (d (k + 1)) = ∑ i, (v k i + v (k + 1) i) * r (k + 1) i := by
    have hx : ∀ i, fix i → v k i + v (k + 1) i = 0 := fun i hi => by rw [H.vfix k i hk.le hi, H.vfix (k + 1) i hk hi, add_zero]
    rw [← H.work (k + 1) hk _ hx, form_symm A hA (d (k + 1))]
    unfold form
    rw [← Finset.sum_sub_distrib]
    refine Finset.sum_congr rfl fun i _ => ?_
    show (d (k + 1) i + v (k + 1) i) * _ - d k i * _ = (v k i + v (k + 1) i) * _
    have := H.move k i hk
    rw [← sub_mul]
    congr 1
    linarith
  unfold energy
  rw [e0]
  have e2 : form A (d (k + 1)) (fun i => d (k + 1) i + v (k + 1) i) = form A (d k) (d (k + 1)) + ∑ i, (v k i + v (k + 1) i) * r (k + 1) i := by linarith
  rw [e2]
  have e3 : mdot m (v (k + 1)) (v (k + 1)) + ∑ i, (v k i + v (k + 1) i) * r (k + 1) i = mdot m (v k) (v k) - 2 * c k * mdot m (avg (v k) (v (k + 1))) (avg (v k) (v (k + 1))) := by
    unfold mdot
    rw [Finset.mul_sum, ← Finset.sum_add_distrib, ← Finset.sum_sub_distrib]
    refine Finset.sum_congr rfl fun i _ => ?_
    rw [H.force k hk i]
    unfold avg; ring
  linarith

theorem mdot_nonneg (hm : ∀ i, 0 < m i) (x : V n) : 0 ≤ mdot m x x :=
  Finset.sum_nonneg fun i _ => by rw [mul_assoc]; exact mul_nonneg (hm i).le (mul_self_nonneg _)

theorem entry_le_mdot (hm : ∀ i, 0 < m i) (x : V n) (i : Fin (n + 1)) : m i * x i ^ 2 ≤ mdot m x x := by
  have := Finset.single_le_sum (f := fun i => m i * x i * x i) (fun j _ => by
    show 0 ≤ m j * x j * x j
    rw [mul_assoc]; exact mul_nonneg (hm j).le (mul_self_nonneg _)) (Finset.mem_univ i)
  unfold mdot
  calc m i * x i ^ 2 = m i * x i * x i := by ring
    _ ≤ _ := this

theorem Motion.energy_nonneg (H : Motion A fix m d v r c K) (hA : ∀ i j, A i j = A j i)
    (psd : ∀ x : V n, (∀ i, fix i → x i = 0) → 0 ≤ form A x x)
    (stab : ∀ x : V n, (∀ i, fix i → x i = 0) → form A x x ≤ 4 / 1.21 * mdot m x x) (k : ℕ) (hk : k ≤ K) : 0 ≤ energy A m (d k) (v k) := by
  have h1 := psd (fun i => d k i + v k i / 2) fun i hi => by rw [H.dfix k i hk hi, H.vfix k i hk hi]; norm_num
  have h2 := stab (v k) (fun i hi => H.vfix k i hk hi)
  have h3 : form A (fun i => d k i + v k i / 2) (fun i => d k i + v k i / 2) = form A (d k) (fun i => d k i + v k i) + form A (v k) (v k) / 4 := by
    have a1 : form A (fun i => d k i + v k i / 2) (fun i => d k i + v k i / 2) = form A (d k) (d k) + form A (d k) (v k) / 2 + form A (v k) (d k) / 2 + form A (v k) (v k) / 4 := by
      unfold form
      rw [Finset.sum_div, Finset.sum_div, Finset.sum_div, ← Finset.sum_add_distrib, ← Finset.sum_add_distrib, ← Finset.sum_add_distrib]
      refine Finset.sum_congr rfl fun i _ => ?_
      have : ∑ j, A i j * (d k j + v k j / 2) = ∑ j, A i j * d k j + (∑ j, A i j * v k j) / 2 := by
        rw [Finset.sum_div, ← Finset.sum_add_distrib]
        exact Finset.sum_congr rfl fun j _ => by ring
      rw [this]; ring
    have a2 : form A (d k) (fun i => d k i + v k i) = form A (d k) (d k) + form A (d k) (v k) := by
      unfold form
      rw [← Finset.sum_add_distrib]
      refine Finset.sum_congr rfl fun i _ => ?_
      rw [← mul_add, ← Finset.sum_add_distrib]
      congr 1
      exact Finset.sum_congr rfl fun j _ => by ring
    rw [a1, a2, form_symm A hA (v k) (d k)]; ring
  have h4 := mdot_nonneg H.mpos (v k)
  unfold energy
  rw [h3] at h1
  norm_num at h2
  linarith

/-- The velocity is controlled by two successive means. -/
theorem Motion.velocity (H : Motion A fix m d v r c K)
    (stab : ∀ x : V n, (∀ i, fix i → x i = 0) → form A x x ≤ 4 / 1.21 * mdot m x x) (k : ℕ) (hk : k + 1 < K) :
    mdot m (v (k + 1)) (v (k + 1)) ≤ 147 * mdot m (avg (v (k + 1)) (v (k + 2))) (avg (v (k + 1)) (v (k + 2))) + 17 * mdot m (avg (v k) (v (k + 1))) (avg (v k) (v (k + 1))) := by
  set a := avg (v k) (v (k + 1)) with ha
  set a' := avg (v (k + 1)) (v (k + 2)) with ha'
  have hk0 : k < K := by omega
  have h1 : form A (v (k + 1)) (v (k + 1)) = ∑ i, v (k + 1) i * (r (k + 2) i - r (k + 1) i) := by
    have e1 := H.work (k + 2) hk (v (k + 1)) (fun i hi => H.vfix _ i hk0 hi)
    have e2 := H.work (k + 1) hk0 (v (k + 1)) (fun i hi => H.vfix _ i hk0 hi)
    have e3 : form A (v (k + 1)) (v (k + 1)) = form A (v (k + 1)) (d (k + 2)) - form A (v (k + 1)) (d (k + 1)) := by
      unfold form
      rw [← Finset.sum_sub_distrib]
      refine Finset.sum_congr rfl fun i _ => ?_
      rw [← mul_sub, ← Finset.sum_sub_distrib]
      congr 1
      refine Finset.sum_congr rfl fun j _ => ?_
      rw [H.move (k + 1) j hk]; ring
    rw [e3, e1, e2, ← Finset.sum_sub_distrib]
    exact Finset.sum_congr rfl fun i _ => by ring
  have h2 : 4 * mdot m (v (k + 1)) (v (k + 1)) - form A (v (k + 1)) (v (k + 1)) = ∑ i, m i * v (k + 1) i * ((2 + c (k + 1)) * a' i + (2 - c k) * a i) := by
    rw [h1]
    unfold mdot
    rw [Finset.mul_sum, ← Finset.sum_sub_distrib]
    refine Finset.sum_congr rfl fun i _ => ?_
    rw [H.force k hk0 i, H.force (k + 1) hk i, ← ha, ← ha']
    have b1 : v k i = 2 * a i - v (k + 1) i := by rw [ha]; unfold avg; ring
    have b2 : v (k + 1 + 1) i = 2 * a' i - v (k + 1) i := by rw [ha']; unfold avg; show v (k + 2) i = _; ring
    rw [b1, b2]; ring
  have h3 := stab (v (k + 1)) (fun i hi => H.vfix _ i hk0 hi)
  have hc := H.clow k hk0
  have hc' := H.chigh k hk0
  have hd := H.clow (k + 1) hk
  have hd' := H.chigh (k + 1) hk
  have h4 : ∑ i, m i * v (k + 1) i * ((2 + c (k + 1)) * a' i + (2 - c k) * a i) ≤ 42 / 121 * mdot m (v (k + 1)) (v (k + 1)) + 51 * mdot m a' a' + 5.8 * mdot m a a := by
    unfold mdot
    rw [Finset.mul_sum, Finset.mul_sum, Finset.mul_sum, ← Finset.sum_add_distrib, ← Finset.sum_add_distrib]
    refine Finset.sum_le_sum fun i _ => ?_
    have hm := (H.mpos i).le
    have key : v (k + 1) i * ((2 + c (k + 1)) * a' i + (2 - c k) * a i) ≤ 42 / 121 * v (k + 1) i ^ 2 + 51 * a' i ^ 2 + 5.8 * a i ^ 2 := by
      generalize v (k + 1) i = w
      generalize a' i = y
      generalize a i = x
      have q1 : ((2 + c (k + 1)) * y + (2 - c k) * x) ^ 2 ≤ 2 * (34.81 * y ^ 2) + 2 * (4 * x ^ 2) := by
        have s1 : ((2 + c (k + 1)) * y) ^ 2 ≤ 34.81 * y ^ 2 := by
          rw [mul_pow]; refine mul_le_mul_of_nonneg_right ?_ (sq_nonneg _); nlinarith
        have s2 : ((2 - c k) * x) ^ 2 ≤ 4 * x ^ 2 := by
          rw [mul_pow]; refine mul_le_mul_of_nonneg_right ?_ (sq_nonneg _); nlinarith
        nlinarith [sq_nonneg ((2 + c (k + 1)) * y - (2 - c k) * x)]
      generalize (2 + c (k + 1)) * y + (2 - c k) * x = z at q1
      nlinarith [sq_nonneg (42 / 121 * w - z / 2), sq_nonneg x, sq_nonneg y]
    have := mul_le_mul_of_nonneg_left key hm
    nlinarith
  have p1 := mdot_nonneg H.mpos a
  have p2 := mdot_nonneg H.mpos a'
  norm_num at h3 h4
  linarith

/-- The residual is controlled by two successive means. -/
theorem Motion.residual (H : Motion A fix m d v r c K)
    (stab : ∀ x : V n, (∀ i, fix i → x i = 0) → form A x x ≤ 4 / 1.21 * mdot m x x) (k : ℕ) (hk : k + 1 < K) (i : Fin (n + 1)) :
    r (k + 2) i ^ 2 ≤ m i * (1300 * (mdot m (avg (v k) (v (k + 1))) (avg (v k) (v (k + 1))) + mdot m (avg (v (k + 1)) (v (k + 2))) (avg (v (k + 1)) (v (k + 2))))) := by
  have h1 := H.velocity stab k hk
  have p1 := mdot_nonneg H.mpos (avg (v k) (v (k + 1)))
  have f1 := entry_le_mdot H.mpos (v (k + 1)) i
  have f2 := entry_le_mdot H.mpos (avg (v (k + 1)) (v (k + 2))) i
  have f := H.force (k + 1) hk i
  have hd := H.clow (k + 1) hk
  have hd' := H.chigh (k + 1) hk
  have b2 : v (k + 1 + 1) i = 2 * avg (v (k + 1)) (v (k + 2)) i - v (k + 1) i := by unfold avg; show v (k + 2) i = _; ring
  have e : r (k + 2) i = m i * (2 * v (k + 1) i - (2 + c (k + 1)) * avg (v (k + 1)) (v (k + 2)) i) := by
    show r (k + 1 + 1) i = _
    rw [f, b2]
    show -(_ + c (k + 1) * m i * avg (v (k + 1)) (v (k + 2)) i) = _
    ring
  have hm := H.mpos i
  generalize avg (v (k + 1)) (v (k + 2)) i = y at e f2
  generalize v (k + 1) i = w at e f1
  have q : (2 * w - (2 + c (k + 1)) * y) ^ 2 ≤ 8 * w ^ 2 + 2 * (34.81 * y ^ 2) := by
    have s1 : ((2 + c (k + 1)) * y) ^ 2 ≤ 34.81 * y ^ 2 := by
      rw [mul_pow]; refine mul_le_mul_of_nonneg_right ?_ (sq_nonneg _); nlinarith
    nlinarith [sq_nonneg (2 * w + (2 + c (k + 1)) * y)]
  rw [e, mul_pow, sq, mul_assoc]
  refine mul_le_mul_of_nonneg_left ?_ hm.le
  have := mul_le_mul_of_nonneg_left q hm.le
  norm_num at this
  nlinarith

/-- Telescoping: the means add up to at most a thousand times the initial energy. -/
theorem Motion.total (H : Motion A fix m d v r c K) (hA : ∀ i j, A i j = A j i) (k : ℕ) (hk : k ≤ K) :
    ∑ l ∈ Finset.range k, mdot m (avg (v l) (v (l + 1))) (avg (v l) (v (l + 1))) ≤ 1000 * (energy A m (d 0) (v 0) - energy A m (d k) (v k)) := by
  induction k with
  | zero => simp
  | succ k ih =>
    rw [Finset.sum_range_succ, H.balance hA k hk]
    have h1 := ih (by omega)
    have h2 := H.clow k hk
    have h3 := mdot_nonneg H.mpos (avg (v k) (v (k + 1)))
    norm_num at h2
    nlinarith

/-- As long as some residual stays above the tolerance, the number of passes is bounded by the initial energy. -/
theorem Motion.bound (H : Motion A fix m d v r c K) (hA : ∀ i j, A i j = A j i)
    (psd : ∀ x : V n, (∀ i, fix i → x i = 0) → 0 ≤ form A x x)
    (stab : ∀ x : V n, (∀ i, fix i → x i = 0) → form A x x ≤ 4 / 1.21 * mdot m x x) (tol mm : ℝ) (htol : 0 < tol) (hmm : ∀ i, ¬ fix i → m i ≤ mm) (hK : 2 ≤ K)
    (big : ∀ k, 1 ≤ k → k ≤ K → ∃ i, tol < |r k i|) : ((K : ℝ) - 1) * tol ^ 2 ≤ 2600000 * mm * energy A m (d 0) (v 0) := by
  have hE := H.energy_nonneg hA psd stab
  have pt : ∀ k ∈ Finset.range (K - 1), tol ^ 2 ≤ mm * (1300 * (mdot m (avg (v k) (v (k + 1))) (avg (v k) (v (k + 1))) + mdot m (avg (v (k + 1)) (v (k + 2))) (avg (v (k + 1)) (v (k + 2))))) := by
    intro k hk
    rw [Finset.mem_range] at hk
    obtain ⟨i, hi⟩ := big (k + 2) (by omega) (by omega)
    have nf : ¬ fix i := fun hf => by
      rw [H.rfix (k + 2) i (by omega) hf, abs_zero] at hi
      linarith
    have h1 := H.residual stab k (by omega) i
    have h2 : tol ^ 2 ≤ r (k + 2) i ^ 2 := by rw [← sq_abs (r (k + 2) i)]; exact pow_le_pow_left₀ htol.le hi.le 2
    have p1 := mdot_nonneg H.mpos (avg (v k) (v (k + 1)))
    have p2 := mdot_nonneg H.mpos (avg (v (k + 1)) (v (k + 2)))
    refine h2.trans (h1.trans (mul_le_mul_of_nonneg_right (hmm i nf) (by positivity)))
  have hmm0 : 0 ≤ mm := by
    obtain ⟨i, hi⟩ := big 2 (by omega) hK
    have nf : ¬ fix i := fun hf => by
      rw [H.rfix 2 i hK hf, abs_zero] at hi
      linarith
    exact (H.mpos i).le.trans (hmm i nf)
  have s1 := Finset.sum_le_sum pt
  rw [Finset.sum_const, Finset.card_range, nsmul_eq_mul, ← Finset.mul_sum, ← Finset.mul_sum, Finset.sum_add_distrib] at s1
  have t1 := H.total hA (K - 1) (by omega)
  have t2 := H.total hA K (le_refl _)
  have t3 : ∑ l ∈ Finset.range (K - 1), mdot m (avg (v (l + 1)) (v (l + 2))) (avg (v (l + 1)) (v (l + 2))) ≤ ∑ l ∈ Finset.range K, mdot m (avg (v l) (v (l + 1))) (avg (v l) (v (l + 1))) := by
    have : K = K - 1 + 1 := by omega
    rw [this, Finset.sum_range_succ', ← this]
    have := mdot_nonneg H.mpos (avg (v 0) (v (0 + 1)))
    linarith
  have e1 := hE (K - 1) (by omega)
  have e2 := hE K (le_refl _)
  rw [Nat.cast_sub (by omega), Nat.cast_one] at s1
  refine s1.trans ?_
  calc _ ≤ mm * (1300 * (2000 * energy A m (d 0) (v 0))) := by
        refine mul_le_mul_of_nonneg_left (mul_le_mul_of_nonneg_left ?_ (by norm_num)) hmm0
        linarith
    _ = _ := by ring

end Verif.DynRelax
