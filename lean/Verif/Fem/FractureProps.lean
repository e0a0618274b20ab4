import Verif.Fem.Fracture

/-!
# Properties of the split energy (C97)
-/
namespace Verif.Fem
open Finset
open scoped Matrix

variable {n : ℕ}

theorem fracMu_pos : 0 < fracMu := by norm_num [fracMu]
theorem fracLmbda_pos : 0 < fracLmbda := by norm_num [fracLmbda]
theorem degrade_lb (d : ℝ) : 1e-3 ≤ degrade d := by unfold degrade; linarith [sq_nonneg (1 - d)]
theorem degrade_pos (d : ℝ) : 0 < degrade d := lt_of_lt_of_le (by norm_num) (degrade_lb d)

/-- Inner product of two matrices. -/
def inner2 (A B : Matrix (Fin n) (Fin n) ℝ) : ℝ := ∑ i, ∑ j, A i j * B i j

theorem inner2_eq (A B : Matrix (Fin n) (Fin n) ℝ) : inner2 A B = (Aᵀ * B).trace := by
  unfold inner2
  rw [Matrix.trace, sum_comm]
  refine sum_congr rfl fun j _ => ?_
  rw [Matrix.diag_apply, Matrix.mul_apply]
  exact sum_congr rfl fun i _ => by rw [Matrix.transpose_apply]

theorem frob2_inner (A : Matrix (Fin n) (Fin n) ℝ) : frob2 A = inner2 A A := sum_congr rfl fun _ _ => sum_congr rfl fun _ _ => sq _

namespace IsEigh
variable {x y : Fin n → Fin n → ℝ} {e e' : Eigh n}

theorem inner2_frame (h : IsEigh x e) (h' : IsEigh y e') (A B : Matrix (Fin n) (Fin n) ℝ) : inner2 (e.U * A * e'.Uᵀ) (e.U * B * e'.Uᵀ) = inner2 A B := by
  rw [inner2_eq, inner2_eq, Matrix.transpose_mul, Matrix.transpose_mul, Matrix.transpose_transpose]
  have : e'.U * (Aᵀ * e.Uᵀ) * (e.U * B * e'.Uᵀ) = e'.U * (Aᵀ * B * e'.Uᵀ) := by
    rw [Matrix.mul_assoc, Matrix.mul_assoc Aᵀ, ← Matrix.mul_assoc e.Uᵀ, ← Matrix.mul_assoc e.Uᵀ, h.UtU, Matrix.one_mul, Matrix.mul_assoc Aᵀ]
  rw [this, Matrix.trace_mul_comm, Matrix.mul_assoc, h'.UtU, Matrix.mul_one]

theorem inner2_sub (h : IsEigh x e) (h' : IsEigh y e') (f g : ℝ → ℝ) :
    inner2 (Matrix.of (e'.apply f) - Matrix.of (e.apply f)) (Matrix.of (e'.apply g) - Matrix.of (e.apply g)) =
      ∑ a, ∑ b, (f (e'.vals b) - f (e.vals a)) * (g (e'.vals b) - g (e.vals a)) * (e.U * e'.Uᵀ) a b ^ 2 := by
  rw [← h.inner2_frame h']
  exact sum_congr rfl fun a _ => sum_congr rfl fun b _ => by rw [h.frame_sub h', h.frame_sub h']; ring

theorem vals_eq (h : IsEigh x e) (a : Fin n) : e.vals a = ∑ i, ∑ j, e.vecs a i * x i j * e.vecs a j := by
  have h2 := h.frameL id e.Uᵀ a a
  rw [h.UUt, Matrix.one_apply_eq, mul_one, ← h.sym] at h2
  have h6 : (e.U * symM x * e.Uᵀ) a a = ∑ l, ∑ k, e.vecs a k * ((x k l + x l k) / 2) * e.vecs a l := by
    rw [Matrix.mul_apply]
    refine sum_congr rfl fun l _ => ?_
    rw [Matrix.mul_apply, sum_mul]
    rfl
  have h7 : ∑ l, ∑ k, e.vecs a k * ((x k l + x l k) / 2) * e.vecs a l = (∑ l, ∑ k, e.vecs a k * x k l * e.vecs a l / 2) + ∑ l, ∑ k, e.vecs a l * x l k * e.vecs a k / 2 := by
    rw [← sum_add_distrib]
    refine sum_congr rfl fun l _ => ?_
    rw [← sum_add_distrib]
    exact sum_congr rfl fun k _ => by ring
  rw [h6, h7, sum_comm, ← sum_add_distrib] at h2
  rw [show e.vals a = id (e.vals a) from rfl, ← h2]
  refine sum_congr rfl fun k _ => ?_
  rw [← sum_add_distrib]
  exact sum_congr rfl fun l _ => by ring

end IsEigh

/-- **C97 (additive split).** The two parts add up to the energy of linear elasticity of the symmetric part of the argument. -/
theorem C97_split (eigh : (Fin n → Fin n → ℝ) → Eigh n) (heigh : ∀ x, IsEigh x (eigh x)) (u_grad : Fin n → Fin n → ℝ) :
    psiPlus eigh (fracStrain u_grad) + psiMinus eigh (fracStrain u_grad) = hookeEnergy (fracStrain u_grad) ∧
    0 ≤ psiPlus eigh (fracStrain u_grad) ∧ 0 ≤ psiMinus eigh (fracStrain u_grad) := by
  set x := fracStrain u_grad with hx
  have hm := fracMu_pos
  have hl := fracLmbda_pos
  have hsum : ∑ a, (eigh x).vals a ^ 2 = ∑ i, ∑ j, x i j ^ 2 := by
    have hsymx : (symM x : Matrix (Fin n) (Fin n) ℝ) = Matrix.of x := by
      ext i j
      simp only [symM, Matrix.of_apply, hx, fracStrain]
      ring
    have h1 : frob2 (symM x) = ∑ a, (eigh x).vals a ^ 2 := by
      rw [← (heigh x).frob2_frame (heigh x) (symM x)]
      unfold frob2
      refine sum_congr rfl fun a _ => ?_
      have : ∀ b, ((eigh x).U * symM x * (eigh x).Uᵀ) a b = if a = b then (eigh x).vals a else 0 := by
        intro b
        rw [(heigh x).sym, (heigh x).frameL, (heigh x).UUt, Matrix.one_apply]
        simp
      simp only [this]
      simp
    rw [← h1, hsymx]
    rfl
  refine ⟨?_, ?_, ?_⟩
  · unfold psiPlus psiMinus hookeEnergy
    dsimp only
    rw [← hsum]
    have h2 := safe_sq (traceF x)
    have h3 : ∑ a, (eigh x).vals a ^ 2 = (∑ a, safePlus ((eigh x).vals a) ^ 2) + ∑ a, safeMinus ((eigh x).vals a) ^ 2 := by
      rw [← sum_add_distrib]
      exact sum_congr rfl fun a _ => (safe_sq _).symm
    rw [h3, show (∑ i, x i i) = traceF x from rfl]
    linear_combination fracLmbda / 2 * h2
  · unfold psiPlus
    have : 0 ≤ ∑ a, safePlus ((eigh x).vals a) ^ 2 := sum_nonneg fun _ _ => sq_nonneg _
    positivity
  · unfold psiMinus
    have : 0 ≤ ∑ a, safeMinus ((eigh x).vals a) ^ 2 := sum_nonneg fun _ _ => sq_nonneg _
    positivity

/-- Slopes of `g t⁺ + t⁻` lie between `min g 1` and `max g 1`. -/
theorem slope_bounds (g s t : ℝ) (hg : 0 < g) :
    min g 1 * (s - t) ^ 2 ≤ ((g * safePlus s + safeMinus s) - (g * safePlus t + safeMinus t)) * (s - t) ∧
    ((g * safePlus s + safeMinus s) - (g * safePlus t + safeMinus t)) ^ 2 ≤ (max g 1 * (s - t)) ^ 2 := by
  have key : ∃ c, min g 1 ≤ c ∧ c ≤ max g 1 ∧ (g * safePlus s + safeMinus s) - (g * safePlus t + safeMinus t) = c * (s - t) := by
    rcases eq_or_ne s t with h | h
    · exact ⟨1, min_le_right _ _, le_max_right _ _, by rw [h]; ring⟩
    · have hp : 0 ≤ (safePlus s - safePlus t) / (s - t) ∧ 0 ≤ (safeMinus s - safeMinus t) / (s - t) := by
        simp only [safePlus_eq, safeMinus_eq]
        rcases lt_or_gt_of_ne h with h | h
        · have h1 : max s 0 ≤ max t 0 := max_le_max h.le le_rfl
          have h2 : min s 0 ≤ min t 0 := min_le_min h.le le_rfl
          exact ⟨div_nonneg_of_nonpos (by linarith) (by linarith), div_nonneg_of_nonpos (by linarith) (by linarith)⟩
        · have h1 : max t 0 ≤ max s 0 := max_le_max h.le le_rfl
          have h2 : min t 0 ≤ min s 0 := min_le_min h.le le_rfl
          exact ⟨div_nonneg (by linarith) (by linarith), div_nonneg (by linarith) (by linarith)⟩
      set p := (safePlus s - safePlus t) / (s - t) with hpd
      set q := (safeMinus s - safeMinus t) / (s - t) with hqd
      have hst : s - t ≠ 0 := sub_ne_zero.mpr h
      have hp' : p * (s - t) = safePlus s - safePlus t := div_mul_cancel₀ _ hst
      have hq' : q * (s - t) = safeMinus s - safeMinus t := div_mul_cancel₀ _ hst
      have hpq : p + q = 1 := by
        have : (p + q) * (s - t) = 1 * (s - t) := by linarith [safe_add s, safe_add t]
        exact mul_right_cancel₀ hst this
      refine ⟨g * p + q, ?_, ?_, by rw [add_mul, mul_assoc, hp', hq']; ring⟩
      · have h1 := mul_le_mul_of_nonneg_right (min_le_left g 1) hp.1
        have h2 := mul_le_mul_of_nonneg_right (min_le_right g 1) hp.2
        have h3 : min g 1 * p + min g 1 * q = min g 1 := by rw [← mul_add, hpq, mul_one]
        linarith
      · have h1 := mul_le_mul_of_nonneg_right (le_max_left g 1) hp.1
        have h2 := mul_le_mul_of_nonneg_right (le_max_right g 1) hp.2
        have h3 : max g 1 * p + max g 1 * q = max g 1 := by rw [← mul_add, hpq, mul_one]
        linarith
  obtain ⟨c, h1, h2, h3⟩ := key
  rw [h3]
  refine ⟨by nlinarith [sq_nonneg (s - t)], ?_⟩
  rw [mul_pow, mul_pow]
  have : 0 ≤ c := (le_min hg.le zero_le_one).trans h1
  exact mul_le_mul_of_nonneg_right (pow_le_pow_left₀ this h2 2) (sq_nonneg _)

/-- The trace part and the spectral part of a difference of stresses. -/
theorem sigmaSplit_sub (eigh : (Fin n → Fin n → ℝ) → Eigh n) (x y : Fin n → Fin n → ℝ) (d : ℝ) (i j : Fin n) :
    sigmaSplit eigh y d i j - sigmaSplit eigh x d i j =
      fracLmbda * ((degrade d * safePlus (traceF y) + safeMinus (traceF y)) - (degrade d * safePlus (traceF x) + safeMinus (traceF x))) * (if i = j then 1 else 0)
      + (Matrix.of ((eigh y).apply (fracFn d)) - Matrix.of ((eigh x).apply (fracFn d)) : Matrix (Fin n) (Fin n) ℝ) i j := by
  simp only [sigmaSplit, Pi.add_apply, Matrix.sub_apply, Matrix.of_apply, eigenF]
  ring

/-- **C97 (strong monotonicity).** For every value of the phase field the stress is a strongly monotone function of the strain, with a modulus that does not degenerate when the material breaks. -/
theorem C97_monotone (eigh : (Fin n → Fin n → ℝ) → Eigh n) (heigh : ∀ x, IsEigh x (eigh x)) (u v : Fin n → Fin n → ℝ) (d : ℝ) :
    2 * fracMu * 1e-3 * ∑ i, ∑ j, (fracStrain u i j - fracStrain v i j) ^ 2 ≤
      ∑ i, ∑ j, (stressOpt2 eigh u d i j - stressOpt2 eigh v d i j) * (u i j - v i j) := by
  have hm := fracMu_pos
  have hl := fracLmbda_pos
  set x := fracStrain v with hx
  set y := fracStrain u with hy
  have hsx : ∀ w : Fin n → Fin n → ℝ, symM (fracStrain w) = Matrix.of (fracStrain w) := by
    intro w
    ext i j
    simp only [symM, Matrix.of_apply, fracStrain]
    ring
  have hg := degrade_pos d
  -- contraction with the gradient equals contraction with the strain
  set S : Fin n → Fin n → ℝ := fun i j => stressOpt2 eigh u d i j - stressOpt2 eigh v d i j with hS
  have hSsym : ∀ i j, S i j = S j i := by
    intro i j
    have hs : ∀ w i j, stressOpt2 eigh w d i j = stressOpt2 eigh w d j i := by
      intro w i j
      simp only [stressOpt2, sigmaSplit, Pi.add_apply]
      rw [(C96_value eigh _ (heigh _) (fracFn d)).1 i j]
      simp only [eq_comm]
    simp only [hS]
    rw [hs u i j, hs v i j]
  have hcontr : ∑ i, ∑ j, S i j * (u i j - v i j) = ∑ i, ∑ j, S i j * (y i j - x i j) := by
    have h1 : ∑ i, ∑ j, S i j * (u j i - v j i) = ∑ i, ∑ j, S i j * (u i j - v i j) := by
      rw [sum_comm]
      exact sum_congr rfl fun i _ => sum_congr rfl fun j _ => by rw [hSsym]
    have h2 : ∑ i, ∑ j, S i j * (y i j - x i j) = 0.5 * (∑ i, ∑ j, S i j * (u i j - v i j)) + 0.5 * ∑ i, ∑ j, S i j * (u j i - v j i) := by
      simp only [mul_sum, ← sum_add_distrib]
      exact sum_congr rfl fun i _ => sum_congr rfl fun j _ => by simp only [hx, hy, fracStrain]; ring
    rw [h2, h1]; ring
  rw [hcontr]
  have hsplit : ∀ i j, S i j = fracLmbda * ((degrade d * safePlus (traceF y) + safeMinus (traceF y)) - (degrade d * safePlus (traceF x) + safeMinus (traceF x))) * (if i = j then 1 else 0)
      + (Matrix.of ((eigh y).apply (fracFn d)) - Matrix.of ((eigh x).apply (fracFn d)) : Matrix (Fin n) (Fin n) ℝ) i j := fun i j => sigmaSplit_sub eigh x y d i j
  set δ := (degrade d * safePlus (traceF y) + safeMinus (traceF y)) - (degrade d * safePlus (traceF x) + safeMinus (traceF x)) with hδ
  have htr : ∑ i, ∑ j, fracLmbda * δ * (if i = j then 1 else 0) * (y i j - x i j) = fracLmbda * (δ * (traceF y - traceF x)) := by
    simp only [mul_ite, mul_one, mul_zero, ite_mul, zero_mul, sum_ite_eq, mem_univ, if_true]
    rw [← mul_sum, sum_sub_distrib]
    unfold traceF
    ring
  have htr0 : 0 ≤ fracLmbda * (δ * (traceF y - traceF x)) := by
    have := (slope_bounds (degrade d) (traceF y) (traceF x) hg).1
    have h0 : 0 ≤ min (degrade d) 1 * (traceF y - traceF x) ^ 2 := mul_nonneg (le_min hg.le zero_le_one) (sq_nonneg _)
    exact mul_nonneg hl.le (h0.trans this)
  have hspec : ∑ i, ∑ j, (Matrix.of ((eigh y).apply (fracFn d)) - Matrix.of ((eigh x).apply (fracFn d)) : Matrix (Fin n) (Fin n) ℝ) i j * (y i j - x i j) =
      ∑ a, ∑ b, (fracFn d ((eigh y).vals b) - fracFn d ((eigh x).vals a)) * ((eigh y).vals b - (eigh x).vals a) * ((eigh x).U * (eigh y).Uᵀ) a b ^ 2 := by
    have h1 := (heigh x).inner2_sub (heigh y) (fracFn d) id
    rw [← (heigh x).sym, ← (heigh y).sym, hx, hy, hsx, hsx] at h1
    exact h1
  have hfrob : ∑ i, ∑ j, (y i j - x i j) ^ 2 = ∑ a, ∑ b, (((eigh y).vals b - (eigh x).vals a) * ((eigh x).U * (eigh y).Uᵀ) a b) ^ 2 := by
    rw [← (heigh x).frob2_sym (heigh y), hx, hy, hsx, hsx]
    rfl
  calc 2 * fracMu * 1e-3 * ∑ i, ∑ j, (y i j - x i j) ^ 2
      ≤ ∑ a, ∑ b, (fracFn d ((eigh y).vals b) - fracFn d ((eigh x).vals a)) * ((eigh y).vals b - (eigh x).vals a) * ((eigh x).U * (eigh y).Uᵀ) a b ^ 2 := by
        rw [hfrob, mul_sum]
        refine sum_le_sum fun a _ => ?_
        rw [mul_sum]
        refine sum_le_sum fun b _ => ?_
        rw [mul_pow, ← mul_assoc]
        refine mul_le_mul_of_nonneg_right ?_ (sq_nonneg _)
        have h1 := (slope_bounds (degrade d) ((eigh y).vals b) ((eigh x).vals a) hg).1
        have h2 : (1e-3 : ℝ) ≤ min (degrade d) 1 := le_min (degrade_lb d) (by norm_num)
        have h3 := (mul_le_mul_of_nonneg_right h2 (sq_nonneg ((eigh y).vals b - (eigh x).vals a))).trans h1
        have h4 := mul_le_mul_of_nonneg_left h3 (by positivity : (0 : ℝ) ≤ 2 * fracMu)
        calc 2 * fracMu * 1e-3 * ((eigh y).vals b - (eigh x).vals a) ^ 2 = 2 * fracMu * (1e-3 * ((eigh y).vals b - (eigh x).vals a) ^ 2) := by ring
          _ ≤ _ := h4
          _ = _ := by unfold fracFn; ring
    _ ≤ fracLmbda * (δ * (traceF y - traceF x)) + ∑ a, ∑ b, (fracFn d ((eigh y).vals b) - fracFn d ((eigh x).vals a)) * ((eigh y).vals b - (eigh x).vals a) * ((eigh x).U * (eigh y).Uᵀ) a b ^ 2 :=
        le_add_of_nonneg_left htr0
    _ = ∑ i, ∑ j, S i j * (y i j - x i j) := by
        rw [← hspec, ← htr, ← sum_add_distrib]
        refine sum_congr rfl fun i _ => ?_
        rw [← sum_add_distrib]
        exact sum_congr rfl fun j _ => by rw [hsplit]; ring

/-- **C97 (noise).** The noise of `stress_fn_opt1` (added to keep automatic differentiation of `eigh` finite) changes the stress only by an amount proportional to the noise, uniformly in the strain. -/
theorem C97_noise (eigh : (Fin n → Fin n → ℝ) → Eigh n) (heigh : ∀ x, IsEigh x (eigh x)) (noise u_grad : Fin n → Fin n → ℝ) (d : ℝ) :
    ∑ i, ∑ j, (stressOpt1 eigh noise u_grad d i j - stressOpt2 eigh u_grad d i j) ^ 2 ≤
      2 * max (degrade d) 1 ^ 2 * ((n * fracLmbda) ^ 2 + (2 * fracMu) ^ 2) * ∑ i, ∑ j, noise i j ^ 2 := by
  have hm := fracMu_pos
  have hl := fracLmbda_pos
  have hg := degrade_pos d
  rw [(C97_options eigh heigh noise u_grad d).1]
  set x := fracStrain u_grad with hx
  set y := x + noise with hy
  set δ := (degrade d * safePlus (traceF y) + safeMinus (traceF y)) - (degrade d * safePlus (traceF x) + safeMinus (traceF x)) with hδ
  set A : Matrix (Fin n) (Fin n) ℝ := Matrix.of ((eigh y).apply (fracFn d)) - Matrix.of ((eigh x).apply (fracFn d)) with hA
  set N := ∑ i, ∑ j, noise i j ^ 2 with hN
  have htr : traceF y - traceF x = ∑ i, noise i i := by
    simp only [traceF, hy, Pi.add_apply, sum_add_distrib]
    ring
  have hdiag : ∑ i, noise i i ^ 2 ≤ N := sum_le_sum fun i _ => single_le_sum (f := fun j => noise i j ^ 2) (fun _ _ => sq_nonneg _) (mem_univ i)
  have hδ2 : n * δ ^ 2 ≤ max (degrade d) 1 ^ 2 * (n : ℝ) ^ 2 * N := by
    have h1 := (slope_bounds (degrade d) (traceF y) (traceF x) hg).2
    rw [← hδ, mul_pow, htr] at h1
    have h2 : (∑ i, noise i i) ^ 2 ≤ n * ∑ i, noise i i ^ 2 := by
      have := sum_mul_sq_le_sq_mul_sq univ (fun _ : Fin n => (1 : ℝ)) fun i => noise i i
      simpa using this
    have h3 : δ ^ 2 ≤ max (degrade d) 1 ^ 2 * (n * N) :=
      h1.trans (mul_le_mul_of_nonneg_left (h2.trans (mul_le_mul_of_nonneg_left hdiag (Nat.cast_nonneg n))) (sq_nonneg _))
    calc (n : ℝ) * δ ^ 2 ≤ n * (max (degrade d) 1 ^ 2 * (n * N)) := mul_le_mul_of_nonneg_left h3 (Nat.cast_nonneg n)
      _ = _ := by ring
  have hAb : frob2 A ≤ (2 * fracMu) ^ 2 * max (degrade d) 1 ^ 2 * N := by
    have h1 : frob2 A ≤ ((2 * fracMu) ^ 2 * max (degrade d) 1 ^ 2) * frob2 (symM y - symM x) := by
      rw [hA, (heigh x).frob2_sub (heigh y), (heigh x).frob2_sym (heigh y), mul_sum]
      refine sum_le_sum fun a _ => ?_
      rw [mul_sum]
      refine sum_le_sum fun b _ => ?_
      rw [mul_pow (fracFn d ((eigh y).vals b) - fracFn d ((eigh x).vals a)), mul_pow ((eigh y).vals b - (eigh x).vals a), ← mul_assoc]
      refine mul_le_mul_of_nonneg_right ?_ (sq_nonneg _)
      have h2 := (slope_bounds (degrade d) ((eigh y).vals b) ((eigh x).vals a) hg).2
      have h3 := mul_le_mul_of_nonneg_left h2 (sq_nonneg (2 * fracMu))
      calc (fracFn d ((eigh y).vals b) - fracFn d ((eigh x).vals a)) ^ 2 = _ := by unfold fracFn; rw [← mul_sub, mul_pow]
        _ ≤ _ := h3
        _ = _ := by ring
    refine h1.trans (mul_le_mul_of_nonneg_left ?_ (by positivity))
    rw [symM_sub, show y - x = noise by rw [hy]; simp]
    have h2 : ∀ i j, symM noise i j ^ 2 ≤ noise i j ^ 2 / 2 + noise j i ^ 2 / 2 := by
      intro i j
      show ((noise i j + noise j i) / 2) ^ 2 ≤ _
      nlinarith [sq_nonneg (noise i j - noise j i)]
    calc frob2 (symM noise) ≤ ∑ i, ∑ j, (noise i j ^ 2 / 2 + noise j i ^ 2 / 2) := sum_le_sum fun i _ => sum_le_sum fun j _ => h2 i j
      _ = N := by
        simp only [sum_add_distrib]
        rw [sum_comm (f := fun i j => noise j i ^ 2 / 2)]
        simp only [← sum_div]
        rw [hN]; ring
  have hterm : ∀ i j, (sigmaSplit eigh y d i j - stressOpt2 eigh u_grad d i j) ^ 2 ≤ 2 * ((fracLmbda * δ) ^ 2 * if i = j then 1 else 0) + 2 * A i j ^ 2 := by
    intro i j
    rw [show stressOpt2 eigh u_grad d i j = sigmaSplit eigh x d i j from rfl, sigmaSplit_sub, ← hA, ← hδ]
    split_ifs with h
    · nlinarith [sq_nonneg (fracLmbda * δ * 1 - A i j)]
    · nlinarith [sq_nonneg (A i j)]
  calc ∑ i, ∑ j, (sigmaSplit eigh y d i j - stressOpt2 eigh u_grad d i j) ^ 2
      ≤ ∑ i, ∑ j, (2 * ((fracLmbda * δ) ^ 2 * if i = j then 1 else 0) + 2 * A i j ^ 2) := sum_le_sum fun i _ => sum_le_sum fun j _ => hterm i j
    _ = 2 * (fracLmbda ^ 2 * (n * δ ^ 2)) + 2 * frob2 A := by
        simp only [sum_add_distrib, frob2, ← mul_sum]
        simp
        ring
    _ ≤ 2 * (fracLmbda ^ 2 * (max (degrade d) 1 ^ 2 * (n : ℝ) ^ 2 * N)) + 2 * ((2 * fracMu) ^ 2 * max (degrade d) 1 ^ 2 * N) := by
        have := mul_le_mul_of_nonneg_left hδ2 (sq_nonneg fracLmbda)
        linarith
    _ = _ := by ring

theorem traceF_vals (eigh : (Fin n → Fin n → ℝ) → Eigh n) (x : Fin n → Fin n → ℝ) (h : IsEigh x (eigh x)) : traceF x = ∑ a, (eigh x).vals a := by
  have h1 := sum_vals_eq eigh x h id
  simp only [id] at h1
  rw [h1]
  unfold traceF
  refine sum_congr rfl fun i _ => ?_
  have h2 := congrFun (congrFun h.sym i) i
  rw [show eigenF eigh id x i i = symM x i i from h2.symm]
  show x i i = (x i i + x i i) / 2
  ring

theorem eigenF_congr (eigh : (Fin n → Fin n → ℝ) → Eigh n) (x : Fin n → Fin n → ℝ) (h : IsEigh x (eigh x)) (f : ℝ → ℝ) (c : ℝ) (hf : ∀ a, f ((eigh x).vals a) = c * (eigh x).vals a) (i j : Fin n) :
    eigenF eigh f x i j = c * ((x i j + x j i) / 2) := by
  rw [← h.decomp, mul_sum]
  simp only [eigenF, Eigh.apply, Eigh.M, hf]
  exact sum_congr rfl fun a _ => by ring

/-- **C97 (tension and compression).** If the strain stretches no direction, the phase field has no influence: the stress is Hooke's law. If it compresses no direction, the stress is Hooke's law times `g(d)`. -/
theorem C97_unilateral (eigh : (Fin n → Fin n → ℝ) → Eigh n) (heigh : ∀ x, IsEigh x (eigh x)) (u : Fin n → Fin n → ℝ) (d : ℝ) :
    ((∀ v : Fin n → ℝ, ∑ i, ∑ j, v i * u i j * v j ≤ 0) → stressOpt2 eigh u d = hookeStress (fracStrain u)) ∧
    ((∀ v : Fin n → ℝ, 0 ≤ ∑ i, ∑ j, v i * u i j * v j) → stressOpt2 eigh u d = degrade d • hookeStress (fracStrain u)) := by
  set x := fracStrain u with hx
  have hq : ∀ a, (eigh x).vals a = ∑ i, ∑ j, (eigh x).vecs a i * u i j * (eigh x).vecs a j := by
    intro a
    rw [(heigh x).vals_eq]
    have h1 : ∑ i, ∑ j, (eigh x).vecs a i * x i j * (eigh x).vecs a j =
        0.5 * (∑ i, ∑ j, (eigh x).vecs a i * u i j * (eigh x).vecs a j) + 0.5 * ∑ i, ∑ j, (eigh x).vecs a j * u j i * (eigh x).vecs a i := by
      simp only [mul_sum, ← sum_add_distrib]
      exact sum_congr rfl fun i _ => sum_congr rfl fun j _ => by simp only [hx, fracStrain]; ring
    rw [h1, sum_comm (f := fun i j => (eigh x).vecs a j * u j i * (eigh x).vecs a i)]
    ring
  have htr := traceF_vals eigh x (heigh x)
  have hsymx : ∀ i j, (x i j + x j i) / 2 = x i j := fun i j => by simp only [hx, fracStrain]; ring
  constructor
  · intro hneg
    have hv : ∀ a, (eigh x).vals a ≤ 0 := fun a => by rw [hq]; exact hneg _
    have ht : traceF x ≤ 0 := by rw [htr]; exact sum_nonpos fun a _ => hv a
    funext i j
    have h1 : eigenF eigh (fracFn d) x i j = 2 * fracMu * ((x i j + x j i) / 2) := by
      refine eigenF_congr eigh x (heigh x) _ _ (fun a => ?_) i j
      rw [fracFn, safePlus_eq, safeMinus_eq, max_eq_right (hv a), min_eq_left (hv a)]
      ring
    simp only [stressOpt2, ← hx, sigmaSplit, Pi.add_apply, h1, hsymx, hookeStress, safePlus_eq, safeMinus_eq, max_eq_right ht, min_eq_left ht, show (∑ k, x k k) = traceF x from rfl]
    ring
  · intro hpos
    have hv : ∀ a, 0 ≤ (eigh x).vals a := fun a => by rw [hq]; exact hpos _
    have ht : 0 ≤ traceF x := by rw [htr]; exact sum_nonneg fun a _ => hv a
    funext i j
    have h1 : eigenF eigh (fracFn d) x i j = 2 * fracMu * degrade d * ((x i j + x j i) / 2) := by
      refine eigenF_congr eigh x (heigh x) _ _ (fun a => ?_) i j
      rw [fracFn, safePlus_eq, safeMinus_eq, max_eq_left (hv a), min_eq_right (hv a)]
      ring
    simp only [stressOpt2, ← hx, sigmaSplit, Pi.add_apply, Pi.smul_apply, smul_eq_mul, h1, hsymx, hookeStress, safePlus_eq, safeMinus_eq, max_eq_left ht, min_eq_right ht, show (∑ k, x k k) = traceF x from rfl]
    ring

/-- **C97 (intact material).** Because the residual stiffness `1e-3` is added instead of blended in, the undamaged material (`d = 0`) is 0.1 % too stiff in tension: in every dimension the stress of the pure stretch
`u_grad = identity` is `1.001` times Hooke's law and not Hooke's law. -/
theorem C97_intact (eigh : (Fin (n + 1) → Fin (n + 1) → ℝ) → Eigh (n + 1)) (heigh : ∀ x, IsEigh x (eigh x)) :
    stressOpt2 eigh (fun i j => if i = j then 1 else 0) 0 = (1.001 : ℝ) • hookeStress (fracStrain fun i j => if i = j then 1 else 0) ∧
    stressOpt2 eigh (fun i j => if i = j then 1 else 0) 0 ≠ hookeStress (fracStrain fun i j => if i = j then 1 else 0) := by
  have h1 := (C97_unilateral eigh heigh (fun i j => if i = j then 1 else 0) 0).2 fun v => by
    simp only [mul_ite, mul_one, mul_zero, ite_mul, zero_mul, sum_ite_eq, mem_univ, if_true]
    exact sum_nonneg fun i _ => mul_self_nonneg _
  have h2 : degrade 0 = 1.001 := by norm_num [degrade]
  rw [h2] at h1
  refine ⟨h1, fun h => ?_⟩
  rw [h1] at h
  have h3 := congrFun (congrFun h 0) 0
  simp only [Pi.smul_apply, smul_eq_mul, hookeStress, fracStrain, if_true] at h3
  have hm := fracMu_pos
  have hl := fracLmbda_pos
  have h4 : ∑ _k : Fin (n + 1), (0.5 : ℝ) * (1 + 1) = n + 1 := by
    rw [sum_const, card_univ, Fintype.card_fin, nsmul_eq_mul]; push_cast; ring
  rw [h4] at h3
  have h5 : 0 ≤ (n : ℝ) := Nat.cast_nonneg n
  have : 0 < fracLmbda * ((n : ℝ) + 1) := by positivity
  norm_num at h3
  nlinarith

/-- **C97 (isotropy).** Rotating the displacement gradient rotates the stress. -/
theorem C97_isotropic (eigh : (Fin n → Fin n → ℝ) → Eigh n) (heigh : ∀ x, IsEigh x (eigh x)) (u : Fin n → Fin n → ℝ) (d : ℝ) (Q : Matrix (Fin n) (Fin n) ℝ) (hQ : Qᵀ * Q = 1) :
    (Matrix.of (stressOpt2 eigh (Q * Matrix.of u * Qᵀ) d) : Matrix (Fin n) (Fin n) ℝ) = Q * Matrix.of (stressOpt2 eigh u d) * Qᵀ := by
  have hQ2 : Q * Qᵀ = 1 := mul_eq_one_comm.mp hQ
  set x := fracStrain u with hx
  set y := fracStrain (Q * Matrix.of u * Qᵀ) with hy
  have hxy : (Matrix.of y : Matrix (Fin n) (Fin n) ℝ) = Q * Matrix.of x * Qᵀ := by
    have hxm : (Matrix.of x : Matrix (Fin n) (Fin n) ℝ) = (0.5 : ℝ) • (Matrix.of u + (Matrix.of u)ᵀ) := rfl
    have hym : (Matrix.of y : Matrix (Fin n) (Fin n) ℝ) = (0.5 : ℝ) • (Q * Matrix.of u * Qᵀ + (Q * Matrix.of u * Qᵀ)ᵀ) := rfl
    rw [hxm, hym, Matrix.transpose_mul, Matrix.transpose_mul, Matrix.transpose_transpose, Matrix.mul_smul, Matrix.smul_mul, Matrix.mul_add, Matrix.add_mul, ← Matrix.mul_assoc Q]
  set e := eigh x with he
  let e' : Eigh n := ⟨e.vals, e.U * Qᵀ⟩
  have hU' : e'.U = e.U * Qᵀ := rfl
  have hsymx : symM x = Matrix.of x := by
    ext i j
    simp only [symM, Matrix.of_apply, hx, fracStrain]
    ring
  have hsymy : symM y = Matrix.of y := by
    ext i j
    simp only [symM, Matrix.of_apply, hy, fracStrain]
    ring
  have happ : ∀ f : ℝ → ℝ, (Matrix.of (e'.apply f) : Matrix (Fin n) (Fin n) ℝ) = Q * Matrix.of (e.apply f) * Qᵀ := by
    intro f
    rw [e'.apply_eq, e.apply_eq, hU', Matrix.transpose_mul, Matrix.transpose_transpose]
    simp only [Matrix.mul_assoc]
    rfl
  have he' : IsEigh y e' := by
    constructor
    · intro a b
      have : e'.U * e'.Uᵀ = 1 := by
        rw [hU', Matrix.transpose_mul, Matrix.transpose_transpose, Matrix.mul_assoc, ← Matrix.mul_assoc Qᵀ, hQ, Matrix.one_mul, (heigh x).UUt]
      have := congrFun (congrFun this a) b
      rw [Matrix.mul_apply, Matrix.one_apply] at this
      exact this
    · intro i j
      have h1 : (Matrix.of (e'.apply id) : Matrix (Fin n) (Fin n) ℝ) = symM y := by rw [happ, ← (heigh x).sym, hsymx, hsymy, hxy]
      have h2 := congrFun (congrFun h1 i) j
      rw [show (y i j + y j i) / 2 = symM y i j from rfl, ← h2, Matrix.of_apply]
      exact sum_congr rfl fun a _ => by simp only [Eigh.M, id]; ring
  have hspec : (Matrix.of (eigenF eigh (fracFn d) y) : Matrix (Fin n) (Fin n) ℝ) = Q * Matrix.of (eigenF eigh (fracFn d) x) * Qᵀ := by
    rw [(C96_unique eigh (fun _ => e') y (heigh y) he' (fracFn d)).1]
    exact happ _
  have htr : traceF y = traceF x := by
    have h1 : traceF y = (Matrix.of y : Matrix (Fin n) (Fin n) ℝ).trace := rfl
    have h2 : traceF x = (Matrix.of x : Matrix (Fin n) (Fin n) ℝ).trace := rfl
    rw [h1, h2, hxy, Matrix.trace_mul_comm, ← Matrix.mul_assoc, hQ, Matrix.one_mul]
  have hform : ∀ z : Fin n → Fin n → ℝ, (Matrix.of (sigmaSplit eigh z d) : Matrix (Fin n) (Fin n) ℝ) =
      (fracLmbda * (degrade d * safePlus (traceF z) + safeMinus (traceF z))) • (1 : Matrix (Fin n) (Fin n) ℝ) + Matrix.of (eigenF eigh (fracFn d) z) := by
    intro z
    ext i j
    rw [Matrix.add_apply, Matrix.smul_apply, Matrix.one_apply]
    rfl
  show (Matrix.of (sigmaSplit eigh y d) : Matrix (Fin n) (Fin n) ℝ) = Q * Matrix.of (sigmaSplit eigh x d) * Qᵀ
  rw [hform, hform, hspec, htr, Matrix.mul_add, Matrix.add_mul, Matrix.mul_smul, Matrix.smul_mul, Matrix.mul_one, hQ2]

/-- Concrete case: uniaxial stretch of a broken bar (`d = 1`) keeps a thousandth of the stiffness, uniaxial compression keeps all of it. -/
example : stressOpt2 (someEigh (n := 1)) (fun _ _ => 1) 1 0 0 = 1e-3 * (fracLmbda + 2 * fracMu) ∧ stressOpt2 (someEigh (n := 1)) (fun _ _ => -1) 1 0 0 = -(fracLmbda + 2 * fracMu) := by
  constructor
  · rw [(C97_unilateral someEigh someEigh_spec (fun _ _ => 1) 1).2 fun v => by simp [mul_self_nonneg]]
    simp only [Pi.smul_apply, smul_eq_mul, hookeStress, fracStrain, degrade, Finset.univ_unique, sum_singleton, if_true]
    ring
  · rw [(C97_unilateral someEigh someEigh_spec (fun _ _ => -1) 1).1 fun v => by simp [mul_self_nonneg]]
    simp [hookeStress, fracStrain]
    ring

end Verif.Fem
