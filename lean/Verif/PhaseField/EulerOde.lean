import Mathlib.Analysis.ODE.ExistUnique
import Mathlib.Analysis.Calculus.MeanValue
import Mathlib.Analysis.SpecialFunctions.Exp

/-!
# Explicit Euler steps and the differential equation (general lemmas for C149)
-/
namespace Verif.PhaseField.Ode
open Set

variable {E : Type*} [NormedAddCommGroup E] [NormedSpace ℝ E]

/-- A right-hand side that is Lipschitz in the state and in time, and bounded, on `[0, Te]`. -/
structure Nice (f : ℝ → E → E) (Te K C B : ℝ) : Prop where
  hK : 0 ≤ K
  hC : 0 ≤ C
  hB : 0 ≤ B
  lip : ∀ t ∈ Icc 0 Te, ∀ x y, ‖f t x - f t y‖ ≤ K * ‖x - y‖
  time : ∀ s ∈ Icc 0 Te, ∀ t ∈ Icc 0 Te, ∀ x, ‖f s x - f t x‖ ≤ C * |s - t|
  bound : ∀ t ∈ Icc 0 Te, ∀ x, ‖f t x‖ ≤ B

/-- A solution of `z' = f(t, z)` on `[0, Te]`. -/
def Solves (f : ℝ → E → E) (Te : ℝ) (z : ℝ → E) : Prop := ∀ t ∈ Icc 0 Te, HasDerivWithinAt z (f t (z t)) (Icc 0 Te) t

theorem exists_solution [CompleteSpace E] {f : ℝ → E → E} {Te K C B : ℝ} (hf : Nice f Te K C B) (hT : 0 ≤ Te) (x0 : E) : ∃ z, z 0 = x0 ∧ Solves f Te z := by
  have hPL : IsPicardLindelof f (⟨0, ⟨le_rfl, hT⟩⟩ : Icc (0 : ℝ) Te) x0 ⟨B * Te, mul_nonneg hf.hB hT⟩ 0 ⟨B, hf.hB⟩ ⟨K, hf.hK⟩ := by
    refine ⟨fun t ht => ?_, fun x _ => ?_, fun t ht x _ => hf.bound t ht x, ?_⟩
    · refine LipschitzOnWith.of_dist_le_mul fun x _ y _ => ?_
      rw [dist_eq_norm, dist_eq_norm]
      exact hf.lip t ht x y
    · refine (LipschitzOnWith.of_dist_le_mul (K := ⟨C, hf.hC⟩) fun s hs t ht => ?_).continuousOn
      rw [dist_eq_norm, Real.dist_eq]
      exact hf.time s hs t ht x
    · simp only [sub_zero, NNReal.coe_zero]
      rw [max_eq_left (by simpa using hT)]
      exact le_rfl
  obtain ⟨z, hz0, hz⟩ := hPL.exists_eq_forall_mem_Icc_hasDerivWithinAt₀
  exact ⟨z, hz0, hz⟩

/-- The solution moves at most with the largest rate. -/
theorem solution_lip {f : ℝ → E → E} {Te K C B : ℝ} (hf : Nice f Te K C B) {z : ℝ → E} (hz : Solves f Te z) {s t : ℝ} (hs : s ∈ Icc 0 Te) (ht : t ∈ Icc 0 Te) : ‖z s - z t‖ ≤ B * |s - t| := by
  have := Convex.norm_image_sub_le_of_norm_hasDerivWithin_le (fun x hx => hz x hx) (fun x hx => hf.bound x hx (z x)) (convex_Icc 0 Te) ht hs
  rwa [Real.norm_eq_abs] at this

/-- The error made in one step. -/
theorem local_error {f : ℝ → E → E} {Te K C B : ℝ} (hf : Nice f Te K C B) {z : ℝ → E} (hz : Solves f Te z) {t h : ℝ} (ht : 0 ≤ t) (hh : 0 ≤ h) (hth : t + h ≤ Te) :
    ‖z (t + h) - (z t + h • f t (z t))‖ ≤ (K * B + C) * h * h := by
  have hsub : Icc t (t + h) ⊆ Icc 0 Te := Icc_subset_Icc ht hth
  have htm : t ∈ Icc 0 Te := ⟨ht, by linarith⟩
  have hd : ∀ x ∈ Icc t (t + h), HasDerivWithinAt (fun s => z s - s • f t (z t)) (f x (z x) - f t (z t)) (Icc t (t + h)) x := by
    intro x hx
    have h1 := (hz x (hsub hx)).mono hsub
    have h2 := (hasDerivWithinAt_id x (Icc t (t + h))).smul_const (f t (z t))
    simpa using h1.fun_sub h2
  have hb : ∀ x ∈ Icc t (t + h), ‖f x (z x) - f t (z t)‖ ≤ (K * B + C) * h := by
    intro x hx
    have hxh : |x - t| ≤ h := by rw [abs_of_nonneg (by linarith [hx.1])]; linarith [hx.2]
    have e : f x (z x) - f t (z t) = (f x (z x) - f x (z t)) + (f x (z t) - f t (z t)) := by abel
    rw [e]
    refine (norm_add_le _ _).trans ?_
    have a1 := hf.lip x (hsub hx) (z x) (z t)
    have a2 := hf.time x (hsub hx) t htm (z t)
    have a3 := mul_le_mul_of_nonneg_left (solution_lip hf hz (hsub hx) htm) hf.hK
    have a4 := mul_le_mul_of_nonneg_left hxh (mul_nonneg hf.hK hf.hB)
    have a5 := mul_le_mul_of_nonneg_left hxh hf.hC
    linarith
  have := Convex.norm_image_sub_le_of_norm_hasDerivWithin_le hd hb (convex_Icc t (t + h)) (left_mem_Icc.mpr (by linarith)) (right_mem_Icc.mpr (by linarith))
  have e : z (t + h) - (t + h) • f t (z t) - (z t - t • f t (z t)) = z (t + h) - (z t + h • f t (z t)) := by module
  rw [e, Real.norm_eq_abs, add_sub_cancel_left, abs_of_nonneg hh] at this
  exact this

/-- The error after `k` steps of length `h`. -/
theorem euler_error {f : ℝ → E → E} {Te K C B : ℝ} (hf : Nice f Te K C B) {z : ℝ → E} (hz : Solves f Te z) {h : ℝ} (hh : 0 ≤ h) (u : ℕ → E) (h0 : u 0 = z 0) (k : ℕ)
    (hu : ∀ j < k, u (j + 1) = u j + h • f (j * h) (u j)) (hk : k * h ≤ Te) :
    ‖u k - z (k * h)‖ ≤ (K * B + C) * h * (k * h) * Real.exp (K * (k * h)) := by
  induction k with
  | zero => simp [h0]
  | succ k ih =>
    have hk' : (k : ℝ) * h + h ≤ Te := by push_cast at hk; linarith
    have hk0 : (0 : ℝ) ≤ k * h := by positivity
    have hm : (k : ℝ) * h ∈ Icc 0 Te := ⟨hk0, by linarith⟩
    have e1 := ih (fun j hj => hu j (by omega)) hm.2
    have e2 := local_error hf hz hk0 hh hk'
    have e3 := hf.lip _ hm (u k) (z (k * h))
    rw [hu k (by omega)]
    have es : ((k + 1 : ℕ) : ℝ) * h = k * h + h := by push_cast; ring
    rw [es]
    have e : u k + h • f (k * h) (u k) - z (k * h + h) = (u k - z (k * h)) + h • (f (k * h) (u k) - f (k * h) (z (k * h))) - (z (k * h + h) - (z (k * h) + h • f (k * h) (z (k * h)))) := by module
    rw [e]
    have n1 : ‖h • (f (k * h) (u k) - f (k * h) (z (k * h)))‖ ≤ h * K * ‖u k - z (k * h)‖ := by
      rw [norm_smul, Real.norm_eq_abs, abs_of_nonneg hh, mul_assoc]
      exact mul_le_mul_of_nonneg_left e3 hh
    have n2 := (norm_sub_le ((u k - z (k * h)) + h • (f (k * h) (u k) - f (k * h) (z (k * h)))) (z (k * h + h) - (z (k * h) + h • f (k * h) (z (k * h))))).trans
      (add_le_add (norm_add_le _ _) le_rfl)
    have hq : 0 ≤ (K * B + C) * h := mul_nonneg (add_nonneg (mul_nonneg hf.hK hf.hB) hf.hC) hh
    set q := (K * B + C) * h with hqd
    set a := (k : ℝ) * h with had
    have hexp : (1 + K * h) * Real.exp (K * a) ≤ Real.exp (K * (a + h)) := by
      rw [mul_add, Real.exp_add, mul_comm]
      exact mul_le_mul_of_nonneg_left (by linarith [Real.add_one_le_exp (K * h)]) (Real.exp_pos _).le
    have hone : 1 ≤ Real.exp (K * (a + h)) := Real.one_le_exp (mul_nonneg hf.hK (add_nonneg hk0 hh))
    have hKh : 0 ≤ 1 + K * h := add_nonneg zero_le_one (mul_nonneg hf.hK hh)
    have s1 : (1 + K * h) * ‖u k - z a‖ ≤ q * a * Real.exp (K * (a + h)) := by
      calc (1 + K * h) * ‖u k - z a‖ ≤ (1 + K * h) * (q * a * Real.exp (K * a)) := mul_le_mul_of_nonneg_left e1 hKh
        _ = q * a * ((1 + K * h) * Real.exp (K * a)) := by ring
        _ ≤ q * a * Real.exp (K * (a + h)) := mul_le_mul_of_nonneg_left hexp (mul_nonneg hq hk0)
    have s2 : q * h ≤ q * h * Real.exp (K * (a + h)) := le_mul_of_one_le_right (mul_nonneg hq hh) hone
    calc _ ≤ _ := n2
      _ ≤ ‖u k - z a‖ + h * K * ‖u k - z a‖ + q * h := add_le_add (add_le_add le_rfl n1) e2
      _ = (1 + K * h) * ‖u k - z a‖ + q * h := by ring
      _ ≤ q * a * Real.exp (K * (a + h)) + q * h * Real.exp (K * (a + h)) := add_le_add s1 s2
      _ = q * (a + h) * Real.exp (K * (a + h)) := by ring

end Verif.PhaseField.Ode
