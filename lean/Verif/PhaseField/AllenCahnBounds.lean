import Verif.PhaseField.AllenCahnProps

/-!
# C64, C65: bounds of the order parameters under a step-size condition; bounds and symmetry of the anisotropy factor
-/
namespace Verif.PhaseField
open Verif Verif.Mesh

variable {m d : ℕ}

/-- **C65 (range).** For a non-negative anisotropy strength the factor lies between `1 + A/2` and `1 + A`. -/
theorem C65_aniso_range (P : PfArgs m d) (o : Fin m) (edge : Fin 3 → ℝ) (hA : 0 ≤ P.anisotropy) :
    1 + P.anisotropy / 2 ≤ anisoTerm P o edge ∧ anisoTerm P o edge ≤ 1 + P.anisotropy := by
  have key : ∀ a : ℝ, 1 + P.anisotropy / 2 ≤ 1 + P.anisotropy * (Real.cos a ^ 4 + Real.sin a ^ 4) ∧
      1 + P.anisotropy * (Real.cos a ^ 4 + Real.sin a ^ 4) ≤ 1 + P.anisotropy := by
    intro a
    have h := Real.sin_sq_add_cos_sq a
    constructor
    · have : 1 / 2 ≤ Real.cos a ^ 4 + Real.sin a ^ 4 := by nlinarith [sq_nonneg (Real.cos a ^ 2 - Real.sin a ^ 2)]
      nlinarith [mul_le_mul_of_nonneg_left this hA]
    · have : Real.cos a ^ 4 + Real.sin a ^ 4 ≤ 1 := by
        nlinarith [mul_nonneg (sq_nonneg (Real.cos a)) (sq_nonneg (Real.sin a))]
      nlinarith [mul_le_mul_of_nonneg_left this hA]
  exact key _

/-- **C65 (symmetry).** Reversing the interface normal, or rescaling it by a positive factor, does not change the factor. -/
theorem C65_aniso_symmetry (P : PfArgs m d) (o : Fin m) (edge : Fin 3 → ℝ) (c : ℝ) (hc : c ≠ 0) :
    anisoTerm P o (fun a => c * edge a) = anisoTerm P o edge := by
  unfold anisoTerm
  have hn : Real.sqrt (∑ a, (c * edge a) ^ 2) = |c| * Real.sqrt (∑ a, edge a ^ 2) := by
    simp only [mul_pow]
    rw [← Finset.mul_sum, Real.sqrt_mul (sq_nonneg c), Real.sqrt_sq_eq_abs]
  have hd : ∀ q, ∑ a, P.dirs q o a * (c * edge a) = c * ∑ a, P.dirs q o a * edge a := by
    intro q; rw [Finset.mul_sum]; exact Finset.sum_congr rfl fun a _ => by ring
  simp only [hn, hd]
  have hang : ∀ q : Fin (d + 1),
      (if (if |c| * Real.sqrt (∑ a, edge a ^ 2) = 0 then 0 else Real.arccos ((c * ∑ a, P.dirs q o a * edge a) / (|c| * Real.sqrt (∑ a, edge a ^ 2)))) < Real.pi / 2
        then (if |c| * Real.sqrt (∑ a, edge a ^ 2) = 0 then 0 else Real.arccos ((c * ∑ a, P.dirs q o a * edge a) / (|c| * Real.sqrt (∑ a, edge a ^ 2))))
        else Real.pi - (if |c| * Real.sqrt (∑ a, edge a ^ 2) = 0 then 0 else Real.arccos ((c * ∑ a, P.dirs q o a * edge a) / (|c| * Real.sqrt (∑ a, edge a ^ 2)))))
      = (if (if Real.sqrt (∑ a, edge a ^ 2) = 0 then 0 else Real.arccos ((∑ a, P.dirs q o a * edge a) / Real.sqrt (∑ a, edge a ^ 2))) < Real.pi / 2
        then (if Real.sqrt (∑ a, edge a ^ 2) = 0 then 0 else Real.arccos ((∑ a, P.dirs q o a * edge a) / Real.sqrt (∑ a, edge a ^ 2)))
        else Real.pi - (if Real.sqrt (∑ a, edge a ^ 2) = 0 then 0 else Real.arccos ((∑ a, P.dirs q o a * edge a) / Real.sqrt (∑ a, edge a ^ 2)))) := by
    intro q
    generalize (∑ a, P.dirs q o a * edge a) = D
    generalize Real.sqrt (∑ a, edge a ^ 2) = r
    by_cases hr : r = 0
    · simp [hr]
    · have hcr : |c| * r ≠ 0 := mul_ne_zero (abs_ne_zero.mpr hc) hr
      simp only [hr, hcr, if_false]
      rcases abs_cases c with ⟨h, hpos⟩ | ⟨h, hneg⟩
      · rw [h, mul_div_mul_left _ _ hc]
      · rw [h, neg_mul, div_neg, mul_div_mul_left _ _ hc, Real.arccos_neg]
        by_cases h1 : Real.arccos (D / r) < Real.pi / 2
        · rw [if_neg (by linarith), if_pos h1]; ring
        · rw [if_neg h1]
          by_cases h2 : Real.pi - Real.arccos (D / r) < Real.pi / 2
          · rw [if_pos h2]
          · rw [if_neg h2]; linarith
  simp only [hang]

example : (-1 : ℝ) ≠ 0 ∧ (0 : ℝ) ≤ 1 / 2 := by norm_num

/-- A second difference of numbers in `[0, 1]`. -/
theorem lap1_bounds (N : ℕ) (g : ℕ → ℝ) {i : ℕ} (hi : i < N) (h : ∀ j < N, 0 ≤ g j ∧ g j ≤ 1) :
    -2 * g i ≤ lap1 N g i ∧ lap1 N g i ≤ 2 * (1 - g i) := by
  have h0 := h i hi
  unfold lap1
  split_ifs with h1 h2 h2
  · have a := h _ h1; have b := h (i - 1) (by omega); constructor <;> linarith [a.1, a.2, b.1, b.2]
  · have a := h _ h1; constructor <;> linarith [a.1, a.2]
  · have b := h (i - 1) (by omega); constructor <;> linarith [b.1, b.2]
  · constructor <;> linarith

/-- Largest value of the anisotropy factor. -/
noncomputable def anisoMax (P : PfArgs m d) : ℝ := if P.anisotropy > 0 then 1 + P.anisotropy else 1

/-- Step-size condition at a cell: `h Lg (m_g/ad_hoc (4 m - 2) + 2 kappa ad_hoc a_max Σ 1/h²) ≤ 1`. -/
def StepOk (P : PfArgs m d) (T : ℕ → ℝ) (h : ℝ) (n : ℕ) : Prop :=
  h * LgOf P T n * (P.m_g / P.ad_hoc * (4 * m - 2)
    + 2 * (P.kappa_g * P.ad_hoc * anisoMax P * (1 / P.hx ^ 2 + 1 / P.hy ^ 2 + 1 / P.hz ^ 2))) ≤ 1

/-- Arithmetic core. -/
theorem step_core {x S q h L α κ lx ly lz a amax wx wy wz M : ℝ} (hx : 0 ≤ x ∧ x ≤ 1) (hS : 0 ≤ S) (hSM : S ≤ M) (hM : 0 ≤ M)
    (hq : 0 ≤ q ∧ q ≤ 1) (hhL : 0 ≤ h * L) (hα : 0 ≤ α) (hκ : 0 ≤ κ) (ha : 0 ≤ a) (haM : a ≤ amax)
    (hwx : 0 ≤ wx) (hwy : 0 ≤ wy) (hwz : 0 ≤ wz)
    (hlx : -2 * x ≤ lx ∧ lx ≤ 2 * (1 - x)) (hly : -2 * x ≤ ly ∧ ly ≤ 2 * (1 - x)) (hlz : -2 * x ≤ lz ∧ lz ≤ 2 * (1 - x))
    (hcfl : h * L * (α * (4 * M + 2) + 2 * (κ * amax * (wx + wy + wz))) ≤ 1) :
    0 ≤ x + h * (-L * (α * (x ^ 3 - x + 4 * x * S + 2 * q * x) + -(κ * a * (lx * wx + ly * wy + lz * wz)))) ∧
    x + h * (-L * (α * (x ^ 3 - x + 4 * x * S + 2 * q * x) + -(κ * a * (lx * wx + ly * wy + lz * wz)))) ≤ 1 := by
  set W := wx + wy + wz with hW
  have hW0 : 0 ≤ W := by positivity
  have hka : 0 ≤ κ * a := mul_nonneg hκ ha
  have hlap1 : -2 * x * W ≤ lx * wx + ly * wy + lz * wz := by
    nlinarith [mul_le_mul_of_nonneg_right hlx.1 hwx, mul_le_mul_of_nonneg_right hly.1 hwy, mul_le_mul_of_nonneg_right hlz.1 hwz]
  have hlap2 : lx * wx + ly * wy + lz * wz ≤ 2 * (1 - x) * W := by
    nlinarith [mul_le_mul_of_nonneg_right hlx.2 hwx, mul_le_mul_of_nonneg_right hly.2 hwy, mul_le_mul_of_nonneg_right hlz.2 hwz]
  have hkW : κ * a * W ≤ κ * amax * W := mul_le_mul_of_nonneg_right (mul_le_mul_of_nonneg_left haM hκ) hW0
  have hkaW : 0 ≤ κ * a * W := mul_nonneg hka hW0
  obtain ⟨hx0, hx1⟩ := hx
  set r := x ^ 3 - x + 4 * x * S + 2 * q * x with hr
  have hr1 : r ≤ x * (4 * M + 2) := by
    have : x ^ 3 ≤ x := by nlinarith [mul_nonneg hx0 (sub_nonneg.mpr hx1), sq_nonneg x]
    nlinarith [mul_le_mul_of_nonneg_left hSM hx0, mul_le_mul_of_nonneg_left hq.2 hx0]
  have hr2 : -(2 * (1 - x)) ≤ r := by
    have h1 : 0 ≤ 4 * x * S := by positivity
    have h2 : 0 ≤ 2 * q * x := by have := hq.1; positivity
    nlinarith [mul_nonneg hx0 (sub_nonneg.mpr hx1), mul_nonneg (mul_nonneg hx0 hx0) (sub_nonneg.mpr hx1)]
  set G := lx * wx + ly * wy + lz * wz with hG
  have e : x + h * (-L * (α * r + -(κ * a * G))) = x - (h * L) * (α * r - κ * a * G) := by ring
  rw [e]
  clear_value r G
  constructor
  · have h1 : α * r - κ * a * G ≤ x * (α * (4 * M + 2) + 2 * (κ * amax * W)) := by
      have a1 := mul_le_mul_of_nonneg_left hr1 hα
      have a2 := mul_le_mul_of_nonneg_left hlap1 hka
      have a3 := mul_le_mul_of_nonneg_left hkW hx0
      linarith
    have h2 := mul_le_mul_of_nonneg_left h1 hhL
    have h3 := mul_le_mul_of_nonneg_left hcfl hx0
    linarith
  · have h1 : -((1 - x) * (α * (4 * M + 2) + 2 * (κ * amax * W))) ≤ α * r - κ * a * G := by
      have a1 := mul_le_mul_of_nonneg_left hr2 hα
      have a2 := mul_le_mul_of_nonneg_left hlap2 hka
      have a3 := mul_le_mul_of_nonneg_left hkW (sub_nonneg.mpr hx1)
      have a4 : 0 ≤ α * M * (1 - x) := mul_nonneg (mul_nonneg hα hM) (sub_nonneg.mpr hx1)
      linarith
    have h2 := mul_le_mul_of_nonneg_left h1 hhL
    have h3 := mul_le_mul_of_nonneg_left hcfl (sub_nonneg.mpr hx1)
    linarith

/-- **C64 (one step).** If all order parameters are in `[0, 1]`, the material constants have their physical signs, `tanh` has range `[-1, 1]`, and the step satisfies the step-size condition in every cell,
then all order parameters are in `[0, 1]` after the step. Holds with and without anisotropy. -/
theorem C64_step_bounds (th : ℝ → ℝ) (hth : ∀ x, -1 ≤ th x ∧ th x ≤ 1) (P : PfArgs m d) (hm : 0 ≤ P.m_g) (hk : 0 ≤ P.kappa_g)
    (had : 0 < P.ad_hoc) (hL : 0 ≤ P.L0) (T : ℕ → ℝ) (t0 t1 : ℝ) (ht : t0 ≤ t1) (eta : ℕ → Fin m → ℝ)
    (hb : ∀ n < P.N, ∀ o, 0 ≤ eta n o ∧ eta n o ≤ 1) (hcfl : ∀ n < P.N, StepOk P T (t1 - t0) n)
    {n : ℕ} (hn : n < P.N) (o : Fin m) :
    0 ≤ (stepper th P (eta, t0) t1 T).1 n o ∧ (stepper th P (eta, t0) t1 T).1 n o ≤ 1 := by
  have hcf := hcfl n hn
  unfold StepOk at hcf
  show 0 ≤ eta n o + (t1 - t0) * stateRhs th P T eta n o ∧ eta n o + (t1 - t0) * stateRhs th P T eta n o ≤ 1
  simp only [stateRhs]
  rw [localEnergyGrad_eq P eta _ hn o]
  obtain ⟨k, j, i, hk', hj, hi, rfl⟩ := idx3_surj hn
  obtain ⟨a, ha1, ⟨edge, ha2⟩, hlap⟩ := laplaceTerm_get P eta hk' hj hi o
  have hlap' : (laplaceTerm P eta).get ((k * P.Ny + j) * P.Nx + i) o = _ := hlap
  rw [hlap']
  set n := (k * P.Ny + j) * P.Nx + i with hnn
  have hin : ∀ {k j i}, k < P.Nz → j < P.Ny → i < P.Nx → 0 ≤ eta (etaNo P k j i) o ∧ eta (etaNo P k j i) o ≤ 1 :=
    fun a b c => hb _ (idx3_lt a b c) o
  have lx := lap1_bounds P.Nx (fun i => eta (etaNo P k j i) o) hi (fun i' h => hin hk' hj h)
  have ly := lap1_bounds P.Ny (fun j => eta (etaNo P k j i) o) hj (fun i' h => hin hk' h hi)
  have lz := lap1_bounds P.Nz (fun k => eta (etaNo P k j i) o) hk' (fun i' h => hin h hj hi)
  have hS : (∑ p, eta n p ^ 2) - eta n o ^ 2 = ∑ p ∈ Finset.univ.erase o, eta n p ^ 2 := by
    rw [← Finset.add_sum_erase _ _ (Finset.mem_univ o)]; ring
  have hS0 : 0 ≤ (∑ p, eta n p ^ 2) - eta n o ^ 2 := by
    rw [hS]; exact Finset.sum_nonneg fun p _ => sq_nonneg _
  have hm1 : 1 ≤ m := by have := o.2; omega
  have hSM : (∑ p, eta n p ^ 2) - eta n o ^ 2 ≤ (m : ℝ) - 1 := by
    rw [hS]
    calc ∑ p ∈ Finset.univ.erase o, eta n p ^ 2 ≤ ∑ p ∈ Finset.univ.erase o, (1 : ℝ) :=
          Finset.sum_le_sum fun p _ => by have := hb n hn p; nlinarith [this.1, this.2]
      _ = (m : ℝ) - 1 := by
          rw [Finset.sum_const, Finset.card_erase_of_mem (Finset.mem_univ o), Finset.card_univ, Fintype.card_fin, nsmul_eq_mul, mul_one,
            Nat.cast_sub hm1, Nat.cast_one]
  have hz : 0 ≤ (1 - zetaOf th P T n) ^ 2 ∧ (1 - zetaOf th P T n) ^ 2 ≤ 1 := by
    refine ⟨sq_nonneg _, ?_⟩
    unfold zetaOf
    have := hth (1e10 * (capT (T n) / P.T_liquidus - 1))
    generalize th (1e10 * (capT (T n) / P.T_liquidus - 1)) = w at this
    nlinarith [this.1, this.2]
  have hLg : 0 ≤ LgOf P T n := mul_nonneg hL (Real.exp_pos _).le
  have haR : 0 ≤ a ∧ a ≤ anisoMax P := by
    by_cases hA : P.anisotropy > 0
    · have := C65_aniso_range P o edge hA.le
      rw [ha2 hA]
      unfold anisoMax
      rw [if_pos hA]
      exact ⟨by linarith [this.1], this.2⟩
    · rw [ha1 hA]; unfold anisoMax; rw [if_neg hA]; exact ⟨zero_le_one, le_refl _⟩
  have hM : (0 : ℝ) ≤ (m : ℝ) - 1 := by
    have : (1 : ℝ) ≤ m := by exact_mod_cast hm1
    linarith
  have := step_core (x := eta n o) (S := (∑ p, eta n p ^ 2) - eta n o ^ 2) (q := (1 - zetaOf th P T n) ^ 2) (h := t1 - t0)
    (L := LgOf P T n) (α := P.m_g / P.ad_hoc) (κ := P.kappa_g * P.ad_hoc) (a := a) (amax := anisoMax P)
    (wx := 1 / P.hx ^ 2) (wy := 1 / P.hy ^ 2) (wz := 1 / P.hz ^ 2) (M := (m : ℝ) - 1)
    (hb n hn o) hS0 hSM hM hz (mul_nonneg (sub_nonneg.mpr ht) hLg) (div_nonneg hm had.le) (mul_nonneg hk had.le) haR.1 haR.2
    (by positivity) (by positivity) (by positivity) lx ly lz
    (by refine le_trans (le_of_eq ?_) hcf; ring)
  unfold localGradExplicit
  rw [show P.m_g * (eta n o ^ 3 - eta n o + 4 * eta n o * (∑ p, eta n p ^ 2 - eta n o ^ 2) + 2 * (1 - zetaOf th P T n) ^ 2 * eta n o) / P.ad_hoc
    = P.m_g / P.ad_hoc * (eta n o ^ 3 - eta n o + 4 * eta n o * (∑ p, eta n p ^ 2 - eta n o ^ 2) + 2 * (1 - zetaOf th P T n) ^ 2 * eta n o) by ring]
  simpa only [div_eq_mul_one_div (lap1 _ _ _)] using this

/-- Every step of a run goes forward in time and satisfies the step-size condition. -/
def StepsOk (P : PfArgs m d) : ℝ → List (ℝ × (ℕ → ℝ)) → Prop
  | _, [] => True
  | t0, s :: l => t0 ≤ s.1 ∧ (∀ n < P.N, StepOk P s.2 (s.1 - t0) n) ∧ StepsOk P s.1 l

/-- **C64 (whole run).** Starting from `ini_cond` the order parameters stay in `[0, 1]` for ever, as long as every step satisfies the step-size condition. -/
theorem C64_run_bounds (th : ℝ → ℝ) (hth : ∀ x, -1 ≤ th x ∧ th x ≤ 1) (P : PfArgs m d) (hm : 0 ≤ P.m_g) (hk : 0 ≤ P.kappa_g)
    (had : 0 < P.ad_hoc) (hL : 0 ≤ P.L0) (ori : ℕ → Fin m) (t0 : ℝ) (steps : List (ℝ × (ℕ → ℝ))) (hs : StepsOk P t0 steps)
    {n : ℕ} (hn : n < P.N) (o : Fin m) :
    0 ≤ (runSteps th P steps (iniCond P.N ori, t0)).1 n o ∧ (runSteps th P steps (iniCond P.N ori, t0)).1 n o ≤ 1 := by
  have gen : ∀ (steps : List (ℝ × (ℕ → ℝ))) (t0 : ℝ) (eta : ℕ → Fin m → ℝ), StepsOk P t0 steps →
      (∀ n < P.N, ∀ o, 0 ≤ eta n o ∧ eta n o ≤ 1) →
      ∀ n < P.N, ∀ o, 0 ≤ (runSteps th P steps (eta, t0)).1 n o ∧ (runSteps th P steps (eta, t0)).1 n o ≤ 1 := by
    intro steps
    induction steps with
    | nil => intro t0 eta _ hb; exact hb
    | cons s l ih =>
      rintro t0 eta ⟨h1, h2, h3⟩ hb
      exact ih s.1 _ h3 fun n hn o => C64_step_bounds th hth P hm hk had hL s.2 t0 s.1 h1 eta hb h2 hn o
  refine gen steps t0 _ hs ?_ n hn o
  intro n hn o
  rw [(C48_one_hot P.N ori hn).1 o]
  split_ifs <;> norm_num

/-- Instance: a step of length 0.1 with unit constants on one cell with two orientations. -/
example : ∃ P : PfArgs 2 0, 0 < P.N ∧ 0 ≤ P.m_g ∧ 0 ≤ P.kappa_g ∧ 0 < P.ad_hoc ∧ 0 < P.L0 ∧
    StepsOk P 0 [(1 / 20, fun _ => 300)] := by
  refine ⟨⟨1, 1, 1, 1, 1, 1, 1, 1, 1, 1, 0, 1, 1700, 0, fun _ _ _ => 0⟩, by simp [PfArgs.N], by norm_num, by norm_num, by norm_num, by norm_num, ?_⟩
  refine ⟨by norm_num, ?_, trivial⟩
  intro n _
  unfold StepOk LgOf anisoMax
  norm_num

/-- **C64 (liquid).** `force_eta_zero_in_liquid` removes every order parameter where the temperature exceeds the liquidus by more than one degree, leaves the rest and the time alone, and applying it again changes nothing. -/
theorem C64_force_liquid (P : PfArgs m d) (T : ℕ → ℝ) (s : (ℕ → Fin m → ℝ) × ℝ) :
    (∀ n, T n > P.T_liquidus + 1 → ∀ o, (forceEta P T s).1 n o = 0) ∧
    (∀ n, T n ≤ P.T_liquidus + 1 → ∀ o, (forceEta P T s).1 n o = s.1 n o) ∧
    (forceEta P T s).2 = s.2 ∧ forceEta P T (forceEta P T s) = forceEta P T s := by
  refine ⟨fun n h o => if_pos h, fun n h o => if_neg (not_lt.mpr h), rfl, ?_⟩
  unfold forceEta
  simp only [Prod.mk.injEq, and_true]
  funext n o
  split_ifs <;> rfl

end Verif.PhaseField
