import Verif.Fem.Crystal
import Mathlib.Algebra.BigOperators.Field

/-!
# Crystal plasticity: slip, hardening, local Newton solver and stress (model of applications/fem/crystal_plasticity/models.py 50-243)
-/
namespace Verif.Fem
open Finset Matrix

variable {ns : ℕ}

/-! ## Model -/

/-- The internal variables of a quadrature point: `Fp_inv`, `slip_resistance`, `slip`, `rot_mat` (models.py 117, 130). -/
structure CpState (ns : ℕ) where
  Fp_inv : M3
  resistance : Fin ns → ℝ
  slip : Fin ns → ℝ
  rot_mat : M3

/-- The attributes used by the local equations: `Schmid_tensors`, `q`, `C`, `dt` (models.py 62-69, 77-115, 152). -/
structure CpMaterial (ns : ℕ) where
  schmid : Fin ns → M3
  q : Matrix (Fin ns) (Fin ns) ℝ
  C : T4
  dt : ℝ

/-- `tau` (models.py 151). -/
noncomputable def CpMaterial.tau (m : CpMaterial ns) (st : CpState ns) (S : M3) (a : Fin ns) : ℝ := ∑ i, ∑ j, S i j * rotate2 st.rot_mat (m.schmid a) i j

/-- `gamma_inc` (models.py 127-128, 152). -/
noncomputable def CpMaterial.gammaInc (m : CpMaterial ns) (st : CpState ns) (S : M3) (a : Fin ns) : ℝ :=
  let ao : ℝ := 0.001
  let xm : ℝ := 0.1
  ao * m.dt * |m.tau st S a / st.resistance a| ^ (1 / xm) * Real.sign (m.tau st S a)

/-- `g_inc` (models.py 124-126, 154-155). -/
noncomputable def CpMaterial.gInc (m : CpMaterial ns) (st : CpState ns) (S : M3) : Fin ns → ℝ :=
  let h : ℝ := 541.5
  let t_sat : ℝ := 109.8
  let gss_a : ℝ := 2.5
  let tmp := fun a => h * |m.gammaInc st S a| * |1 - st.resistance a / t_sat| ^ gss_a * Real.sign (1 - st.resistance a / t_sat)
  m.q *ᵥ tmp

/-- `L_plastic_inc` (models.py 163). -/
noncomputable def CpMaterial.plasticInc (m : CpMaterial ns) (st : CpState ns) (S : M3) : M3 := Matrix.of fun i j => ∑ a, m.gammaInc st S a * rotate2 st.rot_mat (m.schmid a) i j

/-- `helper` (models.py 150-166): the new internal variables, `Fe` and `F`. -/
noncomputable def CpMaterial.helper (m : CpMaterial ns) (u_grad : M3) (st : CpState ns) (S : M3) : CpState ns × M3 × M3 :=
  let slip_resistance_new := st.resistance + m.gInc st S
  let slip_new := st.slip + m.gammaInc st S
  let F := u_grad + 1
  let Fp_inv_new := st.Fp_inv * (1 - m.plasticInc st S)
  let Fe := F * Fp_inv_new
  (⟨Fp_inv_new, slip_resistance_new, slip_new, st.rot_mat⟩, Fe, F)

/-- `implicit_residual` (models.py 168-174) as a function of the stress. -/
noncomputable def CpMaterial.residual (m : CpMaterial ns) (u_grad : M3) (st : CpState ns) (S : M3) : M3 :=
  let Fe := (m.helper u_grad st S).2.1
  let S' : M3 := Matrix.of fun i k => ∑ p, ∑ o, rotate4 st.rot_mat m.C i k p o * 1 / 2 * (Feᵀ * Fe - 1) p o
  S - S'

/-- `np.linalg.norm` of a raveled matrix. -/
noncomputable def cpNorm (A : M3) : ℝ := Real.sqrt (∑ i, ∑ j, A i j ^ 2)

/-- `jax.jacfwd(f)(y)` (models.py 197-198), entry by entry. -/
noncomputable def cpJac (f : M3 → M3) (y : M3) : Matrix (Fin 3 × Fin 3) (Fin 3 × Fin 3) ℝ := Matrix.of fun a b => deriv (fun t : ℝ => f (y + t • Matrix.single b.1 b.2 1) a.1 a.2) 0

/-- The inner `while_loop` (models.py 201-214): `relax_param` and the current residual; the number is that of the remaining sub-steps. -/
noncomputable def cpSearch (f : M3 → M3) (y y_inc res_vec : M3) : ℕ → ℝ × M3 → ℝ × M3
  | 0, st => st
  | n + 1, (relax_param, crt) =>
    open Classical in
    if cpNorm crt ≥ cpNorm res_vec then cpSearch f y y_inc res_vec n (0.5 * relax_param, f (y + relax_param • y_inc)) else (relax_param, crt)

/-- `body_fun` (models.py 190-217) without the step counter; `np.linalg.solve` is an oracle. -/
noncomputable def cpBody (f : M3 → M3) (solve : Matrix (Fin 3 × Fin 3) (Fin 3 × Fin 3) ℝ → M3 → M3) (st : M3 × M3) : M3 × M3 :=
  let (res_vec, y) := st
  let y_inc := solve (cpJac f y) (-res_vec)
  let (relax_param_f, res_vec_f) := cpSearch f y y_inc res_vec 5 (1, res_vec)
  (res_vec_f, y + (2 * relax_param_f) • y_inc)

/-- The outer `while_loop` (models.py 186-188, 219); `none`: still running after `fuel` steps. -/
noncomputable def cpLoop (f : M3 → M3) (solve : Matrix (Fin 3 × Fin 3) (Fin 3 × Fin 3) ℝ → M3 → M3) : ℕ → M3 × M3 → Option M3
  | 0, (res_vec, y) => open Classical in if cpNorm res_vec > 1e-8 then none else some y
  | fuel + 1, (res_vec, y) => open Classical in if cpNorm res_vec > 1e-8 then cpLoop f solve fuel (cpBody f solve (res_vec, y)) else some y

/-- `newton_solver` (models.py 176-221). -/
noncomputable def cpNewton (f : M3 → M3) (solve : Matrix (Fin 3 × Fin 3) (Fin 3 × Fin 3) ℝ → M3 → M3) (fuel : ℕ) : Option M3 := cpLoop f solve fuel (f 0, 0)

/-- `first_PK_stress` (models.py 134-141). -/
noncomputable def CpMaterial.firstPK (m : CpMaterial ns) (solve : Matrix (Fin 3 × Fin 3) (Fin 3 × Fin 3) ℝ → M3 → M3) (fuel : ℕ) (u_grad : M3) (st : CpState ns) : Option M3 :=
  (cpNewton (m.residual u_grad st) solve fuel).map fun S =>
    let Fe := (m.helper u_grad st S).2.1
    let F := (m.helper u_grad st S).2.2
    let sigma := (1 / Fe.det) • Fe * S * Feᵀ
    F.det • sigma * F⁻¹ᵀ

/-- `update_int_vars` (models.py 143-148). -/
noncomputable def CpMaterial.update (m : CpMaterial ns) (solve : Matrix (Fin 3 × Fin 3) (Fin 3 × Fin 3) ℝ → M3 → M3) (fuel : ℕ) (u_grad : M3) (st : CpState ns) : Option (CpState ns) :=
  (cpNewton (m.residual u_grad st) solve fuel).map fun S => (m.helper u_grad st S).1

/-! ## C113: slip and hardening -/

theorem rpow_ten (x : ℝ) : |x| ^ ((1 : ℝ) / 0.1) = |x| ^ 10 := by
  rw [show (1 : ℝ) / 0.1 = ((10 : ℕ) : ℝ) by norm_num, Real.rpow_natCast]

/-- **C113 (slip).** For a positive time step and positive resistances each slip increment has the sign of its shear stress, so no slip system ever does negative work; it vanishes with the stress only; it is odd and grows with the stress. -/
theorem C113_slip (m : CpMaterial ns) (hdt : 0 < m.dt) (st : CpState ns) (a : Fin ns) (hg : 0 < st.resistance a) (S : M3) :
    0 ≤ m.tau st S a * m.gammaInc st S a ∧ (m.gammaInc st S a = 0 ↔ m.tau st S a = 0) ∧ m.gammaInc st (-S) a = -m.gammaInc st S a ∧
    ∀ S', m.tau st S a < m.tau st S' a → m.gammaInc st S a < m.gammaInc st S' a := by
  have hform : ∀ S, m.gammaInc st S a = 0.001 * m.dt / st.resistance a ^ 10 * (|m.tau st S a| ^ 9 * m.tau st S a) := fun S => by
    unfold CpMaterial.gammaInc
    simp only
    rw [rpow_ten, abs_div, abs_of_pos hg, div_pow]
    have : |m.tau st S a| ^ 10 * Real.sign (m.tau st S a) = |m.tau st S a| ^ 9 * m.tau st S a := by
      rcases lt_trichotomy (m.tau st S a) 0 with h | h | h
      · rw [Real.sign_of_neg h, abs_of_neg h]; ring
      · rw [h]; simp
      · rw [Real.sign_of_pos h, abs_of_pos h]; ring
    calc _ = 0.001 * m.dt / st.resistance a ^ 10 * (|m.tau st S a| ^ 10 * Real.sign (m.tau st S a)) := by ring
      _ = _ := by rw [this]
  have hc : 0 < 0.001 * m.dt / st.resistance a ^ 10 := by positivity
  have hodd : ∀ S, m.tau st (-S) a = -m.tau st S a := fun S => by simp [CpMaterial.tau, neg_mul, sum_neg_distrib]
  refine ⟨?_, ?_, ?_, fun S' h => ?_⟩
  · rw [hform]
    have : m.tau st S a * (0.001 * m.dt / st.resistance a ^ 10 * (|m.tau st S a| ^ 9 * m.tau st S a)) = 0.001 * m.dt / st.resistance a ^ 10 * (|m.tau st S a| ^ 9 * m.tau st S a ^ 2) := by ring
    rw [this]
    positivity
  · rw [hform, mul_eq_zero, mul_eq_zero, pow_eq_zero_iff (by norm_num), abs_eq_zero]
    simp [hc.ne']
  · rw [hform, hform, hodd, abs_neg]
    ring
  · rw [hform, hform]
    refine mul_lt_mul_of_pos_left ?_ hc
    generalize m.tau st S a = x at h
    generalize m.tau st S' a = y at h
    rcases le_or_gt 0 x with hx | hx
    · rw [abs_of_nonneg hx, abs_of_nonneg (by linarith : 0 ≤ y)]
      rw [← pow_succ, ← pow_succ]
      exact pow_lt_pow_left₀ h hx (by norm_num)
    · rcases le_or_gt 0 y with hy | hy
      · have h1 : |x| ^ 9 * x < 0 := mul_neg_of_pos_of_neg (pow_pos (abs_pos.mpr hx.ne) 9) hx
        have h2 : 0 ≤ |y| ^ 9 * y := by positivity
        linarith
      · rw [abs_of_neg hx, abs_of_neg hy]
        have := pow_lt_pow_left₀ (show -y < -x by linarith) (by linarith) (show 10 ≠ 0 by norm_num)
        nlinarith [this]

/-- **C113 (hardening matrix).** With the number of slip systems a multiple of three the matrix is built and all its entries are one; otherwise an index error. -/
theorem C113_q (n : ℕ) : (3 ∣ n → hardeningMatrix n = .ok fun _ _ => 1) ∧ (¬ 3 ∣ n → hardeningMatrix n = .error .index) := by
  have hstep : ∀ (i : ℕ), i < n → (i / 3 * 3 + 2 < n → (List.range 3).foldlM (fun (q : ℕ → ℕ → ℝ) j => if i / 3 * 3 + j < n then (Except.ok (fun a b => if a = i ∧ b = i / 3 * 3 + j then 1 else q a b) : Except FemErr _)
      else .error .index) (fun _ _ => 1) = .ok fun _ _ => 1) ∧
      (¬ i / 3 * 3 + 2 < n → (List.range 3).foldlM (fun (q : ℕ → ℕ → ℝ) j => if i / 3 * 3 + j < n then (Except.ok (fun a b => if a = i ∧ b = i / 3 * 3 + j then 1 else q a b) : Except FemErr _)
      else .error .index) (fun _ _ => 1) = .error .index) := by
    intro i hi
    have hr : List.range 3 = [0, 1, 2] := rfl
    rw [hr]
    simp only [List.foldlM_cons, List.foldlM_nil]
    dsimp only [bind, Except.bind, pure, Except.pure]
    constructor
    · intro h
      rw [if_pos (by omega)]
      dsimp only
      rw [if_pos (by omega)]
      dsimp only
      rw [if_pos (by omega)]
      simp
    · intro h
      rw [if_pos (by omega)]
      dsimp only
      by_cases h1 : i / 3 * 3 + 1 < n
      · rw [if_pos h1]
        dsimp only
        rw [if_neg h]
      · rw [if_neg h1]
  have hall : ∀ (l : List ℕ), (∀ i ∈ l, i < n) → ((∀ i ∈ l, i / 3 * 3 + 2 < n) → l.foldlM (fun (q : ℕ → ℕ → ℝ) i => (List.range 3).foldlM (fun q j =>
      if i / 3 * 3 + j < n then (Except.ok (fun a b => if a = i ∧ b = i / 3 * 3 + j then 1 else q a b) : Except FemErr _) else .error .index) q) (fun _ _ => 1) = .ok fun _ _ => 1) ∧
      ((∃ i ∈ l, ¬ i / 3 * 3 + 2 < n) → l.foldlM (fun (q : ℕ → ℕ → ℝ) i => (List.range 3).foldlM (fun q j =>
      if i / 3 * 3 + j < n then (Except.ok (fun a b => if a = i ∧ b = i / 3 * 3 + j then 1 else q a b) : Except FemErr _) else .error .index) q) (fun _ _ => 1) = .error .index) := by
    intro l
    induction l with
    | nil => exact fun _ => ⟨fun _ => rfl, fun ⟨i, hi, _⟩ => absurd hi (by simp)⟩
    | cons x l ih =>
      intro hl
      have hx := hstep x (hl x (by simp))
      have ihl := ih fun i hi => hl i (by simp [hi])
      rw [List.foldlM_cons]
      constructor
      · intro h
        rw [hx.1 (h x (by simp))]
        exact ihl.1 fun i hi => h i (by simp [hi])
      · rintro ⟨i, hi, hni⟩
        by_cases hxx : x / 3 * 3 + 2 < n
        · rw [hx.1 hxx]
          rcases List.mem_cons.mp hi with rfl | hi
          · exact absurd hxx hni
          · exact ihl.2 ⟨i, hi, hni⟩
        · rw [hx.2 hxx]
          rfl
  have hm : ∀ i ∈ List.range n, i < n := fun i hi => List.mem_range.mp hi
  refine ⟨fun h => (hall _ hm).1 fun i hi => ?_, fun h => (hall _ hm).2 ⟨n - 1, List.mem_range.mpr ?_, ?_⟩⟩
  · have := hm i hi
    omega
  · have : n ≠ 0 := fun h0 => h (h0 ▸ dvd_zero 3)
    omega
  · omega

/-- **C113 (hardening).** With that matrix all slip systems harden by the same amount, so equal resistances stay equal. A resistance below the saturation value does not decrease, one above does not increase, and as long as the slip of a step,
summed over all systems, is at most `t_sat / h` (about 0.2), the saturation value is not crossed. -/
theorem C113_hardening (m : CpMaterial ns) (hq : ∀ a b, m.q a b = 1) (st : CpState ns) (g : ℝ) (hg : ∀ a, st.resistance a = g) (u_grad S : M3) :
    ∃ g', (∀ a, (m.helper u_grad st S).1.resistance a = g') ∧ (g ≤ 109.8 → g ≤ g') ∧ (109.8 ≤ g → g' ≤ g) ∧
      (0 ≤ g → g ≤ 109.8 → 541.5 * ∑ a, |m.gammaInc st S a| ≤ 109.8 → g' ≤ 109.8) := by
  refine ⟨g + ∑ a, 541.5 * |m.gammaInc st S a| * |1 - g / 109.8| ^ (2.5 : ℝ) * Real.sign (1 - g / 109.8), fun a => ?_, fun h => ?_, fun h => ?_, fun h0 h h1 => ?_⟩
  · show st.resistance a + m.gInc st S a = _
    rw [hg]
    congr 1
    unfold CpMaterial.gInc
    simp only [Matrix.mulVec, dotProduct, hq, one_mul, hg]
  · rw [le_add_iff_nonneg_right]
    refine sum_nonneg fun a _ => ?_
    have : 0 ≤ 1 - g / 109.8 := by rw [sub_nonneg, div_le_one (by norm_num)]; exact h
    rcases this.eq_or_lt with h0 | h0
    · rw [← h0]; simp
    · rw [Real.sign_of_pos h0]; positivity
  · rw [add_le_iff_nonpos_right]
    refine sum_nonpos fun a _ => ?_
    have : 1 - g / 109.8 ≤ 0 := by rw [sub_nonpos, one_le_div (by norm_num)]; exact h
    rcases this.eq_or_lt with h0 | h0
    · rw [h0]; simp
    · rw [Real.sign_of_neg h0]
      have : 0 ≤ 541.5 * |m.gammaInc st S a| * |1 - g / 109.8| ^ (2.5 : ℝ) := by positivity
      linarith
  · set x := 1 - g / 109.8 with hx
    have x0 : 0 ≤ x := by rw [hx, sub_nonneg, div_le_one (by norm_num)]; exact h
    have x1 : x ≤ 1 := by
      have : 0 ≤ g / 109.8 := by positivity
      linarith
    have hp : |x| ^ (2.5 : ℝ) ≤ x := by
      rw [abs_of_nonneg x0]
      rcases x0.eq_or_lt with h0 | h0
      · rw [← h0, Real.zero_rpow (by norm_num)]
      · calc x ^ (2.5 : ℝ) ≤ x ^ (1 : ℝ) := Real.rpow_le_rpow_of_exponent_ge h0 x1 (by norm_num)
          _ = x := Real.rpow_one x
    have hs : Real.sign x ≤ 1 := by
      rcases x0.eq_or_lt with h0 | h0
      · rw [← h0]; simp
      · rw [Real.sign_of_pos h0]
    have hs0 : 0 ≤ Real.sign x := by
      rcases x0.eq_or_lt with h0 | h0
      · rw [← h0]; simp
      · rw [Real.sign_of_pos h0]; norm_num
    have hterm : ∀ a, 541.5 * |m.gammaInc st S a| * |x| ^ (2.5 : ℝ) * Real.sign x ≤ 541.5 * |m.gammaInc st S a| * x := fun a => by
      have k : 0 ≤ 541.5 * |m.gammaInc st S a| := by positivity
      calc _ ≤ 541.5 * |m.gammaInc st S a| * |x| ^ (2.5 : ℝ) * 1 := mul_le_mul_of_nonneg_left hs (by positivity)
        _ ≤ _ := by rw [mul_one]; exact mul_le_mul_of_nonneg_left hp k
    have hsum : ∑ a, 541.5 * |m.gammaInc st S a| * |x| ^ (2.5 : ℝ) * Real.sign x ≤ 109.8 * x := by
      calc _ ≤ ∑ a, 541.5 * |m.gammaInc st S a| * x := sum_le_sum fun a _ => hterm a
        _ = (541.5 * ∑ a, |m.gammaInc st S a|) * x := by rw [mul_sum, sum_mul]
        _ ≤ _ := mul_le_mul_of_nonneg_right h1 x0
    have : 109.8 * x = 109.8 - g := by rw [hx]; ring
    linarith

/-! ## C113: plastic volume -/

/-- **C113 (Schmid tensors).** A row of the file whose direction is perpendicular to its normal gives a tensor without trace and with square zero, and so does every rotation of it. -/
theorem C113_schmid (row : Fin 6 → ℝ) (h : ∑ i : Fin 3, row (Fin.natAdd 3 i) * row (Fin.castAdd 3 i) = 0) (R : M3) (hR : R * Rᵀ = 1) :
    (rotate2 R (schmidTensor row)).trace = 0 ∧ rotate2 R (schmidTensor row) * rotate2 R (schmidTensor row) = 0 := by
  have hR' : Rᵀ * R = 1 := mul_eq_one_comm.mp hR
  have hperp : ∑ i : Fin 3, unitRow (fun i => row (Fin.natAdd 3 i)) i * unitRow (fun i => row (Fin.castAdd 3 i)) i = 0 := by
    unfold unitRow
    rw [← zero_div (Real.sqrt (∑ j : Fin 3, row (Fin.natAdd 3 j) ^ 2) * Real.sqrt (∑ j : Fin 3, row (Fin.castAdd 3 j) ^ 2)), ← h, Finset.sum_div]
    exact sum_congr rfl fun i _ => by rw [div_mul_div_comm]
  have htr : (schmidTensor row).trace = 0 := hperp
  have hsq : schmidTensor row * schmidTensor row = 0 := by
    ext i k
    rw [Matrix.mul_apply, Matrix.zero_apply]
    simp only [schmidTensor, Matrix.of_apply]
    calc _ = unitRow (fun i => row (Fin.natAdd 3 i)) i * unitRow (fun i => row (Fin.castAdd 3 i)) k * ∑ j : Fin 3, unitRow (fun i => row (Fin.natAdd 3 i)) j * unitRow (fun i => row (Fin.castAdd 3 i)) j := by
          rw [mul_sum]; exact sum_congr rfl fun j _ => by ring
      _ = 0 := by rw [hperp, mul_zero]
  rw [rotate2_eq]
  refine ⟨by rw [Matrix.mul_assoc, Matrix.trace_mul_comm, Matrix.mul_assoc, hR', Matrix.mul_one, htr], ?_⟩
  calc R * schmidTensor row * Rᵀ * (R * schmidTensor row * Rᵀ) = R * (schmidTensor row * (Rᵀ * R) * schmidTensor row) * Rᵀ := by simp only [Matrix.mul_assoc]
    _ = 0 := by rw [hR', Matrix.mul_one, hsq, Matrix.mul_zero, Matrix.zero_mul]

/-- **C113 (plastic volume).** The plastic increment has no trace, but the determinant of the update is `1 - tr(L²)/2 - det L`: the plastic volume is kept to first order in the slip only. If only one system slips it is kept exactly. -/
theorem C113_volume (m : CpMaterial ns) (st : CpState ns) (hm : ∀ a, (rotate2 st.rot_mat (m.schmid a)).trace = 0 ∧ rotate2 st.rot_mat (m.schmid a) * rotate2 st.rot_mat (m.schmid a) = 0) (u_grad S : M3) :
    let L := m.plasticInc st S
    L.trace = 0 ∧ (m.helper u_grad st S).1.Fp_inv.det = st.Fp_inv.det * (1 - (L * L).trace / 2 - L.det) ∧
    ∀ a, (∀ b, b ≠ a → m.gammaInc st S b = 0) → (m.helper u_grad st S).1.Fp_inv.det = st.Fp_inv.det := by
  intro L
  have hL : L = ∑ a, m.gammaInc st S a • rotate2 st.rot_mat (m.schmid a) := by
    ext i j
    simp [L, CpMaterial.plasticInc, Matrix.sum_apply]
  have htr : L.trace = 0 := by
    rw [hL, Matrix.trace_sum]
    exact sum_eq_zero fun a _ => by rw [Matrix.trace_smul, (hm a).1, smul_zero]
  have hdet : (1 - L).det = 1 - (L * L).trace / 2 - L.det := by
    have h0 : L 0 0 + L 1 1 + L 2 2 = 0 := by rw [← htr, Matrix.trace_fin_three]
    have e : L 2 2 = -L 0 0 - L 1 1 := by linarith
    rw [Matrix.det_fin_three, Matrix.det_fin_three, Matrix.trace_fin_three]
    simp only [Matrix.mul_apply, Fin.sum_univ_three, Matrix.sub_apply, Matrix.one_apply]
    simp only [Fin.isValue, ite_true, show ((0 : Fin 3) = 1) = False by simp, show ((0 : Fin 3) = 2) = False by simp, show ((1 : Fin 3) = 0) = False by simp, show ((1 : Fin 3) = 2) = False by simp,
      show ((2 : Fin 3) = 0) = False by simp, show ((2 : Fin 3) = 1) = False by simp, ite_false]
    rw [e]
    ring
  have hup : (m.helper u_grad st S).1.Fp_inv.det = st.Fp_inv.det * (1 - (L * L).trace / 2 - L.det) := by
    show (st.Fp_inv * (1 - m.plasticInc st S)).det = _
    rw [Matrix.det_mul, hdet]
  refine ⟨htr, hup, fun a ha => ?_⟩
  have hone : L = m.gammaInc st S a • rotate2 st.rot_mat (m.schmid a) := by
    rw [hL]
    exact sum_eq_single a (fun b _ hb => by rw [ha b hb, zero_smul]) fun h => absurd (mem_univ a) h
  have hsq : L * L = 0 := by rw [hone, Matrix.smul_mul, Matrix.mul_smul, (hm a).2, smul_zero, smul_zero]
  have hd0 : L.det = 0 := by
    have : L.det * L.det = 0 := by rw [← Matrix.det_mul, hsq, Matrix.det_zero]
    exact mul_self_eq_zero.mp this
  rw [hup, hsq, hd0]
  simp

/-! ## Concrete cases -/

example : hardeningMatrix 12 = .ok (fun _ _ => 1) ∧ hardeningMatrix 4 = .error .index := ⟨(C113_q 12).1 (by norm_num), (C113_q 4).2 (by norm_num)⟩

/-- Two systems, each with direction and normal of the other exchanged; both slip by one half and a quarter of the plastic volume is lost. -/
example : let m : CpMaterial 2 := ⟨![Matrix.single 0 1 1, Matrix.single 1 0 1], fun _ _ => 1, cubicC, 500⟩
    let st : CpState 2 := ⟨1, fun _ => 1, 0, 1⟩
    let S : M3 := !![0, 1, 0; 1, 0, 0; 0, 0, 0]
    m.gammaInc st S = (fun _ => 1 / 2) ∧ (m.helper 0 st S).1.Fp_inv.det = 3 / 4 := by
  intro m st S
  have ht : ∀ a, m.tau st S a = 1 := fun a => by
    fin_cases a <;> simp [CpMaterial.tau, m, st, S, rotate2_eq, Fin.sum_univ_three, Matrix.single_apply]
  have hg : m.gammaInc st S = fun _ => 1 / 2 := by
    funext a
    simp only [CpMaterial.gammaInc, ht]
    have : st.resistance a = 1 := rfl
    rw [this, Real.sign_one]
    have : m.dt = 500 := rfl
    rw [this]
    norm_num
  refine ⟨hg, ?_⟩
  have hL : m.plasticInc st S = !![0, 1 / 2, 0; 1 / 2, 0, 0; 0, 0, 0] := by
    ext i j
    simp only [CpMaterial.plasticInc, hg, Matrix.of_apply, Fin.sum_univ_two]
    fin_cases i <;> fin_cases j <;> simp [m, st, rotate2_eq, Matrix.single_apply]
  show ((1 : M3) * (1 - m.plasticInc st S)).det = 3 / 4
  rw [hL, Matrix.one_mul, Matrix.det_fin_three]
  simp
  norm_num

end Verif.Fem
