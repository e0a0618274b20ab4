import Verif.Fem.ModelsProps
import Mathlib.Analysis.SpecialFunctions.Pow.Deriv
import Mathlib.Analysis.Matrix.Spectrum
import Mathlib.Analysis.Matrix.PosDef
import Mathlib.Algebra.Order.Star.Real

/-!
# Properties of the Neo-Hookean energy (C31)
-/
namespace Verif.Fem
open Finset
open scoped Matrix

variable {dim : ℕ}

theorem hyperMu_pos : 0 < hyperMu := by norm_num [hyperMu]
theorem hyperKappa_pos : 0 < hyperKappa := by norm_num [hyperKappa]

/-- **C31 (objectivity and isotropy).** Superposing a rotation before or after the deformation does not change the energy, in any dimension. -/
theorem C31_objective (F Q : Matrix (Fin dim) (Fin dim) ℝ) (hQ : Qᵀ * Q = 1) (hdet : Q.det = 1) : psi (Q * F) = psi F ∧ psi (F * Q) = psi F := by
  have hQ2 : Q * Qᵀ = 1 := mul_eq_one_comm.mp hQ
  constructor
  · unfold psi
    rw [Matrix.det_mul, hdet, one_mul, Matrix.transpose_mul, Matrix.mul_assoc, ← Matrix.mul_assoc Qᵀ, hQ, Matrix.one_mul]
  · unfold psi
    rw [Matrix.det_mul, hdet, mul_one, Matrix.transpose_mul, Matrix.mul_assoc, Matrix.trace_mul_comm, ← Matrix.mul_assoc, Matrix.mul_assoc, Matrix.mul_assoc, hQ2, Matrix.mul_one]

theorem amgm3 {a b c : ℝ} (ha : 0 ≤ a) (hb : 0 ≤ b) (hc : 0 ≤ c) : 27 * (a * b * c) ≤ (a + b + c) ^ 3 := by
  nlinarith [mul_nonneg ha (sq_nonneg (b - c)), mul_nonneg hb (sq_nonneg (a - c)), mul_nonneg hc (sq_nonneg (a - b)), mul_nonneg ha (sq_nonneg (a - b)), mul_nonneg ha (sq_nonneg (a - c)),
    mul_nonneg hb (sq_nonneg (b - a)), mul_nonneg hb (sq_nonneg (b - c)), mul_nonneg hc (sq_nonneg (c - a)), mul_nonneg hc (sq_nonneg (c - b))]

theorem amgm3_eq {a b c : ℝ} (ha : 0 ≤ a) (hb : 0 ≤ b) (hc : 0 ≤ c) (hs : a + b + c = 3) (hp : a * b * c = 1) : a = 1 ∧ b = 1 ∧ c = 1 := by
  have h1 : (a * b + b * c + c * a) ^ 2 ≥ 9 := by
    nlinarith [sq_nonneg (a * b - b * c), sq_nonneg (b * c - c * a), sq_nonneg (c * a - a * b)]
  have h0 : 0 ≤ a * b + b * c + c * a := by positivity
  have h2 : 3 ≤ a * b + b * c + c * a := by nlinarith
  have h3 : (a - b) ^ 2 + (b - c) ^ 2 + (c - a) ^ 2 ≤ 0 := by nlinarith
  have hab : a = b := by nlinarith [sq_nonneg (a - b), sq_nonneg (b - c), sq_nonneg (c - a)]
  have hbc : b = c := by nlinarith [sq_nonneg (a - b), sq_nonneg (b - c), sq_nonneg (c - a)]
  refine ⟨by linarith, by linarith, by linarith⟩

/-- The eigenvalues of `FᵀF` in three dimensions. -/
theorem exists_eigen (F : Matrix (Fin 3) (Fin 3) ℝ) : ∃ a b c : ℝ, 0 ≤ a ∧ 0 ≤ b ∧ 0 ≤ c ∧ (Fᵀ * F).trace = a + b + c ∧ F.det ^ 2 = a * b * c ∧ (a = 1 → b = 1 → c = 1 → Fᵀ * F = 1) := by
  have hps : (Fᵀ * F).PosSemidef := by
    have := Matrix.posSemidef_conjTranspose_mul_self F
    simpa using this
  have hh := hps.isHermitian
  refine ⟨hh.eigenvalues 0, hh.eigenvalues 1, hh.eigenvalues 2, hps.eigenvalues_nonneg 0, hps.eigenvalues_nonneg 1, hps.eigenvalues_nonneg 2, ?_, ?_, fun h0 h1 h2 => ?_⟩
  · have := hh.trace_eq_sum_eigenvalues
    simpa [Fin.sum_univ_three] using this
  · have := hh.det_eq_prod_eigenvalues
    rw [Matrix.det_mul, Matrix.det_transpose] at this
    rw [sq, this, Fin.prod_univ_three]
    rfl
  · have hs := hh.spectral_theorem
    have hd : (Matrix.diagonal (RCLike.ofReal ∘ hh.eigenvalues) : Matrix (Fin 3) (Fin 3) ℝ) = 1 := by
      rw [← Matrix.diagonal_one]
      congr 1
      funext i
      fin_cases i <;> simp [h0, h1, h2]
    rw [hd] at hs
    rw [hs]
    simp

theorem psi_split (F : Matrix (Fin 3) (Fin 3) ℝ) (hJ : 0 < F.det) : 3 ≤ F.det ^ (-2 / 3 : ℝ) * (Fᵀ * F).trace := by
  obtain ⟨a, b, c, ha, hb, hc, ht, hd, -⟩ := exists_eigen F
  set w := F.det ^ (-2 / 3 : ℝ) with hw
  have hw0 : 0 < w := Real.rpow_pos_of_pos hJ _
  have hw3 : w ^ 3 * F.det ^ 2 = 1 := by
    rw [hw, ← Real.rpow_natCast (F.det ^ (-2 / 3 : ℝ)), ← Real.rpow_mul hJ.le, ← Real.rpow_natCast F.det, ← Real.rpow_add hJ]
    norm_num
  have ham := amgm3 ha hb hc
  rw [← ht, ← hd] at ham
  have hI : 0 ≤ (Fᵀ * F).trace := by rw [ht]; positivity
  have h3 : (3 : ℝ) ^ 3 ≤ (w * (Fᵀ * F).trace) ^ 3 := by
    rw [mul_pow]
    nlinarith [pow_pos hw0 3]
  exact le_of_pow_le_pow_left₀ (by norm_num) (mul_nonneg hw0.le hI) h3

/-- **C31 (non-negative energy, zero exactly for rotations).** In three dimensions the energy of every deformation gradient with positive determinant is non-negative; it vanishes iff the deformation gradient is a rotation. -/
theorem C31_energy (F : Matrix (Fin 3) (Fin 3) ℝ) (hJ : 0 < F.det) : 0 ≤ psi F ∧ (psi F = 0 ↔ Fᵀ * F = 1) := by
  have h1 := psi_split F hJ
  have hm := hyperMu_pos
  have hk := hyperKappa_pos
  have ht1 : 0 ≤ hyperMu / 2 * (F.det ^ (-2 / 3 : ℝ) * (Fᵀ * F).trace - 3) := mul_nonneg (by linarith) (by linarith)
  have ht2 : 0 ≤ hyperKappa / 2 * (F.det - 1) ^ 2 := by positivity
  have hpsi : psi F = hyperMu / 2 * (F.det ^ (-2 / 3 : ℝ) * (Fᵀ * F).trace - 3) + hyperKappa / 2 * (F.det - 1) ^ 2 := rfl
  refine ⟨by rw [hpsi]; linarith, fun h => ?_, fun h => ?_⟩
  · rw [hpsi] at h
    have e2 : hyperKappa / 2 * (F.det - 1) ^ 2 = 0 := by linarith
    have e1 : hyperMu / 2 * (F.det ^ (-2 / 3 : ℝ) * (Fᵀ * F).trace - 3) = 0 := by linarith
    have hdet : F.det = 1 := by
      rcases mul_eq_zero.mp e2 with h' | h'
      · linarith
      · linarith [pow_eq_zero_iff (two_ne_zero) |>.mp h']
    rw [hdet, Real.one_rpow, one_mul] at e1
    have htr : (Fᵀ * F).trace = 3 := by
      rcases mul_eq_zero.mp e1 with h' | h' <;> linarith
    obtain ⟨a, b, c, ha, hb, hc, ht, hd, hone⟩ := exists_eigen F
    rw [htr] at ht
    rw [hdet, one_pow] at hd
    obtain ⟨r1, r2, r3⟩ := amgm3_eq ha hb hc ht.symm hd.symm
    exact hone r1 r2 r3
  · have hdet : F.det = 1 := by
      have := congrArg Matrix.det h
      rw [Matrix.det_mul, Matrix.det_transpose, Matrix.det_one] at this
      nlinarith
    rw [hpsi, h, hdet, Matrix.trace_one]
    norm_num

/-- The determinant along one entry is affine. -/
theorem det_line (F : Matrix (Fin dim) (Fin dim) ℝ) (i j : Fin dim) (t : ℝ) : (F + t • Matrix.single i j 1).det = F.det + t * F.adjugate j i := by
  have h : F + t • Matrix.single i j 1 = F.updateRow i (F i + t • Pi.single j 1) := by
    ext a b
    by_cases ha : a = i
    · subst ha
      simp [Matrix.updateRow_self, Matrix.single_apply, Pi.single_apply, eq_comm]
    · rw [Matrix.updateRow_ne ha, Matrix.add_apply, Matrix.smul_apply, Matrix.single_apply, if_neg (fun h => ha h.1.symm)]
      simp
  rw [h, Matrix.det_updateRow_add, Matrix.det_updateRow_smul, Matrix.updateRow_eq_self, Matrix.adjugate_apply]

theorem trace_line (F : Matrix (Fin dim) (Fin dim) ℝ) (i j : Fin dim) (t : ℝ) :
    ((F + t • Matrix.single i j 1)ᵀ * (F + t • Matrix.single i j 1)).trace = (Fᵀ * F).trace + 2 * t * F i j + t ^ 2 := by
  have hs : ∀ A : Matrix (Fin dim) (Fin dim) ℝ, (Aᵀ * A).trace = ∑ a, ∑ b, A a b ^ 2 := by
    intro A
    rw [Matrix.trace]
    simp only [Matrix.diag_apply, Matrix.mul_apply, Matrix.transpose_apply]
    rw [sum_comm]
    exact sum_congr rfl fun a _ => sum_congr rfl fun b _ => by ring
  rw [hs, hs]
  have : ∀ a b, (F + t • Matrix.single i j (1 : ℝ)) a b ^ 2 = F a b ^ 2 + (if i = a then if j = b then 2 * t * F a b + t ^ 2 else 0 else 0) := by
    intro a b
    rw [Matrix.add_apply, Matrix.smul_apply, Matrix.single_apply, smul_eq_mul]
    by_cases h1 : i = a <;> by_cases h2 : j = b <;> simp [h1, h2]
    ring
  simp only [this, sum_add_distrib]
  simp
  ring

/-- **C31 (stress).** In every dimension the first Piola stress at a deformation gradient with positive determinant is `μ J^(-2/3) (F - I₁/3 F⁻ᵀ) + κ (J - 1) J F⁻ᵀ`. -/
theorem C31_stress (F : Matrix (Fin dim) (Fin dim) ℝ) (hJ : 0 < F.det) :
    pkOf F = (hyperMu * F.det ^ (-2 / 3 : ℝ)) • (F - ((Fᵀ * F).trace / 3) • (F⁻¹)ᵀ) + (hyperKappa * (F.det - 1) * F.det) • (F⁻¹)ᵀ := by
  ext i j
  have hinv : F.adjugate j i = F.det * F⁻¹ j i := by
    rw [Matrix.inv_def, Matrix.smul_apply, Ring.inverse_eq_inv', smul_eq_mul]
    field_simp
  have hd : HasDerivAt (fun t : ℝ => F.det + t * F.adjugate j i) (F.adjugate j i) 0 := by
    simpa using ((hasDerivAt_id (0 : ℝ)).mul_const (F.adjugate j i)).const_add F.det
  have ht : HasDerivAt (fun t : ℝ => (Fᵀ * F).trace + 2 * t * F i j + t ^ 2) (2 * F i j) 0 := by
    have h1 : HasDerivAt (fun t : ℝ => 2 * t * F i j) (2 * F i j) 0 := by
      simpa using ((hasDerivAt_id (0 : ℝ)).const_mul 2).mul_const (F i j)
    have h2 : HasDerivAt (fun t : ℝ => t ^ 2) 0 0 := by simpa using hasDerivAt_pow 2 (0 : ℝ)
    simpa using (h1.const_add ((Fᵀ * F).trace)).fun_add h2
  have hne : F.det + 0 * F.adjugate j i ≠ 0 := by simpa using hJ.ne'
  have hp := hd.rpow_const (p := (-2 / 3 : ℝ)) (Or.inl hne)
  have hfull := ((((hp.mul ht).sub_const 3).const_mul (hyperMu / 2)).add (((hd.sub_const 1).pow 2).const_mul (hyperKappa / 2)))
  have hfun : (fun t : ℝ => psi (F + t • Matrix.single i j 1)) = fun t : ℝ => hyperMu / 2 * ((F.det + t * F.adjugate j i) ^ (-2 / 3 : ℝ) * ((Fᵀ * F).trace + 2 * t * F i j + t ^ 2) - 3)
      + hyperKappa / 2 * (F.det + t * F.adjugate j i - 1) ^ 2 := by
    funext t
    unfold psi
    dsimp only
    rw [det_line, trace_line]
  show deriv (fun t : ℝ => psi (F + t • Matrix.single i j 1)) 0 = _
  rw [hfun]
  refine Eq.trans (HasDerivAt.deriv hfull) ?_
  have hpow : F.det ^ ((-2 / 3 : ℝ) - 1) * F.det = F.det ^ (-2 / 3 : ℝ) := by
    rw [Real.rpow_sub_one hJ.ne']
    field_simp
  simp only [Matrix.add_apply, Matrix.smul_apply, Matrix.sub_apply, Matrix.transpose_apply, smul_eq_mul, hinv]
  simp only [zero_mul, add_zero, mul_zero]
  have e : F.det * F⁻¹ j i * (-2 / 3) * F.det ^ ((-2 / 3 : ℝ) - 1) = (-2 / 3) * F.det ^ (-2 / 3 : ℝ) * F⁻¹ j i := by rw [← hpow]; ring
  rw [e]
  norm_num
  ring

/-- **C31 (stress-free reference).** In three dimensions the stress vanishes at zero displacement gradient. -/
theorem C31_rest : firstPK (0 : Matrix (Fin 3) (Fin 3) ℝ) = 0 := by
  unfold firstPK
  rw [zero_add, C31_stress _ (by simp)]
  ext i j
  simp

/-- **C31 (the plane case is not stress-free).** The code applies the same energy in two dimensions, where the undeformed body carries the hydrostatic stress `μ/3`. -/
theorem C31_plane_rest : firstPK (0 : Matrix (Fin 2) (Fin 2) ℝ) = (hyperMu / 3) • 1 ∧ psi (1 : Matrix (Fin 2) (Fin 2) ℝ) = -(hyperMu / 2) := by
  constructor
  · unfold firstPK
    rw [zero_add, C31_stress _ (by simp)]
    ext i j
    simp only [Matrix.det_one, Real.one_rpow, Matrix.transpose_one, Matrix.mul_one, Matrix.trace_one, inv_one, Fintype.card_fin, Matrix.add_apply, Matrix.smul_apply, Matrix.sub_apply, smul_eq_mul]
    push_cast
    ring
  · unfold psi
    simp only [Matrix.det_one, Real.one_rpow, Matrix.transpose_one, Matrix.mul_one, Matrix.trace_one, Fintype.card_fin]
    push_cast
    ring

/-- **C31 (the stress rotates with the body; balance of angular momentum).** `P(QF) = Q P(F)` for every rotation and `P Fᵀ` is symmetric, in every dimension. -/
theorem C31_stress_objective (F Q : Matrix (Fin dim) (Fin dim) ℝ) (hJ : 0 < F.det) (hQ : Qᵀ * Q = 1) (hdet : Q.det = 1) :
    pkOf (Q * F) = Q * pkOf F ∧ (pkOf F * Fᵀ)ᵀ = pkOf F * Fᵀ := by
  have hQ2 : Q * Qᵀ = 1 := mul_eq_one_comm.mp hQ
  have hQi : Q⁻¹ = Qᵀ := Matrix.inv_eq_left_inv hQ
  constructor
  · have h1 : (Q * F).det = F.det := by rw [Matrix.det_mul, hdet, one_mul]
    have h2 : (Q * F)ᵀ * (Q * F) = Fᵀ * F := by rw [Matrix.transpose_mul, Matrix.mul_assoc, ← Matrix.mul_assoc Qᵀ, hQ, Matrix.one_mul]
    have h3 : ((Q * F)⁻¹)ᵀ = Q * (F⁻¹)ᵀ := by rw [Matrix.mul_inv_rev, hQi, Matrix.transpose_mul, Matrix.transpose_transpose]
    rw [C31_stress _ (by rw [h1]; exact hJ), C31_stress _ hJ, h1, h2, h3]
    simp only [Matrix.mul_add, Matrix.mul_sub, Matrix.mul_smul]
  · have hFi : (F⁻¹)ᵀ * Fᵀ = 1 := by
      rw [← Matrix.transpose_mul, Matrix.mul_nonsing_inv _ (isUnit_iff_ne_zero.mpr hJ.ne'), Matrix.transpose_one]
    rw [C31_stress _ hJ]
    simp only [Matrix.add_mul, Matrix.sub_mul, Matrix.smul_mul, hFi, Matrix.transpose_add, Matrix.transpose_sub, Matrix.transpose_smul, Matrix.transpose_one, Matrix.transpose_mul, Matrix.transpose_transpose]

theorem det3_line (F H : Matrix (Fin 3) (Fin 3) ℝ) (t : ℝ) : (F + t • H).det = F.det + t * (∑ i, ∑ j, F.adjugate j i * H i j) + t ^ 2 * (∑ i, ∑ j, H.adjugate j i * F i j) + t ^ 3 * H.det := by
  simp only [Matrix.det_fin_three, Matrix.adjugate_fin_three, Fin.sum_univ_three, Matrix.add_apply, Matrix.smul_apply, smul_eq_mul, Matrix.of_apply, Matrix.cons_val', Matrix.cons_val_zero, Matrix.cons_val_one, Matrix.cons_val]
  ring

/-- **C31 (the stress is the energy gradient).** In three dimensions the rate of the energy along every direction of deformation is the stress power, so the partial derivatives taken by `jax.grad` are the full gradient. -/
theorem C31_power (F H : Matrix (Fin 3) (Fin 3) ℝ) (hJ : 0 < F.det) : HasDerivAt (fun t : ℝ => psi (F + t • H)) (ddot (pkOf F) H) 0 := by
  set c := ∑ i, ∑ j, F.adjugate j i * H i j with hc
  have hd : HasDerivAt (fun t : ℝ => (F + t • H).det) c 0 := by
    have hfun : (fun t : ℝ => (F + t • H).det) = fun t => F.det + t * c + t ^ 2 * (∑ i, ∑ j, H.adjugate j i * F i j) + t ^ 3 * H.det := funext fun t => det3_line F H t
    rw [hfun]
    have h1 : HasDerivAt (fun t : ℝ => t * c) c 0 := by simpa using (hasDerivAt_id (0 : ℝ)).mul_const c
    have h2 := (hasDerivAt_pow 2 (0 : ℝ)).mul_const (∑ i, ∑ j, H.adjugate j i * F i j)
    have h3 := (hasDerivAt_pow 3 (0 : ℝ)).mul_const H.det
    simpa using ((h1.const_add F.det).fun_add h2).fun_add h3
  have ht : HasDerivAt (fun t : ℝ => ((F + t • H)ᵀ * (F + t • H)).trace) (2 * ddot F H) 0 := by
    have hfun : (fun t : ℝ => ((F + t • H)ᵀ * (F + t • H)).trace) = fun t => (Fᵀ * F).trace + t * (2 * ddot F H) + t ^ 2 * (Hᵀ * H).trace := by
      funext t
      simp only [Matrix.trace, Matrix.diag_apply, Matrix.mul_apply, Matrix.transpose_apply, Matrix.add_apply, Matrix.smul_apply, smul_eq_mul, ddot, Fin.sum_univ_three]
      ring
    rw [hfun]
    have h1 : HasDerivAt (fun t : ℝ => t * (2 * ddot F H)) (2 * ddot F H) 0 := by simpa using (hasDerivAt_id (0 : ℝ)).mul_const (2 * ddot F H)
    have h2 := (hasDerivAt_pow 2 (0 : ℝ)).mul_const ((Hᵀ * H).trace)
    simpa using (h1.const_add ((Fᵀ * F).trace)).fun_add h2
  have hne : (F + (0 : ℝ) • H).det ≠ 0 := by simpa using hJ.ne'
  have hp := hd.rpow_const (p := (-2 / 3 : ℝ)) (Or.inl hne)
  have hfull := ((((hp.mul ht).sub_const 3).const_mul (hyperMu / 2)).add (((hd.sub_const 1).pow 2).const_mul (hyperKappa / 2)))
  refine HasDerivAt.congr_deriv (f := fun t : ℝ => psi (F + t • H)) hfull ?_
  have hpow : F.det ^ ((-2 / 3 : ℝ) - 1) * F.det = F.det ^ (-2 / 3 : ℝ) := by
    rw [Real.rpow_sub_one hJ.ne']
    field_simp
  have hcinv : c = F.det * ddot (F⁻¹)ᵀ H := by
    rw [hc, ddot, mul_sum]
    refine sum_congr rfl fun i _ => ?_
    rw [mul_sum]
    refine sum_congr rfl fun j _ => ?_
    rw [Matrix.transpose_apply, Matrix.inv_def, Matrix.smul_apply, Ring.inverse_eq_inv', smul_eq_mul]
    field_simp
  have hlin : ∀ (x y : ℝ) (A B : Matrix (Fin 3) (Fin 3) ℝ), ddot (x • A + y • B) H = x * ddot A H + y * ddot B H := by
    intro x y A B
    simp only [ddot, Matrix.add_apply, Matrix.smul_apply, smul_eq_mul, Fin.sum_univ_three]
    ring
  have hlin2 : ∀ (x : ℝ) (A B : Matrix (Fin 3) (Fin 3) ℝ), ddot (A - x • B) H = ddot A H - x * ddot B H := by
    intro x A B
    simp only [ddot, Matrix.sub_apply, Matrix.smul_apply, smul_eq_mul, Fin.sum_univ_three]
    ring
  rw [C31_stress F hJ, hlin, hlin2, hcinv]
  simp only [zero_smul, add_zero]
  have e : F.det * ddot (F⁻¹)ᵀ H * (-2 / 3) * F.det ^ ((-2 / 3 : ℝ) - 1) = (-2 / 3) * F.det ^ (-2 / 3 : ℝ) * ddot (F⁻¹)ᵀ H := by rw [← hpow]; ring
  rw [e]
  norm_num
  ring

/-- A quarter turn about the third axis followed by a stretch: the theorems speak about a genuinely non-trivial deformation. -/
def quarter : Matrix (Fin 3) (Fin 3) ℝ := !![0, -1, 0; 1, 0, 0; 0, 0, 1]

example : quarterᵀ * quarter = 1 ∧ quarter.det = 1 := by
  constructor
  · ext i j
    fin_cases i <;> fin_cases j <;> simp [quarter, Matrix.mul_apply, Fin.sum_univ_three]
  · simp [quarter, Matrix.det_fin_three]

/-- A volume-doubling stretch of the third axis has strictly positive energy. -/
example : 0 < psi (Matrix.diagonal ![1, 1, 2] : Matrix (Fin 3) (Fin 3) ℝ) := by
  have hdet : (Matrix.diagonal ![1, 1, 2] : Matrix (Fin 3) (Fin 3) ℝ).det = 2 := by
    rw [Matrix.det_diagonal, Fin.prod_univ_three]; simp
  obtain ⟨h0, h1⟩ := C31_energy (Matrix.diagonal ![1, 1, 2]) (by rw [hdet]; norm_num)
  refine lt_of_le_of_ne h0 fun h => ?_
  have := congrFun (congrFun (h1.mp h.symm) 2) 2
  simp [Matrix.diagonal_transpose, Matrix.diagonal_mul_diagonal] at this
  norm_num at this

end Verif.Fem
