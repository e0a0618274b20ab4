import Verif.Fem.CrystalFlow

/-!
# Crystal plasticity: what the local solver returns, symmetry, frame indifference, natural states (applications/fem/crystal_plasticity/models.py 130-243)
-/
namespace Verif.Fem
open Finset Matrix

variable {ns : ℕ}

/-! ## The local solver -/

theorem cpSearch_spec (f : M3 → M3) (y y_inc res_vec : M3) :
    ∃ k ≤ 4, cpSearch f y y_inc res_vec 5 (1, res_vec) = (1 / 2 * (1 / 2) ^ k, f (y + ((1 / 2 : ℝ) ^ k) • y_inc)) ∧
      (∀ j < k, cpNorm res_vec ≤ cpNorm (f (y + ((1 / 2 : ℝ) ^ j) • y_inc))) ∧ (k < 4 → cpNorm (f (y + ((1 / 2 : ℝ) ^ k) • y_inc)) < cpNorm res_vec) := by
  have h5 : (0.5 : ℝ) = 1 / 2 := by norm_num
  have key : ∀ (n k : ℕ), (∀ j < k, cpNorm res_vec ≤ cpNorm (f (y + ((1 / 2 : ℝ) ^ j) • y_inc))) →
      ∃ k', k ≤ k' ∧ k' ≤ k + n ∧ cpSearch f y y_inc res_vec n (1 / 2 * (1 / 2) ^ k, f (y + ((1 / 2 : ℝ) ^ k) • y_inc)) = (1 / 2 * (1 / 2) ^ k', f (y + ((1 / 2 : ℝ) ^ k') • y_inc)) ∧
        (∀ j < k', cpNorm res_vec ≤ cpNorm (f (y + ((1 / 2 : ℝ) ^ j) • y_inc))) ∧ (k' < k + n → cpNorm (f (y + ((1 / 2 : ℝ) ^ k') • y_inc)) < cpNorm res_vec) := by
    intro n
    induction n with
    | zero => exact fun k hk => ⟨k, le_rfl, le_rfl, rfl, hk, fun h => absurd h (by omega)⟩
    | succ n ih =>
      intro k hk
      unfold cpSearch
      by_cases hc : cpNorm (f (y + ((1 / 2 : ℝ) ^ k) • y_inc)) ≥ cpNorm res_vec
      · rw [if_pos hc]
        have hk' : ∀ j < k + 1, cpNorm res_vec ≤ cpNorm (f (y + ((1 / 2 : ℝ) ^ j) • y_inc)) := fun j hj => by
          rcases Nat.lt_succ_iff_lt_or_eq.mp hj with hj | rfl
          · exact hk j hj
          · exact hc
        obtain ⟨k', h1, h2, h3, h4, h5'⟩ := ih (k + 1) hk'
        refine ⟨k', by omega, by omega, ?_, h4, fun h => h5' (by omega)⟩
        rw [← h3, h5, pow_succ]
        ring_nf
      · rw [if_neg hc]
        exact ⟨k, le_rfl, by omega, rfl, hk, fun _ => not_le.mp hc⟩
  unfold cpSearch
  rw [if_pos le_rfl]
  obtain ⟨k', -, h2, h3, h4, h5'⟩ := key 4 0 fun j hj => absurd hj (by omega)
  refine ⟨k', by omega, ?_, h4, fun h => h5' (by omega)⟩
  rw [← h3, h5]
  simp

/-- **C114 (line search).** Each Newton step goes from `y` to `y + 2^{-k} y_inc` and stores the residual there; `k` is the first of 0, 1, 2, 3 that decreases the norm of the residual, and 4 if none of these does. -/
theorem C114_step (f : M3 → M3) (solve : Matrix (Fin 3 × Fin 3) (Fin 3 × Fin 3) ℝ → M3 → M3) (y : M3) :
    ∃ k ≤ 4, (let y' := y + ((1 / 2 : ℝ) ^ k) • solve (cpJac f y) (-f y); cpBody f solve (f y, y) = (f y', y')) ∧
      (∀ j < k, cpNorm (f y) ≤ cpNorm (f (y + ((1 / 2 : ℝ) ^ j) • solve (cpJac f y) (-f y)))) ∧
      (k < 4 → cpNorm (f (y + ((1 / 2 : ℝ) ^ k) • solve (cpJac f y) (-f y))) < cpNorm (f y)) := by
  obtain ⟨k, hk, h1, h2, h3⟩ := cpSearch_spec f y (solve (cpJac f y) (-f y)) (f y)
  refine ⟨k, hk, ?_, h2, h3⟩
  unfold cpBody
  simp only [h1]
  rw [show (2 : ℝ) * (1 / 2 * (1 / 2) ^ k) = (1 / 2) ^ k by ring]

/-- **C114 (solver).** Whatever `np.linalg.solve` returns: if the loop ends, the residual at the returned stress is at most `1e-8`. -/
theorem C114_solver (f : M3 → M3) (solve : Matrix (Fin 3 × Fin 3) (Fin 3 × Fin 3) ℝ → M3 → M3) (fuel : ℕ) (S : M3) (h : cpNewton f solve fuel = some S) : cpNorm (f S) ≤ 1e-8 := by
  have key : ∀ (fuel : ℕ) (y : M3), cpLoop f solve fuel (f y, y) = some S → cpNorm (f S) ≤ 1e-8 := by
    intro fuel
    induction fuel with
    | zero =>
      intro y h
      unfold cpLoop at h
      split_ifs at h with hc
      obtain rfl : y = S := by simpa using h
      exact not_lt.mp hc
    | succ n ih =>
      intro y h
      unfold cpLoop at h
      split_ifs at h with hc
      · obtain ⟨k, -, hb, -⟩ := C114_step f solve y
        simp only at hb
        rw [hb] at h
        exact ih _ h
      · obtain rfl : y = S := by simpa using h
        exact not_lt.mp hc
  exact key fuel 0 h

theorem entry_le_cpNorm (A : M3) (i j : Fin 3) : |A i j| ≤ cpNorm A := by
  unfold cpNorm
  rw [← Real.sqrt_sq_eq_abs]
  refine Real.sqrt_le_sqrt ?_
  exact (single_le_sum (f := fun j => A i j ^ 2) (fun j _ => sq_nonneg _) (mem_univ j)).trans
    (single_le_sum (f := fun i => ∑ j, A i j ^ 2) (fun i _ => sum_nonneg fun j _ => sq_nonneg _) (mem_univ i))

theorem cpNorm_zero : cpNorm 0 = 0 := by simp [cpNorm]

/-! ## Stress -/

theorem residual_eq (m : CpMaterial ns) (u_grad : M3) (st : CpState ns) (S : M3) :
    m.residual u_grad st S = S - (rotate4 st.rot_mat m.C).app ((1 / 2 : ℝ) • (((m.helper u_grad st S).2.1)ᵀ * (m.helper u_grad st S).2.1 - 1)) := by
  unfold CpMaterial.residual T4.app
  simp only
  congr 1
  ext i k
  simp only [Matrix.of_apply, Matrix.smul_apply, smul_eq_mul]
  exact sum_congr rfl fun p _ => sum_congr rfl fun o _ => by ring

/-- **C114 (elastic law, symmetry).** The returned stress is, to `1e-8`, the elastic tensor in the orientation of the crystal applied to the elastic Green strain; hence it is symmetric to `2e-8`. -/
theorem C114_law (m : CpMaterial ns) (hC : m.C.Elastic) (solve : Matrix (Fin 3 × Fin 3) (Fin 3 × Fin 3) ℝ → M3 → M3) (fuel : ℕ) (u_grad : M3) (st : CpState ns) (S : M3)
    (h : cpNewton (m.residual u_grad st) solve fuel = some S) :
    let Fe := (u_grad + 1) * (st.Fp_inv * (1 - m.plasticInc st S))
    ∀ i j, |S i j - (rotate4 st.rot_mat m.C).app ((1 / 2 : ℝ) • (Feᵀ * Fe - 1)) i j| ≤ 1e-8 ∧ |S i j - S j i| ≤ 2e-8 := by
  intro Fe i j
  have hn := C114_solver _ solve fuel S h
  rw [residual_eq] at hn
  have e : (m.helper u_grad st S).2.1 = Fe := rfl
  rw [e] at hn
  have h1 := (entry_le_cpNorm _ i j).trans hn
  have h2 := (entry_le_cpNorm _ j i).trans hn
  rw [Matrix.sub_apply] at h1 h2
  have hsym : (rotate4 st.rot_mat m.C).app ((1 / 2 : ℝ) • (Feᵀ * Fe - 1)) i j = (rotate4 st.rot_mat m.C).app ((1 / 2 : ℝ) • (Feᵀ * Fe - 1)) j i := by
    unfold T4.app
    simp only [Matrix.of_apply]
    exact sum_congr rfl fun p _ => sum_congr rfl fun o _ => by rw [(rotate4_elastic st.rot_mat m.C hC).left]
  refine ⟨h1, ?_⟩
  rw [hsym] at h1
  rw [abs_le] at h1 h2 ⊢
  constructor <;> linarith [h1.1, h1.2, h2.1, h2.2]

/-- `P_to_sigma` (models.py 280-281). -/
noncomputable def pToSigma (P F : M3) : M3 := (1 / F.det) • P * Fᵀ

/-- **C114 (Cauchy stress).** The stress handed to the weak form is the first Piola-Kirchhoff stress of the Cauchy stress `Fe S Feᵀ / det Fe`, and the post-processing gets that one back. -/
theorem C114_cauchy (m : CpMaterial ns) (solve : Matrix (Fin 3 × Fin 3) (Fin 3 × Fin 3) ℝ → M3 → M3) (fuel : ℕ) (u_grad : M3) (st : CpState ns) (P : M3) (hF : (u_grad + 1).det ≠ 0)
    (h : m.firstPK solve fuel u_grad st = some P) :
    ∃ S, cpNewton (m.residual u_grad st) solve fuel = some S ∧
      (let Fe := (u_grad + 1) * (st.Fp_inv * (1 - m.plasticInc st S)); pToSigma P (u_grad + 1) = (1 / Fe.det) • (Fe * S * Feᵀ)) := by
  unfold CpMaterial.firstPK at h
  obtain ⟨S, hS, hP⟩ := Option.map_eq_some_iff.mp h
  refine ⟨S, hS, ?_⟩
  intro Fe
  have e1 : (m.helper u_grad st S).2.1 = Fe := rfl
  have e2 : (m.helper u_grad st S).2.2 = u_grad + 1 := rfl
  simp only [e1, e2] at hP
  rw [← hP]
  unfold pToSigma
  have hinv : ((u_grad + 1)⁻¹)ᵀ * (u_grad + 1)ᵀ = 1 := by
    rw [← Matrix.transpose_mul, Matrix.mul_nonsing_inv _ (isUnit_iff_ne_zero.mpr hF), Matrix.transpose_one]
  simp only [Matrix.smul_mul, smul_smul, Matrix.mul_assoc, hinv, Matrix.mul_one]
  congr 1
  field_simp

/-! ## Invariance -/

/-- **C114 (frame indifference).** A rotation `Q` superposed on the deformation turns the stress, `P ↦ Q P`, and changes neither the run of the local solver nor the new internal variables. -/
theorem C114_frame (m : CpMaterial ns) (solve : Matrix (Fin 3 × Fin 3) (Fin 3 × Fin 3) ℝ → M3 → M3) (fuel : ℕ) (u_grad u_grad' Q : M3) (hQ : IsRotation Q) (hF : u_grad' + 1 = Q * (u_grad + 1)) (st : CpState ns) :
    m.residual u_grad' st = m.residual u_grad st ∧ m.update solve fuel u_grad' st = m.update solve fuel u_grad st ∧ m.firstPK solve fuel u_grad' st = (m.firstPK solve fuel u_grad st).map (Q * ·) := by
  have hQ' : Qᵀ * Q = 1 := mul_eq_one_comm.mp hQ.1
  have hFe : ∀ S, (m.helper u_grad' st S).2.1 = Q * (m.helper u_grad st S).2.1 := fun S => by
    show (u_grad' + 1) * _ = Q * ((u_grad + 1) * _)
    rw [hF, Matrix.mul_assoc]
  have hres : m.residual u_grad' st = m.residual u_grad st := by
    funext S
    rw [residual_eq, residual_eq, hFe, Matrix.transpose_mul]
    congr 4
    rw [Matrix.mul_assoc, ← Matrix.mul_assoc Qᵀ, hQ', Matrix.one_mul]
  refine ⟨hres, ?_, ?_⟩
  · unfold CpMaterial.update
    rw [hres]
    rfl
  · unfold CpMaterial.firstPK
    rw [hres, Option.map_map]
    congr 1
    funext S
    have hF' : (m.helper u_grad' st S).2.2 = Q * (m.helper u_grad st S).2.2 := hF
    simp only [Function.comp, hFe, hF']
    set Fe := (m.helper u_grad st S).2.1
    set F := (m.helper u_grad st S).2.2
    have hinv : ((Q * F)⁻¹)ᵀ = Q * (F⁻¹)ᵀ := by
      rw [Matrix.mul_inv_rev, Matrix.transpose_mul, Matrix.inv_eq_left_inv hQ', Matrix.transpose_transpose]
    rw [hinv, Matrix.det_mul, Matrix.det_mul, hQ.2, one_mul, one_mul, Matrix.transpose_mul]
    simp only [Matrix.smul_mul, Matrix.mul_smul, Matrix.mul_assoc]
    rw [← Matrix.mul_assoc Qᵀ, hQ', Matrix.one_mul]

/-- **C114 (rotated crystal).** If crystal, plastic deformation and displacement gradient are turned together, the residual is turned: a stress solves the local equations iff the turned stress solves the turned ones, with the same slips. -/
theorem C114_covariance (m : CpMaterial ns) (u_grad Q : M3) (hQ : IsRotation Q) (st : CpState ns) (S : M3) :
    let st' : CpState ns := ⟨Q * st.Fp_inv * Qᵀ, st.resistance, st.slip, Q * st.rot_mat⟩
    m.gammaInc st' (Q * S * Qᵀ) = m.gammaInc st S ∧ m.residual (Q * u_grad * Qᵀ) st' (Q * S * Qᵀ) = Q * m.residual u_grad st S * Qᵀ := by
  intro st'
  have hQ' : Qᵀ * Q = 1 := mul_eq_one_comm.mp hQ.1
  have hrot : ∀ T, rotate2 (Q * st.rot_mat) T = Q * rotate2 st.rot_mat T * Qᵀ := fun T => by
    rw [rotate2_eq, rotate2_eq, Matrix.transpose_mul]
    simp only [Matrix.mul_assoc]
  have hd : ∀ A B : M3, ∑ i, ∑ j, A i j * B i j = (A * Bᵀ).trace := fun A B => by
    simp only [Matrix.trace, Matrix.diag_apply, Matrix.mul_apply, Matrix.transpose_apply]
  have htau : ∀ a, m.tau st' (Q * S * Qᵀ) a = m.tau st S a := fun a => by
    unfold CpMaterial.tau
    rw [hd, hd, hrot]
    simp only [Matrix.transpose_mul, Matrix.transpose_transpose]
    rw [show Q * S * Qᵀ * (Q * ((rotate2 st.rot_mat (m.schmid a))ᵀ * Qᵀ)) = Q * (S * (Qᵀ * Q) * (rotate2 st.rot_mat (m.schmid a))ᵀ * Qᵀ) by simp only [Matrix.mul_assoc], hQ', Matrix.mul_one,
      Matrix.trace_mul_comm, Matrix.mul_assoc, hQ', Matrix.mul_one]
  have hg : m.gammaInc st' (Q * S * Qᵀ) = m.gammaInc st S := by
    funext a
    unfold CpMaterial.gammaInc
    simp only [htau]
    rfl
  refine ⟨hg, ?_⟩
  have hL : m.plasticInc st' (Q * S * Qᵀ) = Q * m.plasticInc st S * Qᵀ := by
    have e : ∀ st S, m.plasticInc st S = ∑ a, m.gammaInc st S a • rotate2 st.rot_mat (m.schmid a) := fun st S => by
      ext i j
      simp [CpMaterial.plasticInc, Matrix.sum_apply]
    rw [e, e, Matrix.mul_sum, Matrix.sum_mul]
    refine sum_congr rfl fun a _ => ?_
    rw [hg, hrot, Matrix.mul_smul, Matrix.smul_mul]
  have hFe : (m.helper (Q * u_grad * Qᵀ) st' (Q * S * Qᵀ)).2.1 = Q * (m.helper u_grad st S).2.1 * Qᵀ := by
    show (Q * u_grad * Qᵀ + 1) * (Q * st.Fp_inv * Qᵀ * (1 - m.plasticInc st' (Q * S * Qᵀ))) = Q * ((u_grad + 1) * (st.Fp_inv * (1 - m.plasticInc st S))) * Qᵀ
    rw [hL]
    have e1 : Q * u_grad * Qᵀ + 1 = Q * (u_grad + 1) * Qᵀ := by rw [Matrix.mul_add, Matrix.add_mul, Matrix.mul_one, hQ.1]
    have e2 : 1 - Q * m.plasticInc st S * Qᵀ = Q * (1 - m.plasticInc st S) * Qᵀ := by rw [Matrix.mul_sub, Matrix.sub_mul, Matrix.mul_one, hQ.1]
    rw [e1, e2]
    calc _ = Q * (u_grad + 1) * (Qᵀ * Q) * st.Fp_inv * (Qᵀ * Q) * (1 - m.plasticInc st S) * Qᵀ := by simp only [Matrix.mul_assoc]
      _ = _ := by rw [hQ']; simp only [Matrix.mul_one, Matrix.mul_assoc]
  rw [residual_eq, residual_eq, hFe]
  set Fe := (m.helper u_grad st S).2.1
  have hE : (Q * Fe * Qᵀ)ᵀ * (Q * Fe * Qᵀ) - 1 = Q * (Feᵀ * Fe - 1) * Qᵀ := by
    rw [Matrix.mul_sub, Matrix.sub_mul, Matrix.mul_one, hQ.1]
    congr 1
    simp only [Matrix.transpose_mul, Matrix.transpose_transpose]
    calc _ = Q * Feᵀ * (Qᵀ * Q) * Fe * Qᵀ := by simp only [Matrix.mul_assoc]
      _ = _ := by rw [hQ']; simp only [Matrix.mul_one, Matrix.mul_assoc]
  rw [hE, (C112_rotate _ 0 m.C _).2, (C112_rotate _ 0 m.C _).2]
  show Q * S * Qᵀ - Q * st.rot_mat * m.C.app ((Q * st.rot_mat)ᵀ * (1 / 2 : ℝ) • (Q * (Feᵀ * Fe - 1) * Qᵀ) * (Q * st.rot_mat)) * (Q * st.rot_mat)ᵀ = _
  have hA : (Q * st.rot_mat)ᵀ * (1 / 2 : ℝ) • (Q * (Feᵀ * Fe - 1) * Qᵀ) * (Q * st.rot_mat) = st.rot_matᵀ * (1 / 2 : ℝ) • (Feᵀ * Fe - 1) * st.rot_mat := by
    rw [Matrix.transpose_mul]
    simp only [Matrix.mul_smul, Matrix.smul_mul]
    congr 1
    calc _ = st.rot_matᵀ * (Qᵀ * Q) * (Feᵀ * Fe - 1) * (Qᵀ * Q) * st.rot_mat := by simp only [Matrix.mul_assoc]
      _ = _ := by rw [hQ']; simp only [Matrix.mul_one, Matrix.mul_assoc]
  rw [hA, Matrix.transpose_mul, Matrix.mul_sub, Matrix.sub_mul]
  simp only [Matrix.mul_assoc]

/-! ## Natural states -/

theorem gammaInc_zero (m : CpMaterial ns) (st : CpState ns) : m.gammaInc st 0 = 0 := by
  funext a
  have : m.tau st 0 a = 0 := by simp [CpMaterial.tau]
  unfold CpMaterial.gammaInc
  simp [this]

/-- **C114 (natural state).** If the elastic part `F Fp⁻¹` of the deformation is orthogonal — no deformation at the start, or exactly the plastic deformation later — the solver returns at once, the stress is zero and no internal variable changes. -/
theorem C114_natural (m : CpMaterial ns) (solve : Matrix (Fin 3 × Fin 3) (Fin 3 × Fin 3) ℝ → M3 → M3) (fuel : ℕ) (u_grad : M3) (st : CpState ns)
    (h : ((u_grad + 1) * st.Fp_inv)ᵀ * ((u_grad + 1) * st.Fp_inv) = 1) : m.firstPK solve fuel u_grad st = some 0 ∧ m.update solve fuel u_grad st = some st := by
  have hL : m.plasticInc st 0 = 0 := by
    ext i j
    simp [CpMaterial.plasticInc, gammaInc_zero]
  have hFp : st.Fp_inv * (1 - m.plasticInc st 0) = st.Fp_inv := by rw [hL, sub_zero, Matrix.mul_one]
  have hFe : (m.helper u_grad st 0).2.1 = (u_grad + 1) * st.Fp_inv := by
    show (u_grad + 1) * (st.Fp_inv * (1 - m.plasticInc st 0)) = _
    rw [hFp]
  have hres : m.residual u_grad st 0 = 0 := by
    rw [residual_eq, hFe, h, sub_self, smul_zero]
    ext i k
    simp [T4.app]
  have hn : cpNewton (m.residual u_grad st) solve fuel = some 0 := by
    unfold cpNewton
    rw [hres]
    have : ¬ cpNorm (0 : M3) > 1e-8 := by rw [cpNorm_zero]; norm_num
    cases fuel <;> unfold cpLoop <;> rw [if_neg this]
  constructor
  · unfold CpMaterial.firstPK
    rw [hn]
    simp
  · unfold CpMaterial.update
    rw [hn]
    have hgi : m.gInc st 0 = 0 := by
      unfold CpMaterial.gInc
      simp only [gammaInc_zero]
      funext a
      simp [Matrix.mulVec, dotProduct]
    show some (⟨st.Fp_inv * (1 - m.plasticInc st 0), st.resistance + m.gInc st 0, st.slip + m.gammaInc st 0, st.rot_mat⟩ : CpState ns) = some st
    rw [hFp, hgi, gammaInc_zero, add_zero, add_zero]

/-! ## Concrete cases -/

/-- No deformation, no stress; and after a rigid turn by a rational angle neither. -/
example (m : CpMaterial ns) (solve : Matrix (Fin 3 × Fin 3) (Fin 3 × Fin 3) ℝ → M3 → M3) (R : M3) :
    m.firstPK solve 1 0 ⟨1, fun _ => 60.8, 0, R⟩ = some 0 ∧ m.firstPK solve 1 (getRotMat ![3 / 5, 0, 0, 4 / 5] - 1) ⟨1, fun _ => 60.8, 0, R⟩ = some 0 := by
  have hQ : IsRotation (getRotMat ![3 / 5, 0, 0, 4 / 5]) := (C112_rotation _).2.2.2.1 (by simp [Fin.sum_univ_succ]; norm_num)
  refine ⟨(C114_natural m solve 1 0 _ (by simp)).1, (C114_natural m solve 1 _ _ ?_).1⟩
  simpa using mul_eq_one_comm.mp hQ.1

end Verif.Fem
