import Verif.Fem.Forming

/-!
# C135, continued: uniqueness of the return, whole load paths, change of frame, symmetric stress
-/
namespace Verif.Forming
open Finset Matrix

/-- The norms in the flow rule: the trial shear stress has the length of the final one plus the plastic part. -/
theorem Flow.length {b be : T3} {a alpha m : ℝ} (ha : 0 ≤ a) (hb : 0 < b.trace) (h : Flow b a be alpha m) :
    ((80000 : ℝ) • deviatoric be = (80000 : ℝ) • deviatoric b ∧ m = 0) ∨
      (0 < m ∧ fnorm ((80000 : ℝ) • deviatoric be) = radius alpha ∧ fnorm ((80000 : ℝ) • deviatoric b) = radius a + 2 / 3 * 18 * m + 2 * (b.trace / 3 * 80000) * m
        ∧ radius alpha = radius a + 2 / 3 * 18 * m
        ∧ (80000 : ℝ) • deviatoric be = (radius alpha / (radius alpha + 2 * (b.trace / 3 * 80000) * m)) • (80000 : ℝ) • deviatoric b) := by
  obtain ⟨hm, -, hal, ⟨N, hN, hs⟩, hy, hc⟩ := h
  rcases hm.eq_or_lt with rfl | hm
  · exact .inl ⟨by simpa using hs, rfl⟩
  · right
    have he : fnorm ((80000 : ℝ) • deviatoric be) = radius alpha := by
      rcases mul_eq_zero.mp hc with h0 | h0
      · exact absurd h0 hm.ne'
      · linarith
    have halpha : 0 ≤ alpha := by rw [hal]; have := mul_pos sqrt23_pos hm; linarith
    have hr := radius_pos halpha
    have hrr : radius alpha = radius a + 2 / 3 * 18 * m := by
      have hw := sqrt23_sq
      rw [hal, radius, radius]
      generalize Real.sqrt (2 / 3) = w at *
      linear_combination 18 * m * hw
    have hG : 0 < 2 * (b.trace / 3 * 80000) * m := by positivity
    rw [he] at hN
    generalize 2 * (b.trace / 3 * 80000) * m = k at *
    generalize (80000 : ℝ) • deviatoric be = s at *
    generalize (80000 : ℝ) • deviatoric b = sb at *
    have hNs : N = (radius alpha)⁻¹ • s := by rw [← hN, smul_smul, inv_mul_cancel₀ hr.ne', one_smul]
    have hsb : sb = ((radius alpha + k) / radius alpha) • s := by
      rw [add_div, add_smul, div_self hr.ne', one_smul, div_eq_mul_inv, ← smul_smul, ← hNs]
      exact (sub_eq_iff_eq_add.mp hs.symm)
    refine ⟨hm, he, ?_, hrr, ?_⟩
    · rw [hsb, fnorm_smul, he, abs_of_pos (by positivity), div_mul_cancel₀ _ hr.ne', hrr]
    · rw [hsb, smul_smul]
      have : radius alpha / (radius alpha + k) * ((radius alpha + k) / radius alpha) = 1 := by
        have : radius alpha + k ≠ 0 := by positivity
        field_simp
      rw [this, one_smul]

/-- **C135 (the step is determined).** The implicit equations of plastic flow have at most one solution; with `C135_flow` the program returns that solution. -/
theorem C135_unique {b be be' : T3} {a alpha alpha' m m' : ℝ} (ha : 0 ≤ a) (hb : 0 < b.trace) (h : Flow b a be alpha m) (h' : Flow b a be' alpha' m') : be = be' ∧ alpha = alpha' ∧ m = m' := by
  have key : (80000 : ℝ) • deviatoric be = (80000 : ℝ) • deviatoric be' ∧ m = m' := by
    have hG : 0 < b.trace / 3 * 80000 := by positivity
    rcases h.length ha hb with ⟨h1, h2⟩ | ⟨hm, h1, h2, h3, h4⟩ <;> rcases h'.length ha hb with ⟨h1', h2'⟩ | ⟨hm', h1', h2', h3', h4'⟩
    · exact ⟨h1.trans h1'.symm, h2.trans h2'.symm⟩
    · exfalso
      have hy := h.2.2.2.2.1
      have hal := h.2.2.1
      rw [h1, h2', hal, h2, mul_zero, add_zero] at hy
      nlinarith [mul_pos hG hm']
    · exfalso
      have hy := h'.2.2.2.2.1
      have hal := h'.2.2.1
      rw [h1', h2, hal, h2', mul_zero, add_zero] at hy
      nlinarith [mul_pos hG hm]
    · have hmm : m = m' := by
        rw [h2] at h2'
        have : (m - m') * (12 + 2 * (b.trace / 3 * 80000)) = 0 := by linarith
        rcases mul_eq_zero.mp this with h0 | h0
        · linarith
        · linarith
      subst hmm
      exact ⟨by rw [h4, h4', h3, h3'], rfl⟩
  obtain ⟨k1, rfl⟩ := key
  refine ⟨?_, h.2.2.1.trans h'.2.2.1.symm, rfl⟩
  have hd : deviatoric be = deviatoric be' := by
    have := congrArg (fun X : T3 => (80000 : ℝ)⁻¹ • X) k1
    simpa [smul_smul] using this
  rw [← split be, ← split be', hd, h.2.1, h'.2.1]

/-- The elastic strain at the end of a step is a mixture of the trial strain and its spherical part. -/
theorem update_spd {p : Pt} (hp : Admissible p) (g : T3) (hg : (g + 1).det ≠ 0) : Spd (update p g).be := by
  have hb := trial_spd hp g hg
  obtain ⟨t, m, ht, ht1, -, h1, -⟩ := returnMap_form p g hp.alpha hb.trace_pos
  have : (update p g).be = t • trial p g + ((1 - t) * ((trial p g).trace / 3)) • 1 := by
    rw [show (update p g).be = (returnMap p g).1 from rfl, h1]
    conv_rhs => rw [← split (trial p g)]
    rw [smul_add, smul_smul, add_assoc, ← add_smul, split]
    congr 2
    ring
  rw [this]
  exact hb.mix ht (mul_nonneg (by linarith) (by have := hb.trace_pos; positivity))

theorem update_alpha {p : Pt} (hp : Admissible p) (g : T3) (hg : (g + 1).det ≠ 0) : p.alpha ≤ (update p g).alpha := by
  obtain ⟨m, hm, -, h, -⟩ := C135_flow hp g hg
  rw [h]
  have := mul_nonneg sqrt23_pos.le hm
  linarith

/-- **C135 (a step keeps admissible states).** -/
theorem C135_step {p : Pt} (hp : Admissible p) (g : T3) (hg : (g + 1).det ≠ 0) : Admissible (update p g) ∧ p.alpha ≤ (update p g).alpha := by
  refine ⟨⟨hg, update_spd hp g hg, hp.alpha.trans (update_alpha hp g hg), ?_⟩, update_alpha hp g hg⟩
  obtain ⟨m, -, -, -, -, h, -⟩ := C135_flow hp g hg
  rwa [fnorm_smul, abs_of_pos (by norm_num)] at h

theorem Admissible.init : Admissible Pt.init where
  det := by simp [Pt.init]
  spd := Spd.one
  alpha := le_rfl
  yield := by
    have : deviatoric (1 : T3) = 0 := by simpa using deviatoric_scalar 1
    rw [show Pt.init.be = 1 from rfl, this, fnorm_zero_iff.mpr rfl, mul_zero]
    exact (radius_pos le_rfl).le

theorem foldl_admissible (gs : List T3) : ∀ p, Admissible p → (∀ g ∈ gs, (g + 1).det ≠ 0) → Admissible (gs.foldl update p) ∧ p.alpha ≤ (gs.foldl update p).alpha := by
  induction gs with
  | nil => exact fun p hp _ => ⟨hp, le_rfl⟩
  | cons g gs ih =>
    intro p hp h
    have hs := C135_step hp g (h g (List.mem_cons_self ..))
    have := ih (update p g) hs.1 fun g' hg' => h g' (List.mem_cons_of_mem _ hg')
    exact ⟨this.1, hs.2.trans this.2⟩

/-- **C135 (every load path).** After every sequence of load steps with invertible deformations the elastic strain is symmetric and positive definite and the shear stress is inside the von Mises cylinder; the equivalent plastic strain never decreases along the path. -/
theorem C135_path (gs hs : List T3) (h : ∀ g ∈ gs ++ hs, (g + 1).det ≠ 0) : Admissible (run gs) ∧ Admissible (run (gs ++ hs)) ∧ (run gs).alpha ≤ (run (gs ++ hs)).alpha := by
  have h1 := foldl_admissible gs Pt.init Admissible.init fun g hg => h g (List.mem_append_left _ hg)
  have h2 := foldl_admissible hs (run gs) h1.1 fun g hg => h g (List.mem_append_right _ hg)
  refine ⟨h1.1, ?_⟩
  rw [run, List.foldl_append]
  exact h2

/-! ## Stress -/

theorem returnMap_tau (p : Pt) (g : T3) : (returnMap p g).2.2 = getTau (g + 1) (returnMap p g).1 := by
  rw [returnMap]
  split_ifs <;> rfl

theorem inv_transpose_mul {F : T3} (h : F.det ≠ 0) : (F⁻¹)ᵀ * Fᵀ = 1 := by
  rw [← transpose_mul, Matrix.mul_nonsing_inv _ (isUnit_iff_ne_zero.mpr h), transpose_one]

/-- **C135 (stresses).** The first Piola stress which the solver uses and the Cauchy stress which is written out belong together: `P Fᵀ = J σ`, the Cauchy stress is symmetric, its pressure part is `82000 (J² - 1) / J` and its shear part lies in the von Mises cylinder scaled by `1 / J`. -/
theorem C135_stress {p : Pt} (hp : Admissible p) (g : T3) (hg : 0 < (g + 1).det) :
    firstPK p g * (g + 1)ᵀ = (g + 1).det • cauchy p g ∧ (cauchy p g)ᵀ = cauchy p g ∧ (cauchy p g).trace / 3 = 82000 * ((g + 1).det ^ 2 - 1) / (g + 1).det
      ∧ (g + 1).det * fnorm (deviatoric (cauchy p g)) ≤ radius (update p g).alpha := by
  have hspd := update_spd hp g hg.ne'
  have hadm := (C135_step hp g hg.ne').1
  have hP : firstPK p g * (g + 1)ᵀ = getTau (g + 1) (update p g).be := by
    rw [firstPK, Matrix.mul_assoc, inv_transpose_mul hg.ne', Matrix.mul_one, returnMap_tau]
    rfl
  have hc : cauchy p g = (1 / (g + 1).det) • getTau (g + 1) (update p g).be := by rw [cauchy, Matrix.smul_mul, hP]
  have hsym : (getTau (g + 1) (update p g).be)ᵀ = getTau (g + 1) (update p g).be := by
    rw [getTau, deviatoric, transpose_add, transpose_smul, transpose_smul, transpose_sub, transpose_smul, transpose_one, hspd.symm]
  refine ⟨?_, ?_, ?_, ?_⟩
  · rw [hP, hc, smul_smul, mul_one_div_cancel hg.ne', one_smul]
  · rw [hc, transpose_smul, hsym]
  · rw [hc, Matrix.trace_smul, getTau, Matrix.trace_add, Matrix.trace_smul, Matrix.trace_smul, trace_deviatoric, trace_one3, bulkK]
    simp only [smul_eq_mul]
    field_simp
    ring
  · have hd : deviatoric (getTau (g + 1) (update p g).be) = (80000 : ℝ) • deviatoric (update p g).be := by
      rw [getTau, deviatoric_add, deviatoric_scalar, zero_add, shearG]
      have := dev_form 80000 0 (update p g).be
      rwa [zero_smul, add_zero] at this
    rw [hc, deviatoric_smul, fnorm_smul, hd, abs_of_pos (by positivity), ← mul_assoc, mul_one_div_cancel hg.ne', one_mul, fnorm_smul, abs_of_pos (by norm_num)]
    exact hadm.yield

/-! ## Repeating a step -/

theorem trial_self (p : Pt) (g : T3) (hF : p.F = g + 1) (hg : (g + 1).det ≠ 0) : trial p g = p.be := by
  rw [trial, hF, Matrix.mul_nonsing_inv _ (isUnit_iff_ne_zero.mpr hg), transpose_one, Matrix.one_mul, Matrix.mul_one]

theorem returnMap_self {p : Pt} (hp : Admissible p) (g : T3) (hF : p.F = g + 1) : returnMap p g = (p.be, p.alpha, getTau (g + 1) p.be) := by
  have hg : (g + 1).det ≠ 0 := hF ▸ hp.det
  have ht := trial_self p g hF hg
  have hb : 0 < p.be.trace := hp.spd.trace_pos
  obtain ⟨m, hflow⟩ := C135_flow hp g hg
  rw [ht] at hflow
  have hy := hp.yield
  have h0 : Flow p.be p.alpha p.be p.alpha 0 := by
    refine ⟨le_rfl, rfl, by ring, ⟨(fnorm ((80000 : ℝ) • deviatoric p.be))⁻¹ • (80000 : ℝ) • deviatoric p.be, ?_, by simp⟩, ?_, by ring⟩
    · by_cases hn : fnorm ((80000 : ℝ) • deviatoric p.be) = 0
      · rw [fnorm_zero_iff.mp hn]
        simp
      · rw [smul_smul, mul_inv_cancel₀ hn, one_smul]
    · rwa [fnorm_smul, abs_of_pos (by norm_num)]
  obtain ⟨h1, h2, -⟩ := C135_unique hp.alpha hb hflow h0
  have h1' : (returnMap p g).1 = p.be := h1
  have h2' : (returnMap p g).2.1 = p.alpha := h2
  ext1
  · exact h1'
  · ext1
    · exact h2'
    · rw [returnMap_tau, h1']

/-- **C135 (repeating a step changes nothing).** Updating the internal variables twice with the same displacement gives the same as once, and the stresses computed with the old internal variables (as in line 193) and with the updated ones agree. -/
theorem C135_repeat {p : Pt} (hp : Admissible p) (g : T3) (hg : (g + 1).det ≠ 0) :
    update (update p g) g = update p g ∧ firstPK (update p g) g = firstPK p g ∧ cauchy (update p g) g = cauchy p g := by
  have h := returnMap_self (C135_step hp g hg).1 g rfl
  have hP : firstPK (update p g) g = firstPK p g := by
    rw [firstPK, firstPK, h, returnMap_tau p g]
    rfl
  refine ⟨?_, hP, ?_⟩
  · conv_lhs => rw [update, h]
    rfl
  · rw [cauchy, cauchy, hP]

/-! ## Change of frame -/

theorem Orth.mul_transpose {Q : T3} (h : Orth Q) : Q * Qᵀ = 1 := mul_eq_one_comm.mp h

theorem Orth.inv {Q : T3} (h : Orth Q) : Q⁻¹ = Qᵀ := Matrix.inv_eq_left_inv h

theorem Orth.det_sq {Q : T3} (h : Orth Q) : Q.det ^ 2 = 1 := by
  have := congrArg Matrix.det h
  rwa [det_mul, det_transpose, det_one, ← sq] at this

theorem Orth.trace {Q : T3} (h : Orth Q) (A : T3) : (Q * A * Qᵀ).trace = A.trace := by
  rw [Matrix.trace_mul_comm, ← Matrix.mul_assoc, h, Matrix.one_mul]

theorem Orth.deviatoric {Q : T3} (h : Orth Q) (A : T3) : deviatoric (Q * A * Qᵀ) = Q * deviatoric A * Qᵀ := by
  rw [Forming.deviatoric, Forming.deviatoric, h.trace, Matrix.mul_sub, Matrix.sub_mul, Matrix.mul_smul, Matrix.smul_mul, Matrix.mul_one, h.mul_transpose]

theorem Orth.fnorm {Q : T3} (h : Orth Q) (A : T3) : fnorm (Q * A * Qᵀ) = fnorm A := by
  refine (sq_eq_sq₀ (fnorm_nonneg _) (fnorm_nonneg _)).mp ?_
  rw [fnorm_sq_trace, fnorm_sq_trace, transpose_mul, transpose_mul, transpose_transpose]
  rw [show Q * (Aᵀ * Qᵀ) * (Q * A * Qᵀ) = Q * (Aᵀ * (Qᵀ * Q) * A) * Qᵀ by simp only [Matrix.mul_assoc], h, Matrix.mul_one, h.trace]

theorem Orth.conj_smul {Q : T3} (c : ℝ) (A : T3) : c • (Q * A * Qᵀ) = Q * (c • A) * Qᵀ := by rw [Matrix.mul_smul, Matrix.smul_mul]

theorem Orth.getTau {Q : T3} (h : Orth Q) (F be : T3) : getTau (Q * F) (Q * be * Qᵀ) = Q * getTau F be * Qᵀ := by
  rw [Forming.getTau, Forming.getTau, h.deviatoric, det_mul, mul_pow, h.det_sq, one_mul, Matrix.mul_add, Matrix.add_mul, Orth.conj_smul, ← Orth.conj_smul _ (1 : T3), Matrix.mul_one, h.mul_transpose]

/-- Specification: the same material state seen after the turn `Q`. -/
structure Turned (Q : T3) (p p' : Pt) : Prop where
  F : p'.F = Q * p.F
  be : p'.be = Q * p.be * Qᵀ
  alpha : p'.alpha = p.alpha

theorem trial_turned {Q R : T3} (hQ : Orth Q) {p p' : Pt} (h : Turned Q p p') (g g' : T3) (hg : g' + 1 = R * (g + 1)) : trial p' g' = R * trial p g * Rᵀ := by
  rw [trial, trial, h.F, h.be, hg, Matrix.mul_inv_rev, hQ.inv]
  have e : R * (g + 1) * (p.F⁻¹ * Qᵀ) = R * ((g + 1) * p.F⁻¹) * Qᵀ := by simp only [Matrix.mul_assoc]
  rw [e]
  generalize (g + 1) * p.F⁻¹ = f
  rw [transpose_mul, transpose_mul, transpose_transpose]
  calc R * f * Qᵀ * (Q * p.be * Qᵀ) * (Q * (fᵀ * Rᵀ)) = R * f * (Qᵀ * Q) * p.be * (Qᵀ * Q) * (fᵀ * Rᵀ) := by simp only [Matrix.mul_assoc]
    _ = R * (f * p.be * fᵀ) * Rᵀ := by rw [hQ]; simp only [Matrix.mul_assoc, Matrix.one_mul]

theorem returnMap_turned {Q R : T3} (hQ : Orth Q) (hR : Orth R) {p p' : Pt} (h : Turned Q p p') (g g' : T3) (hg : g' + 1 = R * (g + 1)) :
    returnMap p' g' = (R * (returnMap p g).1 * Rᵀ, (returnMap p g).2.1, R * (returnMap p g).2.2 * Rᵀ) := by
  have ht := trial_turned hQ h g g' hg
  have h1 : (returnMap p' g').1 = R * (returnMap p g).1 * Rᵀ ∧ (returnMap p' g').2.1 = (returnMap p g).2.1 := by
    have hye : yieldF (shearG • deviatoric (trial p' g')) p'.alpha = yieldF (shearG • deviatoric (trial p g)) p.alpha := by
      rw [ht, h.alpha, hR.deviatoric, Orth.conj_smul, yieldF, hR.fnorm, yieldF]
    by_cases hy : yieldF (shearG • deviatoric (trial p g)) p.alpha < 0
    · rw [returnMap, returnMap, if_pos hy, if_pos (hye ▸ hy)]
      exact ⟨ht, h.alpha⟩
    · rw [returnMap, returnMap, if_neg hy, if_neg (hye ▸ hy)]
      simp only [hye]
      simp only [ht, h.alpha, hR.deviatoric, Orth.conj_smul, hR.fnorm, hR.trace, and_true]
      simp only [Matrix.mul_add, Matrix.add_mul, Matrix.mul_sub, Matrix.sub_mul, Matrix.mul_smul, Matrix.smul_mul, Matrix.mul_one, hR.mul_transpose, smul_sub, smul_smul]
  ext1
  · exact h1.1
  · ext1
    · exact h1.2
    · rw [returnMap_tau, h1.1, hg, hR.getTau, returnMap_tau p g]

/-- **C135 (change of frame).** If the old state is turned by `Q` and the new deformation by any other `R`, then the new state and the Kirchhoff and Cauchy stresses are turned by `R`, the first Piola stress is multiplied by `R`, and the plastic strain is the same. -/
theorem C135_frame {Q R : T3} (hQ : Orth Q) (hR : Orth R) {p p' : Pt} (h : Turned Q p p') (g g' : T3) (hg : g' + 1 = R * (g + 1)) :
    Turned R (update p g) (update p' g') ∧ firstPK p' g' = R * firstPK p g ∧ (cauchy p' g' = R.det • (R * cauchy p g * Rᵀ)) := by
  have hr := returnMap_turned hQ hR h g g' hg
  have hP : firstPK p' g' = R * firstPK p g := by
    rw [firstPK, firstPK, hr, hg, Matrix.mul_inv_rev, hR.inv, transpose_mul, transpose_transpose]
    show R * (returnMap p g).2.2 * Rᵀ * (R * ((g + 1)⁻¹)ᵀ) = _
    rw [show R * (returnMap p g).2.2 * Rᵀ * (R * ((g + 1)⁻¹)ᵀ) = R * ((returnMap p g).2.2 * (Rᵀ * R) * ((g + 1)⁻¹)ᵀ) by simp only [Matrix.mul_assoc], hR, Matrix.mul_one]
  refine ⟨⟨hg, ?_, ?_⟩, hP, ?_⟩
  · show (returnMap p' g').1 = _
    rw [hr]
    rfl
  · show (returnMap p' g').2.1 = _
    rw [hr]
    rfl
  · have hd : R.det * R.det = 1 := by rw [← sq]; exact hR.det_sq
    have hd' : 1 / R.det = R.det := by
      have h0 : R.det ≠ 0 := fun h0 => by rw [h0] at hd; simp at hd
      field_simp
      rw [sq]; exact hd.symm
    rw [cauchy, cauchy, hP, hg, det_mul, transpose_mul, show 1 / (R.det * (g + 1).det) = R.det * (1 / (g + 1).det) by rw [← one_div_mul_one_div, hd']]
    simp only [Matrix.mul_smul, Matrix.smul_mul, smul_smul, Matrix.mul_assoc]

/-- **C135 (rotated load paths).** For two load paths of which the second is the first one with an arbitrary turn superposed at every step, the final states differ by the last turn, and the plastic strain is the same. -/
theorem C135_turnedPath (steps : List (T3 × T3)) (hQ : ∀ s ∈ steps, Orth s.1) (gs : List T3) (hgs : gs.map (· + 1) = steps.map fun s => s.1 * (s.2 + 1)) :
    Turned ((steps.map Prod.fst).getLast?.getD 1) (run (steps.map Prod.snd)) (run gs) := by
  have key : ∀ (steps : List (T3 × T3)) (gs : List T3) (Q : T3) (p p' : Pt), Orth Q → Turned Q p p' → (∀ s ∈ steps, Orth s.1) → gs.map (· + 1) = steps.map (fun s => s.1 * (s.2 + 1)) →
      Turned ((steps.map Prod.fst).getLast?.getD Q) ((steps.map Prod.snd).foldl update p) (gs.foldl update p') := by
    intro steps
    induction steps with
    | nil =>
      intro gs Q p p' _ h _ hgs
      obtain rfl : gs = [] := by simpa using hgs
      exact h
    | cons s steps ih =>
      intro gs Q p p' hQ h hs hgs
      cases gs with
      | nil => simp at hgs
      | cons g gs =>
        simp only [List.map_cons, List.cons.injEq] at hgs
        have hs1 := hs s (List.mem_cons_self ..)
        have := ih gs s.1 (update p s.2) (update p' g) hs1 (C135_frame hQ hs1 h s.2 g hgs.1).1 (fun s' h' => hs s' (List.mem_cons_of_mem _ h')) hgs.2
        simp only [List.map_cons, List.foldl_cons]
        convert this using 1
        cases steps with
        | nil => rfl
        | cons s2 steps =>
          simp only [List.map_cons]
          rw [List.getLast?_cons_cons, List.getLast?_cons, Option.getD_some, Option.getD_some]
  exact key steps gs 1 Pt.init Pt.init (by simp [Orth]) ⟨by simp, by simp, rfl⟩ hQ hgs

end Verif.Forming
