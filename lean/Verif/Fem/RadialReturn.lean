import Verif.Fem.ModelsProps
import Verif.Fem.PropsUnique

/-!
# Radial return for isotropic elasticity with a von Mises yield surface

General facts for any Lamé constants and any yield stress. `Plasticity` of models.py (lines 138-196) and of the thermo-mechanical demo both use this return map, with other numbers.
-/
namespace Verif.Fem
open Finset Matrix

variable {dim nn nq nf nfq : ℕ}

/-- Specification: Hooke's law `lam tr(eps) I + 2 mu eps`. -/
noncomputable def isoLaw (lam mu : ℝ) (eps : Matrix (Fin dim) (Fin dim) ℝ) : Matrix (Fin dim) (Fin dim) ℝ := (lam * eps.trace) • 1 + (2 * mu) • eps

/-- Specification: the stress is drawn back along the deviator onto the yield surface. -/
noncomputable def radial (sy : ℝ) (T : Matrix (Fin dim) (Fin dim) ℝ) : Matrix (Fin dim) (Fin dim) ℝ := T - (max (mises T - sy) 0 / mises T) • dev T

/-- Specification: `s` is the closest admissible response to the strain increment `de` from the stress `so`: there is a plastic increment `dp` such that the rest of the strain increment gives the stress increment, the
plastic volume does not change, the plastic work is not less than that of any other admissible stress, and `dp` vanishes inside the yield surface. -/
structure Response (lam mu sy : ℝ) (so de s dp : Matrix (Fin dim) (Fin dim) ℝ) : Prop where
  law : s - so = isoLaw lam mu (de - dp)
  volume : dp.trace = 0
  yield : mises s ≤ sy
  work : ∀ t : Matrix (Fin dim) (Fin dim) ℝ, mises t ≤ sy → ddot t dp ≤ ddot s dp
  inside : mises s < sy → dp = 0

theorem isoLaw_sub (lam mu : ℝ) (a b : Matrix (Fin dim) (Fin dim) ℝ) : isoLaw lam mu (a - b) = isoLaw lam mu a - isoLaw lam mu b := by
  unfold isoLaw
  rw [Matrix.trace_sub, mul_sub, sub_smul, smul_sub]
  abel

theorem isoLaw_transpose (lam mu : ℝ) (a : Matrix (Fin dim) (Fin dim) ℝ) : (isoLaw lam mu a)ᵀ = isoLaw lam mu aᵀ := by
  unfold isoLaw
  simp [Matrix.trace_transpose]

theorem isoLaw_trace (lam mu : ℝ) (a : Matrix (Fin dim) (Fin dim) ℝ) : (isoLaw lam mu a).trace = (dim * lam + 2 * mu) * a.trace := by
  unfold isoLaw
  rw [Matrix.trace_add, Matrix.trace_smul, Matrix.trace_smul, Matrix.trace_one, Fintype.card_fin, smul_eq_mul, smul_eq_mul]
  ring

theorem radial_step (hdim : 0 < dim) (sy : ℝ) (hsy : 0 ≤ sy) (T : Matrix (Fin dim) (Fin dim) ℝ) :
    (mises T ≤ sy → radial sy T = T) ∧ (sy < mises T → mises (radial sy T) = sy ∧ dev (radial sy T) = (sy / mises T) • dev T) ∧ (radial sy T).trace = T.trace ∧ mises (radial sy T) ≤ sy := by
  have h1 : mises T ≤ sy → radial sy T = T := fun h => by
    unfold radial
    rw [max_eq_right (by linarith), zero_div, zero_smul, sub_zero]
  have h2 : sy < mises T → mises (radial sy T) = sy ∧ dev (radial sy T) = (sy / mises T) • dev T := fun h => by
    have hpos : 0 < mises T := by linarith
    have hc : 1 - (mises T - sy) / mises T = sy / mises T := by field_simp; ring
    unfold radial
    rw [max_eq_left (by linarith)]
    refine ⟨?_, ?_⟩
    · rw [mises_sub_smul hdim, hc, abs_of_nonneg (by positivity)]
      field_simp
    · rw [dev_sub_smul hdim, hc]
  refine ⟨h1, h2, ?_, ?_⟩
  · unfold radial
    rw [Matrix.trace_sub, Matrix.trace_smul, trace_dev hdim, smul_zero, sub_zero]
  · rcases le_or_gt (mises T) sy with h | h
    · rw [h1 h]; exact h
    · exact (h2 h).1.le

theorem mises_sq (A : Matrix (Fin dim) (Fin dim) ℝ) : mises A ^ 2 = 3 / 2 * ddot (dev A) (dev A) := by
  unfold mises
  exact Real.sq_sqrt (mul_nonneg (by norm_num) (ddot_self_nonneg _))

theorem ddot_sub_left (A B C : Matrix (Fin dim) (Fin dim) ℝ) : ddot (A - B) C = ddot A C - ddot B C := by
  simp [ddot, sub_mul, sum_sub_distrib]

theorem ddot_sub_right (A B C : Matrix (Fin dim) (Fin dim) ℝ) : ddot A (B - C) = ddot A B - ddot A C := by
  rw [ddot_comm, ddot_sub_left, ddot_comm B, ddot_comm C]

theorem ddot_dev (hdim : 0 < dim) (A B : Matrix (Fin dim) (Fin dim) ℝ) : ddot A (dev B) = ddot (dev A) (dev B) := by
  have e : A = dev A + (A.trace / dim) • 1 := by unfold dev; abel
  conv_lhs => rw [e]
  rw [ddot_add_left, ddot_one_left, trace_dev hdim, mul_zero, add_zero]

/-- Cauchy-Schwarz: the work of two deviators is at most two thirds of the product of their von Mises values. -/
theorem ddot_dev_le (A B : Matrix (Fin dim) (Fin dim) ℝ) : ddot (dev A) (dev B) ≤ 2 / 3 * (mises A * mises B) := by
  have h : ddot (dev A) (dev B) ^ 2 ≤ ddot (dev A) (dev A) * ddot (dev B) (dev B) := by
    have hs : ∀ X Y : Matrix (Fin dim) (Fin dim) ℝ, ddot X Y = ∑ p : Fin dim × Fin dim, X p.1 p.2 * Y p.1 p.2 := fun X Y => by
      unfold ddot
      rw [Fintype.sum_prod_type]
    rw [hs, hs, hs]
    have := sum_mul_sq_le_sq_mul_sq univ (fun p : Fin dim × Fin dim => dev A p.1 p.2) (fun p => dev B p.1 p.2)
    simpa only [sq] using this
  have hA := mises_sq A
  have hB := mises_sq B
  have h0 := mul_nonneg (mises_nonneg A) (mises_nonneg B)
  have h2 : ddot (dev A) (dev B) ^ 2 ≤ (2 / 3 * (mises A * mises B)) ^ 2 := by
    rw [mul_pow, mul_pow, hA, hB]
    linarith
  exact le_of_sq_le_sq h2 (by positivity)
where
  le_of_sq_le_sq {a b : ℝ} (h : a ^ 2 ≤ b ^ 2) (hb : 0 ≤ b) : a ≤ b := (le_abs_self a).trans (abs_le_of_sq_le_sq h hb)

/-- **The radial return is the response of maximal plastic work.** -/
theorem radial_response (hdim : 0 < dim) (lam mu sy : ℝ) (hmu : 0 < mu) (hsy : 0 ≤ sy) (so de : Matrix (Fin dim) (Fin dim) ℝ) :
    ∃ dp, Response lam mu sy so de (radial sy (isoLaw lam mu de + so)) dp ∧ ∃ c : ℝ, 0 ≤ c ∧ dp = c • dev (isoLaw lam mu de + so) := by
  set T := isoLaw lam mu de + so with hT
  obtain ⟨h1, h2, h3, h4⟩ := radial_step hdim sy hsy T
  rcases le_or_gt (mises T) sy with h | h
  · refine ⟨0, ⟨?_, by simp, h4, fun t _ => by simp [ddot], fun _ => rfl⟩, 0, le_rfl, by simp⟩
    rw [h1 h, sub_zero, hT, add_sub_cancel_right]
  · have hpos : 0 < mises T := by linarith
    have hc : 0 ≤ (1 - sy / mises T) / (2 * mu) := div_nonneg (by rw [sub_nonneg]; exact (div_le_one hpos).mpr h.le) (by linarith)
    refine ⟨((1 - sy / mises T) / (2 * mu)) • dev T, ⟨?_, ?_, h4, fun t ht => ?_, fun hi => absurd (h2 h).1 hi.ne⟩, _, hc, rfl⟩
    · have e1 : isoLaw lam mu (((1 - sy / mises T) / (2 * mu)) • dev T) = (1 - sy / mises T) • dev T := by
        unfold isoLaw
        rw [Matrix.trace_smul, trace_dev hdim, smul_zero, mul_zero, zero_smul, zero_add, smul_smul]
        congr 1
        field_simp
      rw [isoLaw_sub, e1]
      have e2 : radial sy T = T - (1 - sy / mises T) • dev T := by
        unfold radial
        rw [max_eq_left (by linarith)]
        congr 2
        field_simp
      rw [e2, hT]
      abel
    · rw [Matrix.trace_smul, trace_dev hdim, smul_zero]
    · rw [ddot_smul_right, ddot_smul_right]
      refine mul_le_mul_of_nonneg_left ?_ hc
      rw [ddot_dev hdim t, ddot_dev hdim (radial sy T), (h2 h).2, ddot_smul_left]
      have h5 := ddot_dev_le t T
      have h6 := mises_sq T
      have h7 : sy / mises T * ddot (dev T) (dev T) = 2 / 3 * (sy * mises T) := by
        rw [show ddot (dev T) (dev T) = 2 / 3 * mises T ^ 2 by linarith]
        field_simp
      rw [h7]
      have := mul_le_mul_of_nonneg_right ht hpos.le
      linarith

/-- The quadratic form of Hooke's law is positive definite. -/
theorem isoLaw_pos (hdim : 0 < dim) (lam mu : ℝ) (hmu : 0 < mu) (hK : 0 < dim * lam + 2 * mu) (X : Matrix (Fin dim) (Fin dim) ℝ) :
    0 ≤ ddot (isoLaw lam mu X) X ∧ (ddot (isoLaw lam mu X) X = 0 → isoLaw lam mu X = 0) := by
  have hd : (0 : ℝ) < dim := by exact_mod_cast hdim
  have e : X = dev X + (X.trace / dim) • 1 := by unfold dev; abel
  have hone : ddot (dev X) ((X.trace / dim) • 1) = 0 := by
    rw [ddot_comm, ddot_one_left, trace_dev hdim, mul_zero]
  have h1 : ddot X X = ddot (dev X) (dev X) + X.trace ^ 2 / dim := by
    have e1 : ddot X X = ddot X (dev X) + X.trace / dim * X.trace := by
      have : ddot X X = ddot (dev X + (X.trace / dim) • 1) X := by rw [← e]
      rw [this, ddot_add_left, ddot_one_left, ddot_comm]
    rw [e1, ddot_dev hdim]
    ring
  have h2 : ddot (isoLaw lam mu X) X = 2 * mu * ddot (dev X) (dev X) + (dim * lam + 2 * mu) / dim * X.trace ^ 2 := by
    unfold isoLaw
    rw [ddot_add_left, ddot_one_left, ddot_smul_left, h1]
    field_simp
    ring
  have hn := ddot_self_nonneg (dev X)
  have hKd : 0 < (dim * lam + 2 * mu) / dim := by positivity
  have hp1 : 0 ≤ 2 * mu * ddot (dev X) (dev X) := by positivity
  have hp2 : 0 ≤ (dim * lam + 2 * mu) / dim * X.trace ^ 2 := by positivity
  rw [h2]
  refine ⟨by linarith, fun h0 => ?_⟩
  have z1 : ddot (dev X) (dev X) = 0 := by
    have : 2 * mu * ddot (dev X) (dev X) = 0 := by linarith
    exact (mul_eq_zero.mp this).resolve_left (by positivity)
  have z2 : X.trace = 0 := by
    have : (dim * lam + 2 * mu) / dim * X.trace ^ 2 = 0 := by linarith
    exact pow_eq_zero_iff two_ne_zero |>.mp ((mul_eq_zero.mp this).resolve_left hKd.ne')
  have z3 : X = 0 := by
    have : dev X = X := dev_of_trace_zero z2
    rw [this] at z1
    exact ddot_self_eq_zero.mp z1
  rw [z3]
  simp [isoLaw]

/-- **The stress is determined by less than the strain.** For two responses from the same old stress the work of the stress difference on the strain difference is not negative, and zero only if the stresses are the same. -/
theorem Response.mono (hdim : 0 < dim) {lam mu sy : ℝ} (hmu : 0 < mu) (hK : 0 < dim * lam + 2 * mu) {so de de' s s' dp dp' : Matrix (Fin dim) (Fin dim) ℝ} (h : Response lam mu sy so de s dp)
    (h' : Response lam mu sy so de' s' dp') : 0 ≤ ddot (s - s') (de - de') ∧ (ddot (s - s') (de - de') = 0 → s = s') := by
  have e : s - s' = isoLaw lam mu (de - de' - (dp - dp')) := by
    rw [show de - de' - (dp - dp') = (de - dp) - (de' - dp') by abel, isoLaw_sub, ← h.law, ← h'.law]
    abel
  obtain ⟨p1, p2⟩ := isoLaw_pos hdim lam mu hmu hK (de - de' - (dp - dp'))
  rw [← e] at p1 p2
  have w1 := h.work s' h'.yield
  have w2 := h'.work s h.yield
  have hsplit : ddot (s - s') (de - de') = ddot (s - s') (de - de' - (dp - dp')) + (ddot (s - s') dp - ddot (s - s') dp') := by
    rw [ddot_sub_right (s - s') (de - de'), ddot_sub_right (s - s') dp]
    ring
  rw [ddot_sub_left s s' dp, ddot_sub_left s s' dp'] at hsplit
  refine ⟨by linarith, fun h0 => ?_⟩
  exact sub_eq_zero.mp (p2 (by linarith))

/-- So a response is unique: the stress follows from the old stress and the strain increment. -/
theorem Response.unique (hdim : 0 < dim) {lam mu sy : ℝ} (hmu : 0 < mu) (hK : 0 < dim * lam + 2 * mu) {so de s s' dp dp' : Matrix (Fin dim) (Fin dim) ℝ} (h : Response lam mu sy so de s dp)
    (h' : Response lam mu sy so de s' dp') : s = s' :=
  (h.mono hdim hmu hK h').2 (by rw [sub_self]; simp [ddot])

/-! ## `Plasticity` of models.py -/

theorem returnMap_radial (g so eo : Matrix (Fin dim) (Fin dim) ℝ) : returnMap g so eo = radial 250 (isoLaw lame shearMod (strain g - eo) + so) := returnMap_eq g so eo

theorem bulk_pos : 0 < (dim : ℝ) * lame + 2 * shearMod := by
  have := shearMod_pos
  have h : 0 ≤ (dim : ℝ) * lame := mul_nonneg (Nat.cast_nonneg _) lame_pos.le
  linarith

/-- **C111 (the return map is the response of the material).** `stress_return_map` gives a stress within the yield surface which arises from the old one by Hooke's law for the strain increment less a plastic increment without volume
change; no other admissible stress does more plastic work, inside the surface there is none; and it is the only stress with these properties. -/
theorem C111_response (hdim : 0 < dim) (g so eo : Matrix (Fin dim) (Fin dim) ℝ) :
    (∃ dp, Response lame shearMod 250 so (strain g - eo) (returnMap g so eo) dp) ∧ ∀ s dp, Response lame shearMod 250 so (strain g - eo) s dp → s = returnMap g so eo := by
  obtain ⟨dp, h, -⟩ := radial_response hdim lame shearMod 250 shearMod_pos (by norm_num) so (strain g - eo)
  rw [← returnMap_radial] at h
  exact ⟨⟨dp, h⟩, fun s dp' h' => h'.unique hdim shearMod_pos bulk_pos h⟩

theorem ddot_strain {S : Matrix (Fin dim) (Fin dim) ℝ} (hS : Sᵀ = S) (g : Matrix (Fin dim) (Fin dim) ℝ) : ddot S (strain g) = ddot S g := by
  have hs : ∀ i j, S j i = S i j := fun i j => congrFun (congrFun hS i) j
  have h1 : ddot S gᵀ = ddot S g := by
    unfold ddot
    rw [sum_comm]
    exact sum_congr rfl fun i _ => sum_congr rfl fun j _ => by rw [hs i j, Matrix.transpose_apply]
  have h2 : strain g = (1 / 2 : ℝ) • (g + gᵀ) := by
    ext i j
    rw [strain_apply, Matrix.smul_apply, Matrix.add_apply, Matrix.transpose_apply, smul_eq_mul]
    ring
  rw [h2, ddot_smul_right, ddot_comm, ddot_add_left, ddot_comm g, ddot_comm gᵀ, h1]
  ring

theorem strain_sub (g g' : Matrix (Fin dim) (Fin dim) ℝ) : strain (g - g') = strain g - strain g' := by
  ext i j
  simp only [strain_apply, Matrix.sub_apply]
  ring

theorem radial_transpose (sy : ℝ) {T : Matrix (Fin dim) (Fin dim) ℝ} (h : Tᵀ = T) : (radial sy T)ᵀ = radial sy T := by
  unfold radial
  rw [Matrix.transpose_sub, Matrix.transpose_smul, dev_transpose, h]

/-- The stress difference of two displacement gradients does non-negative work on the gradient difference; if it does none the stresses are the same. -/
theorem radial_mono (hdim : 0 < dim) (lam mu sy : ℝ) (hmu : 0 < mu) (hK : 0 < dim * lam + 2 * mu) (hsy : 0 ≤ sy) (so eo : Matrix (Fin dim) (Fin dim) ℝ) (hso : soᵀ = so) (heo : eoᵀ = eo) (g g' : Matrix (Fin dim) (Fin dim) ℝ) :
    0 ≤ ddot (radial sy (isoLaw lam mu (strain g - eo) + so) - radial sy (isoLaw lam mu (strain g' - eo) + so)) (g - g') ∧
    (ddot (radial sy (isoLaw lam mu (strain g - eo) + so) - radial sy (isoLaw lam mu (strain g' - eo) + so)) (g - g') = 0 →
      radial sy (isoLaw lam mu (strain g - eo) + so) = radial sy (isoLaw lam mu (strain g' - eo) + so)) := by
  have hsym : ∀ g, (radial sy (isoLaw lam mu (strain g - eo) + so))ᵀ = radial sy (isoLaw lam mu (strain g - eo) + so) := fun g =>
    radial_transpose sy (by rw [Matrix.transpose_add, isoLaw_transpose, Matrix.transpose_sub, strain_symm, heo, hso])
  obtain ⟨dp, h, -⟩ := radial_response hdim lam mu sy hmu hsy so (strain g - eo)
  obtain ⟨dp', h', -⟩ := radial_response hdim lam mu sy hmu hsy so (strain g' - eo)
  have hm := h.mono hdim hmu hK h'
  have e : strain g - eo - (strain g' - eo) = strain (g - g') := by rw [strain_sub]; abel
  rw [e, ddot_strain (by rw [Matrix.transpose_sub, hsym, hsym])] at hm
  exact hm

/-- **C111 (the stress of a load step is unique).** After any load history: two displacement fields with the same prescribed values and the same residual at the free degrees of freedom (say, two solutions of the load step) have
the same new stress in every cell and quadrature point, whatever loads act. -/
theorem C111_stress (hdim : 0 < dim) (F : Fem nn nq nf nfq dim dim) (hmesh : ∀ c ∈ F.cells, ∀ a, c a < F.numTotal) (hvol : ∀ c ∈ F.cells, ∀ q, 0 < F.JxW c q) (hcauchy : F.cauchy = none)
    (sols : List (ℕ → Fin dim → ℝ)) (st : PlastState nq dim) (hst : plastRun F sols = .ok st) (u v Ru Rv : ℕ → Fin dim → ℝ) (hu : (plastFem F st).computeResidual u = .ok Ru)
    (hv : (plastFem F st).computeResidual v = .ok Rv) (huv : ∀ n < F.numTotal, ∀ i, u n i = v n i ∨ Ru n i = Rv n i) (su sv : PlastState nq dim)
    (hsu : updateStressStrain F st u = .ok su) (hsv : updateStressStrain F st v = .ok sv) : su.sig = sv.sig := by
  obtain ⟨st', h1, hls, hle, hadm, heps⟩ := C30_history hdim F sols
  rw [hst] at h1
  obtain rfl : st = st' := by injection h1
  have hsymS : ∀ k q, ((st.sig.getD k 0) q)ᵀ = (st.sig.getD k 0) q := fun k q => by
    rw [List.getD_eq_getElem?_getD]
    cases hs : st.sig[k]? with
    | none => simp
    | some s =>
      obtain ⟨hk, -⟩ := List.getElem?_eq_some_iff.mp hs
      exact (hadm k s (st.eps[k]'(by omega)) hs (List.getElem?_eq_getElem (by omega)) q).2.1
  have hsymE : ∀ k q, ((st.eps.getD k 0) q)ᵀ = (st.eps.getD k 0) q := fun k q => by
    rw [List.getD_eq_getElem?_getD]
    cases hs : st.eps[k]? with
    | none => simp
    | some s =>
      obtain ⟨hk, -⟩ := List.getElem?_eq_some_iff.mp hs
      have h2 := heps k (F.cells[k]'(by omega)) (List.getElem?_eq_getElem (by omega))
      rw [hs] at h2
      rw [Option.some.inj h2]
      simp only [Option.getD_some]
      cases sols.getLast? with
      | none => simp
      | some sol => exact strain_symm _
  have key : ∀ k q (A B : Fin dim → Fin dim → ℝ), ∑ i, ∑ d, ((plastFem F st).stress k q A i d - (plastFem F st).stress k q B i d) * (A i d - B i d) =
      ddot (returnMap (Matrix.of A) ((st.sig.getD k 0) q) ((st.eps.getD k 0) q) - returnMap (Matrix.of B) ((st.sig.getD k 0) q) ((st.eps.getD k 0) q)) (Matrix.of A - Matrix.of B) := fun _ _ _ _ => rfl
  have hmono := fun k q (A B : Fin dim → Fin dim → ℝ) =>
    radial_mono hdim lame shearMod 250 shearMod_pos bulk_pos (by norm_num) _ _ (hsymS k q) (hsymE k q) (Matrix.of A) (Matrix.of B)
  have hF : (plastFem F st).Monotone := by
    refine ⟨hmesh, hvol, fun k q A B => ?_, fun k q a b => ?_, fun lv hlv => ?_⟩
    · rw [key, returnMap_radial, returnMap_radial]
      exact (hmono k q A B).1
    · simp [Fem.massAt, plastFem]
    · have : (plastFem F st).cauchy = none := hcauchy
      simp [this, Fem.pairs] at hlv
  have hz := energy_zero (plastFem F st) hF u v Ru Rv hu hv huv
  refine List.ext_getElem? fun k => ?_
  cases hk : F.cells[k]? with
  | none =>
    rw [update_ok F st hls hle] at hsu hsv
    injection hsu with hsu
    injection hsv with hsv
    have hlen := List.getElem?_eq_none_iff.mp hk
    rw [← hsu, ← hsv, List.getElem?_eq_none (by simp [Fem.solToGrad]; omega), List.getElem?_eq_none (by simp [Fem.solToGrad]; omega)]
  | some c =>
    obtain ⟨s, e, h1, h2, h3, -⟩ := update_get F st su hls hle u hsu k c hk
    obtain ⟨s', e', h1', h2', h3', -⟩ := update_get F st sv hls hle v hsv k c hk
    rw [h1] at h1'
    rw [h2] at h2'
    cases h1'
    cases h2'
    rw [h3, h3']
    congr 1
    funext q
    have h5 := hz k c hk q
    rw [key, returnMap_radial, returnMap_radial] at h5
    have h6 := (hmono k q _ _).2 h5
    rw [← returnMap_radial, ← returnMap_radial] at h6
    have e1 : st.sig.getD k 0 = s := by simp [List.getD_eq_getElem?_getD, h1]
    have e2 : st.eps.getD k 0 = e := by simp [List.getD_eq_getElem?_getD, h2]
    rw [e1, e2] at h6
    exact h6

theorem dev_smul (c : ℝ) (T : Matrix (Fin dim) (Fin dim) ℝ) : dev (c • T) = c • dev T := by
  unfold dev
  rw [Matrix.trace_smul, smul_sub, smul_smul, smul_eq_mul, mul_div_assoc]

theorem mises_scale (c : ℝ) (hc : 0 ≤ c) (T : Matrix (Fin dim) (Fin dim) ℝ) : mises (c • T) = c * mises T := by
  unfold mises
  rw [dev_smul, ddot_smul, show 3 / 2 * (c ^ 2 * ddot (dev T) (dev T)) = c ^ 2 * (3 / 2 * ddot (dev T) (dev T)) by ring, Real.sqrt_mul (sq_nonneg _), Real.sqrt_sq hc]

/-- **C111 (ideal plasticity).** The displacement of a load step is not unique in the same way: once a shear deformation yields, every larger one gives the same stress. -/
theorem C111_flow (g : Matrix (Fin dim) (Fin dim) ℝ) (hg : g.trace = 0) (hy : 250 < mises (hooke (strain g))) (c : ℝ) (hc : 1 ≤ c) : returnMap (c • g) 0 0 = returnMap g 0 0 := by
  have htr : (hooke (strain g)).trace = 0 := by
    show (isoLaw lame shearMod (strain g)).trace = 0
    have : (strain g).trace = g.trace := by
      simp only [Matrix.trace, Matrix.diag_apply, strain_apply]
      exact sum_congr rfl fun i _ => by ring
    rw [isoLaw_trace, this, hg, mul_zero]
  have hs : hooke (strain (c • g)) = c • hooke (strain g) := by
    have : strain (c • g) = c • strain g := by
      ext i j
      simp only [strain_apply, Matrix.smul_apply, smul_eq_mul]
      ring
    rw [this]
    unfold hooke
    rw [Matrix.trace_smul, smul_add, smul_smul, smul_smul, smul_smul, smul_eq_mul]
    congr 2 <;> ring
  rw [returnMap_eq, returnMap_eq]
  have hT : ∀ g : Matrix (Fin dim) (Fin dim) ℝ, trialStress g 0 0 = hooke (strain g) := fun g => by
    unfold trialStress
    rw [sub_zero, add_zero]
  rw [hT, hT, hs, mises_scale c (by linarith), dev_smul, dev_of_trace_zero htr]
  set m := mises (hooke (strain g))
  have hm : 0 < m := by linarith
  have h1 : 250 ≤ c * m := by nlinarith
  rw [max_eq_left (by linarith), max_eq_left (by linarith), smul_smul, ← sub_smul]
  conv_rhs => lhs; rw [← one_smul ℝ (hooke (strain g))]
  rw [← sub_smul]
  congr 1
  have hc0 : c ≠ 0 := by linarith
  field_simp
  ring

example : returnMap (!![0, 0.05, 0; 0, 0, 0; 0, 0, 0] : Matrix (Fin 3) (Fin 3) ℝ) 0 0 = returnMap !![0, 0.01, 0; 0, 0, 0; 0, 0, 0] 0 0 := by
  have h := C111_flow (!![0, 0.01, 0; 0, 0, 0; 0, 0, 0] : Matrix (Fin 3) (Fin 3) ℝ) (by simp [Matrix.trace_fin_three]) (by
    have := shear_trial 0.01 (by norm_num)
    rw [zero_add, sub_zero] at this
    rw [this]
    have h3 : (1 : ℝ) ≤ Real.sqrt 3 := Real.one_le_sqrt.mpr (by norm_num)
    have hs : (260 : ℝ) < shearMod * 0.01 := by norm_num [shearMod]
    nlinarith) 5 (by norm_num)
  rw [← h]
  congr 1
  ext i j
  fin_cases i <;> fin_cases j <;> norm_num

/-- Two solutions of a load step on a triangle have the same stress. -/
example (u v : ℕ → Fin 2 → ℝ) (R : ℕ → Fin 2 → ℝ) (hu : (plastFem triVec (plastInit triVec)).computeResidual u = .ok R) (hv : (plastFem triVec (plastInit triVec)).computeResidual v = .ok R)
    (su sv : PlastState _ 2) (hsu : updateStressStrain triVec (plastInit triVec) u = .ok su) (hsv : updateStressStrain triVec (plastInit triVec) v = .ok sv) : su.sig = sv.sig := by
  refine C111_stress (by norm_num) triVec (fun c hc a => ?_) (fun c hc q => ?_) rfl [] _ rfl u v R R hu hv (fun _ _ _ => .inr rfl) su sv hsu hsv
  swap
  · obtain rfl : c = ![0, 1, 2] := by simpa [triVec, triExample] using hc
    show 0 < triExample.JxW ![0, 1, 2] q
    rw [Fem.JxW, triExample_jacobian, Matrix.det_fin_two_of]
    norm_num [triExample]
  obtain rfl : c = ![0, 1, 2] := by simpa [triVec, triExample] using hc
  show (![0, 1, 2] : Fin 3 → ℕ) a < 3
  fin_cases a <;> decide

end Verif.Fem
