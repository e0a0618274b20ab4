import Verif.PhaseField.GrainOde
import Verif.PhaseField.Laser
import Mathlib.Analysis.SpecialFunctions.Trigonometric.DerivHyp
import Mathlib.Analysis.SpecialFunctions.Sqrt

/-!
# The loop of the phase-field programs converges to the grain-growth equations (C149)
-/
namespace Verif.PhaseField.Ode
open Set Verif Verif.Mesh Filter Topology

variable {m d : ℕ}

/-! ## Model -/

/-- `pf_state` and `pf_params` after `k` passes of the loop (simple/example.py 52-63; simple/example_grf.py and solidification/example.py have the same loop): the step uses the temperature of the previous time. -/
noncomputable def integrate (th : ℝ → ℝ) (P : PfArgs m d) (T : ℝ → ℕ → ℝ) (sol0 : ℕ → Fin m → ℝ) (dt : ℝ) : ℕ → ((ℕ → Fin m → ℝ) × ℝ) × (ℕ → ℝ)
  | 0 => ((sol0, 0), T 0)
  | k + 1 =>
    let s := integrate th P T sol0 dt k
    let t_crt := ((k + 1 : ℕ) : ℝ) * dt
    (stepper th P s.1 t_crt s.2, T t_crt)

/-- `integrator` (simple/example.py 40-63, files and messages left out): `ts = np.arange(0., t_OFF + 1e-10, dt)`, one pass for every entry but the first; the final state. -/
noncomputable def program (th : ℝ → ℝ) (P : PfArgs m d) (T : ℝ → ℕ → ℝ) (sol0 : ℕ → Fin m → ℝ) (tOff dt : ℝ) : (ℕ → Fin m → ℝ) × ℝ :=
  (integrate th P T sol0 dt (⌈(tOff + 1e-10) / dt⌉₊ - 1)).1

/-! ## Specification -/

/-- The largest rate of the step-size condition `dt · rate ≤ 1`: the mobility at the cap of 2000 degrees. -/
noncomputable def rate (P : PfArgs m d) : ℝ :=
  P.L0 * Real.exp (-P.Qg / (2000 * P.gas_const)) * (P.m_g / P.ad_hoc * (4 * m - 2) + 2 * (P.kappa_g * P.ad_hoc * (1 / P.hx ^ 2 + 1 / P.hy ^ 2 + 1 / P.hz ^ 2)))

/-- The constant of the error bound. -/
noncomputable def errConst (P : PfArgs m d) (Te Tmin V : ℝ) : ℝ :=
  (P.L0 * K0 P 1 * (P.L0 * K0 P 1) + cF P Tmin V) * Te * Real.exp (P.L0 * K0 P 1 * Te)

/-! ## Proofs -/

variable {th : ℝ → ℝ} {P : PfArgs m d} {T : ℝ → ℕ → ℝ} {Te Tmin V : ℝ}

theorem integrate_state (th : ℝ → ℝ) (P : PfArgs m d) (T : ℝ → ℕ → ℝ) (sol0 : ℕ → Fin m → ℝ) (dt : ℝ) (k : ℕ) :
    (integrate th P T sol0 dt k).1.2 = k * dt ∧ (integrate th P T sol0 dt k).2 = T (k * dt) := by
  cases k with
  | zero => simp [integrate]
  | succ k => exact ⟨rfl, rfl⟩

theorem integrate_step (th : ℝ → ℝ) (P : PfArgs m d) (T : ℝ → ℕ → ℝ) (sol0 : ℕ → Fin m → ℝ) (dt : ℝ) (k n : ℕ) (o : Fin m) :
    (integrate th P T sol0 dt (k + 1)).1.1 n o = (integrate th P T sol0 dt k).1.1 n o + dt * stateRhs th P (T (k * dt)) (integrate th P T sol0 dt k).1.1 n o := by
  have h := integrate_state th P T sol0 dt k
  show (integrate th P T sol0 dt k).1.1 n o + ((k + 1 : ℕ) * dt - (integrate th P T sol0 dt k).1.2) * stateRhs th P (integrate th P T sol0 dt k).2 (integrate th P T sol0 dt k).1.1 n o = _
  rw [h.1, h.2]
  push_cast
  ring

theorem stepOk (h : Physical th P T Te Tmin V) {dt t : ℝ} (hdt : 0 ≤ dt) (hr : dt * rate P ≤ 1) (ht : t ∈ Icc 0 Te) {n : ℕ} (hn : n < P.N) : StepOk P (T t) dt n := by
  have hL : 0 ≤ LgOf P (T t) n ∧ LgOf P (T t) n ≤ P.L0 * Real.exp (-P.Qg / (2000 * P.gas_const)) := by
    refine ⟨(Lg_range h ht hn).1, mul_le_mul_of_nonneg_left (Real.exp_le_exp.mpr ?_) h.L0⟩
    have hp := h.Tmin_pos.trans_le (h.warm t ht n hn)
    have hc : capT (T t n) ≤ 2000 := by unfold capT; split_ifs with hT <;> linarith
    rw [neg_div, neg_div, neg_le_neg_iff]
    exact div_le_div_of_nonneg_left h.Qg (mul_pos hp h.gas) (mul_le_mul_of_nonneg_right hc h.gas.le)
  unfold StepOk anisoMax
  rw [if_neg h.iso, mul_one]
  unfold rate at hr
  set S := P.m_g / P.ad_hoc * (4 * (m : ℝ) - 2) + 2 * (P.kappa_g * P.ad_hoc * (1 / P.hx ^ 2 + 1 / P.hy ^ 2 + 1 / P.hz ^ 2))
  by_cases hS : 0 ≤ S
  · refine le_trans ?_ hr
    rw [mul_assoc]
    exact mul_le_mul_of_nonneg_left (mul_le_mul_of_nonneg_right hL.2 hS) hdt
  · have : dt * LgOf P (T t) n * S ≤ 0 := mul_nonpos_of_nonneg_of_nonpos (mul_nonneg hdt hL.1) (le_of_not_ge hS)
    linarith

theorem integrate_box (h : Physical th P T Te Tmin V) {dt : ℝ} (hdt : 0 ≤ dt) (hr : dt * rate P ≤ 1) {sol0 : ℕ → Fin m → ℝ} (h0 : ∀ n < P.N, ∀ o, 0 ≤ sol0 n o ∧ sol0 n o ≤ 1)
    (k : ℕ) (hk : k * dt ≤ Te) : ∀ n < P.N, ∀ o, 0 ≤ (integrate th P T sol0 dt k).1.1 n o ∧ (integrate th P T sol0 dt k).1.1 n o ≤ 1 := by
  induction k with
  | zero => exact h0
  | succ k ih =>
    intro n hn o
    have hk' : (k : ℝ) * dt + dt ≤ Te := by push_cast at hk; linarith
    have hm : (k : ℝ) * dt ∈ Icc 0 Te := ⟨by positivity, by linarith⟩
    have hs := integrate_state th P T sol0 dt k
    have := C64_step_bounds th h.th_range P h.m_g h.kappa h.ad_hoc h.L0 (T (k * dt)) (k * dt) ((k + 1 : ℕ) * dt) (by push_cast; linarith) (integrate th P T sol0 dt k).1.1 (ih hm.2)
      (fun n hn => by have e : ((k + 1 : ℕ) : ℝ) * dt - k * dt = dt := by push_cast; ring
                      rw [e]; exact stepOk h hdt hr hm hn) hn o
    rwa [← hs.2, ← hs.1] at this

theorem res_box {eta : ℕ → Fin m → ℝ} (h : ∀ n < P.N, ∀ o, 0 ≤ eta n o ∧ eta n o ≤ 1) : clip P (res P eta) = res P eta := clip_of_mem fun p => h p.1 p.1.2 p.2

theorem field_res (h : Physical th P T Te Tmin V) {t : ℝ} (ht : t ∈ Icc 0 Te) (eta : ℕ → Fin m → ℝ) (p : Fin P.N × Fin m) : field th P T t (res P eta) p = stateRhs th P (T t) eta p.1 p.2 :=
  rhs_congr h ht (fun n hn o => by rw [ext_apply _ hn]; rfl) p.1.2 p.2

/-- The error of the loop with respect to a solution of the clipped equations. -/
theorem run_error (h : Physical th P T Te Tmin V) {dt : ℝ} (hdt : 0 ≤ dt) (hr : dt * rate P ≤ 1) {sol0 : ℕ → Fin m → ℝ} (h0 : ∀ n < P.N, ∀ o, 0 ≤ sol0 n o ∧ sol0 n o ≤ 1)
    {z : ℝ → Vec P} (hz0 : z 0 = res P sol0) (hz : Solves (fun t v => field th P T t (clip P v)) Te z) (k : ℕ) (hk : k * dt ≤ Te) :
    ‖res P (integrate th P T sol0 dt k).1.1 - z (k * dt)‖ ≤ errConst P Te Tmin V * dt := by
  have hk0 : 0 ≤ (k : ℝ) * dt := by positivity
  have hKn : 0 ≤ P.L0 * K0 P 1 := mul_nonneg h.L0 (K0_nonneg h 1)
  have e := euler_error (nice h) hz hdt (fun k => res P (integrate th P T sol0 dt k).1.1) hz0.symm k (fun j hj => by
    have hjk : (j : ℝ) * dt ≤ k * dt := mul_le_mul_of_nonneg_right (by exact_mod_cast hj.le) hdt
    have hjm : (j : ℝ) * dt ∈ Icc 0 Te := ⟨by positivity, by linarith⟩
    funext p
    show (integrate th P T sol0 dt (j + 1)).1.1 p.1 p.2 = (integrate th P T sol0 dt j).1.1 p.1 p.2 + dt * field th P T (j * dt) (clip P (res P (integrate th P T sol0 dt j).1.1)) p
    rw [res_box (integrate_box h hdt hr h0 j hjm.2), field_res h hjm, integrate_step]) hk
  refine e.trans ?_
  unfold errConst
  have hC := cF_nonneg h
  have hTe : 0 ≤ Te := hk0.trans hk
  have hA : 0 ≤ P.L0 * K0 P 1 * (P.L0 * K0 P 1) + cF P Tmin V := by positivity
  set A := P.L0 * K0 P 1 * (P.L0 * K0 P 1) + cF P Tmin V
  have hexp : Real.exp (P.L0 * K0 P 1 * (k * dt)) ≤ Real.exp (P.L0 * K0 P 1 * Te) := Real.exp_le_exp.mpr (mul_le_mul_of_nonneg_left hk hKn)
  calc A * dt * (k * dt) * Real.exp (P.L0 * K0 P 1 * (k * dt)) ≤ A * dt * Te * Real.exp (P.L0 * K0 P 1 * Te) :=
        mul_le_mul (mul_le_mul_of_nonneg_left hk (mul_nonneg hA hdt)) hexp (Real.exp_pos _).le (by positivity)
    _ = _ := by ring

/-- The solution of the clipped equations stays between 0 and 1. -/
theorem clipped_box (h : Physical th P T Te Tmin V) {sol0 : ℕ → Fin m → ℝ} (h0 : ∀ n < P.N, ∀ o, 0 ≤ sol0 n o ∧ sol0 n o ≤ 1)
    {z : ℝ → Vec P} (hz0 : z 0 = res P sol0) (hz : Solves (fun t v => field th P T t (clip P v)) Te z) {t : ℝ} (ht : t ∈ Icc 0 Te) (p : Fin P.N × Fin m) : 0 ≤ z t p ∧ z t p ≤ 1 := by
  have hlim : Tendsto (fun q : ℕ => res P (integrate th P T sol0 (t / (q + 1 : ℕ)) (q + 1)).1.1 p) atTop (𝓝 (z t p)) := by
    have hsmall : Tendsto (fun q : ℕ => t / ((q + 1 : ℕ) : ℝ)) atTop (𝓝 0) := (tendsto_const_div_atTop_nhds_zero_nat t).comp (tendsto_add_atTop_nat 1)
    have hev : ∀ᶠ q : ℕ in atTop, t / ((q + 1 : ℕ) : ℝ) * rate P ≤ 1 := by
      have := hsmall.mul_const (rate P)
      rw [zero_mul] at this
      exact (this.eventually (gt_mem_nhds one_pos)).mono fun q hq => hq.le
    rw [tendsto_iff_dist_tendsto_zero]
    refine squeeze_zero' (Eventually.of_forall fun _ => dist_nonneg) (g := fun q : ℕ => errConst P Te Tmin V * (t / ((q + 1 : ℕ) : ℝ))) ?_ (by simpa using hsmall.const_mul (errConst P Te Tmin V))
    filter_upwards [hev] with q hq
    have e : ((q + 1 : ℕ) : ℝ) * (t / ((q + 1 : ℕ) : ℝ)) = t := mul_div_cancel₀ _ (by positivity)
    have := run_error h (div_nonneg ht.1 (by positivity)) hq h0 hz0 hz (q + 1) (by rw [e]; exact ht.2)
    rw [e] at this
    rw [Real.dist_eq]
    exact (norm_le_pi_norm (res P (integrate th P T sol0 (t / (q + 1 : ℕ)) (q + 1)).1.1 - z t) p).trans this
  have hb : ∀ᶠ q : ℕ in atTop, res P (integrate th P T sol0 (t / (q + 1 : ℕ)) (q + 1)).1.1 p ∈ Icc (0 : ℝ) 1 := by
    have hsmall : Tendsto (fun q : ℕ => t / ((q + 1 : ℕ) : ℝ)) atTop (𝓝 0) := (tendsto_const_div_atTop_nhds_zero_nat t).comp (tendsto_add_atTop_nat 1)
    have hev : ∀ᶠ q : ℕ in atTop, t / ((q + 1 : ℕ) : ℝ) * rate P ≤ 1 := by
      have := hsmall.mul_const (rate P)
      rw [zero_mul] at this
      exact (this.eventually (gt_mem_nhds one_pos)).mono fun q hq => hq.le
    filter_upwards [hev] with q hq
    have e : ((q + 1 : ℕ) : ℝ) * (t / ((q + 1 : ℕ) : ℝ)) = t := mul_div_cancel₀ _ (by positivity)
    exact integrate_box h (div_nonneg ht.1 (by positivity)) hq h0 (q + 1) (by rw [e]; exact ht.2) p.1 p.1.2 p.2
  exact isClosed_Icc.mem_of_tendsto hlim hb

/-- Two solutions with the same start agree. -/
theorem grows_unique (h : Physical th P T Te Tmin V) {y y' : ℝ → ℕ → Fin m → ℝ} (hy : Grows th P T Te y) (hy' : Grows th P T Te y') (h0 : ∀ n < P.N, ∀ o, y 0 n o = y' 0 n o) :
    ∀ t ∈ Icc 0 Te, ∀ n < P.N, ∀ o, y t n o = y' t n o := by
  have hd : ∀ {y : ℝ → ℕ → Fin m → ℝ}, Grows th P T Te y → ∀ t ∈ Icc 0 Te, HasDerivWithinAt (fun s => res P (y s)) (field th P T t (res P (y t))) (Icc 0 Te) t := by
    intro y hy t ht
    rw [hasDerivWithinAt_pi]
    intro p
    rw [field_res h ht]
    exact hy t ht p.1 p.1.2 p.2
  have hc : ∀ {y : ℝ → ℕ → Fin m → ℝ}, Grows th P T Te y → ContinuousOn (fun s => res P (y s)) (Icc 0 Te) := fun hy t ht => (hd hy t ht).continuousWithinAt
  obtain ⟨R1, hR1⟩ := isCompact_Icc.exists_bound_of_continuousOn (hc hy)
  obtain ⟨R2, hR2⟩ := isCompact_Icc.exists_bound_of_continuousOn (hc hy')
  set R := max (max R1 R2) 0
  have hKn : 0 ≤ P.L0 * K0 P R := mul_nonneg h.L0 (K0_nonneg h R)
  have := ODE_solution_unique_of_mem_Icc_right (v := field th P T) (s := fun _ => Metric.closedBall (0 : Vec P) R) (K := ⟨P.L0 * K0 P R, hKn⟩) (a := 0) (b := Te)
    (f := fun s => res P (y s)) (g := fun s => res P (y' s))
    (fun t ht => LipschitzOnWith.of_dist_le_mul fun x hx w hw => by
      rw [dist_eq_norm, dist_eq_norm]
      refine (pi_norm_le_iff_of_nonneg (mul_nonneg hKn (norm_nonneg _))).mpr fun p => ?_
      have hb : ∀ {x : Vec P}, x ∈ Metric.closedBall (0 : Vec P) R → ∀ n < P.N, ∀ o, |ext P x n o| ≤ R := fun {x} hx n hn o => by
        rw [ext_apply _ hn, ← Real.norm_eq_abs]
        exact (norm_le_pi_norm x _).trans (mem_closedBall_zero_iff.mp hx)
      exact rhs_lip h (Ico_subset_Icc_self ht) (hb hx) (hb hw) (fun n hn o => by
        rw [ext_apply _ hn, ext_apply _ hn, ← Pi.sub_apply, ← Real.norm_eq_abs]
        exact norm_le_pi_norm _ _) p.1.2 p.2)
    (hc hy) (fun t ht => (hd hy t (Ico_subset_Icc_self ht)).mono_of_mem_nhdsWithin (Icc_mem_nhdsGE_of_mem ht))
    (fun t ht => mem_closedBall_zero_iff.mpr ((hR1 t (Ico_subset_Icc_self ht)).trans ((le_max_left _ _).trans (le_max_left _ _))))
    (hc hy') (fun t ht => (hd hy' t (Ico_subset_Icc_self ht)).mono_of_mem_nhdsWithin (Icc_mem_nhdsGE_of_mem ht))
    (fun t ht => mem_closedBall_zero_iff.mpr ((hR2 t (Ico_subset_Icc_self ht)).trans ((le_max_right _ _).trans (le_max_left _ _))))
    (funext fun p => h0 p.1 p.1.2 p.2)
  intro t ht n hn o
  exact congrFun (this ht) (⟨n, hn⟩, o)

/-- A solution from between 0 and 1 is a solution of the clipped equations. -/
theorem solves_clipped (h : Physical th P T Te Tmin V) {y : ℝ → ℕ → Fin m → ℝ} (hy : Grows th P T Te y) (hb : ∀ t ∈ Icc 0 Te, ∀ n < P.N, ∀ o, 0 ≤ y t n o ∧ y t n o ≤ 1) :
    Solves (fun t v => field th P T t (clip P v)) Te (fun s => res P (y s)) := by
  intro t ht
  rw [hasDerivWithinAt_pi]
  intro p
  show HasDerivWithinAt _ (field th P T t (clip P (res P (y t))) p) _ _
  rw [res_box (hb t ht), field_res h ht]
  exact hy t ht p.1 p.1.2 p.2

/-! ## C149 -/

/-- **C149 (existence).** From every start with order parameters in `[0, 1]` the grain-growth equations have a solution on the whole time interval, and all order parameters stay in `[0, 1]`. -/
theorem C149_exists (h : Physical th P T Te Tmin V) (hT : 0 ≤ Te) (sol0 : ℕ → Fin m → ℝ) (h0 : ∀ n < P.N, ∀ o, 0 ≤ sol0 n o ∧ sol0 n o ≤ 1) :
    ∃ y, y 0 = sol0 ∧ Grows th P T Te y ∧ ∀ t ∈ Icc 0 Te, ∀ n < P.N, ∀ o, 0 ≤ y t n o ∧ y t n o ≤ 1 := by
  obtain ⟨z, hz0, hz⟩ := exists_solution (nice h) hT (res P sol0)
  have hbox : ∀ t ∈ Icc 0 Te, ∀ p, 0 ≤ z t p ∧ z t p ≤ 1 := fun t ht p => clipped_box h h0 hz0 hz ht p
  have hyz : ∀ t n (hn : n < P.N) o, (fun n o => if hn : n < P.N then z t (⟨n, hn⟩, o) else sol0 n o : ℕ → Fin m → ℝ) n o = z t (⟨n, hn⟩, o) := fun t n hn o => by simp [hn]
  refine ⟨fun t n o => if hn : n < P.N then z t (⟨n, hn⟩, o) else sol0 n o, ?_, ?_, ?_⟩
  · funext n o
    by_cases hn : n < P.N
    · exact (hyz 0 n hn o).trans (by rw [hz0]; rfl)
    · simp [hn]
  · intro t ht n hn o
    have := (hasDerivWithinAt_pi.mp (hz t ht)) (⟨n, hn⟩, o)
    have e : field th P T t (clip P (z t)) (⟨n, hn⟩, o) = stateRhs th P (T t) (fun n o => if hn : n < P.N then z t (⟨n, hn⟩, o) else sol0 n o) n o := by
      rw [clip_of_mem (hbox t ht)]
      exact rhs_congr h ht (fun n hn o => by rw [ext_apply _ hn]; exact (hyz t n hn o).symm) hn o
    rw [← e]
    refine this.congr_of_eventuallyEq (Eventually.of_forall fun s => hyz s n hn o) (hyz t n hn o)
  · intro t ht n hn o
    show 0 ≤ (if hn : n < P.N then z t (⟨n, hn⟩, o) else sol0 n o) ∧ (if hn : n < P.N then z t (⟨n, hn⟩, o) else sol0 n o) ≤ 1
    rw [dif_pos hn]
    exact hbox t ht _

/-- **C149 (uniqueness).** Two solutions with the same start agree, also if they are not assumed to stay in `[0, 1]`. -/
theorem C149_unique (h : Physical th P T Te Tmin V) {y y' : ℝ → ℕ → Fin m → ℝ} (hy : Grows th P T Te y) (hy' : Grows th P T Te y') (h0 : ∀ n < P.N, ∀ o, y 0 n o = y' 0 n o)
    {t : ℝ} (ht : t ∈ Icc 0 Te) {n : ℕ} (hn : n < P.N) (o : Fin m) : y t n o = y' t n o := grows_unique h hy hy' h0 t ht n hn o

theorem stays_in_box (h : Physical th P T Te Tmin V) {y : ℝ → ℕ → Fin m → ℝ} (hy : Grows th P T Te y) (h0 : ∀ n < P.N, ∀ o, 0 ≤ y 0 n o ∧ y 0 n o ≤ 1) :
    ∀ t ∈ Icc 0 Te, ∀ n < P.N, ∀ o, 0 ≤ y t n o ∧ y t n o ≤ 1 := by
  intro t ht n hn o
  obtain ⟨y', hy0, hy', hb⟩ := C149_exists h (ht.1.trans ht.2) (y 0) h0
  rw [grows_unique h hy hy' (fun n hn o => by rw [hy0]) t ht n hn o]
  exact hb t ht n hn o

/-- **C149 (error of the loop).** With a step that satisfies the step-size condition, every order parameter of the program differs after any number of passes from the solution by at most a constant times the step. -/
theorem C149_error (h : Physical th P T Te Tmin V) {y : ℝ → ℕ → Fin m → ℝ} (hy : Grows th P T Te y) {sol0 : ℕ → Fin m → ℝ} (hs : ∀ n < P.N, ∀ o, y 0 n o = sol0 n o)
    (h0 : ∀ n < P.N, ∀ o, 0 ≤ sol0 n o ∧ sol0 n o ≤ 1) {dt : ℝ} (hdt : 0 ≤ dt) (hr : dt * rate P ≤ 1) (k : ℕ) (hk : k * dt ≤ Te) {n : ℕ} (hn : n < P.N) (o : Fin m) :
    |(integrate th P T sol0 dt k).1.1 n o - y (k * dt) n o| ≤ errConst P Te Tmin V * dt := by
  have hb := stays_in_box h hy fun n hn o => by rw [hs n hn o]; exact h0 n hn o
  have := run_error h hdt hr h0 (z := fun s => res P (y s)) (funext fun p => hs p.1 p.1.2 p.2) (solves_clipped h hy hb) k hk
  exact (norm_le_pi_norm (res P (integrate th P T sol0 dt k).1.1 - res P (y (k * dt))) (⟨n, hn⟩, o)).trans this

/-- The end of the loop. -/
theorem program_time (tOff dt : ℝ) (hdt : 0 < dt) (ht : 0 < tOff + 1e-10) :
    let k := ⌈(tOff + 1e-10) / dt⌉₊ - 1
    (k : ℝ) * dt < tOff + 1e-10 ∧ tOff + 1e-10 - dt ≤ k * dt := by
  intro k
  have h1 : 1 ≤ ⌈(tOff + 1e-10) / dt⌉₊ := Nat.one_le_ceil_iff.mpr (div_pos ht hdt)
  have hk : (k : ℝ) = ⌈(tOff + 1e-10) / dt⌉₊ - 1 := by
    show (((⌈(tOff + 1e-10) / dt⌉₊ - 1 : ℕ)) : ℝ) = _
    rw [Nat.cast_sub h1, Nat.cast_one]
  have h2 := Nat.ceil_lt_add_one (div_pos ht hdt).le
  have h3 := Nat.le_ceil ((tOff + 1e-10) / dt)
  have e : (tOff + 1e-10) / dt * dt = tOff + 1e-10 := div_mul_cancel₀ _ hdt.ne'
  rw [hk]
  constructor
  · have := mul_lt_mul_of_pos_right h2 hdt
    linarith
  · have := mul_le_mul_of_nonneg_right h3 hdt.le
    linarith

/-- **C149 (program).** The program ends less than one step before `t_OFF + 1e-10`, and its final state differs from the solution at that time by at most a constant times the step. -/
theorem C149_program {tOff : ℝ} (ht : 0 < tOff + 1e-10) (h : Physical th P T (tOff + 1e-10) Tmin V) {y : ℝ → ℕ → Fin m → ℝ} (hy : Grows th P T (tOff + 1e-10) y) {sol0 : ℕ → Fin m → ℝ}
    (hs : ∀ n < P.N, ∀ o, y 0 n o = sol0 n o) (h0 : ∀ n < P.N, ∀ o, 0 ≤ sol0 n o ∧ sol0 n o ≤ 1) {dt : ℝ} (hdt : 0 < dt) (hr : dt * rate P ≤ 1) :
    (program th P T sol0 tOff dt).2 < tOff + 1e-10 ∧ tOff + 1e-10 - dt ≤ (program th P T sol0 tOff dt).2 ∧
    ∀ n < P.N, ∀ o, |(program th P T sol0 tOff dt).1 n o - y (program th P T sol0 tOff dt).2 n o| ≤ errConst P (tOff + 1e-10) Tmin V * dt := by
  have hp := program_time tOff dt hdt ht
  have e : (program th P T sol0 tOff dt).2 = ((⌈(tOff + 1e-10) / dt⌉₊ - 1 : ℕ) : ℝ) * dt := (integrate_state th P T sol0 dt _).1
  rw [e]
  exact ⟨hp.1, hp.2, fun n hn o => C149_error h hy hs h0 hdt.le hr _ hp.1.le hn o⟩

/-- **C149 (convergence).** As the time step goes to zero the result of the program converges to the solution of the grain-growth equations at `t_OFF + 1e-10`. -/
theorem C149_converges {tOff : ℝ} (ht : 0 < tOff + 1e-10) (h : Physical th P T (tOff + 1e-10) Tmin V) {y : ℝ → ℕ → Fin m → ℝ} (hy : Grows th P T (tOff + 1e-10) y) {sol0 : ℕ → Fin m → ℝ}
    (hs : ∀ n < P.N, ∀ o, y 0 n o = sol0 n o) (h0 : ∀ n < P.N, ∀ o, 0 ≤ sol0 n o ∧ sol0 n o ≤ 1) {n : ℕ} (hn : n < P.N) (o : Fin m) :
    Tendsto (fun dt => (program th P T sol0 tOff dt).1 n o) (𝓝[>] 0) (𝓝 (y (tOff + 1e-10) n o)) := by
  have hb := stays_in_box h hy fun n hn o => by rw [hs n hn o]; exact h0 n hn o
  have hsol := solves_clipped h hy hb
  have hid : Tendsto (fun dt : ℝ => dt) (𝓝[>] 0) (𝓝 0) := tendsto_id.mono_left nhdsWithin_le_nhds
  have hev : ∀ᶠ dt : ℝ in 𝓝[>] 0, dt * rate P ≤ 1 := by
    have := hid.mul_const (rate P)
    rw [zero_mul] at this
    exact (this.eventually (gt_mem_nhds one_pos)).mono fun q hq => hq.le
  have hev2 : ∀ᶠ dt : ℝ in 𝓝[>] 0, dt ≤ tOff + 1e-10 := (hid.eventually (gt_mem_nhds ht)).mono fun q hq => hq.le
  rw [tendsto_iff_dist_tendsto_zero]
  refine squeeze_zero' (Eventually.of_forall fun _ => dist_nonneg) (g := fun dt : ℝ => (errConst P (tOff + 1e-10) Tmin V + P.L0 * K0 P 1) * dt) ?_ (by simpa using hid.const_mul (errConst P (tOff + 1e-10) Tmin V + P.L0 * K0 P 1))
  filter_upwards [hev, hev2, self_mem_nhdsWithin] with dt hr hle hdt
  have hdt' : 0 < dt := hdt
  obtain ⟨p1, p2, p3⟩ := C149_program ht h hy hs h0 hdt' hr
  have hm : (program th P T sol0 tOff dt).2 ∈ Icc 0 (tOff + 1e-10) := ⟨by linarith, p1.le⟩
  have l := solution_lip (nice h) hsol hm (right_mem_Icc.mpr ht.le)
  have l' := (norm_le_pi_norm (res P (y (program th P T sol0 tOff dt).2) - res P (y (tOff + 1e-10))) (⟨n, hn⟩, o)).trans l
  have hab : |(program th P T sol0 tOff dt).2 - (tOff + 1e-10)| ≤ dt := by rw [abs_le]; constructor <;> linarith
  have hK := mul_nonneg h.L0 (K0_nonneg h 1)
  rw [Real.dist_eq]
  have e := p3 n hn o
  have l2 : |y (program th P T sol0 tOff dt).2 n o - y (tOff + 1e-10) n o| ≤ P.L0 * K0 P 1 * dt := l'.trans (mul_le_mul_of_nonneg_left hab hK)
  calc |(program th P T sol0 tOff dt).1 n o - y (tOff + 1e-10) n o|
      = |((program th P T sol0 tOff dt).1 n o - y (program th P T sol0 tOff dt).2 n o) + (y (program th P T sol0 tOff dt).2 n o - y (tOff + 1e-10) n o)| := by congr 1; ring
    _ ≤ _ := abs_add_le _ _
    _ ≤ _ := by linarith

/-! ## The single track of simple/example.py -/

/-- `tanh` has range `[-1, 1]` and slope at most 1. -/
theorem tanh_lip (x y : ℝ) : |Real.tanh x - Real.tanh y| ≤ |x - y| := by
  have hd : ∀ z : ℝ, HasDerivAt Real.tanh (1 / Real.cosh z ^ 2) z := by
    intro z
    have h1 : HasDerivAt (fun z => Real.sinh z / Real.cosh z) ((Real.cosh z * Real.cosh z - Real.sinh z * Real.sinh z) / Real.cosh z ^ 2) z :=
      (Real.hasDerivAt_sinh z).fun_div (Real.hasDerivAt_cosh z) (Real.cosh_pos z).ne'
    have e : (fun z => Real.sinh z / Real.cosh z) = Real.tanh := funext fun z => (Real.tanh_eq_sinh_div_cosh z).symm
    rw [e] at h1
    refine h1.congr_deriv ?_
    rw [← sq, ← sq, Real.cosh_sq]
    ring_nf
  have := Convex.norm_image_sub_le_of_norm_hasDerivWithin_le (f := Real.tanh) (f' := fun z => 1 / Real.cosh z ^ 2) (C := 1) (s := univ) (x := y) (y := x)
    (fun z _ => (hd z).hasDerivWithinAt) (fun z _ => by
      rw [Real.norm_eq_abs, abs_of_nonneg (by positivity)]
      exact div_le_one_of_le₀ (one_le_pow₀ (Real.one_le_cosh z)) (by positivity)) convex_univ (mem_univ _) (mem_univ _)
  simpa [Real.norm_eq_abs] using this

theorem capT_min (T : ℝ) : capT T = min T 2000 := by
  unfold capT
  split_ifs with h
  · rw [min_eq_right h.le]
  · rw [min_eq_left (not_lt.mp h)]

theorem capT_lip (a b : ℝ) : |capT a - capT b| ≤ |a - b| := by
  rw [capT_min, capT_min]
  exact (abs_min_sub_min_le_max _ _ _ _).trans (max_le le_rfl (by simp))

/-- A smooth function of time changes at a bounded rate on a bounded interval. -/
theorem smooth_lip {g : ℝ → ℝ} (hg : ContDiff ℝ 1 g) (Te : ℝ) : ∃ V, 0 ≤ V ∧ ∀ s ∈ Icc 0 Te, ∀ t ∈ Icc 0 Te, |g s - g t| ≤ V * |s - t| := by
  obtain ⟨V, hV⟩ := isCompact_Icc.exists_bound_of_continuousOn (s := Icc 0 Te) (hg.continuous_deriv le_rfl).continuousOn
  refine ⟨max V 0, le_max_right _ _, fun s hs t ht => ?_⟩
  have := Convex.norm_image_sub_le_of_norm_deriv_le (f := g) (C := max V 0) (fun x _ => (hg.differentiable one_ne_zero).differentiableAt) (fun x hx => (hV x hx).trans (le_max_left _ _)) (convex_Icc 0 Te) ht hs
  simpa [Real.norm_eq_abs] using this

/-- The temperature of a cell whose centroid is not on the surface is a smooth function of time. -/
theorem simpleT_smooth (Tamb tOff : ℝ) (dom c : Fin 3 → ℝ) (hz : c 2 ≠ dom 2) : ContDiff ℝ 1 fun t => simpleT Tamb tOff dom t c := by
  have hpos : ∀ t : ℝ, 0 < (c 0 - 0.2 * dom 0 - 0.6 * dom 0 / tOff * t) ^ 2 + (c 1 - 0.5 * dom 1) ^ 2 + (c 2 - dom 2) ^ 2 := fun t => by
    have := sq_pos_of_ne_zero (sub_ne_zero.mpr hz); positivity
  have hR : ContDiff ℝ 1 fun t : ℝ => √((c 0 - 0.2 * dom 0 - 0.6 * dom 0 / tOff * t) ^ 2 + (c 1 - 0.5 * dom 1) ^ 2 + (c 2 - dom 2) ^ 2) := by
    refine ContDiff.sqrt (by fun_prop) fun t => (hpos t).ne'
  unfold simpleT
  simp only
  refine contDiff_const.add ((contDiff_const.div hR fun t => (Real.sqrt_pos.mpr (hpos t)).ne').mul (ContDiff.exp ?_))
  exact contDiff_const.mul (hR.add (by fun_prop))

/-- **C149 (single track).** simple/example.py with an isotropic material whose constants have the physical signs, real `tanh`, and cells whose centroids are below the surface: the grain-growth equations have one solution from
the start `sol0`, it stays in `[0, 1]`, and the result of the program converges to it as the time step goes to zero, with an error of at most a constant times the step. -/
theorem C149_simple (P : PfArgs m d) (hiso : ¬ P.anisotropy > 0) (hm : 0 ≤ P.m_g) (hk : 0 ≤ P.kappa_g) (had : 0 < P.ad_hoc) (hL : 0 ≤ P.L0) (hQ : 0 ≤ P.Qg) (hg : 0 < P.gas_const) (hl : 0 < P.T_liquidus)
    (Tamb tOff : ℝ) (hA : 0 < Tamb) (ht : 0 < tOff + 1e-10) (dom : Fin 3 → ℝ) (c : ℕ → Fin 3 → ℝ) (hc : ∀ n < P.N, c n 2 ≠ dom 2) (sol0 : ℕ → Fin m → ℝ) (h0 : ∀ n < P.N, ∀ o, 0 ≤ sol0 n o ∧ sol0 n o ≤ 1) :
    let T := fun t n => simpleT Tamb tOff dom t (c n)
    ∃ y, y 0 = sol0 ∧ Grows Real.tanh P T (tOff + 1e-10) y ∧ (∀ t ∈ Icc 0 (tOff + 1e-10), ∀ n < P.N, ∀ o, 0 ≤ y t n o ∧ y t n o ≤ 1) ∧
      (∀ y', Grows Real.tanh P T (tOff + 1e-10) y' → (∀ n < P.N, ∀ o, y' 0 n o = sol0 n o) → ∀ t ∈ Icc 0 (tOff + 1e-10), ∀ n < P.N, ∀ o, y' t n o = y t n o) ∧
      (∃ A, ∀ dt, 0 < dt → dt * rate P ≤ 1 → ∀ n < P.N, ∀ o, |(program Real.tanh P T sol0 tOff dt).1 n o - y (program Real.tanh P T sol0 tOff dt).2 n o| ≤ A * dt) ∧
      ∀ n < P.N, ∀ o, Tendsto (fun dt => (program Real.tanh P T sol0 tOff dt).1 n o) (𝓝[>] 0) (𝓝 (y (tOff + 1e-10) n o)) := by
  intro T
  have hV : ∀ n, ∃ V, 0 ≤ V ∧ (n < P.N → ∀ s ∈ Icc 0 (tOff + 1e-10), ∀ t ∈ Icc 0 (tOff + 1e-10), |T s n - T t n| ≤ V * |s - t|) := by
    intro n
    by_cases hn : n < P.N
    · obtain ⟨V, h1, h2⟩ := smooth_lip (simpleT_smooth Tamb tOff dom (c n) (hc n hn)) (tOff + 1e-10)
      exact ⟨V, h1, fun _ => h2⟩
    · exact ⟨0, le_rfl, fun h => absurd h hn⟩
  choose V hV0 hV1 using hV
  have hamb : ∀ t n, Tamb ≤ T t n := by
    intro t n
    show Tamb ≤ simpleT Tamb tOff dom t (c n)
    unfold simpleT
    simp only
    have : (0 : ℝ) ≤ 25 / (2 * Real.pi * 27) / √((c n 0 - 0.2 * dom 0 - 0.6 * dom 0 / tOff * t) ^ 2 + (c n 1 - 0.5 * dom 1) ^ 2 + (c n 2 - dom 2) ^ 2)
        * Real.exp (-(0.6 * dom 0 / tOff) / (2 * 5.2e-6) * (√((c n 0 - 0.2 * dom 0 - 0.6 * dom 0 / tOff * t) ^ 2 + (c n 1 - 0.5 * dom 1) ^ 2 + (c n 2 - dom 2) ^ 2) + (c n 0 - 0.2 * dom 0 - 0.6 * dom 0 / tOff * t))) := by
      have := Real.pi_pos
      positivity
    linarith
  have h : Physical Real.tanh P T (tOff + 1e-10) (min Tamb 2000) (∑ n ∈ Finset.range P.N, V n) := by
    refine ⟨fun x => ⟨(Real.neg_one_lt_tanh x).le, (Real.tanh_lt_one x).le⟩, tanh_lip, hiso, hm, hk, had, hL, hQ, hg, hl, lt_min hA (by norm_num), Finset.sum_nonneg fun n _ => hV0 n, fun t _ n _ => ?_, fun s hs t ht n hn => ?_⟩
    · rw [capT_min]; exact min_le_min (hamb t n) le_rfl
    · refine (capT_lip _ _).trans ((hV1 n hn s hs t ht).trans (mul_le_mul_of_nonneg_right ?_ (abs_nonneg _)))
      exact Finset.single_le_sum (fun n _ => hV0 n) (Finset.mem_range.mpr hn)
  obtain ⟨y, hy0, hy, hb⟩ := C149_exists h ht.le sol0 h0
  have hs : ∀ n < P.N, ∀ o, y 0 n o = sol0 n o := fun n _ o => by rw [hy0]
  refine ⟨y, hy0, hy, hb, fun y' hy' hs' t htt n hn o => grows_unique h hy' hy (fun n hn o => by rw [hs' n hn o, hs n hn o]) t htt n hn o,
    ⟨_, fun dt hdt hr n hn o => (C149_program ht h hy hs h0 hdt hr).2.2 n hn o⟩, fun n hn o => C149_converges ht h hy hs h0 hn o⟩

/-- Instance: the material of simple/pf_params.yaml, one cell with two orientations below the surface. -/
example : ∃ (P : PfArgs 2 0) (c : ℕ → Fin 3 → ℝ) (dom : Fin 3 → ℝ), 0 < P.N ∧ ¬ P.anisotropy > 0 ∧ 0 < P.m_g ∧ 0 < P.kappa_g ∧ 0 < P.ad_hoc ∧ 0 < P.L0 ∧ 0 < P.Qg ∧ 0 < P.gas_const ∧ 0 < P.T_liquidus ∧
    (∀ n < P.N, c n 2 ≠ dom 2) ∧ ∃ dt, 0 < dt ∧ dt * rate P ≤ 1 := by
  refine ⟨⟨1, 1, 1, 1e-6, 1e-6, 1e-6, 2.4e5, 2.77e-6, 1, 3.5e3, 1.4e5, 8.3, 1623, 0, fun _ _ _ => 0⟩, fun _ => ![5e-7, 5e-7, 5e-7], ![1e-6, 1e-6, 1e-6],
    by simp [PfArgs.N], by norm_num, by norm_num, by norm_num, by norm_num, by norm_num, by norm_num, by norm_num, by norm_num, ?_, 1e-11, by norm_num, ?_⟩
  · intro n _
    show (5e-7 : ℝ) ≠ 1e-6
    norm_num
  · unfold rate
    have h1 : Real.exp (-(700 / 83)) ≤ 1 := Real.exp_le_one_iff.mpr (by norm_num)
    norm_num
    linarith

end Verif.PhaseField.Ode
