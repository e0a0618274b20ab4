import Verif.PhaseField.AllenCahnProps
import Verif.Mesh.Props
import Mathlib.Algebra.Order.Floor.Semiring

/-!
# One-way coupling of the flow solver and the phase-field solver (model of applications/phase_field/coupled/example.py 23-121)
-/

namespace Verif.PhaseField
open Verif.Mesh

variable {m d : ℕ} {S : Type}

/-! ## Model -/

/-- The flow solver: `time_integration` and `T[:,:,:,0]` (any solver; `AM_3d` is modelled in Cfd/Am3d). -/
structure Flow (S : Type) where
  advance : S → S
  temp : S → Arr3 ℝ

/-- `interpolate_T` (coupled/example.py 38-42). -/
noncomputable def interpolateT (Dt : ℝ) (T_past T_future : Arr3 ℝ) (t_pf t_cfd : ℝ) : Arr3 ℝ :=
  let ratio := (t_cfd - t_pf) / Dt
  ⟨T_past.n0, T_past.n1, T_past.n2, fun i j k => ratio * T_past.get i j k + (1 - ratio) * T_future.get i j k⟩

/-- The variables of the loop: the state of the flow solver, `T_past`, `T_future`, `t_cfd`, `cfd_step`, and `pf_state`. -/
structure CoupledSt (m : ℕ) (S : Type) where
  flow : S
  past : Arr3 ℝ
  future : Arr3 ℝ
  t_cfd : ℝ
  cfd_step : ℕ
  pf : (ℕ → Fin m → ℝ) × ℝ

/-- Before the loop (coupled/example.py 75-94): one step of the flow solver has been done. -/
def coupledInit (C : Flow S) (Dt : ℝ) (s0 : S) (sol0 : ℕ → Fin m → ℝ) : CoupledSt m S := ⟨C.advance s0, C.temp s0, C.temp (C.advance s0), Dt, 1, (sol0, 0)⟩

/-- The condition and the flow step (coupled/example.py 98-103). The program uses `slack = cfd_args['dt']`. -/
noncomputable def advanceFlow (C : Flow S) (Dt slack t_pf : ℝ) (s : CoupledSt m S) : CoupledSt m S :=
  if t_pf > s.t_cfd + slack then { s with flow := C.advance s.flow, past := s.future, future := C.temp (C.advance s.flow), t_cfd := s.t_cfd + Dt, cfd_step := s.cfd_step + 1 } else s

/-- `T_pf` (coupled/example.py 110) after the flow solver has been advanced. -/
noncomputable def coupledT (Dt t_pf : ℝ) (s : CoupledSt m S) : Arr1 ℝ := convertTemperature (interpolateT Dt s.past s.future t_pf s.t_cfd)

/-- One pass of the loop (coupled/example.py 96-111). -/
noncomputable def coupledStep (th : ℝ → ℝ) (P : PfArgs m d) (C : Flow S) (Dt slack t_pf : ℝ) (s : CoupledSt m S) : CoupledSt m S :=
  let s := advanceFlow C Dt slack t_pf s
  { s with pf := stepper th P s.pf t_pf (coupledT Dt t_pf s).get }

/-- The state after `n` passes; the times are those of `arange(0, ..., dt)` (coupled/example.py 77). -/
noncomputable def coupledAt (th : ℝ → ℝ) (P : PfArgs m d) (C : Flow S) (Dt dt slack : ℝ) (s0 : S) (sol0 : ℕ → Fin m → ℝ) : ℕ → CoupledSt m S
  | 0 => coupledInit C Dt s0 sol0
  | n + 1 => coupledStep th P C Dt slack ((n + 1 : ℕ) * dt) (coupledAt th P C Dt dt slack s0 sol0 n)

/-- `coupled_integrator` (coupled/example.py 73-111; files and messages are left out): the final state. -/
noncomputable def coupledProgram (th : ℝ → ℝ) (P : PfArgs m d) (C : Flow S) (Dt dt tOff : ℝ) (s0 : S) (sol0 : ℕ → Fin m → ℝ) : Except String (CoupledSt m S) :=
  open Classical in if Dt ≥ dt then .ok (coupledAt th P C Dt dt Dt s0 sol0 (⌈(tOff + 1e-10) / dt⌉₊ - 1)) else .error "AssertionError"

/-! ## Specification -/

/-- The temperature of grid cell `(i, j, k)` after `q` steps of the flow solver. -/
def flowT (C : Flow S) (s0 : S) (q : ℕ) (i j k : ℕ) : ℝ := (C.temp (C.advance^[q] s0)).get i j k

/-- The line through the temperatures after `q - 1` and `q` steps, at time `t`. -/
noncomputable def lineT (C : Flow S) (Dt : ℝ) (s0 : S) (q : ℕ) (t : ℝ) (i j k : ℕ) : ℝ := flowT C s0 q i j k + (t - q * Dt) / Dt * (flowT C s0 q i j k - flowT C s0 (q - 1) i j k)

/-- What the loop keeps: after `q` steps of the flow solver. -/
structure Holds (C : Flow S) (Dt : ℝ) (s0 : S) (q : ℕ) (s : CoupledSt m S) : Prop where
  pos : 1 ≤ q
  flow : s.flow = C.advance^[q] s0
  past : s.past = C.temp (C.advance^[q - 1] s0)
  future : s.future = C.temp (C.advance^[q] s0)
  time : s.t_cfd = q * Dt
  step : s.cfd_step = q

theorem init_holds (C : Flow S) (Dt : ℝ) (s0 : S) (sol0 : ℕ → Fin m → ℝ) : Holds C Dt s0 1 (coupledInit C Dt s0 sol0) := ⟨le_rfl, rfl, rfl, rfl, by simp [coupledInit], rfl⟩

theorem advance_holds (C : Flow S) (Dt slack t : ℝ) (s0 : S) (q : ℕ) (s : CoupledSt m S) (h : Holds C Dt s0 q s) :
    Holds C Dt s0 (open Classical in if t > q * Dt + slack then q + 1 else q) (advanceFlow C Dt slack t s) := by
  unfold advanceFlow
  rw [h.time]
  by_cases hc : t > q * Dt + slack
  · rw [if_pos hc, if_pos hc]
    exact ⟨by omega, by rw [Function.iterate_succ_apply', ← h.flow], h.future, by rw [Function.iterate_succ_apply', ← h.flow], by push_cast; ring, by rw [← h.step]⟩
  · rw [if_neg hc, if_neg hc]
    exact h

/-- The number of steps of the flow solver that have been done when the loop treats time `t`. -/
noncomputable def callsAt (Dt slack t : ℝ) : ℕ := max 1 (⌈(t - slack) / Dt⌉₊)

theorem calls_step (Dt slack t t' : ℝ) (hD : 0 < Dt) (htt : t ≤ t') (ht : t' ≤ t + Dt) :
    (open Classical in if t' > callsAt Dt slack t * Dt + slack then callsAt Dt slack t + 1 else callsAt Dt slack t) = callsAt Dt slack t' := by
  have hmul : ∀ (x : ℝ) (c : ℕ), (x - slack) / Dt ≤ c ↔ x ≤ c * Dt + slack := fun x c => by
    rw [div_le_iff₀ hD]
    constructor <;> intro h <;> linarith
  have hq : t ≤ callsAt Dt slack t * Dt + slack := (hmul t _).mp (Nat.ceil_le.mp (le_max_right _ _))
  have hup : ⌈(t' - slack) / Dt⌉₊ ≤ callsAt Dt slack t + 1 := Nat.ceil_le.mpr ((hmul t' _).mpr (by push_cast; linarith))
  have h1 : 1 ≤ callsAt Dt slack t := le_max_left _ _
  by_cases hc : t' > callsAt Dt slack t * Dt + slack
  · rw [if_pos hc]
    have : callsAt Dt slack t < ⌈(t' - slack) / Dt⌉₊ := by
      by_contra hn
      have := (hmul t' _).mp (Nat.ceil_le.mp (not_lt.mp hn))
      linarith
    show _ = max 1 _
    omega
  · rw [if_neg hc]
    have h2 : ⌈(t' - slack) / Dt⌉₊ ≤ callsAt Dt slack t := Nat.ceil_le.mpr ((hmul t' _).mpr (not_lt.mp hc))
    have h3 : ⌈(t - slack) / Dt⌉₊ ≤ ⌈(t' - slack) / Dt⌉₊ := Nat.ceil_le_ceil (by gcongr)
    have h4 : callsAt Dt slack t = max 1 ⌈(t - slack) / Dt⌉₊ := rfl
    show _ = max 1 _
    omega

/-- **C142 (bookkeeping).** If the phase-field step is not larger than the flow step, the flow solver has done `max(1, ⌈(t - slack)/Dt⌉)` steps when the phase-field solver is at `t` — in the program (`slack = Dt`), for `t > Dt`, one less than would be needed to reach `t` — and the two fields kept are the last two. -/
theorem C142_calls (th : ℝ → ℝ) (P : PfArgs m d) (C : Flow S) (Dt dt slack : ℝ) (hdt : 0 < dt) (hle : dt ≤ Dt) (hs : 0 ≤ slack) (s0 : S) (sol0 : ℕ → Fin m → ℝ) (n : ℕ) :
    Holds C Dt s0 (callsAt Dt slack (n * dt)) (coupledAt th P C Dt dt slack s0 sol0 n) := by
  induction n with
  | zero =>
    have : callsAt Dt slack ((0 : ℕ) * dt) = 1 := by
      unfold callsAt
      rw [max_eq_left]
      refine Nat.ceil_le.mpr (le_trans ?_ (by norm_num : (0 : ℝ) ≤ ((1 : ℕ) : ℝ)))
      refine div_nonpos_of_nonpos_of_nonneg ?_ (by linarith)
      push_cast
      linarith
    rw [this]
    exact init_holds C Dt s0 sol0
  | succ n ih =>
    have h := advance_holds C Dt slack ((n + 1 : ℕ) * dt) s0 _ _ ih
    rw [calls_step Dt slack _ _ (by linarith) (by push_cast; linarith) (by push_cast; linarith)] at h
    exact ⟨h.pos, h.flow, h.past, h.future, h.time, h.step⟩

/-- The number of flow steps in the program and with the condition `t_pf > t_cfd`. -/
theorem calls_bounds (Dt slack t : ℝ) (hD : 0 < Dt) : 1 ≤ callsAt Dt slack t ∧ t ≤ callsAt Dt slack t * Dt + slack ∧ (2 ≤ callsAt Dt slack t → (callsAt Dt slack t - 1 : ℝ) * Dt + slack < t) := by
  refine ⟨le_max_left _ _, ?_, fun h2 => ?_⟩
  · have := Nat.ceil_le.mp (le_max_right 1 ⌈(t - slack) / Dt⌉₊)
    rw [div_le_iff₀ hD] at this
    show t ≤ (max 1 _ : ℕ) * Dt + slack
    linarith
  · have h : callsAt Dt slack t = ⌈(t - slack) / Dt⌉₊ := by
      have : callsAt Dt slack t = max 1 ⌈(t - slack) / Dt⌉₊ := rfl
      omega
    by_contra hn
    have h3 : (t - slack) / Dt ≤ ((callsAt Dt slack t - 1 : ℕ) : ℝ) := by
      rw [div_le_iff₀ hD, Nat.cast_sub (by omega)]
      push_cast
      linarith
    have := Nat.ceil_le.mpr h3
    omega

/-- **C142 (temperature).** The temperature that step `n + 1` of the phase-field solver gets at the cell with grid indices `(i, j, k)` is the value at time `t` — the end of the step — of the line through the last two fields of the flow solver, whatever the slack. -/
theorem C142_temperature (th : ℝ → ℝ) (P : PfArgs m d) (C : Flow S) (Dt dt slack : ℝ) (hdt : 0 < dt) (hle : dt ≤ Dt) (hs : 0 ≤ slack) (s0 : S) (sol0 : ℕ → Fin m → ℝ) (nx ny nz : ℕ)
    (hshape : ∀ s, (C.temp s).n0 = nx ∧ (C.temp s).n1 = ny ∧ (C.temp s).n2 = nz) (n : ℕ) :
    ∃ T : ℕ → ℝ, (coupledAt th P C Dt dt slack s0 sol0 (n + 1)).pf = stepper th P (coupledAt th P C Dt dt slack s0 sol0 n).pf ((n + 1 : ℕ) * dt) T ∧
      ∀ i j k, i < nx → j < ny → k < nz → T ((k * ny + j) * nx + i) = lineT C Dt s0 (callsAt Dt slack ((n + 1 : ℕ) * dt)) ((n + 1 : ℕ) * dt) i j k := by
  have hD : 0 < Dt := by linarith
  refine ⟨(coupledT Dt ((n + 1 : ℕ) * dt) (coupledAt th P C Dt dt slack s0 sol0 (n + 1))).get, ?_, ?_⟩
  · show (coupledAt th P C Dt dt slack s0 sol0 (n + 1)).pf = stepper th P (coupledAt th P C Dt dt slack s0 sol0 n).pf ((n + 1 : ℕ) * dt) (coupledT Dt ((n + 1 : ℕ) * dt) (coupledAt th P C Dt dt slack s0 sol0 (n + 1))).get
    show stepper th P (advanceFlow C Dt slack _ (coupledAt th P C Dt dt slack s0 sol0 n)).pf _ _ = _
    have : (advanceFlow C Dt slack ((n + 1 : ℕ) * dt) (coupledAt th P C Dt dt slack s0 sol0 n)).pf = (coupledAt th P C Dt dt slack s0 sol0 n).pf := by
      unfold advanceFlow
      split_ifs <;> rfl
    rw [this]
    rfl
  · intro i j k hi hj hk
    have h := C142_calls th P C Dt dt slack hdt hle hs s0 sol0 (n + 1)
    have hp : (coupledAt th P C Dt dt slack s0 sol0 (n + 1)).past.n0 = nx ∧ (coupledAt th P C Dt dt slack s0 sol0 (n + 1)).past.n1 = ny ∧ (coupledAt th P C Dt dt slack s0 sol0 (n + 1)).past.n2 = nz := by
      rw [h.past]; exact hshape _
    have hc := ((C06_convert_temperature (interpolateT Dt (coupledAt th P C Dt dt slack s0 sol0 (n + 1)).past (coupledAt th P C Dt dt slack s0 sol0 (n + 1)).future ((n + 1 : ℕ) * dt) (coupledAt th P C Dt dt slack s0 sol0 (n + 1)).t_cfd)).2 i j k (hp.1.symm ▸ hi) (hp.2.1.symm ▸ hj) (hp.2.2.symm ▸ hk)).2
    have e1 : (interpolateT Dt (coupledAt th P C Dt dt slack s0 sol0 (n + 1)).past (coupledAt th P C Dt dt slack s0 sol0 (n + 1)).future ((n + 1 : ℕ) * dt) (coupledAt th P C Dt dt slack s0 sol0 (n + 1)).t_cfd).n0 = nx := hp.1
    have e2 : (interpolateT Dt (coupledAt th P C Dt dt slack s0 sol0 (n + 1)).past (coupledAt th P C Dt dt slack s0 sol0 (n + 1)).future ((n + 1 : ℕ) * dt) (coupledAt th P C Dt dt slack s0 sol0 (n + 1)).t_cfd).n1 = ny := hp.2.1
    rw [e1, e2] at hc
    show (coupledT _ _ _).get _ = _
    unfold coupledT
    rw [hc]
    unfold lineT flowT interpolateT
    rw [h.past, h.future, h.time]
    show ((callsAt Dt slack ((n + 1 : ℕ) * dt) : ℝ) * Dt - ((n + 1 : ℕ) : ℝ) * dt) / Dt * _ + (1 - ((callsAt Dt slack ((n + 1 : ℕ) * dt) : ℝ) * Dt - ((n + 1 : ℕ) : ℝ) * dt) / Dt) * _ = _
    field_simp
    ring

/-- **C142 (extrapolation; finding).** In the program, as soon as the phase-field solver is past the first flow step, the temperature is extrapolated: the later of the two fields belongs to a time before the time of evaluation, by up to one flow step. Only in the first flow step the fields enclose the time. -/
theorem C142_extrapolates (Dt t : ℝ) (hD : 0 < Dt) : (Dt < t → callsAt Dt Dt t * Dt < t ∧ t ≤ (callsAt Dt Dt t + 1) * Dt) ∧ (t ≤ Dt → callsAt Dt Dt t = 1) := by
  obtain ⟨h1, h2, h3⟩ := calls_bounds Dt Dt t hD
  refine ⟨fun ht => ⟨?_, by linarith⟩, fun ht => ?_⟩
  · rcases eq_or_lt_of_le h1 with h | h
    · rw [← h]; push_cast; linarith
    · have := h3 h; linarith
  · by_contra hn
    have := h3 (by omega)
    have h4 : (2 : ℝ) ≤ callsAt Dt Dt t := by exact_mod_cast (by omega : 2 ≤ callsAt Dt Dt t)
    nlinarith

/-- **C142 (repaired).** With `t_pf > t_cfd` the two fields always enclose the time of evaluation, and the temperature is between the two values of the flow solver. -/
theorem C142_repaired (C : Flow S) (Dt t : ℝ) (hD : 0 < Dt) (ht : 0 ≤ t) (s0 : S) (i j k : ℕ) :
    (callsAt Dt 0 t - 1 : ℝ) * Dt ≤ t ∧ t ≤ callsAt Dt 0 t * Dt ∧
    min (flowT C s0 (callsAt Dt 0 t - 1) i j k) (flowT C s0 (callsAt Dt 0 t) i j k) ≤ lineT C Dt s0 (callsAt Dt 0 t) t i j k ∧ lineT C Dt s0 (callsAt Dt 0 t) t i j k ≤ max (flowT C s0 (callsAt Dt 0 t - 1) i j k) (flowT C s0 (callsAt Dt 0 t) i j k) := by
  obtain ⟨h1, h2, h3⟩ := calls_bounds Dt 0 t hD
  have hlo : (callsAt Dt 0 t - 1 : ℝ) * Dt ≤ t := by
    rcases eq_or_lt_of_le h1 with h | h
    · rw [← h]; push_cast; linarith
    · have := h3 h; linarith
  have hhi : t ≤ callsAt Dt 0 t * Dt := by linarith
  refine ⟨hlo, hhi, ?_⟩
  unfold lineT
  generalize flowT C s0 (callsAt Dt 0 t) i j k = b
  generalize flowT C s0 (callsAt Dt 0 t - 1) i j k = a
  have hr1 : (t - callsAt Dt 0 t * Dt) / Dt ≤ 0 := div_nonpos_of_nonpos_of_nonneg (by linarith) hD.le
  have hr2 : -1 ≤ (t - callsAt Dt 0 t * Dt) / Dt := by rw [le_div_iff₀ hD]; linarith
  generalize (t - callsAt Dt 0 t * Dt) / Dt = r at *
  constructor
  · rcases le_total a b with h | h
    · rw [min_eq_left h]; nlinarith
    · rw [min_eq_right h]; nlinarith
  · rcases le_total a b with h | h
    · rw [max_eq_right h]; nlinarith
    · rw [max_eq_left h]; nlinarith

/-- **C142 (size of the error).** Compared with the interpolation between the fields around `t`, the extrapolation is off by the second difference of the flow temperatures, weighted with the part of the flow step that has passed; so the two agree for temperatures that change at a constant rate. -/
theorem C142_difference (C : Flow S) (Dt : ℝ) (hD : Dt ≠ 0) (s0 : S) (q : ℕ) (t : ℝ) (i j k : ℕ) :
    lineT C Dt s0 q t i j k - lineT C Dt s0 (q + 1) t i j k = -((t - q * Dt) / Dt) * (flowT C s0 (q + 1) i j k - 2 * flowT C s0 q i j k + flowT C s0 (q - 1) i j k) := by
  unfold lineT
  rw [Nat.add_sub_cancel]
  push_cast
  field_simp
  ring

/-- **C142 (range).** If all temperatures of the flow solver are in `[a, b]`, the temperatures used are in `[2a - b, 2b - a]`. -/
theorem C142_range (C : Flow S) (Dt t a b : ℝ) (hD : 0 < Dt) (ht : 0 ≤ t) (s0 : S) (i j k : ℕ) (hab : ∀ q, a ≤ flowT C s0 q i j k ∧ flowT C s0 q i j k ≤ b) :
    2 * a - b ≤ lineT C Dt s0 (callsAt Dt Dt t) t i j k ∧ lineT C Dt s0 (callsAt Dt Dt t) t i j k ≤ 2 * b - a := by
  obtain ⟨h1, h2⟩ := C142_extrapolates Dt t hD
  have hb : -1 ≤ (t - callsAt Dt Dt t * Dt) / Dt ∧ (t - callsAt Dt Dt t * Dt) / Dt ≤ 1 := by
    rw [le_div_iff₀ hD, div_le_iff₀ hD]
    rcases lt_or_ge Dt t with h | h
    · have := h1 h; constructor <;> linarith
    · rw [h2 h]; push_cast; constructor <;> linarith
  unfold lineT
  generalize (t - callsAt Dt Dt t * Dt) / Dt = r at *
  have hx := hab (callsAt Dt Dt t)
  have hy := hab (callsAt Dt Dt t - 1)
  generalize flowT C s0 (callsAt Dt Dt t) i j k = x at *
  generalize flowT C s0 (callsAt Dt Dt t - 1) i j k = y at *
  constructor <;> nlinarith

/-- A flow solver whose single cell goes 300, 3000, 300, 300, ... -/
def flash : Flow ℕ := ⟨fun s => s + 1, fun s => ⟨1, 1, 1, fun _ _ _ => if s = 1 then 3000 else 300⟩⟩

/-- **C142 (witness).** There is a flow solver with all temperatures at least 300 for which the phase-field solver gets a negative temperature. -/
theorem C142_negative : (∀ q i j k, 300 ≤ flowT flash 0 q i j k) ∧ lineT flash 1 0 (callsAt 1 1 3) 3 0 0 0 = -2400 := by
  have it : ∀ q : ℕ, flash.advance^[q] 0 = q := fun q => by
    induction q with
    | zero => rfl
    | succ q ih => rw [Function.iterate_succ_apply', ih]; rfl
  refine ⟨fun q i j k => ?_, ?_⟩
  · unfold flowT
    rw [it]
    show (300 : ℝ) ≤ if q = 1 then 3000 else 300
    split_ifs <;> norm_num
  · have hc : callsAt 1 1 3 = 2 := by
      unfold callsAt
      have : ⌈((3 : ℝ) - 1) / 1⌉₊ = 2 := by
        rw [show ((3 : ℝ) - 1) / 1 = ((2 : ℕ) : ℝ) by norm_num, Nat.ceil_natCast]
      rw [this]; rfl
    unfold lineT flowT
    rw [hc, it, it]
    show (if 2 = 1 then (3000 : ℝ) else 300) + (3 - ((2 : ℕ) : ℝ) * 1) / 1 * ((if 2 = 1 then (3000 : ℝ) else 300) - if 2 - 1 = 1 then 3000 else 300) = -2400
    norm_num

/-- **C142 (consequence).** A negative temperature makes the grain boundary mobility larger than its prefactor `L0`, which no positive temperature does. -/
theorem C142_mobility (P : PfArgs m d) (T : ℕ → ℝ) (n : ℕ) (hL : 0 < P.L0) (hQ : 0 < P.Qg) (hR : 0 < P.gas_const) : (T n < 0 → P.L0 < LgOf P T n) ∧ (0 < T n → LgOf P T n < P.L0) := by
  refine ⟨fun h => ?_, fun h => ?_⟩
  · have hc : capT (T n) = T n := if_neg (by linarith)
    have : 0 < -P.Qg / (T n * P.gas_const) := div_pos_of_neg_of_neg (by linarith) (mul_neg_of_neg_of_pos h hR)
    have he := Real.one_lt_exp_iff.mpr this
    unfold LgOf
    rw [hc]
    nlinarith
  · have hc : 0 < capT (T n) := by unfold capT; split_ifs <;> linarith
    have : -P.Qg / (capT (T n) * P.gas_const) < 0 := div_neg_of_neg_of_pos (by linarith) (mul_pos hc hR)
    have he : Real.exp (-P.Qg / (capT (T n) * P.gas_const)) < 1 := by rw [← Real.exp_zero]; exact Real.exp_lt_exp.mpr this
    unfold LgOf
    nlinarith

/-- **C142 (run).** The order parameters advance by explicit Euler steps of length `dt`; step `n + 1` goes from `n dt` to `(n + 1) dt` and uses a temperature of its end time. -/
theorem C142_run (th : ℝ → ℝ) (P : PfArgs m d) (C : Flow S) (Dt dt slack : ℝ) (s0 : S) (sol0 : ℕ → Fin m → ℝ) (n : ℕ) :
    (coupledAt th P C Dt dt slack s0 sol0 n).pf.2 = n * dt ∧
    (coupledAt th P C Dt dt slack s0 sol0 (n + 1)).pf.1 = (coupledAt th P C Dt dt slack s0 sol0 n).pf.1 + dt • stateRhs th P (coupledT Dt ((n + 1 : ℕ) * dt) (coupledAt th P C Dt dt slack s0 sol0 (n + 1))).get (coupledAt th P C Dt dt slack s0 sol0 n).pf.1 := by
  have ht : (coupledAt th P C Dt dt slack s0 sol0 n).pf.2 = n * dt := by
    cases n with
    | zero => simp [coupledAt, coupledInit]
    | succ n => rfl
  refine ⟨ht, ?_⟩
  have : (advanceFlow C Dt slack ((n + 1 : ℕ) * dt) (coupledAt th P C Dt dt slack s0 sol0 n)).pf = (coupledAt th P C Dt dt slack s0 sol0 n).pf := by
    unfold advanceFlow
    split_ifs <;> rfl
  show (stepper th P (advanceFlow C Dt slack ((n + 1 : ℕ) * dt) (coupledAt th P C Dt dt slack s0 sol0 n)).pf _ _).1 = _
  rw [this]
  unfold stepper explicitEuler
  dsimp only
  rw [ht, show (((n + 1 : ℕ) : ℝ) * dt - n * dt) = dt by push_cast; ring]
  rfl

/-- **C142 (program).** The program stops with an AssertionError if the flow step is smaller than the phase-field step; otherwise it makes the steps of the loop up to the last time below `t_OFF + 1e-10`. -/
theorem C142_program (th : ℝ → ℝ) (P : PfArgs m d) (C : Flow S) (Dt dt tOff : ℝ) (hdt : 0 < dt) (htOff : 0 ≤ tOff) (s0 : S) (sol0 : ℕ → Fin m → ℝ) :
    (Dt < dt → coupledProgram th P C Dt dt tOff s0 sol0 = .error "AssertionError") ∧
    (dt ≤ Dt → ∃ n : ℕ, coupledProgram th P C Dt dt tOff s0 sol0 = .ok (coupledAt th P C Dt dt Dt s0 sol0 n) ∧ n * dt < tOff + 1e-10 ∧ tOff + 1e-10 ≤ (n + 1) * dt) := by
  refine ⟨fun h => if_neg (not_le.mpr h), fun h => ⟨⌈(tOff + 1e-10) / dt⌉₊ - 1, if_pos h, ?_, ?_⟩⟩
  · have hp : 0 < (tOff + 1e-10) / dt := div_pos (by norm_num; linarith) hdt
    have := Nat.ceil_lt_add_one hp.le
    have h1 : 1 ≤ ⌈(tOff + 1e-10) / dt⌉₊ := Nat.one_le_ceil_iff.mpr hp
    rw [Nat.cast_sub h1, ← lt_div_iff₀ hdt]
    push_cast
    linarith
  · have hp : 0 < (tOff + 1e-10) / dt := div_pos (by norm_num; linarith) hdt
    have h1 : 1 ≤ ⌈(tOff + 1e-10) / dt⌉₊ := Nat.one_le_ceil_iff.mpr hp
    rw [Nat.cast_sub h1, ← div_le_iff₀ hdt]
    push_cast
    linarith [Nat.le_ceil ((tOff + 1e-10) / dt)]

/-- Two phase-field steps per flow step: at times 0.5 and 1 (and even at 1.5 and 2) only one flow step has been done; the second is done for time 2.5. -/
example : callsAt 1 1 (1 / 2) = 1 ∧ callsAt 1 1 2 = 1 ∧ callsAt 1 1 (5 / 2) = 2 ∧ callsAt 1 0 (5 / 2) = 3 := by
  have h : ∀ (x : ℝ) (q : ℕ), (q : ℝ) < x → x ≤ q + 1 → ⌈x⌉₊ = q + 1 := fun x q h1 h2 => by
    refine le_antisymm (Nat.ceil_le.mpr (by push_cast; exact h2)) (Nat.lt_ceil.mpr h1)
  unfold callsAt
  refine ⟨?_, ?_, ?_, ?_⟩
  · rw [Nat.ceil_eq_zero.mpr (by norm_num)]; rfl
  · rw [h _ 0 (by norm_num) (by norm_num)]; rfl
  · rw [h _ 1 (by norm_num) (by norm_num)]; rfl
  · rw [h _ 2 (by norm_num) (by norm_num)]; rfl

end Verif.PhaseField
