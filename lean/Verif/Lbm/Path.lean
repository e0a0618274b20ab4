import Verif.Base.Tactics
import Mathlib.Analysis.Real.Sqrt
import Mathlib.Algebra.Order.Floor.Semiring
import Mathlib.Algebra.BigOperators.Intervals
import Mathlib.Data.List.GetD

/-!
# Laser path sampling `read_path` (jax_am/lbm/core.py 521-543), property C46
-/
namespace Verif.Lbm.Path
open Finset

/-- Error values of the numpy operations used. -/
inductive Err | indexError | valueError
  deriving DecidableEq, Repr

/-- `np.arange(start, stop, step)`: `ceil((stop - start)/step)` samples `start + i*step`. -/
noncomputable def arange (start stop step : ℝ) : List ℝ :=
  (List.range ⌈(stop - start) / step⌉₊).map fun i : ℕ => start + (i : ℝ) * step

/-- `np.linspace(a, b, m)`: step `(b-a)/(m-1)`; a single sample is `a` (here `x/0 = 0` plays the role of numpy's special case). -/
noncomputable def linspace (a b : ℝ) (m : ℕ) : List ℝ :=
  (List.range m).map fun i : ℕ => a + (i : ℝ) * ((b - a) / ((m : ℝ) - 1))

/-- Accumulator of the loop (core.py 525-526). -/
structure Acc where
  ts : List ℝ
  xs : List ℝ
  ys : List ℝ
  ps : List ℝ
  t_pre : ℝ

/-- `l[i]` for a non-negative index. -/
def get (l : List ℝ) (i : ℕ) : Except Err ℝ :=
  match l[i]? with
  | some x => .ok x
  | none => .error .indexError

/-- Loop body (core.py 528-540); the lists are concatenated at once instead of by the final `hstack`. -/
noncomputable def body (x_corners y_corners power_control : List ℝ) (vel dt : ℝ) (a : Acc) (i : ℕ) :
    Except Err Acc := do
  let x0 ← get x_corners i
  let x1 ← get x_corners (i + 1)
  let y0 ← get y_corners i
  let y1 ← get y_corners (i + 1)
  let traveled_dist := Real.sqrt ((x1 - x0) ^ 2 + (y1 - y0) ^ 2)
  let traveled_time := traveled_dist / vel
  let ts_seg := arange a.t_pre (a.t_pre + traveled_time + 1e-10) dt
  let xs_seg := linspace x0 x1 ts_seg.length
  let ys_seg := linspace y0 y1 ts_seg.length
  let p ← get power_control i
  let ps_seg := linspace p p ts_seg.length
  return ⟨a.ts ++ ts_seg, a.xs ++ xs_seg, a.ys ++ ys_seg, a.ps ++ ps_seg, a.t_pre + traveled_time⟩

/-- `read_path` (core.py 521-543): `power_control = switch[:-1]`, loop over `range(len(x_corners) - 1)`, `hstack` of an empty list
is a `ValueError`. -/
noncomputable def read_path (x_pos y_pos switch : List ℝ) (vel dt : ℝ) :
    Except Err (List ℝ × List ℝ × List ℝ × List ℝ) := do
  let r ← (List.range (x_pos.length - 1)).foldlM (body x_pos y_pos switch.dropLast vel dt)
    ⟨[], [], [], [], 0⟩
  if x_pos.length - 1 = 0 then throw .valueError
  return (r.ts, r.xs, r.ys, r.ps)

/-! ## Specification -/
section Spec
variable (X Y : ℕ → ℝ) (vel dt : ℝ)

/-- Length of the `i`-th leg of the tool path. -/
noncomputable def legLen (i : ℕ) : ℝ := Real.sqrt ((X (i + 1) - X i) ^ 2 + (Y (i + 1) - Y i) ^ 2)

/-- Time at which a tool moving at speed `vel` reaches corner `i`. -/
noncomputable def arrival (i : ℕ) : ℝ := ∑ j ∈ range i, legLen X Y j / vel

/-- Number of samples on leg `i`. -/
noncomputable def samples (i : ℕ) : ℕ := ⌈(legLen X Y i / vel + 1e-10) / dt⌉₊

/-- Index of the first sample of leg `i`. -/
noncomputable def offset (i : ℕ) : ℕ := ∑ j ∈ range i, samples X Y vel dt j

end Spec

/-! ## Proofs -/

theorem get_ok {l : List ℝ} {i : ℕ} (h : i < l.length) : get l i = .ok (l.getD i 0) := by
  simp [get, List.getElem?_eq_getElem h]

theorem get_err {l : List ℝ} {i : ℕ} (h : l.length ≤ i) : get l i = .error .indexError := by
  simp [get, List.getElem?_eq_none h]

/-- Invariant of the loop after `n` legs. -/
structure Inv (X Y P : ℕ → ℝ) (vel dt : ℝ) (n : ℕ) (a : Acc) : Prop where
  tpre : a.t_pre = arrival X Y vel n
  lts : a.ts.length = offset X Y vel dt n
  lxs : a.xs.length = offset X Y vel dt n
  lys : a.ys.length = offset X Y vel dt n
  lps : a.ps.length = offset X Y vel dt n
  val : ∀ i < n, ∀ j < samples X Y vel dt i,
    a.ts[offset X Y vel dt i + j]? = some (arrival X Y vel i + j * dt) ∧
    a.xs[offset X Y vel dt i + j]? = some (X i + j * ((X (i + 1) - X i) / ((samples X Y vel dt i : ℝ) - 1))) ∧
    a.ys[offset X Y vel dt i + j]? = some (Y i + j * ((Y (i + 1) - Y i) / ((samples X Y vel dt i : ℝ) - 1))) ∧
    a.ps[offset X Y vel dt i + j]? = some (P i)

theorem offset_succ (X Y : ℕ → ℝ) (vel dt : ℝ) (n : ℕ) :
    offset X Y vel dt (n + 1) = offset X Y vel dt n + samples X Y vel dt n := by
  simp [offset, Finset.sum_range_succ]

theorem offset_mono (X Y : ℕ → ℝ) (vel dt : ℝ) {i n : ℕ} (h : i < n) :
    offset X Y vel dt i + samples X Y vel dt i ≤ offset X Y vel dt n := by
  rw [← offset_succ]
  exact Finset.sum_le_sum_of_subset (Finset.range_mono h)

theorem body_ok (xc yc pc : List ℝ) (vel dt : ℝ) (n : ℕ) (a : Acc) (hx : n + 1 < xc.length)
    (hy : n + 1 < yc.length) (hp : n < pc.length)
    (h : Inv (xc.getD · 0) (yc.getD · 0) (pc.getD · 0) vel dt n a) :
    ∃ b, body xc yc pc vel dt a n = .ok b ∧ Inv (xc.getD · 0) (yc.getD · 0) (pc.getD · 0) vel dt (n + 1) b := by
  unfold body
  rw [get_ok hx, get_ok hy, get_ok hp, get_ok (Nat.lt_of_succ_lt hx), get_ok (Nat.lt_of_succ_lt hy)]
  refine ⟨_, rfl, ?_⟩
  set X := (xc.getD · 0) with hX
  set Y := (yc.getD · 0) with hY
  set P := (pc.getD · 0) with hP
  change Inv X Y P vel dt (n + 1)
    ⟨a.ts ++ arange a.t_pre (a.t_pre + legLen X Y n / vel + 1e-10) dt, a.xs ++ linspace (X n) (X (n+1))
        (arange a.t_pre (a.t_pre + legLen X Y n / vel + 1e-10) dt).length,
      a.ys ++ linspace (Y n) (Y (n+1)) (arange a.t_pre (a.t_pre + legLen X Y n / vel + 1e-10) dt).length,
      a.ps ++ linspace (P n) (P n) (arange a.t_pre (a.t_pre + legLen X Y n / vel + 1e-10) dt).length, a.t_pre + legLen X Y n / vel⟩
  have hm : ⌈(a.t_pre + legLen X Y n / vel + 1e-10 - a.t_pre) / dt⌉₊ = samples X Y vel dt n := by
    unfold samples; congr 2; ring
  have hl : (arange a.t_pre (a.t_pre + legLen X Y n / vel + 1e-10) dt).length = samples X Y vel dt n := by
    simp only [arange, List.length_map, List.length_range, hm]
  rw [hl]
  refine ⟨?_, ?_, ?_, ?_, ?_, ?_⟩
  · simp only [h.tpre, arrival, Finset.sum_range_succ]
  · simp only [List.length_append, h.lts, hl, offset_succ]
  · simp only [List.length_append, h.lxs, linspace, List.length_map, List.length_range, offset_succ]
  · simp only [List.length_append, h.lys, linspace, List.length_map, List.length_range, offset_succ]
  · simp only [List.length_append, h.lps, linspace, List.length_map, List.length_range, offset_succ]
  · intro i hi j hj
    rcases Nat.lt_succ_iff_lt_or_eq.mp hi with hi' | rfl
    · have hlt : offset X Y vel dt i + j < offset X Y vel dt n := by
        have := offset_mono X Y vel dt hi'; omega
      have := h.val i hi' j hj
      simp only
      rw [List.getElem?_append_left (by rw [h.lts]; exact hlt), List.getElem?_append_left (by rw [h.lxs]; exact hlt),
        List.getElem?_append_left (by rw [h.lys]; exact hlt), List.getElem?_append_left (by rw [h.lps]; exact hlt)]
      exact this
    · simp only
      rw [List.getElem?_append_right (by rw [h.lts]; omega), List.getElem?_append_right (by rw [h.lxs]; omega),
        List.getElem?_append_right (by rw [h.lys]; omega), List.getElem?_append_right (by rw [h.lps]; omega),
        h.lts, h.lxs, h.lys, h.lps, Nat.add_sub_cancel_left]
      rw [h.tpre] at hm
      simp only [arange, linspace, List.getElem?_map, h.tpre, hm, List.getElem?_range hj, Option.map_some,
        sub_self, zero_div, mul_zero, add_zero, and_self]

theorem loop_ok (xc yc pc : List ℝ) (vel dt : ℝ) : ∀ n, n < xc.length → n < yc.length → n ≤ pc.length →
    ∃ b, (List.range n).foldlM (body xc yc pc vel dt) ⟨[], [], [], [], 0⟩ = .ok b ∧
      Inv (xc.getD · 0) (yc.getD · 0) (pc.getD · 0) vel dt n b := by
  intro n
  induction n with
  | zero =>
    intro _ _ _
    exact ⟨_, rfl, by simp [arrival], by simp [offset], by simp [offset], by simp [offset], by simp [offset],
      fun i hi => absurd hi (by omega)⟩
  | succ n ih =>
    intro hx hy hp
    obtain ⟨b, hb, hinv⟩ := ih (by omega) (by omega) (by omega)
    obtain ⟨c, hc, hinv'⟩ := body_ok xc yc pc vel dt n b hx hy (by omega) hinv
    refine ⟨c, ?_, hinv'⟩
    rw [List.range_succ, List.foldlM_append, hb]
    simp only [List.foldlM_cons, List.foldlM_nil, bind, Except.bind, hc]
    rfl

/-- **C46.** For every tool path with at least two corners, matching coordinate lists and one switch value per corner, and every speed
and time step: `read_path` succeeds and returns four lists of equal length, cut into consecutive legs; sample `j` of leg `i` has time `arrival i + j dt`, a position at the
same fraction of the leg in `x` and `y`, and the power switch of that leg. -/
theorem C46_read_path (x_pos y_pos sw : List ℝ) (vel dt : ℝ) (hx : 2 ≤ x_pos.length)
    (hy : y_pos.length = x_pos.length) (hs : sw.length = x_pos.length) :
    let X := (x_pos.getD · 0); let Y := (y_pos.getD · 0)
    let n := x_pos.length - 1
    ∃ ts xs ys ps, read_path x_pos y_pos sw vel dt = .ok (ts, xs, ys, ps) ∧
      ts.length = offset X Y vel dt n ∧ xs.length = ts.length ∧ ys.length = ts.length ∧ ps.length = ts.length ∧
      ∀ i < n, ∀ j < samples X Y vel dt i,
        ∃ c : ℝ, 0 ≤ c ∧ c ≤ 1 ∧
          ts[offset X Y vel dt i + j]? = some (arrival X Y vel i + j * dt) ∧
          xs[offset X Y vel dt i + j]? = some ((1 - c) * X i + c * X (i + 1)) ∧
          ys[offset X Y vel dt i + j]? = some ((1 - c) * Y i + c * Y (i + 1)) ∧
          ps[offset X Y vel dt i + j]? = some (sw.getD i 0) ∧
          (j = 0 → c = 0) ∧ (j + 1 = samples X Y vel dt i → 0 < j → c = 1) := by
  intro X Y n
  obtain ⟨b, hb, h⟩ := loop_ok x_pos y_pos sw.dropLast vel dt n (by omega) (by omega)
    (by rw [List.length_dropLast]; omega)
  refine ⟨b.ts, b.xs, b.ys, b.ps, ?_, h.lts, h.lxs.trans h.lts.symm, h.lys.trans h.lts.symm,
    h.lps.trans h.lts.symm, ?_⟩
  · have hn : ¬ (x_pos.length - 1 = 0) := by omega
    unfold read_path
    rw [hb]
    simp only [bind, Except.bind, hn, if_false]
    rfl
  · intro i hi j hj
    obtain ⟨h1, h2, h3, h4⟩ := h.val i hi j hj
    have hj' : (j : ℝ) + 1 ≤ samples X Y vel dt i := by exact_mod_cast hj
    have hj0 : (0 : ℝ) ≤ j := Nat.cast_nonneg j
    refine ⟨j / ((samples X Y vel dt i : ℝ) - 1), ?_, ?_, h1, ?_, ?_, ?_, ?_, ?_⟩
    · exact div_nonneg hj0 (by linarith)
    · exact div_le_one_of_le₀ (by linarith) (by linarith)
    · refine h2.trans (congrArg some ?_); simp only [X]; ring
    · refine h3.trans (congrArg some ?_); simp only [Y]; ring
    · refine h4.trans (congrArg some ?_)
      rw [List.getD_eq_getElem _ _ (by rw [List.length_dropLast]; omega : i < sw.dropLast.length), List.getElem_dropLast,
        List.getD_eq_getElem _ _ (by omega)]
    · rintro rfl; simp
    · intro he h0
      have : (j : ℝ) + 1 = samples X Y vel dt i := by exact_mod_cast he
      have h0' : (0 : ℝ) < j := by exact_mod_cast h0
      rw [← this, add_sub_cancel_right, div_self h0'.ne']

/-- Instance for the hypotheses (an L-shaped path). -/
example : 2 ≤ ([0, 1, 1] : List ℝ).length ∧ ([0, 0, 2] : List ℝ).length = ([0, 1, 1] : List ℝ).length := by simp

/-- **C46 (timing).** With positive speed and time step every leg has at least one sample, sample times lie between the arrival at the leg's start and (up to `1e-10`) at its
end, and the last sample is less than one time step before the arrival at the end corner. -/
theorem C46_timing (X Y : ℕ → ℝ) (vel dt : ℝ) (hv : 0 < vel) (hdt : 0 < dt) (i : ℕ) :
    1 ≤ samples X Y vel dt i ∧
    (∀ j < samples X Y vel dt i, arrival X Y vel i ≤ arrival X Y vel i + j * dt ∧
      arrival X Y vel i + j * dt < arrival X Y vel (i + 1) + 1e-10) ∧
    arrival X Y vel (i + 1) + 1e-10 ≤ arrival X Y vel i + samples X Y vel dt i * dt := by
  have hl : 0 ≤ legLen X Y i / vel := div_nonneg (Real.sqrt_nonneg _) hv.le
  have hpos : 0 < (legLen X Y i / vel + 1e-10) / dt := by positivity
  have hs : arrival X Y vel (i + 1) = arrival X Y vel i + legLen X Y i / vel := by
    simp [arrival, Finset.sum_range_succ]
  refine ⟨Nat.ceil_pos.mpr hpos, fun j hj => ⟨?_, ?_⟩, ?_⟩
  · have : (0 : ℝ) ≤ j * dt := by positivity
    linarith
  · have := (Nat.lt_ceil (n := j) (a := (legLen X Y i / vel + 1e-10) / dt)).mp hj
    rw [lt_div_iff₀ hdt] at this
    rw [hs]; linarith
  · have := Nat.le_ceil ((legLen X Y i / vel + 1e-10) / dt)
    rw [div_le_iff₀ hdt] at this
    rw [hs]
    have e : (⌈(legLen X Y i / vel + 1e-10) / dt⌉₊ : ℝ) = samples X Y vel dt i := rfl
    rw [e] at this; linarith

/-- Instance for the hypotheses. -/
example : (0 : ℝ) < 500 ∧ (0 : ℝ) < 1e-7 := by norm_num

/-- **C46 (end corner can be missed).** A leg that takes less than a time step gets one sample only, its start corner: the
end corner is then not in the output of that leg. Concretely a unit leg travelled at speed 1 with `dt = 2`. -/
theorem C46_short_leg_misses_corner :
    read_path [0, 1] [0, 0] [1, 0] 1 2 = .ok ([0], [0], [0], [1]) := by
  have h1 : Real.sqrt ((1 - 0 : ℝ) ^ 2 + (0 - 0) ^ 2) = 1 := by norm_num
  have h2 : ⌈((0 : ℝ) + 1 / 1 + 1e-10 - 0) / 2⌉₊ = 1 := by
    rw [Nat.ceil_eq_iff (by norm_num)]; norm_num
  unfold read_path
  simp [body, get, bind, Except.bind, pure, Except.pure, arange, linspace]
  norm_num [h2]
  have h3 : ⌈((10000000001 : ℝ) / 20000000000)⌉₊ = 1 := by
    rw [Nat.ceil_eq_iff (by norm_num)]; norm_num
  try simp [h3]

/-- **C46 (error branches).** Fewer than two corners: `hstack` raises a `ValueError`; a missing switch value: `IndexError`. -/
theorem C46_errors (x_pos y_pos sw : List ℝ) (vel dt : ℝ) :
    (x_pos.length ≤ 1 → read_path x_pos y_pos sw vel dt = .error .valueError) ∧
    (2 ≤ x_pos.length → y_pos.length = x_pos.length → sw.length ≤ 1 →
      read_path x_pos y_pos sw vel dt = .error .indexError) := by
  constructor
  · intro h
    have hn : x_pos.length - 1 = 0 := by omega
    simp only [read_path, hn, List.range_zero, List.foldlM_nil, if_true]
    rfl
  · intro hx hy hs
    obtain ⟨m, hm⟩ : ∃ m, x_pos.length - 1 = m + 1 := ⟨x_pos.length - 2, by omega⟩
    have hb : ∀ a, body x_pos y_pos sw.dropLast vel dt a 0 = .error .indexError := by
      intro a
      unfold body
      rw [get_ok (by omega : 0 < x_pos.length), get_ok (by omega : 0 + 1 < x_pos.length),
        get_ok (by omega : 0 < y_pos.length), get_ok (by omega : 0 + 1 < y_pos.length),
        get_err (by rw [List.length_dropLast]; omega : sw.dropLast.length ≤ 0)]
      rfl
    unfold read_path
    rw [hm, List.range_succ_eq_map, List.foldlM_cons, hb]
    rfl

end Verif.Lbm.Path
