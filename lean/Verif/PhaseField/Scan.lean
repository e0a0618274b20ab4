import Verif.PhaseField.Laser
import Verif.PhaseField.AllenCahnBounds
import Mathlib.Algebra.Order.Floor.Semiring
import Mathlib.Data.List.Range
import Mathlib.Data.List.GetD

/-!
# Laser path and time loop of the phase-field programs (model of applications/phase_field/multi_scan/example.py 53-112; the loops of simple/example.py 47-67 and solidification/example.py 71-90 are the same)
-/

namespace Verif.PhaseField
open Finset

/-! ## Model -/

/-- One row of the arrays returned by `read_path`. -/
structure Row where
  t : ℝ
  pos : Fin 3 → ℝ
  power : ℝ
  dir : Fin 3 → ℝ

/-- `[x_corners[i], y_corners[i], z_corners[i]]`; `none` is an `IndexError`. -/
def cornerAt (xs ys zs : List ℝ) (i : ℕ) : Option (Fin 3 → ℝ) :=
  match xs[i]?, ys[i]?, zs[i]? with
  | some x, some y, some z => some ![x, y, z]
  | _, _, _ => none

/-- `linspace(a, b, n)[k]`. -/
noncomputable def linspaceAt (a b : ℝ) (n k : ℕ) : ℝ := a + k * ((b - a) / ((n : ℝ) - 1))

/-- The body of the loop (multi_scan/example.py 61-79) for the corners `p`, `q`: the rows of the segment and the new `t_pre`. With `p = q` the arrays have no entries, and the undefined unit direction is not used. -/
noncomputable def segment (vel dt t_pre : ℝ) (p q : Fin 3 → ℝ) (power : ℝ) : List Row × ℝ :=
  let traveled_dist := √(∑ i, (q i - p i) ^ 2)
  let unit_direction := fun i => (q i - p i) / traveled_dist
  let traveled_time := traveled_dist / vel
  let len := ⌈(t_pre + traveled_time - t_pre) / dt⌉₊
  ((List.range len).map fun k : ℕ => ⟨t_pre + k * dt, fun i => linspaceAt (p i) (q i) len k, linspaceAt power power len k, unit_direction⟩, t_pre + traveled_time)

/-- `read_path` (multi_scan/example.py 53-84). -/
noncomputable def readPath (xs ys zs switch : List ℝ) (vel dt : ℝ) : Except String (List Row) := do
  let power_control := switch.dropLast
  let r ← (List.range (xs.length - 1)).foldlM (fun (st : List Row × ℝ) i =>
    match cornerAt xs ys zs i, cornerAt xs ys zs (i + 1), power_control[i]? with
    | some p, some q, some w => .ok (st.1 ++ (segment vel dt st.2 p q w).1, (segment vel dt st.2 p q w).2)
    | _, _, _ => .error "IndexError") ([], (0 : ℝ))
  if xs.length - 1 = 0 then .error "ValueError" else .ok r.1

/-- The time loop (multi_scan/example.py 95-107): `T` gives the temperatures of the cells for a row; each step uses the temperatures computed after the step before it. -/
noncomputable def scanRun {m d : ℕ} (th : ℝ → ℝ) (P : PfArgs m d) (T : Row → ℕ → ℝ) (sol0 : ℕ → Fin m → ℝ) : List Row → Except String ((ℕ → Fin m → ℝ) × ℝ)
  | [] => .error "IndexError"
  | r0 :: rest => .ok (rest.foldl (fun (s : ((ℕ → Fin m → ℝ) × ℝ) × (ℕ → ℝ)) r => (stepper th P s.1 r.t s.2, T r)) ((sol0, r0.t), T r0)).1

/-- `integrator` (multi_scan/example.py 90-107) for cells with the given centroids. -/
noncomputable def scanProgram {m d : ℕ} (th : ℝ → ℝ) (P : PfArgs m d) (Tamb vel dt : ℝ) (centroid : ℕ → Fin 3 → ℝ) (xs ys zs switch : List ℝ) (sol0 : ℕ → Fin m → ℝ) : Except String ((ℕ → Fin m → ℝ) × ℝ) := do
  let rows ← readPath xs ys zs switch vel dt
  scanRun th P (fun r n => scanT Tamb vel r.t r.pos r.power r.dir (centroid n)) sol0 rows

/-! ## Specification -/

/-- Corner `i` of the path. -/
def cornerOf (xs ys zs : List ℝ) (i : ℕ) : Fin 3 → ℝ := ![xs.getD i 0, ys.getD i 0, zs.getD i 0]

/-- Length of segment `i`. -/
noncomputable def segLen (xs ys zs : List ℝ) (i : ℕ) : ℝ := √(dist2 (cornerOf xs ys zs (i + 1)) (cornerOf xs ys zs i))

/-- When segment `i` starts. -/
noncomputable def segStart (xs ys zs : List ℝ) (vel : ℝ) (i : ℕ) : ℝ := ∑ j ∈ range i, segLen xs ys zs j / vel

/-- Number of rows of segment `i`. -/
noncomputable def segCount (xs ys zs : List ℝ) (vel dt : ℝ) (i : ℕ) : ℕ := ⌈segLen xs ys zs i / vel / dt⌉₊

/-- Row `k` of segment `i`. -/
noncomputable def rowOf (xs ys zs switch : List ℝ) (vel dt : ℝ) (i k : ℕ) : Row :=
  ⟨segStart xs ys zs vel i + k * dt,
    fun a => cornerOf xs ys zs i a + k / ((segCount xs ys zs vel dt i : ℝ) - 1) * (cornerOf xs ys zs (i + 1) a - cornerOf xs ys zs i a),
    switch.getD i 0, fun a => (cornerOf xs ys zs (i + 1) a - cornerOf xs ys zs i a) / segLen xs ys zs i⟩

/-- All rows. -/
noncomputable def rowsOf (xs ys zs switch : List ℝ) (vel dt : ℝ) (n : ℕ) : List Row :=
  (List.range n).flatMap fun i => (List.range (segCount xs ys zs vel dt i)).map (rowOf xs ys zs switch vel dt i)

/-! ## The rows -/

theorem cornerAt_eq (xs ys zs : List ℝ) (i : ℕ) : cornerAt xs ys zs i = if i < xs.length ∧ i < ys.length ∧ i < zs.length then some (cornerOf xs ys zs i) else none := by
  unfold cornerAt cornerOf
  by_cases hx : i < xs.length
  · by_cases hy : i < ys.length
    · by_cases hz : i < zs.length
      · rw [if_pos ⟨hx, hy, hz⟩]
        simp [hx, hy, hz, List.getD_eq_getElem?_getD]
      · rw [if_neg (fun h => hz h.2.2), List.getElem?_eq_none (not_lt.mp hz), List.getElem?_eq_getElem hx, List.getElem?_eq_getElem hy]
    · rw [if_neg (fun h => hy h.2.1), List.getElem?_eq_none (not_lt.mp hy), List.getElem?_eq_getElem hx]
  · rw [if_neg (fun h => hx h.1), List.getElem?_eq_none (not_lt.mp hx)]

theorem segment_eq (xs ys zs switch : List ℝ) (vel dt : ℝ) (i : ℕ) :
    segment vel dt (segStart xs ys zs vel i) (cornerOf xs ys zs i) (cornerOf xs ys zs (i + 1)) (switch.getD i 0) =
      ((List.range (segCount xs ys zs vel dt i)).map (rowOf xs ys zs switch vel dt i), segStart xs ys zs vel (i + 1)) := by
  have h1 : √(∑ a, (cornerOf xs ys zs (i + 1) a - cornerOf xs ys zs i a) ^ 2) = segLen xs ys zs i := rfl
  unfold segment
  dsimp only
  rw [h1, add_sub_cancel_left]
  refine Prod.ext ?_ ?_
  · refine List.map_congr_left fun k _ => ?_
    unfold rowOf linspaceAt segCount
    congr 1
    · funext a
      ring
    · ring
  · show _ = ∑ j ∈ range (i + 1), _
    rw [sum_range_succ]
    rfl

theorem fold_path (xs ys zs switch : List ℝ) (vel dt : ℝ) (n : ℕ) (hn : n ≤ xs.length - 1) :
    (List.range n).foldlM (fun (st : List Row × ℝ) i =>
      match cornerAt xs ys zs i, cornerAt xs ys zs (i + 1), switch.dropLast[i]? with
      | some p, some q, some w => (.ok (st.1 ++ (segment vel dt st.2 p q w).1, (segment vel dt st.2 p q w).2) : Except String (List Row × ℝ))
      | _, _, _ => .error "IndexError") ([], (0 : ℝ)) =
      if n = 0 ∨ (n < ys.length ∧ n < zs.length ∧ n < switch.length) then .ok (rowsOf xs ys zs switch vel dt n, segStart xs ys zs vel n) else .error "IndexError" := by
  induction n with
  | zero => simp [rowsOf, segStart]; rfl
  | succ n ih =>
    rw [List.range_succ, List.foldlM_append, ih (by omega)]
    by_cases h : n + 1 < ys.length ∧ n + 1 < zs.length ∧ n + 1 < switch.length
    · rw [if_pos (Or.inr ⟨by omega, by omega, by omega⟩), if_pos (Or.inr h)]
      have hw : switch.dropLast[n]? = some (switch.getD n 0) := by
        rw [List.getElem?_eq_getElem (by rw [List.length_dropLast]; omega), List.getElem_dropLast, List.getD_eq_getElem _ _ (by omega)]
      show (match cornerAt xs ys zs n, cornerAt xs ys zs (n + 1), switch.dropLast[n]? with
        | some p, some q, some w => (.ok _ : Except String (List Row × ℝ))
        | _, _, _ => .error "IndexError") >>= _ = _
      rw [cornerAt_eq, cornerAt_eq, if_pos ⟨by omega, by omega, by omega⟩, if_pos ⟨by omega, by omega, by omega⟩, hw]
      dsimp only
      rw [segment_eq]
      show Except.ok _ = Except.ok _
      unfold rowsOf
      rw [List.range_succ, List.flatMap_append, List.flatMap_singleton]
    · rw [if_neg (show ¬(n + 1 = 0 ∨ _) by omega)]
      by_cases h2 : n = 0 ∨ (n < ys.length ∧ n < zs.length ∧ n < switch.length)
      · rw [if_pos h2]
        show (match cornerAt xs ys zs n, cornerAt xs ys zs (n + 1), switch.dropLast[n]? with
          | some p, some q, some w => (.ok _ : Except String (List Row × ℝ))
          | _, _, _ => .error "IndexError") >>= _ = _
        rw [cornerAt_eq xs ys zs (n + 1)]
        by_cases h3 : n + 1 < ys.length ∧ n + 1 < zs.length
        · rw [show switch.dropLast[n]? = none from List.getElem?_eq_none (by rw [List.length_dropLast]; omega)]
          cases cornerAt xs ys zs n <;> (split_ifs <;> rfl)
        · rw [if_neg (fun h => h3 h.2)]
          cases cornerAt xs ys zs n <;> rfl
      · rw [if_neg h2]
        rfl

/-- **C141 (rows).** `read_path` succeeds exactly if there are at least two corners and every list covers them; the rows are then those of the segments one after the other, `⌈length/(vel dt)⌉` for each. -/
theorem C141_rows (xs ys zs switch : List ℝ) (vel dt : ℝ) (rows : List Row) :
    readPath xs ys zs switch vel dt = .ok rows ↔
      2 ≤ xs.length ∧ xs.length ≤ ys.length ∧ xs.length ≤ zs.length ∧ xs.length ≤ switch.length ∧ rows = rowsOf xs ys zs switch vel dt (xs.length - 1) := by
  unfold readPath
  dsimp only
  rw [fold_path xs ys zs switch vel dt _ le_rfl]
  by_cases h0 : xs.length - 1 = 0
  · rw [if_pos (Or.inl h0)]
    dsimp only [bind, Except.bind]
    rw [if_pos h0]
    exact ⟨fun h => (by cases h), fun h => by omega⟩
  · by_cases h1 : xs.length - 1 < ys.length ∧ xs.length - 1 < zs.length ∧ xs.length - 1 < switch.length
    · rw [if_pos (Or.inr h1)]
      dsimp only [bind, Except.bind]
      rw [if_neg h0]
      exact ⟨fun h => ⟨by omega, by omega, by omega, by omega, by cases h; rfl⟩, fun h => by rw [h.2.2.2.2]⟩
    · rw [if_neg (show ¬(xs.length - 1 = 0 ∨ _) by omega)]
      dsimp only [bind, Except.bind]
      exact ⟨fun h => (by cases h), fun h => by omega⟩

/-! ## Times -/

section
variable (xs ys zs switch : List ℝ) {vel dt : ℝ} (hv : 0 < vel) (hdt : 0 < dt)
include hv hdt

/-- A segment with rows ends less than one step after its last row, and after it. -/
theorem segCount_bounds (i k : ℕ) (hk : k + 1 = segCount xs ys zs vel dt i) : k * dt < segLen xs ys zs i / vel ∧ segLen xs ys zs i / vel ≤ (k + 1) * dt := by
  unfold segCount at hk
  have h1 : segLen xs ys zs i / vel / dt ≤ (k + 1 : ℕ) := hk ▸ Nat.le_ceil _
  have h2 : (k : ℝ) < segLen xs ys zs i / vel / dt := Nat.lt_ceil.mp (by omega)
  rw [lt_div_iff₀ hdt] at h2
  rw [div_le_iff₀ hdt] at h1
  push_cast at h1
  exact ⟨h2, h1⟩

theorem segCount_zero (i : ℕ) (h : segCount xs ys zs vel dt i = 0) : segLen xs ys zs i = 0 := by
  unfold segCount at h
  have h1 := Nat.ceil_eq_zero.mp h
  have h2 : 0 ≤ segLen xs ys zs i := Real.sqrt_nonneg _
  have h3 : 0 ≤ segLen xs ys zs i / vel / dt := div_nonneg (div_nonneg h2 hv.le) hdt.le
  have h4 := le_antisymm h1 h3
  rcases div_eq_zero_iff.mp h4 with h5 | h5
  · rcases div_eq_zero_iff.mp h5 with h6 | h6
    · exact h6
    · exact absurd h6 hv.ne'
  · exact absurd h5 hdt.ne'

/-- Times of the rows: they increase, by at most `dt`, and the last row of the first `n` segments lies less than or exactly `dt` before their end. -/
theorem rows_chain (n : ℕ) : (rowsOf xs ys zs switch vel dt n).IsChain (fun a b => a.t < b.t ∧ b.t ≤ a.t + dt) ∧
    (∀ r, (rowsOf xs ys zs switch vel dt n).getLast? = some r → r.t < segStart xs ys zs vel n ∧ segStart xs ys zs vel n ≤ r.t + dt) ∧
    (∀ r, (rowsOf xs ys zs switch vel dt n).head? = some r → r.t = 0) ∧ (rowsOf xs ys zs switch vel dt n = [] → segStart xs ys zs vel n = 0) := by
  induction n with
  | zero => simp [rowsOf, segStart]
  | succ n ih =>
    obtain ⟨h1, h2, h3, h4⟩ := ih
    have hs : segStart xs ys zs vel (n + 1) = segStart xs ys zs vel n + segLen xs ys zs n / vel := sum_range_succ _ _
    have hr : rowsOf xs ys zs switch vel dt (n + 1) = rowsOf xs ys zs switch vel dt n ++ (List.range (segCount xs ys zs vel dt n)).map (rowOf xs ys zs switch vel dt n) := by
      unfold rowsOf
      rw [List.range_succ, List.flatMap_append, List.flatMap_singleton]
    rw [hr]
    cases hc : segCount xs ys zs vel dt n with
    | zero =>
      have hz := segCount_zero xs ys zs hv hdt n hc
      rw [hs, hz, zero_div, add_zero, List.range_zero, List.map_nil, List.append_nil]
      exact ⟨h1, h2, h3, h4⟩
    | succ k =>
      obtain ⟨b1, b2⟩ := segCount_bounds xs ys zs hv hdt n k hc.symm
      have hl : ((List.range (k + 1)).map (rowOf xs ys zs switch vel dt n)).getLast? = some (rowOf xs ys zs switch vel dt n k) := by
        rw [List.range_succ, List.map_append, List.map_singleton, List.getLast?_concat]
      have hh : ((List.range (k + 1)).map (rowOf xs ys zs switch vel dt n)).head? = some (rowOf xs ys zs switch vel dt n 0) := by
        rw [List.range_succ_eq_map]; rfl
      have ht0 : (rowOf xs ys zs switch vel dt n 0).t = segStart xs ys zs vel n := by simp [rowOf]
      refine ⟨List.isChain_append.mpr ⟨h1, ?_, fun x hx y hy => ?_⟩, fun r hr => ?_, fun r hr => ?_, fun he => ?_⟩
      · rw [List.isChain_map, List.isChain_range_succ]
        intro j _
        unfold rowOf
        dsimp only
        push_cast
        constructor <;> linarith
      · rw [hh] at hy
        cases hy
        rw [ht0]
        exact h2 x hx
      · rw [List.getLast?_append, hl] at hr
        cases hr
        show segStart xs ys zs vel n + k * dt < _ ∧ _ ≤ segStart xs ys zs vel n + k * dt + dt
        rw [hs]
        constructor <;> linarith
      · rw [List.head?_append, hh] at hr
        cases hq : (rowsOf xs ys zs switch vel dt n).head? with
        | none =>
          rw [hq] at hr
          cases hr
          rw [ht0]
          exact h4 (List.head?_eq_none_iff.mp hq)
        | some r' =>
          rw [hq] at hr
          cases hr
          exact h3 _ hq
      · have := congrArg List.length he
        simp at this
end

/-- **C141 (times).** The first row has time zero, the times increase, and never by more than `dt`; the last one is less than the time the path takes. -/
theorem C141_times (xs ys zs switch : List ℝ) (vel dt : ℝ) (hv : 0 < vel) (hdt : 0 < dt) (rows : List Row) (h : readPath xs ys zs switch vel dt = .ok rows) :
    rows.IsChain (fun a b => a.t < b.t ∧ b.t ≤ a.t + dt) ∧ (∀ r, rows.head? = some r → r.t = 0) ∧
      (∀ r, rows.getLast? = some r → r.t < segStart xs ys zs vel (xs.length - 1) ∧ segStart xs ys zs vel (xs.length - 1) ≤ r.t + dt) ∧
      rows.length = ∑ i ∈ range (xs.length - 1), ⌈segLen xs ys zs i / vel / dt⌉₊ := by
  obtain ⟨_, _, _, _, rfl⟩ := (C141_rows xs ys zs switch vel dt rows).mp h
  obtain ⟨h1, h2, h3, _⟩ := rows_chain xs ys zs switch hv hdt (xs.length - 1)
  refine ⟨h1, h3, h2, ?_⟩
  unfold rowsOf
  rw [List.length_flatMap]
  simp only [List.length_map, List.length_range]
  rw [← List.sum_toFinset _ List.nodup_range, List.toFinset_range]
  rfl

/-- **C141 (positions).** Row `k` of a segment lies on it, in direction of length one, and is ahead of where a laser of speed `vel` would be, strictly from the second row on, by at most `vel dt`: the samples are spread over the whole segment though the last one comes before
the end of its time. The last of at least two rows is the corner. -/
theorem C141_positions (xs ys zs switch : List ℝ) (vel dt : ℝ) (hv : 0 < vel) (hdt : 0 < dt) (i k : ℕ) (hk : k < segCount xs ys zs vel dt i) :
    (∑ a, (rowOf xs ys zs switch vel dt i k).dir a ^ 2 = 1) ∧
      (∃ e, (∀ a, (rowOf xs ys zs switch vel dt i k).pos a = cornerOf xs ys zs i a + (vel * ((rowOf xs ys zs switch vel dt i k).t - segStart xs ys zs vel i) + e) * (rowOf xs ys zs switch vel dt i k).dir a) ∧
        0 ≤ e ∧ e ≤ vel * dt ∧ (0 < e ↔ 0 < k)) ∧
      (0 < k → k + 1 = segCount xs ys zs vel dt i → (rowOf xs ys zs switch vel dt i k).pos = cornerOf xs ys zs (i + 1)) := by
  obtain ⟨n, hn⟩ : ∃ n, n + 1 = segCount xs ys zs vel dt i := ⟨segCount xs ys zs vel dt i - 1, by omega⟩
  obtain ⟨b1, b2⟩ := segCount_bounds xs ys zs hv hdt i n hn
  rw [lt_div_iff₀ hv] at b1
  rw [div_le_iff₀ hv] at b2
  have hL : 0 < segLen xs ys zs i := lt_of_le_of_lt (by positivity) b1
  have hsq : ∑ a, (cornerOf xs ys zs (i + 1) a - cornerOf xs ys zs i a) ^ 2 = segLen xs ys zs i ^ 2 := (Real.sq_sqrt (sum_nonneg fun _ _ => sq_nonneg _)).symm
  have hcn : (segCount xs ys zs vel dt i : ℝ) - 1 = n := by rw [← hn]; push_cast; ring
  have hkn : (k : ℝ) ≤ n := by exact_mod_cast (by omega : k ≤ n)
  refine ⟨?_, ⟨k / n * segLen xs ys zs i - vel * (k * dt), fun a => ?_, ?_, ?_, ?_⟩, fun h0 h1 => ?_⟩
  · unfold rowOf
    dsimp only
    simp only [div_pow]
    rw [← sum_div, hsq, div_self (pow_ne_zero 2 hL.ne')]
  · unfold rowOf
    dsimp only
    rw [hcn]
    field_simp
    ring
  · rcases Nat.eq_zero_or_pos n with h0 | h0
    · have : k = 0 := by omega
      simp [this]
    · have h0' : (0 : ℝ) < n := by exact_mod_cast h0
      rw [div_mul_eq_mul_div, sub_nonneg, le_div_iff₀ h0']
      nlinarith [(Nat.cast_nonneg k : (0 : ℝ) ≤ k)]
  · rcases Nat.eq_zero_or_pos n with h0 | h0
    · have : k = 0 := by omega
      simp [this]
      positivity
    · have h0' : (0 : ℝ) < n := by exact_mod_cast h0
      rw [div_mul_eq_mul_div, sub_le_iff_le_add, div_le_iff₀ h0']
      have h1 := mul_le_mul_of_nonneg_left b2 (Nat.cast_nonneg k : (0 : ℝ) ≤ k)
      have h2 := mul_nonneg (mul_pos hv hdt).le (sub_nonneg.mpr hkn)
      linarith
  · rcases Nat.eq_zero_or_pos n with h0 | h0
    · have : k = 0 := by omega
      simp [this]
    · have h0' : (0 : ℝ) < n := by exact_mod_cast h0
      constructor
      · intro h
        by_contra hk0
        have : k = 0 := by omega
        simp [this] at h
      · intro h
        have hk' : (0 : ℝ) < k := by exact_mod_cast h
        rw [div_mul_eq_mul_div, sub_pos, lt_div_iff₀ h0']
        nlinarith
  · have h0' : (n : ℝ) ≠ 0 := by
      have : n ≠ 0 := by omega
      exact_mod_cast this
    have : k = n := by omega
    funext a
    unfold rowOf
    dsimp only
    rw [hcn, this, div_self h0']
    ring

/-! ## The run -/

/-- **C141 (run).** The time loop is explicit Euler with the temperature at the beginning of each step. -/
theorem C141_run {m d : ℕ} (th : ℝ → ℝ) (P : PfArgs m d) (T : Row → ℕ → ℝ) (sol0 : ℕ → Fin m → ℝ) (r0 : Row) (rest : List Row) :
    scanRun th P T sol0 (r0 :: rest) = .ok (runSteps th P (List.zip (rest.map Row.t) ((r0 :: rest).map T)) (sol0, r0.t)) := by
  show Except.ok _ = Except.ok _
  unfold runSteps
  congr 1
  generalize (sol0, r0.t) = s
  induction rest generalizing r0 s with
  | nil => rfl
  | cons r rest ih =>
    simp only [List.foldl_cons, List.map_cons, List.zip_cons_cons]
    exact ih r _

theorem rowsOf_switch (xs ys zs switch switch' : List ℝ) (vel dt : ℝ) (n : ℕ) :
    (rowsOf xs ys zs switch vel dt n).map (fun r => (r.t, r.pos, r.dir)) = (rowsOf xs ys zs switch' vel dt n).map fun r => (r.t, r.pos, r.dir) := by
  unfold rowsOf
  rw [List.map_flatMap, List.map_flatMap]
  refine List.flatMap_congr fun i _ => ?_
  rw [List.map_map, List.map_map]
  rfl

theorem scanRun_congr {m d : ℕ} (th : ℝ → ℝ) (P : PfArgs m d) (f : ℝ × (Fin 3 → ℝ) × (Fin 3 → ℝ) → ℕ → ℝ) (sol0 : ℕ → Fin m → ℝ) (l l' : List Row) (h : l.map (fun r => (r.t, r.pos, r.dir)) = l'.map fun r => (r.t, r.pos, r.dir)) :
    scanRun th P (fun r => f (r.t, r.pos, r.dir)) sol0 l = scanRun th P (fun r => f (r.t, r.pos, r.dir)) sol0 l' := by
  cases l with
  | nil => cases l' with
    | nil => rfl
    | cons a b => simp at h
  | cons a b => cases l' with
    | nil => simp at h
    | cons a' b' =>
      rw [C141_run, C141_run]
      have h1 : (a :: b).map (fun r => f (r.t, r.pos, r.dir)) = (a' :: b').map fun r => f (r.t, r.pos, r.dir) := by
        have := congrArg (List.map f) h
        rwa [List.map_map, List.map_map] at this
      have h2 : (a :: b).map Row.t = (a' :: b').map Row.t := by
        have := congrArg (List.map Prod.fst) h
        rwa [List.map_map, List.map_map] at this
      rw [h1]
      simp only [List.map_cons, List.cons.injEq] at h2
      rw [h2.1, h2.2]

/-- **C141 (switch).** The laser cannot be switched off: whatever the entries of `switch`, the program computes the same. -/
theorem C141_switch {m d : ℕ} (th : ℝ → ℝ) (P : PfArgs m d) (Tamb vel dt : ℝ) (centroid : ℕ → Fin 3 → ℝ) (xs ys zs switch switch' : List ℝ) (hl : switch.length = switch'.length) (sol0 : ℕ → Fin m → ℝ) (s : (ℕ → Fin m → ℝ) × ℝ)
    (h : scanProgram th P Tamb vel dt centroid xs ys zs switch sol0 = .ok s) : scanProgram th P Tamb vel dt centroid xs ys zs switch' sol0 = .ok s := by
  unfold scanProgram at h ⊢
  dsimp only [bind, Except.bind] at h ⊢
  cases hr : readPath xs ys zs switch vel dt with
  | error e => rw [hr] at h; cases h
  | ok rows =>
    rw [hr] at h
    obtain ⟨h1, h2, h3, h4, rfl⟩ := (C141_rows xs ys zs switch vel dt rows).mp hr
    rw [(C141_rows xs ys zs switch' vel dt _).mpr ⟨h1, h2, h3, hl ▸ h4, rfl⟩]
    dsimp only at h ⊢
    rw [← h]
    exact scanRun_congr th P (fun x n => scanT Tamb vel x.1 x.2.1 0 x.2.2 (centroid n)) sol0 _ _ (rowsOf_switch ..)

/-- The mobility at a temperature that has been capped. -/
theorem LgOf_le {m d : ℕ} (P : PfArgs m d) (hL : 0 ≤ P.L0) (hQ : 0 ≤ P.Qg) (hg : 0 < P.gas_const) (T : ℕ → ℝ) (n : ℕ) (hT : 0 < T n) : LgOf P T n ≤ P.L0 * Real.exp (-P.Qg / (2000 * P.gas_const)) := by
  unfold LgOf
  have h1 : 0 < capT (T n) ∧ capT (T n) ≤ 2000 := by
    unfold capT
    split_ifs <;> constructor <;> linarith
  refine mul_le_mul_of_nonneg_left (Real.exp_le_exp.mpr ?_) hL
  rw [neg_div, neg_div, neg_le_neg_iff]
  exact div_le_div_of_nonneg_left hQ (mul_pos h1.1 hg) (mul_le_mul_of_nonneg_right h1.2 hg.le)

/-- **C141 (bounds).** If `dt` satisfies the step-size condition with the mobility at 2000 degrees, then for every path on which the program ends all order parameters stay in `[0, 1]`, whatever the initial grains. -/
theorem C141_bounds {m d : ℕ} (th : ℝ → ℝ) (hth : ∀ x, -1 ≤ th x ∧ th x ≤ 1) (P : PfArgs m d) (hm : 0 ≤ P.m_g) (hmm : 0 < m) (hk : 0 ≤ P.kappa_g) (had : 0 < P.ad_hoc) (hL : 0 ≤ P.L0) (hQ : 0 ≤ P.Qg) (hg : 0 < P.gas_const)
    (Tamb vel dt : ℝ) (hA : 0 < Tamb) (hv : 0 < vel) (hdt : 0 < dt)
    (hstep : dt * (P.L0 * Real.exp (-P.Qg / (2000 * P.gas_const))) * (P.m_g / P.ad_hoc * (4 * m - 2) + 2 * (P.kappa_g * P.ad_hoc * anisoMax P * (1 / P.hx ^ 2 + 1 / P.hy ^ 2 + 1 / P.hz ^ 2))) ≤ 1)
    (centroid : ℕ → Fin 3 → ℝ) (xs ys zs switch : List ℝ) (ori : ℕ → Fin m) (s : (ℕ → Fin m → ℝ) × ℝ)
    (h : scanProgram th P Tamb vel dt centroid xs ys zs switch (iniCond P.N ori) = .ok s) {n : ℕ} (hn : n < P.N) (o : Fin m) : 0 ≤ s.1 n o ∧ s.1 n o ≤ 1 := by
  unfold scanProgram at h
  dsimp only [bind, Except.bind] at h
  cases hr : readPath xs ys zs switch vel dt with
  | error e => rw [hr] at h; cases h
  | ok rows =>
    rw [hr] at h
    have hch := (C141_times xs ys zs switch vel dt hv hdt rows hr).1
    cases rows with
    | nil => cases h
    | cons r0 rest =>
      dsimp only at h
      rw [C141_run] at h
      cases h
      refine C64_run_bounds th hth P hm hk had hL ori r0.t _ ?_ hn o
      set T : Row → ℕ → ℝ := fun r n => scanT Tamb vel r.t r.pos r.power r.dir (centroid n) with hT
      have hTp : ∀ r n, 0 < T r n := by
        intro r n
        rw [hT]
        unfold scanT
        dsimp only
        have : Tamb ≤ laserT Tamb 25 27 5.2e-6 vel r.dir r.pos (centroid n) := by
          rw [laserT_eq]
          have hpi := Real.pi_pos
          have : (0 : ℝ) ≤ 25 / (2 * Real.pi * 27) * ((√(dist2 (centroid n) r.pos))⁻¹ * Real.exp (-(vel / (2 * 5.2e-6)) * (√(dist2 (centroid n) r.pos) + ∑ i, (centroid n i - r.pos i) * r.dir i))) := by positivity
          linarith
        split_ifs <;> linarith
      clear_value T
      clear hr hT
      induction rest generalizing r0 with
      | nil => trivial
      | cons r rest ih =>
        rw [List.isChain_cons_cons] at hch
        refine ⟨hch.1.1.le, fun n _ => ?_, ih r hch.2⟩
        unfold StepOk
        have h1 := LgOf_le P hL hQ hg (T r0) n (hTp r0 n)
        have h2 : 0 ≤ LgOf P (T r0) n := mul_nonneg hL (Real.exp_pos _).le
        have h3 : (r.t - r0.t) * LgOf P (T r0) n ≤ dt * (P.L0 * Real.exp (-P.Qg / (2000 * P.gas_const))) := mul_le_mul (by linarith [hch.1.2]) h1 h2 hdt.le
        refine le_trans (mul_le_mul_of_nonneg_right h3 ?_) hstep
        have h4 : (0 : ℝ) ≤ 4 * m - 2 := by
          have : (1 : ℝ) ≤ m := by exact_mod_cast hmm
          linarith
        have h5 : 0 ≤ anisoMax P := by
          unfold anisoMax
          split_ifs <;> linarith
        have h6 : 0 ≤ P.m_g / P.ad_hoc := div_nonneg hm had.le
        have := had.le
        positivity

/-- The path of pf_params.yaml, in millimetres: three segments, one sample every 0.05 mm; the second segment has two rows. -/
example : ∃ rows, readPath [0.1, 0.9, 0.9, 0.1] [0.17, 0.17, 0.07, 0.07] [0.1, 0.1, 0.1, 0.1] [1, 1, 1, 0] 250 2e-4 = .ok rows ∧ rows.length = 34 := by
  have h := (C141_rows [0.1, 0.9, 0.9, 0.1] [0.17, 0.17, 0.07, 0.07] [0.1, 0.1, 0.1, 0.1] [1, 1, 1, 0] 250 2e-4 _).mpr ⟨by simp, by simp, by simp, by simp, rfl⟩
  refine ⟨_, h, ?_⟩
  rw [(C141_times _ _ _ _ _ _ (by norm_num) (by norm_num) _ h).2.2.2]
  have h0 : segLen [0.1, 0.9, 0.9, 0.1] [0.17, 0.17, 0.07, 0.07] [0.1, 0.1, 0.1, 0.1] 0 = 0.8 := by
    unfold segLen dist2 cornerOf
    rw [Real.sqrt_eq_iff_mul_self_eq (by positivity) (by norm_num)]
    norm_num [Fin.sum_univ_three]
    exact sub_self (1 / 10 : ℝ)
  have h1 : segLen [0.1, 0.9, 0.9, 0.1] [0.17, 0.17, 0.07, 0.07] [0.1, 0.1, 0.1, 0.1] 1 = 0.1 := by
    unfold segLen dist2 cornerOf
    rw [Real.sqrt_eq_iff_mul_self_eq (by positivity) (by norm_num)]
    norm_num [Fin.sum_univ_three]
    exact sub_self (1 / 10 : ℝ)
  have h2 : segLen [0.1, 0.9, 0.9, 0.1] [0.17, 0.17, 0.07, 0.07] [0.1, 0.1, 0.1, 0.1] 2 = 0.8 := by
    unfold segLen dist2 cornerOf
    rw [Real.sqrt_eq_iff_mul_self_eq (by positivity) (by norm_num)]
    norm_num [Fin.sum_univ_three]
    exact sub_self (1 / 10 : ℝ)
  simp only [List.length_cons, List.length_nil, Nat.reduceAdd, Nat.add_one_sub_one, sum_range_succ, sum_range_zero, h0, h1, h2]
  norm_num

end Verif.PhaseField
