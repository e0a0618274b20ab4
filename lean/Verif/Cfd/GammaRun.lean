import Mathlib.Data.Real.Sqrt
import Mathlib.Algebra.Order.Floor.Semiring
import Mathlib.Tactic.FieldSimp
import Mathlib.Tactic.Linarith
import Mathlib.Tactic.Positivity
import Mathlib.Tactic.NormNum
import Verif.Cfd.Gamma

/-!
# C137: the driver of the GAMMA solver (model of applications/cfd/gamma/example.py)

Tool path and directions (87-94, 103-106), the moving window in which the melt pool is recorded (33-45), the recording steps (110-123).
Not modelled: reading the input files, the laser power table (96, 102, 105), which raises in the same way if it ends early, and writing the mesh (108, 119-121).
-/
namespace Verif.Cfd.GammaRun
open Finset Verif.Cfd

/-! ## Tool path -/

/-- The tool path: rows `0, ..., n` of time and position (`toolpath[:, 0]`, `toolpath[:, 1:3]`; example.py 87). -/
structure Path where
  n : ℕ
  time : ℕ → ℝ
  pos : ℕ → ℝ × ℝ

/-- Lines 92-93 of example.py: the second line reads the first column after it has been overwritten. `none` stands for `nan` (no movement). -/
noncomputable def unitRow (d : ℝ × ℝ) : Option (ℝ × ℝ) :=
  if d.1 ^ 2 + d.2 ^ 2 = 0 then none
  else
    let a := d.1 / √(d.1 ^ 2 + d.2 ^ 2)
    some (a, d.2 / √(a ^ 2 + d.2 ^ 2))

/-- `direction[j, 1:3]` (example.py 89-93). -/
noncomputable def direction (p : Path) (j : ℕ) : Option (ℝ × ℝ) :=
  if j = 0 then some (0, 0) else unitRow ((p.pos j).1 - (p.pos (j - 1)).1, (p.pos j).2 - (p.pos (j - 1)).2)

/-- `t = arange(0, toolpath[-1, 0], dt) + dt/2` (example.py 88). -/
noncomputable def times (p : Path) (dt : ℝ) : List ℝ := (List.range ⌈p.time p.n / dt⌉₊).map fun k : ℕ => k * dt + dt / 2

/-- `searchsorted` inside `interp1d` (example.py 94, 103): how many rows lie before `t`. -/
noncomputable def before (p : Path) (t : ℝ) : ℕ := open Classical in ((range (p.n + 1)).filter fun j => p.time j < t).card

/-- `interp1d` (example.py 94, 103) refuses times outside the table. -/
noncomputable def inTable (p : Path) (t : ℝ) : Bool := open Classical in decide (p.time 0 ≤ t ∧ t ≤ p.time p.n)

/-- `pos_interp` (example.py 94, 104): `interp1d` of kind `linear`; the row is at least 1 and at most `n`. -/
noncomputable def posAt (p : Path) (t : ℝ) : Except String (ℝ × ℝ) :=
  if inTable p t then
    let j := min (max (before p t) 1) p.n
    let s := (t - p.time (j - 1)) / (p.time j - p.time (j - 1))
    .ok ((p.pos (j - 1)).1 + s * ((p.pos j).1 - (p.pos (j - 1)).1), (p.pos (j - 1)).2 + s * ((p.pos j).2 - (p.pos (j - 1)).2))
  else .error "ValueError"

/-- `dir_interp` (example.py 103, 106): `interp1d` of kind `next`. -/
noncomputable def dirAt (p : Path) (t : ℝ) : Except String (Option (ℝ × ℝ)) := if inTable p t then .ok (direction p (min (before p t) p.n)) else .error "ValueError"

/-- **C137 (direction).** The direction of a movement has length one only if the movement is along an axis or has length one itself: the second component is divided by a norm that contains the already normalised first one. -/
theorem C137_unit (d : ℝ × ℝ) (hd : d.1 ^ 2 + d.2 ^ 2 ≠ 0) :
    ∃ e, unitRow d = some e ∧ (e.1 ^ 2 + e.2 ^ 2 = 1 ↔ d.1 = 0 ∨ d.2 = 0 ∨ d.1 ^ 2 + d.2 ^ 2 = 1) ∧
      (d.1 ^ 2 + d.2 ^ 2 = 1 ∨ d.1 = 0 ∨ d.2 = 0 → e.1 * √(d.1 ^ 2 + d.2 ^ 2) = d.1 ∧ e.2 * √(d.1 ^ 2 + d.2 ^ 2) = d.2) := by
  obtain ⟨x, y⟩ := d
  dsimp only at hd ⊢
  set r2 := x ^ 2 + y ^ 2 with hr2
  have hpos : 0 < r2 := lt_of_le_of_ne (by positivity) (Ne.symm hd)
  have hsq : √r2 ^ 2 = r2 := Real.sq_sqrt hpos.le
  have hs : 0 < √r2 := Real.sqrt_pos.2 hpos
  refine ⟨(x / √r2, y / √((x / √r2) ^ 2 + y ^ 2)), ?_, ?_, ?_⟩
  · unfold unitRow
    dsimp only
    rw [if_neg hd]
  · dsimp only
    have ha : (x / √r2) ^ 2 = x ^ 2 / r2 := by rw [div_pow, hsq]
    rw [ha, div_pow]
    by_cases hy : y = 0
    · subst hy
      have : x ^ 2 / r2 = 1 := by rw [hr2]; rw [div_eq_one_iff_eq hd]; ring
      simp [this]
    · by_cases hx : x = 0
      · subst hx
        have hy2 : y ^ 2 ≠ 0 := pow_ne_zero 2 hy
        simp [Real.sq_sqrt (sq_nonneg y), div_self hy2]
      · have hq : 0 < x ^ 2 / r2 + y ^ 2 := by positivity
        rw [Real.sq_sqrt hq.le]
        constructor
        · intro h
          right; right
          have h1 : y ^ 2 / (x ^ 2 / r2 + y ^ 2) = y ^ 2 / r2 := by
            have : x ^ 2 / r2 + y ^ 2 / r2 = 1 := by rw [← add_div, ← hr2, div_self hd]
            linarith
          have h2 : x ^ 2 / r2 + y ^ 2 = r2 := by
            have hy2 : y ^ 2 ≠ 0 := pow_ne_zero 2 hy
            rw [div_eq_div_iff hq.ne' hd] at h1
            exact (mul_left_cancel₀ hy2 h1).symm
          have h3 : x ^ 2 / r2 = x ^ 2 := by rw [hr2] at h2 ⊢; linarith
          have hx2 : x ^ 2 ≠ 0 := pow_ne_zero 2 hx
          rw [div_eq_iff hd] at h3
          have : x ^ 2 * r2 = x ^ 2 * 1 := by linarith
          exact mul_left_cancel₀ hx2 this
        · rintro (h | h | h)
          · exact absurd h hx
          · exact absurd h hy
          · rw [h]
            have : x ^ 2 / 1 + y ^ 2 = 1 := by rw [div_one, ← hr2, h]
            rw [this, div_one, div_one, ← hr2, h]
  · dsimp only
    have e1 : x / √r2 * √r2 = x := div_mul_cancel₀ _ hs.ne'
    refine fun h => ⟨e1, ?_⟩
    have ha : (x / √r2) ^ 2 = x ^ 2 / r2 := by rw [div_pow, hsq]
    rcases h with h | h | h
    · rw [ha, h, div_one, ← hr2, h]
      simp
    · subst h
      have : (0 / √r2) ^ 2 + y ^ 2 = r2 := by rw [hr2]; simp
      rw [this, div_mul_cancel₀ _ hs.ne']
    · subst h
      simp

/-- For short oblique movements the direction is too short, and it turns towards the first axis: the second component is at most that of the movement itself, in metres, divided by the cosine of its angle. -/
theorem C137_short (d : ℝ × ℝ) (h1 : d.1 ≠ 0) (hlt : d.1 ^ 2 + d.2 ^ 2 ≤ 1) :
    ∃ e, unitRow d = some e ∧ e.1 ^ 2 + e.2 ^ 2 ≤ 1 ∧ |e.2| ≤ |d.2| * √(d.1 ^ 2 + d.2 ^ 2) / |d.1| := by
  obtain ⟨x, y⟩ := d
  dsimp only at h1 hlt ⊢
  set r2 := x ^ 2 + y ^ 2 with hr2
  have hx2 : 0 < x ^ 2 := by positivity
  have hpos : 0 < r2 := by positivity
  have hsq : √r2 ^ 2 = r2 := Real.sq_sqrt hpos.le
  have hs : 0 < √r2 := Real.sqrt_pos.2 hpos
  have ha : (x / √r2) ^ 2 = x ^ 2 / r2 := by rw [div_pow, hsq]
  refine ⟨(x / √r2, y / √((x / √r2) ^ 2 + y ^ 2)), ?_, ?_, ?_⟩
  · unfold unitRow
    dsimp only
    rw [if_neg hpos.ne']
  · dsimp only
    have hq : 0 < x ^ 2 / r2 + y ^ 2 := by positivity
    rw [ha, div_pow, Real.sq_sqrt hq.le]
    have hge : r2 ≤ x ^ 2 / r2 + y ^ 2 := by
      have : x ^ 2 ≤ x ^ 2 / r2 := by
        rw [le_div_iff₀ hpos]
        nlinarith
      linarith
    have : y ^ 2 / (x ^ 2 / r2 + y ^ 2) ≤ y ^ 2 / r2 := div_le_div_of_nonneg_left (sq_nonneg y) hpos hge
    have h2 : x ^ 2 / r2 + y ^ 2 / r2 = 1 := by rw [← add_div, ← hr2, div_self hpos.ne']
    linarith
  · dsimp only
    rw [abs_div, abs_of_nonneg (Real.sqrt_nonneg _), ha]
    have h3 : |x| / √r2 ≤ √(x ^ 2 / r2 + y ^ 2) := by
      apply Real.le_sqrt_of_sq_le
      rw [div_pow, sq_abs, hsq]
      linarith [sq_nonneg y]
    have hax : 0 < |x| := abs_pos.2 h1
    calc |y| / √(x ^ 2 / r2 + y ^ 2) ≤ |y| / (|x| / √r2) := div_le_div_of_nonneg_left (abs_nonneg y) (by positivity) h3
      _ = |y| * √r2 / |x| := by field_simp

/-- A movement by (3 mm, 4 mm): the true direction is (0.6, 0.8), the stored one has the second component below 0.0067. -/
example : ∃ e, unitRow (3e-3, 4e-3) = some e ∧ e.1 = 0.6 ∧ |e.2| ≤ 0.0067 := by
  have hs : √((3e-3 : ℝ) ^ 2 + 4e-3 ^ 2) = 5e-3 := by
    rw [show (3e-3 : ℝ) ^ 2 + 4e-3 ^ 2 = (5e-3) ^ 2 by norm_num]
    exact Real.sqrt_sq (by norm_num)
  obtain ⟨e, h1, -, h3⟩ := C137_short (3e-3, 4e-3) (by norm_num) (by norm_num)
  dsimp only at h3
  rw [hs] at h3
  refine ⟨e, h1, ?_, h3.trans ?_⟩
  · unfold unitRow at h1
    dsimp only at h1
    rw [if_neg (by norm_num), hs] at h1
    cases h1
    norm_num
  · rw [abs_of_nonneg (by norm_num), abs_of_nonneg (by norm_num)]
    norm_num

theorem before_eq (p : Path) (hm : ∀ i j, i < j → j ≤ p.n → p.time i < p.time j) (j : ℕ) (hj : 1 ≤ j) (hjn : j ≤ p.n) (t : ℝ) (h1 : p.time (j - 1) < t) (h2 : t ≤ p.time j) : before p t = j := by
  classical
  unfold before
  have : ((range (p.n + 1)).filter fun i => p.time i < t) = range j := by
    ext i
    simp only [mem_filter, mem_range]
    constructor
    · rintro ⟨hi, hit⟩
      by_contra hcon
      push Not at hcon
      rcases Nat.eq_or_lt_of_le hcon with h | h
      · rw [← h] at hit; linarith
      · have := hm j i h (by omega); linarith
    · intro hi
      refine ⟨by omega, ?_⟩
      rcases Nat.eq_or_lt_of_le (show i ≤ j - 1 by omega) with h | h
      · rw [h]; exact h1
      · exact (hm i (j - 1) h (by omega)).trans h1
  rw [this, card_range]

/-- **C137 (segments).** At a time inside the `j`-th segment the laser stands on that segment, at the right place for constant speed, and the direction used is the one stored for the same segment. -/
theorem C137_segment (p : Path) (hm : ∀ i j, i < j → j ≤ p.n → p.time i < p.time j) (j : ℕ) (hj : 1 ≤ j) (hjn : j ≤ p.n) (t : ℝ) (h1 : p.time (j - 1) < t) (h2 : t ≤ p.time j) :
    ∃ s, 0 < s ∧ s ≤ 1 ∧ t = p.time (j - 1) + s * (p.time j - p.time (j - 1)) ∧
      posAt p t = .ok ((1 - s) * (p.pos (j - 1)).1 + s * (p.pos j).1, (1 - s) * (p.pos (j - 1)).2 + s * (p.pos j).2) ∧
      dirAt p t = .ok (unitRow ((p.pos j).1 - (p.pos (j - 1)).1, (p.pos j).2 - (p.pos (j - 1)).2)) := by
  have hlt := hm (j - 1) j (by omega) hjn
  have hpos : 0 < p.time j - p.time (j - 1) := by linarith
  have h0 : p.time 0 ≤ p.time (j - 1) := by
    rcases Nat.eq_zero_or_pos (j - 1) with h | h
    · rw [h]
    · exact (hm 0 (j - 1) h (by omega)).le
  have hn : p.time j ≤ p.time p.n := by
    rcases Nat.eq_or_lt_of_le hjn with h | h
    · rw [h]
    · exact (hm j p.n h le_rfl).le
  have hin : inTable p t = true := by
    unfold inTable
    rw [decide_eq_true_iff]
    exact ⟨by linarith, by linarith⟩
  have hb := before_eq p hm j hj hjn t h1 h2
  have hrow : min (max j 1) p.n = j := by omega
  refine ⟨(t - p.time (j - 1)) / (p.time j - p.time (j - 1)), div_pos (by linarith) hpos, (div_le_one hpos).2 (by linarith), ?_, ?_, ?_⟩
  · rw [div_mul_cancel₀ _ hpos.ne']; ring
  · unfold posAt
    rw [if_pos hin, hb, hrow]
    dsimp only
    congr 2 <;> ring
  · unfold dirAt
    rw [if_pos hin, hb, Nat.min_eq_left hjn]
    unfold direction
    rw [if_neg (by omega)]

/-- **C137 (times).** The sampling times lie in the middle of the steps. They are all inside the table, and so the interpolation does not raise, iff the last step is at least half inside: otherwise the program stops with an error. -/
theorem C137_times (p : Path) (dt : ℝ) (hdt : 0 < dt) (h0 : p.time 0 = 0) (hT : 0 < p.time p.n) :
    (∀ t ∈ times p dt, (∃ q, posAt p t = .ok q) ∧ ∃ e, dirAt p t = .ok e) ↔ (⌈p.time p.n / dt⌉₊ : ℝ) - 1 / 2 ≤ p.time p.n / dt := by
  have hok : ∀ t, ((∃ q, posAt p t = .ok q) ∧ ∃ e, dirAt p t = .ok e) ↔ p.time 0 ≤ t ∧ t ≤ p.time p.n := by
    intro t
    unfold posAt dirAt
    by_cases h : inTable p t = true
    · rw [if_pos h, if_pos h]
      unfold inTable at h
      rw [decide_eq_true_iff] at h
      exact ⟨fun _ => h, fun _ => ⟨⟨_, rfl⟩, ⟨_, rfl⟩⟩⟩
    · rw [if_neg h]
      unfold inTable at h
      rw [decide_eq_true_iff] at h
      exact ⟨fun ⟨⟨q, hq⟩, _⟩ => (by cases hq), fun h' => absurd h' h⟩
  simp only [hok]
  set K := ⌈p.time p.n / dt⌉₊ with hK
  have hKpos : 0 < K := Nat.ceil_pos.2 (div_pos hT hdt)
  unfold times
  rw [← hK]
  constructor
  · intro h
    have := (h (((K - 1 : ℕ) : ℝ) * dt + dt / 2) (List.mem_map.2 ⟨K - 1, List.mem_range.2 (by omega), rfl⟩)).2
    rw [le_div_iff₀ hdt]
    have hc : ((K - 1 : ℕ) : ℝ) = (K : ℝ) - 1 := by rw [Nat.cast_sub hKpos]; simp
    rw [hc] at this
    linarith
  · intro h t ht
    obtain ⟨k, hk, rfl⟩ := List.mem_map.1 ht
    have hk' : (k : ℝ) ≤ (K : ℝ) - 1 := by
      have : k + 1 ≤ K := List.mem_range.1 hk
      have : ((k + 1 : ℕ) : ℝ) ≤ K := by exact_mod_cast this
      push_cast at this
      linarith
    rw [le_div_iff₀ hdt] at h
    refine ⟨by rw [h0]; positivity, ?_⟩
    nlinarith

/-- A path of 2.25 steps: the third sample is beyond the end. -/
example : ¬ ((⌈(2.25 : ℝ)⌉₊ : ℝ) - 1 / 2 ≤ 2.25) := by
  have : ⌈(2.25 : ℝ)⌉₊ = 3 := by
    rw [Nat.ceil_eq_iff (by norm_num)]
    norm_num
  rw [this]
  norm_num

/-- The tool path in the repository ends at 0.12 s and the step is 2 us: 60000 steps, all inside (in exact arithmetic). -/
example : (⌈(0.12 : ℝ) / 2e-6⌉₊ : ℝ) - 1 / 2 ≤ 0.12 / 2e-6 := by
  have h : (0.12 : ℝ) / 2e-6 = ((60000 : ℕ) : ℝ) := by norm_num
  rw [h, Nat.ceil_natCast]
  norm_num

/-- Its first movements, (3 mm, 0) and (0, 0.1 mm), are along an axis: there the stored direction is right. -/
example : (∃ e, unitRow (3e-3, 0) = some e ∧ e.1 ^ 2 + e.2 ^ 2 = 1) ∧ ∃ e, unitRow (0, 1e-4) = some e ∧ e.1 ^ 2 + e.2 ^ 2 = 1 := by
  obtain ⟨e, h, hu, -⟩ := C137_unit (3e-3, 0) (by norm_num)
  obtain ⟨e', h', hu', -⟩ := C137_unit (0, 1e-4) (by norm_num)
  exact ⟨⟨e, h, hu.2 (Or.inr (Or.inl rfl))⟩, e', h', hu'.2 (Or.inl rfl)⟩

/-! ## The window -/

/-- An array value with `mode="constant"`, `cval=0`, the defaults of `map_coordinates` (example.py 40). The field passed in is `T - T0` (116), so zero means ambient temperature. -/
def val2 (n m : ℕ) (f : ℕ → ℕ → ℝ) (i j : ℤ) : ℝ := if 0 ≤ i ∧ i < n ∧ 0 ≤ j ∧ j < m then f i.toNat j.toNat else 0

/-- `map_coordinates(f, (x, y), 1)` (example.py 40): bilinear interpolation. -/
noncomputable def coord2 (n m : ℕ) (f : ℕ → ℕ → ℝ) (x y : ℝ) : ℝ :=
  let i := ⌊x⌋
  let j := ⌊y⌋
  let a := x - i
  let b := y - j
  (1 - a) * (1 - b) * val2 n m f i j + (1 - a) * b * val2 n m f i (j + 1) + a * (1 - b) * val2 n m f (i + 1) j + a * b * val2 n m f (i + 1) (j + 1)

/-- The same for an array with three axes (example.py 44). -/
def val3 (n m l : ℕ) (f : ℕ → ℕ → ℕ → ℝ) (i j k : ℤ) : ℝ := if 0 ≤ i ∧ i < n ∧ 0 ≤ j ∧ j < m ∧ 0 ≤ k ∧ k < l then f i.toNat j.toNat k.toNat else 0

/-- `map_coordinates(f, (x, y, z), 1)` (example.py 44). -/
noncomputable def coord3 (n m l : ℕ) (f : ℕ → ℕ → ℕ → ℝ) (x y z : ℝ) : ℝ :=
  let i := ⌊x⌋
  let j := ⌊y⌋
  let k := ⌊z⌋
  let a := x - i
  let b := y - j
  let c := z - k
  (1 - a) * (1 - b) * (1 - c) * val3 n m l f i j k + (1 - a) * (1 - b) * c * val3 n m l f i j (k + 1) + (1 - a) * b * (1 - c) * val3 n m l f i (j + 1) k + (1 - a) * b * c * val3 n m l f i (j + 1) (k + 1) +
    a * (1 - b) * (1 - c) * val3 n m l f (i + 1) j k + a * (1 - b) * c * val3 n m l f (i + 1) j (k + 1) + a * b * (1 - c) * val3 n m l f (i + 1) (j + 1) k + a * b * c * val3 n m l f (i + 1) (j + 1) (k + 1)

/-- `surface_T` (example.py 34). -/
noncomputable def surfaceT (T : Arr3 ℝ) (i j : ℕ) : ℝ := (T.get (i + 1) (j + 1) (T.n2 - 1) + T.get (i + 1) (j + 1) (T.n2 - 2)) / 2

/-- `gridx_`, `gridy_` (example.py 35-36): 128 and 64 points in exact arithmetic. -/
noncomputable def gridX (p : ℕ) : ℝ := -1e-3 + p * 1e-5
/-- `gridy_` (example.py 36). -/
noncomputable def gridY (q : ℕ) : ℝ := -0.32e-3 + q * 1e-5

/-- `X_rot`, `Y_rot` (example.py 38-39); the second line subtracts `dx/2`. -/
noncomputable def xRot (rot : ℝ × ℝ) (xl dx gx gy : ℝ) : ℝ := (gx * rot.1 - gy * rot.2 + xl - dx / 2) / dx
/-- `Y_rot` (example.py 39). -/
noncomputable def yRot (rot : ℝ × ℝ) (yl dx dy gx gy : ℝ) : ℝ := (gx * rot.2 + gy * rot.1 + yl - dx / 2) / dy

/-- `melt_2d` (example.py 40). -/
noncomputable def melt2 (T : Arr3 ℝ) (rot : ℝ × ℝ) (xl yl dx dy : ℝ) (p q : ℕ) : ℝ :=
  coord2 (T.n0 - 2) (T.n1 - 2) (surfaceT T) (xRot rot xl dx (gridX p) (gridY q)) (yRot rot yl dx dy (gridX p) (gridY q))

/-- `melt_3d` (example.py 41-44): `T[1:-1, 1:-1, -31:-1]` at the depths `0, ..., 29`. -/
noncomputable def melt3 (T : Arr3 ℝ) (rot : ℝ × ℝ) (xl yl dx dy : ℝ) (p q r : ℕ) : ℝ :=
  coord3 (T.n0 - 2) (T.n1 - 2) 30 (fun i j k => T.get (i + 1) (j + 1) (T.n2 - 31 + k)) (xRot rot xl dx (gridX p) (gridY q)) (yRot rot yl dx dy (gridX p) (gridY q)) r

theorem lin1 (n : ℕ) (x : ℝ) (h0 : 0 ≤ x) (h1 : x ≤ (n : ℝ) - 1) :
    (0 ≤ ⌊x⌋ ∧ ⌊x⌋ < n) ∧ (x - ⌊x⌋ ≠ 0 → ⌊x⌋ + 1 < n) := by
  have hf : ⌊x⌋ ≤ (n : ℤ) - 1 := by
    have : ⌊x⌋ ≤ ⌊((n : ℤ) - 1 : ℝ)⌋ := Int.floor_mono (by exact_mod_cast h1)
    have h2 : ⌊(((n : ℤ) - 1 : ℤ) : ℝ)⌋ = (n : ℤ) - 1 := Int.floor_intCast _
    push_cast at h2 this
    rwa [h2] at this
  refine ⟨⟨Int.floor_nonneg.2 h0, by omega⟩, fun h => ?_⟩
  by_contra hcon
  have he : ⌊x⌋ = (n : ℤ) - 1 := by omega
  apply h
  have : ((⌊x⌋ : ℤ) : ℝ) = (n : ℝ) - 1 := by rw [he]; push_cast; ring
  have h3 := Int.floor_le x
  rw [this] at h3 ⊢
  linarith

/-- **C137 (interpolation).** Inside the grid of cell centres the interpolation is a mean of values of the array with non-negative weights adding up to one, so it stays between bounds of the array; it is exact for affine fields. -/
theorem C137_interp (n m : ℕ) (f : ℕ → ℕ → ℝ) (x y : ℝ) (hx : 0 ≤ x ∧ x ≤ (n : ℝ) - 1) (hy : 0 ≤ y ∧ y ≤ (m : ℝ) - 1) :
    (∀ lo hi, (∀ i < n, ∀ j < m, lo ≤ f i j ∧ f i j ≤ hi) → lo ≤ coord2 n m f x y ∧ coord2 n m f x y ≤ hi) ∧
    (∀ c0 c1 c2 : ℝ, (∀ i < n, ∀ j < m, f i j = c0 + c1 * i + c2 * j) → coord2 n m f x y = c0 + c1 * x + c2 * y) := by
  obtain ⟨⟨i0, i1⟩, i2⟩ := lin1 n x hx.1 hx.2
  obtain ⟨⟨j0, j1⟩, j2⟩ := lin1 m y hy.1 hy.2
  set a := x - ⌊x⌋ with ha
  set b := y - ⌊y⌋ with hb
  have a0 : 0 ≤ a := by rw [ha]; linarith [Int.floor_le x]
  have a1 : a ≤ 1 := by rw [ha]; linarith [Int.lt_floor_add_one x]
  have b0 : 0 ≤ b := by rw [hb]; linarith [Int.floor_le y]
  have b1 : b ≤ 1 := by rw [hb]; linarith [Int.lt_floor_add_one y]
  have hv : ∀ (i j : ℤ), 0 ≤ i → i < n → 0 ≤ j → j < m → val2 n m f i j = f i.toNat j.toNat := fun i j h1 h2 h3 h4 => if_pos ⟨h1, h2, h3, h4⟩
  have hnat : ∀ (i : ℤ) (k : ℕ), 0 ≤ i → i < k → i.toNat < k := fun i k h1 h2 => by omega
  -- a corner either has weight zero or is inside
  have corner : ∀ (w : ℝ) (i j : ℤ) (P : ℝ → Prop), 0 ≤ i → 0 ≤ j → (w ≠ 0 → i < n ∧ j < m) → P 0 → (∀ i' < n, ∀ j' < m, i = (i' : ℤ) → j = (j' : ℤ) → P (w * f i' j')) → P (w * val2 n m f i j) := by
    intro w i j P hi hj hw h0 hP
    by_cases hz : w = 0
    · rw [hz, zero_mul]; exact h0
    · obtain ⟨h1, h2⟩ := hw hz
      rw [hv i j hi h1 hj h2]
      exact hP _ (hnat i n hi h1) _ (hnat j m hj h2) (by omega) (by omega)
  have w1 : (1 - a) * b ≠ 0 → ⌊x⌋ < n ∧ ⌊y⌋ + 1 < m := fun h => ⟨i1, j2 (right_ne_zero_of_mul h)⟩
  have w2 : a * (1 - b) ≠ 0 → ⌊x⌋ + 1 < n ∧ ⌊y⌋ < m := fun h => ⟨i2 (left_ne_zero_of_mul h), j1⟩
  have w3 : a * b ≠ 0 → ⌊x⌋ + 1 < n ∧ ⌊y⌋ + 1 < m := fun h => ⟨i2 (left_ne_zero_of_mul h), j2 (right_ne_zero_of_mul h)⟩
  have hc : coord2 n m f x y = (1 - a) * (1 - b) * val2 n m f ⌊x⌋ ⌊y⌋ + (1 - a) * b * val2 n m f ⌊x⌋ (⌊y⌋ + 1) + a * (1 - b) * val2 n m f (⌊x⌋ + 1) ⌊y⌋ + a * b * val2 n m f (⌊x⌋ + 1) (⌊y⌋ + 1) := rfl
  have p0 : 0 ≤ (1 - a) * (1 - b) := mul_nonneg (by linarith) (by linarith)
  have p1 : 0 ≤ (1 - a) * b := mul_nonneg (by linarith) b0
  have p2 : 0 ≤ a * (1 - b) := mul_nonneg a0 (by linarith)
  have p3 : 0 ≤ a * b := mul_nonneg a0 b0
  constructor
  · intro lo hi hf
    have bnd : ∀ (w : ℝ) (i j : ℤ), 0 ≤ w → 0 ≤ i → 0 ≤ j → (w ≠ 0 → i < n ∧ j < m) → w * lo ≤ w * val2 n m f i j ∧ w * val2 n m f i j ≤ w * hi := by
      intro w i j hw h1 h2 h3
      by_cases hz : w = 0
      · rw [hz]; simp
      · obtain ⟨g1, g2⟩ := h3 hz
        rw [hv i j h1 g1 h2 g2]
        obtain ⟨q1, q2⟩ := hf _ (hnat i n h1 g1) _ (hnat j m h2 g2)
        exact ⟨mul_le_mul_of_nonneg_left q1 hw, mul_le_mul_of_nonneg_left q2 hw⟩
    obtain ⟨l0, u0⟩ := bnd _ _ _ p0 i0 j0 fun _ => ⟨i1, j1⟩
    obtain ⟨l1, u1⟩ := bnd _ _ _ p1 i0 (by omega) w1
    obtain ⟨l2, u2⟩ := bnd _ _ _ p2 (by omega) j0 w2
    obtain ⟨l3, u3⟩ := bnd _ _ _ p3 (by omega) (by omega) w3
    have hs : ∀ z : ℝ, (1 - a) * (1 - b) * z + (1 - a) * b * z + a * (1 - b) * z + a * b * z = z := fun z => by ring
    rw [hc]
    exact ⟨by linarith [hs lo], by linarith [hs hi]⟩
  · intro c0 c1 c2 hf
    have ex : ∀ (w : ℝ) (i j : ℤ), 0 ≤ i → 0 ≤ j → (w ≠ 0 → i < n ∧ j < m) → w * val2 n m f i j = w * (c0 + c1 * i + c2 * j) := by
      intro w i j h1 h2 h3
      by_cases hz : w = 0
      · rw [hz]; simp
      · obtain ⟨g1, g2⟩ := h3 hz
        rw [hv i j h1 g1 h2 g2, hf _ (hnat i n h1 g1) _ (hnat j m h2 g2)]
        have e1 : ((i.toNat : ℕ) : ℝ) = (i : ℝ) := by exact_mod_cast Int.toNat_of_nonneg h1
        have e2 : ((j.toNat : ℕ) : ℝ) = (j : ℝ) := by exact_mod_cast Int.toNat_of_nonneg h2
        rw [e1, e2]
    rw [hc, ex _ _ _ i0 j0 fun _ => ⟨i1, j1⟩, ex _ _ _ i0 (by omega) w1, ex _ _ _ (by omega) j0 w2, ex _ _ _ (by omega) (by omega) w3]
    have hxe : x = ⌊x⌋ + a := by rw [ha]; ring
    have hye : y = ⌊y⌋ + b := by rw [hb]; ring
    conv_rhs => rw [hxe, hye]
    push_cast
    ring

/-- Far outside the array the recorded value is zero. -/
theorem C137_outside (n m : ℕ) (f : ℕ → ℕ → ℝ) (x y : ℝ) (h : x < -1 ∨ (n : ℝ) ≤ x ∨ y < -1 ∨ (m : ℝ) ≤ y) : coord2 n m f x y = 0 := by
  have hz : ∀ (i j : ℤ), (i < 0 ∨ (n : ℤ) ≤ i ∨ j < 0 ∨ (m : ℤ) ≤ j) → val2 n m f i j = 0 := fun i j h => if_neg (by omega)
  have hlow : ∀ z : ℝ, z < -1 → ⌊z⌋ < -1 := fun z hz => by
    rw [Int.floor_lt]; push_cast; exact hz
  have hhigh : ∀ (k : ℕ) (z : ℝ), (k : ℝ) ≤ z → (k : ℤ) ≤ ⌊z⌋ := fun k z hz => Int.le_floor.2 (by exact_mod_cast hz)
  have hc : ∀ di dj : ℤ, (di = 0 ∨ di = 1) → (dj = 0 ∨ dj = 1) → val2 n m f (⌊x⌋ + di) (⌊y⌋ + dj) = 0 := by
    intro di dj h1 h2
    apply hz
    rcases h with h | h | h | h
    · have := hlow x h; omega
    · have := hhigh n x h; omega
    · have := hlow y h; omega
    · have := hhigh m y h; omega
  have c0 := hc 0 0 (Or.inl rfl) (Or.inl rfl)
  have c1 := hc 0 1 (Or.inl rfl) (Or.inr rfl)
  have c2 := hc 1 0 (Or.inr rfl) (Or.inl rfl)
  have c3 := hc 1 1 (Or.inr rfl) (Or.inr rfl)
  simp only [add_zero] at c0 c1 c2
  unfold coord2
  dsimp only
  rw [c0, c1, c2, c3]
  ring

/-- **C137 (window).** If the surface temperature is an affine function of position (cell centres at `dx/2 + dx i`, `dy/2 + dy j`, lines 61-62), the recorded value at a point of the window is that function at the laser position plus the turned
offset, but shifted by `(dy - dx)/2` in the second coordinate: right only for equal spacings, as in the program. -/
theorem C137_window (T : Arr3 ℝ) (rot : ℝ × ℝ) (xl yl dx dy : ℝ) (hdx : 0 < dx) (hdy : 0 < dy) (p q : ℕ)
    (hx : 0 ≤ xRot rot xl dx (gridX p) (gridY q) ∧ xRot rot xl dx (gridX p) (gridY q) ≤ ((T.n0 - 2 : ℕ) : ℝ) - 1)
    (hy : 0 ≤ yRot rot yl dx dy (gridX p) (gridY q) ∧ yRot rot yl dx dy (gridX p) (gridY q) ≤ ((T.n1 - 2 : ℕ) : ℝ) - 1)
    (c0 c1 c2 : ℝ) (haff : ∀ i < T.n0 - 2, ∀ j < T.n1 - 2, surfaceT T i j = c0 + c1 * (dx / 2 + dx * i) + c2 * (dy / 2 + dy * j)) :
    melt2 T rot xl yl dx dy p q = c0 + c1 * (xl + (gridX p * rot.1 - gridY q * rot.2)) + c2 * (yl + (gridX p * rot.2 + gridY q * rot.1) + (dy - dx) / 2) := by
  unfold melt2
  rw [(C137_interp _ _ (surfaceT T) _ _ hx hy).2 (c0 + c1 * (dx / 2) + c2 * (dy / 2)) (c1 * dx) (c2 * dy) (fun i hi j hj => by rw [haff i hi j hj]; ring)]
  unfold xRot yRot
  field_simp
  ring

/-- **C137 (turning).** Distances in the window are the true ones multiplied by the length of the direction vector: the window is a rotated copy only if the direction has length one (`C137_unit` says when). -/
theorem C137_turn (rot : ℝ × ℝ) (xl yl dx : ℝ) (hdx : 0 < dx) (gx gy gx' gy' : ℝ) :
    (dx * xRot rot xl dx gx gy - dx * xRot rot xl dx gx' gy') ^ 2 + (dx * yRot rot yl dx dx gx gy - dx * yRot rot yl dx dx gx' gy') ^ 2 = (rot.1 ^ 2 + rot.2 ^ 2) * ((gx - gx') ^ 2 + (gy - gy') ^ 2) := by
  unfold xRot yRot
  have h : ∀ z : ℝ, dx * (z / dx) = z := fun z => mul_div_cancel₀ z hdx.ne'
  rw [h, h, h, h]
  ring

/-- **C137 (depth).** Depth `r` of `melt_3d` is the interpolation in one layer of cells: `r = 29` the top layer of cells, `r = 0` the one 29 below. -/
theorem C137_depth (T : Arr3 ℝ) (rot : ℝ × ℝ) (xl yl dx dy : ℝ) (p q r : ℕ) (hr : r < 30) :
    melt3 T rot xl yl dx dy p q r = coord2 (T.n0 - 2) (T.n1 - 2) (fun i j => T.get (i + 1) (j + 1) (T.n2 - 31 + r)) (xRot rot xl dx (gridX p) (gridY q)) (yRot rot yl dx dy (gridX p) (gridY q)) := by
  unfold melt3 coord3 coord2
  dsimp only
  rw [Int.floor_natCast]
  have hk : ∀ i j : ℤ, val3 (T.n0 - 2) (T.n1 - 2) 30 (fun i j k => T.get (i + 1) (j + 1) (T.n2 - 31 + k)) i j (r : ℤ) = val2 (T.n0 - 2) (T.n1 - 2) (fun i j => T.get (i + 1) (j + 1) (T.n2 - 31 + r)) i j := by
    intro i j
    unfold val3 val2
    by_cases h : 0 ≤ i ∧ i < ((T.n0 - 2 : ℕ) : ℤ) ∧ 0 ≤ j ∧ j < ((T.n1 - 2 : ℕ) : ℤ)
    · rw [if_pos h, if_pos ⟨h.1, h.2.1, h.2.2.1, h.2.2.2, by omega, by omega⟩, Int.toNat_natCast]
    · rw [if_neg h, if_neg (fun h' => h ⟨h'.1, h'.2.1, h'.2.2.1, h'.2.2.2.1⟩)]
  simp only [hk]
  push_cast
  ring

/-! ## Recording -/

/-- `(i - 24) % 50 == 0` (example.py 114), with Python's remainder. -/
def records (i : ℕ) : Bool := ((i : ℤ) - 24).emod 50 == 0

/-- **C137 (recording).** File number `num` is written in step `24 + 50 num`, and in no other: before step `i` there are as many files as recording steps below `i`. -/
theorem C137_records (i : ℕ) : (records i = true ↔ ∃ num, i = 24 + 50 * num) ∧ ((List.range i).filter records).length = (i + 25) / 50 := by
  have hrec : ∀ i : ℕ, records i = true ↔ ∃ num, i = 24 + 50 * num := by
    intro i
    unfold records
    rw [beq_iff_eq]
    constructor
    · intro h
      have : ((i : ℤ) - 24) % 50 = 0 := h
      exact ⟨(i - 24) / 50, by omega⟩
    · rintro ⟨num, rfl⟩
      show ((((24 + 50 * num : ℕ) : ℤ)) - 24) % 50 = 0
      omega
  refine ⟨hrec i, ?_⟩
  induction i with
  | zero => rfl
  | succ i ih =>
    rw [List.range_succ, List.filter_append, List.length_append, ih]
    by_cases h : records i = true
    · obtain ⟨num, rfl⟩ := (hrec i).1 h
      rw [List.filter_cons_of_pos h]
      simp only [List.filter_nil, List.length_singleton]
      omega
    · have : ∀ num, i ≠ 24 + 50 * num := fun num hn => h ((hrec i).2 ⟨num, hn⟩)
      have h2 := this ((i - 24) / 50)
      rw [List.filter_cons_of_neg h]
      simp only [List.filter_nil, List.length_nil]
      omega

example : records 24 = true ∧ records 74 = true ∧ records 25 = false := by decide

end Verif.Cfd.GammaRun
