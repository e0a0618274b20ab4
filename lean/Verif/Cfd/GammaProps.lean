import Verif.Cfd.Gamma
import Verif.Cfd.Am3dProps
import Mathlib.Analysis.Real.Pi.Bounds

/-!
# C60: GAMMA thermal solver
-/
namespace Verif.Cfd.Gamma
open Verif Verif.Cfd Finset

/-- **C60 (material data).** -/
theorem C60_material (a : Args) (h1 : a.Ts < a.Tl) (h2 : 300 ≤ a.Tl) (hL : 0 ≤ a.L) (T : ℝ) :
    0 ≤ flOf a T ∧ flOf a T ≤ 1 ∧ 0 < kOf a T ∧ kOf a T ≤ 0.0163 * a.Tl + 4.5847 ∧ 0 < cpOf a T ∧
    cpOf a T = 0.2441 * clip T 300 a.Tl + 338.39 + (if a.Ts < T ∧ T < a.Tl then a.L else 0) := by
  obtain ⟨hf, f0, f1, -, -⟩ := C56_fluid_frac a.Ts a.Tl h1
  have hlo : 300 ≤ clip T 300 a.Tl := le_min (le_max_right _ _) h2
  have hhi : clip T 300 a.Tl ≤ a.Tl := min_le_right _ _
  have e : cpOf a T = 0.2441 * clip T 300 a.Tl + 338.39 + (if a.Ts < T ∧ T < a.Tl then a.L else 0) := by
    unfold cpOf
    have g0 : flOf a T > 0 ↔ a.Ts < T := by
      have := f0 T
      constructor
      · intro h; by_contra hc; push Not at hc
        have := this.mpr hc
        exact absurd this h.ne'
      · intro h
        exact lt_of_le_of_ne (hf T).1 (fun hc => absurd (this.mp hc.symm) (not_le.mpr h))
    have g1 : flOf a T < 1 ↔ T < a.Tl := by
      have := f1 T
      constructor
      · intro h; by_contra hc; push Not at hc
        exact absurd (this.mpr hc) h.ne
      · intro h
        exact lt_of_le_of_ne (hf T).2 (fun hc => absurd (this.mp hc) (not_le.mpr h))
    simp only [g0, g1]
    by_cases u : a.Ts < T <;> by_cases v : T < a.Tl <;> simp [u, v]
  refine ⟨(hf T).1, (hf T).2, ?_, ?_, ?_, e⟩
  · unfold kOf; linarith
  · unfold kOf; linarith
  · rw [e]
    have : 0 ≤ (if a.Ts < T ∧ T < a.Tl then a.L else 0) := by split_ifs <;> simp [hL]
    linarith

/-- Heat leaving through a face at temperature `t` per area and time: convection and radiation. Specification. -/
noncomputable def loss (a : Args) (t : ℝ) : ℝ := a.h * (t - a.T0) + a.SB * a.eps * (t ^ 4 - a.T0 ^ 4)

theorem qPos_eq (a : Args) (u v : ℝ) : qPos a u v = loss a ((u + v) / 2) := rfl
theorem qNeg_eq (a : Args) (u v : ℝ) : qNeg a u v = -loss a ((u + v) / 2) := by unfold qNeg loss; ring

/-- Number of coordinates of an index on the boundary. -/
def onEdge (T : Arr3 ℝ) (i j l : ℕ) : Prop := (¬ inn T.n0 i ∧ ¬ inn T.n1 j) ∨ (¬ inn T.n0 i ∧ ¬ inn T.n2 l) ∨ (¬ inn T.n1 j ∧ ¬ inn T.n2 l)

/-- The six ghost faces and everything else, on grids with at least one interior cell. -/
theorem bc_get (a : Args) (s : Step) (k T : Arr3 ℝ) (h0 : 3 ≤ T.n0) (h1 : 3 ≤ T.n1) (h2 : 3 ≤ T.n2) :
    (∀ j l, inn T.n1 j → inn T.n2 l →
      (bcThermal a s k T).get 0 j l = T.get 1 j l + qNeg a (T.get 1 j l) (T.get 0 j l) / k.get 1 j l * s.d 0 ∧
      (bcThermal a s k T).get (T.n0 - 1) j l = T.get (T.n0 - 2) j l - qPos a (T.get (T.n0 - 2) j l) (T.get (T.n0 - 1) j l) / k.get (T.n0 - 2) j l * s.d 0) ∧
    (∀ i l, inn T.n0 i → inn T.n2 l →
      (bcThermal a s k T).get i 0 l = T.get i 1 l + qNeg a (T.get i 1 l) (T.get i 0 l) / k.get i 1 l * s.d 1 ∧
      (bcThermal a s k T).get i (T.n1 - 1) l = T.get i (T.n1 - 2) l - qPos a (T.get i (T.n1 - 2) l) (T.get i (T.n1 - 1) l) / k.get i (T.n1 - 2) l * s.d 1) ∧
    (∀ i j, inn T.n0 i → inn T.n1 j →
      (bcThermal a s k T).get i j 0 = T.get i j 1 + qNeg a (T.get i j 1) (T.get i j 0) / k.get i j 1 * s.d 2 ∧
      (bcThermal a s k T).get i j (T.n2 - 1) = T.get i j (T.n2 - 2) -
        (qPos a (T.get i j (T.n2 - 2)) (T.get i j (T.n2 - 1)) - laser a s (i - 1) (j - 1)) / k.get i j (T.n2 - 2) * s.d 2) ∧
    (∀ i j l, inn T.n0 i → inn T.n1 j → inn T.n2 l → (bcThermal a s k T).get i j l = T.get i j l) ∧
    (∀ i j l, onEdge T i j l → (bcThermal a s k T).get i j l = T.get i j l) := by
  have nz : ∀ n : ℕ, ¬ inn n 0 := fun n h => by unfold inn at h; omega
  have nl : ∀ n : ℕ, ¬ inn n (n - 1) := fun n h => by unfold inn at h; omega
  have ne : ∀ {n i : ℕ}, inn n i → i ≠ 0 ∧ i ≠ n - 1 := fun h => by unfold inn at h; omega
  refine ⟨fun j l hj hl => ⟨?_, ?_⟩, fun i l hi hl => ⟨?_, ?_⟩, fun i j hi hj => ⟨?_, ?_⟩, fun i j l hi hj hl => ?_, fun i j l h => ?_⟩
  · have := ne hj; have := ne hl
    have e : (0 : ℕ) ≠ T.n0 - 1 := by omega
    simp [bcThermal, nz, e, hj, hl]
  · have := ne hj; have := ne hl
    have e : T.n0 - 2 ≠ 0 := by omega
    simp [bcThermal, nl, e, hj, hl]
  · have := ne hi; have := ne hl
    have e : (0 : ℕ) ≠ T.n1 - 1 := by omega
    simp [bcThermal, *]
  · have := ne hi; have := ne hl
    have e : T.n1 - 2 ≠ 0 := by omega
    simp [bcThermal, *]
  · have := ne hi; have := ne hj
    have e : (0 : ℕ) ≠ T.n2 - 1 := by omega
    simp [bcThermal, *]
  · have := ne hi; have := ne hj
    have e : T.n2 - 2 ≠ 0 := by omega
    simp [bcThermal, *]
  · have := ne hi; have := ne hj; have := ne hl
    simp [bcThermal, *]
  · unfold onEdge at h
    rcases h with ⟨p, q⟩ | ⟨p, q⟩ | ⟨p, q⟩ <;> simp [bcThermal, p, q]

/-- **C60 (ghost faces realise the flux).** After `BC_thermal` the conductive flux from the boundary cell to the ghost cell equals the loss at the face, minus the laser on top.
Cells keep their values; so do the entries on edges and corners. -/
theorem C60_ghost (a : Args) (s : Step) (k T : Arr3 ℝ) (h0 : 3 ≤ T.n0) (h1 : 3 ≤ T.n1) (h2 : 3 ≤ T.n2) (hk : ∀ i j l, k.get i j l ≠ 0) (hd : ∀ c, s.d c ≠ 0) :
    let T' := bcThermal a s k T
    (∀ j l, inn T.n1 j → inn T.n2 l → k.get 1 j l * (T'.get 1 j l - T'.get 0 j l) / s.d 0 = loss a ((T.get 1 j l + T.get 0 j l) / 2) ∧
      k.get (T.n0 - 2) j l * (T'.get (T.n0 - 2) j l - T'.get (T.n0 - 1) j l) / s.d 0 = loss a ((T.get (T.n0 - 2) j l + T.get (T.n0 - 1) j l) / 2)) ∧
    (∀ i l, inn T.n0 i → inn T.n2 l → k.get i 1 l * (T'.get i 1 l - T'.get i 0 l) / s.d 1 = loss a ((T.get i 1 l + T.get i 0 l) / 2) ∧
      k.get i (T.n1 - 2) l * (T'.get i (T.n1 - 2) l - T'.get i (T.n1 - 1) l) / s.d 1 = loss a ((T.get i (T.n1 - 2) l + T.get i (T.n1 - 1) l) / 2)) ∧
    (∀ i j, inn T.n0 i → inn T.n1 j → k.get i j 1 * (T'.get i j 1 - T'.get i j 0) / s.d 2 = loss a ((T.get i j 1 + T.get i j 0) / 2) ∧
      k.get i j (T.n2 - 2) * (T'.get i j (T.n2 - 2) - T'.get i j (T.n2 - 1)) / s.d 2 =
        loss a ((T.get i j (T.n2 - 2) + T.get i j (T.n2 - 1)) / 2) - laser a s (i - 1) (j - 1)) ∧
    (∀ i j l, inn T.n0 i → inn T.n1 j → inn T.n2 l → T'.get i j l = T.get i j l) ∧
    (∀ i j l, onEdge T i j l → T'.get i j l = T.get i j l) := by
  intro T'
  obtain ⟨bx, byy, bz, bi, be⟩ := bc_get a s k T h0 h1 h2
  have i1 : ∀ n : ℕ, 3 ≤ n → inn n 1 := fun n h => by unfold inn; omega
  have i2 : ∀ n : ℕ, 3 ≤ n → inn n (n - 2) := fun n h => by unfold inn; omega
  have key : ∀ (K d x g q : ℝ), K ≠ 0 → d ≠ 0 → g = x - q / K * d → K * (x - g) / d = q := by
    intro K d x g q hK hd hg; rw [hg]; field_simp; ring
  refine ⟨fun j l hj hl => ⟨?_, ?_⟩, fun i l hi hl => ⟨?_, ?_⟩, fun i j hi hj => ⟨?_, ?_⟩, bi, be⟩
  · rw [bi 1 j l (i1 _ h0) hj hl]
    exact key _ _ _ _ _ (hk _ _ _) (hd 0) (by rw [(bx j l hj hl).1, qNeg_eq]; ring)
  · rw [bi (T.n0 - 2) j l (i2 _ h0) hj hl]
    exact key _ _ _ _ _ (hk _ _ _) (hd 0) (by rw [(bx j l hj hl).2, qPos_eq])
  · rw [bi i 1 l hi (i1 _ h1) hl]
    exact key _ _ _ _ _ (hk _ _ _) (hd 1) (by rw [(byy i l hi hl).1, qNeg_eq]; ring)
  · rw [bi i (T.n1 - 2) l hi (i2 _ h1) hl]
    exact key _ _ _ _ _ (hk _ _ _) (hd 1) (by rw [(byy i l hi hl).2, qPos_eq])
  · rw [bi i j 1 hi hj (i1 _ h2)]
    exact key _ _ _ _ _ (hk _ _ _) (hd 2) (by rw [(bz i j hi hj).1, qNeg_eq]; ring)
  · rw [bi i j (T.n2 - 2) hi hj (i2 _ h2)]
    exact key _ _ _ _ _ (hk _ _ _) (hd 2) (by rw [(bz i j hi hj).2, qPos_eq])

/-- **C60 (edges).** Entries on edges and corners of the ghost layer are never modified by a step. -/
theorem C60_edges (a : Args) (s : Step) (T : Arr3 ℝ) (h0 : 3 ≤ T.n0) (h1 : 3 ≤ T.n1) (h2 : 3 ≤ T.n2) (i j l : ℕ) (h : onEdge T i j l) :
    (updateT a s T).get i j l = T.get i j l := by
  have := (bc_get a s ⟨T.n0, T.n1, T.n2, fun i j l => kOf a (T.get i j l)⟩ T h0 h1 h2).2.2.2.2 i j l h
  unfold updateT
  simp only
  rw [if_neg, this]
  rintro ⟨p, q, r⟩
  rcases h with ⟨u, v⟩ | ⟨u, v⟩ | ⟨u, v⟩ <;> contradiction

/-- **C60 (ambient equilibrium).** Laser off, everything at ambient temperature: a step changes no entry. -/
theorem C60_ambient (a : Args) (s : Step) (T : Arr3 ℝ) (hP : s.P = 0) (hT : ∀ i j l, T.get i j l = a.T0) (i j l : ℕ) :
    (updateT a s T).get i j l = a.T0 := by
  have hq : qNeg a a.T0 a.T0 = 0 := by rw [qNeg_eq]; unfold loss; ring_nf
  have hq' : qPos a a.T0 a.T0 = 0 := by rw [qPos_eq]; unfold loss; ring_nf
  have hl : ∀ i j, laser a s i j = 0 := by intro i j; simp [laser, hP]
  have hb : ∀ k i j l, (bcThermal a s k T).get i j l = a.T0 := by
    intro k i j l
    simp [bcThermal, hT, hq, hq', hl]
  unfold updateT
  simp only [hb]
  unfold lap
  simp only [hb]
  split_ifs
  · ring
  · rfl

/-- Coefficient of the explicit step at a cell. -/
noncomputable def diffus (a : Args) (T : ℝ) : ℝ := kOf a T / a.rho / cpOf a T

/-- **C60 (stability).** If `2 dt D (1/dx² + 1/dy² + 1/dz²) ≤ 1` at a cell, its new value is a convex combination of its own and its six neighbours' values
(ghost values after `BC_thermal` included), so it lies between their smallest and largest. -/
theorem C60_convex (a : Args) (s : Step) (T : Arr3 ℝ) (h1 : a.Ts < a.Tl) (h2 : 300 ≤ a.Tl) (hL : 0 ≤ a.L) (hrho : 0 < a.rho) (hdt : 0 ≤ s.dt)
    (i j l : ℕ) (hi : inn T.n0 i) (hj : inn T.n1 j) (hl : inn T.n2 l)
    (hcfl : 2 * s.dt * diffus a (T.get i j l) * (1 / s.d 0 ^ 2 + 1 / s.d 1 ^ 2 + 1 / s.d 2 ^ 2) ≤ 1) :
    let T' := bcThermal a s ⟨T.n0, T.n1, T.n2, fun i j l => kOf a (T.get i j l)⟩ T
    ∃ w : Fin 7 → ℝ, (∀ q, 0 ≤ w q) ∧ ∑ q, w q = 1 ∧ (updateT a s T).get i j l =
      ∑ q, w q * ![T'.get i j l, T'.get (i - 1) j l, T'.get (i + 1) j l, T'.get i (j - 1) l, T'.get i (j + 1) l, T'.get i j (l - 1), T'.get i j (l + 1)] q := by
  intro T'
  obtain ⟨-, -, hk, -, hc, -⟩ := C60_material a h1 h2 hL (T.get i j l)
  set D := diffus a (T.get i j l) with hD
  have hD0 : 0 ≤ D := by rw [hD]; unfold diffus; positivity
  set α := s.dt * D * (1 / s.d 0 ^ 2)
  set β := s.dt * D * (1 / s.d 1 ^ 2)
  set γ := s.dt * D * (1 / s.d 2 ^ 2)
  have ha : 0 ≤ α := by positivity
  have hb : 0 ≤ β := by positivity
  have hg : 0 ≤ γ := by positivity
  have hs : 2 * α + 2 * β + 2 * γ ≤ 1 := by
    have : 2 * s.dt * D * (1 / s.d 0 ^ 2 + 1 / s.d 1 ^ 2 + 1 / s.d 2 ^ 2) = 2 * α + 2 * β + 2 * γ := by simp only [α, β, γ]; ring
    linarith
  refine ⟨![1 - 2 * α - 2 * β - 2 * γ, α, α, β, β, γ, γ], ?_, ?_, ?_⟩
  · intro q
    fin_cases q
    · show 0 ≤ 1 - 2 * α - 2 * β - 2 * γ
      linarith
    · exact ha
    · exact ha
    · exact hb
    · exact hb
    · exact hg
    · exact hg
  · rw [Fin.sum_univ_seven]
    show (1 - 2 * α - 2 * β - 2 * γ) + α + α + β + β + γ + γ = 1
    ring
  · rw [Fin.sum_univ_seven]
    show _ = (1 - 2 * α - 2 * β - 2 * γ) * T'.get i j l + α * T'.get (i - 1) j l + α * T'.get (i + 1) j l + β * T'.get i (j - 1) l + β * T'.get i (j + 1) l
      + γ * T'.get i j (l - 1) + γ * T'.get i j (l + 1)
    unfold updateT
    simp only
    rw [if_pos ⟨hi, hj, hl⟩]
    show T'.get i j l + s.dt * (diffus a (T.get i j l) * lap s.d T' i j l) = _
    rw [← hD]
    unfold lap
    simp only [α, β, γ]
    ring

theorem C60_bounds (a : Args) (s : Step) (T : Arr3 ℝ) (h1 : a.Ts < a.Tl) (h2 : 300 ≤ a.Tl) (hL : 0 ≤ a.L) (hrho : 0 < a.rho) (hdt : 0 ≤ s.dt)
    (i j l : ℕ) (hi : inn T.n0 i) (hj : inn T.n1 j) (hl : inn T.n2 l)
    (hcfl : 2 * s.dt * diffus a (T.get i j l) * (1 / s.d 0 ^ 2 + 1 / s.d 1 ^ 2 + 1 / s.d 2 ^ 2) ≤ 1) (lo hi' : ℝ)
    (hb : ∀ p q r, lo ≤ (bcThermal a s ⟨T.n0, T.n1, T.n2, fun i j l => kOf a (T.get i j l)⟩ T).get p q r ∧
      (bcThermal a s ⟨T.n0, T.n1, T.n2, fun i j l => kOf a (T.get i j l)⟩ T).get p q r ≤ hi') :
    lo ≤ (updateT a s T).get i j l ∧ (updateT a s T).get i j l ≤ hi' := by
  obtain ⟨w, hw, hs, he⟩ := C60_convex a s T h1 h2 hL hrho hdt i j l hi hj hl hcfl
  set T' := bcThermal a s ⟨T.n0, T.n1, T.n2, fun i j l => kOf a (T.get i j l)⟩ T
  have hv : ∀ q, lo ≤ ![T'.get i j l, T'.get (i - 1) j l, T'.get (i + 1) j l, T'.get i (j - 1) l, T'.get i (j + 1) l, T'.get i j (l - 1), T'.get i j (l + 1)] q ∧
      ![T'.get i j l, T'.get (i - 1) j l, T'.get (i + 1) j l, T'.get i (j - 1) l, T'.get i (j + 1) l, T'.get i j (l - 1), T'.get i j (l + 1)] q ≤ hi' := by
    intro q; fin_cases q <;> exact hb _ _ _
  rw [he]
  constructor
  · calc lo = ∑ q, w q * lo := by rw [← sum_mul, hs, one_mul]
      _ ≤ _ := sum_le_sum fun q _ => mul_le_mul_of_nonneg_left (hv q).1 (hw q)
  · calc _ ≤ ∑ q, w q * hi' := sum_le_sum fun q _ => mul_le_mul_of_nonneg_left (hv q).2 (hw q)
      _ = hi' := by rw [← sum_mul, hs, one_mul]

/-- Sum over the interior cells of a grid with `A+2`, `B+2`, `C+2` entries. -/
noncomputable def cellSum (A B C : ℕ) (f : ℕ → ℕ → ℕ → ℝ) : ℝ := ∑ i ∈ range A, ∑ j ∈ range B, ∑ l ∈ range C, f (i + 1) (j + 1) (l + 1)

theorem second_diff (f : ℕ → ℝ) (A : ℕ) : ∑ i ∈ range A, (f i - 2 * f (i + 1) + f (i + 2)) = (f 0 - f 1) + (f (A + 1) - f A) := by
  induction A with
  | zero => simp
  | succ A ih => rw [sum_range_succ, ih]; ring

/-- **C60 (heat balance at uniform conductivity).** When all cells have the same conductivity (for instance all at or above the liquidus, or all at or below 300), the heat gained by the
cells in a step is exactly what the six faces let through: minus the losses, plus the laser. -/
theorem C60_heat_balance (a : Args) (s : Step) (T : Arr3 ℝ) (A B C : ℕ) (hA : 1 ≤ A) (hB : 1 ≤ B) (hC : 1 ≤ C) (n0 : T.n0 = A + 2) (n1 : T.n1 = B + 2) (n2 : T.n2 = C + 2)
    (h1 : a.Ts < a.Tl) (h2 : 300 ≤ a.Tl) (hL : 0 ≤ a.L) (hrho : 0 < a.rho) (hdt : s.dt ≠ 0) (hd : ∀ c, s.d c ≠ 0)
    (κ : ℝ) (hκ : ∀ i < A, ∀ j < B, ∀ l < C, kOf a (T.get (i + 1) (j + 1) (l + 1)) = κ) :
    cellSum A B C (fun i j l => a.rho * cpOf a (T.get i j l) * ((updateT a s T).get i j l - T.get i j l) / s.dt * (s.d 0 * s.d 1 * s.d 2)) =
      -(∑ j ∈ range B, ∑ l ∈ range C, (loss a ((T.get 1 (j + 1) (l + 1) + T.get 0 (j + 1) (l + 1)) / 2) + loss a ((T.get A (j + 1) (l + 1) + T.get (A + 1) (j + 1) (l + 1)) / 2)) * (s.d 1 * s.d 2))
      - (∑ i ∈ range A, ∑ l ∈ range C, (loss a ((T.get (i + 1) 1 (l + 1) + T.get (i + 1) 0 (l + 1)) / 2) + loss a ((T.get (i + 1) B (l + 1) + T.get (i + 1) (B + 1) (l + 1)) / 2)) * (s.d 2 * s.d 0))
      - (∑ i ∈ range A, ∑ j ∈ range B, (loss a ((T.get (i + 1) (j + 1) 1 + T.get (i + 1) (j + 1) 0) / 2) + loss a ((T.get (i + 1) (j + 1) C + T.get (i + 1) (j + 1) (C + 1)) / 2)) * (s.d 0 * s.d 1))
      + ∑ i ∈ range A, ∑ j ∈ range B, laser a s i j * (s.d 0 * s.d 1) := by
  set k : Arr3 ℝ := ⟨T.n0, T.n1, T.n2, fun i j l => kOf a (T.get i j l)⟩ with hk
  set T' := bcThermal a s k T with hT'
  obtain ⟨gx, gy, gz, gi, -⟩ := C60_ghost a s k T (by omega) (by omega) (by omega) (fun i j l => (C60_material a h1 h2 hL _).2.2.1.ne') hd
  have inA : ∀ i < A, inn T.n0 (i + 1) := fun i h => by unfold inn; omega
  have inB : ∀ i < B, inn T.n1 (i + 1) := fun i h => by unfold inn; omega
  have inC : ∀ i < C, inn T.n2 (i + 1) := fun i h => by unfold inn; omega
  have hcell : ∀ i < A, ∀ j < B, ∀ l < C, a.rho * cpOf a (T.get (i + 1) (j + 1) (l + 1)) * ((updateT a s T).get (i + 1) (j + 1) (l + 1) - T.get (i + 1) (j + 1) (l + 1)) / s.dt * (s.d 0 * s.d 1 * s.d 2)
      = (T'.get i (j + 1) (l + 1) - 2 * T'.get (i + 1) (j + 1) (l + 1) + T'.get (i + 2) (j + 1) (l + 1)) * (κ / s.d 0 * (s.d 1 * s.d 2))
      + (T'.get (i + 1) j (l + 1) - 2 * T'.get (i + 1) (j + 1) (l + 1) + T'.get (i + 1) (j + 2) (l + 1)) * (κ / s.d 1 * (s.d 2 * s.d 0))
      + (T'.get (i + 1) (j + 1) l - 2 * T'.get (i + 1) (j + 1) (l + 1) + T'.get (i + 1) (j + 1) (l + 2)) * (κ / s.d 2 * (s.d 0 * s.d 1)) := by
    intro i hi j hj l hl
    have hc := (C60_material a h1 h2 hL (T.get (i + 1) (j + 1) (l + 1))).2.2.2.2.1
    have e : (updateT a s T).get (i + 1) (j + 1) (l + 1) - T.get (i + 1) (j + 1) (l + 1) =
        s.dt * (κ / a.rho / cpOf a (T.get (i + 1) (j + 1) (l + 1)) * lap s.d T' (i + 1) (j + 1) (l + 1)) := by
      unfold updateT
      simp only
      rw [if_pos ⟨inA i hi, inB j hj, inC l hl⟩, hκ i hi j hj l hl]
      show T'.get _ _ _ + _ - _ = _
      rw [gi _ _ _ (inA i hi) (inB j hj) (inC l hl)]
      ring
    rw [e]
    unfold lap
    have := hd 0; have := hd 1; have := hd 2
    have hcp := hc.ne'
    simp only [Nat.add_sub_cancel]
    field_simp
  have hkg : ∀ i < A, ∀ j < B, ∀ l < C, k.get (i + 1) (j + 1) (l + 1) = κ := hκ
  have eA : A - 1 + 1 = A := by omega
  have eB : B - 1 + 1 = B := by omega
  have eC : C - 1 + 1 = C := by omega
  unfold cellSum
  rw [sum_congr rfl fun i hi => sum_congr rfl fun j hj => sum_congr rfl fun l hl => hcell i (mem_range.mp hi) j (mem_range.mp hj) l (mem_range.mp hl)]
  simp only [sum_add_distrib]
  have X : ∑ i ∈ range A, ∑ j ∈ range B, ∑ l ∈ range C, (T'.get i (j + 1) (l + 1) - 2 * T'.get (i + 1) (j + 1) (l + 1) + T'.get (i + 2) (j + 1) (l + 1)) * (κ / s.d 0 * (s.d 1 * s.d 2))
      = -(∑ j ∈ range B, ∑ l ∈ range C, (loss a ((T.get 1 (j + 1) (l + 1) + T.get 0 (j + 1) (l + 1)) / 2) + loss a ((T.get A (j + 1) (l + 1) + T.get (A + 1) (j + 1) (l + 1)) / 2)) * (s.d 1 * s.d 2)) := by
    rw [sum_comm, ← sum_neg_distrib]
    refine sum_congr rfl fun j hj => ?_
    rw [sum_comm, ← sum_neg_distrib]
    refine sum_congr rfl fun l hl => ?_
    rw [← sum_mul, second_diff (fun i => T'.get i (j + 1) (l + 1))]
    obtain ⟨g1, g2⟩ := gx (j + 1) (l + 1) (inB j (mem_range.mp hj)) (inC l (mem_range.mp hl))
    rw [show T.n0 - 2 = A by omega, show T.n0 - 1 = A + 1 by omega] at g2
    have k1 := hkg 0 (by omega) j (mem_range.mp hj) l (mem_range.mp hl)
    have k2 := hkg (A - 1) (by omega) j (mem_range.mp hj) l (mem_range.mp hl)
    rw [eA] at k2
    rw [k1, ← hT'] at g1
    rw [k2, ← hT'] at g2
    rw [← g1, ← g2]
    ring
  have Y : ∑ i ∈ range A, ∑ j ∈ range B, ∑ l ∈ range C, (T'.get (i + 1) j (l + 1) - 2 * T'.get (i + 1) (j + 1) (l + 1) + T'.get (i + 1) (j + 2) (l + 1)) * (κ / s.d 1 * (s.d 2 * s.d 0))
      = -(∑ i ∈ range A, ∑ l ∈ range C, (loss a ((T.get (i + 1) 1 (l + 1) + T.get (i + 1) 0 (l + 1)) / 2) + loss a ((T.get (i + 1) B (l + 1) + T.get (i + 1) (B + 1) (l + 1)) / 2)) * (s.d 2 * s.d 0)) := by
    rw [← sum_neg_distrib]
    refine sum_congr rfl fun i hi => ?_
    rw [sum_comm, ← sum_neg_distrib]
    refine sum_congr rfl fun l hl => ?_
    rw [← sum_mul, second_diff (fun j => T'.get (i + 1) j (l + 1))]
    obtain ⟨g1, g2⟩ := gy (i + 1) (l + 1) (inA i (mem_range.mp hi)) (inC l (mem_range.mp hl))
    rw [show T.n1 - 2 = B by omega, show T.n1 - 1 = B + 1 by omega] at g2
    have k1 := hkg i (mem_range.mp hi) 0 (by omega) l (mem_range.mp hl)
    have k2 := hkg i (mem_range.mp hi) (B - 1) (by omega) l (mem_range.mp hl)
    rw [eB] at k2
    rw [k1, ← hT'] at g1
    rw [k2, ← hT'] at g2
    rw [← g1, ← g2]
    ring
  have Z : ∑ i ∈ range A, ∑ j ∈ range B, ∑ l ∈ range C, (T'.get (i + 1) (j + 1) l - 2 * T'.get (i + 1) (j + 1) (l + 1) + T'.get (i + 1) (j + 1) (l + 2)) * (κ / s.d 2 * (s.d 0 * s.d 1))
      = -(∑ i ∈ range A, ∑ j ∈ range B, (loss a ((T.get (i + 1) (j + 1) 1 + T.get (i + 1) (j + 1) 0) / 2) + loss a ((T.get (i + 1) (j + 1) C + T.get (i + 1) (j + 1) (C + 1)) / 2)) * (s.d 0 * s.d 1))
        + ∑ i ∈ range A, ∑ j ∈ range B, laser a s i j * (s.d 0 * s.d 1) := by
    rw [← sum_neg_distrib, ← sum_add_distrib]
    refine sum_congr rfl fun i hi => ?_
    rw [← sum_neg_distrib, ← sum_add_distrib]
    refine sum_congr rfl fun j hj => ?_
    rw [← sum_mul, second_diff (fun l => T'.get (i + 1) (j + 1) l)]
    obtain ⟨g1, g2⟩ := gz (i + 1) (j + 1) (inA i (mem_range.mp hi)) (inB j (mem_range.mp hj))
    rw [show T.n2 - 2 = C by omega, show T.n2 - 1 = C + 1 by omega] at g2
    have k1 := hkg i (mem_range.mp hi) j (mem_range.mp hj) 0 (by omega)
    have k2 := hkg i (mem_range.mp hi) j (mem_range.mp hj) (C - 1) (by omega)
    rw [eC] at k2
    rw [k1, ← hT'] at g1
    rw [k2, ← hT'] at g2
    simp only [Nat.add_sub_cancel] at g2
    have g2' : loss a ((T.get (i + 1) (j + 1) C + T.get (i + 1) (j + 1) (C + 1)) / 2) = κ * (T'.get (i + 1) (j + 1) C - T'.get (i + 1) (j + 1) (C + 1)) / s.d 2 + laser a s i j := by
      linarith
    rw [← g1, g2']
    ring
  rw [X, Y, Z]
  ring

/-- A perfectly insulated bar of two cells at 300 and 400 degrees, with one layer of ghost cells. -/
noncomputable def bar : Arr3 ℝ := ⟨4, 3, 3, fun i _ _ => if i ≤ 1 then 300 else 400⟩
noncomputable def barArgs : Args := ⟨1000, 1200, 0, 0, 300, 0, 0, 0, 1, 1⟩
noncomputable def barStep : Step := ⟨0, 0, 0, fun _ _ => 0, fun _ _ => 0, fun _ => 1, 1⟩

/-- **C60 (not conservative).** With conductivity depending on temperature heat is not conserved even without any exchange with the surroundings: the conductivity of the cell, not of the
face, multiplies the second difference. In the insulated bar the heat balance is off by `(k(300) - k(400)) * 100`. -/
theorem C60_not_conservative :
    cellSum 2 1 1 (fun i j l => barArgs.rho * cpOf barArgs (bar.get i j l) * ((updateT barArgs barStep bar).get i j l - bar.get i j l) / barStep.dt * (1 * 1 * 1)) = -163 ∧
    (∀ t, loss barArgs t = 0) ∧ ∀ i j, laser barArgs barStep i j = 0 := by
  have hloss : ∀ t, loss barArgs t = 0 := by intro t; simp [loss, barArgs]
  have hlas : ∀ i j, laser barArgs barStep i j = 0 := by intro i j; simp [laser, barStep]
  refine ⟨?_, hloss, hlas⟩
  have hn : ∀ u v, qNeg barArgs u v = 0 := by intro u v; rw [qNeg_eq, hloss, neg_zero]
  have hp : ∀ u v, qPos barArgs u v = 0 := by intro u v; rw [qPos_eq, hloss]
  obtain ⟨-, -, -, -, hcp, -⟩ := C60_material barArgs (by norm_num [barArgs]) (by norm_num [barArgs]) (by norm_num [barArgs]) 300
  obtain ⟨-, -, -, -, hcp', -⟩ := C60_material barArgs (by norm_num [barArgs]) (by norm_num [barArgs]) (by norm_num [barArgs]) 400
  have hk3 : kOf barArgs 300 = 9.4747 := by norm_num [kOf, barArgs, clip]
  have hk4 : kOf barArgs 400 = 11.1047 := by norm_num [kOf, barArgs, clip]
  have hb : ∀ k i, 1 ≤ i → i ≤ 2 → (bcThermal barArgs barStep k bar).get (i - 1) 1 1 - 2 * (bcThermal barArgs barStep k bar).get i 1 1 + (bcThermal barArgs barStep k bar).get (i + 1) 1 1
      = if i = 1 then 100 else -100 := by
    intro k i h1 h2
    interval_cases i <;> norm_num [bcThermal, hn, hp, hlas, bar, inn]
  have hb2 : ∀ k i, 1 ≤ i → i ≤ 2 → (bcThermal barArgs barStep k bar).get i 0 1 - 2 * (bcThermal barArgs barStep k bar).get i 1 1 + (bcThermal barArgs barStep k bar).get i 2 1 = 0 := by
    intro k i h1 h2
    interval_cases i <;> norm_num [bcThermal, hn, hp, hlas, bar, inn]
  have hb3 : ∀ k i, 1 ≤ i → i ≤ 2 → (bcThermal barArgs barStep k bar).get i 1 0 - 2 * (bcThermal barArgs barStep k bar).get i 1 1 + (bcThermal barArgs barStep k bar).get i 1 2 = 0 := by
    intro k i h1 h2
    interval_cases i <;> norm_num [bcThermal, hn, hp, hlas, bar, inn]
  have hint : ∀ k i, 1 ≤ i → i ≤ 2 → (bcThermal barArgs barStep k bar).get i 1 1 = bar.get i 1 1 := by
    intro k i h1 h2
    interval_cases i <;> norm_num [bcThermal, bar, inn]
  have hup : ∀ i, 1 ≤ i → i ≤ 2 → (updateT barArgs barStep bar).get i 1 1 - bar.get i 1 1 =
      kOf barArgs (bar.get i 1 1) / 1 / cpOf barArgs (bar.get i 1 1) * (if i = 1 then 100 else -100) := by
    intro i h1 h2
    unfold updateT
    simp only
    rw [if_pos (by simp only [bar, inn]; omega)]
    unfold lap
    rw [hb _ i h1 h2, hb2 _ i h1 h2, hb3 _ i h1 h2, hint _ i h1 h2]
    simp [barStep, barArgs]
  unfold cellSum
  simp only [sum_range_succ, sum_range_zero, zero_add]
  rw [hup 1 (by norm_num) (by norm_num), hup (1 + 1) (by norm_num) (by norm_num)]
  have e1 : bar.get 1 1 1 = 300 := by norm_num [bar]
  have e2 : bar.get (1 + 1) 1 1 = 400 := by norm_num [bar]
  rw [e1, e2, hk3, hk4]
  have r1 : barArgs.rho = 1 := rfl
  have r2 : barStep.dt = 1 := rfl
  rw [r1, r2]
  have := hcp.ne'
  have := hcp'.ne'
  field_simp
  norm_num

/-- The stability condition is satisfiable with a positive step, and a step does something there: the bar, at step 1, has `2·D·3 ≤ 1`. -/
example : 2 * barStep.dt * diffus barArgs (bar.get 1 1 1) * (1 / barStep.d 0 ^ 2 + 1 / barStep.d 1 ^ 2 + 1 / barStep.d 2 ^ 2) ≤ 1 := by
  have e1 : bar.get 1 1 1 = 300 := by norm_num [bar]
  have hfl : flOf barArgs 300 = 0 := by norm_num [flOf, clip, barArgs]
  rw [e1]
  norm_num [diffus, kOf, cpOf, hfl, clip, barArgs, barStep]

end Verif.Cfd.Gamma
