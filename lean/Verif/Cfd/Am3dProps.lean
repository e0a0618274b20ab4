import Verif.Cfd.Am3d
import Verif.Cfd.PoissonProps
import Verif.Cfd.OpsProps

/-!
# C56, C57, C67, C69, C70: the melt pool driver
-/
namespace Verif.Cfd
open Verif Finset

/-! ## C56 -/

/-- **C56 (liquid fraction).** -/
theorem C56_fluid_frac (Ts Tl : ℝ) (h : Ts < Tl) :
    (∀ T, 0 ≤ fluidFrac Ts Tl T ∧ fluidFrac Ts Tl T ≤ 1) ∧ (∀ T, fluidFrac Ts Tl T = 0 ↔ T ≤ Ts) ∧
    (∀ T, fluidFrac Ts Tl T = 1 ↔ Tl ≤ T) ∧ Monotone (fluidFrac Ts Tl) ∧
    ∀ T, Ts ≤ T → T ≤ Tl → fluidFrac Ts Tl T * Tl + (1 - fluidFrac Ts Tl T) * Ts = T := by
  have hd : 0 < Tl - Ts := sub_pos.mpr h
  have hlo : ∀ T, Ts ≤ clip T Ts Tl := fun T => le_min (le_max_right _ _) h.le
  have hhi : ∀ T, clip T Ts Tl ≤ Tl := fun T => min_le_right _ _
  refine ⟨fun T => ⟨div_nonneg (sub_nonneg.mpr (hlo T)) hd.le, ?_⟩, fun T => ?_, fun T => ?_, ?_, ?_⟩
  · unfold fluidFrac
    rw [div_le_one hd]; linarith [hhi T]
  · unfold fluidFrac
    rw [div_eq_zero_iff]
    constructor
    · rintro (h1 | h1)
      · by_contra hc
        push Not at hc
        have : Ts < clip T Ts Tl := lt_min (lt_max_of_lt_left hc) h
        linarith
      · exact absurd h1 hd.ne'
    · intro h1
      left
      unfold clip
      rw [max_eq_right h1, min_eq_left h.le, sub_self]
  · unfold fluidFrac
    rw [div_eq_one_iff_eq hd.ne']
    constructor
    · intro h1
      by_contra hc
      push Not at hc
      have h2 : clip T Ts Tl = Tl := by linarith
      have h3 : max T Ts < Tl := max_lt hc h
      unfold clip at h2
      rw [min_eq_left h3.le] at h2
      linarith
    · intro h1
      unfold clip
      rw [min_eq_right (le_max_of_le_left h1)]
  · intro x y hxy
    unfold fluidFrac clip
    have : min (max x Ts) Tl ≤ min (max y Ts) Tl := min_le_min (max_le_max hxy le_rfl) le_rfl
    gcongr
  · intro T h1 h2
    unfold fluidFrac clip
    rw [max_eq_left h1, min_eq_left h2]
    field_simp
    ring

/-- A run of the driver. -/
def AmRun (a : AmArgs) (eqnT : TempStep) (eqnV : VelStep) (s : ℕ → AmState) : Prop :=
  s 0 = amInit a ∧ ∀ n, timeIntegration a eqnT eqnV (s n) = some (s (n + 1))

/-- What a successful step does. -/
theorem step_spec {a : AmArgs} {eqnT : TempStep} {eqnV : VelStep} {s s' : AmState} (h : timeIntegration a eqnT eqnV s = some s') :
    ∃ Q T vel bcs gradp vf convT conv, heatSource a s.t = some Q ∧ eqnT s.T s.convT Q s.t = some T ∧
      (let w := movingBox a s.t
       let fl0 : Arr3 (Fin 1 → ℝ) := ⟨T.n0, T.n1, T.n2, fun i j k c => fluidFrac a.Ts a.Tl (T.get i j k c)⟩
       ((sliceW s.vel w).n0 = a.loc.n 0 ∧ (sliceW s.vel w).n1 = a.loc.n 1 ∧ (sliceW s.vel w).n2 = a.loc.n 2) ∧
       eqnV (sliceW s.vel w) (sliceW s.conv w) (sliceW s.gradp w) (sliceW fl0 w) (sliceW T w) = some (vel, bcs, gradp) ∧
       faceVels vel a.g.dX (some bcs) = some vf ∧ div (sliceW T w) vf a.g.dX (1 / 8) none = some convT ∧ div vel vf a.g.dX (1 / 8) none = some conv ∧
       s' = ⟨s.t + a.dt, T, ⟨s.solidID.n0, s.solidID.n1, s.solidID.n2, fun i j k c => max (s.solidID.get i j k c) (fluidFrac a.Ts a.Tl (T.get i j k c))⟩,
          setW s.vel w vel, setW s.conv w conv, setW s.gradp w gradp, setW s.convT w convT⟩) := by
  unfold timeIntegration at h
  simp only [Option.bind_eq_bind, Option.bind_eq_some_iff] at h
  obtain ⟨Q, hQ, T, hT, h⟩ := h
  split_ifs at h with hs
  simp only [Option.bind_eq_some_iff] at h
  obtain ⟨⟨vel, bcs, gradp⟩, hv, vf, hvf, convT, hcT, conv, hc, h⟩ := h
  refine ⟨Q, T, vel, bcs, gradp, vf, convT, conv, hQ, hT, hs, hv, hvf, hcT, hc, ?_⟩
  injection h with h
  exact h.symm

/-- **C56 (re-melting record).** Along every run, whatever the two equation solvers do, `solidID` is the running maximum of the liquid fractions: it bounds every one seen
so far and is 0 or one of them; it is in [0, 1] and never decreases. -/
theorem C56_solidID (a : AmArgs) (hT : a.Ts < a.Tl) (eqnT : TempStep) (eqnV : VelStep) (s : ℕ → AmState) (hrun : AmRun a eqnT eqnV s) (n : ℕ) (i j k : ℕ) :
    (∀ m, 1 ≤ m → m ≤ n → fluidFrac a.Ts a.Tl ((s m).T.get i j k 0) ≤ (s n).solidID.get i j k 0) ∧
    ((s n).solidID.get i j k 0 = 0 ∨ ∃ m, 1 ≤ m ∧ m ≤ n ∧ (s n).solidID.get i j k 0 = fluidFrac a.Ts a.Tl ((s m).T.get i j k 0)) ∧
    0 ≤ (s n).solidID.get i j k 0 ∧ (s n).solidID.get i j k 0 ≤ 1 ∧ (s n).solidID.get i j k 0 ≤ (s (n + 1)).solidID.get i j k 0 := by
  have hstep : ∀ n, (s (n + 1)).solidID.get i j k 0 = max ((s n).solidID.get i j k 0) (fluidFrac a.Ts a.Tl ((s (n + 1)).T.get i j k 0)) := by
    intro n
    obtain ⟨Q, T, vel, bcs, gradp, vf, convT, conv, -, -, -, -, -, -, -, h⟩ := step_spec (hrun.2 n)
    rw [h]
  obtain ⟨hf, -, -, -, -⟩ := C56_fluid_frac a.Ts a.Tl hT
  have main : (∀ m, 1 ≤ m → m ≤ n → fluidFrac a.Ts a.Tl ((s m).T.get i j k 0) ≤ (s n).solidID.get i j k 0) ∧
    ((s n).solidID.get i j k 0 = 0 ∨ ∃ m, 1 ≤ m ∧ m ≤ n ∧ (s n).solidID.get i j k 0 = fluidFrac a.Ts a.Tl ((s m).T.get i j k 0)) := by
    induction n with
    | zero => exact ⟨fun m h1 h2 => by omega, Or.inl (by rw [hrun.1]; rfl)⟩
    | succ n ih =>
      obtain ⟨h1, h2⟩ := ih
      constructor
      · intro m hm1 hm2
        rw [hstep]
        by_cases hmn : m = n + 1
        · rw [hmn]; exact le_max_right _ _
        · exact le_max_of_le_left (h1 m hm1 (by omega))
      · rw [hstep]
        rcases max_cases ((s n).solidID.get i j k 0) (fluidFrac a.Ts a.Tl ((s (n + 1)).T.get i j k 0)) with ⟨e, -⟩ | ⟨e, -⟩
        · rw [e]
          rcases h2 with h2 | ⟨m, hm1, hm2, hm3⟩
          · exact Or.inl h2
          · exact Or.inr ⟨m, hm1, by omega, hm3⟩
        · exact Or.inr ⟨n + 1, by omega, le_rfl, e⟩
  refine ⟨main.1, main.2, ?_, ?_, ?_⟩
  · rcases main.2 with h | ⟨m, -, -, h⟩
    · rw [h]
    · rw [h]; exact (hf _).1
  · rcases main.2 with h | ⟨m, -, -, h⟩
    · rw [h]; exact zero_le_one
    · rw [h]; exact (hf _).2
  · rw [hstep]; exact le_max_left _ _

/-- **C56 (meaning).** A cell is recorded as fully molten iff it reached the liquidus at some step, and as never molten iff it never exceeded the solidus. -/
theorem C56_solidID_meaning (a : AmArgs) (hT : a.Ts < a.Tl) (eqnT : TempStep) (eqnV : VelStep) (s : ℕ → AmState) (hrun : AmRun a eqnT eqnV s) (n : ℕ) (i j k : ℕ) :
    ((s n).solidID.get i j k 0 = 1 ↔ ∃ m, 1 ≤ m ∧ m ≤ n ∧ a.Tl ≤ (s m).T.get i j k 0) ∧
    ((s n).solidID.get i j k 0 = 0 ↔ ∀ m, 1 ≤ m → m ≤ n → (s m).T.get i j k 0 ≤ a.Ts) := by
  obtain ⟨h1, h2, h3, h4, -⟩ := C56_solidID a hT eqnT eqnV s hrun n i j k
  obtain ⟨hf, f0, f1, -, -⟩ := C56_fluid_frac a.Ts a.Tl hT
  refine ⟨⟨fun h => ?_, fun ⟨m, hm1, hm2, hm3⟩ => ?_⟩, ⟨fun h m hm1 hm2 => ?_, fun h => ?_⟩⟩
  · rcases h2 with h2 | ⟨m, hm1, hm2, h2⟩
    · rw [h] at h2; exact absurd h2 one_ne_zero
    · exact ⟨m, hm1, hm2, (f1 _).mp (h2.symm.trans h)⟩
  · have := h1 m hm1 hm2
    rw [(f1 _).mpr hm3] at this
    exact le_antisymm h4 this
  · have := h1 m hm1 hm2
    rw [h] at this
    exact (f0 _).mp (le_antisymm this (hf _).1)
  · rcases h2 with h2 | ⟨m, hm1, hm2, h2⟩
    · exact h2
    · rw [h2]; exact (f0 _).mpr (h m hm1 hm2)

example : fluidFrac 1000 1200 1050 = 1 / 4 := by
  unfold fluidFrac clip
  rw [max_eq_left (by norm_num), min_eq_left (by norm_num)]
  norm_num

/-! ## C57 -/

theorem pyRound_near (x : ℝ) : |x - pyRound x| ≤ 1 / 2 := by
  have h0 := Int.floor_le x
  have h1 := Int.lt_floor_add_one x
  unfold pyRound
  rw [abs_le]
  split_ifs <;> push_cast <;> constructor <;> linarith

/-- Ties go to the even integer. -/
theorem pyRound_tie (n : ℤ) : pyRound (n + 1 / 2) = if Even n then n else n + 1 := by
  have hf : ⌊(n : ℝ) + 1 / 2⌋ = n := by
    rw [Int.floor_eq_iff]; constructor <;> linarith
  unfold pyRound
  rw [hf]
  have e : (n : ℝ) + 1 / 2 - n = 1 / 2 := by ring
  rw [e, if_neg (lt_irrefl _), if_neg (lt_irrefl _)]

/-- **C57 (window in the domain).** If the local mesh is not larger than the global one, then at every time the window has the size of the local mesh and lies in the domain; in z it is at the top. -/
theorem C57_window (a : AmArgs) (t : ℝ) (hx : a.loc.n 0 ≤ a.g.n 0) (hy : a.loc.n 1 ≤ a.g.n 1) (hz : a.loc.n 2 ≤ a.g.n 2) :
    let w := movingBox a t
    ∀ d, 0 ≤ w.lo d ∧ w.hi d ≤ a.g.n d ∧ w.hi d - w.lo d = a.loc.n d ∧ w.hi 2 = a.g.n 2 ∧
      pyIdx (a.g.n d) (w.lo d) = (w.lo d).toNat ∧ pyIdx (a.g.n d) (w.hi d) = (w.hi d).toNat ∧ pyLen (a.g.n d) (w.lo d) (w.hi d) = a.loc.n d := by
  have hb : ∀ xl dx (N Nl : ℕ), Nl ≤ N → 0 ≤ boxLow xl dx N Nl ∧ boxLow xl dx N Nl + Nl ≤ N := by
    intro xl dx N Nl hN
    have h1 : boxLow xl dx N Nl ≤ (N : ℤ) - Nl := min_le_right _ _
    have h2 : 0 ≤ boxLow xl dx N Nl := le_min (le_max_right _ _) (by omega)
    omega
  intro w
  have hidx : ∀ (N Nl : ℕ) (lo hi : ℤ), 0 ≤ lo → hi ≤ N → hi - lo = Nl → pyIdx N lo = lo.toNat ∧ pyIdx N hi = hi.toNat ∧ pyLen N lo hi = Nl := by
    intro N Nl lo hi h1 h2 h3
    unfold pyLen pyIdx
    rw [if_neg (by omega), if_neg (by omega)]
    omega
  have key : ∀ d, 0 ≤ w.lo d ∧ w.hi d ≤ a.g.n d ∧ w.hi d - w.lo d = a.loc.n d := by
    intro d
    fin_cases d
    · obtain ⟨h1, h2⟩ := hb (toolpath a t).1 (a.g.dX 0) _ _ hx
      exact ⟨h1, h2, add_sub_cancel_left _ _⟩
    · obtain ⟨h1, h2⟩ := hb (toolpath a t).2.1 (a.g.dX 1) _ _ hy
      exact ⟨h1, h2, add_sub_cancel_left _ _⟩
    · show 0 ≤ (a.g.n 2 : ℤ) - a.loc.n 2 ∧ (a.g.n 2 : ℤ) ≤ a.g.n 2 ∧ (a.g.n 2 : ℤ) - ((a.g.n 2 : ℤ) - a.loc.n 2) = a.loc.n 2
      omega
  intro d
  obtain ⟨h1, h2, h3⟩ := key d
  obtain ⟨h4, h5, h6⟩ := hidx _ _ _ _ h1 h2 h3
  exact ⟨h1, h2, h3, rfl, h4, h5, h6⟩

/-- **C57 (laser in the window).** While the laser is over the domain and the local mesh has at least two cells along the axis, the laser position is inside the window. -/
theorem C57_laser_inside (xl dx : ℝ) (N Nl : ℕ) (hdx : 0 < dx) (h2 : 2 ≤ Nl) (h0 : 0 ≤ xl) (h1 : xl ≤ N * dx) :
    (boxLow xl dx N Nl : ℝ) * dx ≤ xl ∧ xl ≤ ((boxLow xl dx N Nl + Nl : ℤ) : ℝ) * dx := by
  have hq0 : 0 ≤ xl / dx := by positivity
  have hq1 : xl / dx ≤ N := (div_le_iff₀ hdx).mpr h1
  have hr := abs_le.mp (pyRound_near (xl / dx))
  have hs := abs_le.mp (pyRound_near ((Nl : ℝ) / 2))
  have hNl : (2 : ℝ) ≤ Nl := by exact_mod_cast h2
  have hs1 : (1 : ℤ) ≤ pyRound ((Nl : ℝ) / 2) := by
    by_contra hc
    have : pyRound ((Nl : ℝ) / 2) ≤ 0 := by omega
    have : (pyRound ((Nl : ℝ) / 2) : ℝ) ≤ 0 := by exact_mod_cast this
    linarith
  have hs1' : (1 : ℝ) ≤ pyRound ((Nl : ℝ) / 2) := by exact_mod_cast hs1
  have key : (boxLow xl dx N Nl : ℝ) ≤ xl / dx ∧ xl / dx ≤ boxLow xl dx N Nl + Nl := by
    unfold boxLow clip
    push_cast
    constructor
    · rcases le_total ((pyRound (xl / dx) : ℝ) - pyRound ((Nl : ℝ) / 2)) 0 with h | h
      · refine (min_le_left _ _).trans ?_
        rw [max_eq_right h]; exact hq0
      · refine (min_le_left _ _).trans ?_
        rw [max_eq_left h]; linarith
    · rcases le_total (max ((pyRound (xl / dx) : ℝ) - pyRound ((Nl : ℝ) / 2)) 0) (N - Nl) with h | h
      · rw [min_eq_left h]
        have := le_max_left ((pyRound (xl / dx) : ℝ) - pyRound ((Nl : ℝ) / 2)) 0
        linarith
      · rw [min_eq_right h]; linarith
  constructor
  · exact (le_div_iff₀ hdx).mp key.1
  · have := (div_le_iff₀ hdx).mp key.2
    push_cast
    exact this

/-- **C57 (outside the window).** A step changes velocity, pressure gradient and convective terms only inside the window; inside, the velocity is the one returned by the velocity equation. -/
theorem C57_outside (a : AmArgs) (eqnT : TempStep) (eqnV : VelStep) (s s' : AmState) (h : timeIntegration a eqnT eqnV s = some s')
    (hsz : s.vel.n0 = a.g.n 0 ∧ s.vel.n1 = a.g.n 1 ∧ s.vel.n2 = a.g.n 2)
    (hn : ∀ d, a.loc.n d ≤ a.g.n d) (i j k : ℕ)
    (hout : ¬ (((movingBox a s.t).lo 0 ≤ i ∧ (i : ℤ) < (movingBox a s.t).hi 0) ∧ ((movingBox a s.t).lo 1 ≤ j ∧ (j : ℤ) < (movingBox a s.t).hi 1) ∧
      ((movingBox a s.t).lo 2 ≤ k ∧ (k : ℤ) < (movingBox a s.t).hi 2))) :
    s'.vel.get i j k = s.vel.get i j k := by
  obtain ⟨Q, T, vel, bcs, gradp, vf, convT, conv, -, -, -, -, -, -, -, rfl⟩ := step_spec h
  have hw := C57_window a s.t (hn 0) (hn 1) (hn 2)
  obtain ⟨p0, -, p2, -, p4, p5, -⟩ := hw 0
  obtain ⟨q0, -, q2, -, q4, q5, -⟩ := hw 1
  obtain ⟨r0, -, r2, -, r4, r5, -⟩ := hw 2
  show (setW s.vel (movingBox a s.t) vel).get i j k = _
  unfold setW
  simp only
  rw [hsz.1, hsz.2.1, hsz.2.2, p4, p5, q4, q5, r4, r5]
  rw [if_neg]
  intro hc
  apply hout
  omega

/-- Inside the window. -/
theorem C57_inside (a : AmArgs) (eqnT : TempStep) (eqnV : VelStep) (s s' : AmState) (h : timeIntegration a eqnT eqnV s = some s')
    (hsz : s.vel.n0 = a.g.n 0 ∧ s.vel.n1 = a.g.n 1 ∧ s.vel.n2 = a.g.n 2) (hn : ∀ d, a.loc.n d ≤ a.g.n d) :
    ∃ vel bcs gradp fl0 T, eqnV (sliceW s.vel (movingBox a s.t)) (sliceW s.conv (movingBox a s.t)) (sliceW s.gradp (movingBox a s.t)) fl0 T = some (vel, bcs, gradp) ∧
      ∀ i < a.loc.n 0, ∀ j < a.loc.n 1, ∀ k < a.loc.n 2,
        s'.vel.get (((movingBox a s.t).lo 0).toNat + i) (((movingBox a s.t).lo 1).toNat + j) (((movingBox a s.t).lo 2).toNat + k) = vel.get i j k := by
  obtain ⟨Q, T, vel, bcs, gradp, vf, convT, conv, -, -, -, hv, -, -, -, rfl⟩ := step_spec h
  refine ⟨vel, bcs, gradp, _, _, hv, fun i hi j hj k hk => ?_⟩
  have hw := C57_window a s.t (hn 0) (hn 1) (hn 2)
  obtain ⟨p0, -, p2, -, p4, p5, -⟩ := hw 0
  obtain ⟨q0, -, q2, -, q4, q5, -⟩ := hw 1
  obtain ⟨r0, -, r2, -, r4, r5, -⟩ := hw 2
  show (setW s.vel (movingBox a s.t) vel).get _ _ _ = _
  unfold setW
  simp only
  rw [hsz.1, hsz.2.1, hsz.2.2, p4, p5, q4, q5, r4, r5]
  rw [if_pos (by omega)]
  congr 1 <;> omega

/-- **C57 (local mesh too large).** If the local mesh has more cells than the global one along some axis, the window never has the shape of the local mesh and every step fails. -/
theorem C57_too_large (a : AmArgs) (eqnT : TempStep) (eqnV : VelStep) (s : AmState) (hsz : s.vel.n0 = a.g.n 0 ∧ s.vel.n1 = a.g.n 1 ∧ s.vel.n2 = a.g.n 2)
    (d : Fin 3) (hd : a.g.n d < a.loc.n d) : timeIntegration a eqnT eqnV s = none := by
  by_contra hc
  obtain ⟨s', hs'⟩ := Option.ne_none_iff_exists'.mp hc
  obtain ⟨Q, T, vel, bcs, gradp, vf, convT, conv, -, -, ⟨h0, h1, h2⟩, -⟩ := step_spec hs'
  have hb : ∀ xl dx (N Nl : ℕ), N < Nl → boxLow xl dx N Nl = (N : ℤ) - Nl := by
    intro xl dx N Nl hN
    unfold boxLow clip
    exact min_eq_right ((by omega : (N : ℤ) - Nl ≤ 0).trans (le_max_right _ _))
  have hl : ∀ N Nl : ℕ, N < Nl → pyLen N ((N : ℤ) - Nl) N ≠ Nl := by
    intro N Nl hN
    unfold pyLen pyIdx
    rw [if_neg (by omega), if_pos (by omega)]
    omega
  unfold sliceW at h0 h1 h2
  simp only [hsz] at h0 h1 h2
  fin_cases d
  · change pyLen _ (boxLow _ _ _ _) (boxLow _ _ _ _ + (a.loc.n 0 : ℤ)) = _ at h0
    rw [hb _ _ (a.g.n 0) (a.loc.n 0) hd, sub_add_cancel] at h0
    exact hl _ _ hd h0
  · change pyLen _ (boxLow _ _ _ _) (boxLow _ _ _ _ + (a.loc.n 1 : ℤ)) = _ at h1
    rw [hb _ _ (a.g.n 1) (a.loc.n 1) hd, sub_add_cancel] at h1
    exact hl _ _ hd h1
  · change pyLen _ ((a.g.n 2 : ℤ) - a.loc.n 2) (a.g.n 2 : ℤ) = _ at h2
    exact hl _ _ hd h2

/-- **C57 (time).** The clock of a run is `n dt`, and the sizes of the fields never change. -/
theorem C57_time (a : AmArgs) (eqnT : TempStep) (eqnV : VelStep) (s : ℕ → AmState) (hrun : AmRun a eqnT eqnV s) (n : ℕ) :
    (s n).t = n * a.dt ∧ (s n).vel.n0 = a.g.n 0 ∧ (s n).vel.n1 = a.g.n 1 ∧ (s n).vel.n2 = a.g.n 2 := by
  induction n with
  | zero => rw [hrun.1]; simp [amInit]
  | succ n ih =>
    obtain ⟨Q, T, vel, bcs, gradp, vf, convT, conv, -, -, -, -, -, -, -, h⟩ := step_spec (hrun.2 n)
    rw [h]
    refine ⟨?_, ih.2⟩
    show (s n).t + a.dt = _
    rw [ih.1]; push_cast; ring

/-! ## C69: body heat source -/

/-- **C69 (laser off).** With the body heat source every step after `t_OFF` fails (division of 0 by the zero penetration depth), whatever the state and the solvers. -/
theorem C69_laser_off_fails (a : AmArgs) (eqnT : TempStep) (eqnV : VelStep) (s : AmState) (hs : a.heatSource = 1) (ht : a.tOff ≤ s.t) :
    timeIntegration a eqnT eqnV s = none := by
  have hd : bodyHeatSource a s.t 0 0 0 = none := by
    unfold bodyHeatSource
    rw [if_pos]
    simp [toolpath, not_lt.mpr ht]
  unfold timeIntegration heatSource
  rw [if_pos hs, hd]
  rfl

/-- So no run of the body heat source model continues past `t_OFF`. -/
theorem C69_no_long_run (a : AmArgs) (eqnT : TempStep) (eqnV : VelStep) (s : ℕ → AmState) (hs : a.heatSource = 1) (hdt : 0 < a.dt) : ¬ AmRun a eqnT eqnV s := by
  intro hrun
  obtain ⟨n, hn⟩ := exists_nat_ge (a.tOff / a.dt)
  have ht := (C57_time a eqnT eqnV s hrun n).1
  have := hrun.2 n
  rw [C69_laser_off_fails a eqnT eqnV (s n) hs (by rw [ht]; exact (div_le_iff₀ hdt).mp hn)] at this
  cases this

/-- **C69 (laser on).** While the laser is on, the heat density does not depend on the power: only the depth does. -/
theorem C69_laser_on (a : AmArgs) (t : ℝ) (ht : t < a.tOff) (hP : a.P ≠ 0) (hphi : a.phi ≠ 0) (hv : a.speed ≠ 0) (hr : a.rb ≠ 0) (xc yc zc : ℝ) :
    bodyHeatSource a t xc yc zc = some (2 * a.eta * a.speed / (a.phi * Real.pi) * Real.exp (-2 * ((xc - (a.X0 0 + t * a.speed)) ^ 2 + (yc - a.X0 1) ^ 2) / a.rb ^ 2)
      * (if a.X0 2 - zc ≤ a.phi * a.P / (a.speed * a.rb ^ 2) then 1 else 0)) := by
  have hd : a.phi * a.P / a.speed / a.rb ^ 2 = a.phi * a.P / (a.speed * a.rb ^ 2) := by rw [div_div]
  have hd0 : a.phi * a.P / (a.speed * a.rb ^ 2) ≠ 0 := by positivity
  unfold bodyHeatSource toolpath
  simp only [if_pos ht, mul_one, hd]
  rw [if_neg hd0]
  have e : 2 * a.P * a.eta / (a.phi * a.P / (a.speed * a.rb ^ 2)) / Real.pi / a.rb ^ 2 = 2 * a.eta * a.speed / (a.phi * Real.pi) := by
    have := Real.pi_pos.ne'
    field_simp
  rw [e]

/-! ## C70: surface heat flux -/

/-- **C70 (top flux at the right cell).** Entry `i*Ny + j` of the top values is the loss of cell `(i, j, Nz-1)` plus, for the surface source, the laser flux at the centre of its top face;
this is the cell into which entry `i*Ny + j` of side 5 is scattered; all other sides are insulated. -/
theorem C70_top_flux (a : AmArgs) (t : ℝ) (T : Arr3 (Fin 1 → ℝ)) (h0 : T.n0 = a.g.n 0) (h1 : T.n1 = a.g.n 1) (h2 : T.n2 = a.g.n 2)
    (hz : 0 < a.g.n 2) {i j : ℕ} (hi : i < a.g.n 0) (hj : j < a.g.n 1) :
    faceCell a.g.mesh 5 (i * a.g.n 1 + j) = no3 (a.g.n 1) (a.g.n 2) (i, j, a.g.n 2 - 1) ∧
    energyBcValue a t (topOf T) 5 (i * a.g.n 1 + j) =
      (let Tc := T.get i j (a.g.n 2 - 1) 0;
       -(a.h * (Tc - a.Tref)) - a.sb * a.emis * (Tc ^ 4 - a.Tref ^ 4) +
        if a.heatSource = 0 then gaussianFlux a (a.X0 0 + t * a.speed) (a.X0 1) (if t < a.tOff then a.P else 0)
          ((i + 1 / 2) * a.g.dX 0) ((j + 1 / 2) * a.g.dX 1) else 0) ∧
    ∀ s : Fin 6, s ≠ 5 → ∀ n, energyBcValue a t (topOf T) s n = 0 := by
  have hx : 0 < a.g.n 0 := by omega
  have hy : 0 < a.g.n 1 := by omega
  have hn : i * a.g.n 1 + j < surfSetNum3 (a.g.n 0) (a.g.n 1) (a.g.n 2) 5 := by
    show i * a.g.n 1 + j < a.g.n 1 * a.g.n 0
    rw [Nat.mul_comm (a.g.n 1)]
    exact Verif.Mesh.idx2_lt hi hj
  have hcell := surfCell_get (a.g.n 0) (a.g.n 1) (a.g.n 2) 5 _ hn
  have hdiv : (i * a.g.n 1 + j) / a.g.n 1 = i := Verif.Mesh.idx_div i hj
  have hmod : (i * a.g.n 1 + j) % a.g.n 1 = j := Verif.Mesh.idx_mod i hj
  have hc : sideCoord (a.g.n 0) (a.g.n 1) (a.g.n 2) ((i * a.g.n 1 + j) / ext1 (a.g.n 1) (a.g.n 2) 5) ((i * a.g.n 1 + j) % ext1 (a.g.n 1) (a.g.n 2) 5) 5 = (i, j, a.g.n 2 - 1) := by
    show (((i * a.g.n 1 + j) / a.g.n 1, (i * a.g.n 1 + j) % a.g.n 1, a.g.n 2 - 1) : ℕ × ℕ × ℕ) = _
    rw [hdiv, hmod]
  rw [hc] at hcell
  refine ⟨?_, ?_, ?_⟩
  · show (surfCell3 (a.g.n 0) (a.g.n 1) (a.g.n 2)).getD (surfStart3 (a.g.n 0) (a.g.n 1) (a.g.n 2) 5 + (i * a.g.n 1 + j)) 0 = _
    rw [List.getD_eq_getElem?_getD, hcell]; rfl
  · obtain ⟨c, hcg, hc1, hc2⟩ := C05_face_centres3 (a.g.n 0) (a.g.n 1) (a.g.n 2) (a.g.L 0) (a.g.L 1) (a.g.L 2) hx hy hz 5 _ hn
    rw [hcell] at hc1
    injection hc1 with hc1
    have hinj := Verif.Mesh.idx3_inj (show j < a.g.n 1 from hj) (show a.g.n 2 - 1 < a.g.n 2 by omega) hcg.2.1 hcg.2.2 hc1
    obtain ⟨e1, e2, e3⟩ := hinj
    have hTget : (topOf T).flatten.get (i * a.g.n 1 + j) = T.get i j (a.g.n 2 - 1) := by
      show T.get ((i * a.g.n 1 + j) / T.n1) ((i * a.g.n 1 + j) % T.n1) (T.n2 - 1) = _
      rw [h1, hdiv, hmod, h2]
    have hpos : (surface3 (a.g.n 0) (a.g.n 1) (a.g.n 2) (a.g.L 0) (a.g.L 1) (a.g.L 2)).getD (surfStart3 (a.g.n 0) (a.g.n 1) (a.g.n 2) 5 + (i * a.g.n 1 + j)) 0
        = faceCentre (dX3 ![a.g.n 0, a.g.n 1, a.g.n 2] ![a.g.L 0, a.g.L 1, a.g.L 2]) c 5 := by
      rw [List.getD_eq_getElem?_getD, hc2]; rfl
    unfold energyBcValue
    simp only [if_true, hTget, hpos]
    by_cases hs : a.heatSource = 0
    · rw [if_pos hs, if_pos hs]
      have ex : faceCentre (dX3 ![a.g.n 0, a.g.n 1, a.g.n 2] ![a.g.L 0, a.g.L 1, a.g.L 2]) c 5 0 = (i + 1 / 2) * a.g.dX 0 := by
        unfold faceCentre Box.dX dX3
        simp [← e1]; ring
      have ey : faceCentre (dX3 ![a.g.n 0, a.g.n 1, a.g.n 2] ![a.g.L 0, a.g.L 1, a.g.L 2]) c 5 1 = (j + 1 / 2) * a.g.dX 1 := by
        unfold faceCentre Box.dX dX3
        simp [← e2]; ring
      rw [ex, ey]
      have eP : (toolpath a t).2.2.2 = if t < a.tOff then a.P else 0 := by
        unfold toolpath; split_ifs <;> simp
      rw [eP]
      rfl
    · rw [if_neg hs, if_neg hs, add_zero]
  · intro s hs n
    simp [energyBcValue, hs]

/-- **C70 (signs).** Laser flux is between 0 and `2 P eta / (pi rb²)`, and 0 after switch-off; losses have the sign of `T_ref - T`. -/
theorem C70_flux_bounds (a : AmArgs) (heta : 0 ≤ a.eta) (xl yl P xc yc : ℝ) (hP : 0 ≤ P) :
    0 ≤ gaussianFlux a xl yl P xc yc ∧ gaussianFlux a xl yl P xc yc ≤ 2 * P * a.eta / (Real.pi * a.rb ^ 2) ∧ gaussianFlux a xl yl 0 xc yc = 0 := by
  unfold gaussianFlux
  have hpi := Real.pi_pos
  refine ⟨by positivity, ?_, by simp⟩
  rw [div_div]
  have h1 : Real.exp (-2 * ((xc - xl) ^ 2 + (yc - yl) ^ 2) / a.rb ^ 2) ≤ 1 := by
    rw [Real.exp_le_one_iff]
    have : 0 ≤ 2 * ((xc - xl) ^ 2 + (yc - yl) ^ 2) / a.rb ^ 2 := by positivity
    have e : -2 * ((xc - xl) ^ 2 + (yc - yl) ^ 2) / a.rb ^ 2 = -(2 * ((xc - xl) ^ 2 + (yc - yl) ^ 2) / a.rb ^ 2) := by ring
    rw [e]; linarith
  have h2 : 0 ≤ 2 * P * a.eta / (Real.pi * a.rb ^ 2) := by positivity
  calc _ ≤ 2 * P * a.eta / (Real.pi * a.rb ^ 2) * 1 := mul_le_mul_of_nonneg_left h1 h2
    _ = _ := mul_one _

theorem C70_loss_sign (h sb emis Tref T : ℝ) (hh : 0 ≤ h) (hsb : 0 ≤ sb) (he : 0 ≤ emis) (hT : 0 ≤ T) (hTr : 0 ≤ Tref) :
    (Tref ≤ T → -(h * (T - Tref)) - sb * emis * (T ^ 4 - Tref ^ 4) ≤ 0) ∧ (T ≤ Tref → 0 ≤ -(h * (T - Tref)) - sb * emis * (T ^ 4 - Tref ^ 4)) := by
  constructor
  · intro hle
    have h1 := mul_nonneg hh (sub_nonneg.mpr hle)
    have h2 : 0 ≤ T ^ 4 - Tref ^ 4 := sub_nonneg.mpr (pow_le_pow_left₀ hTr hle 4)
    have h3 := mul_nonneg (mul_nonneg hsb he) h2
    linarith
  · intro hle
    have h1 := mul_nonneg hh (sub_nonneg.mpr hle)
    have h2 : 0 ≤ Tref ^ 4 - T ^ 4 := sub_nonneg.mpr (pow_le_pow_left₀ hT hle 4)
    have h3 := mul_nonneg (mul_nonneg hsb he) h2
    nlinarith

theorem Box.valid (b : Box) (hn : ∀ d, 0 < b.n d) (hL : ∀ d, 0 < b.L d) : b.mesh.Valid opp :=
  mesh3d_valid _ _ _ _ _ _ (hn 0) (hn 1) (hn 2) (hL 0) (hL 1) (hL 2)

/-- **C70 (ambient equilibrium).** Laser off, no convection, no body source: an object at ambient temperature stays at ambient temperature exactly. The comparison `0/0 > tol` of the
solver is false, so no update is made. -/
theorem C70_ambient (a : AmArgs) (m : EnergyArgs) (hn : ∀ d, 0 < a.g.n d) (hL : ∀ d, 0 < a.g.L d)
    (ls : (ℕ → ℝ) → (ℕ → ℝ) → ℕ → ℝ) (ratio : (ℕ → ℝ) → (ℕ → ℝ) → Ratio)
    (hratio : ∀ b0 b, (∀ n < a.g.n 0 * a.g.n 1 * a.g.n 2, b0 n = 0 ∧ b n = 0) → ratio b0 b = .nan)
    (T0 convT Q : Arr3 (Fin 1 → ℝ))
    (hT0 : ∀ i j k, T0.get i j k 0 = a.Tref) (hc : ∀ i j k, convT.get i j k 0 = 0) (hQ : ∀ i j k, Q.get i j k 0 = 0) (t : ℝ) (ht : a.tOff ≤ t) :
    ∃ T, energyUpdate a m ls ratio T0 convT Q t = some T ∧ ∀ i < a.g.n 0, ∀ j < a.g.n 1, ∀ k < a.g.n 2, T.get i j k 0 = a.Tref := by
  have hm := a.g.valid hn hL
  obtain ⟨p, hp⟩ : ∃ p, energyPoisson a.g.mesh m (flat T0 0) (flat convT 0) (flat Q 0) (some fun _ => 1) (energyBcValue a t (topOf T0)) = .ok p := ⟨_, rfl⟩
  obtain ⟨hmsh, hr, hsrc, hbv, -⟩ := energy_ready (fun _ => rfl) hp
  have hm' : p.msh.Valid opp := by rw [hmsh]; exact hm
  have hflat0 : ∀ n, flat T0 0 n = a.Tref := fun n => hT0 _ _ _
  obtain ⟨R, hR, hR'⟩ := residual_ok hm' hr (flat T0 0)
  have hR0 : ∀ n < a.g.n 0 * a.g.n 1 * a.g.n 2, R n = 0 := by
    intro n _
    rw [hR', hsrc]
    have e1 : p.laplaceKernel (flat T0 0 (p.msh.conn n 0)) (fun s => flat T0 0 (p.msh.conn n s.succ)) = 0 := by
      unfold Poisson.laplaceKernel
      simp [hflat0]
    have e2 : m.source (flat T0 0 n) (flat T0 0 n) (flat convT 0 n) (flat Q 0 n) = 0 := by
      have h1 : flat convT 0 n = 0 := hc _ _ _
      have h2 : flat Q 0 n = 0 := hQ _ _ _
      unfold EnergyArgs.source
      rw [h1, h2]; ring
    rw [e1, e2]
    have e3 : ∀ i t', p.bflux (fun _ => 1) (fun _ => 0) (flat T0 0) i t' = 0 := by
      intro i t'
      unfold Poisson.bflux
      rw [if_neg (show ¬ (1 : ℤ) = 0 by decide), hbv]
      unfold energyBcValue
      by_cases h5 : i = 5
      · have hT' : (topOf T0).flatten.get t' 0 = a.Tref := hT0 _ _ _
        simp only [h5, if_true, hT']
        simp [toolpath, not_lt.mpr ht, gaussianFlux]
      · simp [h5]
    simp [e3]
  refine ⟨_, by unfold energyUpdate; rw [hp], fun i hi j hj k hk => ?_⟩
  set res : (ℕ → ℝ) → (ℕ → ℝ) := fun U => ((p.computeResidual U).toOption.getD 0) with hres
  have hresR : res (flat T0 0) = R := by rw [hres]; simp only [hR]; rfl
  have hcond : nlCond (ratio (-res (flat T0 0))) 1e-5 (-res (flat T0 0)) = false := by
    unfold nlCond
    rw [hratio]
    intro n hn
    rw [hresR]
    have := hR0 n hn
    simp [this]
  have hloop : (solverNonlinear res ls ratio (some (flat T0 0)) 1e-5 1 50).1 = flat T0 0 := by
    unfold solverNonlinear
    simp only [Option.getD_some]
    unfold nlLoop
    rw [hcond]
    rfl
  show (unflat a.g (solverNonlinear res ls ratio (some (flat T0 0)) 1e-5 1 50).1).get i j k = a.Tref
  rw [hloop]
  exact hflat0 _

/-! ## C67: pressure correction -/

theorem gridSum_flat (b : Box) (f : Arr3 ℝ) (h1 : f.n1 = b.n 1) (h2 : f.n2 = b.n 2) :
    ∑ n ∈ range (b.n 0 * b.n 1 * b.n 2), f.flatten.get n = gridSum (b.n 0) (b.n 1) (b.n 2) f.get := by
  have key : ∀ (A B C : ℕ) (g : ℕ → ℝ), ∑ n ∈ range (A * B * C), g n = ∑ i ∈ range A, ∑ j ∈ range B, ∑ k ∈ range C, g ((i * B + j) * C + k) := by
    intro A B C g
    have h1 : ∀ (A B : ℕ) (g : ℕ → ℝ), ∑ n ∈ range (A * B), g n = ∑ i ∈ range A, ∑ j ∈ range B, g (i * B + j) := by
      intro A B g
      induction A with
      | zero => simp
      | succ A ih => rw [Nat.succ_mul, sum_range_add, ih, sum_range_succ]
    rw [h1 (A * B) C, h1 A B]
  rw [key]
  unfold gridSum
  refine sum_congr rfl fun i _ => sum_congr rfl fun j hj => sum_congr rfl fun k hk => ?_
  have := Verif.Mesh.Arr3.flatten_get f (i := i) (j := j) (k := k) (by rw [h1]; exact mem_range.mp hj) (by rw [h2]; exact mem_range.mp hk)
  rw [h1, h2] at this
  exact this

/-- **C67 (the pressure problem is solvable).** With the boundary conditions of the code (no slip on five sides, no normal velocity on top) the right-hand side of the pressure problem
sums to zero for every predicted velocity: its rows are consistent. -/
theorem C67_divergence_sums_to_zero (a : AmArgs) (hn : ∀ d, 0 < a.loc.n d) (vel : Arr3 (Fin 3 → ℝ)) (h0 : vel.n0 = a.loc.n 0) (h1 : vel.n1 = a.loc.n 1) (h2 : vel.n2 = a.loc.n 2)
    (T : Arr3 (Fin 1 → ℝ)) :
    ∃ vf, faceVels vel a.loc.dX (some (velBCs a T)) = some vf ∧
      ∑ n ∈ range (a.loc.n 0 * a.loc.n 1 * a.loc.n 2), (divVel a.loc vf a.dt a.rho).flatten.get n = 0 := by
  obtain ⟨vf, hvf, hx, hy, hz⟩ := C53_faceVels_noflow vel a.loc.dX (velBCs a T) (by rw [h0]; exact hn 0) (by rw [h1]; exact hn 1) (by rw [h2]; exact hn 2)
    (fun s => rfl) (fun s x y hs => by unfold velBCs; simp [hs]; rfl)
    (fun x y => by simp [velBCs, marangoniEffect])
  refine ⟨vf, hvf, ?_⟩
  rw [h0, h1, h2] at *
  rw [gridSum_flat a.loc _ rfl rfl]
  have e : gridSum (a.loc.n 0) (a.loc.n 1) (a.loc.n 2) (divVel a.loc vf a.dt a.rho).get =
      gridSum (a.loc.n 0) (a.loc.n 1) (a.loc.n 2) (fun i j k =>
        (((vf 0).get (i + 1) j k - (vf 0).get i j k) * (1 / a.loc.dX 0 / a.dt * a.rho) + ((vf 1).get i (j + 1) k - (vf 1).get i j k) * (1 / a.loc.dX 1 / a.dt * a.rho))
          + ((vf 2).get i j (k + 1) - (vf 2).get i j k) * (1 / a.loc.dX 2 / a.dt * a.rho)) :=
    gridSum_congr _ _ _ _ _ fun i _ j _ k _ => by unfold divVel; ring
  rw [e, gridSum_add, gridSum_add, gridSum_mul, gridSum_mul, gridSum_mul, tele0 _ _ _ (vf 0).get, tele1 _ _ _ (vf 1).get, tele2 _ _ _ (vf 2).get]
  rw [slabSum_congr (a.loc.n 1) (a.loc.n 2) _ (fun _ _ => 0) fun j hj k hk => by rw [(hx j hj k hk).1, (hx j hj k hk).2, sub_zero]]
  rw [slabSum_congr (a.loc.n 0) (a.loc.n 2) (fun i k => (vf 1).get i (a.loc.n 1) k - (vf 1).get i 0 k) (fun _ _ => 0)
    fun j hj k hk => by rw [(hy j hj k hk).1, (hy j hj k hk).2, sub_zero]]
  rw [slabSum_congr (a.loc.n 0) (a.loc.n 1) (fun i j => (vf 2).get i j (a.loc.n 2) - (vf 2).get i j 0) (fun _ _ => 0)
    fun j hj k hk => by rw [(hz j hj k hk).1, (hz j hj k hk).2, sub_zero]]
  simp [slabSum]

/-- **C67 (the velocity update never fails).** For positive sizes the velocity equation always returns a result of the size of the local mesh. -/
theorem C67_velUpdate_total (a : AmArgs) (hn : ∀ d, 0 < a.loc.n d) (hL : ∀ d, 0 < a.loc.L d) (ls : LinSolve) (vel0 conv0 gradp0 : Arr3 (Fin 3 → ℝ)) (fl T : Arr3 (Fin 1 → ℝ)) :
    ∃ r, velUpdate a ls vel0 conv0 gradp0 fl T = some r ∧ r.1.n0 = a.loc.n 0 ∧ r.1.n1 = a.loc.n 1 ∧ r.1.n2 = a.loc.n 2 ∧ r.2.1 = velBCs a T := by
  have hm := a.loc.valid hn hL
  have hpred : ∀ c, ∃ u, predict a ls vel0 conv0 gradp0 fl T c = .ok u := by
    intro c
    obtain ⟨p, hp, hmsh, hlin⟩ := velPoisson_linear a.loc.mesh a.visco a.rho a.dt (flat vel0 c) (flat conv0 c) (flat gradp0 c) (flat fl 0) (some (velBcType c))
      (fun ty h i => by injection h with h; subst h; unfold velBcType; split_ifs <;> simp) (velBcValue a T c)
    have hm' : p.msh.Valid opp := by rw [hmsh]; exact hm
    obtain ⟨A, hA, -⟩ := linear_row hm' hlin (fun _ => 0)
    obtain ⟨R, hR, -⟩ := linear_residual hm' hlin (fun _ => 0)
    obtain ⟨u, hu⟩ : ∃ u, solverLinear p ls false = .ok u := by
      unfold solverLinear
      rw [hR, hA]
      exact ⟨_, rfl⟩
    exact ⟨u, by unfold predict; rw [hp]; exact hu⟩
  choose u hu using hpred
  obtain ⟨vf, hvf, -⟩ := C67_divergence_sums_to_zero a hn (Arr3.stack ![unflat a.loc (u 0), unflat a.loc (u 1), unflat a.loc (u 2)]) rfl rfl rfl T
  obtain ⟨p, hp, hmsh, hbt, hlin⟩ := presPoisson_linear a.loc.mesh (divVel a.loc vf a.dt a.rho).flatten.get
  have hm' : p.msh.Valid opp := by rw [hmsh]; exact hm
  obtain ⟨A, hA, -⟩ := linear_row hm' hlin (fun _ => 0)
  obtain ⟨R, hR, -⟩ := linear_residual hm' hlin (fun _ => 0)
  obtain ⟨pr, hpr⟩ : ∃ pr, solverLinear p ls false = .ok pr := by
    unfold solverLinear
    rw [hR, hA]
    exact ⟨_, rfl⟩
  have hg := (C58_gradient_ignores_bcs (K := ℝ) ⟨(unflat a.loc pr).n0, (unflat a.loc pr).n1, (unflat a.loc pr).n2, fun i j k _ => (unflat a.loc pr).get i j k⟩ a.loc.dX none none).2
  obtain ⟨g, hg⟩ := Option.isSome_iff_exists.mp hg
  unfold velUpdate
  rw [hu 0, hu 1, hu 2]
  simp only [Except.toOption, Option.bind_eq_bind, Option.bind_some]
  rw [hvf]
  simp only [Option.bind_some]
  rw [hp]
  simp only [Except.bind]
  rw [hpr]
  simp only [Option.bind_some]
  rw [hg]
  exact ⟨_, rfl, rfl, rfl, rfl, rfl⟩

/-- **C67 (the two forms of the velocity conditions agree).** The flux form handed to the diffusion solver is viscosity times the gradient prescribed by the ghost cells on top, and the
value prescribed elsewhere. -/
theorem C67_bc_forms (a : AmArgs) (T : Arr3 (Fin 1 → ℝ)) (c : Fin 3) (s : Fin 6) :
    (velBcType c s = 0 → ∀ n, velBcValue a T c s n = 0) ∧ (velBcType c s = 1 ↔ s = 5 ∧ c ≠ 2) ∧
    (s = 5 → ∀ n, velBcValue a T c s n = a.visco * ((velBCs a T).value 5).flatten.get n c) := by
  refine ⟨?_, ?_, ?_⟩
  · intro h n
    unfold velBcType at h
    unfold velBcValue
    split_ifs with h5
    · have hc : c = 2 := by
        by_contra hc
        rw [if_pos ⟨h5, hc⟩] at h
        exact absurd h one_ne_zero
      subst hc
      simp [marangoniEffect, Arr2.flatten]
    · rfl
  · unfold velBcType
    by_cases h : s = 5 ∧ c ≠ 2 <;> simp [h]
  · intro h n
    unfold velBcValue velBCs
    simp only [h, if_true]
    ring

/-- Divergence with default boundary values never fails. -/
theorem div_total {m : ℕ} (f : Arr3 (Fin m → ℝ)) (v : Fin 3 → Arr3 ℝ) (dX : Fin 3 → ℝ) (theta : ℝ) : ∃ r, div f v dX theta none = some r := by
  obtain ⟨gc, hgc, -⟩ := defaultGC f dX
  exact ⟨divBody f gc v dX theta, by simp [div, hgc]⟩

/-- **C57 (progress).** With a local mesh inside the global one, the surface heat source and a temperature update that returns, a time step of the real velocity update never fails,
for any linear solver and any state. -/
theorem C57_progress (a : AmArgs) (hs : a.heatSource ≠ 1) (hn : ∀ d, 0 < a.loc.n d) (hL : ∀ d, 0 < a.loc.L d) (hle : ∀ d, a.loc.n d ≤ a.g.n d)
    (ls : LinSolve) (eqnT : TempStep) (hT : ∀ A B C t, (eqnT A B C t).isSome) (s : AmState)
    (hsz : s.vel.n0 = a.g.n 0 ∧ s.vel.n1 = a.g.n 1 ∧ s.vel.n2 = a.g.n 2) : ∃ s', timeIntegration a eqnT (velUpdate a ls) s = some s' := by
  have hw := C57_window a s.t (hle 0) (hle 1) (hle 2)
  obtain ⟨Q, hQ⟩ : ∃ Q, heatSource a s.t = some Q := by unfold heatSource; rw [if_neg hs]; exact ⟨_, rfl⟩
  obtain ⟨T, hTe⟩ := Option.isSome_iff_exists.mp (hT s.T s.convT Q s.t)
  have hshape : (sliceW s.vel (movingBox a s.t)).n0 = a.loc.n 0 ∧ (sliceW s.vel (movingBox a s.t)).n1 = a.loc.n 1 ∧ (sliceW s.vel (movingBox a s.t)).n2 = a.loc.n 2 := by
    unfold sliceW
    simp only [hsz]
    exact ⟨(hw 0).2.2.2.2.2.2, (hw 1).2.2.2.2.2.2, (hw 2).2.2.2.2.2.2⟩
  obtain ⟨⟨vel, bcs, gp⟩, hr, r0, r1, r2, rb⟩ := C67_velUpdate_total a hn hL ls (sliceW s.vel (movingBox a s.t)) (sliceW s.conv (movingBox a s.t))
    (sliceW s.gradp (movingBox a s.t)) (sliceW ⟨T.n0, T.n1, T.n2, fun i j k c => fluidFrac a.Ts a.Tl (T.get i j k c)⟩ (movingBox a s.t)) (sliceW T (movingBox a s.t))
  obtain ⟨vf, hvf, -⟩ := C53_faceVels_noflow vel a.g.dX bcs (by rw [r0]; exact hn 0) (by rw [r1]; exact hn 1) (by rw [r2]; exact hn 2)
    (fun s => by simp only at rb; rw [rb]; rfl) (fun s x y hs => by simp only at rb; rw [rb]; unfold velBCs; simp [hs]; rfl)
    (fun x y => by simp only at rb; rw [rb]; simp [velBCs, marangoniEffect])
  obtain ⟨cT, hcT⟩ := div_total (sliceW T (movingBox a s.t)) vf a.g.dX (1 / 8)
  obtain ⟨c, hc⟩ := div_total vel vf a.g.dX (1 / 8)
  unfold timeIntegration
  simp only [Option.bind_eq_bind]
  rw [hQ, Option.bind_some, hTe, Option.bind_some, if_pos hshape, hr, Option.bind_some]
  simp only [hvf, hcT, hc, Option.bind_some]
  exact ⟨_, rfl⟩

/-- Runs exist: the hypotheses of the theorems on runs are satisfiable, with the real velocity update. -/
theorem AmRun_exists (a : AmArgs) (hs : a.heatSource ≠ 1) (hn : ∀ d, 0 < a.loc.n d) (hL : ∀ d, 0 < a.loc.L d) (hle : ∀ d, a.loc.n d ≤ a.g.n d)
    (ls : LinSolve) (eqnT : TempStep) (hT : ∀ A B C t, (eqnT A B C t).isSome) : ∃ s, AmRun a eqnT (velUpdate a ls) s := by
  classical
  let S := {s : AmState // s.vel.n0 = a.g.n 0 ∧ s.vel.n1 = a.g.n 1 ∧ s.vel.n2 = a.g.n 2}
  have hnext : ∀ s : S, ∃ s' : S, timeIntegration a eqnT (velUpdate a ls) s.1 = some s'.1 := by
    rintro ⟨s, hsz⟩
    obtain ⟨s', hs'⟩ := C57_progress a hs hn hL hle ls eqnT hT s hsz
    refine ⟨⟨s', ?_⟩, hs'⟩
    obtain ⟨Q, T, vel, bcs, gradp, vf, convT, conv, -, -, -, -, -, -, -, rfl⟩ := step_spec hs'
    exact hsz
  choose f hf using hnext
  exact ⟨fun n => (f^[n] ⟨amInit a, rfl, rfl, rfl⟩).1, rfl, fun n => by
    show _ = some (f^[n + 1] ⟨amInit a, rfl, rfl, rfl⟩).1
    rw [Function.iterate_succ_apply']
    exact hf _⟩

/-- Concrete case: a 5×4×3 domain with a 2×2×2 velocity window. The run exists and the first window starts at cell 0. -/
example : ∃ a : AmArgs, (∃ s, AmRun a (fun T _ _ _ => some T) (velUpdate a fun _ b => b) s) ∧ (movingBox a 0).lo 0 = 0 ∧ (movingBox a 0).hi 2 = 3 ∧ a.loc.n 0 < a.g.n 0 := by
  let a : AmArgs := ⟨⟨![5, 4, 3], ![5, 4, 3]⟩, ⟨![2, 2, 2], ![2, 2, 2]⟩, ![0, 2, 3], 1, 10, 3, 1, 1, 1, 0, 1, 1, 1, 300, 1200, 1000, 1, 1, 1, 1⟩
  refine ⟨a, AmRun_exists a (by decide) ?_ ?_ ?_ _ _ (fun _ _ _ _ => rfl), ?_, rfl, by decide⟩
  · intro d; fin_cases d <;> decide
  · intro d; fin_cases d <;> simp [a]
  · intro d; fin_cases d <;> decide
  · show boxLow _ _ _ _ = 0
    have e : pyRound ((2 : ℕ) / 2 : ℝ) = 1 := by
      unfold pyRound
      norm_num
    have e0 : pyRound 0 = 0 := by unfold pyRound; norm_num
    have ex : (toolpath a 0).1 / a.g.dX 0 = 0 := by simp [toolpath, a]
    unfold boxLow
    rw [ex, e0]
    show clip (0 - pyRound ((2 : ℕ) / 2 : ℝ)) 0 (((5 : ℕ) : ℤ) - ((2 : ℕ) : ℤ)) = 0
    rw [e]
    decide

end Verif.Cfd
