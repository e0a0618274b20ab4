import Verif.Lbm.PropsDrive
import Verif.Mesh.Props

/-!
# Initial phases of the lattice Boltzmann programs (model of applications/lbm/{pbf, free_fall, surface_tension, multi_scan}/example.py)
-/

namespace Verif.Lbm.Start
open Finset Verif.Mesh Verif.Lbm
open Classical

variable {Nx Ny Nz : ℕ}

/-! ## Model -/

/-- A circle `[x, y, r]` (pbf/example.py 34). -/
structure Circle where
  x : ℝ
  y : ℝ
  r : ℝ

/-- `check_overlap` (pbf/example.py 19-23). -/
noncomputable def checkOverlap (circles : List Circle) (cand : Circle) : Bool :=
  circles.any fun c => decide ((c.x - cand.x) ^ 2 + (c.y - cand.y) ^ 2 < (c.r + cand.r) ^ 2)

/-- A candidate (pbf/example.py 28, 31-34) for samples `g` of the standard normal and `u`, `v` of the uniform distribution on `[0, 1)`; `uniform(low, high)` is `low + (high - low)*u`, also if `high < low`. -/
noncomputable def candidate (domain_x domain_y : ℝ) (d : ℝ × ℝ × ℝ) : Circle :=
  let r_mean := 0.08 * domain_y
  let r := r_mean + 0.2 * r_mean * d.1
  ⟨r + (domain_x - r - r) * d.2.1, r + (domain_y - r - r) * d.2.2, r⟩

/-- The loops of `generate_powder` (pbf/example.py 29-37) with `n` circles to go, for the given samples; `none` if the samples do not suffice, so the program is still in the loop. -/
noncomputable def powderLoop (domain_x domain_y : ℝ) : ℕ → List (ℝ × ℝ × ℝ) → List Circle → Option (List Circle)
  | 0, _, circles => some circles
  | _ + 1, [], _ => none
  | n + 1, d :: ds, circles =>
    if checkOverlap circles (candidate domain_x domain_y d) then powderLoop domain_x domain_y (n + 1) ds circles
    else powderLoop domain_x domain_y n ds (circles ++ [candidate domain_x domain_y d])

/-- `generate_powder` (pbf/example.py 18-38). -/
noncomputable def generatePowder (domain_x domain_y : ℝ) (draws : List (ℝ × ℝ × ℝ)) : Option (List Circle) := powderLoop domain_x domain_y 90 draws []

/-- The flag of pbf/example.py (45-59). -/
noncomputable def pbfFlag (domain_z : ℝ) (circles : List Circle) (c : Fin 3 → ℝ) : Prop :=
  let plate_z := 0.5 * domain_z
  circles.foldl (fun flag o => √((c 0 - o.x) ^ 2 + (c 1 - o.y) ^ 2 + (c 2 - (plate_z + o.r)) ^ 2) < o.r ∨ flag) (c 2 < plate_z)

/-- The flag of multi_scan/example.py (21-22). -/
def scanFlag (domain_z : ℝ) (c : Fin 3 → ℝ) : Prop := c 2 < 0.8 * domain_z

/-- The flag of free_fall/example.py (18-21). -/
def fallFlag (domain_x domain_y domain_z : ℝ) (c : Fin 3 → ℝ) : Prop :=
  ((c 0 > 0.2 * domain_x ∧ c 0 < 0.8 * domain_x) ∧ (c 1 > 0.2 * domain_y ∧ c 1 < 0.8 * domain_y)) ∧ (c 2 > 0.5 * domain_z ∧ c 2 < 0.8 * domain_z)

/-- The flag of surface_tension/example.py (18-21). -/
def dropFlag (domain_x domain_y domain_z : ℝ) (c : Fin 3 → ℝ) : Prop :=
  ((c 0 > 0.2 * domain_x ∧ c 0 < 0.8 * domain_x) ∧ (c 1 > 0.2 * domain_y ∧ c 1 < 0.8 * domain_y)) ∧ (c 2 > 0.2 * domain_z ∧ c 2 < 0.8 * domain_z)

/-- `initialize_phase` (pbf/example.py 42-66; the same lines in the other programs) for a flag that depends on the centroid. -/
noncomputable def initializePhase (Nx Ny Nz : ℕ) (flag : (Fin 3 → ℝ) → Prop) (centroids : Arr1 (Fin 3 → ℝ)) (lattice_id : ℕ) : ℕ :=
  let id := toIdXyz Ny Nz lattice_id
  let tmp := if flag (centroids.get lattice_id) then LIQUID else GAS
  let wall := (id.1 = 0 ∨ id.1 = Nx - 1) ∨ ((id.2.1 = 0 ∨ id.2.1 = Ny - 1) ∨ (id.2.2 = 0 ∨ id.2.2 = Nz - 1))
  if wall then WALL else tmp

/-- `initial_phase` (pbf/example.py 70-75; the same lines in the other programs). -/
noncomputable def initialPhase (Nx Ny Nz : ℕ) (flag : (Fin 3 → ℝ) → Prop) (s : Site Nx Ny Nz) : ℕ :=
  (shapeWrapper Nx Ny Nz (initializePhase Nx Ny Nz flag (cellCentroid (boxMesh Nx Ny Nz (Nx : ℝ) Ny Nz)))).get s.1 s.2.1 s.2.2

/-! ## Specification -/

/-- The centre of a cell. -/
noncomputable def centre (s : Site Nx Ny Nz) : Fin 3 → ℝ := ![s.1 + 1 / 2, s.2.1 + 1 / 2, s.2.2 + 1 / 2]

/-- The powder particle of a circle: the ball of the same radius lying on the plate. -/
def ball (plate : ℝ) (o : Circle) : Set (Fin 3 → ℝ) := {p | (p 0 - o.x) ^ 2 + (p 1 - o.y) ^ 2 + (p 2 - (plate + o.r)) ^ 2 < o.r ^ 2 ∧ 0 < o.r}

/-- **C143 (phases).** In all programs the outer layer of cells is wall; inside, a cell is liquid if its centre has the flag and gas otherwise. -/
theorem C143_phase (flag : (Fin 3 → ℝ) → Prop) (s : Site Nx Ny Nz) :
    (¬ Interior s → initialPhase Nx Ny Nz flag s = WALL) ∧ (Interior s → flag (centre s) → initialPhase Nx Ny Nz flag s = LIQUID) ∧ (Interior s → ¬ flag (centre s) → initialPhase Nx Ny Nz flag s = GAS) := by
  obtain ⟨⟨i, hi⟩, ⟨j, hj⟩, ⟨k, hk⟩⟩ := s
  obtain ⟨hn, hid⟩ := (C03_numbering_bijection Nx Ny Nz).1 i j k hi hj hk
  have hw := (C03_shape_wrapper Nx Ny Nz (initializePhase Nx Ny Nz flag (cellCentroid (boxMesh Nx Ny Nz (Nx : ℝ) Ny Nz))) _ hn).2
  have hc := (C03_centroid Nx Ny Nz (Nx : ℝ) Ny Nz _ hn).2
  rw [hid] at hw hc
  dsimp only at hw hc
  have hx : (Nx : ℝ) ≠ 0 := Nat.cast_ne_zero.mpr (by omega)
  have hy : (Ny : ℝ) ≠ 0 := Nat.cast_ne_zero.mpr (by omega)
  have hz : (Nz : ℝ) ≠ 0 := Nat.cast_ne_zero.mpr (by omega)
  rw [div_self hx, div_self hy, div_self hz, mul_one, mul_one, mul_one] at hc
  have he : initialPhase Nx Ny Nz flag (⟨i, hi⟩, ⟨j, hj⟩, ⟨k, hk⟩) = if (i = 0 ∨ i = Nx - 1) ∨ ((j = 0 ∨ j = Ny - 1) ∨ (k = 0 ∨ k = Nz - 1)) then WALL else if flag (centre ((⟨i, hi⟩, ⟨j, hj⟩, ⟨k, hk⟩) : Site Nx Ny Nz)) then LIQUID else GAS := by
    refine Eq.trans hw ?_
    unfold initializePhase
    dsimp only
    rw [hid, hc]
    rfl
  rw [he]
  unfold Interior
  dsimp only
  refine ⟨fun h => if_pos (by omega), fun h hf => ?_, fun h hf => ?_⟩
  · rw [if_neg (by omega), if_pos hf]
  · rw [if_neg (by omega), if_neg hf]

/-- What the flag of the powder bed program means. -/
theorem pbfFlag_iff (domain_z : ℝ) (circles : List Circle) (c : Fin 3 → ℝ) : pbfFlag domain_z circles c ↔ c 2 < domain_z / 2 ∨ ∃ o ∈ circles, c ∈ ball (domain_z / 2) o := by
  have hb : ∀ o : Circle, √((c 0 - o.x) ^ 2 + (c 1 - o.y) ^ 2 + (c 2 - (0.5 * domain_z + o.r)) ^ 2) < o.r ↔ c ∈ ball (domain_z / 2) o := fun o => by
    rw [show (0.5 : ℝ) * domain_z = domain_z / 2 by ring]
    constructor
    · intro h
      have hr : 0 < o.r := lt_of_le_of_lt (Real.sqrt_nonneg _) h
      exact ⟨(Real.sqrt_lt' hr).mp h, hr⟩
    · intro h
      exact (Real.sqrt_lt' h.2).mpr h.1
  have key : ∀ (l : List Circle) (p : Prop), l.foldl (fun flag o => √((c 0 - o.x) ^ 2 + (c 1 - o.y) ^ 2 + (c 2 - (0.5 * domain_z + o.r)) ^ 2) < o.r ∨ flag) p ↔ p ∨ ∃ o ∈ l, c ∈ ball (domain_z / 2) o := by
    intro l
    induction l with
    | nil => intro p; simp
    | cons a l ih =>
      intro p
      rw [List.foldl_cons, ih, hb]
      simp only [List.mem_cons, exists_eq_or_imp]
      tauto
  unfold pbfFlag
  rw [key, show (0.5 : ℝ) * domain_z = domain_z / 2 by ring]

/-- **C143 (powder bed).** The liquid cells of the powder bed program are those inside whose centre is in the lower half of the box or in one of the particles. -/
theorem C143_pbf (circles : List Circle) (s : Site Nx Ny Nz) :
    initialPhase Nx Ny Nz (pbfFlag Nz circles) s = LIQUID ↔ Interior s ∧ ((s.2.2 : ℝ) + 1 / 2 < Nz / 2 ∨ ∃ o ∈ circles, centre s ∈ ball (Nz / 2) o) := by
  obtain ⟨h1, h2, h3⟩ := C143_phase (pbfFlag Nz circles) s
  have hc : pbfFlag Nz circles (centre s) ↔ ((s.2.2 : ℝ) + 1 / 2 < Nz / 2 ∨ ∃ o ∈ circles, centre s ∈ ball (Nz / 2) o) := pbfFlag_iff _ _ _
  rw [← hc]
  by_cases hi : Interior s
  · by_cases hf : pbfFlag Nz circles (centre s)
    · exact ⟨fun _ => ⟨hi, hf⟩, fun _ => h2 hi hf⟩
    · rw [h3 hi hf]
      exact ⟨fun h => absurd h (by decide), fun h => absurd h.2 hf⟩
  · rw [h1 hi]
    exact ⟨fun h => absurd h (by decide), fun h => absurd h.1 hi⟩

/-! ## The powder -/

/-- Two circles that the program regards as not overlapping. -/
def Apart (c d : Circle) : Prop := (c.r + d.r) ^ 2 ≤ (c.x - d.x) ^ 2 + (c.y - d.y) ^ 2

theorem apart_symm {c d : Circle} (h : Apart c d) : Apart d c := by
  unfold Apart at *; nlinarith

theorem overlap_false (circles : List Circle) (cand : Circle) : checkOverlap circles cand = false ↔ ∀ c ∈ circles, Apart c cand := by
  unfold checkOverlap Apart
  rw [List.any_eq_false]
  constructor
  · intro h c hc
    have := h c hc
    rw [decide_eq_true_eq] at this
    linarith
  · intro h c hc
    rw [decide_eq_true_eq]
    linarith [h c hc]

theorem powderLoop_inv (dx dy : ℝ) : ∀ (ds : List (ℝ × ℝ × ℝ)) (n : ℕ) (cs res : List Circle), powderLoop dx dy n ds cs = some res → cs.Pairwise Apart →
    res.length = cs.length + n ∧ res.Pairwise Apart ∧ ∀ c ∈ res, c ∈ cs ∨ ∃ d ∈ ds, c = candidate dx dy d := by
  intro ds
  induction ds with
  | nil =>
    intro n cs res h hp
    cases n with
    | zero =>
      have : cs = res := Option.some.inj (by simpa [powderLoop] using h)
      subst this
      exact ⟨rfl, hp, fun c hc => Or.inl hc⟩
    | succ n => simp [powderLoop] at h
  | cons d ds ih =>
    intro n cs res h hp
    cases n with
    | zero =>
      have : cs = res := Option.some.inj (by simpa [powderLoop] using h)
      subst this
      exact ⟨rfl, hp, fun c hc => Or.inl hc⟩
    | succ n =>
      rw [powderLoop] at h
      by_cases ho : checkOverlap cs (candidate dx dy d) = true
      · rw [if_pos ho] at h
        obtain ⟨h1, h2, h3⟩ := ih _ _ _ h hp
        refine ⟨h1, h2, fun c hc => ?_⟩
        rcases h3 c hc with h | ⟨e, he, hce⟩
        · exact Or.inl h
        · exact Or.inr ⟨e, List.mem_cons_of_mem _ he, hce⟩
      · rw [if_neg ho] at h
        have ha := (overlap_false _ _).mp (Bool.not_eq_true _ ▸ ho)
        obtain ⟨h1, h2, h3⟩ := ih _ _ _ h (List.pairwise_append.mpr ⟨hp, List.pairwise_singleton _ _, fun c hc e he => by rw [List.mem_singleton.mp he]; exact ha c hc⟩)
        refine ⟨by rw [h1, List.length_append]; simp; omega, h2, fun c hc => ?_⟩
        rcases h3 c hc with h | ⟨e, he, hce⟩
        · rcases List.mem_append.mp h with h | h
          · exact Or.inl h
          · exact Or.inr ⟨d, List.mem_cons_self, List.mem_singleton.mp h⟩
        · exact Or.inr ⟨e, List.mem_cons_of_mem _ he, hce⟩

/-- Circles that do not overlap carry disjoint balls. -/
theorem apart_balls (plate : ℝ) (c d : Circle) (h : Apart c d) : Disjoint (ball plate c) (ball plate d) := by
  rw [Set.disjoint_left]
  rintro p ⟨h1, hc⟩ ⟨h2, hd⟩
  unfold Apart at h
  -- the horizontal distances to the axes
  set a := √((p 0 - c.x) ^ 2 + (p 1 - c.y) ^ 2) with ha
  set b := √((p 0 - d.x) ^ 2 + (p 1 - d.y) ^ 2) with hb
  have ha2 : a ^ 2 = (p 0 - c.x) ^ 2 + (p 1 - c.y) ^ 2 := Real.sq_sqrt (by positivity)
  have hb2 : b ^ 2 = (p 0 - d.x) ^ 2 + (p 1 - d.y) ^ 2 := Real.sq_sqrt (by positivity)
  have ha0 : 0 ≤ a := Real.sqrt_nonneg _
  have hb0 : 0 ≤ b := Real.sqrt_nonneg _
  have hac : a < c.r := lt_of_pow_lt_pow_left₀ 2 hc.le (by rw [ha2]; nlinarith [sq_nonneg (p 2 - (plate + c.r))])
  have hbd : b < d.r := lt_of_pow_lt_pow_left₀ 2 hd.le (by rw [hb2]; nlinarith [sq_nonneg (p 2 - (plate + d.r))])
  have hcs : -((p 0 - c.x) * (p 0 - d.x) + (p 1 - c.y) * (p 1 - d.y)) ≤ a * b := by
    refine le_trans (le_abs_self _) (abs_le_of_sq_le_sq ?_ (mul_nonneg ha0 hb0))
    rw [mul_pow, ha2, hb2]
    nlinarith [sq_nonneg ((p 0 - c.x) * (p 1 - d.y) - (p 1 - c.y) * (p 0 - d.x))]
  nlinarith

/-- **C143 (powder).** If the program gets through, there are 90 circles, the particles they carry are pairwise disjoint, each lies above the plate and touches it; a particle that is not larger than the box lies over the plate, if the samples are in `[0, 1]`. -/
theorem C143_powder (dx dy plate : ℝ) (draws : List (ℝ × ℝ × ℝ)) (circles : List Circle) (h : generatePowder dx dy draws = some circles) :
    circles.length = 90 ∧ circles.Pairwise (fun c d => Disjoint (ball plate c) (ball plate d)) ∧
    (∀ c ∈ circles, (∀ p ∈ ball plate c, plate < p 2 ∧ p 2 < plate + 2 * c.r) ∧ (0 < c.r → ∀ z, plate < z → z < plate + 2 * c.r → ![c.x, c.y, z] ∈ ball plate c)) ∧
    ((∀ d ∈ draws, (0 ≤ d.2.1 ∧ d.2.1 ≤ 1) ∧ (0 ≤ d.2.2 ∧ d.2.2 ≤ 1)) → ∀ c ∈ circles, 2 * c.r ≤ dx → 2 * c.r ≤ dy → ∀ p ∈ ball plate c, (0 < p 0 ∧ p 0 < dx) ∧ (0 < p 1 ∧ p 1 < dy)) := by
  obtain ⟨h1, h2, h3⟩ := powderLoop_inv dx dy draws 90 [] circles h List.Pairwise.nil
  have ab : ∀ {a r : ℝ}, 0 < r → a ^ 2 < r ^ 2 → -r < a ∧ a < r := fun hr h => abs_lt.mp (by rw [← abs_of_pos hr]; exact sq_lt_sq.mp h)
  refine ⟨by simpa using h1, h2.imp fun h => apart_balls plate _ _ h, fun c _ => ⟨fun p hp => ?_, fun hr z hz1 hz2 => ⟨?_, hr⟩⟩, fun hd c hc hrx hry p hp => ?_⟩
  · have := ab hp.2 (show (p 2 - (plate + c.r)) ^ 2 < c.r ^ 2 by nlinarith [hp.1, sq_nonneg (p 0 - c.x), sq_nonneg (p 1 - c.y)])
    constructor <;> linarith
  · show (c.x - c.x) ^ 2 + (c.y - c.y) ^ 2 + (z - (plate + c.r)) ^ 2 < c.r ^ 2
    nlinarith
  · obtain ⟨d, hdm, rfl⟩ := (h3 c hc).resolve_left (by simp)
    obtain ⟨⟨hu0, hu1⟩, hv0, hv1⟩ := hd d hdm
    have hr := hp.2
    have hx := ab hr (show (p 0 - (candidate dx dy d).x) ^ 2 < (candidate dx dy d).r ^ 2 by nlinarith [hp.1, sq_nonneg (p 1 - (candidate dx dy d).y), sq_nonneg (p 2 - (plate + (candidate dx dy d).r))])
    have hy := ab hr (show (p 1 - (candidate dx dy d).y) ^ 2 < (candidate dx dy d).r ^ 2 by nlinarith [hp.1, sq_nonneg (p 0 - (candidate dx dy d).x), sq_nonneg (p 2 - (plate + (candidate dx dy d).r))])
    have ex : (candidate dx dy d).x = (candidate dx dy d).r + (dx - (candidate dx dy d).r - (candidate dx dy d).r) * d.2.1 := rfl
    have ey : (candidate dx dy d).y = (candidate dx dy d).r + (dy - (candidate dx dy d).r - (candidate dx dy d).r) * d.2.2 := rfl
    generalize (candidate dx dy d).x = X at *
    generalize (candidate dx dy d).y = Y at *
    generalize (candidate dx dy d).r = R at *
    have a1 : 0 ≤ (dx - R - R) * d.2.1 := mul_nonneg (by linarith) hu0
    have a2 : (dx - R - R) * d.2.1 ≤ dx - R - R := mul_le_of_le_one_right (by linarith) hu1
    have b1 : 0 ≤ (dy - R - R) * d.2.2 := mul_nonneg (by linarith) hv0
    have b2 : (dy - R - R) * d.2.2 ≤ dy - R - R := mul_le_of_le_one_right (by linarith) hv1
    refine ⟨⟨?_, ?_⟩, ?_, ?_⟩ <;> linarith

/-- **C143 (more samples).** What follows after the samples that suffice has no influence. -/
theorem C143_prefix (dx dy : ℝ) (draws more : List (ℝ × ℝ × ℝ)) (circles : List Circle) (h : generatePowder dx dy draws = some circles) : generatePowder dx dy (draws ++ more) = some circles := by
  have key : ∀ (ds : List (ℝ × ℝ × ℝ)) (n : ℕ) (cs res : List Circle), powderLoop dx dy n ds cs = some res → powderLoop dx dy n (ds ++ more) cs = some res := by
    intro ds
    induction ds with
    | nil =>
      intro n cs res h
      cases n with
      | zero => rw [List.nil_append]; cases more <;> simpa [powderLoop] using h
      | succ n => simp [powderLoop] at h
    | cons d ds ih =>
      intro n cs res h
      cases n with
      | zero => simpa [powderLoop] using h
      | succ n =>
        rw [List.cons_append, powderLoop]
        rw [powderLoop] at h
        split_ifs with ho
        · rw [if_pos ho] at h; exact ih _ _ _ h
        · rw [if_neg ho] at h; exact ih _ _ _ h
  exact key _ _ _ _ h

/-- **C143 (endless loop).** The loop has no bound: there are samples, as many as one likes, with which the program stays in it. -/
theorem C143_endless (dx dy : ℝ) (hy : 0 < dy) (n : ℕ) : generatePowder dx dy (List.replicate n (0, 1 / 2, 1 / 2)) = none := by
  have hr : (candidate dx dy (0, 1 / 2, 1 / 2)).r ≠ 0 := by
    show (0.08 * dy + 0.2 * (0.08 * dy) * 0 : ℝ) ≠ 0
    have : (0.08 * dy + 0.2 * (0.08 * dy) * 0 : ℝ) = 0.08 * dy := by ring
    rw [this]
    positivity
  have hov : checkOverlap [candidate dx dy (0, 1 / 2, 1 / 2)] (candidate dx dy (0, 1 / 2, 1 / 2)) = true := by
    by_contra h
    have := (overlap_false _ _).mp (Bool.not_eq_true _ ▸ h) _ (List.mem_singleton.mpr rfl)
    unfold Apart at this
    have h2 : 0 < ((candidate dx dy (0, 1 / 2, 1 / 2)).r + (candidate dx dy (0, 1 / 2, 1 / 2)).r) ^ 2 := by
      refine lt_of_le_of_ne (sq_nonneg _) (Ne.symm (pow_ne_zero 2 ?_))
      intro h0
      exact hr (by linarith)
    rw [sub_self, sub_self] at this
    linarith
  have stay : ∀ n, powderLoop dx dy 89 (List.replicate n (0, 1 / 2, 1 / 2)) [candidate dx dy (0, 1 / 2, 1 / 2)] = none := by
    intro n
    induction n with
    | zero => rfl
    | succ n ih =>
      rw [List.replicate_succ, powderLoop, if_pos hov]
      exact ih
  unfold generatePowder
  cases n with
  | zero => rfl
  | succ n =>
    rw [List.replicate_succ, powderLoop, if_neg (by simp [checkOverlap])]
    exact stay n

/-- **C143 (negative radius).** A sample of the normal distribution below -5 gives a negative radius. Such a circle carries no particle, and it is accepted also in the middle of a particle of the same size; so there can be fewer than 90 particles. -/
theorem C143_negative (dx dy plate : ℝ) (hy : 0 < dy) (d : ℝ × ℝ × ℝ) : ((candidate dx dy d).r < 0 ↔ d.1 < -5) ∧ (∀ c : Circle, c.r ≤ 0 → ball plate c = ∅) ∧ ∀ x y r : ℝ, checkOverlap [⟨x, y, r⟩] ⟨x, y, -r⟩ = false := by
  refine ⟨?_, fun c hc => ?_, fun x y r => (overlap_false _ _).mpr fun c hc => ?_⟩
  · show (0.08 * dy + 0.2 * (0.08 * dy) * d.1 : ℝ) < 0 ↔ _
    constructor <;> intro h <;> nlinarith
  · ext p
    exact ⟨fun h => absurd h.2 (not_lt.mpr hc), fun h => h.elim⟩
  · rw [List.mem_singleton.mp hc]
    show (r + -r) ^ 2 ≤ _
    rw [add_neg_cancel]
    show (0 : ℝ) ^ 2 ≤ (x - x) ^ 2 + (y - y) ^ 2
    rw [sub_self, sub_self]
    norm_num

/-! ## The state the simulation starts with -/

variable [NeZero Nx] [NeZero Ny] [NeZero Nz]

/-- In these programs a gas cell that has a liquid neighbour in the table of the stencil touches it. -/
theorem nb_touch (s : Site Nx Ny Nz) (hs : Interior s) (q : Fin 19) (hq : q ≠ 0) : Touch s (nb q s) := by
  obtain ⟨⟨i, hi⟩, ⟨j, hj⟩, ⟨k, hk⟩⟩ := s
  unfold Interior at hs
  dsimp only at hs
  have b := fun a => vels_bound a q
  have e0 := jaxIdx_val (n := Nx) (i := vels 0 q + i) (by have := (b 0).1; omega) (by have := (b 0).2; omega)
  have e1 := jaxIdx_val (n := Ny) (i := vels 1 q + j) (by have := (b 1).1; omega) (by have := (b 1).2; omega)
  have e2 := jaxIdx_val (n := Nz) (i := vels 2 q + k) (by have := (b 2).1; omega) (by have := (b 2).2; omega)
  have f0 : (((nb q ((⟨i, hi⟩, ⟨j, hj⟩, ⟨k, hk⟩) : Site Nx Ny Nz)).1 : ℕ) : ℤ) = i + vels 0 q := by rw [add_comm]; exact e0
  have f1 : (((nb q ((⟨i, hi⟩, ⟨j, hj⟩, ⟨k, hk⟩) : Site Nx Ny Nz)).2.1 : ℕ) : ℤ) = j + vels 1 q := by rw [add_comm]; exact e1
  have f2 : (((nb q ((⟨i, hi⟩, ⟨j, hj⟩, ⟨k, hk⟩) : Site Nx Ny Nz)).2.2 : ℕ) : ℤ) = k + vels 2 q := by rw [add_comm]; exact e2
  refine ⟨fun h => ?_, q, f0, f1, f2⟩
  rw [← h] at f0 f1 f2
  dsimp only at f0 f1 f2
  have z0 : vels 0 q = 0 := by omega
  have z1 : vels 1 q = 0 := by omega
  have z2 : vels 2 q = 0 := by omega
  have : ∀ q : Fin 19, vels 0 q = 0 → vels 1 q = 0 → vels 2 q = 0 → q = 0 := by decide
  exact hq (this q z0 z1 z2)

theorem touch_nb (s t : Site Nx Ny Nz) (h : Touch s t) : ∃ q : Fin 19, q ≠ 0 ∧ nb q s = t := by
  obtain ⟨hne, q, hq⟩ := h
  have hnb := nb_of_touch q hq
  exact ⟨q, fun h0 => by subst h0; rw [nb_zero] at hnb; exact hne hnb, hnb⟩

/-- **C143 (start).** At the start the interface consists of the gas cells that touch a liquid cell, all other cells keep their phase, no gas cell touches a liquid cell any more, every fluid cell has density one and is at rest, and the mass is the number of liquid cells plus half the number of interface cells. -/
theorem C143_start (P : Params ℝ) (flag : (Fin 3 → ℝ) → Prop) :
    let ph0 := initialPhase Nx Ny Nz flag
    let S := (initState P ph0).1
    (∀ s, S.phase s = LG ↔ Interior s ∧ ¬ flag (centre s) ∧ ∃ t, Touch s t ∧ Interior t ∧ flag (centre t)) ∧
    (∀ s, S.phase s ≠ LG → S.phase s = ph0 s) ∧ Separated S.phase ∧ Enclosed S.phase ∧
    (∀ s, IsFluid (S.phase s) → ∀ q, S.f s q = weights q) ∧
    (initState P ph0).2 = (#{s | S.phase s = LIQUID} : ℝ) + 1 / 2 * (#{s | S.phase s = LG} : ℝ) := by
  intro ph0 S
  have hcell : ∀ s, (Interior s ∧ flag (centre s) ∧ ph0 s = LIQUID) ∨ (Interior s ∧ ¬ flag (centre s) ∧ ph0 s = GAS) ∨ (¬ Interior s ∧ ph0 s = WALL) := fun s => by
    obtain ⟨h1, h2, h3⟩ := C143_phase flag s
    by_cases hi : Interior s
    · by_cases hf : flag (centre s)
      · exact Or.inl ⟨hi, hf, h2 hi hf⟩
      · exact Or.inr (Or.inl ⟨hi, hf, h3 hi hf⟩)
    · exact Or.inr (Or.inr ⟨hi, h1 hi⟩)
  have w1 : ∑ q, (weights q : ℝ) = 1 := C38_moments.1
  have hphase : ∀ s, S.phase s = if ph0 s = GAS ∧ ∃ q : Fin 19, q ≠ 0 ∧ ph0 (nb q s) = LIQUID then LG else ph0 s := fun s => by
    simp only [S, initState, reini_gas_to_lg, extractLocal, nb_zero]
    split_ifs <;> rfl
  have hf : ∀ s q, S.f s q = weights q := fun s q => by
    simp only [S, initState, reini_gas_to_lg, extractLocal, nb_zero]
    split_ifs with hc
    · dsimp only
      obtain ⟨-, p, -, hp⟩ := hc
      have hn : (0 : ℝ) < ∑ q : Fin 19, if ph0 (nb q s) = LIQUID ∨ ph0 (nb q s) = LG then (1 : ℝ) else 0 :=
        Finset.sum_pos' (fun q _ => by split_ifs <;> norm_num) ⟨p, Finset.mem_univ _, by rw [if_pos (Or.inl hp)]; exact one_pos⟩
      have hs1 : sumQ (fun q : Fin 19 => (weights q : ℝ) * rho0) = 1 := by
        show ∑ q, (weights q : ℝ) * 1 = 1
        simp only [mul_one, w1]
      simp only [hs1, mul_one, mul_zero, Finset.sum_const_zero, zero_div]
      unfold equilibrium_f velDot
      simp only [mul_zero, Finset.sum_const_zero, zero_div, add_zero, sub_zero, mul_one, ne_eq, OfNat.ofNat_ne_zero, not_false_eq_true, zero_pow]
      rw [div_self (ne_of_gt (lt_of_lt_of_eq hn (Finset.sum_congr rfl fun x _ => by
        by_cases h : ph0 (nb x s) = LIQUID ∨ ph0 (nb x s) = LG
        · exact (if_pos h).trans (if_pos h).symm
        · exact (if_neg h).trans (if_neg h).symm))), mul_one]
    · show weights q * (1 : ℝ) = weights q
      rw [mul_one]
  have hmass : ∀ s, S.phase s = LG → S.mass s = 1 / 2 := fun s hs => by
    have : S.mass s = if S.phase s = LG then 1 / 2 * sumQ (S.f s) else _ := rfl
    rw [this, if_pos hs]
    show 1 / 2 * ∑ q, S.f s q = 1 / 2
    simp only [hf, w1, mul_one]
  have hlg : ∀ s, S.phase s = LG ↔ Interior s ∧ ¬ flag (centre s) ∧ ∃ t, Touch s t ∧ Interior t ∧ flag (centre t) := fun s => by
    rw [hphase]
    constructor
    · intro h
      split_ifs at h with hc
      · obtain ⟨hg, q, hq, hl⟩ := hc
        have hi : Interior s ∧ ¬ flag (centre s) := by
          rcases hcell s with h | h | h
          · rw [h.2.2] at hg; exact absurd hg (by decide)
          · exact ⟨h.1, h.2.1⟩
          · rw [h.2] at hg; exact absurd hg (by decide)
        refine ⟨hi.1, hi.2, nb q s, nb_touch s hi.1 q hq, ?_⟩
        rcases hcell (nb q s) with h | h | h
        · exact ⟨h.1, h.2.1⟩
        · rw [h.2.2] at hl; exact absurd hl (by decide)
        · rw [h.2] at hl; exact absurd hl (by decide)
      · rcases hcell s with h' | h' | h'
        · rw [h'.2.2] at h; exact absurd h (by decide)
        · rw [h'.2.2] at h; exact absurd h (by decide)
        · rw [h'.2] at h; exact absurd h (by decide)
    · rintro ⟨hi, hnf, t, ht, hti, htf⟩
      obtain ⟨q, hq, hnb⟩ := touch_nb s t ht
      exact if_pos ⟨(C143_phase flag s).2.2 hi hnf, q, hq, by rw [hnb]; exact (C143_phase flag t).2.1 hti htf⟩
  have hkeep : ∀ s, S.phase s ≠ LG → S.phase s = ph0 s := fun s hs => by
    rw [hphase] at hs ⊢
    split_ifs at hs ⊢ with hc
    · exact absurd rfl hs
    · rfl
  refine ⟨hlg, hkeep, ?_, ?_, fun s _ q => hf s q, ?_⟩
  · intro s t hst hs ht
    have hst' : Touch t s := by
      obtain ⟨hne, q, h0, h1, h2⟩ := hst
      exact ⟨hne.symm, rev q, by rw [vels_rev]; omega, by rw [vels_rev]; omega, by rw [vels_rev]; omega⟩
    exact C44_separated_after_gas_to_lg P _ _ _ _ _ _ ph0 _ t s hst' ht hs
  · exact C43_stays_enclosed P false ph0 (fun s hs => (C143_phase flag s).1 hs) []
  · have e : (initState P ph0).2 = fluidMass S.f S.phase S.mass := totalMass_eq _ _ _
    rw [e]
    unfold fluidMass
    simp only [hf, w1, Finset.sum_const, nsmul_eq_mul, mul_one]
    congr 1
    rw [Finset.sum_congr rfl fun s hs => hmass s (Finset.mem_filter.mp hs).2, Finset.sum_const, nsmul_eq_mul, mul_comm]

/-- **C143 (runs).** In every run of these programs, for every laser path: the outer layer stays wall and nothing else becomes wall, the fluid stays inside, and as long as there is an interface cell the mass is the number of cells liquid at the start plus half the number of gas cells that touched one of them. -/
theorem C143_runs (P : Params ℝ) (G : ForceParams) (fo : Bool) (flag : (Fin 3 → ℝ) → Prop) (path : List (ℝ × ℝ × ℝ)) :
    let S := simulation P G fo (initialPhase Nx Ny Nz flag) path
    (∀ s, S.phase s = WALL ↔ ¬ Interior s) ∧ (∀ s, Legal (S.phase s)) ∧ Enclosed S.phase ∧
    ((path = [] ∨ ∃ s, S.phase s = LG) → fluidMass S.f S.phase S.mass = (#{s : Site Nx Ny Nz | Interior s ∧ flag (centre s)} : ℝ) + 1 / 2 * (#{s : Site Nx Ny Nz | Interior s ∧ ¬ flag (centre s) ∧ ∃ t, Touch s t ∧ Interior t ∧ flag (centre t)} : ℝ)) := by
  intro S
  have hw : ∀ s, initialPhase Nx Ny Nz flag s = WALL ↔ ¬ Interior s := fun s => by
    obtain ⟨h1, h2, h3⟩ := C143_phase flag s
    refine ⟨fun h hi => ?_, h1⟩
    by_cases hf : flag (centre s)
    · rw [h2 hi hf] at h; exact absurd h (by decide)
    · rw [h3 hi hf] at h; exact absurd h (by decide)
  have hleg : ∀ s, Legal (initialPhase Nx Ny Nz flag s) := fun s => by
    obtain ⟨h1, h2, h3⟩ := C143_phase flag s
    by_cases hi : Interior s
    · by_cases hf : flag (centre s)
      · exact Or.inl (h2 hi hf)
      · exact Or.inr (Or.inr (Or.inl (h3 hi hf)))
    · exact Or.inr (Or.inr (Or.inr (h1 hi)))
  obtain ⟨d1, d2, d3, d4⟩ := C78_driven P G fo (initialPhase Nx Ny Nz flag) path
  obtain ⟨m1, m2, m3, m4, m5, m6⟩ := C143_start P flag (Nx := Nx) (Ny := Ny) (Nz := Nz)
  have hwS : ∀ s, S.phase s = WALL ↔ ¬ Interior s := fun s => (d2 s).trans (hw s)
  refine ⟨hwS, d3 hleg, fun s hs => ?_, fun h => ?_⟩
  · by_contra hi
    rw [(hwS s).mpr hi] at hs
    exact absurd hs (by unfold IsFluid; decide)
  · rw [d1 h, ← totalMass_eq]
    refine Eq.trans m6 ?_
    have hl : ∀ s, (initState P (initialPhase Nx Ny Nz flag)).1.phase s = LIQUID ↔ Interior s ∧ flag (centre s) := fun s => by
      obtain ⟨h1, h2, h3⟩ := C143_phase flag s
      constructor
      · intro hs
        have he := m2 s (by rw [hs]; decide)
        rw [hs] at he
        by_cases hi : Interior s
        · by_cases hf : flag (centre s)
          · exact ⟨hi, hf⟩
          · rw [h3 hi hf] at he; exact absurd he (by decide)
        · rw [h1 hi] at he; exact absurd he (by decide)
      · rintro ⟨hi, hf⟩
        rw [m2 s (fun h => ((m1 s).mp h).2.1 hf), h2 hi hf]
    simp only [hl, m1]

/-! ## The other programs -/

omit [NeZero Nx] [NeZero Ny] [NeZero Nz] in
/-- **C143 (shapes).** The liquid of the free-fall program is a block in the upper half of the box, that of the surface-tension program a block in the middle, that of the multi-scan program everything below 80 % of the height; always without the outer layer. -/
theorem C143_shapes (s : Site Nx Ny Nz) :
    (initialPhase Nx Ny Nz (fallFlag Nx Ny Nz) s = LIQUID ↔ Interior s ∧ (2 * Nx < 10 * (s.1 : ℕ) + 5 ∧ 10 * (s.1 : ℕ) + 5 < 8 * Nx) ∧ (2 * Ny < 10 * (s.2.1 : ℕ) + 5 ∧ 10 * (s.2.1 : ℕ) + 5 < 8 * Ny) ∧ (5 * Nz < 10 * (s.2.2 : ℕ) + 5 ∧ 10 * (s.2.2 : ℕ) + 5 < 8 * Nz)) ∧
    (initialPhase Nx Ny Nz (dropFlag Nx Ny Nz) s = LIQUID ↔ Interior s ∧ (2 * Nx < 10 * (s.1 : ℕ) + 5 ∧ 10 * (s.1 : ℕ) + 5 < 8 * Nx) ∧ (2 * Ny < 10 * (s.2.1 : ℕ) + 5 ∧ 10 * (s.2.1 : ℕ) + 5 < 8 * Ny) ∧ (2 * Nz < 10 * (s.2.2 : ℕ) + 5 ∧ 10 * (s.2.2 : ℕ) + 5 < 8 * Nz)) ∧
    (initialPhase Nx Ny Nz (scanFlag Nz) s = LIQUID ↔ Interior s ∧ 10 * (s.2.2 : ℕ) + 5 < 8 * Nz) := by
  have key : ∀ flag : (Fin 3 → ℝ) → Prop, initialPhase Nx Ny Nz flag s = LIQUID ↔ Interior s ∧ flag (centre s) := fun flag => by
    obtain ⟨h1, h2, h3⟩ := C143_phase flag s
    by_cases hi : Interior s
    · by_cases hf : flag (centre s)
      · exact ⟨fun _ => ⟨hi, hf⟩, fun _ => h2 hi hf⟩
      · rw [h3 hi hf]
        exact ⟨fun h => absurd h (by decide), fun h => absurd h.2 hf⟩
    · rw [h1 hi]
      exact ⟨fun h => absurd h (by decide), fun h => absurd h.1 hi⟩
  have lo : ∀ (a i n : ℕ), ((i : ℝ) + 1 / 2 > a / 10 * n ↔ a * n < 10 * i + 5) := fun a i n => by
    rw [← Nat.cast_lt (α := ℝ)]
    push_cast
    constructor <;> intro h <;> linarith
  have hi : ∀ (a i n : ℕ), ((i : ℝ) + 1 / 2 < a / 10 * n ↔ 10 * i + 5 < a * n) := fun a i n => by
    rw [← Nat.cast_lt (α := ℝ)]
    push_cast
    constructor <;> intro h <;> linarith
  have n2 : (0.2 : ℝ) = (2 : ℕ) / 10 := by norm_num
  have n5 : (0.5 : ℝ) = (5 : ℕ) / 10 := by norm_num
  have n8 : (0.8 : ℝ) = (8 : ℕ) / 10 := by norm_num
  refine ⟨(key _).trans ?_, (key _).trans ?_, (key _).trans ?_⟩
  · unfold fallFlag centre
    simp only [Matrix.cons_val_zero, Matrix.cons_val_one, Matrix.cons_val, n2, n5, n8, lo, hi, and_assoc]
  · unfold dropFlag centre
    simp only [Matrix.cons_val_zero, Matrix.cons_val_one, Matrix.cons_val, n2, n8, lo, hi, and_assoc]
  · unfold scanFlag centre
    simp only [Matrix.cons_val, n8, hi]

/-- One particle of radius 2 in the middle of a box of 8 x 8 x 10 cells: the cell (4, 4, 6) is liquid, the cell (1, 1, 6) is gas. -/
example : initialPhase 8 8 10 (pbfFlag 10 [⟨4, 4, 2⟩]) (4, 4, 6) = LIQUID ∧ initialPhase 8 8 10 (pbfFlag 10 [⟨4, 4, 2⟩]) (1, 1, 6) = GAS := by
  have i1 : Interior ((4, 4, 6) : Site 8 8 10) := by unfold Interior; decide
  have i2 : Interior ((1, 1, 6) : Site 8 8 10) := by unfold Interior; decide
  refine ⟨(C143_phase _ _).2.1 i1 ((pbfFlag_iff _ _ _).mpr (Or.inr ⟨_, List.mem_singleton.mpr rfl, ?_, by norm_num⟩)), (C143_phase _ _).2.2 i2 fun h => ?_⟩
  · show (((4 : ℕ) : ℝ) + 1 / 2 - 4) ^ 2 + (((4 : ℕ) : ℝ) + 1 / 2 - 4) ^ 2 + (((6 : ℕ) : ℝ) + 1 / 2 - (10 / 2 + 2)) ^ 2 < (2 : ℝ) ^ 2
    norm_num
  · rcases (pbfFlag_iff _ _ _).mp h with h | ⟨o, ho, h⟩
    · have : ((6 : ℕ) : ℝ) + 1 / 2 < 10 / 2 := h
      norm_num at this
    · rw [List.mem_singleton.mp ho] at h
      have : (((1 : ℕ) : ℝ) + 1 / 2 - 4) ^ 2 + (((1 : ℕ) : ℝ) + 1 / 2 - 4) ^ 2 + (((6 : ℕ) : ℝ) + 1 / 2 - (10 / 2 + 2)) ^ 2 < (2 : ℝ) ^ 2 := h.1
      norm_num at this

end Verif.Lbm.Start
