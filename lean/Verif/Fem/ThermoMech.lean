import Verif.Fem.RadialReturn

/-!
# The material of the thermo-mechanical demo (model of demos/fem/thermal_mechanical/example.py 50-150)

Powder melts and solidifies; stiffness and thermal expansion depend on the phase.
-/
namespace Verif.Fem
open Finset Matrix

variable {dim nn nq nf nfq : ℕ}

/-! ## Model -/

/-- `POWDER`, `LIQUID`, `SOLID` (example.py 162-164). -/
def POWDER : ℕ := 0
def LIQUID : ℕ := 1
def SOLID : ℕ := 2

/-- `Tl` (example.py 156). -/
def tmTl : ℝ := 1623

/-- `stress` (example.py 83-88). -/
noncomputable def tmStress (eps : Matrix (Fin dim) (Fin dim) ℝ) (E : ℝ) : Matrix (Fin dim) (Fin dim) ℝ :=
  let nu : ℝ := 0.3
  let mu := E / (2 * (1 + nu))
  let lmbda := E * nu / ((1 + nu) * (1 - 2 * nu))
  (lmbda * eps.trace) • 1 + (2 * mu) • eps

/-- `stress_return_maps` (example.py 90-105): `sigma` and `f_yield_plus`. The second output `sigma[0, 0]` is an entry of the first. `safe_sqrt`, `safe_divide` and `strain` (lines 72-81) are those of models.py. -/
noncomputable def tmReturnMaps (g sigma_old epsilon_old : Matrix (Fin dim) (Fin dim) ℝ) (dT : ℝ) (phase : ℕ) : Matrix (Fin dim) (Fin dim) ℝ × ℝ :=
  let E0 : ℝ := 70e9
  let sig0 : ℝ := 250e6
  let alpha_V0 : ℝ := 1e-5
  let alpha_V := if phase = SOLID then alpha_V0 else 0
  let E := if phase = SOLID then E0 else 1e-2 * E0
  let epsilon_inc_T := (alpha_V * dT) • (1 : Matrix (Fin dim) (Fin dim) ℝ)
  let epsilon_crt := strain g
  let epsilon_inc := epsilon_crt - epsilon_old
  let sigma_trial := tmStress (epsilon_inc - epsilon_inc_T) E + sigma_old
  let s_dev := sigma_trial - (1 / (dim : ℝ) * sigma_trial.trace) • (1 : Matrix (Fin dim) (Fin dim) ℝ)
  let s_norm := safeSqrt (3 / 2 * ∑ i, ∑ j, s_dev i j * s_dev i j)
  let f_yield := s_norm - sig0
  let f_yield_plus := if f_yield > 0 then f_yield else 0
  (Matrix.of fun i j => sigma_trial i j - safeDivide (f_yield_plus * s_dev i j) s_norm, f_yield_plus)

/-- `stress_return_map` (example.py 107). -/
noncomputable def tmReturn (g sigma_old epsilon_old : Matrix (Fin dim) (Fin dim) ℝ) (dT : ℝ) (phase : ℕ) : Matrix (Fin dim) (Fin dim) ℝ := (tmReturnMaps g sigma_old epsilon_old dT phase).1

/-- One row of `internal_vars['laplace'] = [sigmas_old, epsilons_old, dT, phase]` (example.py 63): the values at the quadrature points of a cell. In the code the four arrays always have one row per cell; here a row is one record. -/
structure TmCell (nq dim : ℕ) where
  sig : Fin nq → Matrix (Fin dim) (Fin dim) ℝ
  eps : Fin nq → Matrix (Fin dim) (Fin dim) ℝ
  dT : Fin nq → ℝ
  phase : Fin nq → ℕ

/-- `custom_init` (example.py 55-63). -/
def tmInit (F : Fem nn nq nf nfq dim dim) : List (TmCell nq dim) := F.cells.map fun _ => ⟨fun _ => 0, fun _ => 0, fun _ => 0, fun _ => POWDER⟩

/-- `convert_from_dof_to_quad` (core.py 710-729) of the mechanical problem applied to a temperature: the method works for any number of components, here one. -/
def tmQuad (F : Fem nn nq nf nfq dim dim) (T : ℕ → ℝ) : List (Fin nq → ℝ) := F.cells.map fun c q => ∑ n, T (c n) * F.shapeVals q n

/-- The two `phase.at[..].set(..)` (example.py 141-144) at one point: both masks are computed with the old phase. -/
noncomputable def tmPhase (phase : ℕ) (T : ℝ) : ℕ :=
  let powder_to_liquid := phase = POWDER ∧ T > tmTl
  let liquid_to_solid := phase = LIQUID ∧ T < tmTl
  open Classical in
  let phase := if powder_to_liquid then LIQUID else phase
  if liquid_to_solid then SOLID else phase

/-- `update_dT_and_phase` (example.py 134-145); raises if the numbers of rows differ. -/
noncomputable def tmUpdatePhase (F : Fem nn nq nf nfq dim dim) (dT T : ℕ → ℝ) (params : List (TmCell nq dim)) : Except FemErr (List (TmCell nq dim)) :=
  let dT_quad := tmQuad F dT
  let T_quad := tmQuad F T
  if params.length = T_quad.length then
    .ok ((params.zip (dT_quad.zip T_quad)).map fun p => ⟨p.1.sig, p.1.eps, p.2.1, fun q => tmPhase (p.1.phase q) (p.2.2 q)⟩)
  else .error .shape

/-- `update_stress_strain` (example.py 119-132) without the debugging output. -/
noncomputable def tmUpdateStress (F : Fem nn nq nf nfq dim dim) (sol : ℕ → Fin dim → ℝ) (params : List (TmCell nq dim)) : Except FemErr (List (TmCell nq dim)) :=
  let u_grads := F.solToGrad sol
  if u_grads.length = params.length then
    .ok ((params.zip u_grads).map fun p => ⟨fun q => tmReturn (Matrix.of (p.2 q)) (p.1.sig q) (p.1.eps q) (p.1.dT q) (p.1.phase q), fun q => strain (Matrix.of (p.2 q)), p.1.dT, p.1.phase⟩)
  else .error .shape

/-- `Plasticity` after `set_params(params)` (example.py 65-69, 147-150). -/
noncomputable def tmPlast (F : Fem nn nq nf nfq dim dim) (params : List (TmCell nq dim)) : Fem nn nq nf nfq dim dim :=
  { F with
    tensorMap := some fun k q g => (params[k]?).elim 0 fun p => tmReturn (Matrix.of g) (p.sig q) (p.eps q) (p.dT q) (p.phase q)
    massMap := none
    lapRows := some params.length
    massRows := none }

/-! ## One point -/

/-- Specification: modulus and expansion coefficient of a phase. -/
noncomputable def modulusOf (phase : ℕ) : ℝ := if phase = SOLID then 70e9 else 7e8
noncomputable def expansionOf (phase : ℕ) : ℝ := if phase = SOLID then 1e-5 else 0

/-- Specification: the Lamé constants of a modulus, Poisson ratio 0.3. -/
noncomputable def lameOf (phase : ℕ) : ℝ := modulusOf phase * 0.3 / (1.3 * 0.4)
noncomputable def shearOf (phase : ℕ) : ℝ := modulusOf phase / 2.6

theorem modulusOf_pos (phase : ℕ) : 0 < modulusOf phase := by unfold modulusOf; split_ifs <;> norm_num

theorem shearOf_pos (phase : ℕ) : 0 < shearOf phase := div_pos (modulusOf_pos phase) (by norm_num)

theorem bulkOf_pos (phase : ℕ) : 0 < (dim : ℝ) * lameOf phase + 2 * shearOf phase := by
  have h1 := shearOf_pos phase
  have h2 : 0 ≤ lameOf phase := by unfold lameOf; have := modulusOf_pos phase; positivity
  have : 0 ≤ (dim : ℝ) * lameOf phase := mul_nonneg (Nat.cast_nonneg _) h2
  linarith

/-- The elastic strain increment: total less thermal. -/
noncomputable def elasticInc (g eo : Matrix (Fin dim) (Fin dim) ℝ) (dT : ℝ) (phase : ℕ) : Matrix (Fin dim) (Fin dim) ℝ := strain g - eo - (expansionOf phase * dT) • 1

theorem tmReturn_eq (g so eo : Matrix (Fin dim) (Fin dim) ℝ) (dT : ℝ) (phase : ℕ) :
    tmReturn g so eo dT phase = radial 250e6 (isoLaw (lameOf phase) (shearOf phase) (elasticInc g eo dT phase) + so) ∧
    (tmReturnMaps g so eo dT phase).2 = max (mises (isoLaw (lameOf phase) (shearOf phase) (elasticInc g eo dT phase) + so) - 250e6) 0 := by
  have hT : tmStress (strain g - eo - ((if phase = SOLID then (1e-5 : ℝ) else 0) * dT) • (1 : Matrix (Fin dim) (Fin dim) ℝ)) (if phase = SOLID then 70e9 else 1e-2 * 70e9) + so =
      isoLaw (lameOf phase) (shearOf phase) (elasticInc g eo dT phase) + so := by
    congr 1
    have hE : (if phase = SOLID then (70e9 : ℝ) else 1e-2 * 70e9) = modulusOf phase := by unfold modulusOf; split_ifs <;> norm_num
    rw [hE]
    unfold tmStress isoLaw lameOf shearOf elasticInc expansionOf
    dsimp only
    congr 2
    · congr 1
      ring
    · ring
  have key : ∀ T : Matrix (Fin dim) (Fin dim) ℝ,
      (Matrix.of fun i j => T i j - safeDivide ((if safeSqrt (3 / 2 * ∑ i, ∑ j, (T - (1 / (dim : ℝ) * T.trace) • (1 : Matrix (Fin dim) (Fin dim) ℝ)) i j * (T - (1 / (dim : ℝ) * T.trace) • (1 : Matrix (Fin dim) (Fin dim) ℝ)) i j) - 250e6 > 0 then
        safeSqrt (3 / 2 * ∑ i, ∑ j, (T - (1 / (dim : ℝ) * T.trace) • (1 : Matrix (Fin dim) (Fin dim) ℝ)) i j * (T - (1 / (dim : ℝ) * T.trace) • (1 : Matrix (Fin dim) (Fin dim) ℝ)) i j) - 250e6 else 0) *
        (T - (1 / (dim : ℝ) * T.trace) • (1 : Matrix (Fin dim) (Fin dim) ℝ)) i j)
        (safeSqrt (3 / 2 * ∑ i, ∑ j, (T - (1 / (dim : ℝ) * T.trace) • (1 : Matrix (Fin dim) (Fin dim) ℝ)) i j * (T - (1 / (dim : ℝ) * T.trace) • (1 : Matrix (Fin dim) (Fin dim) ℝ)) i j))) = radial 250e6 T ∧
      (if safeSqrt (3 / 2 * ∑ i, ∑ j, (T - (1 / (dim : ℝ) * T.trace) • (1 : Matrix (Fin dim) (Fin dim) ℝ)) i j * (T - (1 / (dim : ℝ) * T.trace) • (1 : Matrix (Fin dim) (Fin dim) ℝ)) i j) - 250e6 > 0 then
        safeSqrt (3 / 2 * ∑ i, ∑ j, (T - (1 / (dim : ℝ) * T.trace) • (1 : Matrix (Fin dim) (Fin dim) ℝ)) i j * (T - (1 / (dim : ℝ) * T.trace) • (1 : Matrix (Fin dim) (Fin dim) ℝ)) i j) - 250e6 else 0) = max (mises T - 250e6) 0 := by
    intro T
    have hd : T - (1 / (dim : ℝ) * T.trace) • (1 : Matrix (Fin dim) (Fin dim) ℝ) = dev T := by
      unfold dev
      rw [one_div_mul_eq_div]
    rw [hd, safeSqrt_eq]
    change (Matrix.of fun i j => T i j - safeDivide ((if mises T - 250e6 > 0 then mises T - 250e6 else 0) * dev T i j) (mises T)) = radial 250e6 T ∧ (if mises T - 250e6 > 0 then mises T - 250e6 else 0) = _
    have hm : (if mises T - 250e6 > 0 then mises T - 250e6 else 0) = max (mises T - 250e6) 0 := by
      split_ifs with h
      · rw [max_eq_left h.le]
      · rw [max_eq_right (not_lt.mp h)]
    refine ⟨?_, hm⟩
    rw [hm]
    ext i j
    unfold radial safeDivide
    rw [Matrix.of_apply, Matrix.sub_apply, Matrix.smul_apply, smul_eq_mul]
    split_ifs with h
    · rw [h]; simp
    · ring
  have h := key (isoLaw (lameOf phase) (shearOf phase) (elasticInc g eo dT phase) + so)
  rw [← hT] at h ⊢
  exact h

/-- **C109 (material law).** For every old state, phase and temperature change the new stress is within the yield surface of 250 MPa and is the response of the material: Hooke's law of the phase for the strain increment less
thermal and plastic part, with maximal plastic work; and it is the only such stress. The printed `f_plus` is zero iff the step is elastic. -/
theorem C109_response (hdim : 0 < dim) (g so eo : Matrix (Fin dim) (Fin dim) ℝ) (dT : ℝ) (phase : ℕ) :
    (∃ dp, Response (lameOf phase) (shearOf phase) 250e6 so (elasticInc g eo dT phase) (tmReturn g so eo dT phase) dp) ∧
    (∀ s dp, Response (lameOf phase) (shearOf phase) 250e6 so (elasticInc g eo dT phase) s dp → s = tmReturn g so eo dT phase) ∧
    ((tmReturnMaps g so eo dT phase).2 = 0 ↔ tmReturn g so eo dT phase = so + isoLaw (lameOf phase) (shearOf phase) (elasticInc g eo dT phase)) := by
  obtain ⟨e1, e2⟩ := tmReturn_eq g so eo dT phase
  obtain ⟨dp, h, -⟩ := radial_response hdim (lameOf phase) (shearOf phase) 250e6 (shearOf_pos phase) (by norm_num) so (elasticInc g eo dT phase)
  rw [← e1] at h
  refine ⟨⟨dp, h⟩, fun s dp' h' => h'.unique hdim (shearOf_pos phase) (bulkOf_pos phase) h, ?_⟩
  rw [e2, e1, add_comm so]
  set T := isoLaw (lameOf phase) (shearOf phase) (elasticInc g eo dT phase) + so
  obtain ⟨h1, h2, -, h4⟩ := radial_step hdim 250e6 (by norm_num) T
  rw [max_eq_right_iff, sub_nonpos]
  refine ⟨h1, fun he => ?_⟩
  rw [← he]
  exact h4

/-- **C109 (thermal expansion).** Free expansion of the solid by `1e-5` per Kelvin leaves any admissible stress as it is. If the strain is held, the stress changes by the same pressure in all directions, 1.75 MPa per Kelvin, and the
step is elastic however large the temperature change. Powder and liquid do not feel the temperature; with held strain their stress stays, so melting and solidification do not reset it. -/
theorem C109_thermal (so eo : Matrix (Fin 3) (Fin 3) ℝ) (hso : mises so ≤ 250e6) (dT : ℝ) :
    (∀ g, strain g = eo + (1e-5 * dT) • 1 → tmReturn g so eo dT SOLID = so) ∧ (∀ g, strain g = eo → tmReturn g so eo dT SOLID = so - (1.75e6 * dT) • 1) ∧
    ∀ phase, phase ≠ SOLID → ∀ g, strain g = eo → tmReturn g so eo dT phase = so := by
  have hrad : ∀ c : ℝ, radial 250e6 (so + c • 1) = so + c • 1 := fun c => by
    have hd : dev (so + c • 1) = dev so := by
      unfold dev
      rw [Matrix.trace_add, Matrix.trace_smul, Matrix.trace_one, Fintype.card_fin, add_div, add_smul, smul_eq_mul]
      have : c * ((3 : ℕ) : ℝ) / ((3 : ℕ) : ℝ) = c := by norm_num
      rw [this]
      abel
    have hm : mises (so + c • 1) = mises so := by unfold mises; rw [hd]
    exact (radial_step (by norm_num) 250e6 (by norm_num) _).1 (by rw [hm]; exact hso)
  have h0 : radial 250e6 so = so := (radial_step (by norm_num) 250e6 (by norm_num) _).1 hso
  have hz : ∀ lam mu, isoLaw lam mu (0 : Matrix (Fin 3) (Fin 3) ℝ) = 0 := fun lam mu => by simp [isoLaw]
  refine ⟨fun g hg => ?_, fun g hg => ?_, fun phase hp g hg => ?_⟩
  · rw [(tmReturn_eq g so eo dT SOLID).1]
    have : elasticInc g eo dT SOLID = 0 := by
      unfold elasticInc expansionOf
      rw [hg, if_pos rfl]
      abel
    rw [this, hz, zero_add, h0]
  · rw [(tmReturn_eq g so eo dT SOLID).1]
    have : isoLaw (lameOf SOLID) (shearOf SOLID) (elasticInc g eo dT SOLID) = (-(1.75e6 * dT)) • (1 : Matrix (Fin 3) (Fin 3) ℝ) := by
      unfold elasticInc expansionOf isoLaw lameOf shearOf modulusOf
      rw [hg, sub_self, zero_sub, if_pos rfl, if_pos rfl, Matrix.trace_neg, Matrix.trace_smul, Matrix.trace_one, Fintype.card_fin, smul_neg, smul_smul, ← neg_smul (2 * _ * _), ← add_smul]
      congr 1
      simp only [smul_eq_mul]
      push_cast
      ring
    rw [this, add_comm, hrad, neg_smul, sub_eq_add_neg]
  · rw [(tmReturn_eq g so eo dT phase).1]
    have : elasticInc g eo dT phase = 0 := by
      unfold elasticInc expansionOf
      rw [hg, if_neg hp]
      simp
    rw [this, hz, zero_add, h0]

/-! ## Phases -/

/-- Specification: powder until the temperature was above the liquidus, solid if afterwards it was below. -/
def Molten (ts : List ℝ) : Prop := ∃ t ∈ ts, tmTl < t
def Frozen (ts : List ℝ) : Prop := ∃ a t b t', ts = a ++ t :: b ∧ tmTl < t ∧ t' ∈ b ∧ t' < tmTl

theorem tmPhase_eq (phase : ℕ) (T : ℝ) :
    tmPhase phase T = open Classical in if phase = POWDER ∧ tmTl < T then LIQUID else if phase = LIQUID ∧ T < tmTl then SOLID else phase := by
  unfold tmPhase
  simp only [gt_iff_lt]
  by_cases h1 : phase = POWDER ∧ tmTl < T
  · have h2 : ¬ (phase = LIQUID ∧ T < tmTl) := fun h => by rw [h1.1] at h; exact absurd h.1 (by decide)
    rw [if_pos h1, if_neg h2, if_pos h1]
  · rw [if_neg h1, if_neg h1]

/-- **C109 (phases).** The phase after any sequence of updates depends on the temperatures at the updates only, as follows: solid iff one was above and a later one below the liquidus, liquid iff one was above and none after
such a one below, else powder. -/
theorem C109_phase (ts : List ℝ) :
    (ts.foldl tmPhase POWDER = SOLID ↔ Frozen ts) ∧ (ts.foldl tmPhase POWDER = LIQUID ↔ Molten ts ∧ ¬ Frozen ts) ∧ (ts.foldl tmPhase POWDER = POWDER ↔ ¬ Molten ts) := by
  have hFM : ∀ ts, Frozen ts → Molten ts := by
    rintro ts ⟨a, t, b, t', rfl, ht, -⟩
    exact ⟨t, by simp, ht⟩
  have hM : ∀ ts x, Molten (ts ++ [x]) ↔ Molten ts ∨ tmTl < x := by
    intro ts x
    unfold Molten
    constructor
    · rintro ⟨t, ht, h⟩
      rcases List.mem_append.mp ht with ht | ht
      · exact .inl ⟨t, ht, h⟩
      · rw [List.mem_singleton] at ht
        subst ht
        exact .inr h
    · rintro (⟨t, ht, h⟩ | h)
      · exact ⟨t, by simp [ht], h⟩
      · exact ⟨x, by simp, h⟩
  have hFr : ∀ ts x, Frozen (ts ++ [x]) ↔ Frozen ts ∨ Molten ts ∧ x < tmTl := by
    intro ts x
    constructor
    · rintro ⟨a, t, b, t', h, ht, hb, ht'⟩
      rcases List.eq_nil_or_concat b with rfl | ⟨b', y, rfl⟩
      · simp at hb
      · rw [List.concat_eq_append, ← List.cons_append, ← List.append_assoc] at h
        obtain ⟨h1, h2⟩ := List.append_inj' h rfl
        rw [List.concat_eq_append] at hb
        rcases List.mem_append.mp hb with hb | hb
        · exact .inl ⟨a, t, b', t', h1, ht, hb, ht'⟩
        · rw [List.mem_singleton] at hb
          have : x = y := by simpa using h2
          refine .inr ⟨⟨t, by rw [h1]; simp, ht⟩, by rw [this, ← hb]; exact ht'⟩
    · rintro (⟨a, t, b, t', rfl, ht, hb, ht'⟩ | ⟨⟨t, hm, ht⟩, hx⟩)
      · exact ⟨a, t, b ++ [x], t', by simp, ht, by simp [hb], ht'⟩
      · obtain ⟨a, b, rfl⟩ := List.append_of_mem hm
        exact ⟨a, t, b ++ [x], x, by simp, ht, by simp, hx⟩
  have hpl : POWDER ≠ LIQUID := by decide
  have hps : POWDER ≠ SOLID := by decide
  have hls : LIQUID ≠ SOLID := by decide
  induction ts using List.reverseRecOn with
  | nil =>
    have hm : ¬ Molten [] := by rintro ⟨t, ht, -⟩; cases ht
    have hf : ¬ Frozen [] := fun h => hm (hFM _ h)
    simp only [List.foldl_nil, hm, hf, hpl, hps]
    simp
  | append_singleton ts x ih =>
    rw [List.foldl_append]
    simp only [List.foldl_cons, List.foldl_nil]
    rw [tmPhase_eq, hFr, hM]
    obtain ⟨i1, i2, i3⟩ := ih
    set p := ts.foldl tmPhase POWDER
    by_cases hm : Molten ts
    · by_cases hf : Frozen ts
      · have hp : p = SOLID := i1.mpr hf
        simp [hp, hm, hf, hps.symm, hls.symm]
      · have hp : p = LIQUID := i2.mpr ⟨hm, hf⟩
        by_cases hx : x < tmTl
        · have hx' : ¬ tmTl < x := by linarith
          simp [hp, hm, hf, hpl.symm, hps.symm, hls.symm, hx, hx']
        · simp [hp, hm, hf, hpl.symm, hls, hx]
    · have hf : ¬ Frozen ts := fun h => hm (hFM _ h)
      have hp : p = POWDER := i3.mpr hm
      by_cases hx : tmTl < x
      · simp [hp, hm, hf, hpl.symm, hls, hx]
      · simp [hp, hm, hf, hpl, hps, hx]

/-- **C109 (no remelting, one transition per update).** A phase never goes back and never advances by more than one; solid stays solid at every temperature; at exactly the liquidus nothing happens. -/
theorem C109_monotone (phase : ℕ) (T : ℝ) (hp : phase ≤ SOLID) :
    phase ≤ tmPhase phase T ∧ tmPhase phase T ≤ phase + 1 ∧ tmPhase phase T ≤ SOLID ∧ tmPhase SOLID T = SOLID ∧ tmPhase phase tmTl = phase := by
  have hP : POWDER = 0 := rfl
  have hL : LIQUID = 1 := rfl
  have hS : SOLID = 2 := rfl
  refine ⟨?_, ?_, ?_, ?_, ?_⟩ <;> rw [tmPhase_eq] <;> split_ifs <;> simp_all

/-! ## Thermal strain -/

/-- The thermal strain that has been subtracted from the strain increments at a point with the given temperatures at the updates, starting at the temperature `t0` (example.py 96, 255, 267). -/
noncomputable def thermalStrain : ℕ → ℝ → List ℝ → ℝ
  | _, _, [] => 0
  | phase, t0, t :: ts => expansionOf (tmPhase phase t) * (t - t0) + thermalStrain (tmPhase phase t) t ts

theorem thermalStrain_solid (t0 : ℝ) (ts : List ℝ) : thermalStrain SOLID t0 ts = 1e-5 * (ts.getLastD t0 - t0) := by
  induction ts generalizing t0 with
  | nil => simp [thermalStrain]
  | cons t ts ih =>
    have h : tmPhase SOLID t = SOLID := (C109_monotone SOLID t le_rfl).2.2.2.1
    rw [thermalStrain, h, ih]
    have : expansionOf SOLID = 1e-5 := if_pos rfl
    have e : (t :: ts).getLastD t0 = ts.getLastD t := by cases ts <;> simp [List.getLastD]
    rw [this, e]
    ring

/-- **C109 (stress-free temperature).** A point that is not solid has no thermal strain. A point that turned solid at some update has the thermal strain `1e-5 (T - T*)` where `T*` is its temperature at the update before, the last one
in the liquid, at or above the liquidus: the contraction of the melt down to the liquidus is counted as well. -/
theorem C109_strain (t0 : ℝ) (ts : List ℝ) :
    (¬ Frozen ts → thermalStrain POWDER t0 ts = 0) ∧
    (Frozen ts → ∃ a s t b, ts = a ++ s :: t :: b ∧ (a ++ [s]).foldl tmPhase POWDER = LIQUID ∧ tmTl ≤ s ∧ t < tmTl ∧ thermalStrain POWDER t0 ts = 1e-5 * ((t :: b).getLastD t - s)) := by
  have hsplit : ∀ (a b : List ℝ) phase t0, thermalStrain phase t0 (a ++ b) = thermalStrain phase t0 a + thermalStrain (a.foldl tmPhase phase) (a.getLastD t0) b := by
    intro a b
    induction a with
    | nil => intro phase t0; simp [thermalStrain, List.getLastD]
    | cons x a ih =>
      intro phase t0
      rw [List.cons_append, thermalStrain, thermalStrain, ih]
      have e : (x :: a).getLastD t0 = a.getLastD x := by cases a <;> simp [List.getLastD]
      rw [e, List.foldl_cons]
      ring
  have hzero : ∀ ts : List ℝ, ¬ Frozen ts → thermalStrain POWDER t0 ts = 0 := by
    intro ts
    induction ts using List.reverseRecOn with
    | nil => intro _; rfl
    | append_singleton ts x ih =>
      intro hf
      have hf' : ¬ Frozen ts := by
        rintro ⟨a, t, b, t', rfl, ht, hb, ht'⟩
        exact hf ⟨a, t, b ++ [x], t', by simp, ht, by simp [hb], ht'⟩
      rw [hsplit, ih hf', zero_add]
      have hp : tmPhase (ts.foldl tmPhase POWDER) x ≠ SOLID := by
        have := (C109_phase (ts ++ [x])).1
        rw [List.foldl_append] at this
        exact fun h => hf (this.mp h)
      show expansionOf (tmPhase (ts.foldl tmPhase POWDER) x) * _ + 0 = 0
      rw [expansionOf, if_neg hp]
      ring
  refine ⟨hzero ts, fun hf => ?_⟩
  have hex : ∀ ts : List ℝ, Frozen ts → ∃ p t b, ts = p ++ t :: b ∧ ¬ Frozen p ∧ Frozen (p ++ [t]) := by
    intro ts
    induction ts using List.reverseRecOn with
    | nil => rintro ⟨a, t, b, t', h, -⟩; simp at h
    | append_singleton ts x ih =>
      intro hf
      by_cases h : Frozen ts
      · obtain ⟨p, t, b, rfl, h1, h2⟩ := ih h
        exact ⟨p, t, b ++ [x], by simp, h1, h2⟩
      · exact ⟨ts, x, [], rfl, h, hf⟩
  obtain ⟨p, t, b, rfl, h1, h2⟩ := hex ts hf
  have hsolid := (C109_phase (p ++ [t])).1.mpr h2
  rw [List.foldl_append] at hsolid
  simp only [List.foldl_cons, List.foldl_nil] at hsolid
  have hliq : p.foldl tmPhase POWDER = LIQUID ∧ t < tmTl := by
    rw [tmPhase_eq] at hsolid
    split_ifs at hsolid with c1 c2
    · exact absurd hsolid (by decide)
    · exact c2
    · exact absurd ((C109_phase p).1.mp hsolid) h1
  rcases List.eq_nil_or_concat p with rfl | ⟨a, s, rfl⟩
  · exact absurd hliq.1 (by decide)
  · rw [List.concat_eq_append] at *
    refine ⟨a, s, t, b, by simp, hliq.1, ?_, hliq.2, ?_⟩
    · by_contra hs
      push Not at hs
      have := hliq.1
      rw [List.foldl_append] at this
      simp only [List.foldl_cons, List.foldl_nil] at this
      rw [tmPhase_eq] at this
      split_ifs at this with c1 c2
      · linarith [c1.2]
      · exact absurd this (by decide)
      · exact c2 ⟨this, hs⟩
    · rw [hsplit, hzero _ h1, zero_add, thermalStrain, hsolid, thermalStrain_solid]
      have : expansionOf SOLID = 1e-5 := if_pos rfl
      have e : (a ++ [s]).getLastD t0 = s := by simp [List.getLastD_eq_getLast?]
      have e2 : (t :: b).getLastD t = b.getLastD t := by cases b <;> simp [List.getLastD]
      rw [this, e, e2]
      ring

/-! ## The stored arrays -/

/-- One mechanical step with the temperature `T` and the displacement `sol` (example.py 255-267): the temperature change is taken from the last mechanical step. -/
noncomputable def tmMech (F : Fem nn nq nf nfq dim dim) (s : (ℕ → ℝ) × List (TmCell nq dim)) (x : (ℕ → ℝ) × (ℕ → Fin dim → ℝ)) : Except FemErr ((ℕ → ℝ) × List (TmCell nq dim)) := do
  let params ← tmUpdatePhase F (fun n => x.1 n - s.1 n) x.1 s.2
  let params ← tmUpdateStress F x.2 params
  pure (x.1, params)

/-- Specification: the temperature at a quadrature point of a cell. -/
def quadAt (F : Fem nn nq nf nfq dim dim) (T : ℕ → ℝ) (c : Fin nn → ℕ) (q : Fin nq) : ℝ := ∑ n, T (c n) * F.shapeVals q n

theorem tmUpdatePhase_ok (F : Fem nn nq nf nfq dim dim) (dT T : ℕ → ℝ) (params : List (TmCell nq dim)) (h : params.length = F.cells.length) :
    ∃ params', tmUpdatePhase F dT T params = .ok params' ∧ params'.length = F.cells.length ∧ ∀ (k : ℕ) (c : Fin nn → ℕ) (p : TmCell nq dim), F.cells[k]? = some c → params[k]? = some p →
      params'[k]? = some ⟨p.sig, p.eps, quadAt F dT c, fun q => tmPhase (p.phase q) (quadAt F T c q)⟩ := by
  unfold tmUpdatePhase
  refine ⟨_, if_pos (by simp [tmQuad, h]), by simp [tmQuad, h], fun k c p hc hp => ?_⟩
  simp only [List.getElem?_map, List.zip, List.getElem?_zipWith, tmQuad, hc, hp]
  rfl

theorem tmUpdateStress_ok (F : Fem nn nq nf nfq dim dim) (sol : ℕ → Fin dim → ℝ) (params : List (TmCell nq dim)) (h : params.length = F.cells.length) :
    ∃ params', tmUpdateStress F sol params = .ok params' ∧ params'.length = F.cells.length ∧ ∀ (k : ℕ) (c : Fin nn → ℕ) (p : TmCell nq dim), F.cells[k]? = some c → params[k]? = some p →
      params'[k]? = some ⟨fun q => tmReturn (Matrix.of (F.gradAt sol c q)) (p.sig q) (p.eps q) (p.dT q) (p.phase q), fun q => strain (Matrix.of (F.gradAt sol c q)), p.dT, p.phase⟩ := by
  unfold tmUpdateStress
  refine ⟨_, if_pos (by simp [Fem.solToGrad, h]), by simp [Fem.solToGrad, h], fun k c p hc hp => ?_⟩
  simp only [List.getElem?_map, List.zip, List.getElem?_zipWith, Fem.solToGrad, hc, hp]
  rfl

/-- One mechanical step: how each row follows from the last. -/
theorem tmMech_ok (F : Fem nn nq nf nfq dim dim) (s : (ℕ → ℝ) × List (TmCell nq dim)) (x : (ℕ → ℝ) × (ℕ → Fin dim → ℝ)) (h : s.2.length = F.cells.length) :
    ∃ s', tmMech F s x = .ok s' ∧ s'.1 = x.1 ∧ s'.2.length = F.cells.length ∧ ∀ (k : ℕ) (c : Fin nn → ℕ) (p : TmCell nq dim), F.cells[k]? = some c → s.2[k]? = some p →
      s'.2[k]? = some ⟨fun q => tmReturn (Matrix.of (F.gradAt x.2 c q)) (p.sig q) (p.eps q) (quadAt F x.1 c q - quadAt F s.1 c q) (tmPhase (p.phase q) (quadAt F x.1 c q)),
        fun q => strain (Matrix.of (F.gradAt x.2 c q)), fun q => quadAt F x.1 c q - quadAt F s.1 c q, fun q => tmPhase (p.phase q) (quadAt F x.1 c q)⟩ := by
  obtain ⟨p1, h1, l1, r1⟩ := tmUpdatePhase_ok F (fun n => x.1 n - s.1 n) x.1 s.2 h
  obtain ⟨p2, h2, l2, r2⟩ := tmUpdateStress_ok F x.2 p1 l1
  refine ⟨(x.1, p2), ?_, rfl, l2, fun k c p hc hp => ?_⟩
  · unfold tmMech
    rw [h1]
    dsimp only [bind, Except.bind, pure, Except.pure]
    rw [h2]
  · have := r2 k c _ hc (r1 k c p hc hp)
    have e : quadAt F (fun n => x.1 n - s.1 n) c = fun q => quadAt F x.1 c q - quadAt F s.1 c q := by
      funext q
      simp only [quadAt, sub_mul, sum_sub_distrib]
    rw [this, e]

/-- **C109 (every history).** Any sequence of temperatures and displacements goes through without an exception. Afterwards at every quadrature point: the phase is that of the temperatures of the sequence there; the stress is symmetric
and within the yield surface; the stored strain is that of the last displacement. -/
theorem C109_history (hdim : 0 < dim) (F : Fem nn nq nf nfq dim dim) (xs : List ((ℕ → ℝ) × (ℕ → Fin dim → ℝ))) :
    ∃ s, xs.foldlM (tmMech F) (fun _ => 300, tmInit F) = .ok s ∧ s.2.length = F.cells.length ∧ ∀ (k : ℕ) (c : Fin nn → ℕ), F.cells[k]? = some c → ∃ p, s.2[k]? = some p ∧ ∀ q,
      p.phase q = (xs.map fun x => quadAt F x.1 c q).foldl tmPhase POWDER ∧ mises (p.sig q) ≤ 250e6 ∧ (p.sig q)ᵀ = p.sig q ∧
      p.eps q = xs.getLast?.elim 0 fun x => strain (Matrix.of (F.gradAt x.2 c q)) := by
  induction xs using List.reverseRecOn with
  | nil =>
    refine ⟨_, rfl, by simp [tmInit], fun k c hc => ⟨_, by rw [tmInit, List.getElem?_map, hc]; rfl, fun q => ⟨rfl, ?_, by simp, rfl⟩⟩⟩
    have : mises (0 : Matrix (Fin dim) (Fin dim) ℝ) = 0 := by simp [mises, ddot, dev]
    show mises (0 : Matrix (Fin dim) (Fin dim) ℝ) ≤ 250e6
    rw [this]
    norm_num
  | append_singleton xs x ih =>
    obtain ⟨s, hs, hl, hr⟩ := ih
    obtain ⟨s', h1, -, h2, h3⟩ := tmMech_ok F s x hl
    refine ⟨s', ?_, h2, fun k c hc => ?_⟩
    · rw [List.foldlM_append, hs]
      show tmMech F s x >>= pure = _
      rw [h1]
      rfl
    · obtain ⟨p, hp, hq⟩ := hr k c hc
      refine ⟨_, h3 k c p hc hp, fun q => ?_⟩
      obtain ⟨q1, q2, q3, q4⟩ := hq q
      have hsymE : (p.eps q)ᵀ = p.eps q := by
        rw [q4]
        cases xs.getLast? with
        | none => simp
        | some x => exact strain_symm _
      refine ⟨?_, ?_, ?_, ?_⟩
      · rw [List.map_append, List.foldl_append, ← q1]
        rfl
      · obtain ⟨dp, h⟩ := (C109_response hdim (Matrix.of (F.gradAt x.2 c q)) (p.sig q) (p.eps q) (quadAt F x.1 c q - quadAt F s.1 c q) (tmPhase (p.phase q) (quadAt F x.1 c q))).1
        exact h.yield
      · show (tmReturn _ _ _ _ _)ᵀ = tmReturn _ _ _ _ _
        rw [(tmReturn_eq _ _ _ _ _).1]
        refine radial_transpose _ ?_
        rw [Matrix.transpose_add, isoLaw_transpose, elasticInc, Matrix.transpose_sub, Matrix.transpose_sub, strain_symm, hsymE, Matrix.transpose_smul, Matrix.transpose_one, q3]
      · simp

/-- **C109 (pressure).** The mean stress is elastic: its change is `3 K` times the change of the volume strain less the thermal one, plastic flow or not. -/
theorem C109_pressure (hdim : 0 < dim) (g so eo : Matrix (Fin dim) (Fin dim) ℝ) (dT : ℝ) (phase : ℕ) :
    (tmReturn g so eo dT phase).trace = so.trace + (dim * lameOf phase + 2 * shearOf phase) * (g.trace - eo.trace - dim * (expansionOf phase * dT)) := by
  rw [(tmReturn_eq g so eo dT phase).1, (radial_step hdim 250e6 (by norm_num) _).2.2.1, Matrix.trace_add, isoLaw_trace, elasticInc, Matrix.trace_sub, Matrix.trace_sub, Matrix.trace_smul, Matrix.trace_one,
    Fintype.card_fin, smul_eq_mul]
  have : (strain g).trace = g.trace := by
    simp only [Matrix.trace, Matrix.diag_apply, strain_apply]
    exact sum_congr rfl fun i _ => by ring
  rw [this]
  ring

/-- **C109 (the stress of a step is unique).** After any history, and whatever the new temperature: two displacements with the same prescribed values and the same residual at the free degrees of freedom give the same stress everywhere. -/
theorem C109_stress (hdim : 0 < dim) (F : Fem nn nq nf nfq dim dim) (hmesh : ∀ c ∈ F.cells, ∀ a, c a < F.numTotal) (hvol : ∀ c ∈ F.cells, ∀ q, 0 < F.JxW c q) (hcauchy : F.cauchy = none)
    (xs : List ((ℕ → ℝ) × (ℕ → Fin dim → ℝ))) (s : (ℕ → ℝ) × List (TmCell nq dim)) (hs : xs.foldlM (tmMech F) (fun _ => 300, tmInit F) = .ok s) (T : ℕ → ℝ) (params : List (TmCell nq dim))
    (hp : tmUpdatePhase F (fun n => T n - s.1 n) T s.2 = .ok params) (u v Ru Rv : ℕ → Fin dim → ℝ) (hu : (tmPlast F params).computeResidual u = .ok Ru)
    (hv : (tmPlast F params).computeResidual v = .ok Rv) (huv : ∀ n < F.numTotal, ∀ i, u n i = v n i ∨ Ru n i = Rv n i) (su sv : List (TmCell nq dim))
    (hsu : tmUpdateStress F u params = .ok su) (hsv : tmUpdateStress F v params = .ok sv) : su.map TmCell.sig = sv.map TmCell.sig := by
  obtain ⟨s', h1, hl, hrow⟩ := C109_history hdim F xs
  rw [hs] at h1
  obtain rfl : s = s' := by injection h1
  obtain ⟨params', h2, hlp, hrp⟩ := tmUpdatePhase_ok F (fun n => T n - s.1 n) T s.2 hl
  rw [hp] at h2
  obtain rfl : params = params' := by injection h2
  have hsym : ∀ (k : ℕ) p, params[k]? = some p → ∀ q, (p.sig q)ᵀ = p.sig q ∧ (p.eps q)ᵀ = p.eps q := by
    intro k p hk q
    obtain ⟨hkl, -⟩ := List.getElem?_eq_some_iff.mp hk
    have hc : F.cells[k]? = some F.cells[k] := List.getElem?_eq_getElem (by omega)
    obtain ⟨p0, hp0, hq0⟩ := hrow k _ hc
    have := hrp k _ p0 hc hp0
    rw [hk] at this
    rw [Option.some.inj this]
    refine ⟨(hq0 q).2.2.1, ?_⟩
    show (p0.eps q)ᵀ = p0.eps q
    rw [(hq0 q).2.2.2]
    cases xs.getLast? with
    | none => simp
    | some x => exact strain_symm _
  have hform : ∀ (p : TmCell nq dim) q (A : Fin dim → Fin dim → ℝ), tmReturn (Matrix.of A) (p.sig q) (p.eps q) (p.dT q) (p.phase q) =
      radial 250e6 (isoLaw (lameOf (p.phase q)) (shearOf (p.phase q)) (strain (Matrix.of A) - (p.eps q + (expansionOf (p.phase q) * p.dT q) • 1)) + p.sig q) := fun p q A => by
    rw [(tmReturn_eq _ _ _ _ _).1, elasticInc, sub_sub]
  have hmono : ∀ (k : ℕ) p, params[k]? = some p → ∀ q (A B : Fin dim → Fin dim → ℝ),
      0 ≤ ddot (tmReturn (Matrix.of A) (p.sig q) (p.eps q) (p.dT q) (p.phase q) - tmReturn (Matrix.of B) (p.sig q) (p.eps q) (p.dT q) (p.phase q)) (Matrix.of A - Matrix.of B) ∧
      (ddot (tmReturn (Matrix.of A) (p.sig q) (p.eps q) (p.dT q) (p.phase q) - tmReturn (Matrix.of B) (p.sig q) (p.eps q) (p.dT q) (p.phase q)) (Matrix.of A - Matrix.of B) = 0 →
        tmReturn (Matrix.of A) (p.sig q) (p.eps q) (p.dT q) (p.phase q) = tmReturn (Matrix.of B) (p.sig q) (p.eps q) (p.dT q) (p.phase q)) := by
    intro k p hk q A B
    rw [hform, hform]
    exact radial_mono hdim _ _ 250e6 (shearOf_pos _) (bulkOf_pos _) (by norm_num) _ _ (hsym k p hk q).1
      (by rw [Matrix.transpose_add, (hsym k p hk q).2, Matrix.transpose_smul, Matrix.transpose_one]) (Matrix.of A) (Matrix.of B)
  have key : ∀ k q (A B : Fin dim → Fin dim → ℝ), ∑ i, ∑ d, ((tmPlast F params).stress k q A i d - (tmPlast F params).stress k q B i d) * (A i d - B i d) =
      (params[k]?).elim 0 fun p => ddot (tmReturn (Matrix.of A) (p.sig q) (p.eps q) (p.dT q) (p.phase q) - tmReturn (Matrix.of B) (p.sig q) (p.eps q) (p.dT q) (p.phase q)) (Matrix.of A - Matrix.of B) := by
    intro k q A B
    have e : ∀ A, (tmPlast F params).stress k q A = (params[k]?).elim 0 fun p => tmReturn (Matrix.of A) (p.sig q) (p.eps q) (p.dT q) (p.phase q) := fun _ => rfl
    rw [e, e]
    cases params[k]? with
    | none => simp
    | some p => rfl
  have hF : (tmPlast F params).Monotone := by
    refine ⟨hmesh, hvol, fun k q A B => ?_, fun k q a b => ?_, fun lv hlv => ?_⟩
    · rw [key]
      cases hk : params[k]? with
      | none => simp
      | some p => exact (hmono k p hk q A B).1
    · simp [Fem.massAt, tmPlast]
    · have : (tmPlast F params).cauchy = none := hcauchy
      simp [this, Fem.pairs] at hlv
  have hz := energy_zero (tmPlast F params) hF u v Ru Rv hu hv huv
  obtain ⟨su', e1, l1, r1⟩ := tmUpdateStress_ok F u params hlp
  obtain ⟨sv', e2, l2, r2⟩ := tmUpdateStress_ok F v params hlp
  rw [hsu] at e1
  rw [hsv] at e2
  obtain rfl : su = su' := by injection e1
  obtain rfl : sv = sv' := by injection e2
  refine List.ext_getElem? fun k => ?_
  rw [List.getElem?_map, List.getElem?_map]
  cases hk : F.cells[k]? with
  | none =>
    have hlen := List.getElem?_eq_none_iff.mp hk
    rw [List.getElem?_eq_none (by omega), List.getElem?_eq_none (by omega)]
  | some c =>
    obtain ⟨hkl, -⟩ := List.getElem?_eq_some_iff.mp hk
    have hpk : params[k]? = some params[k] := List.getElem?_eq_getElem (by omega)
    rw [r1 k c _ hk hpk, r2 k c _ hk hpk]
    simp only [Option.map_some]
    congr 1
    funext q
    have h5 := hz k c hk q
    rw [key, hpk] at h5
    exact (hmono k _ hpk q _ _).2 h5

/-! ## Examples -/

/-- Powder is heated to 2000 K, cools to 1700 K and to 300 K: it ends solid, with a thermal strain of `-1400e-5`; the liquidus would give `-1323e-5`. -/
example : ([2000, 1700, 300] : List ℝ).foldl tmPhase POWDER = SOLID ∧ thermalStrain POWDER 300 [2000, 1700, 300] = -1400e-5 := by
  have h1 : tmPhase POWDER 2000 = LIQUID := by rw [tmPhase_eq, if_pos ⟨rfl, by norm_num [tmTl]⟩]
  have h2 : tmPhase LIQUID 1700 = LIQUID := by rw [tmPhase_eq, if_neg (by decide +revert), if_neg (by norm_num [tmTl])]
  have h3 : tmPhase LIQUID 300 = SOLID := by rw [tmPhase_eq, if_neg (by decide +revert), if_pos ⟨rfl, by norm_num [tmTl]⟩]
  refine ⟨by simp only [List.foldl_cons, List.foldl_nil, h1, h2, h3], ?_⟩
  simp only [thermalStrain, h1, h2, h3, expansionOf]
  rw [if_neg (by decide), if_pos trivial]
  norm_num

/-- A melt between two mechanical steps is missed: the updates see 1000 K and 300 K only. -/
example : ([1000, 300] : List ℝ).foldl tmPhase POWDER = POWDER := (C109_phase _).2.2.mpr (by rintro ⟨t, ht, h⟩; simp at ht; rcases ht with rfl | rfl <;> norm_num [tmTl] at h)

/-- Clamped solid, heated by 100 K: a pressure of 175 MPa. -/
example (g : Matrix (Fin 3) (Fin 3) ℝ) (hg : strain g = 0) : tmReturn g 0 0 100 SOLID = (-175e6 : ℝ) • 1 := by
  rw [(C109_thermal 0 0 (by norm_num [mises, ddot, dev]) 100).2.1 g hg, zero_sub, ← neg_smul]
  congr 1
  norm_num

end Verif.Fem
