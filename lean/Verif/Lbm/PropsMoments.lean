import Verif.Lbm.Lemmas
import Mathlib.Algebra.Field.Rat
import Mathlib.Algebra.Order.Ring.Rat

/-!
# Properties C38, C39, C40, C45: lattice moments, equilibria, collisions, temperature law
-/
namespace Verif.Lbm
open Finset

section Tables

/-- Kronecker delta. -/
def kron {K : Type*} [Zero K] [One K] (a b : Fin 3) : K := if a = b then 1 else 0

/-- Weights in units of 1/36 (integer table used only to evaluate the finite moment sums). -/
def w36 : Fin 19 → ℤ := ![12, 2, 2, 2, 2, 2, 2, 1, 1, 1, 1, 1, 1, 1, 1, 1, 1, 1, 1]

theorem weights_eq {K : Type*} [Field K] [CharZero K] (q : Fin 19) :
    (weights q : K) = (w36 q : K) / 36 := by
  have : ∀ i j : Fin 19, i = j → (weights i : K) = (weights j : K) := fun i j h => h ▸ rfl
  fin_cases q
  · show (1/3 : K) = ((12 : ℤ) : K) / 36; norm_num
  all_goals first
    | (show (1/18 : K) = ((2 : ℤ) : K) / 36; norm_num)
    | (show (1/36 : K) = ((1 : ℤ) : K) / 36; norm_num)

/-- **C38a.** `rev` is the fixed-point-free (except rest) involution that reverses velocities and keeps weights. -/
theorem C38_rev (q : Fin 19) :
    rev (rev q) = q ∧ (∀ a, vels a (rev q) = - vels a q) ∧ (rev q = q ↔ q = 0) ∧
    (weights (rev q) : ℚ) = weights q ∧ 0 < (weights q : ℚ) := by
  refine ⟨?_, ?_, ?_, ?_, ?_⟩
  · revert q; decide
  · revert q; decide
  · revert q; decide
  · rw [weights_eq, weights_eq]
    have : ∀ q, w36 (rev q) = w36 q := by decide
    rw [this]
  · rw [weights_eq]
    have : ∀ q, 0 < w36 q := by decide
    have := this q
    positivity

/-- **C38b.** The 19 velocities are pairwise distinct and are exactly the vectors with entries in {-1,0,1} and at most two
non-zero entries. -/
theorem C38_velocity_set :
    (∀ q r : Fin 19, (∀ a, vels a q = vels a r) → q = r) ∧
    (∀ x y z : ℤ, (∃ q, vels 0 q = x ∧ vels 1 q = y ∧ vels 2 q = z) ↔
      (x ∈ ({-1,0,1} : Finset ℤ) ∧ y ∈ ({-1,0,1} : Finset ℤ) ∧ z ∈ ({-1,0,1} : Finset ℤ) ∧
        x * y * z = 0)) := by
  constructor
  · decide
  · intro x y z
    constructor
    · rintro ⟨q, rfl, rfl, rfl⟩
      revert q; decide
    · rintro ⟨hx, hy, hz, h⟩
      have : ∀ x ∈ ({-1,0,1} : Finset ℤ), ∀ y ∈ ({-1,0,1} : Finset ℤ), ∀ z ∈ ({-1,0,1} : Finset ℤ),
        x * y * z = 0 → ∃ q, vels 0 q = x ∧ vels 1 q = y ∧ vels 2 q = z := by decide
      exact this x hx y hy z hz h

/-- **C38c.** All moments up to fourth order that the lattice Boltzmann method relies on. -/
theorem C38_moments {K : Type*} [Field K] [CharZero K] :
    (∑ q, (weights q : K) = 1) ∧
    (∀ a, ∑ q, (weights q : K) * (vels a q : K) = 0) ∧
    (∀ a b, ∑ q, (weights q : K) * (vels a q : K) * (vels b q : K) = cs_sq * kron a b) ∧
    (∀ a b c, ∑ q, (weights q : K) * (vels a q : K) * (vels b q : K) * (vels c q : K) = 0) ∧
    (∀ a b c d, ∑ q, (weights q : K) * (vels a q : K) * (vels b q : K) * (vels c q : K)
        * (vels d q : K)
      = cs_sq ^ 2 * (kron a b * kron c d + kron a c * kron b d + kron a d * kron b c)) := by
  have cst : ∀ (g : Fin 19 → ℤ) (m : ℤ), ∑ q, w36 q * g q = m →
      ∑ q, (weights q : K) * (g q : K) = (m : K) / 36 := by
    intro g m h
    rw [← h]
    push_cast
    rw [Finset.sum_div]
    exact Finset.sum_congr rfl fun q _ => by rw [weights_eq]; ring
  have kc : ∀ a b, (kron a b : K) = ((kron a b : ℤ) : K) := by
    intro a b; unfold kron; split_ifs <;> simp
  refine ⟨?_, ?_, ?_, ?_, ?_⟩
  · have := cst (fun _ => 1) 36 (by decide)
    simpa using this
  · intro a
    have := cst (fun q => vels a q) 0 (by revert a; decide)
    simpa using this
  · intro a b
    have := cst (fun q => vels a q * vels b q) (12 * kron a b) (by revert a b; decide)
    simp only [mul_assoc]
    push_cast at this
    rw [this, kc, cs_sq]; ring
  · intro a b c
    have := cst (fun q => vels a q * (vels b q * vels c q)) 0 (by revert a b c; decide)
    simp only [mul_assoc]
    push_cast at this
    rw [this]; simp
  · intro a b c d
    have := cst (fun q => vels a q * (vels b q * (vels c q * vels d q)))
      (4 * (kron a b * kron c d + kron a c * kron b d + kron a d * kron b c))
      (by revert a b c d; decide)
    simp only [mul_assoc]
    push_cast at this
    rw [this]; simp only [kc, cs_sq]; ring

end Tables

section Equilibria
variable {K : Type*} [Field K] [LinearOrder K] [IsStrictOrderedRing K]

omit [LinearOrder K] [IsStrictOrderedRing K] in
theorem velDot_eq (q : Fin 19) (u : Fin 3 → K) :
    velDot q u = (vels 0 q : K) * u 0 + (vels 1 q : K) * u 1 + (vels 2 q : K) * u 2 := by
  simp [velDot, Fin.sum_univ_three]

/-- **C39a.** `f_eq` carries exactly density `rho`, momentum `rho*u` and momentum flux
`rho*(cs² I + u uᵀ)`, for every density and velocity. -/
theorem C39_equilibrium_f (rho : K) (u : Fin 3 → K) :
    (∑ q, equilibrium_f q rho u = rho) ∧
    (∀ a, ∑ q, equilibrium_f q rho u * (vels a q : K) = rho * u a) ∧
    (∀ a b, ∑ q, equilibrium_f q rho u * (vels a q : K) * (vels b q : K)
      = rho * (cs_sq * kron a b + u a * u b)) := by
  have key : ∀ G : K → K → K → K,
      ∑ q, equilibrium_f q rho u * G (vels 0 q : ℤ) (vels 1 q : ℤ) (vels 2 q : ℤ)
      = S19 (fun x y z => rho * (1 + (x * u 0 + y * u 1 + z * u 2) / cs_sq
        + (x * u 0 + y * u 1 + z * u 2) ^ 2 / (2 * cs_sq ^ 2)
        - (u 0 * u 0 + u 1 * u 1 + u 2 * u 2) / (2 * cs_sq)) * G x y z) := by
    intro G
    refine Eq.trans (Finset.sum_congr rfl fun q _ => ?_) (sum19 _)
    simp only [equilibrium_f, velDot_eq, Fin.sum_univ_three]
    ring
  refine ⟨?_, ?_, ?_⟩
  · have := key (fun _ _ _ => 1)
    simp only [mul_one] at this
    rw [this]; simp only [S19, cs_sq]; ring
  · intro a
    fin_cases a
    · refine (key (fun x _ _ => x)).trans ?_; simp only [S19, cs_sq]; show _ = _ * u 0; ring
    · refine (key (fun _ y _ => y)).trans ?_; simp only [S19, cs_sq]; show _ = _ * u 1; ring
    · refine (key (fun _ _ z => z)).trans ?_; simp only [S19, cs_sq]; show _ = _ * u 2; ring
  · intro a b
    simp only [mul_assoc]
    have hk : ∀ a b : Fin 3, (kron a b : K) = if a = b then 1 else 0 := fun _ _ => rfl
    fin_cases a <;> fin_cases b
    · refine (key (fun x _ _ => x * x)).trans ?_; simp [S19, cs_sq, hk]; ring
    · refine (key (fun x y _ => x * y)).trans ?_; simp [S19, cs_sq, hk]; ring
    · refine (key (fun x _ z => x * z)).trans ?_; simp [S19, cs_sq, hk]; ring
    · refine (key (fun x y _ => y * x)).trans ?_; simp [S19, cs_sq, hk]; ring
    · refine (key (fun _ y _ => y * y)).trans ?_; simp [S19, cs_sq, hk]; ring
    · refine (key (fun _ y z => y * z)).trans ?_; simp [S19, cs_sq, hk]; ring
    · refine (key (fun x _ z => z * x)).trans ?_; simp [S19, cs_sq, hk]; ring
    · refine (key (fun _ y z => z * y)).trans ?_; simp [S19, cs_sq, hk]; ring
    · refine (key (fun _ _ z => z * z)).trans ?_; simp [S19, cs_sq, hk]; ring

example : ∑ q, equilibrium_f q (2:ℚ) ![1/10, 0, -1/5] = 2 := (C39_equilibrium_f _ _).1
example : equilibrium_f 1 (2:ℚ) ![1/10, 0, -1/5] = 127/900 := by
  simp only [equilibrium_f, velDot, Fin.sum_univ_three, weights_eq, cs_sq]
  show (((2:ℤ):ℚ)/36 * 2 * (1 + (((1:ℤ):ℚ) * (1/10) + ((0:ℤ):ℚ) * 0 + ((0:ℤ):ℚ) * (-1/5)) / (1/3)
    + (((1:ℤ):ℚ) * (1/10) + ((0:ℤ):ℚ) * 0 + ((0:ℤ):ℚ) * (-1/5))^2 / (2*(1/3)^2)
    - ((1/10) * (1/10) + 0 * 0 + (-1/5) * (-1/5)) / (2 * (1/3)))) = 127/900
  norm_num

theorem eqh_zero_eq (P : Params K) (e T : K) (u : Fin 3 → K) (q : Fin 19) :
    equilibrium_h P q e T u = (if q = 0 then e - P.heat_capacity * T else 0)
      + P.heat_capacity * T * equilibrium_f q 1 u := by
  unfold equilibrium_h equilibrium_f
  have hz : velDot 0 u = 0 := by
    have hv : ∀ a, vels a 0 = 0 := by decide
    rw [velDot_eq]; simp [hv]
  by_cases hq : q = 0
  · subst hq; simp only [if_true, hz]; ring
  · simp only [hq, if_false]; ring

/-- **C39b.** `h_eq` carries exactly the prescribed enthalpy (any enthalpy, temperature, velocity) and the
first moment is the advected sensible heat. -/
theorem C39_equilibrium_h (P : Params K) (e T : K) (u : Fin 3 → K) :
    (∑ q, equilibrium_h P q e T u = e) ∧
    (∀ a, ∑ q, equilibrium_h P q e T u * (vels a q : K) = P.heat_capacity * T * u a) := by
  obtain ⟨h0, h1, _⟩ := C39_equilibrium_f 1 u
  constructor
  · simp only [eqh_zero_eq, Finset.sum_add_distrib, ← Finset.mul_sum, h0]
    rw [Finset.sum_ite_eq' Finset.univ (0 : Fin 19)]
    simp
  · intro a
    have hv : (vels a 0 : K) = 0 := by
      have : ∀ a, vels a 0 = 0 := by decide
      simp [this a]
    simp only [eqh_zero_eq, add_mul, Finset.sum_add_distrib, ite_mul, zero_mul, mul_assoc,
      ← Finset.mul_sum, h1]
    rw [Finset.sum_ite_eq' Finset.univ (0 : Fin 19)]
    simp [hv]

/-- Zeroth and first moments of the Guo forcing term. -/
theorem forcing_moments (P : Params K) (u F : Fin 3 → K) :
    (∑ q, f_forcing P q u F = 0) ∧
    (∀ a, ∑ q, f_forcing P q u F * (vels a q : K) = (1 - 1 / (2 * P.tau_viscosity_nu)) * F a) := by
  have key : ∀ G : K → K → K → K,
      ∑ q, f_forcing P q u F * G (vels 0 q : ℤ) (vels 1 q : ℤ) (vels 2 q : ℤ)
      = S19 (fun x y z => (1 - 1 / (2 * P.tau_viscosity_nu)) *
        (((x - u 0) / cs_sq + (x * u 0 + y * u 1 + z * u 2) / cs_sq ^ 2 * x) * F 0
        + ((y - u 1) / cs_sq + (x * u 0 + y * u 1 + z * u 2) / cs_sq ^ 2 * y) * F 1
        + ((z - u 2) / cs_sq + (x * u 0 + y * u 1 + z * u 2) / cs_sq ^ 2 * z) * F 2) * G x y z) := by
    intro G
    refine Eq.trans (Finset.sum_congr rfl fun q _ => ?_) (sum19 _)
    simp only [f_forcing, velDot_eq, Fin.sum_univ_three]
    ring
  generalize (1 - 1 / (2 * P.tau_viscosity_nu)) = c at *
  constructor
  · have := key (fun _ _ _ => 1)
    simp only [mul_one] at this
    rw [this]; simp only [S19, cs_sq]; ring
  · intro a
    fin_cases a
    · refine (key (fun x _ _ => x)).trans ?_; simp only [S19, cs_sq]; show _ = _ * F 0; ring
    · refine (key (fun _ y _ => y)).trans ?_; simp only [S19, cs_sq]; show _ = _ * F 1; ring
    · refine (key (fun _ _ z => z)).trans ?_; simp only [S19, cs_sq]; show _ = _ * F 2; ring

/-- **C40a.** Collision never changes the density of a fluid cell: frozen or molten, any force, any
velocity; gas and wall cells become empty. -/
theorem C40_collide_f_mass (P : Params K) (ph : ℕ) (f : Fin 19 → K) (T : K) (u F : Fin 3 → K) :
    ∑ q, collide_f P ph f (∑ q, f q) T u F q = if ph = GAS ∨ ph = WALL then 0 else ∑ q, f q := by
  unfold collide_f
  by_cases hp : ph = GAS ∨ ph = WALL
  · simp [hp]
  · simp only [hp, if_false]
    by_cases hT : T < P.T_solidus
    · simp only [hT, if_true, ← Finset.sum_mul, C38_moments.1, one_mul]
    · simp only [hT, if_false, Finset.sum_add_distrib, ← Finset.mul_sum, ← Finset.sum_mul,
        Finset.sum_sub_distrib, (C39_equilibrium_f _ u).1, (forcing_moments P u F).1]
      ring

/-- **C40b.** In a molten fluid cell (non-zero density, code's own velocity) collision adds exactly `dt*force`
to the momentum. -/
theorem C40_collide_f_momentum (P : Params K) (ph : ℕ) (f : Fin 19 → K) (T : K) (F : Fin 3 → K)
    (hp : ¬ (ph = GAS ∨ ph = WALL)) (hT : P.T_solidus ≤ T) (hrho : ∑ q, f q ≠ 0)
    (htau : P.tau_viscosity_nu ≠ 0) (a : Fin 3) :
    ∑ q, collide_f P ph f (∑ q, f q) T (compute_u P f (∑ q, f q) T F) F q * (vels a q : K)
      = ∑ q, f q * (vels a q : K) + dt * F a := by
  have hT' : ¬ T < P.T_solidus := not_lt.mpr hT
  unfold collide_f
  simp only [hp, if_false, hT']
  have hu : (∑ q, f q) * compute_u P f (∑ q, f q) T F a
      = ∑ q, f q * (vels a q : K) + 1 / 2 * F a := by
    simp only [compute_u, hT', if_false, hrho, dt, mHalf]
    field_simp
  generalize compute_u P f (∑ q, f q) T F = u at *
  have h1 := (C39_equilibrium_f (∑ q, f q) u).2.1 a
  have h2 := (forcing_moments P u F).2 a
  have : ∀ q, (1 / P.tau_viscosity_nu * (equilibrium_f q (∑ q, f q) u - f q) + f q
      + f_forcing P q u F * dt) * (vels a q : K)
      = 1 / P.tau_viscosity_nu * (equilibrium_f q (∑ q, f q) u * (vels a q : K))
        - 1 / P.tau_viscosity_nu * (f q * (vels a q : K)) + f q * (vels a q : K)
        + f_forcing P q u F * (vels a q : K) := by
    intro q; simp only [dt]; ring
  rw [Finset.sum_congr rfl fun q _ => this q]
  simp only [Finset.sum_add_distrib, Finset.sum_sub_distrib, ← Finset.mul_sum, h1, h2, hu, dt]
  field_simp
  ring

/-- **C40c.** A frozen cell is brought to rest: zero momentum after collision. -/
theorem C40_frozen_at_rest (P : Params K) (ph : ℕ) (f : Fin 19 → K) (T : K) (u F : Fin 3 → K)
    (hT : T < P.T_solidus) (a : Fin 3) :
    ∑ q, collide_f P ph f (∑ q, f q) T u F q * (vels a q : K) = 0 := by
  unfold collide_f
  by_cases hp : ph = GAS ∨ ph = WALL
  · simp [hp]
  · simp only [hp, if_false, hT, if_true]
    have := (C38_moments (K := K)).2.1 a
    calc ∑ q, (weights q : K) * (∑ q, f q) * (vels a q : K)
        = (∑ q, f q) * ∑ q, (weights q : K) * (vels a q : K) := by
          rw [Finset.mul_sum]; exact Finset.sum_congr rfl fun q _ => by ring
      _ = 0 := by rw [this, mul_zero]

/-- **C40d.** Thermal collision changes the cell enthalpy by exactly `dt*power/rho`; gas and wall cells become zero. -/
theorem C40_collide_h (P : Params K) (ph : ℕ) (h : Fin 19 → K) (T rho : K) (u : Fin 3 → K) (src : K) :
    ∑ q, collide_h P ph h (∑ q, h q) T rho u src q
      = if ph = GAS ∨ ph = WALL then 0 else ∑ q, h q + dt * (src / rho) := by
  unfold collide_h
  by_cases hp : ph = GAS ∨ ph = WALL
  · simp [hp]
  · simp only [hp, if_false, Finset.sum_add_distrib, ← Finset.mul_sum, ← Finset.sum_mul,
      Finset.sum_sub_distrib, (C39_equilibrium_h P _ T u).1, h_forcing, C38_moments.1]
    ring

/-- Non-trivial instance of the hypotheses of `C40_collide_f_momentum`. -/
example : ∃ (P : Params ℚ) (f : Fin 19 → ℚ) (T : ℚ), ¬ (LIQUID = GAS ∨ LIQUID = WALL) ∧
    P.T_solidus ≤ T ∧ ∑ q, f q ≠ 0 ∧ P.tau_viscosity_nu ≠ 0 ∧
    ∑ q, f q * (vels 0 q : ℚ) ≠ 0 :=
  ⟨⟨3/5, 1, 1, 1, 2, 3, 2, 4⟩, fun q => if q = 1 then 2 else 1, 2, by decide, by norm_num, by
    simp [Fin.sum_univ_succ]; norm_num, by norm_num, by
    have h : ∑ q, (if q = 1 then 2 else 1) * vels 0 q = 1 := by decide
    have h' : ((∑ q, (if q = 1 then 2 else 1) * vels 0 q : ℤ) : ℚ) = 1 := by rw [h]; norm_num
    push_cast at h'
    rw [h']; norm_num⟩

end Equilibria

section Temperature
variable {K : Type*} [Field K] [LinearOrder K] [IsStrictOrderedRing K]

/-- **C45a.** With positive heat capacity, `enthalpy_s < enthalpy_l` and `T_solidus ≤ T_liquidus`, temperature is a
monotone function of enthalpy if and only if there is no downward jump at the solidus, i.e. `enthalpy_s ≤ c*T_solidus`. -/
theorem C45_monotone_iff (P : Params K) (hc : 0 < P.heat_capacity) (he : P.enthalpy_s < P.enthalpy_l)
    (hT : P.T_solidus ≤ P.T_liquidus) :
    Monotone (compute_T P) ↔ P.enthalpy_s ≤ P.heat_capacity * P.T_solidus := by
  have hd : 0 < P.enthalpy_l - P.enthalpy_s := sub_pos.mpr he
  constructor
  · intro hm
    by_contra hcon
    push Not at hcon
    -- choose an enthalpy strictly between `c*Ts` and `es`
    let e := (P.heat_capacity * P.T_solidus + P.enthalpy_s) / 2
    have h1 : e < P.enthalpy_s := by simp only [e]; linarith
    have h2 : P.heat_capacity * P.T_solidus < e := by simp only [e]; linarith
    have := hm h1.le
    simp only [compute_T, h1, if_true, lt_irrefl, if_false, he, sub_self, zero_div, zero_mul,
      add_zero] at this
    rw [div_le_iff₀ hc] at this
    nlinarith
  · intro hs x y hxy
    have slope : ∀ a b : K, a ≤ b → a / P.heat_capacity ≤ b / P.heat_capacity :=
      fun a b h => div_le_div_of_nonneg_right h hc.le
    have frac : ∀ e, P.enthalpy_s ≤ e → e ≤ P.enthalpy_l →
        0 ≤ (e - P.enthalpy_s) / (P.enthalpy_l - P.enthalpy_s) ∧
        (e - P.enthalpy_s) / (P.enthalpy_l - P.enthalpy_s) ≤ 1 := by
      intro e h1 h2
      exact ⟨div_nonneg (by linarith) hd.le, by rw [div_le_one hd]; linarith⟩
    have below : ∀ e, e < P.enthalpy_s → e / P.heat_capacity ≤ P.T_solidus := by
      intro e h; rw [div_le_iff₀ hc]; linarith
    unfold compute_T
    by_cases hx1 : x < P.enthalpy_s
    · by_cases hy1 : y < P.enthalpy_s
      · simp only [hx1, hy1, if_true]; exact slope _ _ hxy
      · push Not at hy1
        by_cases hy2 : y < P.enthalpy_l
        · simp only [hx1, if_true, not_lt.mpr hy1, if_false, hy2]
          have := (frac y hy1 hy2.le).1
          have := below x hx1
          nlinarith
        · simp only [hx1, if_true, not_lt.mpr hy1, if_false, hy2]
          push Not at hy2
          have := below x hx1
          have : 0 ≤ (y - P.enthalpy_l) / P.heat_capacity := div_nonneg (by linarith) hc.le
          linarith
    · push Not at hx1
      have hy1 : P.enthalpy_s ≤ y := hx1.trans hxy
      by_cases hx2 : x < P.enthalpy_l
      · by_cases hy2 : y < P.enthalpy_l
        · simp only [not_lt.mpr hx1, not_lt.mpr hy1, if_false, hx2, hy2, if_true]
          have : (x - P.enthalpy_s) / (P.enthalpy_l - P.enthalpy_s)
              ≤ (y - P.enthalpy_s) / (P.enthalpy_l - P.enthalpy_s) :=
            div_le_div_of_nonneg_right (by linarith) hd.le
          nlinarith
        · simp only [not_lt.mpr hx1, not_lt.mpr hy1, if_false, hx2, hy2, if_true]
          push Not at hy2
          have h3 := (frac x hx1 hx2.le).2
          have : 0 ≤ (y - P.enthalpy_l) / P.heat_capacity := div_nonneg (by linarith) hc.le
          nlinarith
      · push Not at hx2
        have hy2 : P.enthalpy_l ≤ y := hx2.trans hxy
        simp only [not_lt.mpr hx1, not_lt.mpr hy1, if_false, not_lt.mpr hx2, not_lt.mpr hy2]
        have := slope (x - P.enthalpy_l) (y - P.enthalpy_l) (by linarith)
        linarith

/-- **C45b.** With consistent parameters `enthalpy_s = c*T_solidus`: the solid test on temperature used by the solver
(`T < T_solidus`) is exactly the test on enthalpy, `T ≥ T_liquidus` is exactly `e ≥ enthalpy_l` (for `T_solidus < T_liquidus`),
and different enthalpies give different temperatures. -/
theorem C45_phase_test (P : Params K) (hc : 0 < P.heat_capacity) (he : P.enthalpy_s < P.enthalpy_l)
    (hT : P.T_solidus < P.T_liquidus) (hs : P.enthalpy_s = P.heat_capacity * P.T_solidus) :
    (∀ e, compute_T P e < P.T_solidus ↔ e < P.enthalpy_s) ∧
    (∀ e, P.T_liquidus ≤ compute_T P e ↔ P.enthalpy_l ≤ e) ∧
    StrictMono (compute_T P) := by
  have hd : 0 < P.enthalpy_l - P.enthalpy_s := sub_pos.mpr he
  have hd' : 0 < P.T_liquidus - P.T_solidus := sub_pos.mpr hT
  have strict : StrictMono (compute_T P) := by
    intro x y hxy
    have slope : ∀ a b : K, a < b → a / P.heat_capacity < b / P.heat_capacity :=
      fun a b h => div_lt_div_of_pos_right h hc
    have below : ∀ e, e < P.enthalpy_s → e / P.heat_capacity < P.T_solidus := by
      intro e h; rw [div_lt_iff₀ hc]; linarith
    have frac : ∀ e, P.enthalpy_s ≤ e → e < P.enthalpy_l →
        0 ≤ (e - P.enthalpy_s) / (P.enthalpy_l - P.enthalpy_s) ∧
        (e - P.enthalpy_s) / (P.enthalpy_l - P.enthalpy_s) < 1 := by
      intro e h1 h2
      exact ⟨div_nonneg (by linarith) hd.le, by rw [div_lt_one hd]; linarith⟩
    unfold compute_T
    by_cases hx1 : x < P.enthalpy_s
    · by_cases hy1 : y < P.enthalpy_s
      · simp only [hx1, hy1, if_true]; exact slope _ _ hxy
      · push Not at hy1
        by_cases hy2 : y < P.enthalpy_l
        · simp only [hx1, if_true, not_lt.mpr hy1, if_false, hy2]
          have := (frac y hy1 hy2).1
          have := below x hx1
          nlinarith
        · simp only [hx1, if_true, not_lt.mpr hy1, if_false, hy2]
          push Not at hy2
          have := below x hx1
          have : 0 ≤ (y - P.enthalpy_l) / P.heat_capacity := div_nonneg (by linarith) hc.le
          linarith
    · push Not at hx1
      have hy1 : P.enthalpy_s ≤ y := hx1.trans hxy.le
      by_cases hx2 : x < P.enthalpy_l
      · by_cases hy2 : y < P.enthalpy_l
        · simp only [not_lt.mpr hx1, not_lt.mpr hy1, if_false, hx2, hy2, if_true]
          have : (x - P.enthalpy_s) / (P.enthalpy_l - P.enthalpy_s)
              < (y - P.enthalpy_s) / (P.enthalpy_l - P.enthalpy_s) :=
            div_lt_div_of_pos_right (by linarith) hd
          nlinarith
        · simp only [not_lt.mpr hx1, not_lt.mpr hy1, if_false, hx2, hy2, if_true]
          push Not at hy2
          have h3 := (frac x hx1 hx2).2
          have : 0 ≤ (y - P.enthalpy_l) / P.heat_capacity := div_nonneg (by linarith) hc.le
          nlinarith
      · push Not at hx2
        have hy2 : P.enthalpy_l ≤ y := hx2.trans hxy.le
        simp only [not_lt.mpr hx1, not_lt.mpr hy1, if_false, not_lt.mpr hx2, not_lt.mpr hy2]
        have := slope (x - P.enthalpy_l) (y - P.enthalpy_l) (by linarith)
        linarith
  have hvs : compute_T P P.enthalpy_s = P.T_solidus := by simp [compute_T, he]
  have hvl : compute_T P P.enthalpy_l = P.T_liquidus := by simp [compute_T, he.not_gt]
  refine ⟨fun e => ?_, fun e => ?_, strict⟩
  · rw [← hvs]; exact strict.lt_iff_lt
  · rw [← hvl]; exact strict.le_iff_le

/-- The shipped parameter set (powder example: c=588.23, Ts=1563, Tl=1623, es=919403, el=1210397) meets the
hypotheses of C45a. -/
example : Monotone (compute_T (⟨1, 1, 1, 58823/100, 1563, 1623, 919403, 1210397⟩ : Params ℚ)) :=
  (C45_monotone_iff _ (by norm_num) (by norm_num) (by norm_num)).mpr (by norm_num)

end Temperature
end Verif.Lbm
