import Verif.Fem.DynRelaxProps

/-!
# Dynamic relaxation on linear problems: the program ends
-/

namespace Verif.DynRelax

variable {n : ℕ}

/-- The variables of the loop after `k` passes (dr.py 151-183). -/
noncomputable def stateAt (P : Prob n) (nKMat : ℕ) (u0 : V n) : ℕ → State n
  | 0 => start P u0
  | k + 1 => body P nKMat (stateAt P nKMat u0 k) (((stateAt P nKMat u0 k).qdot).getD fun _ => 0)

theorem loop_unroll (P : Prob n) (nKMat : ℕ) (u0 : V n) (tol : ℝ) (fuel k : ℕ) (hk : k ≤ fuel)
    (good : ∀ l, l < k → (stateAt P nKMat u0 l).error > tol ∧ (stateAt P nKMat u0 l).qdot ≠ none) :
    dynamicRelaxSolve P nKMat tol fuel u0 = loop P nKMat tol (fuel - k) (stateAt P nKMat u0 k) := by
  induction k with
  | zero => rfl
  | succ k ih =>
    rw [ih (by omega) fun l hl => good l (by omega)]
    obtain ⟨h1, h2⟩ := good k (by omega)
    obtain ⟨v, hv⟩ := Option.ne_none_iff_exists'.mp h2
    have e : fuel - k = (fuel - (k + 1)) + 1 := by omega
    rw [e]
    conv_lhs => unfold loop
    rw [if_pos h1, hv]
    show loop P nKMat tol (fuel - (k + 1)) _ = _
    congr 1
    show _ = body P nKMat _ _
    rw [hv]; rfl

theorem stateAt_inv (P : Prob n) (nKMat : ℕ) (u0 : V n) (k : ℕ) (good : ∀ l, l < k → (stateAt P nKMat u0 l).qdot ≠ none) : Inv P (stateAt P nKMat u0 k) := by
  induction k with
  | zero => exact start_inv P u0
  | succ k ih =>
    obtain ⟨v, hv⟩ := Option.ne_none_iff_exists'.mp (good k (by omega))
    show Inv P (body P nKMat _ _)
    rw [hv]
    exact body_inv P nKMat _ v (ih fun l hl => good l (by omega)) hv

theorem calC_bounds (t : ℝ) : ∃ c, calC (some t) cmin cmax = some c ∧ 1e-3 ≤ c ∧ c ≤ 3.9 := by
  refine ⟨_, rfl, ?_, ?_⟩ <;>
  · show _ ≤ _
    simp only [cmin, cmax]
    split_ifs <;> norm_num at * <;> linarith

variable {P : Prob n} {A : Fin (n + 1) → Fin (n + 1) → ℝ} {b : V n}

theorem IsLinear.csr (H : IsLinear P A b) (u : V n) : assembleCSR P u = writeRows P.bcs A := by unfold assembleCSR; rw [H.jac]

theorem IsLinear.mass_free (_ : IsLinear P A b) (i : Fin (n + 1)) (hi : ¬ Fixed P i) : massOf (writeRows P.bcs A) i = 1.21 / 4 * ∑ j, |A i j| := by
  unfold massOf; rw [writeRows_not P.bcs A i hi]; unfold h_tilde; norm_num

theorem IsLinear.mass_pos (H : IsLinear P A b) (i : Fin (n + 1)) : 0 < massOf (writeRows P.bcs A) i := by
  unfold massOf
  refine mul_pos (by unfold h_tilde; norm_num) ?_
  by_cases hi : Fixed P i
  · rw [writeRows_mem P.bcs A i hi]
    refine Finset.sum_pos' (fun j _ => abs_nonneg _) ⟨i, Finset.mem_univ i, ?_⟩
    rw [Pi.single_eq_same]; norm_num
  · rw [writeRows_not P.bcs A i hi]
    obtain ⟨j, hj⟩ := H.row i hi
    exact Finset.sum_pos' (fun j _ => abs_nonneg _) ⟨j, Finset.mem_univ j, abs_pos.mpr hj⟩

theorem IsLinear.start_qdot (H : IsLinear P A b) (u0 : V n) :
    (start P u0).qdot = some fun i => - h / 2 * (assembleVec P (writeBcs P.bcs u0) i / massOf (writeRows P.bcs A) i) := by
  show (divV _ (massOf (assembleCSR P _))).map _ = _
  rw [H.csr, divV_pos _ _ fun i => (H.mass_pos i).ne']
  rfl

theorem IsLinear.stateAt_mass (H : IsLinear P A b) (nKMat : ℕ) (u0 : V n) (k : ℕ) : (stateAt P nKMat u0 k).M = massOf (writeRows P.bcs A) := by
  induction k with
  | zero => show massOf (assembleCSR P _) = _; rw [H.csr]
  | succ k ih =>
    show (if _ then massOf (assembleCSR P _) else (stateAt P nKMat u0 k).M) = _
    rw [H.csr, ih, ite_self]

theorem IsLinear.body_move (H : IsLinear P A b) (nKMat : ℕ) (s : State n) (hM : s.M = massOf (writeRows P.bcs A)) (v : V n) (hv : v ≠ fun _ => 0) :
    ∃ (c : ℝ) (w : V n), (body P nKMat s v).qdot = some w ∧ 1e-3 ≤ c ∧ c ≤ 3.9 ∧
      ∀ i, (2 + c) * w i = (2 - c) * v i - 2 * ((body P nKMat s v).R i / massOf (writeRows P.bcs A) i) := by
  have hden : (∑ i, v i * s.M i * v i) ≠ 0 := by
    obtain ⟨i, hi⟩ := Function.ne_iff.mp hv
    refine (Finset.sum_pos' (fun j _ => ?_) ⟨i, Finset.mem_univ i, ?_⟩).ne'
    · rw [hM, mul_right_comm]; exact mul_nonneg (mul_self_nonneg _) (H.mass_pos j).le
    · rw [hM, mul_right_comm]
      exact mul_pos (mul_self_pos.mpr hi) (H.mass_pos i)
  obtain ⟨c, hc, hl, hh⟩ := calC_bounds ((∑ i, (assembleVec P (fun i => s.q i + h * v i) i - s.R i) / h * v i) / ∑ i, v i * s.M i * v i)
  have hq : (body P nKMat s v).qdot = some fun i => (2 - c * h) / (2 + c * h) * v i - 2 * h / (2 + c * h) * (assembleVec P (fun i => s.q i + h * v i) i / massOf (writeRows P.bcs A) i) := by
    show (calC (if (∑ i, v i * s.M i * v i) = 0 then none else some _) cmin cmax).bind _ = _
    rw [if_neg hden, hc]
    show (divV _ (if _ then massOf (assembleCSR P _) else s.M)).map _ = _
    rw [H.csr, hM, ite_self, divV_pos _ _ fun i => (H.mass_pos i).ne']
    rfl
  refine ⟨c, _, hq, hl, hh, fun i => ?_⟩
  show (2 + c) * ((2 - c * h) / (2 + c * h) * v i - 2 * h / (2 + c * h) * _) = (2 - c) * v i - 2 * (assembleVec P (fun i => s.q i + h * v i) i / _)
  have : (2 + c) ≠ 0 := by norm_num at hl; linarith
  simp only [h, mul_one, one_mul]
  field_simp

theorem body_stall (P : Prob n) (nKMat : ℕ) (s : State n) : (body P nKMat s fun _ => 0).qdot = none ∧ (body P nKMat s fun _ => 0).q = s.q := by
  constructor
  · show (calC (if (∑ i, (0 : ℝ) * s.M i * 0) = 0 then none else some _) cmin cmax).bind _ = _
    rw [if_pos (by simp)]
    rfl
  · funext i
    show s.q i + h * 0 = s.q i
    ring

theorem IsLinear.residual_free (H : IsLinear P A b) (us : V n) (hs : Solves P us) (q : V n) (i : Fin (n + 1)) (hi : ¬ Fixed P i) :
    assembleVec P q i = ∑ j, A i j * (q j - us j) := by
  rw [assembleVec_free P q i hi, H.res]
  have h1 := hs.2 i hi
  rw [H.res] at h1
  have : ∑ j, A i j * (q j - us j) = ∑ j, A i j * q j - ∑ j, A i j * us j := by
    rw [← Finset.sum_sub_distrib]; exact Finset.sum_congr rfl fun j _ => by ring
  rw [this]; linarith

/-- The run of the program on a linear problem is a `Motion` as long as the velocity is finite. -/
theorem IsLinear.motion (H : IsLinear P A b) (us : V n) (hs : Solves P us) (nKMat : ℕ) (u0 : V n) (K : ℕ)
    (good : ∀ l, l ≤ K → (stateAt P nKMat u0 l).qdot ≠ none) :
    ∃ c, Motion A (Fixed P) (massOf (writeRows P.bcs A)) (fun k i => (stateAt P nKMat u0 k).q i - us i)
      (fun k => ((stateAt P nKMat u0 k).qdot).getD fun _ => 0) (fun k => (stateAt P nKMat u0 k).R) c K := by
  have ex : ∀ k, ∃ c : ℝ, k < K → (1e-3 ≤ c ∧ c ≤ 3.9 ∧ ∀ i, (2 + c) * (((stateAt P nKMat u0 (k + 1)).qdot).getD fun _ => 0) i =
      (2 - c) * (((stateAt P nKMat u0 k).qdot).getD fun _ => 0) i - 2 * ((stateAt P nKMat u0 (k + 1)).R i / massOf (writeRows P.bcs A) i)) := by
    intro k
    by_cases hk : k < K
    · have hne : (((stateAt P nKMat u0 k).qdot).getD fun _ => 0) ≠ fun _ => 0 := by
        intro h0
        have : (stateAt P nKMat u0 (k + 1)).qdot = none := by
          show (body P nKMat _ _).qdot = none
          rw [h0]; exact (body_stall P nKMat _).1
        exact good (k + 1) (by omega) this
      obtain ⟨c, w, hq, hl, hh, e⟩ := H.body_move nKMat (stateAt P nKMat u0 k) (H.stateAt_mass nKMat u0 k) _ hne
      refine ⟨c, fun _ => ⟨hl, hh, fun i => ?_⟩⟩
      have : (stateAt P nKMat u0 (k + 1)).qdot = some w := hq
      rw [this]
      exact e i
    · exact ⟨0, fun h => absurd h hk⟩
  choose c hc using ex
  have inv : ∀ k, k ≤ K → Inv P (stateAt P nKMat u0 k) := fun k hk => stateAt_inv P nKMat u0 k fun l hl => good l (by omega)
  refine ⟨c, ?_⟩
  constructor
  · exact H.mass_pos
  · intro k i hk hi
    show _ - _ = _
    rw [meets_unique P _ us (inv k hk).bcs hs.1 i hi, sub_self]
  · intro k i hk hi
    obtain ⟨v, hv⟩ := Option.ne_none_iff_exists'.mp (good k hk)
    show ((stateAt P nKMat u0 k).qdot).getD _ i = 0
    rw [hv]
    exact (inv k hk).vel v hv i hi
  · intro k i hk
    show (stateAt P nKMat u0 k).q i + h * _ - us i = (stateAt P nKMat u0 k).q i - us i + _
    unfold h; ring
  · intro k i hk hi
    show (stateAt P nKMat u0 k).R i = _
    rw [(inv k hk).res, H.residual_free us hs _ i hi]
  · intro k i hk hi
    show (stateAt P nKMat u0 k).R i = _
    rw [(inv k hk).res, assembleVec_fixed P _ i hi]
  · intro k i hk
    exact (hc k hk).2.2 i
  · intro k hk
    exact (hc k hk).1
  · intro k hk
    exact (hc k hk).2.1

/-- **C134 (energy).** On a linear problem every pass made with finite velocities before and after lowers the discrete energy
`(vᵀMv + dᵀA(d+v))/2` (`d` the distance to a solution, `v` the velocity) by at least `1e-3` times the kinetic form of the mean velocity, and the energy is never negative. -/
theorem C134_energy (H : IsLinear P A b) (us : V n) (hs : Solves P us) (nKMat : ℕ) (u0 : V n) (k : ℕ) (v : ℕ → V n)
    (hv : ∀ l, l ≤ k + 1 → (stateAt P nKMat u0 l).qdot = some (v l)) :
    let m := massOf (writeRows P.bcs A)
    let d : ℕ → V n := fun l i => (stateAt P nKMat u0 l).q i - us i
    let E : ℕ → ℝ := fun l => (∑ i, m i * v l i * v l i + ∑ i, d l i * ∑ j, A i j * (d l j + v l j)) / 2
    0 ≤ E (k + 1) ∧ E (k + 1) + 1e-3 * ∑ i, m i * ((v k i + v (k + 1) i) / 2) ^ 2 ≤ E k := by
  intro m d E
  obtain ⟨c, hm⟩ := H.motion us hs nKMat u0 (k + 1) fun l hl => by rw [hv l hl]; simp
  have stab : ∀ x : V n, (∀ i, Fixed P i → x i = 0) → form A x x ≤ 4 / 1.21 * mdot m x x := by
    intro x hx
    have := C134_stable P A H.symm x hx
    refine this.trans (le_of_eq ?_)
    congr 1
    exact Finset.sum_congr rfl fun i _ => by show _ = m i * x i * x i; ring
  have ev : ∀ l, l ≤ k + 1 → (((stateAt P nKMat u0 l).qdot).getD fun _ => 0) = v l := fun l hl => by rw [hv l hl]; rfl
  have h1 := hm.energy_nonneg H.symm H.psd stab (k + 1) (le_refl _)
  have h2 := hm.balance H.symm k (by omega)
  simp only [ev k (by omega), ev (k + 1) (le_refl _)] at h1 h2
  have h3 := hm.clow k (by omega)
  have h4 : (0 : ℝ) ≤ mdot m (avg (v k) (v (k + 1))) (avg (v k) (v (k + 1))) := mdot_nonneg H.mass_pos _
  have h5 : ∑ i, m i * ((v k i + v (k + 1) i) / 2) ^ 2 = mdot m (avg (v k) (v (k + 1))) (avg (v k) (v (k + 1))) :=
    Finset.sum_congr rfl fun i _ => by unfold avg; ring
  refine ⟨h1, ?_⟩
  rw [h5]
  have h6 : E (k + 1) = E k - c k * mdot m (avg (v k) (v (k + 1))) (avg (v k) (v (k + 1))) := h2
  rw [h6]
  have := mul_le_mul_of_nonneg_right h3 h4
  linarith

/-- **C134 (the program ends).** On a linear problem with a symmetric matrix, positive semidefinite on the free unknowns, that has a
solution, `DynamicRelaxSolve` ends within a number of passes given by the energy of the start and the tolerance. It either converged
- the boundary values hold and every free residual is at most the tolerance - or it stopped because the velocity became exactly zero while the residual was still above the tolerance. -/
theorem C134_converges (H : IsLinear P A b) (us : V n) (hs : Solves P us) (nKMat : ℕ) (u0 : V n) (tol : ℝ) (h0 : 0 < tol) (h1 : tol < 1)
    (mm : ℝ) (hmm : ∀ i, ¬ Fixed P i → 1.21 / 4 * ∑ j, |A i j| ≤ mm) (fuel : ℕ) (hf2 : 2 ≤ fuel)
    (hf : 1300000 * mm * ∑ i, (writeBcs P.bcs u0 i - us i) * ∑ j, A i j * (writeBcs P.bcs u0 j - us j) < ((fuel : ℝ) - 1) * tol ^ 2) :
    (∃ u k, dynamicRelaxSolve P nKMat tol fuel u0 = some (.converged u k) ∧ k ≤ fuel ∧ MeetsBcs P u ∧ ∀ i, ¬ Fixed P i → |P.F u i| ≤ tol) ∨
    ∃ k, dynamicRelaxSolve P nKMat tol fuel u0 = some (.failed (k + 2)) ∧ k < fuel ∧
      (stateAt P nKMat u0 k).qdot = some (fun _ => 0) ∧ tol < maxAbs (assembleVec P (stateAt P nKMat u0 k).q) := by
  classical
  by_cases good : ∀ k, k ≤ fuel → (stateAt P nKMat u0 k).error > tol ∧ (stateAt P nKMat u0 k).qdot ≠ none
  · exfalso
    obtain ⟨c, hm⟩ := H.motion us hs nKMat u0 fuel fun l hl => (good l hl).2
    have stab : ∀ x : V n, (∀ i, Fixed P i → x i = 0) → form A x x ≤ 4 / 1.21 * mdot (massOf (writeRows P.bcs A)) x x := by
      intro x hx
      refine (C134_stable P A H.symm x hx).trans (le_of_eq ?_)
      congr 1
      exact Finset.sum_congr rfl fun i _ => by ring
    have hb := hm.bound H.symm H.psd stab tol mm h0 (fun i hi => by rw [H.mass_free i hi]; exact hmm i hi) hf2 (by
      intro k hk hkK
      by_contra hno
      push Not at hno
      have h3 := (good k hkK).1
      have inv := stateAt_inv P nKMat u0 k fun l hl => (good l (by omega)).2
      rcases inv.err with ⟨h4, -⟩ | h4
      · obtain ⟨k', rfl⟩ : ∃ k', k = k' + 1 := ⟨k - 1, by omega⟩
        exact absurd h4 (Nat.succ_ne_zero _)
      · rw [h4] at h3
        exact absurd (maxAbs_le _ tol hno) (not_le.mpr h3))
    have hE : 2 * energy A (massOf (writeRows P.bcs A)) (fun i => (stateAt P nKMat u0 0).q i - us i) (((stateAt P nKMat u0 0).qdot).getD fun _ => 0) ≤
        ∑ i, (writeBcs P.bcs u0 i - us i) * ∑ j, A i j * (writeBcs P.bcs u0 j - us j) := by
      have hq : (((stateAt P nKMat u0 0).qdot).getD fun _ => 0) = fun i => - h / 2 * (assembleVec P (writeBcs P.bcs u0) i / massOf (writeRows P.bcs A) i) := by
        show ((start P u0).qdot).getD _ = _
        rw [H.start_qdot u0]; rfl
      have hw := hm.work 0 (by omega) (((stateAt P nKMat u0 0).qdot).getD fun _ => 0) (fun i hi => hm.vfix 0 i (by omega) hi)
      rw [hq] at hw ⊢
      have hR : (stateAt P nKMat u0 0).R = assembleVec P (writeBcs P.bcs u0) := rfl
      rw [hR] at hw
      have hQ : (stateAt P nKMat u0 0).q = writeBcs P.bcs u0 := rfl
      simp only [hQ] at hw ⊢
      set r := assembleVec P (writeBcs P.bcs u0)
      set m := massOf (writeRows P.bcs A)
      set d : V n := fun i => writeBcs P.bcs u0 i - us i
      set v : V n := fun i => - h / 2 * (r i / m i)
      have e1 : form A d (fun i => d i + v i) = form A d d + form A v d := by
        rw [form_symm A H.symm v d]
        unfold form
        rw [← Finset.sum_add_distrib]
        refine Finset.sum_congr rfl fun i _ => ?_
        rw [← mul_add, ← Finset.sum_add_distrib]
        congr 1
        exact Finset.sum_congr rfl fun j _ => by ring
      have e2 : mdot m v v + ∑ i, v i * r i ≤ 0 := by
        unfold mdot
        rw [← Finset.sum_add_distrib]
        refine Finset.sum_nonpos fun i _ => ?_
        have hp := H.mass_pos i
        have : m i * v i * v i + v i * r i = - (1 / 4) * (r i ^ 2 / m i) := by
          show m i * (- h / 2 * (r i / m i)) * (- h / 2 * (r i / m i)) + (- h / 2 * (r i / m i)) * r i = _
          have hp' : m i ≠ 0 := hp.ne'
          unfold h; field_simp; ring
        rw [this]
        have : 0 ≤ r i ^ 2 / m i := div_nonneg (sq_nonneg _) hp.le
        linarith
      unfold energy
      rw [e1, hw]
      have : form A d d = ∑ i, (writeBcs P.bcs u0 i - us i) * ∑ j, A i j * (writeBcs P.bcs u0 j - us j) := rfl
      rw [← this]
      linarith
    have hmm0 : 0 ≤ mm := by
      have h3 := (good 1 (by omega)).1
      have inv := stateAt_inv P nKMat u0 1 fun l hl => (good l (by omega)).2
      rcases inv.err with ⟨h4, -⟩ | h4
      · exact absurd h4 (Nat.succ_ne_zero _)
      · by_contra hneg
        have : ∀ i, |(stateAt P nKMat u0 1).R i| ≤ tol := by
          intro i
          by_cases hi : Fixed P i
          · rw [inv.res, assembleVec_fixed P _ i hi, abs_zero]; exact h0.le
          · exfalso
            have := hmm i hi
            have h5 : 0 ≤ ∑ j, |A i j| := Finset.sum_nonneg fun j _ => abs_nonneg _
            have h6 : (0 : ℝ) ≤ 1.21 / 4 * ∑ j, |A i j| := by positivity
            exact hneg (h6.trans this)
        rw [h4] at h3
        exact absurd (maxAbs_le _ tol this) (not_le.mpr h3)
    have h7 := mul_le_mul_of_nonneg_left hE (show (0 : ℝ) ≤ 1300000 * mm by positivity)
    have h8 : 2600000 * mm * energy A (massOf (writeRows P.bcs A)) (fun i => (stateAt P nKMat u0 0).q i - us i) (((stateAt P nKMat u0 0).qdot).getD fun _ => 0) =
      1300000 * mm * (2 * energy A (massOf (writeRows P.bcs A)) (fun i => (stateAt P nKMat u0 0).q i - us i) (((stateAt P nKMat u0 0).qdot).getD fun _ => 0)) := by ring
    rw [h8] at hb
    linarith
  · have ex : ∃ k, k ≤ fuel ∧ ¬ ((stateAt P nKMat u0 k).error > tol ∧ (stateAt P nKMat u0 k).qdot ≠ none) := by
      push Not at good ⊢; exact good
    let k := Nat.find ex
    obtain ⟨hk, hbad⟩ := Nat.find_spec ex
    have before : ∀ l, l < k → (stateAt P nKMat u0 l).error > tol ∧ (stateAt P nKMat u0 l).qdot ≠ none := by
      intro l hl
      by_contra hno
      exact Nat.find_min ex hl ⟨by have : k ≤ fuel := hk; omega, hno⟩
    have hrun := loop_unroll P nKMat u0 tol fuel k hk before
    have hcnt : ∀ l, (stateAt P nKMat u0 l).nIters = l := by
      intro l; induction l with
      | zero => rfl
      | succ l ih => show (stateAt P nKMat u0 l).nIters + 1 = _; rw [ih]
    by_cases he : (stateAt P nKMat u0 k).error > tol
    · right
      have hq : (stateAt P nKMat u0 k).qdot = none := by
        by_contra hne; exact hbad ⟨he, hne⟩
      have hk0 : k ≠ 0 := by
        intro h0
        rw [h0] at hq
        have : (start P u0).qdot = none := hq
        rw [H.start_qdot u0] at this
        cases this
      obtain ⟨j, hj⟩ : ∃ j, k = j + 1 := ⟨k - 1, by omega⟩
      obtain ⟨v, hv⟩ := Option.ne_none_iff_exists'.mp (before j (by omega)).2
      have hv0 : v = fun _ => 0 := by
        by_contra hne
        obtain ⟨c, w, hw, -⟩ := H.body_move nKMat (stateAt P nKMat u0 j) (H.stateAt_mass nKMat u0 j) v hne
        rw [hj] at hq
        have : (body P nKMat (stateAt P nKMat u0 j) (((stateAt P nKMat u0 j).qdot).getD fun _ => 0)).qdot = none := hq
        rw [hv, show (some v).getD (fun _ => 0) = v from rfl, hw] at this
        cases this
      refine ⟨j, ?_, by have : k ≤ fuel := hk; omega, by rw [hv, hv0], ?_⟩
      · rw [hrun]
        unfold loop
        rw [if_pos he, hq, hcnt, hj]
      · rw [hj] at he
        have hb : (stateAt P nKMat u0 (j + 1)).error = maxAbs (assembleVec P (stateAt P nKMat u0 j).q) := by
          show maxAbs (assembleVec P (body P nKMat (stateAt P nKMat u0 j) (((stateAt P nKMat u0 j).qdot).getD fun _ => 0)).q) = _
          rw [hv, show (some v).getD (fun _ => 0) = v from rfl, hv0, (body_stall P nKMat _).2]
        rw [hb] at he
        exact he
    · left
      have hc : dynamicRelaxSolve P nKMat tol fuel u0 = some (.converged (stateAt P nKMat u0 k).q k) := by
        rw [hrun]
        unfold loop
        rw [if_neg he, hcnt]
      obtain ⟨-, a, b⟩ := C134_sound P nKMat tol fuel u0 _ _ h1 hc
      exact ⟨_, _, hc, hk, a, b⟩

/-- **C134 (definite problems).** A matrix that is positive definite on the free unknowns has a solution for every right side and all boundary values, and no zero row: the hypotheses of `C134_converges` hold. -/
theorem C134_definite (P : Prob n) (A : Fin (n + 1) → Fin (n + 1) → ℝ) (b : V n) (res : ∀ u i, P.F u i = ∑ j, A i j * u j - b i) (jac : ∀ u, P.J u = A)
    (symm : ∀ i j, A i j = A j i) (pd : ∀ x : V n, (∀ i, Fixed P i → x i = 0) → x ≠ 0 → 0 < ∑ i, x i * ∑ j, A i j * x j) :
    IsLinear P A b ∧ ∃! us, Solves P us := by
  classical
  have lin : IsLinear P A b := by
    refine ⟨res, jac, symm, fun x hx => ?_, fun i hi => ?_⟩
    · by_cases h0 : x = 0
      · rw [h0]; simp
      · exact (pd x hx h0).le
    · by_contra hno
      push Not at hno
      have := pd (Pi.single i 1) (fun j hj => Pi.single_eq_of_ne (by rintro rfl; exact hi hj) _) (by
        intro h0; have := congrFun h0 i; rw [Pi.single_eq_same] at this; simp at this)
      rw [Finset.sum_eq_single i] at this
      · simp [hno] at this
      · intro j _ hj; rw [Pi.single_eq_of_ne hj]; ring
      · simp
  refine ⟨lin, ?_⟩
  let L : V n →ₗ[ℝ] V n :=
    { toFun := fun x i => if Fixed P i then x i else ∑ j, A i j * x j
      map_add' := fun x y => by
        funext i
        by_cases hi : Fixed P i
        · simp [hi]
        · simp [hi, mul_add, Finset.sum_add_distrib]
      map_smul' := fun a x => by
        funext i
        by_cases hi : Fixed P i
        · simp [hi]
        · simp only [hi, if_false, Pi.smul_apply, smul_eq_mul, RingHom.id_apply, Finset.mul_sum]
          exact Finset.sum_congr rfl fun j _ => by ring }
  have hL : ∀ x i, L x i = if Fixed P i then x i else ∑ j, A i j * x j := fun _ _ => rfl
  have inj : Function.Injective L := by
    rw [← LinearMap.ker_eq_bot, LinearMap.ker_eq_bot']
    intro x hx
    by_contra h0
    have hfix : ∀ i, Fixed P i → x i = 0 := fun i hi => by
      have := congrFun hx i; rw [hL, if_pos hi] at this; exact this
    have := pd x hfix h0
    have hz : ∑ i, x i * ∑ j, A i j * x j = 0 := Finset.sum_eq_zero fun i _ => by
      by_cases hi : Fixed P i
      · rw [hfix i hi]; ring
      · have := congrFun hx i; rw [hL, if_neg hi] at this; rw [this]; simp
    linarith
  obtain ⟨us, hus⟩ := (LinearMap.injective_iff_surjective.mp inj) fun i => if Fixed P i then writeBcs P.bcs (fun _ => 0) i else b i
  have sol : Solves P us := by
    refine ⟨meets_congr P _ us (meets_writeBcs P fun _ => 0) fun i hi => ?_, fun i hi => ?_⟩
    · have := congrFun hus i; rw [hL, if_pos hi, if_pos hi] at this; exact this
    · have := congrFun hus i; rw [hL, if_neg hi, if_neg hi] at this; rw [res, this]; ring
  refine ⟨us, sol, fun w hw => inj ?_⟩
  funext i
  rw [hL, hL]
  by_cases hi : Fixed P i
  · rw [if_pos hi, if_pos hi]; exact meets_unique P w us hw.1 sol.1 i hi
  · rw [if_neg hi, if_neg hi]
    have a1 := hw.2 i hi
    have a2 := sol.2 i hi
    rw [res] at a1 a2
    linarith

/-! ## When the masses are renewed -/

/-- **C134 (masses).** At every pass the masses are those of the stiffness at some earlier iterate `j`, unchanged since then; and before they were renewed at `j` they had been kept for more than `nKMat` passes.
For every problem, linear or not. -/
theorem C134_masses (P : Prob n) (nKMat : ℕ) (u0 : V n) (k : ℕ) :
    ∃ j ≤ k, (∀ l, j ≤ l → l ≤ k → (stateAt P nKMat u0 l).M = massOf (assembleCSR P (stateAt P nKMat u0 j).q)) ∧
      (j = 0 ∨ ∃ j', j' + nKMat < j ∧ ∀ l, j' ≤ l → l < j → (stateAt P nKMat u0 l).M = massOf (assembleCSR P (stateAt P nKMat u0 j').q)) := by
  suffices H : ∃ j, (stateAt P nKMat u0 k).iKMat + j = k ∧ (∀ l, j ≤ l → l ≤ k → (stateAt P nKMat u0 l).M = massOf (assembleCSR P (stateAt P nKMat u0 j).q)) ∧
      (j = 0 ∨ ∃ j', j' + nKMat < j ∧ ∀ l, j' ≤ l → l < j → (stateAt P nKMat u0 l).M = massOf (assembleCSR P (stateAt P nKMat u0 j').q)) by
    obtain ⟨j, h1, h2⟩ := H
    exact ⟨j, by omega, h2⟩
  induction k with
  | zero =>
    refine ⟨0, rfl, fun l _ h => ?_, Or.inl rfl⟩
    obtain rfl : l = 0 := by omega
    rfl
  | succ k ih =>
    obtain ⟨j, h1, h2, h3⟩ := ih
    set s := stateAt P nKMat u0 k with hs
    set v : V n := (s.qdot).getD fun _ => 0 with hv
    have hstep : stateAt P nKMat u0 (k + 1) = body P nKMat s v := rfl
    by_cases hc : maxAbs (epsOf s.qdotdot s.qdotdot_old (fun i => s.q i + h * v i) s.q) > 1 ∧ s.iKMat + 1 > nKMat
    · have hM : (body P nKMat s v).M = massOf (assembleCSR P (body P nKMat s v).q) := if_pos hc
      have hi : (body P nKMat s v).iKMat = 0 := if_pos hc
      refine ⟨k + 1, by rw [hstep, hi, zero_add], fun l h h' => ?_, Or.inr ⟨j, by omega, fun l h h' => h2 l h (by omega)⟩⟩
      obtain rfl : l = k + 1 := by omega
      rw [hstep, hM]
    · have hM : (body P nKMat s v).M = s.M := if_neg hc
      have hi : (body P nKMat s v).iKMat = s.iKMat + 1 := if_neg hc
      refine ⟨j, by rw [hstep, hi]; omega, fun l h h' => ?_, h3⟩
      by_cases hl : l = k + 1
      · rw [hl, hstep, hM]
        exact h2 k (by omega) le_rfl
      · exact h2 l h (by omega)

/-- In particular the masses of the first `nKMat` passes are those of the start. -/
example (P : Prob n) (u0 : V n) (k : ℕ) (hk : k ≤ 1000) : (stateAt P 1000 u0 k).M = (start P u0).M := by
  obtain ⟨j, hj, h, h0 | ⟨j', h1, -⟩⟩ := C134_masses P 1000 u0 k
  · subst h0
    exact h k hj le_rfl
  · omega

end Verif.DynRelax
