import Verif.Fem.FractureLoop

/-!
# C98: the fracture demo: phase-field problem, displacement problem, lag of the damage, reported force
-/
namespace Verif.Fem
open Finset

variable {nn nq nf nfq dim : ℕ}

/-! ## Lag of the early-stopped scheme -/

theorem step_early (S : FracSolvers nq dim) (fuel : ℕ) (disp : ℝ) (st st' : FracState nq dim) (h : S.step true (fuel + 1) disp st = .ok (some st')) :
    ∃ u d, S.solveU st.sol_d disp = .ok u ∧ S.solveD st.history = .ok d ∧ (∀ n i, st'.sol_d n i = max (d n i) (st.sol_d_old n i)) ∧ st'.sol_u = u := by
  unfold FracSolvers.step FracSolvers.inner at h
  dsimp only [bind, Except.bind, pure, Except.pure] at h
  cases hb : S.body disp st with
  | error e => rw [hb] at h; cases h
  | ok r =>
    rw [hb] at h
    simp only [if_true, Option.map_some] at h
    injection h with h
    injection h with h
    obtain ⟨u, d, hist, h1, h2, -, h4, -⟩ := body_ok S disp st r hb
    rw [h4] at h
    subst h
    exact ⟨u, d, h1, h2, fun n i => rfl, rfl⟩

theorem run_append (S : FracSolvers nq dim) (early : Bool) (fuel : ℕ) (a : ℝ) : ∀ (loads : List ℝ) (st : FracState nq dim) (l : List (FracState nq dim)),
    S.run early fuel (loads ++ [a]) st = .ok (some l) → ∃ l' st', l = l' ++ [st'] ∧ S.run early fuel loads st = .ok (some l') ∧
      S.step early fuel a ((st :: l').getLast (by simp)) = .ok (some st')
  | [], st, l, h => by
    obtain ⟨st', l', rfl, hs, hr⟩ := run_cons S early fuel a [] st l h
    simp only [FracSolvers.run, pure, Except.pure] at hr
    injection hr with hr
    injection hr with hr
    subst hr
    exact ⟨[], st', rfl, rfl, hs⟩
  | b :: loads, st, l, h => by
    obtain ⟨st1, l1, rfl, hs, hr⟩ := run_cons S early fuel b (loads ++ [a]) st l h
    obtain ⟨l', st', rfl, h2, h3⟩ := run_append S early fuel a loads st1 l1 hr
    refine ⟨st1 :: l', st', rfl, ?_, ?_⟩
    · unfold FracSolvers.run
      dsimp only [bind, Except.bind, pure, Except.pure]
      rw [hs]
      dsimp only
      rw [h2]
    · rw [List.getLast_cons (by simp)]
      exact h3

/-- **C98 (lag).** In the file as it stands the damage does not react to the load of its own step: after the same earlier loads, two different last loads give the same damage field. -/
theorem C98_lag (S : FracSolvers nq dim) (fuel : ℕ) (loads : List ℝ) (a b : ℝ) (st : FracState nq dim) (la lb : List (FracState nq dim)) (sa sb : FracState nq dim)
    (ha : S.run true (fuel + 1) (loads ++ [a]) st = .ok (some la)) (hb : S.run true (fuel + 1) (loads ++ [b]) st = .ok (some lb)) (hsa : la.getLast? = some sa) (hsb : lb.getLast? = some sb) (n : ℕ) (i : Fin 1) :
    sa.sol_d n i = sb.sol_d n i := by
  obtain ⟨l1, s1, rfl, h1, h2⟩ := run_append S true (fuel + 1) a loads st la ha
  obtain ⟨l2, s2, rfl, h3, h4⟩ := run_append S true (fuel + 1) b loads st lb hb
  rw [h1] at h3
  injection h3 with h3
  injection h3 with h3
  subst h3
  rw [List.getLast?_append_of_ne_nil _ (by simp), List.getLast?_singleton] at hsa hsb
  injection hsa with hsa
  injection hsb with hsb
  subst hsa hsb
  obtain ⟨u, d, -, hd, hm, -⟩ := step_early S fuel a _ s1 h2
  obtain ⟨u', d', -, hd', hm', -⟩ := step_early S fuel b _ s2 h4
  rw [hd] at hd'
  injection hd' with hd'
  subst hd'
  rw [hm, hm']

/-- **C98 (staggered variant).** With the two early-stop lines removed, a load step ends only when the last two iterates of displacement and damage differ by at most `1e-5` in the 2-norm, and the last
displacement was computed from a damage that close to the returned one. -/
theorem C98_converged (S : FracSolvers nq dim) (disp : ℝ) : ∀ (fuel : ℕ) (st st' : FracState nq dim), st.sol_d_old = st.sol_d → S.inner false disp fuel st = .ok (some st') →
    ∃ d, S.solveU d disp = .ok st'.sol_u ∧ nodalDist S.numNodes st'.sol_d d ≤ 1e-5
  | 0, st, st', _, h => by simp [FracSolvers.inner, pure, Except.pure] at h
  | fuel + 1, st, st', hst, h => by
    unfold FracSolvers.inner at h
    dsimp only [bind, Except.bind, pure, Except.pure] at h
    cases hb : S.body disp st with
    | error e => rw [hb] at h; cases h
    | ok r =>
      rw [hb] at h
      obtain ⟨u, d, hist, h1, h2, h3, h4, h5⟩ := body_ok S disp st r hb
      dsimp only at h
      rw [if_neg (by simp)] at h
      split_ifs at h with hc
      · exact C98_converged S disp fuel r.1 st' (by rw [h4]) h
      · injection h with h
        injection h with h
        refine ⟨st.sol_d, ?_, ?_⟩
        · rw [h1, ← h, h4]
        · rw [← h, h4, ← hst]
          have := not_lt.mp hc
          rw [h5] at this
          exact le_trans (le_max_right _ _) this

/-! ## The phase-field problem -/

/-- Specification: discrete energy of a damage field for a given history, `∑ (G_c/2 (l |∇d|² + d²/l) + (1 - d)² H) JxW`. -/
noncomputable def crackEnergy (F : Fem nn nq nf nfq dim 1) (history : List (Fin nq → ℝ)) (d : ℕ → Fin 1 → ℝ) : ℝ :=
  (F.cells.zipIdx.map fun p => ∑ q, (fracGc / 2 * (fracL * ∑ j, F.gradAt d p.1 q 0 j ^ 2 + F.uAt d p.1 q 0 ^ 2 / fracL) + (1 - F.uAt d p.1 q 0) ^ 2 * (history.getD p.2 0) q) * F.JxW p.1 q).sum

/-- The quadratic part of the energy. -/
noncomputable def crackQuad (F : Fem nn nq nf nfq dim 1) (history : List (Fin nq → ℝ)) (e : ℕ → Fin 1 → ℝ) : ℝ :=
  (F.cells.zipIdx.map fun p => ∑ q, (fracGc / 2 * (fracL * ∑ j, F.gradAt e p.1 q 0 j ^ 2 + F.uAt e p.1 q 0 ^ 2 / fracL) + F.uAt e p.1 q 0 ^ 2 * (history.getD p.2 0) q) * F.JxW p.1 q).sum

theorem fracGc_pos : 0 < fracGc := by unfold fracGc; norm_num
theorem fracL_pos : 0 < fracL := by unfold fracL; norm_num

theorem crackEnergy_sub (F : Fem nn nq nf nfq dim 1) (hmesh : ∀ c ∈ F.cells, ∀ a, c a < F.numTotal) (history : List (Fin nq → ℝ)) (d w R : ℕ → Fin 1 → ℝ)
    (h : (phaseFem F history).computeResidual d = .ok R) :
    crackEnergy F history w - crackEnergy F history d = (∑ n ∈ range F.numTotal, R n 0 * (w n 0 - d n 0)) + crackQuad F history (fun n i => w n i - d n i) := by
  have h1 := C71_virtual_work (phaseFem F history) hmesh d (fun n i => w n i - d n i) R h
  simp only [Fin.sum_univ_one] at h1
  have hp : (phaseFem F history).cauchy = none := rfl
  have hp2 : (phaseFem F history).neumann = none := rfl
  have hl : ∀ c q i, (phaseFem F history).load c q i = 0 := fun c q i => rfl
  simp only [hp, hp2, hl, Fem.pairs, Option.elim_none, List.map_nil, List.sum_nil, zero_mul, sum_const_zero, add_zero, sub_zero] at h1
  have hz : ((phaseFem F history).cells.map fun _ => (0 : ℝ)).sum = 0 := by simp
  rw [hz, sub_zero] at h1
  have hn : (phaseFem F history).numTotal = F.numTotal := rfl
  have hcl : (phaseFem F history).cells = F.cells := rfl
  rw [hn, hcl] at h1
  rw [h1]
  unfold crackEnergy crackQuad
  have hlist : ∀ (l : List ((Fin nn → ℕ) × ℕ)) (f g u v : (Fin nn → ℕ) × ℕ → ℝ), (∀ p, f p - g p = u p + v p) → (l.map f).sum - (l.map g).sum = (l.map u).sum + (l.map v).sum := by
    intro l f g u v hh
    induction l with
    | nil => simp
    | cons p l ih =>
      simp only [List.map_cons, List.sum_cons]
      linarith [hh p]
  refine hlist _ _ _ _ _ fun p => ?_
  rw [← sum_sub_distrib, ← sum_add_distrib]
  refine sum_congr rfl fun q _ => ?_
  have hg : ∀ u, (phaseFem F history).gradAt u p.1 q = F.gradAt u p.1 q := fun u => rfl
  have hu : ∀ u, (phaseFem F history).uAt u p.1 q = F.uAt u p.1 q := fun u => rfl
  have hJ : (phaseFem F history).JxW p.1 q = F.JxW p.1 q := rfl
  have hs : ∀ g i j, (phaseFem F history).stress p.2 q g i j = fracGc * fracL * g i j := fun g i j => rfl
  have hm : ∀ u i, (phaseFem F history).massAt p.2 q u i = fracGc / fracL * u i - 2 * (1 - u i) * (history.getD p.2 0) q := fun u i => rfl
  rw [hg, hg, hu, hu, hJ, gradAt_sub, uAt_sub]
  simp only [hs, hm]
  generalize (history.getD p.2 0) q = H
  have hsq : ∑ j, F.gradAt w p.1 q 0 j ^ 2 = ∑ j, F.gradAt d p.1 q 0 j ^ 2 + 2 * ∑ j, F.gradAt d p.1 q 0 j * (F.gradAt w p.1 q 0 j - F.gradAt d p.1 q 0 j)
      + ∑ j, (F.gradAt w p.1 q 0 j - F.gradAt d p.1 q 0 j) ^ 2 := by
    rw [mul_sum, ← sum_add_distrib, ← sum_add_distrib]
    exact sum_congr rfl fun j _ => by ring
  have hst : ∑ j, fracGc * fracL * F.gradAt d p.1 q 0 j * (F.gradAt w p.1 q 0 j - F.gradAt d p.1 q 0 j) = fracGc * fracL * ∑ j, F.gradAt d p.1 q 0 j * (F.gradAt w p.1 q 0 j - F.gradAt d p.1 q 0 j) := by
    rw [mul_sum]
    exact sum_congr rfl fun j _ => by ring
  rw [hsq, hst]
  have hL := fracL_pos.ne'
  field_simp
  ring

/-- Specification: a mesh on which scalar problems with a mass term are well posed: positive volumes, no spurious modes, shape functions summing to one, all nodes used. -/
structure Fem.Sound (F : Fem nn nq nf nfq dim 1) : Prop where
  mesh : ∀ c ∈ F.cells, ∀ a, c a < F.numTotal
  vol : ∀ c ∈ F.cells, ∀ q, 0 < F.JxW c q
  modes : F.NoModes
  unity : ∀ q, ∑ a, F.shapeVals q a = 1
  used : ∀ n < F.numTotal, ∃ c ∈ F.cells, ∃ a, c a = n
  quads : 0 < nq
  cells : F.cells ≠ []

theorem phase_returns (F : Fem nn nq nf nfq dim 1) (hF : F.Sound) (history : List (Fin nq → ℝ)) (hlen : history.length = F.cells.length) (d : ℕ → Fin 1 → ℝ) :
    ∃ R, (phaseFem F history).computeResidual d = .ok R := by
  rw [C13_returns]
  refine ⟨hF.cells, fun m hm => ?_, fun m hm => (by cases hm), fun lv hlv => (by cases hlv), fun lv hlv => (by cases hlv)⟩
  have : history.length = m := Option.some.inj hm
  rw [← this, hlen]; rfl

theorem crackQuad_nonneg (F : Fem nn nq nf nfq dim 1) (hF : F.Sound) (history : List (Fin nq → ℝ)) (hH : ∀ k q, 0 ≤ (history.getD k 0) q) (e : ℕ → Fin 1 → ℝ) :
    0 ≤ crackQuad F history e ∧ (crackQuad F history e = 0 → ∀ n < F.numTotal, e n 0 = 0) := by
  have hG := fracGc_pos
  have hL := fracL_pos
  have hterm : ∀ p ∈ F.cells.zipIdx, ∀ q, 0 ≤ (fracGc / 2 * (fracL * ∑ j, F.gradAt e p.1 q 0 j ^ 2 + F.uAt e p.1 q 0 ^ 2 / fracL) + F.uAt e p.1 q 0 ^ 2 * (history.getD p.2 0) q) * F.JxW p.1 q := by
    intro p hp q
    have := hH p.2 q
    have := hF.vol p.1 (zipIdx_mem hp) q
    have : 0 ≤ ∑ j, F.gradAt e p.1 q 0 j ^ 2 := sum_nonneg fun _ _ => sq_nonneg _
    positivity
  refine ⟨List.sum_nonneg fun x hx => ?_, fun h0 n hn => ?_⟩
  · obtain ⟨p, hp, rfl⟩ := List.mem_map.mp hx
    exact sum_nonneg fun q _ => hterm p hp q
  · obtain ⟨c, hc, a, rfl⟩ := hF.used n hn
    obtain ⟨k, hk⟩ := List.getElem?_of_mem hc
    have hmem : (c, k) ∈ F.cells.zipIdx := List.mem_zipIdx_iff_getElem?.mpr hk
    have h1 := list_sum_eq_zero _ _ (fun p hp => sum_nonneg fun q _ => hterm p hp q) h0 (c, k) hmem
    have h2 : ∀ q, (∀ j, F.gradAt e c q 0 j = 0) ∧ F.uAt e c q 0 = 0 := by
      intro q
      have h3 := (sum_eq_zero_iff_of_nonneg fun q _ => hterm (c, k) hmem q).mp h1 q (mem_univ q)
      have hv := hF.vol c hc q
      have h4 := (mul_eq_zero.mp h3).resolve_right hv.ne'
      dsimp only at h4
      have hs : 0 ≤ ∑ j, F.gradAt e c q 0 j ^ 2 := sum_nonneg fun _ _ => sq_nonneg _
      have hh := mul_nonneg (sq_nonneg (F.uAt e c q 0)) (hH k q)
      have hu2 : 0 ≤ F.uAt e c q 0 ^ 2 / fracL := by positivity
      have h5 : fracL * ∑ j, F.gradAt e c q 0 j ^ 2 = 0 ∧ F.uAt e c q 0 ^ 2 / fracL = 0 := by
        have hls : 0 ≤ fracL * ∑ j, F.gradAt e c q 0 j ^ 2 := mul_nonneg hL.le hs
        constructor <;> nlinarith
      have h6 := (mul_eq_zero.mp h5.1).resolve_left hL.ne'
      refine ⟨fun j => ?_, ?_⟩
      · exact pow_eq_zero_iff (two_ne_zero) |>.mp ((sum_eq_zero_iff_of_nonneg fun j _ => sq_nonneg _).mp h6 j (mem_univ j))
      · have := (div_eq_zero_iff.mp h5.2).resolve_right hL.ne'
        exact pow_eq_zero_iff (two_ne_zero) |>.mp this
    have hconst := hF.modes c hc (fun a => e (c a) 0) (fun q j => (h2 q).1 j)
    have hval := (h2 ⟨0, hF.quads⟩).2
    unfold Fem.uAt at hval
    have : ∀ b, e (c b) 0 = e (c a) 0 := fun b => hconst b a
    simp only [this] at hval
    rwa [← mul_sum, hF.unity, mul_one] at hval

/-- **C98 (variational character).** For a nonnegative history the residual of `PhaseField` vanishes exactly at the minimisers of the discrete crack energy, and there is at most one. -/
theorem C98_minimiser (F : Fem nn nq nf nfq dim 1) (hF : F.Sound) (history : List (Fin nq → ℝ)) (hH : ∀ k q, 0 ≤ (history.getD k 0) q) (d R : ℕ → Fin 1 → ℝ)
    (h : (phaseFem F history).computeResidual d = .ok R) :
    ((∀ n < F.numTotal, R n 0 = 0) ↔ ∀ w, crackEnergy F history d ≤ crackEnergy F history w) ∧
    ((∀ n < F.numTotal, R n 0 = 0) → ∀ w, crackEnergy F history w ≤ crackEnergy F history d → ∀ n < F.numTotal, w n 0 = d n 0) := by
  have hz : (∀ n < F.numTotal, R n 0 = 0) → ∀ w, crackEnergy F history w - crackEnergy F history d = crackQuad F history (fun n i => w n i - d n i) := by
    intro h0 w
    rw [crackEnergy_sub F hF.mesh history d w R h, sum_eq_zero fun n hn => by rw [h0 n (Finset.mem_range.mp hn), zero_mul], zero_add]
  refine ⟨⟨fun h0 w => ?_, fun hmin n hn => ?_⟩, fun h0 w hw n hn => ?_⟩
  · have := (crackQuad_nonneg F hF history hH (fun n i => w n i - d n i)).1
    linarith [hz h0 w]
  · by_contra hne
    have hq : ∀ t : ℝ, crackQuad F history (fun m i => t * (if m = n then 1 else 0)) = t ^ 2 * crackQuad F history (fun m i => if m = n then 1 else 0) := by
      intro t
      unfold crackQuad
      have hl : ∀ (l : List ((Fin nn → ℕ) × ℕ)) (f g : (Fin nn → ℕ) × ℕ → ℝ), (∀ p, f p = t ^ 2 * g p) → (l.map f).sum = t ^ 2 * (l.map g).sum := by
        intro l f g hh
        induction l with
        | nil => simp
        | cons p l ih => simp only [List.map_cons, List.sum_cons, ih, hh p]; ring
      refine hl _ _ _ fun p => ?_
      rw [mul_sum]
      refine sum_congr rfl fun q _ => ?_
      have hg : ∀ j, F.gradAt (fun m (_ : Fin 1) => t * (if m = n then (1 : ℝ) else 0)) p.1 q 0 j = t * F.gradAt (fun m (_ : Fin 1) => if m = n then (1 : ℝ) else 0) p.1 q 0 j := by
        intro j
        simp only [Fem.gradAt, mul_sum, mul_assoc]
      have hu : F.uAt (fun m (_ : Fin 1) => t * (if m = n then (1 : ℝ) else 0)) p.1 q 0 = t * F.uAt (fun m (_ : Fin 1) => if m = n then (1 : ℝ) else 0) p.1 q 0 := by
        simp only [Fem.uAt, mul_sum, mul_assoc]
      simp only [hg, hu, mul_pow]
      rw [← mul_sum]
      ring
    set Q := crackQuad F history (fun m i => if m = n then 1 else 0) with hQ
    have hQn : 0 ≤ Q := (crackQuad_nonneg F hF history hH _).1
    have hex : ∀ t : ℝ, 0 ≤ t * R n 0 + t ^ 2 * Q := by
      intro t
      have h1 := crackEnergy_sub F hF.mesh history d (fun m i => d m i + t * (if m = n then 1 else 0)) R h
      simp only [add_sub_cancel_left] at h1
      rw [hq t] at h1
      have h2 : ∑ m ∈ range F.numTotal, R m 0 * (t * (if m = n then 1 else 0)) = t * R n 0 := by
        rw [sum_eq_single n (fun m _ hm => by rw [if_neg hm]; ring) (fun hm => absurd (Finset.mem_range.mpr hn) hm), if_pos rfl]
        ring
      rw [h2] at h1
      linarith [hmin fun m i => d m i + t * (if m = n then 1 else 0)]
    have h3 := hex (-(R n 0) / (2 * (Q + 1)))
    have hR : 0 < R n 0 ^ 2 := by positivity
    have : -(R n 0) / (2 * (Q + 1)) * R n 0 + (-(R n 0) / (2 * (Q + 1))) ^ 2 * Q = -(R n 0 ^ 2) * (Q + 2) / (4 * (Q + 1) ^ 2) := by
      field_simp
      ring
    rw [this] at h3
    have : -(R n 0 ^ 2) * (Q + 2) / (4 * (Q + 1) ^ 2) < 0 := div_neg_of_neg_of_pos (by nlinarith) (by positivity)
    linarith
  · have h1 := (crackQuad_nonneg F hF history hH (fun n i => w n i - d n i))
    have h2 := h1.2 (by linarith [hz h0 w, h1.1]) n hn
    exact sub_eq_zero.mp h2

theorem phase_linear (F : Fem nn nq nf nfq dim 1) (history : List (Fin nq → ℝ)) : (phaseFem F history).Linear := by
  refine ⟨?_, ?_, ?_⟩
  · intro tm htm k q
    have : tm = fun _ _ d_grad i d => fracGc * fracL * d_grad i d := (Option.some.inj htm).symm
    subst this
    constructor
    · fun_prop
    · intro x y
      funext i d
      simp only [Pi.add_apply, Pi.zero_apply]
      ring
  · intro mm hmm k q
    have : mm = fun k q d i => fracGc / fracL * d i - 2 * (1 - d i) * (history.getD k 0) q := (Option.some.inj hmm).symm
    subst this
    constructor
    · fun_prop
    · intro x y
      funext i
      simp only [Pi.add_apply, Pi.zero_apply]
      ring
  · intro lv hlv
    have : (phaseFem F history).cauchy = none := rfl
    simp [this, Fem.pairs] at hlv

/-- **C98 (phase-field solve).** `solver(problem_d)` for any nonnegative history on a sound mesh: exact linear solvers exist, and with every one of them the damage returned is the one and only
minimiser of the discrete crack energy. -/
theorem C98_phase_solution (F : Fem nn nq nf nfq dim 1) (hF : F.Sound) (history : List (Fin nq → ℝ)) (hH : ∀ k q, 0 ≤ (history.getD k 0) q) (hlen : history.length = F.cells.length) (usePetsc : Bool) :
    (∃ lin, ((phaseFem F history).toProb []).ExactFor usePetsc lin) ∧
    ∀ lin, ((phaseFem F history).toProb []).ExactFor usePetsc lin → ∀ (precond : Bool) (guess : Option (ℕ → ℝ)) (fuel : ℕ),
      ∃ u, ((phaseFem F history).toProb []).rowSolver realArith lin true precond usePetsc guess fuel = .ok u ∧
        ∀ w, crackEnergy F history (fun n _ => u n) ≤ crackEnergy F history w ∧ (crackEnergy F history w ≤ crackEnergy F history (fun n _ => u n) → ∀ n < F.numTotal, w n 0 = u n) := by
  have hpres : ((phaseFem F history).toProb []).prescriptions = [] := rfl
  have hfree : ∀ d, FreeAt ((phaseFem F history).toProb []).prescriptions d := by
    intro d
    rw [hpres]
    simp [FreeAt]
  have hdet : (phaseFem F history).Determined ((phaseFem F history).toProb []).prescriptions := by
    intro u v Ru Rv hu hv _ hfr n hn i
    have hR : ∀ n < F.numTotal, Ru n 0 = Rv n 0 := fun n hn => hfr n hn 0 (hfree _)
    have h1 := crackEnergy_sub F hF.mesh history u v Ru hu
    have h2 := crackEnergy_sub F hF.mesh history v u Rv hv
    have h3 : ∑ n ∈ range F.numTotal, Ru n 0 * (v n 0 - u n 0) + ∑ n ∈ range F.numTotal, Rv n 0 * (u n 0 - v n 0) = 0 := by
      rw [← sum_add_distrib]
      refine sum_eq_zero fun n hn => ?_
      rw [hR n (Finset.mem_range.mp hn)]
      ring
    have h4 := crackQuad_nonneg F hF history hH (fun n i => v n i - u n i)
    have h5 := crackQuad_nonneg F hF history hH (fun n i => u n i - v n i)
    have h6 := h5.2 (by linarith [h4.1, h5.1]) n hn
    have : i = 0 := Subsingleton.elim _ _
    subst this
    exact sub_eq_zero.mp h6
  have hwf : ((phaseFem F history).toProb []).WF := by
    intro g hg
    cases hg
  obtain ⟨h1, h2⟩ := C87_solution (phaseFem F history) (phase_linear F history) [] hwf hF.mesh ⟨fun _ _ => 0, phase_returns F hF history hlen _⟩ hdet usePetsc
  refine ⟨h1, fun lin hlin precond guess fuel => ?_⟩
  obtain ⟨u, hu, ⟨R, hR, hs⟩, -⟩ := h2 lin hlin precond guess fuel
  refine ⟨u, hu, fun w => ?_⟩
  have he : (fun n (i : Fin 1) => u (1 * n + i)) = fun n _ => u n := by
    funext n i
    have : (i : ℕ) = 0 := by omega
    rw [this, one_mul, add_zero]
  rw [he] at hR
  have hz : ∀ n < F.numTotal, R n 0 = 0 := fun n hn => (hs n hn 0).2 (hfree _)
  have := C98_minimiser F hF history hH _ R hR
  exact ⟨this.1.mp hz w, fun hw n hn => this.2 hz w hw n hn⟩

/-- **C98 (first step).** If the first phase-field solve (zero history) returns a field with zero residual, the damage after the first load step of the file is exactly the initial crack, whatever the load. -/
theorem C98_first (F : Fem nn nq nf nfq dim 1) (hF : F.Sound) (S : FracSolvers nq dim)
    (hD : ∀ d, S.solveD (List.replicate F.cells.length fun _ => 0) = .ok d → ∃ R, (phaseFem F (List.replicate F.cells.length fun _ => 0)).computeResidual d = .ok R ∧ ∀ n < F.numTotal, R n 0 = 0)
    (fuel : ℕ) (disp : ℝ) (rest : List ℝ) (crack : ℕ → Bool) (st : FracState nq dim) (l : List (FracState nq dim))
    (h : S.run true (fuel + 1) (disp :: rest) (fracInit F.cells.length crack) = .ok (some (st :: l))) (n : ℕ) (hn : n < F.numTotal) : st.sol_d n 0 = if crack n then 1 else 0 := by
  obtain ⟨st', l', he, hs, -⟩ := run_cons S true (fuel + 1) disp rest _ _ h
  injection he with he _
  subst he
  obtain ⟨u, d, -, hd, hm, -⟩ := step_early S fuel disp _ st hs
  obtain ⟨R, hR, hz⟩ := hD d hd
  have h0 : ∀ k q, ((List.replicate F.cells.length (fun _ : Fin nq => (0 : ℝ))).getD k 0) q = 0 := by
    intro k q
    rw [List.getD_eq_getElem?_getD, List.getElem?_replicate]
    split_ifs <;> rfl
  have hmin := C98_minimiser F hF _ (fun k q => (h0 k q).ge) d R hR
  have he0 : crackEnergy F (List.replicate F.cells.length fun _ => 0) (fun _ _ => 0) ≤ crackEnergy F (List.replicate F.cells.length fun _ => 0) d := by
    have hG := fracGc_pos
    have hL := fracL_pos
    have hzero : crackEnergy F (List.replicate F.cells.length fun _ => 0) (fun _ _ => 0) = 0 := by
      unfold crackEnergy
      refine List.sum_eq_zero fun x hx => ?_
      obtain ⟨p, -, rfl⟩ := List.mem_map.mp hx
      refine sum_eq_zero fun q _ => ?_
      rw [h0]
      simp [Fem.gradAt, Fem.uAt]
    rw [hzero]
    unfold crackEnergy
    refine List.sum_nonneg fun x hx => ?_
    obtain ⟨p, hp, rfl⟩ := List.mem_map.mp hx
    refine sum_nonneg fun q _ => ?_
    rw [h0]
    have := hF.vol p.1 (zipIdx_mem hp) q
    have : 0 ≤ ∑ j, F.gradAt d p.1 q 0 j ^ 2 := sum_nonneg fun _ _ => sq_nonneg _
    positivity
  have hd0 := hmin.2 hz (fun _ _ => 0) he0 n hn
  rw [hm, ← hd0]
  simp only [fracInit]
  split_ifs <;> norm_num

/-- **C98 (uniform history).** Where the history has the same value `H ≥ 0` everywhere, the damage is `2H / (G_c/l + 2H)`: zero without load, below one always, and the residual of this constant field
vanishes at all nodes. -/
theorem C98_uniform (F : Fem nn nq nf nfq dim 1) (hsum : ∀ q b, ∑ a, F.shapeGradsRef q a b = 0) (hone : ∀ q, ∑ a, F.shapeVals q a = 1) (history : List (Fin nq → ℝ)) (H : ℝ) (hH : 0 ≤ H)
    (hh : ∀ k < F.cells.length, ∀ q, (history.getD k 0) q = H) (R : ℕ → Fin 1 → ℝ) (h : (phaseFem F history).computeResidual (fun _ _ => 2 * H / (fracGc / fracL + 2 * H)) = .ok R) :
    (∀ n, R n 0 = 0) ∧ 0 ≤ 2 * H / (fracGc / fracL + 2 * H) ∧ 2 * H / (fracGc / fracL + 2 * H) < 1 := by
  have hG := fracGc_pos
  have hL := fracL_pos
  have hpos : 0 < fracGc / fracL + 2 * H := by positivity
  refine ⟨fun n => ?_, by positivity, ?_⟩
  swap
  · rw [div_lt_one hpos]
    have : 0 < fracGc / fracL := by positivity
    linarith
  set δ := 2 * H / (fracGc / fracL + 2 * H) with hδ
  rw [C13_residual (phaseFem F history) _ R h n 0]
  have hp : (phaseFem F history).cauchy = none := rfl
  have hp2 : (phaseFem F history).neumann = none := rfl
  have hl : ∀ c q i, (phaseFem F history).load c q i = 0 := fun c q i => rfl
  simp only [hp, hp2, hl, Fem.pairs, Option.elim_none, List.map_nil, List.sum_nil, zero_mul, mul_zero, sum_const_zero, add_zero, sub_zero]
  have hz : ((phaseFem F history).cells.map fun c => nodal n c fun _ => (0 : ℝ)).sum = 0 := by
    refine List.sum_eq_zero fun x hx => ?_
    obtain ⟨p, -, rfl⟩ := List.mem_map.mp hx
    simp [nodal]
  rw [hz, sub_zero]
  refine List.sum_eq_zero fun x hx => ?_
  obtain ⟨p, hp', rfl⟩ := List.mem_map.mp hx
  have hk : p.2 < F.cells.length := by
    have := List.mem_zipIdx_iff_getElem?.mp (show (p.1, p.2) ∈ F.cells.zipIdx from hp')
    by_contra hc
    rw [List.getElem?_eq_none (not_lt.mp hc)] at this
    cases this
  have hvol : ∀ a, (phaseFem F history).volTerm (fun _ _ => δ) p.1 p.2 a 0 = 0 := by
    intro a
    unfold Fem.volTerm
    refine sum_eq_zero fun q _ => ?_
    have hg : ∀ j, (phaseFem F history).gradAt (fun _ _ => δ) p.1 q 0 j = 0 := by
      intro j
      show ∑ n, δ * F.shapeGrad p.1 q n j = 0
      rw [← mul_sum]
      simp only [Fem.shapeGrad]
      rw [sum_comm]
      simp only [← sum_mul, hsum, zero_mul, sum_const_zero, mul_zero]
    have hs : ∀ g i j, (phaseFem F history).stress p.2 q g i j = fracGc * fracL * g i j := fun g i j => rfl
    simp only [hs, hg, mul_zero, zero_mul, sum_const_zero, zero_add]
    have hu : (phaseFem F history).uAt (fun _ _ => δ) p.1 q 0 = δ := by
      show ∑ n, δ * F.shapeVals q n = δ
      rw [← mul_sum, hone, mul_one]
    have hm : ∀ u i, (phaseFem F history).massAt p.2 q u i = fracGc / fracL * u i - 2 * (1 - u i) * (history.getD p.2 0) q := fun u i => rfl
    rw [hm, hu, hh p.2 hk q]
    have : fracGc / fracL * δ - 2 * (1 - δ) * H = 0 := by
      have : δ * (fracGc / fracL + 2 * H) = 2 * H := div_mul_cancel₀ _ hpos.ne'
      linear_combination this
    rw [this, zero_mul, zero_mul]
  simp [nodal, hvol]

/-! ## The displacement problem -/

/-- The noise is the diagonal part of a random matrix (example.py 75-77), so it only shifts the argument. -/
theorem stressOpt1_shift (eigh : (Fin dim → Fin dim → ℝ) → Eigh dim) (heigh : ∀ x, IsEigh x (eigh x)) (noise u : Fin dim → Fin dim → ℝ) (hn : ∀ i j, noise i j = noise j i) (d : ℝ) :
    stressOpt1 eigh noise u d = stressOpt2 eigh (fun i j => u i j + noise i j) d := by
  rw [(C97_options eigh heigh noise u d).1]
  unfold stressOpt2
  congr 1
  funext i j
  simp only [Pi.add_apply, fracStrain]
  rw [hn j i]
  ring

/-- **C98 (damage in the stress).** The stress of the displacement problem at a quadrature point is that of the interpolated nodal damage there; a uniform damage is seen as such at every quadrature point. -/
theorem C98_damage (F : Fem nn nq nf nfq dim dim) (hone : ∀ q, ∑ a, F.shapeVals q a = 1) (eigh : (Fin dim → Fin dim → ℝ) → Eigh dim) (heigh : ∀ x, IsEigh x (eigh x)) (noise : Fin dim → Fin dim → ℝ)
    (hn : ∀ i j, noise i j = noise j i) (k : ℕ) (c : Fin nn → ℕ) (hk : F.cells[k]? = some c) (q : Fin nq) (A : Fin dim → Fin dim → ℝ) :
    (∀ sol_d, (fractureFem F eigh noise sol_d).stress k q A = stressOpt2 eigh (fun i j => A i j + noise i j) (∑ a, F.shapeVals q a * sol_d (c a) 0)) ∧
    ∀ d, (fractureFem F eigh noise fun _ _ => d).stress k q A = stressOpt2 eigh (fun i j => A i j + noise i j) d := by
  have h1 : ∀ sol_d, (fractureFem F eigh noise sol_d).stress k q A = stressOpt2 eigh (fun i j => A i j + noise i j) (∑ a, F.shapeVals q a * sol_d (c a) 0) := fun sol_d => by
    have e : ((damageQuad F.cells F.shapeVals sol_d).getD k 0) q 0 = ∑ a, F.shapeVals q a * sol_d (c a) 0 := by
      rw [List.getD_eq_getElem?_getD, damageQuad, List.getElem?_map, hk]
      exact sum_congr rfl fun a _ => mul_comm _ _
    rw [← e]
    exact stressOpt1_shift eigh heigh noise A hn _
  refine ⟨h1, fun d => ?_⟩
  rw [h1, ← sum_mul, hone, one_mul]

theorem fracture_strict (F : Fem nn nq nf nfq dim dim) (eigh : (Fin dim → Fin dim → ℝ) → Eigh dim) (heigh : ∀ x, IsEigh x (eigh x)) (noise : Fin dim → Fin dim → ℝ) (hn : ∀ i j, noise i j = noise j i)
    (sol_d : ℕ → Fin 1 → ℝ) (k : ℕ) (q : Fin nq) (A B : Fin dim → Fin dim → ℝ) :
    0 ≤ ∑ i, ∑ d, ((fractureFem F eigh noise sol_d).stress k q A i d - (fractureFem F eigh noise sol_d).stress k q B i d) * (A i d - B i d) ∧
    (∑ i, ∑ d, ((fractureFem F eigh noise sol_d).stress k q A i d - (fractureFem F eigh noise sol_d).stress k q B i d) * (A i d - B i d) = 0 → ∀ i j, A i j + A j i = B i j + B j i) := by
  set δ := ((damageQuad F.cells F.shapeVals sol_d).getD k 0) q 0
  have hs : ∀ A, (fractureFem F eigh noise sol_d).stress k q A = stressOpt2 eigh (fun i j => A i j + noise i j) δ := fun A => stressOpt1_shift eigh heigh noise A hn δ
  have h1 := C97_monotone eigh heigh (fun i j => A i j + noise i j) (fun i j => B i j + noise i j) δ
  simp only [add_sub_add_right_eq_sub] at h1
  simp only [hs]
  have hm := fracMu_pos
  have hsq : 0 ≤ ∑ i, ∑ j, (fracStrain (fun i j => A i j + noise i j) i j - fracStrain (fun i j => B i j + noise i j) i j) ^ 2 := sum_nonneg fun _ _ => sum_nonneg fun _ _ => sq_nonneg _
  have hc : 0 < 2 * fracMu * 1e-3 := by positivity
  refine ⟨le_trans (mul_nonneg hc.le hsq) h1, fun h0 i j => ?_⟩
  rw [h0] at h1
  have h2 : ∑ i, ∑ j, (fracStrain (fun i j => A i j + noise i j) i j - fracStrain (fun i j => B i j + noise i j) i j) ^ 2 = 0 := by nlinarith
  have h3 := (sum_eq_zero_iff_of_nonneg fun i _ => sum_nonneg fun j _ => sq_nonneg _).mp h2 i (mem_univ i)
  have h4 := (sum_eq_zero_iff_of_nonneg fun j _ => sq_nonneg _).mp h3 j (mem_univ j)
  have h5 := pow_eq_zero_iff (two_ne_zero) |>.mp h4
  simp only [fracStrain] at h5
  linarith

/-- **C98 (displacement).** On a `box_mesh` with all components prescribed at the nodes of a grid plane (the bottom side in the file), for every damage field — also outside `[0, 1]` — and any diagonal noise,
at most one displacement field has the prescribed values and zero residual at the free degrees of freedom. -/
theorem C98_displacement (F : Fem 8 (2 ^ 3) nf nfq 3 3) (N : Fin 3 → ℕ) (L : Fin 3 → ℝ) (hbox : OnBox F N L) (hnum : F.numTotal = (N 0 + 1) * (N 1 + 1) * (N 2 + 1)) (hN : ∀ a, 0 < N a)
    (hL : ∀ a, 0 < L a) (ht : CellTables F hex8 (gaussRule 3)) (eigh : (Fin 3 → Fin 3 → ℝ) → Eigh 3) (heigh : ∀ x, IsEigh x (eigh x)) (noise : Fin 3 → Fin 3 → ℝ) (hn : ∀ i j, noise i j = noise j i)
    (sol_d : ℕ → Fin 1 → ℝ) (pres : List (ℕ × ℝ)) (a : Fin 3) (s : ℕ) (hs : s ≤ N a)
    (hpres : ∀ m : Fin 3 → ℕ, (∀ b, m b ≤ N b) → m a = s → ∀ i : Fin 3, ¬ FreeAt pres (3 * gridNode N m + i)) (u v : ℕ → Fin 3 → ℝ)
    (hu : (fractureFem F eigh noise sol_d).Solves pres u) (hv : (fractureFem F eigh noise sol_d).Solves pres v) (n : ℕ) (hnn : n < F.numTotal) (i : Fin 3) : u n i = v n i := by
  set G := fractureFem F eigh noise sol_d with hG
  have hbox' : OnBox G N L := ⟨hbox.points, hbox.cells⟩
  have ht' : CellTables G hex8 (gaussRule 3) := ⟨ht.vals, ht.grads, ht.weights⟩
  have hh : ∀ a, 0 < L a / N a := fun a => div_pos (hL a) (by exact_mod_cast hN a)
  have hnum' : G.numTotal = (N 0 + 1) * (N 1 + 1) * (N 2 + 1) := hnum
  have hmono : G.Monotone := by
    refine ⟨?_, ?_, fun k q A B => (fracture_strict F eigh heigh noise hn sol_d k q A B).1, ?_, ?_⟩
    · intro c hc p
      obtain ⟨g, hg, rfl⟩ := (hbox'.mem_cells c).mp hc
      rw [hnum']
      rw [mem_boxGrid] at hg
      exact gridNode_lt N _ fun a => by have := hg a; have := hexCorner_le p a; omega
    · intro c hc q
      obtain ⟨g, hg, rfl⟩ := (hbox'.mem_cells c).mp hc
      rw [hbox'.JxW _ ht' g hg]
      exact mul_pos (prod_pos fun a _ => hh a) (gauss_w_pos 3 q)
    · intro k q a b
      simp [Fem.massAt, hG, fractureFem]
    · intro lv hlv
      have : G.cauchy = none := rfl
      simp [this, Fem.pairs] at hlv
  have hrigid : G.RigidModes := by
    refine C88_rigid_hex8 _ ht' fun c hc => ?_
    obtain ⟨g, hg, rfl⟩ := (hbox'.mem_cells c).mp hc
    refine ⟨fun a => g a * (L a / N a), fun a => L a / N a, fun a => (hh a).ne', fun p a => ?_⟩
    rw [hbox'.corner g hg]
    push_cast
    ring
  obtain ⟨Ru, hRu, hsu⟩ := hu
  obtain ⟨Rv, hRv, hsv⟩ := hv
  refine C88_unique G hmono (fun k q A B => (fracture_strict F eigh heigh noise hn sol_d k q A B).2) hrigid (fun n i => n < G.numTotal ∧ ¬ FreeAt pres (3 * n + i)) (fun n hn => ?_) u v Ru Rv hRu hRv
    (fun n i h => ?_) (fun n hn i h => ?_) n hnn i
  · rw [hnum'] at hn
    obtain ⟨m, hm, rfl⟩ := gridNode_surj N n hn
    refine box_held hbox' hN hL _ a s hs (fun m hm hma i => ⟨?_, hpres m hm hma i⟩) m hm
    rw [hnum']
    exact gridNode_lt N m hm
  · obtain ⟨w, hw⟩ := (free_or_last pres (3 * n + i)).resolve_left h.2
    rw [(hsu n h.1 i).1 w hw, (hsv n h.1 i).1 w hw]
  · have hf : FreeAt pres (3 * n + i) := by
      by_contra hne
      exact h ⟨hn, hne⟩
    rw [(hsu n hn i).2 hf, (hsv n hn i).2 hf]

/-- **C98 (box mesh).** The mesh of the file (any `box_mesh` with the 2x2x2 rule) is sound in the sense needed above. -/
theorem C98_box (F : Fem 8 (2 ^ 3) nf nfq 3 1) (N : Fin 3 → ℕ) (L : Fin 3 → ℝ) (hbox : OnBox F N L) (hnum : F.numTotal = (N 0 + 1) * (N 1 + 1) * (N 2 + 1)) (hN : ∀ a, 0 < N a)
    (hL : ∀ a, 0 < L a) (ht : CellTables F hex8 (gaussRule 3)) : F.Sound := by
  have hh : ∀ a, 0 < L a / N a := fun a => div_pos (hL a) (by exact_mod_cast hN a)
  have hvol : ∀ c ∈ F.cells, ∀ q, 0 < F.JxW c q := by
    intro c hc q
    obtain ⟨g, hg, rfl⟩ := (hbox.mem_cells c).mp hc
    rw [hbox.JxW _ ht g hg]
    exact mul_pos (prod_pos fun a _ => hh a) (gauss_w_pos 3 q)
  refine ⟨?_, hvol, ?_, ?_, ?_, by norm_num, ?_⟩
  · intro c hc p
    obtain ⟨g, hg, rfl⟩ := (hbox.mem_cells c).mp hc
    rw [hnum]
    rw [mem_boxGrid] at hg
    exact gridNode_lt N _ fun a => by have := hg a; have := hexCorner_le p a; omega
  · refine C86_modes_hex8 F ht fun c hc q h0 => ?_
    have := hvol c hc q
    unfold Fem.JxW at this
    rw [h0, zero_mul] at this
    exact lt_irrefl _ this
  · exact (Tabulated.sums (name := "HEX8") (by decide) getElements_hex8 (by rw [meshioNodes_HEX8]; rfl) (pts := (gaussRule 3).pt) ⟨ht.vals, ht.grads⟩).2
  · intro n hn
    rw [hnum] at hn
    obtain ⟨m, hm, rfl⟩ := gridNode_surj N n hn
    obtain ⟨p, hp⟩ := hexCorner_surj (fun b => m b - min (m b) (N b - 1)) fun b => by have := hm b; omega
    refine ⟨boxCell N fun b => min (m b) (N b - 1), (hbox.mem_cells _).mpr ⟨_, (mem_boxGrid N _).mpr fun b => by have := hN b; omega, rfl⟩, p, ?_⟩
    unfold boxCell
    congr 1
    funext b
    rw [hp]
    have := hm b
    dsimp only
    omega
  · intro h
    have : boxCell N (fun _ => 0) ∈ F.cells := (hbox.mem_cells _).mpr ⟨fun _ => 0, (mem_boxGrid N _).mpr hN, rfl⟩
    rw [h] at this
    cases this

/-! ## The reported force -/

/-- **C98 (reported force).** `compute_traction` for an affine displacement `A x + b` and a uniform damage `δ` returns the third column of the stress times the area of the selected faces, whatever side
is selected. -/
theorem C98_traction (F : Fem nn nq nf nfq 3 3) (hsum : ∀ f q b, ∑ n, F.faceShapeGradsRef f q n b = 0) (hone : ∀ f q, ∑ n, F.faceShapeVals f q n = 1)
    (stress : (Fin 3 → Fin 3 → ℝ) → ℝ → Fin 3 → Fin 3 → ℝ) (loc : Loc 3) (A : Fin 3 → Fin 3 → ℝ) (b : Fin 3 → ℝ) (δ : ℝ) (sol_u : ℕ → Fin 3 → ℝ) (sol_d : ℕ → Fin 1 → ℝ)
    (hsol : ∀ c ∈ F.cells, ∀ n i, sol_u (c n) i = ∑ d, A i d * F.points (c n) d + b i) (hd : ∀ c ∈ F.cells, ∀ n, sol_d (c n) 0 = δ)
    (hdet : ∀ p ∈ F.selected loc, ∀ q, (F.faceJacobian p.1 p.2 q).det ≠ 0) :
    fractureTraction F stress loc sol_u sol_d = .ok fun i => stress A δ i 2 * F.selectedArea loc := by
  unfold fractureTraction
  dsimp only [bind, Except.bind, pure, Except.pure]
  rw [selectFaces_boundaryInds, (getFaceShapeGrads_ok_iff F (F.selected loc) _).mpr ⟨hdet, rfl⟩]
  simp only [if_true, zip_map_self, List.map_map, List.zip_map', Function.comp_def]
  congr 1
  funext i
  unfold Fem.selectedArea
  rw [← list_sum_mul]
  refine sum_map_congr fun p hp => ?_
  rw [mul_sum]
  refine sum_congr rfl fun q _ => ?_
  have hA : (fun i d => ∑ n, sol_u (p.1 n) i * F.faceShapeGrad p.1 p.2 q n d) = A := gradFace_affine F hsum A b sol_u p (hsol p.1 (selected_mem F hp)) q (hdet p hp q)
  have hδ : ∑ n, sol_d (p.1 n) 0 * F.faceShapeVals p.2 q n = δ := by
    simp only [hd p.1 (selected_mem F hp), ← mul_sum, hone, mul_one]
  rw [hA, hδ]
  simp [Fin.sum_univ_three]

/-- Specification: uniaxial strain `e` in the loading direction `y` of the file. -/
def uniaxialY (e : ℝ) : Fin 3 → Fin 3 → ℝ := fun i j => if i = 1 ∧ j = 1 then e else 0

/-- **C98 (wrong component).** The file reports the last component of the traction on the side `y = Ly`. In uniaxial tension along `y` the true normal stress on that side is `g(δ)(λ + 2μ)e`, but the reported
number uses the normal `(0, 0, 1)` and is `g(δ) λ e` per area: 3/7 of the force that is meant. -/
theorem C98_force_wrong (eigh : (Fin 3 → Fin 3 → ℝ) → Eigh 3) (heigh : ∀ x, IsEigh x (eigh x)) (e δ : ℝ) (he : 0 < e) :
    stressOpt2 eigh (uniaxialY e) δ 1 1 = degrade δ * (fracLmbda + 2 * fracMu) * e ∧ stressOpt2 eigh (uniaxialY e) δ 2 2 = degrade δ * fracLmbda * e ∧
    stressOpt2 eigh (uniaxialY e) δ 2 2 = 3 / 7 * stressOpt2 eigh (uniaxialY e) δ 1 1 := by
  have h := (C97_unilateral eigh heigh (uniaxialY e) δ).2 fun v => by
    simp only [uniaxialY, Fin.sum_univ_three]
    simp
    nlinarith [mul_nonneg he.le (mul_self_nonneg (v 1))]
  rw [h]
  have h1 : (degrade δ • hookeStress (fracStrain (uniaxialY e))) 1 1 = degrade δ * (fracLmbda + 2 * fracMu) * e := by
    simp only [Pi.smul_apply, smul_eq_mul, hookeStress, fracStrain, uniaxialY, Fin.sum_univ_three]
    simp
    ring
  have h2 : (degrade δ • hookeStress (fracStrain (uniaxialY e))) 2 2 = degrade δ * fracLmbda * e := by
    simp only [Pi.smul_apply, smul_eq_mul, hookeStress, fracStrain, uniaxialY, Fin.sum_univ_three]
    simp
    ring
  refine ⟨h1, h2, ?_⟩
  rw [h1, h2]
  unfold fracLmbda fracMu
  ring

/-- Instance: a scripted run with two loads. The first displacement stores the energy 4, the second 1: the damage still comes from the history before, and the history keeps 4. -/
noncomputable def toySolvers : FracSolvers 1 1 where
  solveU _ disp := .ok fun _ _ => disp
  solveD h := .ok fun _ _ => 2 * (h.getD 0 0) 0 / (1 + 2 * (h.getD 0 0) 0)
  update u old := .ok (old.map fun f q => max (u 0 0 ^ 2) (f q))
  numNodes := 1

example : ∃ a b, toySolvers.run true 1 [2, 1] (fracInit 1 fun _ => false) = .ok (some [a, b]) ∧ a.sol_d 0 0 = 0 ∧ b.sol_d 0 0 = 8 / 9 ∧ (b.history.getD 0 0) 0 = 4 := by
  refine ⟨_, _, rfl, ?_, ?_, ?_⟩ <;> norm_num [fracInit]

end Verif.Fem
