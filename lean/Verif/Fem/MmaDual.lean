import Verif.Fem.MmaOpt

/-!
# What the returned point of `subsolv` guarantees (C74)

The subproblem in the form of Svanberg: minimise `f0(x) + a0 z + Σ (c_i y_i + d_i y_i²/2)` subject to `g_i(x) - a_i z - y_i ≤ b_i`, `alfa ≤ x ≤ beta`, `y, z ≥ 0`. The specification below mentions none of the intermediate
quantities of the code.
-/
namespace Verif.Fem.Mma
open Finset

variable {ι κ : Type} [Fintype ι] [Fintype κ]

/-- Objective of the subproblem. -/
noncomputable def cost (S : Sub ι κ) (x : ι → ℝ) (y : κ → ℝ) (z : ℝ) : ℝ :=
  sep S.p0 S.q0 S.low S.upp 0 x + S.a0 * z + ∑ i, (S.c i * y i + S.d i / 2 * y i ^ 2)

/-- Feasible points of the subproblem up to a constraint violation `δ`. -/
def Feasible (S : Sub ι κ) (δ : ℝ) (x : ι → ℝ) (y : κ → ℝ) (z : ℝ) : Prop :=
  (∀ j, S.alfa j ≤ x j ∧ x j ≤ S.beta j) ∧ (∀ i, 0 ≤ y i) ∧ 0 ≤ z ∧ ∀ i, sep (S.P i) (S.Q i) S.low S.upp 0 x - S.a i * z - y i ≤ S.b i + δ

theorem tangent_recip {A B : ℝ} (hA : 0 < A) (hB : 0 < B) : 1 / A + (A - B) / A ^ 2 ≤ 1 / B := by
  have h : 1 / B - (1 / A + (A - B) / A ^ 2) = (A - B) ^ 2 / (A ^ 2 * B) := by
    field_simp
    ring
  have : 0 ≤ (A - B) ^ 2 / (A ^ 2 * B) := by positivity
  linarith

theorem sep_plam (S : Sub ι κ) (p : Pt ι κ) (x : ι → ℝ) :
    ∑ j, (plam S p j * (1 / (S.upp j - x j)) + qlam S p j * (1 / (x j - S.low j))) = sep S.p0 S.q0 S.low S.upp 0 x + ∑ i, p.lam i * sep (S.P i) (S.Q i) S.low S.upp 0 x := by
  unfold sep plam qlam
  have h : ∀ i, p.lam i * (∑ j, (S.P i j / (S.upp j - x j) + S.Q i j / (x j - S.low j)) + 0) = ∑ j, (S.P i j * p.lam i * (1 / (S.upp j - x j)) + S.Q i j * p.lam i * (1 / (x j - S.low j))) := by
    intro i
    rw [add_zero, mul_sum]
    refine sum_congr rfl fun j _ => ?_
    rw [div_eq_mul_one_div, div_eq_mul_one_div (S.Q i j)]
    ring
  rw [sum_congr rfl fun i _ => h i, sum_comm, add_zero, ← sum_add_distrib]
  refine sum_congr rfl fun j _ => ?_
  rw [sum_add_distrib, ← sum_mul, ← sum_mul, div_eq_mul_one_div, div_eq_mul_one_div (S.q0 j)]
  ring

theorem sep_eq_gvec (S : Sub ι κ) (p : Pt ι κ) (i : κ) : sep (S.P i) (S.Q i) S.low S.upp 0 p.x = gvec S p i := by
  unfold sep gvec
  rw [add_zero, sum_add_distrib]
  congr 1 <;> exact sum_congr rfl fun j _ => div_eq_mul_one_div _ _

/-- **C74 (gap).** For an interior point the excess of its cost over the cost of any feasible point is bounded by the residual of the optimality conditions computed by the code. -/
theorem C74_gap (S : Sub ι κ) (hS : S.WF) (epsi : ℝ) (p : Pt ι κ) (hp : Interior S p) (x : ι → ℝ) (y : κ → ℝ) (z : ℝ) (hw : Feasible S 0 x y z) (δ : ℝ) (hδ : ∀ k, |residu S epsi p k| ≤ δ) :
    Feasible S δ p.x p.y p.z ∧
    cost S p.x p.y p.z ≤ cost S x y z + (epsi + δ) * (2 * Fintype.card ι + 2 * Fintype.card κ + 1) + δ * (∑ j, |p.x j - x j| + ∑ i, (|p.y i - y i| + p.lam i) + |p.z - z|) := by
  obtain ⟨ix, iy, iz, il, ixs, iet, imu, ize, is⟩ := hp
  obtain ⟨wx, wy, wz, wg⟩ := hw
  have mulb : ∀ r u : ℝ, |r| ≤ δ → r * u ≤ δ * |u| := fun r u h =>
    calc r * u ≤ |r * u| := le_abs_self _
      _ = |r| * |u| := abs_mul _ _
      _ ≤ δ * |u| := mul_le_mul_of_nonneg_right h (abs_nonneg _)
  have gv := sep_eq_gvec S p
  constructor
  · refine ⟨fun j => ⟨(ix j).1.le, (ix j).2.le⟩, fun i => (iy i).le, iz.le, fun i => ?_⟩
    have h : |gvec S p i - S.a i * p.z - p.y i + p.s i - S.b i| ≤ δ := hδ (Sum.inr (Sum.inl i))
    have := (abs_le.mp h).2
    rw [gv]
    linarith [is i]
  -- design variables
  have hJ : ∀ j, plam S p j * (1 / (S.upp j - p.x j)) + qlam S p j * (1 / (p.x j - S.low j)) ≤
      plam S p j * (1 / (S.upp j - x j)) + qlam S p j * (1 / (x j - S.low j)) + (δ * |p.x j - x j| + 2 * (epsi + δ)) := by
    intro j
    have hpl : 0 ≤ plam S p j := add_nonneg (hS.p0 j).1 (sum_nonneg fun i _ => mul_nonneg (hS.pq i j).1 (il i).le)
    have hql : 0 ≤ qlam S p j := add_nonneg (hS.p0 j).2 (sum_nonneg fun i _ => mul_nonneg (hS.pq i j).2 (il i).le)
    have u1 : 0 < S.upp j - p.x j := by linarith [(ix j).2, hS.upp j]
    have u2 : 0 < S.upp j - x j := by linarith [(wx j).2, hS.upp j]
    have l1 : 0 < p.x j - S.low j := by linarith [(ix j).1, hS.low j]
    have l2 : 0 < x j - S.low j := by linarith [(wx j).1, hS.low j]
    have t1 := mul_le_mul_of_nonneg_left (tangent_recip u1 u2) hpl
    have t2 := mul_le_mul_of_nonneg_left (tangent_recip l1 l2) hql
    have e : plam S p j * ((S.upp j - p.x j - (S.upp j - x j)) / (S.upp j - p.x j) ^ 2) + qlam S p j * ((p.x j - S.low j - (x j - S.low j)) / (p.x j - S.low j) ^ 2) = dpsidx S p j * (x j - p.x j) := by
      unfold dpsidx
      field_simp
      ring
    have r1 : |dpsidx S p j - p.xsi j + p.eta j| ≤ δ := hδ (Sum.inl (Sum.inl j))
    have r2 : |p.xsi j * (p.x j - S.alfa j) - epsi| ≤ δ := hδ (Sum.inr (Sum.inr (Sum.inl j)))
    have r3 : |p.eta j * (S.beta j - p.x j) - epsi| ≤ δ := hδ (Sum.inr (Sum.inr (Sum.inr (Sum.inl j))))
    have b1 := mulb _ (p.x j - x j) r1
    have b2 := (abs_le.mp r2).2
    have b3 := (abs_le.mp r3).2
    have c1 := mul_nonneg (ixs j).le (sub_nonneg.mpr (wx j).1)
    have c2 := mul_nonneg (iet j).le (sub_nonneg.mpr (wx j).2)
    rw [mul_add] at t1 t2
    nlinarith
  -- slack variables and constraints
  have hI : ∀ i, S.c i * p.y i + S.d i / 2 * p.y i ^ 2 + p.lam i * sep (S.P i) (S.Q i) S.low S.upp 0 x + S.a i * p.lam i * (p.z - z) ≤
      S.c i * y i + S.d i / 2 * y i ^ 2 + p.lam i * sep (S.P i) (S.Q i) S.low S.upp 0 p.x + (δ * (|p.y i - y i| + p.lam i) + 2 * (epsi + δ)) := by
    intro i
    have r1 : |S.c i + S.d i * p.y i - p.mu i - p.lam i| ≤ δ := hδ (Sum.inl (Sum.inr (Sum.inl i)))
    have r2 : |gvec S p i - S.a i * p.z - p.y i + p.s i - S.b i| ≤ δ := hδ (Sum.inr (Sum.inl i))
    have r3 : |p.mu i * p.y i - epsi| ≤ δ := hδ (Sum.inr (Sum.inr (Sum.inr (Sum.inr (Sum.inl i)))))
    have r4 : |p.lam i * p.s i - epsi| ≤ δ := hδ (Sum.inr (Sum.inr (Sum.inr (Sum.inr (Sum.inr (Sum.inr i))))))
    have b1 := mulb _ (p.y i - y i) r1
    have b2 : -(δ * p.lam i) ≤ p.lam i * (gvec S p i - S.a i * p.z - p.y i + p.s i - S.b i) := by
      have := mul_le_mul_of_nonneg_left (abs_le.mp r2).1 (il i).le
      linarith
    have b3 := (abs_le.mp r3).2
    have b4 := (abs_le.mp r4).2
    have g1 := mul_le_mul_of_nonneg_left (wg i) (il i).le
    have c1 := mul_nonneg (imu i).le (wy i)
    have q : 0 ≤ S.d i / 2 * (p.y i - y i) ^ 2 := mul_nonneg (div_nonneg (hS.d i) two_pos.le) (sq_nonneg _)
    rw [gv]
    nlinarith
  have hZ : S.a0 * p.z ≤ S.a0 * z + (∑ i, S.a i * p.lam i) * (p.z - z) + (δ * |p.z - z| + (epsi + δ)) := by
    have r1 : |S.a0 - p.zet - ∑ i, S.a i * p.lam i| ≤ δ := hδ (Sum.inl (Sum.inr (Sum.inr ())))
    have r2 : |p.zet * p.z - epsi| ≤ δ := hδ (Sum.inr (Sum.inr (Sum.inr (Sum.inr (Sum.inr (Sum.inl ()))))))
    have b1 := mulb _ (p.z - z) r1
    have b2 := (abs_le.mp r2).2
    have c1 := mul_nonneg ize.le wz
    nlinarith
  have sJ := sum_le_sum fun j (_ : j ∈ univ) => hJ j
  have sI := sum_le_sum fun i (_ : i ∈ univ) => hI i
  rw [sep_plam S p p.x, sum_add_distrib, sep_plam S p x] at sJ
  simp only [sum_add_distrib, ← mul_sum, ← sum_mul, sum_const, card_univ, nsmul_eq_mul] at sJ sI
  unfold cost
  simp only [sum_add_distrib, ← mul_sum, ← sum_mul, sum_const, card_univ, nsmul_eq_mul]
  linarith

section
variable [DecidableEq ι] [DecidableEq κ]

/-- The recorded residual of a Newton state is the residual at its point, and the recorded maximum is an upper bound. -/
def Recorded (S : Sub ι κ) (epsi : ℝ) (st : Newton ι κ) : Prop := st.residu = residu S epsi st.p ∧ ∀ k, |st.residu k| ≤ st.residumax

theorem halving_recorded (fuel : ℕ) (S : Sub ι κ) (epsi : ℝ) (pold d : Pt ι κ) (rn : ℝ) (st h : Halving ι κ) (h0 : st.residu = residu S epsi st.p) (hh : halvingLoop fuel S epsi pold d rn st = .ok h) :
    h.residu = residu S epsi h.p :=
  (whileE_inv (fun st : Halving ι κ => st.residu = residu S epsi st.p) (fun s _ _ s' hb => by
    injection hb with hb
    subst hb
    rfl) fuel _ h h0 hh).1

theorem newtonPass_recorded (fuel : ℕ) (solve : LinSolve) (S : Sub ι κ) (epsi : ℝ) (st st' : Newton ι κ) (h0 : Recorded S epsi st) (h : newtonPass fuel solve S epsi st = .ok st') : Recorded S epsi st' := by
  unfold newtonPass at h
  cases h1 : reduced solve S epsi st.p with
  | error e => rw [h1] at h; cases h
  | ok r =>
  obtain ⟨dx, dz, dlam⟩ := r
  rw [h1] at h
  dsimp only [bind, Except.bind] at h
  cases h2 : stepLength S st.p (extend S epsi st.p dx dz dlam) with
  | error e => rw [h2] at h; cases h
  | ok steg =>
  rw [h2] at h
  dsimp only at h
  cases h3 : halvingLoop fuel S epsi st.p (extend S epsi st.p dx dz dlam) st.residunorm { p := st.p, residu := st.residu, resinew := 2 * st.residunorm, steg := steg, itto := 0 } with
  | error e => rw [h3] at h; cases h
  | ok hv =>
  rw [h3] at h
  dsimp only at h
  cases h4 : npMax (fun k => |hv.residu k|) with
  | error e => rw [h4] at h; cases h
  | ok rm =>
  rw [h4] at h
  injection h with h
  subst h
  exact ⟨halving_recorded fuel S epsi _ _ _ _ hv h0.1 h3, fun k => npMax_ok h4 k⟩

/-- State in which a barrier pass enters its Newton loop. -/
noncomputable def newtonStart (S : Sub ι κ) (st : Pt ι κ × ℝ) (rm : ℝ) : Newton ι κ := { p := st.1, residu := residu S st.2 st.1, residunorm := resNorm (residu S st.2 st.1), residumax := rm, ittt := 0 }

/-- The exit of a barrier pass: either the residual is below the tolerance or the Newton loop used all its 200 passes. -/
theorem barrierPass_exit (f1 f2 : ℕ) (solve : LinSolve) (S : Sub ι κ) (st st' : Pt ι κ × ℝ) (h : barrierPass f1 f2 solve S st = .ok st') :
    (∀ k, |residu S st.2 st'.1 k| ≤ 0.9 * st.2) ∨ ∃ rm nw, newtonLoop f1 f2 solve S st.2 (newtonStart S st rm) = .ok nw ∧ nw.p = st'.1 ∧ nw.ittt = 200 := by
  unfold barrierPass at h
  dsimp only [bind, Except.bind] at h
  cases h1 : npMax (fun k => |residu S st.2 st.1 k|) with
  | error e => rw [h1] at h; cases h
  | ok rm =>
  rw [h1] at h
  dsimp only at h
  cases h2 : newtonLoop f1 f2 solve S st.2 { p := st.1, residu := residu S st.2 st.1, residunorm := resNorm (residu S st.2 st.1), residumax := rm, ittt := 0 } with
  | error e => rw [h2] at h; cases h
  | ok nw =>
  rw [h2] at h
  injection h with h
  subst h
  obtain ⟨⟨hr, hle⟩, hc⟩ := whileE_inv (fun s : Newton ι κ => Recorded S st.2 s ∧ s.ittt ≤ 200) (fun s hI hc s' hb =>
    ⟨newtonPass_recorded f2 solve S st.2 s s' hI.1 hb, by rw [newtonPass_ittt f2 solve S st.2 s s' hb]; exact hc.2⟩) f1 _ nw ⟨⟨rfl, fun k => npMax_ok h1 k⟩, Nat.zero_le _⟩ h2
  by_cases hm : nw.residumax > 0.9 * st.2
  · refine .inr ⟨rm, nw, h2, rfl, le_antisymm hle ?_⟩
    by_contra hlt
    exact hc ⟨hm, not_le.mp hlt⟩
  · refine .inl fun k => ?_
    rw [← hr.1]
    exact (hr.2 k).trans (not_lt.mp hm)

/-- **C74 (returned point).** When `subsolv` returns, either the last Newton loop exhausted its 200 passes, or the returned point violates the constraints by at most `9e-7` and its cost exceeds the cost of every feasible point of the
subproblem by at most the stated multiple of `1e-6`. -/
theorem C74_result (f1 f2 n : ℕ) (solve : LinSolve) (S : Sub ι κ) (hS : S.WF) (p : Pt ι κ) (h : subsolv (n, f1, f2) solve 0.0000001 S = .ok p) :
    (∃ (st : Pt ι κ × ℝ) (rm : ℝ) (nw : Newton ι κ), 0.0000001 < st.2 ∧ st.2 ≤ 0.000001 ∧ newtonLoop f1 f2 solve S st.2 (newtonStart S st rm) = .ok nw ∧ nw.p = p ∧ nw.ittt = 200) ∨
    (Feasible S 0.0000009 p.x p.y p.z ∧ ∀ x y z, Feasible S 0 x y z →
      cost S p.x p.y p.z ≤ cost S x y z + 0.0000019 * (2 * Fintype.card ι + 2 * Fintype.card κ + 1) + 0.0000009 * (∑ j, |p.x j - x j| + ∑ i, (|p.y i - y i| + p.lam i) + |p.z - z|)) := by
  have hint := C34_interior _ solve _ S hS.mid p h
  unfold subsolv at h
  dsimp only [bind, Except.bind] at h
  cases h1 : whileE (fun st : Pt ι κ × ℝ => st.2 > 0.0000001) (barrierPass f1 f2 solve S) n (start S, 1) with
  | error e => rw [h1] at h; cases h
  | ok st =>
  rw [h1] at h
  injection h with h
  subst h
  obtain ⟨hI, hc⟩ := whileE_inv (fun s : Pt ι κ × ℝ => Interior S s.1 ∧ (s = (start S, 1) ∨ ∃ prev : Pt ι κ × ℝ, prev.2 > 0.0000001 ∧ Interior S prev.1 ∧ barrierPass f1 f2 solve S prev = .ok s))
    (fun s hI hc s' hb => ⟨(barrierPass_interior f1 f2 solve S s s' hI.1 hb).1, .inr ⟨s, hc, hI.1, hb⟩⟩) n _ st ⟨start_interior S hS.mid, .inl rfl⟩ h1
  rcases hI.2 with rfl | ⟨prev, hprev, hpi, hb⟩
  · exact absurd (by norm_num : (1 : ℝ) > 0.0000001) hc
  have he := (barrierPass_interior f1 f2 solve S prev st hpi hb).2
  have hle : prev.2 ≤ 0.000001 := by
    have := not_lt.mp hc
    rw [he] at this
    linarith
  rcases barrierPass_exit f1 f2 solve S prev st hb with hr | ⟨rm, nw, a1, a2, a3⟩
  · right
    have hδ : ∀ k, |residu S prev.2 st.1 k| ≤ 0.0000009 := fun k => (hr k).trans (by linarith)
    have hgap := fun x y z hw => C74_gap S hS prev.2 st.1 hint x y z hw 0.0000009 hδ
    refine ⟨⟨fun j => ⟨(hint.1 j).1.le, (hint.1 j).2.le⟩, fun i => (hint.2.1 i).le, hint.2.2.1.le, fun i => ?_⟩, fun x y z hw => ((hgap x y z hw).2).trans ?_⟩
    · have h : |gvec S st.1 i - S.a i * st.1.z - st.1.y i + st.1.s i - S.b i| ≤ 0.0000009 := hδ (Sum.inr (Sum.inl i))
      have := (abs_le.mp h).2
      rw [sep_eq_gvec]
      have := hint.2.2.2.2.2.2.2.2 i
      linarith
    · have : (prev.2 + 0.0000009) * (2 * Fintype.card ι + 2 * Fintype.card κ + 1) ≤ 0.0000019 * (2 * Fintype.card ι + 2 * Fintype.card κ + 1) :=
        mul_le_mul_of_nonneg_right (by linarith) (by positivity)
      linarith
  · exact .inl ⟨prev, rm, nw, hprev, hle, a1, a2, a3⟩

end

/-- One variable, one constraint: the hypotheses of the theorems are satisfiable and the subproblem has feasible points. -/
noncomputable def oneVar : Sub Unit Unit where
  low := fun _ => -1
  upp := fun _ => 2
  alfa := fun _ => 0
  beta := fun _ => 1
  p0 := fun _ => 1
  q0 := fun _ => 2
  P := fun _ _ => 1
  Q := fun _ _ => 0
  a0 := 1
  a := fun _ => 0
  b := fun _ => 3 / 4
  c := fun _ => 1000
  d := fun _ => 0

theorem oneVar_wf : oneVar.WF := by
  constructor <;> intros <;> norm_num [oneVar]

example : Feasible oneVar 0 (fun _ => 1 / 2) (fun _ => 0) 0 := by
  refine ⟨fun _ => ?_, fun _ => le_rfl, le_rfl, fun _ => ?_⟩ <;> norm_num [oneVar, sep]

example : ∃ solve p, subsolv (7, 200, 50) solve 0.0000001 oneVar = .ok p ∧ 0 < p.x () ∧ p.x () < 1 := by
  obtain ⟨solve, hex⟩ := exists_exact
  obtain ⟨p, hp, hi⟩ := C73_subsolv solve hex oneVar oneVar_wf
  exact ⟨solve, p, hp, (hi.1 ()).1, (hi.1 ()).2⟩

/-- The first Newton direction from the starting point exists and annihilates the linearised residual. -/
example : ∃ solve dx dz dlam, reduced solve oneVar 1 (start oneVar) = .ok (dx, dz, dlam) ∧
    ∀ k, HasDerivAt (fun t : ℝ => residu oneVar 1 ((start oneVar).move t (extend oneVar 1 (start oneVar) dx dz dlam)) k) (-residu oneVar 1 (start oneVar) k) 0 := by
  obtain ⟨solve, hex⟩ := exists_exact
  exact ⟨solve, C72_newton solve hex oneVar 1 (start oneVar) oneVar_wf (start_interior _ oneVar_wf.mid)⟩

end Verif.Fem.Mma
