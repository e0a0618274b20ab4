import Verif.Fem.MmaProps
import Mathlib.Algebra.BigOperators.Field

/-!
# The search direction and totality of the method of moving asymptotes (C72, C73)
-/
namespace Verif.Fem.Mma
open Finset

variable {ι κ : Type} [Fintype ι] [Fintype κ] [DecidableEq ι] [DecidableEq κ]

/-- What the linear solver is asked for: the solution of every nonsingular system. -/
def LinSolve.Exact (solve : LinSolve) : Prop :=
  ∀ (ω : Type) [Fintype ω] [DecidableEq ω] (M : Matrix ω ω ℝ) (v : ω → ℝ), M.det ≠ 0 → ∃ x, solve.run ω M v = .ok x ∧ M.mulVec x = v

/-- The hypotheses under which `subsolv` is called (established by `C33_bounds` and `coef_pos`). -/
structure Sub.WF (S : Sub ι κ) : Prop where
  low : ∀ j, S.low j < S.alfa j
  mid : ∀ j, S.alfa j < S.beta j
  upp : ∀ j, S.beta j < S.upp j
  p0 : ∀ j, 0 ≤ S.p0 j ∧ 0 ≤ S.q0 j
  pq : ∀ i j, 0 ≤ S.P i j ∧ 0 ≤ S.Q i j
  d : ∀ i, 0 ≤ S.d i

theorem quad_gg (w : ι → ℝ) (G : κ → ι → ℝ) (u : κ → ℝ) : ∑ i, u i * ∑ i', (∑ j, (1 / w j * G i j) * G i' j) * u i' = ∑ j, 1 / w j * (∑ i, G i j * u i) ^ 2 := by
  have h : ∀ j, 1 / w j * (∑ i, G i j * u i) ^ 2 = ∑ i, ∑ i', u i * ((1 / w j * G i j) * G i' j * u i') := by
    intro j
    rw [sq, sum_mul_sum, mul_sum]
    refine sum_congr rfl fun i _ => ?_
    rw [mul_sum]
    exact sum_congr rfl fun i' _ => by ring
  simp only [h]
  rw [sum_comm]
  refine sum_congr rfl fun i _ => ?_
  rw [sum_comm, mul_sum]
  refine sum_congr rfl fun i' _ => ?_
  rw [sum_mul, mul_sum]

/-- The reduced matrix of the branch `m < n` is nonsingular. -/
theorem matLam_det (S : Sub ι κ) (p : Pt ι κ) (hS : S.WF) (hp : Interior S p) : (matLam S p).det ≠ 0 := by
  obtain ⟨hx, hy, hz⟩ := C34_denominators S p hp hS.low hS.upp hS.p0 hS.pq hS.d
  have hzet : 0 < p.zet := hp.2.2.2.2.2.2.2.1
  intro hdet
  obtain ⟨v, hv, hmv⟩ := Matrix.exists_mulVec_eq_zero_iff.mpr hdet
  set u : κ → ℝ := fun i => v (Sum.inl i) with hu
  set w : ℝ := v (Sum.inr ()) with hw
  have r1 : ∀ i, diaglamyi S p i * u i + ∑ i', (∑ j, (1 / diagx S p j * gg S p i j) * gg S p i' j) * u i' + S.a i * w = 0 := by
    intro i
    have := congrFun hmv (Sum.inl i)
    simp only [matLam, Matrix.mulVec, dotProduct, Fintype.sum_sum_type, Matrix.fromBlocks_apply₁₁, Matrix.fromBlocks_apply₁₂, Matrix.of_apply, Pi.zero_apply, univ_unique, sum_singleton, add_mul, sum_add_distrib,
      ite_mul, zero_mul, sum_ite_eq, mem_univ, if_true] at this
    exact this
  have r2 : ∑ i, S.a i * u i + -p.zet / p.z * w = 0 := by
    have := congrFun hmv (Sum.inr ())
    simp only [matLam, Matrix.mulVec, dotProduct, Fintype.sum_sum_type, Matrix.fromBlocks_apply₂₁, Matrix.fromBlocks_apply₂₂, Matrix.of_apply, Pi.zero_apply, univ_unique, sum_singleton] at this
    exact this
  have hq : ∑ i, diaglamyi S p i * u i ^ 2 + ∑ j, 1 / diagx S p j * (∑ i, gg S p i j * u i) ^ 2 + p.zet / p.z * w ^ 2 = 0 := by
    have h1 : ∑ i, u i * (diaglamyi S p i * u i + ∑ i', (∑ j, (1 / diagx S p j * gg S p i j) * gg S p i' j) * u i' + S.a i * w) = 0 := by simp only [r1, mul_zero, sum_const_zero]
    simp only [mul_add, sum_add_distrib] at h1
    rw [quad_gg] at h1
    have h2 : ∑ i, u i * (S.a i * w) = (p.zet / p.z * w) * w := by
      have : ∑ i, u i * (S.a i * w) = (∑ i, S.a i * u i) * w := by
        rw [sum_mul]
        exact sum_congr rfl fun i _ => by ring
      rw [this]
      have : ∑ i, S.a i * u i = p.zet / p.z * w := by rw [neg_div] at r2; linarith
      rw [this]
    have h3 : ∑ i, u i * (diaglamyi S p i * u i) = ∑ i, diaglamyi S p i * u i ^ 2 := sum_congr rfl fun i _ => by ring
    rw [h2, h3] at h1
    linarith
  have t1 : 0 ≤ ∑ i, diaglamyi S p i * u i ^ 2 := sum_nonneg fun i _ => mul_nonneg (hy i).2.2.2.le (sq_nonneg _)
  have t2 : 0 ≤ ∑ j, 1 / diagx S p j * (∑ i, gg S p i j * u i) ^ 2 := sum_nonneg fun j _ => mul_nonneg (one_div_pos.mpr (hx j).2.2.2.2).le (sq_nonneg _)
  have t3 : 0 ≤ p.zet / p.z * w ^ 2 := mul_nonneg (div_pos hzet hz).le (sq_nonneg _)
  have z1 : ∑ i, diaglamyi S p i * u i ^ 2 = 0 := by linarith
  have z3 : p.zet / p.z * w ^ 2 = 0 := by linarith
  refine hv (funext fun k => ?_)
  rcases k with i | ⟨⟩
  · have := (sum_eq_zero_iff_of_nonneg fun i _ => mul_nonneg (hy i).2.2.2.le (sq_nonneg (u i))).mp z1 i (mem_univ i)
    rcases mul_eq_zero.mp this with h | h
    · exact absurd h (hy i).2.2.2.ne'
    · exact pow_eq_zero_iff two_ne_zero |>.mp h
  · rcases mul_eq_zero.mp z3 with h | h
    · exact absurd h (div_pos hzet hz).ne'
    · exact pow_eq_zero_iff two_ne_zero |>.mp h

/-- The reduced matrix of the other branch is nonsingular. -/
theorem matX_det (S : Sub ι κ) (p : Pt ι κ) (hS : S.WF) (hp : Interior S p) : (matX S p).det ≠ 0 := by
  obtain ⟨hx, hy, hz⟩ := C34_denominators S p hp hS.low hS.upp hS.p0 hS.pq hS.d
  have hzet : 0 < p.zet := hp.2.2.2.2.2.2.2.1
  intro hdet
  obtain ⟨v, hv, hmv⟩ := Matrix.exists_mulVec_eq_zero_iff.mpr hdet
  set u : ι → ℝ := fun i => v (Sum.inl i) with hu
  set w : ℝ := v (Sum.inr ()) with hw
  have r1 : ∀ j, diagx S p j * u j + ∑ j', (∑ i, (1 / diaglamyi S p i * gg S p i j) * gg S p i j') * u j' + (∑ i, -gg S p i j * (S.a i / diaglamyi S p i)) * w = 0 := by
    intro j
    have := congrFun hmv (Sum.inl j)
    simp only [matX, Matrix.mulVec, dotProduct, Fintype.sum_sum_type, Matrix.fromBlocks_apply₁₁, Matrix.fromBlocks_apply₁₂, Matrix.of_apply, Pi.zero_apply, univ_unique, sum_singleton] at this
    simp only [add_mul, sum_add_distrib, ite_mul, zero_mul, sum_ite_eq, mem_univ, if_true] at this
    exact this
  have r2 : ∑ j, (∑ i, -gg S p i j * (S.a i / diaglamyi S p i)) * u j + (p.zet / p.z + ∑ i, S.a i * (S.a i / diaglamyi S p i)) * w = 0 := by
    have := congrFun hmv (Sum.inr ())
    simp only [matX, Matrix.mulVec, dotProduct, Fintype.sum_sum_type, Matrix.fromBlocks_apply₂₁, Matrix.fromBlocks_apply₂₂, Matrix.of_apply, Pi.zero_apply, univ_unique, sum_singleton] at this
    exact this
  have hcross : ∑ j, (∑ i, -gg S p i j * (S.a i / diaglamyi S p i)) * u j = -∑ i, S.a i / diaglamyi S p i * ∑ j, gg S p i j * u j := by
    simp only [sum_mul, mul_sum, ← sum_neg_distrib]
    rw [sum_comm]
    exact sum_congr rfl fun i _ => sum_congr rfl fun j _ => by ring
  have hq : ∑ j, diagx S p j * u j ^ 2 + ∑ i, 1 / diaglamyi S p i * ((∑ j, gg S p i j * u j) - S.a i * w) ^ 2 + p.zet / p.z * w ^ 2 = 0 := by
    have h1 : ∑ j, u j * (diagx S p j * u j + ∑ j', (∑ i, (1 / diaglamyi S p i * gg S p i j) * gg S p i j') * u j' + (∑ i, -gg S p i j * (S.a i / diaglamyi S p i)) * w) = 0 := by
      simp only [r1, mul_zero, sum_const_zero]
    simp only [mul_add, sum_add_distrib] at h1
    rw [quad_gg (fun i => diaglamyi S p i) (fun j i => gg S p i j) u] at h1
    have h3 : ∑ i, u i * (diagx S p i * u i) = ∑ i, diagx S p i * u i ^ 2 := sum_congr rfl fun i _ => by ring
    have h4 : ∑ j, u j * ((∑ i, -gg S p i j * (S.a i / diaglamyi S p i)) * w) = (∑ j, (∑ i, -gg S p i j * (S.a i / diaglamyi S p i)) * u j) * w := by
      rw [sum_mul]
      exact sum_congr rfl fun i _ => by ring
    rw [h3, h4] at h1
    have h5 : ∑ i, 1 / diaglamyi S p i * ((∑ j, gg S p i j * u j) - S.a i * w) ^ 2
        = ∑ i, 1 / diaglamyi S p i * (∑ j, gg S p i j * u j) ^ 2 - 2 * w * ∑ i, S.a i / diaglamyi S p i * ∑ j, gg S p i j * u j + w ^ 2 * ∑ i, S.a i * (S.a i / diaglamyi S p i) := by
      rw [mul_sum, mul_sum, ← sum_sub_distrib, ← sum_add_distrib]
      exact sum_congr rfl fun i _ => by ring
    rw [h5]
    rw [hcross] at h1 r2
    have r2w := congrArg (· * w) r2
    simp only [zero_mul] at r2w
    nlinarith
  have t1 : 0 ≤ ∑ j, diagx S p j * u j ^ 2 := sum_nonneg fun i _ => mul_nonneg (hx i).2.2.2.2.le (sq_nonneg _)
  have t2 : 0 ≤ ∑ i, 1 / diaglamyi S p i * ((∑ j, gg S p i j * u j) - S.a i * w) ^ 2 := sum_nonneg fun j _ => mul_nonneg (one_div_pos.mpr (hy j).2.2.2).le (sq_nonneg _)
  have t3 : 0 ≤ p.zet / p.z * w ^ 2 := mul_nonneg (div_pos hzet hz).le (sq_nonneg _)
  have z1 : ∑ j, diagx S p j * u j ^ 2 = 0 := by linarith
  have z3 : p.zet / p.z * w ^ 2 = 0 := by linarith
  refine hv (funext fun k => ?_)
  rcases k with i | ⟨⟩
  · have := (sum_eq_zero_iff_of_nonneg fun i _ => mul_nonneg (hx i).2.2.2.2.le (sq_nonneg (u i))).mp z1 i (mem_univ i)
    rcases mul_eq_zero.mp this with h | h
    · exact absurd h (hx i).2.2.2.2.ne'
    · exact pow_eq_zero_iff two_ne_zero |>.mp h
  · rcases mul_eq_zero.mp z3 with h | h
    · exact absurd h (div_pos hzet hz).ne'
    · exact pow_eq_zero_iff two_ne_zero |>.mp h

/-- Both branches solve the same condensed system. -/
theorem reduced_spec (solve : LinSolve) (hex : solve.Exact) (S : Sub ι κ) (epsi : ℝ) (p : Pt ι κ) (hS : S.WF) (hp : Interior S p) :
    ∃ dx dz dlam, reduced solve S epsi p = .ok (dx, dz, dlam) ∧
      (∀ j, diagx S p j * dx j + ∑ i, gg S p i j * dlam i = -delx S epsi p j) ∧
      (∀ i, ∑ j, gg S p i j * dx j - S.a i * dz - diaglamyi S p i * dlam i = -(dellam S epsi p i + dely S epsi p i / diagy S p i)) ∧
      ∑ i, S.a i * dlam i = delz S epsi p + p.zet / p.z * dz := by
  obtain ⟨hx, hy, hz⟩ := C34_denominators S p hp hS.low hS.upp hS.p0 hS.pq hS.d
  unfold reduced
  split
  · obtain ⟨sol, hs, hmv⟩ := hex (κ ⊕ Unit) (matLam S p) (rhsLam S epsi p) (matLam_det S p hS hp)
    rw [hs]
    refine ⟨_, _, _, rfl, fun j => ?_, fun i => ?_, ?_⟩
    · have := (hx j).2.2.2.2.ne'
      field_simp
      ring
    · have h1 := congrFun hmv (Sum.inl i)
      simp only [matLam, rhsLam, Matrix.mulVec, dotProduct, Fintype.sum_sum_type, Matrix.fromBlocks_apply₁₁, Matrix.fromBlocks_apply₁₂, Matrix.of_apply, univ_unique, sum_singleton, add_mul, sum_add_distrib,
        ite_mul, zero_mul, sum_ite_eq, mem_univ, if_true, Sum.elim_inl] at h1
      have h2 : ∑ j, gg S p i j * (-delx S epsi p j / diagx S p j - (∑ i', gg S p i' j * sol (Sum.inl i')) / diagx S p j)
          = -∑ j, gg S p i j * (delx S epsi p j / diagx S p j) - ∑ i', (∑ j, (1 / diagx S p j * gg S p i j) * gg S p i' j) * sol (Sum.inl i') := by
        have e : ∑ i', (∑ j, (1 / diagx S p j * gg S p i j) * gg S p i' j) * sol (Sum.inl i') = ∑ j, gg S p i j * ((∑ i', gg S p i' j * sol (Sum.inl i')) / diagx S p j) := by
          simp only [sum_mul, mul_sum, sum_div]
          rw [sum_comm]
          exact sum_congr rfl fun j _ => sum_congr rfl fun i' _ => by ring
        rw [e, ← sum_neg_distrib, ← sum_sub_distrib]
        exact sum_congr rfl fun j _ => by ring
      rw [h2]
      have hdef : (default : Unit) = () := rfl
      rw [hdef] at h1
      linarith
    · have h1 := congrFun hmv (Sum.inr ())
      simp only [matLam, rhsLam, Matrix.mulVec, dotProduct, Fintype.sum_sum_type, Matrix.fromBlocks_apply₂₁, Matrix.fromBlocks_apply₂₂, Matrix.of_apply, univ_unique, sum_singleton, Sum.elim_inr] at h1
      have hdef : (default : Unit) = () := rfl
      rw [hdef, neg_div] at h1
      linarith
  · obtain ⟨sol, hs, hmv⟩ := hex (ι ⊕ Unit) (matX S p) (rhsX S epsi p) (matX_det S p hS hp)
    rw [hs]
    have hdef : (default : Unit) = () := rfl
    have hD : ∀ i, diaglamyi S p i ≠ 0 := fun i => (hy i).2.2.2.ne'
    refine ⟨_, _, _, rfl, fun j => ?_, fun i => ?_, ?_⟩
    · have h1 := congrFun hmv (Sum.inl j)
      simp only [matX, rhsX, Matrix.mulVec, dotProduct, Fintype.sum_sum_type, Matrix.fromBlocks_apply₁₁, Matrix.fromBlocks_apply₁₂, Matrix.of_apply, univ_unique, sum_singleton, Sum.elim_inl] at h1
      simp only [add_mul, sum_add_distrib, ite_mul, zero_mul, sum_ite_eq, mem_univ, if_true, hdef] at h1
      have e1 : ∑ j', (∑ i, (1 / diaglamyi S p i * gg S p i j) * gg S p i j') * sol (Sum.inl j') = ∑ i, gg S p i j * ((∑ j', gg S p i j' * sol (Sum.inl j')) / diaglamyi S p i) := by
        simp only [sum_mul, mul_sum, sum_div]
        rw [sum_comm]
        exact sum_congr rfl fun i _ => sum_congr rfl fun j' _ => by ring
      have e2 : (∑ i, -gg S p i j * (S.a i / diaglamyi S p i)) * sol (Sum.inr ()) = -∑ i, gg S p i j * (sol (Sum.inr ()) * (S.a i / diaglamyi S p i)) := by
        rw [sum_mul, ← sum_neg_distrib]
        exact sum_congr rfl fun i _ => by ring
      rw [e1, e2] at h1
      simp only [mul_add, mul_sub, sum_add_distrib, sum_sub_distrib]
      simp only [add_div, mul_add, sum_add_distrib] at h1 ⊢
      linarith
    · have := hD i
      field_simp
      ring
    · have h1 := congrFun hmv (Sum.inr ())
      simp only [matX, rhsX, Matrix.mulVec, dotProduct, Fintype.sum_sum_type, Matrix.fromBlocks_apply₂₁, Matrix.fromBlocks_apply₂₂, Matrix.of_apply, univ_unique, sum_singleton, Sum.elim_inr, hdef] at h1
      have hcross : ∑ j, (∑ i, -gg S p i j * (S.a i / diaglamyi S p i)) * sol (Sum.inl j) = -∑ i, S.a i * ((∑ j, gg S p i j * sol (Sum.inl j)) / diaglamyi S p i) := by
        simp only [sum_mul, mul_sum, sum_div, ← sum_neg_distrib]
        rw [sum_comm]
        exact sum_congr rfl fun i _ => sum_congr rfl fun j _ => by ring
      have e2 : ∑ i, S.a i * (sol (Sum.inr ()) * (S.a i / diaglamyi S p i)) = sol (Sum.inr ()) * ∑ i, S.a i * (S.a i / diaglamyi S p i) := by
        rw [mul_sum]
        exact sum_congr rfl fun i _ => by ring
      rw [hcross] at h1
      simp only [mul_add, mul_sub, sum_add_distrib, sum_sub_distrib, e2]
      simp only [add_div, mul_add, sum_add_distrib] at h1 ⊢
      linarith

/-- **C72.** At every interior point the direction computed by `subsolv` (through either of its two eliminations) is the exact Newton direction: along it, every component of the residual of the perturbed optimality conditions
decreases at the rate of its own value. -/
theorem C72_newton (solve : LinSolve) (hex : solve.Exact) (S : Sub ι κ) (epsi : ℝ) (p : Pt ι κ) (hS : S.WF) (hp : Interior S p) :
    ∃ dx dz dlam, reduced solve S epsi p = .ok (dx, dz, dlam) ∧ ∀ k, HasDerivAt (fun t : ℝ => residu S epsi (p.move t (extend S epsi p dx dz dlam)) k) (-residu S epsi p k) 0 := by
  obtain ⟨hx, hy, hz⟩ := C34_denominators S p hp hS.low hS.upp hS.p0 hS.pq hS.d
  obtain ⟨dx, dz, dlam, hr, E1, E2, E3⟩ := reduced_spec solve hex S epsi p hS hp
  refine ⟨dx, dz, dlam, hr, ?_⟩
  set d := extend S epsi p dx dz dlam with hd
  have lin : ∀ u v : ℝ, HasDerivAt (fun t : ℝ => u + t * v) v 0 := fun u v => by
    simpa using ((hasDerivAt_id (0 : ℝ)).mul_const v).const_add u
  have prod : ∀ u v u' v' : ℝ, HasDerivAt (fun t : ℝ => (u + t * u') * (v + t * v')) (u' * v + u * v') 0 := fun u v u' v' => by
    simpa using (lin u u').fun_mul (lin v v')
  have hinv : ∀ u v : ℝ, u ≠ 0 → HasDerivAt (fun t : ℝ => 1 / (u + t * v)) (-v / u ^ 2) 0 := fun u v hu => by
    simpa using (lin u v).fun_inv (by simpa using hu)
  have hux : ∀ j, S.upp j - p.x j ≠ 0 := fun j => (hx j).1.ne'
  have hxl : ∀ j, p.x j - S.low j ≠ 0 := fun j => (hx j).2.1.ne'
  have hu1 : ∀ j, HasDerivAt (fun t : ℝ => 1 / (S.upp j - (p.x j + t * d.x j))) (dx j / (S.upp j - p.x j) ^ 2) 0 := fun j => by
    have := hinv (S.upp j - p.x j) (-dx j) (hux j)
    simp only [neg_neg] at this
    refine this.congr_of_eventuallyEq (Filter.Eventually.of_forall fun t => ?_)
    show 1 / (S.upp j - (p.x j + t * dx j)) = _
    congr 1; ring
  have hl1 : ∀ j, HasDerivAt (fun t : ℝ => 1 / ((p.x j + t * d.x j) - S.low j)) (-dx j / (p.x j - S.low j) ^ 2) 0 := fun j => by
    refine (hinv (p.x j - S.low j) (dx j) (hxl j)).congr_of_eventuallyEq (Filter.Eventually.of_forall fun t => ?_)
    show 1 / ((p.x j + t * dx j) - S.low j) = _
    congr 1; ring
  have hg : ∀ i, HasDerivAt (fun t : ℝ => gvec S (p.move t d) i) (∑ j, gg S p i j * dx j) 0 := fun i => by
    have h1 : HasDerivAt (fun t : ℝ => gvec S (p.move t d) i) (∑ j, S.P i j * (dx j / (S.upp j - p.x j) ^ 2) + ∑ j, S.Q i j * (-dx j / (p.x j - S.low j) ^ 2)) 0 :=
      (HasDerivAt.fun_sum fun j _ => (hu1 j).const_mul (S.P i j)).fun_add (HasDerivAt.fun_sum fun j _ => (hl1 j).const_mul (S.Q i j))
    refine h1.congr_deriv ?_
    rw [← sum_add_distrib]
    refine sum_congr rfl fun j _ => ?_
    unfold gg
    have := hux j
    have := hxl j
    field_simp
    ring
  have hpl : ∀ j, HasDerivAt (fun t : ℝ => plam S (p.move t d) j) (∑ i, S.P i j * dlam i) 0 := fun j =>
    (HasDerivAt.fun_sum fun i _ => (lin (p.lam i) (dlam i)).const_mul (S.P i j)).const_add (S.p0 j)
  have hql : ∀ j, HasDerivAt (fun t : ℝ => qlam S (p.move t d) j) (∑ i, S.Q i j * dlam i) 0 := fun j =>
    (HasDerivAt.fun_sum fun i _ => (lin (p.lam i) (dlam i)).const_mul (S.Q i j)).const_add (S.q0 j)
  have m0 : p.move 0 d = p := by
    ext <;> simp [Pt.move]
  intro k
  rcases k with (j | i | ⟨⟩) | (i | j | j | i | ⟨⟩ | i)
  · have hA : HasDerivAt (fun t : ℝ => dpsidx S (p.move t d) j) ((diagx S p j - p.xsi j / (p.x j - S.alfa j) - p.eta j / (S.beta j - p.x j)) * dx j + ∑ i, gg S p i j * dlam i) 0 := by
      have a1 := (hpl j).fun_mul ((hu1 j).fun_mul (hu1 j))
      have a2 := (hql j).fun_mul ((hl1 j).fun_mul (hl1 j))
      have a3 := a1.fun_sub a2
      refine (a3.congr_deriv ?_).congr_of_eventuallyEq (Filter.Eventually.of_forall fun t => ?_)
      · rw [m0]
        simp only [zero_mul, add_zero]
        have e1 : ∑ i, gg S p i j * dlam i = (∑ i, S.P i j * dlam i) / (S.upp j - p.x j) ^ 2 - (∑ i, S.Q i j * dlam i) / (p.x j - S.low j) ^ 2 := by
          rw [sum_div, sum_div, ← sum_sub_distrib]
          refine sum_congr rfl fun i _ => ?_
          unfold gg
          have := hux j
          have := hxl j
          field_simp
        rw [e1]
        unfold diagx
        have := hux j
        have := hxl j
        have := (hx j).2.2.1.ne'
        have := (hx j).2.2.2.1.ne'
        field_simp
        ring
      · show plam S (p.move t d) j / ((S.upp j - (p.x j + t * d.x j)) * (S.upp j - (p.x j + t * d.x j))) - qlam S (p.move t d) j / (((p.x j + t * d.x j) - S.low j) * ((p.x j + t * d.x j) - S.low j)) = _
        simp only [div_eq_mul_inv, one_mul, mul_inv]
    have hB := (hA.fun_sub (lin (p.xsi j) (d.xsi j))).fun_add (lin (p.eta j) (d.eta j))
    refine hB.congr_deriv ?_
    show _ = -(dpsidx S p j - p.xsi j + p.eta j)
    have e := E1 j
    unfold delx at e
    have hxs : d.xsi j = -p.xsi j + epsi / (p.x j - S.alfa j) - (p.xsi j * dx j) / (p.x j - S.alfa j) := rfl
    have het : d.eta j = -p.eta j + epsi / (S.beta j - p.x j) + (p.eta j * dx j) / (S.beta j - p.x j) := rfl
    rw [hxs, het]
    have e3 : p.xsi j * dx j / (p.x j - S.alfa j) = p.xsi j / (p.x j - S.alfa j) * dx j := by ring
    have e4 : p.eta j * dx j / (S.beta j - p.x j) = p.eta j / (S.beta j - p.x j) * dx j := by ring
    rw [e3, e4]
    linarith
  · have hB := ((((lin (p.y i) (d.y i)).const_mul (S.d i)).const_add (S.c i)).fun_sub (lin (p.mu i) (d.mu i))).fun_sub (lin (p.lam i) (dlam i))
    refine hB.congr_deriv ?_
    show _ = -(S.c i + S.d i * p.y i - p.mu i - p.lam i)
    have hmu : d.mu i = -p.mu i + epsi / p.y i - (p.mu i * d.y i) / p.y i := rfl
    have hdy : diagy S p i * d.y i = -dely S epsi p i + dlam i := by
      have : d.y i = -dely S epsi p i / diagy S p i + dlam i / diagy S p i := rfl
      rw [this]
      have := (hy i).2.2.1.ne'
      field_simp
    unfold diagy dely at hdy
    rw [hmu]
    have e3 : p.mu i * d.y i / p.y i = p.mu i / p.y i * d.y i := by ring
    rw [e3]
    linarith
  · have hB := ((lin p.zet d.zet).const_sub S.a0).fun_sub (HasDerivAt.fun_sum (u := univ) fun i _ => (lin (p.lam i) (dlam i)).const_mul (S.a i))
    refine hB.congr_deriv ?_
    show _ = -(S.a0 - p.zet - ∑ i, S.a i * p.lam i)
    have hze : d.zet = -p.zet + epsi / p.z - p.zet * dz / p.z := rfl
    rw [hze, E3]
    unfold delz
    have e3 : p.zet * dz / p.z = p.zet / p.z * dz := by ring
    rw [e3]
    ring
  · have hB := ((((hg i).fun_sub ((lin p.z dz).const_mul (S.a i))).fun_sub (lin (p.y i) (d.y i))).fun_add (lin (p.s i) (d.s i))).sub_const (S.b i)
    refine hB.congr_deriv ?_
    show _ = -(gvec S p i - S.a i * p.z - p.y i + p.s i - S.b i)
    have e := E2 i
    have hs : d.s i = -p.s i + epsi / p.lam i - (p.s i * dlam i) / p.lam i := rfl
    have hdy : d.y i = -dely S epsi p i / diagy S p i + dlam i / diagy S p i := rfl
    unfold dellam diaglamyi at e
    rw [hs, hdy]
    have e3 : p.s i * dlam i / p.lam i = p.s i / p.lam i * dlam i := by ring
    have e4 : dlam i / diagy S p i = 1 / diagy S p i * dlam i := by ring
    have e5 : -dely S epsi p i / diagy S p i = -(dely S epsi p i / diagy S p i) := by ring
    rw [e3, e4, e5]
    linarith
  · have hB := (prod (p.xsi j) (p.x j - S.alfa j) (d.xsi j) (dx j)).sub_const epsi
    refine (hB.congr_deriv ?_).congr_of_eventuallyEq (Filter.Eventually.of_forall fun t => ?_)
    · show _ = -(p.xsi j * (p.x j - S.alfa j) - epsi)
      have hxs : d.xsi j = -p.xsi j + epsi / (p.x j - S.alfa j) - (p.xsi j * dx j) / (p.x j - S.alfa j) := rfl
      rw [hxs]
      have := (hx j).2.2.1.ne'
      field_simp
      ring
    · show (p.xsi j + t * d.xsi j) * ((p.x j + t * dx j) - S.alfa j) - epsi = _
      ring
  · have hB := (prod (p.eta j) (S.beta j - p.x j) (d.eta j) (-dx j)).sub_const epsi
    refine (hB.congr_deriv ?_).congr_of_eventuallyEq (Filter.Eventually.of_forall fun t => ?_)
    · show _ = -(p.eta j * (S.beta j - p.x j) - epsi)
      have het : d.eta j = -p.eta j + epsi / (S.beta j - p.x j) + (p.eta j * dx j) / (S.beta j - p.x j) := rfl
      rw [het]
      have := (hx j).2.2.2.1.ne'
      field_simp
      ring
    · show (p.eta j + t * d.eta j) * (S.beta j - (p.x j + t * dx j)) - epsi = _
      ring
  · have hB := (prod (p.mu i) (p.y i) (d.mu i) (d.y i)).sub_const epsi
    refine hB.congr_deriv ?_
    show _ = -(p.mu i * p.y i - epsi)
    have hmu : d.mu i = -p.mu i + epsi / p.y i - (p.mu i * d.y i) / p.y i := rfl
    rw [hmu]
    have := (hy i).1.ne'
    field_simp
    ring
  · have hB := (prod p.zet p.z d.zet dz).sub_const epsi
    refine hB.congr_deriv ?_
    show _ = -(p.zet * p.z - epsi)
    have hze : d.zet = -p.zet + epsi / p.z - p.zet * dz / p.z := rfl
    rw [hze]
    have := hz.ne'
    field_simp
    ring
  · have hB := (prod (p.lam i) (p.s i) (dlam i) (d.s i)).sub_const epsi
    refine hB.congr_deriv ?_
    show _ = -(p.lam i * p.s i - epsi)
    have hs : d.s i = -p.s i + epsi / p.lam i - (p.s i * dlam i) / p.lam i := rfl
    rw [hs]
    have := (hy i).2.1.ne'
    field_simp
    ring

end Verif.Fem.Mma
