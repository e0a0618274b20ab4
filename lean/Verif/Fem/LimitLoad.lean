import Verif.Fem.RadialReturn
import Verif.Fem.SolverProps
import Mathlib.Analysis.Calculus.Deriv.MeanValue
import Mathlib.Analysis.SpecialFunctions.Sqrt
import Mathlib.Topology.Algebra.Module.FiniteDimension

/-!
# Load steps of perfect plasticity: energy, existence of solutions, limit loads (C146)

A load step of `Plasticity` (jax_am/fem/models.py 138-205) asks for a displacement whose residual vanishes at the free degrees of freedom. Shown here: such displacements are the minimisers of a convex
energy; they exist whenever the loads can be carried by some stress field strictly inside the yield surface, in particular for every step driven by displacements alone; and they do not exist
once the loads do more work on a volume-preserving motion than the yield stress can dissipate, so that the solver cannot return.
-/
namespace Verif.Fem.LimitLoad
open Finset Matrix Verif.Fem

variable {dim nn nq nf nfq : ℕ}

/-! ## One quadrature point -/

/-- Specification: product of two stresses with the inverse of Hooke's law (shear modulus `mu`, `K = dim lam + 2 mu`). -/
noncomputable def compl (mu K : ℝ) (A B : Matrix (Fin dim) (Fin dim) ℝ) : ℝ := ddot (dev A) (dev B) / (2 * mu) + A.trace * B.trace / (dim * K)

/-- Specification: energy of a trial stress: its complementary energy less that of the part beyond the yield surface. -/
noncomputable def energy (mu K sy : ℝ) (T : Matrix (Fin dim) (Fin dim) ℝ) : ℝ := compl mu K T T / 2 - max (mises T - sy) 0 ^ 2 / (6 * mu)

theorem dev_add (A B : Matrix (Fin dim) (Fin dim) ℝ) : dev (A + B) = dev A + dev B := by
  ext i j
  simp only [dev, Matrix.trace_add, Matrix.sub_apply, Matrix.add_apply, Matrix.smul_apply, smul_eq_mul]
  ring

theorem ddot_add_right (A B C : Matrix (Fin dim) (Fin dim) ℝ) : ddot A (B + C) = ddot A B + ddot A C := by
  rw [ddot_comm, ddot_add_left, ddot_comm B, ddot_comm C]

theorem compl_comm (mu K : ℝ) (A B : Matrix (Fin dim) (Fin dim) ℝ) : compl mu K A B = compl mu K B A := by
  unfold compl
  rw [ddot_comm, mul_comm A.trace]

theorem compl_add_right (mu K : ℝ) (A B C : Matrix (Fin dim) (Fin dim) ℝ) : compl mu K A (B + C) = compl mu K A B + compl mu K A C := by
  unfold compl
  rw [dev_add, ddot_add_right, Matrix.trace_add]
  ring

theorem compl_smul_right (mu K c : ℝ) (A B : Matrix (Fin dim) (Fin dim) ℝ) : compl mu K A (c • B) = c * compl mu K A B := by
  unfold compl
  rw [dev_smul, ddot_smul_right, Matrix.trace_smul, smul_eq_mul]
  ring

theorem compl_sub_right (mu K : ℝ) (A B C : Matrix (Fin dim) (Fin dim) ℝ) : compl mu K A (B - C) = compl mu K A B - compl mu K A C := by
  rw [sub_eq_add_neg, ← neg_one_smul ℝ C, compl_add_right, compl_smul_right]
  ring

theorem ddot_split (hdim : 0 < dim) (A B : Matrix (Fin dim) (Fin dim) ℝ) : ddot A B = ddot (dev A) (dev B) + A.trace * B.trace / dim := by
  have hd : (dim : ℝ) ≠ 0 := by exact_mod_cast hdim.ne'
  have hB : B = dev B + (B.trace / dim) • 1 := by unfold dev; abel
  have h1 : ddot A ((B.trace / dim) • 1) = A.trace * B.trace / dim := by
    rw [ddot_comm, ddot_one_left]
    ring
  conv_lhs => rw [hB]
  rw [ddot_add_right, h1, ddot_dev hdim]

theorem dev_isoLaw (hdim : 0 < dim) (lam mu : ℝ) (e : Matrix (Fin dim) (Fin dim) ℝ) : dev (isoLaw lam mu e) = (2 * mu) • dev e := by
  have hd : (dim : ℝ) ≠ 0 := by exact_mod_cast hdim.ne'
  unfold dev
  rw [isoLaw_trace]
  unfold isoLaw
  ext i j
  simp only [Matrix.sub_apply, Matrix.add_apply, Matrix.smul_apply, smul_eq_mul]
  field_simp
  ring

/-- The inverse of Hooke's law undoes Hooke's law. -/
theorem compl_isoLaw (hdim : 0 < dim) (lam mu : ℝ) (hmu : 0 < mu) (hK : 0 < dim * lam + 2 * mu) (A e : Matrix (Fin dim) (Fin dim) ℝ) : compl mu (dim * lam + 2 * mu) A (isoLaw lam mu e) = ddot A e := by
  have hd : (dim : ℝ) ≠ 0 := by exact_mod_cast hdim.ne'
  unfold compl
  rw [dev_isoLaw hdim, ddot_smul_right, isoLaw_trace, ddot_split hdim A e]
  field_simp

theorem hasDerivAt_sqPos (x : ℝ) : HasDerivAt (fun x : ℝ => max x 0 ^ 2) (2 * max x 0) x := by
  rcases lt_trichotomy x 0 with h | h | h
  · rw [max_eq_right h.le, mul_zero]
    refine (hasDerivAt_const x (0 : ℝ)).congr_of_eventuallyEq ?_
    filter_upwards [Iio_mem_nhds h] with y hy
    rw [max_eq_right (le_of_lt hy)]
    norm_num
  · subst h
    rw [max_self, mul_zero, hasDerivAt_iff_isLittleO]
    refine Asymptotics.isLittleO_iff.mpr fun c hc => ?_
    filter_upwards [Metric.ball_mem_nhds (0 : ℝ) hc] with y hy
    rw [mem_ball_zero_iff, Real.norm_eq_abs] at hy
    have h1 : max y 0 ≤ |y| := max_le (le_abs_self y) (abs_nonneg y)
    have h0 : 0 ≤ max y 0 := le_max_right _ _
    simp only [max_self, sub_zero, smul_zero, Real.norm_eq_abs]
    rw [show (0 : ℝ) ^ 2 = 0 by norm_num, sub_zero, abs_of_nonneg (sq_nonneg _)]
    nlinarith [abs_nonneg y]
  · rw [max_eq_left h.le]
    refine ((hasDerivAt_pow 2 x).congr_of_eventuallyEq ?_).congr_deriv (by norm_num)
    filter_upwards [Ioi_mem_nhds h] with y hy
    rw [max_eq_left (le_of_lt hy)]

theorem hasDerivAt_over (sy : ℝ) (hsy : 0 < sy) (s : ℝ) (hs : 0 ≤ s) : HasDerivAt (fun s : ℝ => max (Real.sqrt s - sy) 0 ^ 2) (max (Real.sqrt s - sy) 0 / Real.sqrt s) s := by
  rcases hs.eq_or_lt with h | h
  · subst h
    rw [Real.sqrt_zero, div_zero]
    refine (hasDerivAt_const (0 : ℝ) (0 : ℝ)).congr_of_eventuallyEq ?_
    have : ∀ᶠ s : ℝ in nhds 0, s < sy ^ 2 := Iio_mem_nhds (by positivity)
    filter_upwards [this] with y hy
    have : Real.sqrt y ≤ sy := by
      rw [← Real.sqrt_sq hsy.le]
      exact Real.sqrt_le_sqrt hy.le
    rw [max_eq_right (by linarith)]
    norm_num
  · have h1 := ((Real.hasDerivAt_sqrt h.ne').sub_const sy)
    have h2 := (hasDerivAt_sqPos (Real.sqrt s - sy)).comp s h1
    have hp := Real.sqrt_pos.mpr h
    refine h2.congr_deriv ?_
    field_simp

/-- The derivative of the energy is the stress drawn back to the yield surface. -/
theorem energy_deriv (hdim : 0 < dim) (mu K sy : ℝ) (hmu : 0 < mu) (hsy : 0 < sy) (T H : Matrix (Fin dim) (Fin dim) ℝ) :
    HasDerivAt (fun t : ℝ => energy mu K sy (T + t • H)) (compl mu K (radial sy T) H) 0 := by
  have hs0 : (0 : ℝ) ≤ 3 / 2 * ddot (dev T) (dev T) := mul_nonneg (by norm_num) (ddot_self_nonneg _)
  have hquad : ∀ t : ℝ, 3 / 2 * ddot (dev (T + t • H)) (dev (T + t • H)) = 3 / 2 * ddot (dev T) (dev T) + t * (3 * ddot (dev T) (dev H)) + t ^ 2 * (3 / 2 * ddot (dev H) (dev H)) := by
    intro t
    rw [dev_add, dev_smul, ddot_add_right, ddot_add_left, ddot_add_left, ddot_smul_right, ddot_smul_right, ddot_smul_left, ddot_smul_left, ddot_comm (dev H) (dev T)]
    ring
  have hpoly : ∀ a b c : ℝ, HasDerivAt (fun t : ℝ => a + t * b + t ^ 2 * c) b 0 := by
    intro a b c
    have h := (((hasDerivAt_id (0 : ℝ)).mul_const b).const_add a).add (((hasDerivAt_pow 2 (0 : ℝ))).mul_const c)
    refine h.congr_deriv ?_
    norm_num
  have h1 : HasDerivAt (fun t : ℝ => max (mises (T + t • H) - sy) 0 ^ 2) (max (mises T - sy) 0 / mises T * (3 * ddot (dev T) (dev H))) 0 := by
    have e : (fun t : ℝ => max (mises (T + t • H) - sy) 0 ^ 2) = (fun s : ℝ => max (Real.sqrt s - sy) 0 ^ 2) ∘ fun t : ℝ => 3 / 2 * ddot (dev T) (dev T) + t * (3 * ddot (dev T) (dev H)) + t ^ 2 * (3 / 2 * ddot (dev H) (dev H)) := by
      funext t
      simp only [Function.comp, mises, hquad]
    rw [e]
    refine HasDerivAt.comp (0 : ℝ) ?_ (hpoly _ _ _)
    have h2 := hasDerivAt_over sy hsy _ hs0
    simp only [zero_mul, add_zero, ne_eq, OfNat.ofNat_ne_zero, not_false_eq_true, zero_pow]
    exact h2
  have h2 : HasDerivAt (fun t : ℝ => compl mu K (T + t • H) (T + t • H)) (2 * compl mu K T H) 0 := by
    have e : (fun t : ℝ => compl mu K (T + t • H) (T + t • H)) = fun t : ℝ => compl mu K T T + t * (2 * compl mu K T H) + t ^ 2 * compl mu K H H := by
      funext t
      rw [compl_add_right, compl_smul_right, compl_comm mu K (T + t • H) T, compl_comm mu K (T + t • H) H, compl_add_right, compl_add_right, compl_smul_right, compl_smul_right, compl_comm mu K H T]
      ring
    rw [e]
    exact hpoly _ _ _
  refine ((h2.div_const 2).sub (h1.div_const (6 * mu))).congr_deriv ?_
  have hr : compl mu K (radial sy T) H = compl mu K T H - max (mises T - sy) 0 / mises T * (ddot (dev T) (dev H) / (2 * mu)) := by
    unfold radial
    rw [compl_comm, compl_sub_right, compl_smul_right, compl_comm]
    congr 2
    unfold compl
    rw [trace_dev hdim, mul_zero, zero_div, add_zero, dev_of_trace_zero (trace_dev hdim T), ddot_comm]
  rw [hr]
  field_simp
  ring

theorem energy_eq (mu K sy : ℝ) (hmu : 0 < mu) (T : Matrix (Fin dim) (Fin dim) ℝ) :
    energy mu K sy T = (mises T ^ 2 - max (mises T - sy) 0 ^ 2) / (6 * mu) + T.trace ^ 2 / (2 * (dim * K)) := by
  unfold energy compl
  rw [mises_sq]
  field_simp
  ring

theorem huber_le (sy m s : ℝ) (hs : s ≤ sy) : 2 * s * m - s ^ 2 ≤ m ^ 2 - max (m - sy) 0 ^ 2 := by
  rcases le_total m sy with h | h
  · rw [max_eq_right (by linarith)]
    nlinarith [sq_nonneg (m - s)]
  · rw [max_eq_left (by linarith)]
    nlinarith [mul_nonneg (sub_nonneg.mpr hs) (sub_nonneg.mpr h)]

/-- The energy is convex. -/
theorem energy_convex (hdim : 0 < dim) (mu K sy : ℝ) (hmu : 0 < mu) (hK : 0 < K) (hsy : 0 < sy) (T T' : Matrix (Fin dim) (Fin dim) ℝ) :
    energy mu K sy T + compl mu K (radial sy T) (T' - T) ≤ energy mu K sy T' := by
  obtain ⟨r1, r2, rtr, ryield⟩ := radial_step hdim sy hsy.le T
  have hm := mises_nonneg T
  have hself : ddot (dev (radial sy T)) (dev T) = 2 / 3 * (mises (radial sy T) * mises T) ∧ mises T ^ 2 - max (mises T - sy) 0 ^ 2 = 2 * mises (radial sy T) * mises T - mises (radial sy T) ^ 2 := by
    rcases le_or_gt (mises T) sy with h | h
    · rw [r1 h, max_eq_right (by linarith)]
      refine ⟨?_, by ring⟩
      have := mises_sq T
      nlinarith
    · obtain ⟨h1, h2⟩ := r2 h
      rw [h1, h2, ddot_smul_left, max_eq_left (by linarith)]
      refine ⟨?_, by ring⟩
      have h3 := mises_sq T
      have h4 : ddot (dev T) (dev T) = 2 / 3 * mises T ^ 2 := by linarith
      have : mises T ≠ 0 := by linarith
      rw [h4]
      field_simp
  have hle := ddot_dev_le (radial sy T) T'
  have hh := huber_le sy (mises T') (mises (radial sy T)) ryield
  rw [energy_eq mu K sy hmu T, energy_eq mu K sy hmu T', hself.2, compl_sub_right]
  unfold compl
  rw [hself.1, rtr]
  have hd : (0 : ℝ) < dim := by exact_mod_cast hdim
  have hdK : (0 : ℝ) < dim * K := mul_pos hd hK
  have e1 : ddot (dev (radial sy T)) (dev T') / (2 * mu) ≤ 2 / 3 * (mises (radial sy T) * mises T') / (2 * mu) := div_le_div_of_nonneg_right hle (by linarith)
  have e2 : (2 * mises (radial sy T) * mises T' - mises (radial sy T) ^ 2) / (6 * mu) ≤ (mises T' ^ 2 - max (mises T' - sy) 0 ^ 2) / (6 * mu) := div_le_div_of_nonneg_right hh (by linarith)
  have e3 : T.trace * T'.trace / (dim * K) - T.trace * T.trace / (dim * K) + T.trace ^ 2 / (2 * (dim * K)) ≤ T'.trace ^ 2 / (2 * (dim * K)) := by
    have : T'.trace ^ 2 / (2 * (dim * K)) - (T.trace * T'.trace / (dim * K) - T.trace * T.trace / (dim * K) + T.trace ^ 2 / (2 * (dim * K))) = (T'.trace - T.trace) ^ 2 / (2 * (dim * K)) := by
      field_simp
      ring
    have h0 : 0 ≤ (T'.trace - T.trace) ^ 2 / (2 * (dim * K)) := by positivity
    linarith
  have e4 : (2 * mises (radial sy T) * mises T - mises (radial sy T) ^ 2) / (6 * mu) + (2 / 3 * (mises (radial sy T) * mises T') / (2 * mu) - 2 / 3 * (mises (radial sy T) * mises T) / (2 * mu))
      = (2 * mises (radial sy T) * mises T' - mises (radial sy T) ^ 2) / (6 * mu) := by
    field_simp
    ring
  linarith

theorem entry_le (hdim : 0 < dim) (T : Matrix (Fin dim) (Fin dim) ℝ) (i j : Fin dim) : |T i j| ≤ mises T + |T.trace| := by
  have h1 : dev T i j ^ 2 ≤ mises T ^ 2 := by
    rw [mises_sq]
    have h2 : dev T i j * dev T i j ≤ ddot (dev T) (dev T) :=
      le_trans (single_le_sum (f := fun j => dev T i j * dev T i j) (fun j _ => mul_self_nonneg _) (mem_univ j)) (single_le_sum (f := fun i => ∑ j, dev T i j * dev T i j) (fun i _ => sum_nonneg fun j _ => mul_self_nonneg _) (mem_univ i))
    nlinarith [ddot_self_nonneg (dev T)]
  have h2 : |dev T i j| ≤ mises T := abs_le_of_sq_le_sq h1 (mises_nonneg T)
  have h3 : T i j = dev T i j + T.trace / dim * (1 : Matrix (Fin dim) (Fin dim) ℝ) i j := by
    simp [dev]
  have h4 : |T.trace / dim * (1 : Matrix (Fin dim) (Fin dim) ℝ) i j| ≤ |T.trace| := by
    rw [abs_mul, abs_div]
    have hd : (1 : ℝ) ≤ dim := by exact_mod_cast hdim
    have h5 : |(1 : Matrix (Fin dim) (Fin dim) ℝ) i j| ≤ 1 := by
      rw [Matrix.one_apply]
      split_ifs <;> norm_num
    rw [abs_of_nonneg (by linarith : (0 : ℝ) ≤ dim)]
    calc |T.trace| / dim * |(1 : Matrix (Fin dim) (Fin dim) ℝ) i j| ≤ |T.trace| * 1 :=
          mul_le_mul (div_le_self (abs_nonneg _) hd) h5 (abs_nonneg _) (abs_nonneg _)
      _ = _ := mul_one _
  rw [h3]
  exact (abs_add_le _ _).trans (add_le_add h2 h4)

/-- Against a stress strictly inside the yield surface the energy grows at least linearly. -/
theorem energy_coercive (hdim : 0 < dim) (mu K sy delta : ℝ) (hmu : 0 < mu) (hK : 0 < K) (hdelta : 0 < delta) : ∃ a > 0, ∀ tau : Matrix (Fin dim) (Fin dim) ℝ, mises tau ≤ sy - delta →
    ∃ b, ∀ T : Matrix (Fin dim) (Fin dim) ℝ, ∀ i j, a * |T i j| - b ≤ energy mu K sy T - compl mu K tau T := by
  have hd : (0 : ℝ) < dim := by exact_mod_cast hdim
  have hdK : (0 : ℝ) < dim * K := mul_pos hd hK
  refine ⟨min (delta / (3 * mu)) (1 / (dim * K)), lt_min (by positivity) (by positivity), fun tau htau => ⟨sy ^ 2 / (6 * mu) + (|tau.trace| + 1) ^ 2 / (2 * (dim * K)), fun T i j => ?_⟩⟩
  have hm := mises_nonneg T
  have h1 := entry_le hdim T i j
  have hh := huber_le sy (mises T) sy le_rfl
  have hle := ddot_dev_le tau T
  rw [energy_eq mu K sy hmu]
  unfold compl
  have e1 : (2 * sy * mises T - sy ^ 2) / (6 * mu) ≤ (mises T ^ 2 - max (mises T - sy) 0 ^ 2) / (6 * mu) := div_le_div_of_nonneg_right hh (by linarith)
  have e2 : ddot (dev tau) (dev T) / (2 * mu) ≤ 2 / 3 * ((sy - delta) * mises T) / (2 * mu) :=
    div_le_div_of_nonneg_right (hle.trans (mul_le_mul_of_nonneg_left (mul_le_mul_of_nonneg_right htau hm) (by norm_num))) (by linarith)
  have e3 : (2 * sy * mises T - sy ^ 2) / (6 * mu) - 2 / 3 * ((sy - delta) * mises T) / (2 * mu) = delta / (3 * mu) * mises T - sy ^ 2 / (6 * mu) := by
    field_simp
    ring
  have e4 : 1 / (dim * K) * |T.trace| - (|tau.trace| + 1) ^ 2 / (2 * (dim * K)) ≤ T.trace ^ 2 / (2 * (dim * K)) - tau.trace * T.trace / (dim * K) := by
    have h2 : 2 * |T.trace| - (|tau.trace| + 1) ^ 2 ≤ T.trace ^ 2 - 2 * (tau.trace * T.trace) := by
      have h3 : tau.trace * T.trace ≤ |tau.trace| * |T.trace| := by rw [← abs_mul]; exact le_abs_self _
      have h4 : T.trace ^ 2 = |T.trace| ^ 2 := (sq_abs _).symm
      rw [h4]
      nlinarith [sq_nonneg (|T.trace| - (|tau.trace| + 1))]
    have := div_le_div_of_nonneg_right h2 (by linarith : (0 : ℝ) ≤ 2 * (dim * K))
    calc _ = (2 * |T.trace| - (|tau.trace| + 1) ^ 2) / (2 * (dim * K)) := by field_simp
      _ ≤ _ := this
      _ = _ := by field_simp
  have e5 : min (delta / (3 * mu)) (1 / (dim * K)) * |T i j| ≤ delta / (3 * mu) * mises T + 1 / (dim * K) * |T.trace| := by
    have hpos : 0 < min (delta / (3 * mu)) (1 / (dim * K)) := lt_min (by positivity) (by positivity)
    calc _ ≤ min (delta / (3 * mu)) (1 / (dim * K)) * (mises T + |T.trace|) := mul_le_mul_of_nonneg_left h1 hpos.le
      _ = min (delta / (3 * mu)) (1 / (dim * K)) * mises T + min (delta / (3 * mu)) (1 / (dim * K)) * |T.trace| := by ring
      _ ≤ _ := add_le_add (mul_le_mul_of_nonneg_right (min_le_left _ _) hm) (mul_le_mul_of_nonneg_right (min_le_right _ _) (abs_nonneg _))
  linarith

/-! ## The whole body -/

/-- The `K` of the model: three times the bulk modulus in space. -/
noncomputable def bulk (dim : ℕ) : ℝ := dim * lame + 2 * shearMod

/-- Specification: work of the body load and of the prescribed tractions on the nodal field `v`, by the code's quadrature. -/
noncomputable def extWork (F : Fem nn nq nf nfq dim dim) (v : ℕ → Fin dim → ℝ) : ℝ :=
  (F.cells.map fun c => ∑ q, (∑ i, F.load c q i * F.uAt v c q i) * F.JxW c q).sum
  + ((Fem.pairs F.neumann).map fun lv => ((F.selected lv.1).zipIdx.map fun p =>
      ∑ q, (∑ i, lv.2 p.2 q (F.xFace p.1 q) i * F.uFace v p.1 q i) * F.nansonScale p.1.1 p.1.2 q).sum).sum

/-- Specification: work of a stress field on the gradient of `v`. -/
noncomputable def intWork (F : Fem nn nq nf nfq dim dim) (tau : ℕ → Fin nq → Matrix (Fin dim) (Fin dim) ℝ) (v : ℕ → Fin dim → ℝ) : ℝ :=
  ∑ k : Fin F.cells.length, ∑ q, ddot (tau k q) (Matrix.of (F.gradAt v F.cells[k] q)) * F.JxW F.cells[k] q

/-- Specification: what the yield stress 250 dissipates at most if the body moves with velocity `v`: `250 sqrt(2/3 e:e)` per volume, `e` the strain rate. -/
noncomputable def dissipation (F : Fem nn nq nf nfq dim dim) (v : ℕ → Fin dim → ℝ) : ℝ :=
  ∑ k : Fin F.cells.length, ∑ q, 250 * Real.sqrt (2 / 3 * ddot (strain (Matrix.of (F.gradAt v F.cells[k] q))) (strain (Matrix.of (F.gradAt v F.cells[k] q)))) * F.JxW F.cells[k] q

/-- Specification: the trial stress of a displacement at a quadrature point: old stress plus Hooke's law for the increment of the strain. -/
noncomputable def trialAt (F : Fem nn nq nf nfq dim dim) (st : PlastState nq dim) (u : ℕ → Fin dim → ℝ) (k : Fin F.cells.length) (q : Fin nq) : Matrix (Fin dim) (Fin dim) ℝ :=
  isoLaw lame shearMod (strain (Matrix.of (F.gradAt u F.cells[k] q)) - (st.eps.getD k 0) q) + (st.sig.getD k 0) q

/-- Specification: energy of a load step: energy of the trial stresses less the work of the loads. -/
noncomputable def stepEnergy (F : Fem nn nq nf nfq dim dim) (st : PlastState nq dim) (u : ℕ → Fin dim → ℝ) : ℝ :=
  ∑ k : Fin F.cells.length, ∑ q, energy shearMod (bulk dim) 250 (trialAt F st u k q) * F.JxW F.cells[k] q - extWork F u

/-- Specification: `u` solves the load step: it takes the values `b` at the held degrees of freedom, and the residual vanishes at the others. -/
def SolvesStep (F : Fem nn nq nf nfq dim dim) (st : PlastState nq dim) (held : ℕ → Fin dim → Prop) (b u : ℕ → Fin dim → ℝ) : Prop :=
  ∃ R, (plastFem F st).computeResidual u = .ok R ∧ ∀ n < F.numTotal, ∀ i, (held n i → u n i = b n i) ∧ (¬ held n i → R n i = 0)

theorem bulk_pos' : 0 < bulk dim := bulk_pos

theorem zip_sum {α : Type*} (l : List α) (f : α × ℕ → ℝ) : (l.zipIdx.map f).sum = ∑ k : Fin l.length, f (l[k], k) := by
  have : l.zipIdx.map f = List.ofFn fun k : Fin l.length => f (l[k], k) := by
    refine List.ext_getElem (by simp) fun n h1 h2 => ?_
    simp
  rw [this, List.sum_ofFn]

theorem list_sum {α : Type*} (l : List α) (f : α → ℝ) : (l.map f).sum = ∑ k : Fin l.length, f l[k] := by
  have : l.map f = List.ofFn fun k : Fin l.length => f l[k] := by
    refine List.ext_getElem (by simp) fun n h1 h2 => ?_
    simp
  rw [this, List.sum_ofFn]

/-- The stored stresses and strains are symmetric after every load history. -/
theorem stored_symm (hdim : 0 < dim) (F : Fem nn nq nf nfq dim dim) (sols : List (ℕ → Fin dim → ℝ)) (st : PlastState nq dim) (hst : plastRun F sols = .ok st) :
    (∀ k q, ((st.sig.getD k 0) q)ᵀ = (st.sig.getD k 0) q) ∧ (∀ k q, ((st.eps.getD k 0) q)ᵀ = (st.eps.getD k 0) q) ∧ st.sig.length = F.cells.length := by
  obtain ⟨st', h1, hls, hle, hadm, heps⟩ := C30_history hdim F sols
  rw [hst] at h1
  obtain rfl : st = st' := by injection h1
  refine ⟨fun k q => ?_, fun k q => ?_, hls⟩
  · rw [List.getD_eq_getElem?_getD]
    cases hs : st.sig[k]? with
    | none => simp
    | some s =>
      obtain ⟨hk, -⟩ := List.getElem?_eq_some_iff.mp hs
      exact (hadm k s (st.eps[k]'(by omega)) hs (List.getElem?_eq_getElem (by omega)) q).2.1
  · rw [List.getD_eq_getElem?_getD]
    cases hs : st.eps[k]? with
    | none => simp
    | some s =>
      obtain ⟨hk, -⟩ := List.getElem?_eq_some_iff.mp hs
      have h2 := heps k (F.cells[k]'(by omega)) (List.getElem?_eq_getElem (by omega))
      rw [hs] at h2
      rw [Option.some.inj h2]
      simp only [Option.getD_some]
      cases sols.getLast? with
      | none => simp
      | some sol => exact strain_symm _

theorem gradAt_line (F : Fem nn nq nf nfq dim dim) (u v : ℕ → Fin dim → ℝ) (t : ℝ) (c : Fin nn → ℕ) (q : Fin nq) : (Matrix.of (F.gradAt (u + t • v) c q) : Matrix (Fin dim) (Fin dim) ℝ) = Matrix.of (F.gradAt u c q) + t • Matrix.of (F.gradAt v c q) := by
  ext i d
  simp only [Fem.gradAt, Matrix.of_apply, Matrix.add_apply, Matrix.smul_apply, smul_eq_mul, Pi.add_apply, Pi.smul_apply, mul_sum, ← sum_add_distrib]
  exact sum_congr rfl fun n _ => by ring

theorem strain_line (g h : Matrix (Fin dim) (Fin dim) ℝ) (t : ℝ) : strain (g + t • h) = strain g + t • strain h := by
  ext i j
  simp only [strain_apply, Matrix.add_apply, Matrix.smul_apply, smul_eq_mul]
  ring

theorem isoLaw_line (lam mu : ℝ) (g h : Matrix (Fin dim) (Fin dim) ℝ) (t : ℝ) : isoLaw lam mu (g + t • h) = isoLaw lam mu g + t • isoLaw lam mu h := by
  unfold isoLaw
  ext i j
  simp only [Matrix.trace_add, Matrix.trace_smul, Matrix.add_apply, Matrix.smul_apply, smul_eq_mul]
  ring

theorem trialAt_line (F : Fem nn nq nf nfq dim dim) (st : PlastState nq dim) (u v : ℕ → Fin dim → ℝ) (t : ℝ) (k : Fin F.cells.length) (q : Fin nq) :
    trialAt F st (u + t • v) k q = trialAt F st u k q + t • isoLaw lame shearMod (strain (Matrix.of (F.gradAt v F.cells[k] q))) := by
  unfold trialAt
  rw [gradAt_line, strain_line, add_sub_right_comm, isoLaw_line]
  abel

theorem extWork_line (F : Fem nn nq nf nfq dim dim) (u v : ℕ → Fin dim → ℝ) (t : ℝ) : extWork F (u + t • v) = extWork F u + t * extWork F v := by
  have hl : ∀ {α : Type} (l : List α) (f g h : α → ℝ), (∀ a, f a = g a + t * h a) → (l.map f).sum = (l.map g).sum + t * (l.map h).sum := by
    intro α l f g h he
    induction l with
    | nil => simp
    | cons a l ih =>
      simp only [List.map_cons, List.sum_cons]
      rw [ih, he a]
      ring
  have hu : ∀ c q i, F.uAt (u + t • v) c q i = F.uAt u c q i + t * F.uAt v c q i := by
    intro c q i
    simp only [Fem.uAt, Pi.add_apply, Pi.smul_apply, smul_eq_mul, mul_sum, ← sum_add_distrib]
    exact sum_congr rfl fun n _ => by ring
  have hf : ∀ p q i, F.uFace (u + t • v) p q i = F.uFace u p q i + t * F.uFace v p q i := by
    intro p q i
    simp only [Fem.uFace, Pi.add_apply, Pi.smul_apply, smul_eq_mul, mul_sum, ← sum_add_distrib]
    exact sum_congr rfl fun n _ => by ring
  unfold extWork
  have h1 := hl F.cells (fun c => ∑ q, (∑ i, F.load c q i * F.uAt (u + t • v) c q i) * F.JxW c q) (fun c => ∑ q, (∑ i, F.load c q i * F.uAt u c q i) * F.JxW c q)
    (fun c => ∑ q, (∑ i, F.load c q i * F.uAt v c q i) * F.JxW c q) (fun c => by
      rw [mul_sum, ← sum_add_distrib]
      refine sum_congr rfl fun q _ => ?_
      rw [sum_congr rfl fun i _ => by rw [hu, mul_add], sum_add_distrib, add_mul]
      congr 1
      rw [← mul_assoc, mul_sum]
      congr 1
      exact sum_congr rfl fun i _ => by ring)
  have h2 := hl (Fem.pairs F.neumann)
    (fun lv => ((F.selected lv.1).zipIdx.map fun p => ∑ q, (∑ i, lv.2 p.2 q (F.xFace p.1 q) i * F.uFace (u + t • v) p.1 q i) * F.nansonScale p.1.1 p.1.2 q).sum)
    (fun lv => ((F.selected lv.1).zipIdx.map fun p => ∑ q, (∑ i, lv.2 p.2 q (F.xFace p.1 q) i * F.uFace u p.1 q i) * F.nansonScale p.1.1 p.1.2 q).sum)
    (fun lv => ((F.selected lv.1).zipIdx.map fun p => ∑ q, (∑ i, lv.2 p.2 q (F.xFace p.1 q) i * F.uFace v p.1 q i) * F.nansonScale p.1.1 p.1.2 q).sum) (fun lv => by
      refine hl _ _ _ _ fun p => ?_
      rw [mul_sum, ← sum_add_distrib]
      refine sum_congr rfl fun q _ => ?_
      rw [sum_congr rfl fun i _ => by rw [hf, mul_add], sum_add_distrib, add_mul]
      congr 1
      rw [← mul_assoc, mul_sum]
      congr 1
      exact sum_congr rfl fun i _ => by ring)
  rw [h1, h2]
  ring

theorem stress_at (F : Fem nn nq nf nfq dim dim) (st : PlastState nq dim) (u : ℕ → Fin dim → ℝ) (k : Fin F.cells.length) (q : Fin nq) :
    returnMap (Matrix.of (F.gradAt u F.cells[k] q)) ((st.sig.getD k 0) q) ((st.eps.getD k 0) q) = radial 250 (trialAt F st u k q) := by
  rw [returnMap_radial]
  rfl

/-- The residual tested with a field: work of the drawn-back stresses less work of the loads. -/
theorem residual_work (F : Fem nn nq nf nfq dim dim) (hmesh : ∀ c ∈ F.cells, ∀ a, c a < F.numTotal) (hcauchy : F.cauchy = none) (st : PlastState nq dim) (u v R : ℕ → Fin dim → ℝ)
    (hR : (plastFem F st).computeResidual u = .ok R) : ∑ n ∈ range F.numTotal, ∑ i, R n i * v n i =
      ∑ k : Fin F.cells.length, ∑ q, ddot (radial 250 (trialAt F st u k q)) (Matrix.of (F.gradAt v F.cells[k] q)) * F.JxW F.cells[k] q - extWork F v := by
  have h := C71_virtual_work (plastFem F st) hmesh u v R hR
  have hc : (plastFem F st).cauchy = none := hcauchy
  rw [hc] at h
  simp only [Fem.pairs, Option.elim, List.map_nil, List.sum_nil, add_zero] at h
  rw [show (plastFem F st).numTotal = F.numTotal from rfl] at h
  rw [h]
  unfold extWork
  rw [← sub_sub]
  congr 1
  congr 1
  rw [show (plastFem F st).cells = F.cells from rfl, zip_sum]
  refine sum_congr rfl fun k _ => sum_congr rfl fun q _ => ?_
  have hm : ∑ i, (plastFem F st).massAt k q ((plastFem F st).uAt u F.cells[k] q) i * (plastFem F st).uAt v F.cells[k] q i = 0 := by
    simp [Fem.massAt, plastFem]
  simp only
  rw [hm, add_zero, ← stress_at]
  rfl

theorem trial_symm (F : Fem nn nq nf nfq dim dim) (st : PlastState nq dim) (hs : ∀ k q, ((st.sig.getD k 0) q)ᵀ = (st.sig.getD k 0) q) (he : ∀ k q, ((st.eps.getD k 0) q)ᵀ = (st.eps.getD k 0) q)
    (u : ℕ → Fin dim → ℝ) (k : Fin F.cells.length) (q : Fin nq) : (radial 250 (trialAt F st u k q))ᵀ = radial 250 (trialAt F st u k q) :=
  radial_transpose 250 (by unfold trialAt; rw [Matrix.transpose_add, isoLaw_transpose, Matrix.transpose_sub, strain_symm, he, hs])

theorem compl_trial (hdim : 0 < dim) (F : Fem nn nq nf nfq dim dim) (A : Matrix (Fin dim) (Fin dim) ℝ) (hA : Aᵀ = A) (v : ℕ → Fin dim → ℝ) (c : Fin nn → ℕ) (q : Fin nq) :
    compl shearMod (bulk dim) A (isoLaw lame shearMod (strain (Matrix.of (F.gradAt v c q)))) = ddot A (Matrix.of (F.gradAt v c q)) := by
  rw [bulk, compl_isoLaw hdim lame shearMod shearMod_pos bulk_pos, ddot_strain hA]

/-- **C146 (the residual is the gradient of an energy).** After every load history, for every displacement and every direction: the derivative of the step energy is the residual tested with that direction. -/
theorem C146_gradient (hdim : 0 < dim) (F : Fem nn nq nf nfq dim dim) (hmesh : ∀ c ∈ F.cells, ∀ a, c a < F.numTotal) (hcauchy : F.cauchy = none) (sols : List (ℕ → Fin dim → ℝ)) (st : PlastState nq dim)
    (hst : plastRun F sols = .ok st) (u v R : ℕ → Fin dim → ℝ) (hR : (plastFem F st).computeResidual u = .ok R) :
    HasDerivAt (fun t : ℝ => stepEnergy F st (u + t • v)) (∑ n ∈ range F.numTotal, ∑ i, R n i * v n i) 0 := by
  obtain ⟨hs, he, -⟩ := stored_symm hdim F sols st hst
  rw [residual_work F hmesh hcauchy st u v R hR]
  unfold stepEnergy
  refine HasDerivAt.sub ?_ ?_
  · refine HasDerivAt.fun_sum fun k _ => HasDerivAt.fun_sum fun q _ => HasDerivAt.mul_const ?_ _
    simp only [trialAt_line]
    rw [← compl_trial hdim F _ (trial_symm F st hs he u k q)]
    exact energy_deriv hdim shearMod (bulk dim) 250 shearMod_pos (by norm_num) _ _
  · simp only [extWork_line]
    refine (((hasDerivAt_id (0 : ℝ)).mul_const (extWork F v)).const_add (extWork F u)).congr_deriv ?_
    norm_num

theorem energy_growth (hdim : 0 < dim) (F : Fem nn nq nf nfq dim dim) (hmesh : ∀ c ∈ F.cells, ∀ a, c a < F.numTotal) (hvol : ∀ c ∈ F.cells, ∀ q, 0 ≤ F.JxW c q) (hcauchy : F.cauchy = none)
    (sols : List (ℕ → Fin dim → ℝ)) (st : PlastState nq dim) (hst : plastRun F sols = .ok st) (u v R : ℕ → Fin dim → ℝ) (hR : (plastFem F st).computeResidual u = .ok R) :
    stepEnergy F st u + ∑ n ∈ range F.numTotal, ∑ i, R n i * v n i ≤ stepEnergy F st (u + v) := by
  obtain ⟨hs, he, -⟩ := stored_symm hdim F sols st hst
  rw [residual_work F hmesh hcauchy st u v R hR]
  unfold stepEnergy
  have h1 : extWork F (u + v) = extWork F u + extWork F v := by
    have := extWork_line F u v 1
    rwa [one_smul, one_mul] at this
  have h2 : ∑ k : Fin F.cells.length, ∑ q, energy shearMod (bulk dim) 250 (trialAt F st u k q) * F.JxW F.cells[k] q
      + ∑ k : Fin F.cells.length, ∑ q, ddot (radial 250 (trialAt F st u k q)) (Matrix.of (F.gradAt v F.cells[k] q)) * F.JxW F.cells[k] q
      ≤ ∑ k : Fin F.cells.length, ∑ q, energy shearMod (bulk dim) 250 (trialAt F st (u + v) k q) * F.JxW F.cells[k] q := by
    rw [← sum_add_distrib]
    refine sum_le_sum fun k _ => ?_
    rw [← sum_add_distrib]
    refine sum_le_sum fun q _ => ?_
    rw [← add_mul]
    refine mul_le_mul_of_nonneg_right ?_ (hvol _ (List.getElem_mem _) q)
    have h3 := trialAt_line F st u v 1 k q
    rw [one_smul, one_smul] at h3
    have h4 := energy_convex hdim shearMod (bulk dim) 250 shearMod_pos bulk_pos' (by norm_num) (trialAt F st u k q) (trialAt F st (u + v) k q)
    rw [h3, add_sub_cancel_left, compl_trial hdim F _ (trial_symm F st hs he u k q)] at h4
    rw [h3]
    exact h4
  linarith

theorem residual_all (F : Fem nn nq nf nfq dim dim) (st : PlastState nq dim) (h : ∃ w R, (plastFem F st).computeResidual w = .ok R) (u : ℕ → Fin dim → ℝ) : ∃ R, (plastFem F st).computeResidual u = .ok R := by
  obtain ⟨w, hw⟩ := h
  exact (C13_returns _ u).mpr ((C13_returns _ w).mp hw)

/-- A nodal field that is 1 in one component of one node. -/
def bump (n : ℕ) (i : Fin dim) : ℕ → Fin dim → ℝ := fun m j => if m = n ∧ j = i then 1 else 0

theorem sum_bump (N n : ℕ) (hn : n < N) (i : Fin dim) (R : ℕ → Fin dim → ℝ) : ∑ m ∈ range N, ∑ j, R m j * bump n i m j = R n i := by
  rw [sum_eq_single n (fun m _ hm => sum_eq_zero fun j _ => by simp [bump, hm]) (fun h => absurd (mem_range.mpr hn) h), sum_eq_single i (fun j _ hj => by simp [bump, hj]) (fun h => absurd (mem_univ i) h)]
  simp [bump]

/-- **C146 (minimum principle).** After every load history, with volumes that are not negative: a displacement solves the load step iff it has the prescribed values and no displacement with these values has a smaller step energy. -/
theorem C146_minimum (hdim : 0 < dim) (F : Fem nn nq nf nfq dim dim) (hmesh : ∀ c ∈ F.cells, ∀ a, c a < F.numTotal) (hvol : ∀ c ∈ F.cells, ∀ q, 0 ≤ F.JxW c q) (hcauchy : F.cauchy = none)
    (sols : List (ℕ → Fin dim → ℝ)) (st : PlastState nq dim) (hst : plastRun F sols = .ok st) (hret : ∃ w R, (plastFem F st).computeResidual w = .ok R) (held : ℕ → Fin dim → Prop) (b u : ℕ → Fin dim → ℝ) :
    SolvesStep F st held b u ↔ (∀ n < F.numTotal, ∀ i, held n i → u n i = b n i) ∧
      ∀ w : ℕ → Fin dim → ℝ, (∀ n < F.numTotal, ∀ i, held n i → w n i = b n i) → stepEnergy F st u ≤ stepEnergy F st w := by
  obtain ⟨R, hR⟩ := residual_all F st hret u
  constructor
  · rintro ⟨R', hR', h⟩
    rw [hR] at hR'
    obtain rfl : R = R' := by injection hR'
    refine ⟨fun n hn i => (h n hn i).1, fun w hw => ?_⟩
    have h1 := energy_growth hdim F hmesh hvol hcauchy sols st hst u (w - u) R hR
    rw [add_sub_cancel] at h1
    have h2 : ∑ n ∈ range F.numTotal, ∑ i, R n i * (w - u) n i = 0 := by
      refine sum_eq_zero fun n hn => sum_eq_zero fun i _ => ?_
      have hn := mem_range.mp hn
      by_cases hh : held n i
      · rw [Pi.sub_apply, Pi.sub_apply, hw n hn i hh, (h n hn i).1 hh, sub_self, mul_zero]
      · rw [(h n hn i).2 hh, zero_mul]
    linarith
  · rintro ⟨h1, h2⟩
    refine ⟨R, hR, fun n hn i => ⟨h1 n hn i, fun hh => ?_⟩⟩
    have h3 := C146_gradient hdim F hmesh hcauchy sols st hst u (bump n i) R hR
    rw [sum_bump _ n hn] at h3
    refine IsLocalMin.hasDerivAt_eq_zero (Filter.Eventually.of_forall fun t => ?_) h3
    simp only [zero_smul, add_zero]
    refine h2 _ fun m hm j hj => ?_
    rw [Pi.add_apply, Pi.add_apply, Pi.smul_apply, Pi.smul_apply, smul_eq_mul]
    have : bump n i m j = 0 := by
      unfold bump
      rw [if_neg]
      rintro ⟨rfl, rfl⟩
      exact hh hj
    rw [this, mul_zero, add_zero]
    exact h1 m hm j hj

/-! ## Loads that cannot be carried -/

theorem power_le (hdim : 0 < dim) (A g : Matrix (Fin dim) (Fin dim) ℝ) (hA : Aᵀ = A) (hy : mises A ≤ 250) (hg : g.trace = 0) : ddot A g ≤ 250 * Real.sqrt (2 / 3 * ddot (strain g) (strain g)) := by
  have htr : (strain g).trace = 0 := by rw [strain_trace, hg]
  have hdev := dev_of_trace_zero htr
  rw [← ddot_strain hA, ddot_split hdim, htr, mul_zero, zero_div, add_zero]
  have h1 := ddot_dev_le A (strain g)
  have h2 : 2 / 3 * mises (strain g) = Real.sqrt (2 / 3 * ddot (strain g) (strain g)) := by
    unfold mises
    rw [hdev, show (2 / 3 : ℝ) * ddot (strain g) (strain g) = (2 / 3) ^ 2 * (3 / 2 * ddot (strain g) (strain g)) by ring, Real.sqrt_mul (by norm_num : (0 : ℝ) ≤ (2 / 3) ^ 2), Real.sqrt_sq (by norm_num)]
  calc ddot (dev A) (dev (strain g)) ≤ 2 / 3 * (mises A * mises (strain g)) := h1
    _ = mises A * (2 / 3 * mises (strain g)) := by ring
    _ ≤ 250 * (2 / 3 * mises (strain g)) := mul_le_mul_of_nonneg_right hy (mul_nonneg (by norm_num) (mises_nonneg _))
    _ = _ := by rw [h2]

/-- **C146 (upper bound).** After every load history, for every displacement and every velocity field that keeps the volume at the quadrature points: the residual tested with the velocity is at most the dissipation less the work of
the loads. -/
theorem C146_upper (hdim : 0 < dim) (F : Fem nn nq nf nfq dim dim) (hmesh : ∀ c ∈ F.cells, ∀ a, c a < F.numTotal) (hvol : ∀ c ∈ F.cells, ∀ q, 0 ≤ F.JxW c q) (hcauchy : F.cauchy = none)
    (sols : List (ℕ → Fin dim → ℝ)) (st : PlastState nq dim) (hst : plastRun F sols = .ok st) (u v R : ℕ → Fin dim → ℝ) (hR : (plastFem F st).computeResidual u = .ok R)
    (hv : ∀ c ∈ F.cells, ∀ q, ∑ i, F.gradAt v c q i i = 0) : ∑ n ∈ range F.numTotal, ∑ i, R n i * v n i ≤ dissipation F v - extWork F v := by
  obtain ⟨hs, he, -⟩ := stored_symm hdim F sols st hst
  rw [residual_work F hmesh hcauchy st u v R hR]
  refine sub_le_sub_right (sum_le_sum fun k _ => sum_le_sum fun q _ => mul_le_mul_of_nonneg_right ?_ (hvol _ (List.getElem_mem _) q)) _
  exact power_le hdim _ _ (trial_symm F st hs he u k q) (radial_step hdim 250 (by norm_num) _).2.2.2 (hv _ (List.getElem_mem _) q)

/-- **C146 (collapse).** If the loads do more work than the dissipation on a volume-preserving velocity that vanishes at the held degrees of freedom, then after no load history, for no prescribed values, has the load step a
solution. -/
theorem C146_collapse (hdim : 0 < dim) (F : Fem nn nq nf nfq dim dim) (hmesh : ∀ c ∈ F.cells, ∀ a, c a < F.numTotal) (hvol : ∀ c ∈ F.cells, ∀ q, 0 ≤ F.JxW c q) (hcauchy : F.cauchy = none)
    (held : ℕ → Fin dim → Prop) (v : ℕ → Fin dim → ℝ) (hheld : ∀ n < F.numTotal, ∀ i, held n i → v n i = 0) (hv : ∀ c ∈ F.cells, ∀ q, ∑ i, F.gradAt v c q i i = 0) (hmore : dissipation F v < extWork F v)
    (sols : List (ℕ → Fin dim → ℝ)) (st : PlastState nq dim) (hst : plastRun F sols = .ok st) (b u : ℕ → Fin dim → ℝ) : ¬ SolvesStep F st held b u := by
  rintro ⟨R, hR, h⟩
  have h1 := C146_upper hdim F hmesh hvol hcauchy sols st hst u v R hR hv
  have h2 : ∑ n ∈ range F.numTotal, ∑ i, R n i * v n i = 0 := by
    refine sum_eq_zero fun n hn => sum_eq_zero fun i _ => ?_
    by_cases hh : held n i
    · rw [hheld n (mem_range.mp hn) i hh, mul_zero]
    · rw [(h n (mem_range.mp hn) i).2 hh, zero_mul]
  linarith

theorem mem_le_norm (l : List ℝ) (x : ℝ) (hx : x ∈ l) : |x| ≤ Real.sqrt (l.map (· ^ 2)).sum := by
  rw [← Real.sqrt_sq_eq_abs]
  refine Real.sqrt_le_sqrt (List.single_le_sum (fun y hy => ?_) _ (List.mem_map.mpr ⟨x, hx, rfl⟩))
  obtain ⟨z, -, rfl⟩ := List.mem_map.mp hy
  exact sq_nonneg z

/-- What `solver` returns in the nonlinear branch has a residual of at most 1e-6 at every free degree of freedom. -/
theorem solver_residual [NeZero dim] (G : Fem nn nq nf nfq dim dim) (groups : List (Group ℝ)) (hwf : (G.toProb groups).WF) (lin : ℕ → LinCall ℝ → ℕ → ℝ) (precond usePetsc : Bool)
    (guess : Option (ℕ → ℝ)) (fuel : ℕ) (x : ℕ → ℝ) (h : (G.toProb groups).rowSolver realArith lin false precond usePetsc guess fuel = .ok x) :
    ∃ R, G.computeResidual (fun n i => x (dim * n + i)) = .ok R ∧ ∀ n < G.numTotal, ∀ i : Fin dim, FreeAt (G.toProb groups).prescriptions (dim * n + i) → |R n i| ≤ 1e-6 := by
  obtain ⟨nw, hnw, hgt, -, -⟩ := C22_any_arithmetic realArith _ lin precond usePetsc guess fuel x h
  have hpos : 0 < dim := Nat.pos_of_ne_zero (NeZero.ne dim)
  cases hn : G.newtonUpdate fun n i => x (dim * n + i) with
  | error e =>
    simp only [Fem.toProb] at hnw
    rw [hn] at hnw
    cases hnw
  | ok nu =>
    obtain ⟨R, I, J, V⟩ := nu
    cases hneu : G.neumannIntegral with
    | error e =>
      simp only [Fem.toProb] at hnw
      rw [hn, hneu] at hnw
      cases hnw
    | ok neu =>
      have hres : nw.res = fun d => R (d / dim) (Fin.ofNat dim d) := by
        simp only [Fem.toProb] at hnw
        rw [hn, hneu] at hnw
        injection hnw with hnw
        rw [← hnw]
      refine ⟨R, (C14_same_residual G _ R).mpr ⟨I, J, V, hn⟩, fun n hN i hf => ?_⟩
      have hd : dim * n + i < (G.toProb groups).numDofs := by
        show dim * n + i < G.numTotal * dim
        calc dim * n + i < dim * n + dim := by have := i.isLt; omega
          _ = (n + 1) * dim := by ring
          _ ≤ G.numTotal * dim := Nat.mul_le_mul_right _ hN
      have h1 := (C19_components realArith (G.toProb groups) hwf nw.res x (dim * n + i)).2 hf
      rw [hres] at h1
      have e1 : (dim * n + (i : ℕ)) / dim = n := by rw [Nat.mul_add_div hpos, Nat.div_eq_of_lt i.isLt, add_zero]
      have e2 : Fin.ofNat dim (dim * n + i) = i := Fin.ext (by simp [Fin.ofNat, Nat.mul_add_mod, Nat.mod_eq_of_lt i.isLt])
      simp only [e1, e2] at h1
      have h2 : ¬ (G.toProb groups).resNorm realArith ((G.toProb groups).applyBcVec realArith nw.res x) > 1e-6 := of_decide_eq_false hgt
      rw [hres] at h2
      rw [← h1]
      refine le_trans (mem_le_norm _ _ ?_) (not_lt.mp h2)
      exact List.mem_map.mpr ⟨dim * n + i, List.mem_range.mpr hd, rfl⟩

/-- **C146 (the solver cannot return).** If the loads do more work than the dissipation, by more than the tolerance times the size of the velocity, then `solver` returns after no load history, for no initial guess, no linear
solver and no number of Newton steps. -/
theorem C146_solver [NeZero dim] (F : Fem nn nq nf nfq dim dim) (hmesh : ∀ c ∈ F.cells, ∀ a, c a < F.numTotal) (hvol : ∀ c ∈ F.cells, ∀ q, 0 ≤ F.JxW c q) (hcauchy : F.cauchy = none)
    (sols : List (ℕ → Fin dim → ℝ)) (st : PlastState nq dim) (hst : plastRun F sols = .ok st) (groups : List (Group ℝ)) (hwf : ((plastFem F st).toProb groups).WF) (v : ℕ → Fin dim → ℝ)
    (hheld : ∀ n < F.numTotal, ∀ i : Fin dim, ¬ FreeAt ((plastFem F st).toProb groups).prescriptions (dim * n + i) → v n i = 0) (hv : ∀ c ∈ F.cells, ∀ q, ∑ i, F.gradAt v c q i i = 0)
    (hmore : dissipation F v + 1e-6 * ∑ n ∈ range F.numTotal, ∑ i, |v n i| < extWork F v) (lin : ℕ → LinCall ℝ → ℕ → ℝ) (precond usePetsc : Bool) (guess : Option (ℕ → ℝ)) (fuel : ℕ) (x : ℕ → ℝ) :
    ((plastFem F st).toProb groups).rowSolver realArith lin false precond usePetsc guess fuel ≠ .ok x := by
  intro h
  obtain ⟨R, hR, hsmall⟩ := solver_residual (plastFem F st) groups hwf lin precond usePetsc guess fuel x h
  have h1 := C146_upper (Nat.pos_of_ne_zero (NeZero.ne dim)) F hmesh hvol hcauchy sols st hst _ v R hR hv
  have h2 : -(1e-6 * ∑ n ∈ range F.numTotal, ∑ i, |v n i|) ≤ ∑ n ∈ range F.numTotal, ∑ i, R n i * v n i := by
    rw [mul_sum, ← sum_neg_distrib]
    refine sum_le_sum fun n hn => ?_
    rw [mul_sum, ← sum_neg_distrib]
    refine sum_le_sum fun i _ => ?_
    by_cases hf : FreeAt ((plastFem F st).toProb groups).prescriptions (dim * n + i)
    · have h3 := hsmall n (mem_range.mp hn) i hf
      have h4 : |R n i * v n i| ≤ 1e-6 * |v n i| := by rw [abs_mul]; exact mul_le_mul_of_nonneg_right h3 (abs_nonneg _)
      linarith [neg_abs_le (R n i * v n i)]
    · rw [hheld n (mem_range.mp hn) i hf]
      simp
  linarith

/-! ## Loads that can be carried -/

/-- Specification: the stress field `tau` carries the loads: it is symmetric, stays the margin `delta` inside the yield surface, and balances the loads on all fields that vanish at the held degrees of freedom. -/
structure Carries (F : Fem nn nq nf nfq dim dim) (held : ℕ → Fin dim → Prop) (delta : ℝ) (tau : ℕ → Fin nq → Matrix (Fin dim) (Fin dim) ℝ) : Prop where
  symm : ∀ k q, (tau k q)ᵀ = tau k q
  inside : ∀ k q, mises (tau k q) ≤ 250 - delta
  balance : ∀ v : ℕ → Fin dim → ℝ, (∀ n i, held n i → v n i = 0) → extWork F v = intWork F tau v

/-- The field with the values `w` at the free degrees of freedom of the mesh and zero elsewhere. -/
def spread (held : ℕ → Fin dim → Prop) [∀ n i, Decidable (held n i)] (N : ℕ) (w : Fin N → Fin dim → ℝ) : ℕ → Fin dim → ℝ := fun n i => if h : n < N then (if held n i then 0 else w ⟨n, h⟩ i) else 0

theorem spread_line (held : ℕ → Fin dim → Prop) [∀ n i, Decidable (held n i)] (N : ℕ) (w w' : Fin N → Fin dim → ℝ) (t : ℝ) : spread held N (w + t • w') = spread held N w + t • spread held N w' := by
  funext n i
  simp only [spread, Pi.add_apply, Pi.smul_apply, smul_eq_mul]
  by_cases h : n < N
  · by_cases hh : held n i <;> simp [h, hh]
  · simp [h]

theorem energy_continuous (mu K sy : ℝ) : Continuous fun T : Fin dim → Fin dim → ℝ => energy mu K sy (Matrix.of T) := by
  have hdev : ∀ i j, Continuous fun T : Fin dim → Fin dim → ℝ => dev (Matrix.of T : Matrix (Fin dim) (Fin dim) ℝ) i j := by
    intro i j
    simp only [dev, Matrix.sub_apply, Matrix.of_apply, Matrix.smul_apply, smul_eq_mul, Matrix.trace, Matrix.diag_apply]
    fun_prop
  have htr : Continuous fun T : Fin dim → Fin dim → ℝ => (Matrix.of T : Matrix (Fin dim) (Fin dim) ℝ).trace := by
    simp only [Matrix.trace, Matrix.diag_apply, Matrix.of_apply]
    fun_prop
  have hdd : Continuous fun T : Fin dim → Fin dim → ℝ => ddot (dev (Matrix.of T : Matrix (Fin dim) (Fin dim) ℝ)) (dev (Matrix.of T)) :=
    continuous_finsetSum _ fun i _ => continuous_finsetSum _ fun j _ => (hdev i j).mul (hdev i j)
  unfold energy compl mises
  fun_prop

theorem compl_continuous (mu K : ℝ) (A : Matrix (Fin dim) (Fin dim) ℝ) : Continuous fun T : Fin dim → Fin dim → ℝ => compl mu K A (Matrix.of T) := by
  have hdev : ∀ i j, Continuous fun T : Fin dim → Fin dim → ℝ => dev (Matrix.of T : Matrix (Fin dim) (Fin dim) ℝ) i j := by
    intro i j
    simp only [dev, Matrix.sub_apply, Matrix.of_apply, Matrix.smul_apply, smul_eq_mul, Matrix.trace, Matrix.diag_apply]
    fun_prop
  have htr : Continuous fun T : Fin dim → Fin dim → ℝ => (Matrix.of T : Matrix (Fin dim) (Fin dim) ℝ).trace := by
    simp only [Matrix.trace, Matrix.diag_apply, Matrix.of_apply]
    fun_prop
  have hdd : Continuous fun T : Fin dim → Fin dim → ℝ => ddot (dev A) (dev (Matrix.of T)) :=
    continuous_finsetSum _ fun i _ => continuous_finsetSum _ fun j _ => continuous_const.mul (hdev i j)
  unfold compl
  fun_prop

/-- Only the values at the nodes of the mesh matter. -/
theorem stepEnergy_congr (F : Fem nn nq nf nfq dim dim) (hmesh : ∀ c ∈ F.cells, ∀ a, c a < F.numTotal) (st : PlastState nq dim) (x x' : ℕ → Fin dim → ℝ) (hval : ∀ n < F.numTotal, ∀ i, x n i = x' n i) :
    stepEnergy F st x = stepEnergy F st x' := by
  have hg : ∀ c ∈ F.cells, ∀ q, F.gradAt x c q = F.gradAt x' c q := by
    intro c hc q
    funext i d
    exact sum_congr rfl fun n _ => by rw [hval _ (hmesh c hc n) i]
  have hu : ∀ c ∈ F.cells, ∀ q, F.uAt x c q = F.uAt x' c q := by
    intro c hc q
    funext i
    exact sum_congr rfl fun n _ => by rw [hval _ (hmesh c hc n) i]
  have hf : ∀ l, ∀ p ∈ F.selected l, ∀ q, F.uFace x p q = F.uFace x' p q := by
    intro l p hp q
    funext i
    exact sum_congr rfl fun n _ => by rw [hval _ (hmesh _ (selected_mem F hp) n) i]
  have e1 : ∀ k : Fin F.cells.length, ∀ q, trialAt F st x k q = trialAt F st x' k q := by
    intro k q
    unfold trialAt
    have := hg F.cells[k] (List.getElem_mem k.isLt) q
    rw [this]
  have e2 : extWork F x = extWork F x' := by
    unfold extWork
    refine congrArg₂ (· + ·) ?_ ?_
    · refine sum_map_congr fun c hc => ?_
      simp only [hu c hc]
    · refine sum_map_congr fun lv _ => sum_map_congr fun p hp => ?_
      simp only [hf _ p.1 (zipIdx_mem hp)]
  unfold stepEnergy
  rw [e2]
  simp only [e1]

/-- **C146 (existence).** If some stress field carries the loads with a margin, then after every load history and for all prescribed values the load step has a solution. -/
theorem C146_exists (hdim : 0 < dim) (F : Fem nn nq nf nfq dim dim) (hmesh : ∀ c ∈ F.cells, ∀ a, c a < F.numTotal) (hvol : ∀ c ∈ F.cells, ∀ q, 0 < F.JxW c q) (hcauchy : F.cauchy = none)
    (held : ℕ → Fin dim → Prop) (delta : ℝ) (hdelta : 0 < delta) (tau : ℕ → Fin nq → Matrix (Fin dim) (Fin dim) ℝ) (hcar : Carries F held delta tau)
    (sols : List (ℕ → Fin dim → ℝ)) (st : PlastState nq dim) (hst : plastRun F sols = .ok st) (hret : ∃ w R, (plastFem F st).computeResidual w = .ok R) (b : ℕ → Fin dim → ℝ) :
    ∃ u, SolvesStep F st held b u := by
  classical
  obtain ⟨a, ha, hcoer⟩ := energy_coercive (dim := dim) hdim shearMod (bulk dim) 250 delta shearMod_pos bulk_pos' hdelta
  choose! β hβ using hcoer
  -- the trial stresses reached from `b`
  let S : (Fin F.numTotal → Fin dim → ℝ) →ₗ[ℝ] (Fin F.cells.length → Fin nq → Fin dim → Fin dim → ℝ) :=
    { toFun := fun w k q i j => isoLaw lame shearMod (strain (Matrix.of (F.gradAt (spread held F.numTotal w) F.cells[k] q))) i j
      map_add' := fun w w' => by
        funext k q i j
        have h := spread_line held F.numTotal w w' 1
        rw [one_smul, one_smul] at h
        have h1 := gradAt_line F (spread held F.numTotal w) (spread held F.numTotal w') 1 F.cells[k] q
        rw [one_smul, one_smul] at h1
        have h2 := strain_line (Matrix.of (F.gradAt (spread held F.numTotal w) F.cells[k] q)) (Matrix.of (F.gradAt (spread held F.numTotal w') F.cells[k] q)) 1
        rw [one_smul, one_smul] at h2
        have h3 := isoLaw_line lame shearMod (strain (Matrix.of (F.gradAt (spread held F.numTotal w) F.cells[k] q))) (strain (Matrix.of (F.gradAt (spread held F.numTotal w') F.cells[k] q))) 1
        rw [one_smul, one_smul] at h3
        simp only [h, h1, h2, h3]
        rfl
      map_smul' := fun t w => by
        funext k q i j
        have h := spread_line held F.numTotal 0 w t
        have h0 : spread held F.numTotal (0 : Fin F.numTotal → Fin dim → ℝ) = 0 := by
          funext n i
          simp [spread]
        rw [h0, zero_add, zero_add] at h
        have h1 := gradAt_line F 0 (spread held F.numTotal w) t F.cells[k] q
        have h10 : (Matrix.of (F.gradAt (0 : ℕ → Fin dim → ℝ) F.cells[k] q) : Matrix (Fin dim) (Fin dim) ℝ) = 0 := by
          ext i d
          simp [Fem.gradAt]
        rw [h10, zero_add, zero_add] at h1
        have h2 := strain_line 0 (Matrix.of (F.gradAt (spread held F.numTotal w) F.cells[k] q)) t
        have h20 : strain (0 : Matrix (Fin dim) (Fin dim) ℝ) = 0 := by simp [strain]
        rw [h20, zero_add, zero_add] at h2
        have h3 := isoLaw_line lame shearMod 0 (strain (Matrix.of (F.gradAt (spread held F.numTotal w) F.cells[k] q))) t
        have h30 : isoLaw lame shearMod (0 : Matrix (Fin dim) (Fin dim) ℝ) = 0 := by simp [isoLaw]
        rw [h30, zero_add, zero_add] at h3
        simp only [h, h1, h2, h3]
        rfl }
  have hS : ∀ w k q, (Matrix.of (S w k q) : Matrix (Fin dim) (Fin dim) ℝ) = isoLaw lame shearMod (strain (Matrix.of (F.gradAt (spread held F.numTotal w) F.cells[k] q))) := fun _ _ _ => rfl
  let T0 : Fin F.cells.length → Fin nq → Fin dim → Fin dim → ℝ := fun k q i j => trialAt F st b k q i j
  let phi : (Fin F.cells.length → Fin nq → Fin dim → Fin dim → ℝ) → ℝ := fun T => ∑ k : Fin F.cells.length, ∑ q,
    (energy shearMod (bulk dim) 250 (Matrix.of (T k q)) - compl shearMod (bulk dim) (tau k q) (Matrix.of (T k q))) * F.JxW F.cells[k] q
  have hcont : Continuous phi := by
    refine continuous_finsetSum _ fun k _ => continuous_finsetSum _ fun q _ => Continuous.mul (Continuous.sub ?_ ?_) continuous_const
    · exact (energy_continuous _ _ _).comp ((continuous_apply q).comp (continuous_apply k))
    · exact (compl_continuous _ _ _).comp ((continuous_apply q).comp (continuous_apply k))
  -- lower bound of the volumes
  obtain ⟨w0, hw0, hw0le⟩ : ∃ w0 > 0, ∀ (k : Fin F.cells.length) (q : Fin nq), w0 ≤ F.JxW F.cells[k] q := by
    have hp : ∀ (k : Fin F.cells.length) (q : Fin nq), 0 < F.JxW F.cells[k] q := fun k q => hvol _ (List.getElem_mem _) q
    have hs0 : 0 ≤ ∑ k : Fin F.cells.length, ∑ q, (F.JxW F.cells[k] q)⁻¹ := sum_nonneg fun k _ => sum_nonneg fun q _ => (inv_pos.mpr (hp k q)).le
    refine ⟨(1 + ∑ k : Fin F.cells.length, ∑ q, (F.JxW F.cells[k] q)⁻¹)⁻¹, by positivity, fun k q => ?_⟩
    refine inv_le_of_inv_le₀ (hp k q) ?_
    have h1 : (F.JxW F.cells[k] q)⁻¹ ≤ ∑ q, (F.JxW F.cells[k] q)⁻¹ := single_le_sum (f := fun q => (F.JxW F.cells[k] q)⁻¹) (fun q _ => (inv_pos.mpr (hp k q)).le) (mem_univ q)
    have h2 : ∑ q, (F.JxW F.cells[k] q)⁻¹ ≤ ∑ k : Fin F.cells.length, ∑ q, (F.JxW F.cells[k] q)⁻¹ :=
      single_le_sum (f := fun k : Fin F.cells.length => ∑ q, (F.JxW F.cells[k] q)⁻¹) (fun k _ => sum_nonneg fun q _ => (inv_pos.mpr (hp k q)).le) (mem_univ k)
    linarith
  -- coercivity
  obtain ⟨B, hB⟩ : ∃ B, ∀ T, a * w0 * ‖T‖ - B ≤ phi T := by
    refine ⟨∑ k : Fin F.cells.length, ∑ q, |β (tau k q)| * F.JxW F.cells[k] q, fun T => ?_⟩
    have hpt : ∀ (k : Fin F.cells.length) (q : Fin nq), a * ‖T k q‖ - |β (tau k q)| ≤ energy shearMod (bulk dim) 250 (Matrix.of (T k q)) - compl shearMod (bulk dim) (tau k q) (Matrix.of (T k q)) := by
      intro k q
      set X := energy shearMod (bulk dim) 250 (Matrix.of (T k q)) - compl shearMod (bulk dim) (tau k q) (Matrix.of (T k q)) with hX
      have hij : ∀ i j, a * |T k q i j| - β (tau k q) ≤ X := fun i j => hβ (tau k q) (hcar.inside k q) (Matrix.of (T k q)) i j
      have hb := le_abs_self (β (tau k q))
      have hnn : 0 ≤ X + |β (tau k q)| := by
        have := hij ⟨0, hdim⟩ ⟨0, hdim⟩
        have := mul_nonneg ha.le (abs_nonneg (T k q ⟨0, hdim⟩ ⟨0, hdim⟩))
        linarith
      have hle : ‖T k q‖ ≤ (X + |β (tau k q)|) / a := by
        refine (pi_norm_le_iff_of_nonneg (div_nonneg hnn ha.le)).mpr fun i => (pi_norm_le_iff_of_nonneg (div_nonneg hnn ha.le)).mpr fun j => ?_
        rw [Real.norm_eq_abs, le_div_iff₀ ha]
        have := hij i j
        linarith
      rw [le_div_iff₀ ha] at hle
      linarith
    have hterm : ∀ (k : Fin F.cells.length) (q : Fin nq), a * w0 * ‖T k q‖ - |β (tau k q)| * F.JxW F.cells[k] q
        ≤ (energy shearMod (bulk dim) 250 (Matrix.of (T k q)) - compl shearMod (bulk dim) (tau k q) (Matrix.of (T k q))) * F.JxW F.cells[k] q := by
      intro k q
      have h1 := mul_le_mul_of_nonneg_right (hpt k q) (hw0.le.trans (hw0le k q))
      have h2 : a * w0 * ‖T k q‖ ≤ a * ‖T k q‖ * F.JxW F.cells[k] q := by
        have := mul_le_mul_of_nonneg_left (hw0le k q) (mul_nonneg ha.le (norm_nonneg (T k q)))
        linarith
      linarith
    have hsum : ∑ k : Fin F.cells.length, ∑ q, (a * w0 * ‖T k q‖ - |β (tau k q)| * F.JxW F.cells[k] q) ≤ phi T := sum_le_sum fun k _ => sum_le_sum fun q _ => hterm k q
    simp only [sum_sub_distrib] at hsum
    have hnorm : a * w0 * ‖T‖ ≤ ∑ k : Fin F.cells.length, ∑ q, a * w0 * ‖T k q‖ := by
      simp only [← mul_sum]
      refine mul_le_mul_of_nonneg_left ?_ (mul_pos ha hw0).le
      have hnn : 0 ≤ ∑ k : Fin F.cells.length, ∑ q, ‖T k q‖ := sum_nonneg fun k _ => sum_nonneg fun q _ => norm_nonneg _
      refine (pi_norm_le_iff_of_nonneg hnn).mpr fun k => (pi_norm_le_iff_of_nonneg hnn).mpr fun q => ?_
      exact (single_le_sum (f := fun q => ‖T k q‖) (fun q _ => norm_nonneg _) (mem_univ q)).trans (single_le_sum (f := fun k => ∑ q, ‖T k q‖) (fun k _ => sum_nonneg fun q _ => norm_nonneg _) (mem_univ k))
    linarith
  -- the minimum
  obtain ⟨y, hy⟩ : ∃ y : LinearMap.range S, ∀ y' : LinearMap.range S, phi (T0 + y) ≤ phi (T0 + y') := by
    have : ProperSpace (LinearMap.range S) := FiniteDimensional.proper ℝ _
    refine Continuous.exists_forall_le (f := fun y : LinearMap.range S => phi (T0 + y)) (hcont.comp (continuous_const.add continuous_subtype_val)) ?_
    have h1 : Filter.Tendsto (fun y : LinearMap.range S => a * w0 * ‖y‖ + (-(a * w0 * ‖T0‖) - B)) (Filter.cocompact _) Filter.atTop :=
      Filter.tendsto_atTop_add_const_right _ _ ((tendsto_norm_cocompact_atTop).const_mul_atTop (mul_pos ha hw0))
    refine Filter.tendsto_atTop_mono (fun y => ?_) h1
    have h2 := hB (T0 + y)
    have h3 : ‖(y : Fin F.cells.length → Fin nq → Fin dim → Fin dim → ℝ)‖ ≤ ‖T0 + y‖ + ‖T0‖ := by
      have := norm_sub_le (T0 + (y : Fin F.cells.length → Fin nq → Fin dim → Fin dim → ℝ)) T0
      rwa [add_sub_cancel_left] at this
    have h4 := mul_le_mul_of_nonneg_left h3 (mul_pos ha hw0).le
    have h5 : ‖y‖ = ‖(y : Fin F.cells.length → Fin nq → Fin dim → Fin dim → ℝ)‖ := rfl
    rw [h5]
    linarith
  obtain ⟨y, w, rfl⟩ := y
  -- the step energy in terms of `phi`
  have henergy : ∀ w, stepEnergy F st (b + spread held F.numTotal w) = phi (T0 + S w) + ∑ k : Fin F.cells.length, ∑ q, compl shearMod (bulk dim) (tau k q) (trialAt F st b k q) * F.JxW F.cells[k] q - extWork F b := by
    intro w
    have hwork : extWork F (b + spread held F.numTotal w) = extWork F b + extWork F (spread held F.numTotal w) := by
      have := extWork_line F b (spread held F.numTotal w) 1
      rwa [one_smul, one_mul] at this
    have hbal := hcar.balance (spread held F.numTotal w) (fun n i hh => by simp [spread, hh])
    have htr : ∀ (k : Fin F.cells.length) q, trialAt F st (b + spread held F.numTotal w) k q = Matrix.of ((T0 + S w) k q) := by
      intro k q
      have := trialAt_line F st b (spread held F.numTotal w) 1 k q
      rw [one_smul, one_smul] at this
      rw [this]
      rfl
    unfold stepEnergy
    rw [hwork, hbal]
    simp only [htr, phi]
    have hint : intWork F tau (spread held F.numTotal w) = ∑ k : Fin F.cells.length, ∑ q, compl shearMod (bulk dim) (tau k q) (Matrix.of (S w k q)) * F.JxW F.cells[k] q := by
      unfold intWork
      refine sum_congr rfl fun k _ => sum_congr rfl fun q _ => ?_
      rw [hS, compl_trial hdim F _ (hcar.symm k q)]
    have hsplit : ∀ (k : Fin F.cells.length) q, compl shearMod (bulk dim) (tau k q) (Matrix.of ((T0 + S w) k q)) = compl shearMod (bulk dim) (tau k q) (trialAt F st b k q) + compl shearMod (bulk dim) (tau k q) (Matrix.of (S w k q)) := by
      intro k q
      rw [← compl_add_right]
      rfl
    rw [hint]
    simp only [hsplit, sub_mul, add_mul, sum_sub_distrib, sum_add_distrib]
    ring
  refine ⟨b + spread held F.numTotal w, (C146_minimum hdim F hmesh (fun c hc q => (hvol c hc q).le) hcauchy sols st hst hret held b _).mpr ⟨fun n hn i hh => ?_, fun x hx => ?_⟩⟩
  · simp [spread, hh]
  · -- only the values at the nodes of the mesh matter
    have hsame : stepEnergy F st x = stepEnergy F st (b + spread held F.numTotal fun n i => x n i - b n i) := by
      refine stepEnergy_congr F hmesh st _ _ fun n hn i => ?_
      simp only [Pi.add_apply, spread, hn, dif_pos]
      by_cases hh : held n i
      · rw [if_pos hh, hx n hn i hh, add_zero]
      · rw [if_neg hh]
        ring
    rw [hsame, henergy, henergy]
    have := hy ⟨S fun n i => x n i - b n i, ⟨_, rfl⟩⟩
    simp only at this
    linarith

/-- **C146 (displacements can always be prescribed).** Without body load and tractions every load step has a solution, after every load history, for every choice of held degrees of freedom and prescribed values. -/
theorem C146_displacement (hdim : 0 < dim) (F : Fem nn nq nf nfq dim dim) (hmesh : ∀ c ∈ F.cells, ∀ a, c a < F.numTotal) (hvol : ∀ c ∈ F.cells, ∀ q, 0 < F.JxW c q) (hcells : F.cells ≠ []) (hcauchy : F.cauchy = none)
    (hneu : F.neumann = none) (hsrc : F.source = none) (hbody : F.bodyVar = none) (held : ℕ → Fin dim → Prop) (sols : List (ℕ → Fin dim → ℝ)) :
    ∃ st, plastRun F sols = .ok st ∧ ∀ b, ∃ u, SolvesStep F st held b u := by
  obtain ⟨st, hst, hls, hle, -⟩ := C30_history hdim F sols
  refine ⟨st, hst, fun b => C146_exists hdim F hmesh hvol hcauchy held 250 (by norm_num) (fun _ _ => 0) ⟨fun _ _ => Matrix.transpose_zero, fun _ _ => ?_, fun v _ => ?_⟩ sols st hst ⟨0, (C13_returns _ _).mpr ⟨hcells, ?_, ?_, ?_, ?_⟩⟩ b⟩
  · rw [mises_zero]
    norm_num
  · have h1 : intWork F (fun _ _ => 0) v = 0 := by
      simp [intWork, ddot]
    have h2 : ∀ c q i, F.load c q i = 0 := by
      intro c q i
      simp [Fem.load, hsrc, hbody]
    rw [h1]
    unfold extWork
    rw [hneu]
    simp [Fem.pairs, h2]
  · intro m hm
    cases hm
  · intro m hm
    have : (plastFem F st).lapRows = some st.sig.length := rfl
    rw [this] at hm
    injection hm with hm
    rw [← hm, hls]
    rfl
  · intro lv hlv
    have : (plastFem F st).cauchy = none := hcauchy
    rw [this] at hlv
    cases hlv
  · intro lv hlv
    have : (plastFem F st).neumann = none := hneu
    rw [this] at hlv
    cases hlv

end Verif.Fem.LimitLoad
