import Verif.Fem.CrystalStress
import Mathlib.Analysis.Calculus.FDeriv.Mul
import Mathlib.Analysis.Calculus.FDeriv.Prod
import Mathlib.Analysis.Calculus.FDeriv.Pi
import Mathlib.Analysis.Calculus.Deriv.Comp
import Mathlib.Analysis.Calculus.Deriv.Add
import Mathlib.Analysis.Calculus.Deriv.Pow
import Mathlib.Analysis.Calculus.Deriv.Abs
import Mathlib.Analysis.Calculus.Deriv.Inv
import Mathlib.Analysis.Calculus.Deriv.Prod
import Mathlib.Analysis.Calculus.Deriv.Slope

/-!
# Crystal plasticity: the derivative rule of the local solver (applications/fem/crystal_plasticity/models.py 223-231)
-/
namespace Verif.Fem
open Finset Matrix Filter Topology

variable {ns : ℕ}

/-- `|x|^9 x` is differentiable everywhere. -/
theorem diff_abs_pow (x : ℝ) : DifferentiableAt ℝ (fun x : ℝ => |x| ^ 9 * x) x := by
  rcases eq_or_ne x 0 with rfl | hx
  · refine (HasDerivAt.differentiableAt (f' := 0) ?_)
    rw [hasDerivAt_iff_tendsto_slope_zero]
    have : ∀ t : ℝ, t⁻¹ • (|0 + t| ^ 9 * (0 + t) - |0| ^ 9 * 0) = if t = 0 then 0 else |t| ^ 9 := fun t => by
      split_ifs with h
      · subst h; simp
      · simp only [zero_add, mul_zero, sub_zero, smul_eq_mul]; field_simp
    simp only [this]
    have h1 : Tendsto (fun t : ℝ => |t| ^ 9) (𝓝[≠] 0) (𝓝 0) := by
      have : Tendsto (fun t : ℝ => |t| ^ 9) (𝓝 0) (𝓝 (|0| ^ 9)) := (continuous_abs.pow 9).tendsto 0
      simp only [abs_zero] at this
      exact (by simpa using this : Tendsto (fun t : ℝ => |t| ^ 9) (𝓝 0) (𝓝 0)).mono_left nhdsWithin_le_nhds
    refine h1.congr' ?_
    filter_upwards [self_mem_nhdsWithin] with t ht
    rw [if_neg (show ¬ t = 0 from ht)]
  · exact ((differentiableAt_abs hx).pow 9).mul differentiableAt_id

section paths

variable {Z : Type} [NormedAddCommGroup Z] [NormedSpace ℝ Z]

/-- All entries are differentiable. -/
def EntD (A : Z → M3) (z : Z) : Prop := ∀ i j, DifferentiableAt ℝ (fun z => A z i j) z

theorem EntD.mul {A B : Z → M3} {z : Z} (hA : EntD A z) (hB : EntD B z) : EntD (fun z => A z * B z) z := fun i j => by
  simp only [Matrix.mul_apply]
  exact DifferentiableAt.fun_sum fun k _ => (hA i k).mul (hB k j)

theorem EntD.transpose {A : Z → M3} {z : Z} (hA : EntD A z) : EntD (fun z => (A z)ᵀ) z := fun i j => hA j i

theorem EntD.const (A : M3) (z : Z) : EntD (fun _ => A) z := fun _ _ => differentiableAt_const _

theorem EntD.sub {A B : Z → M3} {z : Z} (hA : EntD A z) (hB : EntD B z) : EntD (fun z => A z - B z) z := fun i j => (hA i j).sub (hB i j)

theorem EntD.add {A B : Z → M3} {z : Z} (hA : EntD A z) (hB : EntD B z) : EntD (fun z => A z + B z) z := fun i j => (hA i j).add (hB i j)

theorem EntD.rotate2 {R : Z → M3} {z : Z} (hR : EntD R z) (T : M3) : EntD (fun z => Verif.Fem.rotate2 (R z) T) z := by
  simp only [rotate2_eq]
  exact (hR.mul (EntD.const T z)).mul hR.transpose

/-- The residual is differentiable in everything it depends on, as long as the resistances are positive. -/
theorem residual_diff (m : CpMaterial ns) (u : Z → M3) (st : Z → CpState ns) (S : Z → M3) (z : Z) (hu : EntD u z) (hFp : EntD (fun z => (st z).Fp_inv) z) (hR : EntD (fun z => (st z).rot_mat) z)
    (hg : ∀ a, DifferentiableAt ℝ (fun z => (st z).resistance a) z) (hpos : ∀ a, 0 < (st z).resistance a) (hS : EntD S z) : EntD (fun z => m.residual (u z) (st z) (S z)) z := by
  have htau : ∀ a, DifferentiableAt ℝ (fun z => m.tau (st z) (S z) a) z := fun a => by
    unfold CpMaterial.tau
    exact DifferentiableAt.fun_sum fun i _ => DifferentiableAt.fun_sum fun j _ => (hS i j).mul (hR.rotate2 _ i j)
  have hgam : ∀ a, DifferentiableAt ℝ (fun z => m.gammaInc (st z) (S z) a) z := fun a => by
    have hx : DifferentiableAt ℝ (fun z => m.tau (st z) (S z) a / (st z).resistance a) z := by
      simp only [div_eq_mul_inv]
      exact (htau a).mul ((hg a).inv (hpos a).ne')
    have h1 : DifferentiableAt ℝ (fun z => 0.001 * m.dt * (|m.tau (st z) (S z) a / (st z).resistance a| ^ 9 * (m.tau (st z) (S z) a / (st z).resistance a))) z :=
      ((diff_abs_pow _).comp z hx).const_mul _
    refine h1.congr_of_eventuallyEq ?_
    have hev : ∀ᶠ w in 𝓝 z, 0 < (st w).resistance a := (hg a).continuousAt.eventually (lt_mem_nhds (hpos a))
    filter_upwards [hev] with w hw
    unfold CpMaterial.gammaInc
    simp only
    rw [rpow_ten]
    set x := m.tau (st w) (S w) a
    have : |x / (st w).resistance a| ^ 10 * Real.sign x = |x / (st w).resistance a| ^ 9 * (x / (st w).resistance a) := by
      rw [abs_div, abs_of_pos hw]
      rcases lt_trichotomy x 0 with h | h | h
      · rw [Real.sign_of_neg h, abs_of_neg h]; ring
      · rw [h]; simp
      · rw [Real.sign_of_pos h, abs_of_pos h]; ring
    rw [mul_assoc, this]
  have hL : EntD (fun z => m.plasticInc (st z) (S z)) z := fun i j => by
    simp only [CpMaterial.plasticInc, Matrix.of_apply]
    exact DifferentiableAt.fun_sum fun a _ => (hgam a).mul (hR.rotate2 _ i j)
  have hFe : EntD (fun z => (m.helper (u z) (st z) (S z)).2.1) z := (hu.add (EntD.const 1 z)).mul (hFp.mul ((EntD.const 1 z).sub hL))
  have hE : EntD (fun z => ((m.helper (u z) (st z) (S z)).2.1)ᵀ * (m.helper (u z) (st z) (S z)).2.1 - 1) z := (hFe.transpose.mul hFe).sub (EntD.const 1 z)
  intro i k
  show DifferentiableAt ℝ (fun z => S z i k - ∑ p, ∑ o, rotate4 (st z).rot_mat m.C i k p o * 1 / 2 * (((m.helper (u z) (st z) (S z)).2.1)ᵀ * (m.helper (u z) (st z) (S z)).2.1 - 1) p o) z
  refine (hS i k).sub (DifferentiableAt.fun_sum fun p _ => DifferentiableAt.fun_sum fun o _ => DifferentiableAt.mul ?_ (hE p o))
  have h4 : DifferentiableAt ℝ (fun z => rotate4 (st z).rot_mat m.C i k p o) z := by
    unfold rotate4
    exact DifferentiableAt.fun_sum fun a _ => DifferentiableAt.fun_sum fun b _ => DifferentiableAt.fun_sum fun c _ => DifferentiableAt.fun_sum fun d _ =>
      ((((hR i a).mul (hR k b)).mul (hR p c)).mul (hR o d)).mul_const _
  simp only [mul_one, div_eq_mul_inv]
  exact h4.mul_const _

end paths

/-- **C114 (derivative rule).** Let displacement gradient and internal variables move along any differentiable path with positive resistances, and let `Y` be a differentiable branch of solutions of the local equations along it. Then the
derivative of `Y` solves the linear system of `f_jvp`: Jacobian in `y` times it equals minus the derivative of the residual along the path; if that Jacobian is invertible, what `np.linalg.solve` returns there is the derivative. -/
theorem C114_jvp (m : CpMaterial ns) (u : ℝ → M3) (st : ℝ → CpState ns) (Y : ℝ → M3) (hu : EntD u 0) (hFp : EntD (fun t => (st t).Fp_inv) 0) (hR : EntD (fun t => (st t).rot_mat) 0)
    (hg : ∀ a, DifferentiableAt ℝ (fun t => (st t).resistance a) 0) (hpos : ∀ a, 0 < (st 0).resistance a) (hY : EntD Y 0) (hsol : ∀ᶠ t in 𝓝 (0 : ℝ), m.residual (u t) (st t) (Y t) = 0) :
    let jac_y := cpJac (m.residual (u 0) (st 0)) (Y 0)
    let jac_x_v := fun a : Fin 3 × Fin 3 => deriv (fun t => m.residual (u t) (st t) (Y 0) a.1 a.2) 0
    let Y' := fun a : Fin 3 × Fin 3 => deriv (fun t => Y t a.1 a.2) 0
    jac_y *ᵥ Y' = -jac_x_v ∧ (jac_y.det ≠ 0 → ∀ w, jac_y *ᵥ w = -jac_x_v → w = Y') := by
  intro jac_y jac_x_v Y'
  have hmain : jac_y *ᵥ Y' = -jac_x_v := by
    funext a
    let z0 : ℝ × (Fin 3 → Fin 3 → ℝ) := (0, fun i j => Y 0 i j)
    let G : ℝ × (Fin 3 → Fin 3 → ℝ) → ℝ := fun z => m.residual (u z.1) (st z.1) (Matrix.of z.2) a.1 a.2
    have hfst : ∀ {h : ℝ → ℝ}, DifferentiableAt ℝ h 0 → DifferentiableAt ℝ (fun z : ℝ × (Fin 3 → Fin 3 → ℝ) => h z.1) z0 := fun {h} hh => DifferentiableAt.comp z0 (show DifferentiableAt ℝ h z0.1 from hh) differentiableAt_fst
    have hG : DifferentiableAt ℝ G z0 := by
      refine residual_diff m (fun z : ℝ × (Fin 3 → Fin 3 → ℝ) => u z.1) (fun z => st z.1) (fun z => Matrix.of z.2) z0 (fun i j => hfst (hu i j)) (fun i j => hfst (hFp i j)) (fun i j => hfst (hR i j)) (fun a => hfst (hg a)) hpos
        (fun i j => ?_) a.1 a.2
      show DifferentiableAt ℝ (fun z : ℝ × (Fin 3 → Fin 3 → ℝ) => z.2 i j) z0
      exact differentiableAt_pi.mp (differentiableAt_pi.mp differentiableAt_snd i) j
    set D := fderiv ℝ G z0 with hD
    have hGD : HasFDerivAt G D z0 := hG.hasFDerivAt
    -- along the path
    have hY2 : HasDerivAt (fun t : ℝ => ((t, fun i j => Y t i j) : ℝ × (Fin 3 → Fin 3 → ℝ))) (1, fun i j => Y' (i, j)) 0 :=
      (hasDerivAt_id (0 : ℝ)).prodMk (hasDerivAt_pi.mpr fun i => hasDerivAt_pi.mpr fun j => (hY i j).hasDerivAt)
    have h1 : HasDerivAt (fun t : ℝ => G (t, fun i j => Y t i j)) (D (1, fun i j => Y' (i, j))) 0 := HasFDerivAt.comp_hasDerivAt (0 : ℝ) (l := G) (l' := D) hGD hY2
    have h1' : D (1, fun i j => Y' (i, j)) = 0 := by
      have hz : HasDerivAt (fun t : ℝ => G (t, fun i j => Y t i j)) 0 0 := by
        refine (hasDerivAt_const (0 : ℝ) (0 : ℝ)).congr_of_eventuallyEq ?_
        filter_upwards [hsol] with t ht
        show m.residual (u t) (st t) (Matrix.of fun i j => Y t i j) a.1 a.2 = 0
        have : (Matrix.of fun i j => Y t i j) = Y t := rfl
        rw [this, ht]
        rfl
      exact h1.unique hz
    -- in the parameters
    have h2 : HasDerivAt (fun t : ℝ => G (t, fun i j => Y 0 i j)) (D (1, 0)) 0 :=
      HasFDerivAt.comp_hasDerivAt (0 : ℝ) (l := G) (l' := D) (f := fun t : ℝ => ((t, fun i j => Y 0 i j) : ℝ × (Fin 3 → Fin 3 → ℝ))) hGD ((hasDerivAt_id (0 : ℝ)).prodMk (hasDerivAt_const _ _))
    have h2' : jac_x_v a = D (1, 0) := h2.deriv
    -- in the stress
    have h3 : ∀ c : Fin 3 × Fin 3, jac_y a c = D (0, fun i j => Matrix.single c.1 c.2 (1 : ℝ) i j) := fun c => by
      have hl : HasDerivAt (fun t : ℝ => (((0 : ℝ), fun i j => Y 0 i j + t * Matrix.single c.1 c.2 (1 : ℝ) i j) : ℝ × (Fin 3 → Fin 3 → ℝ))) (0, fun i j => Matrix.single c.1 c.2 (1 : ℝ) i j) 0 := by
        refine (hasDerivAt_const _ _).prodMk (hasDerivAt_pi.mpr fun i => hasDerivAt_pi.mpr fun j => ?_)
        simpa using ((hasDerivAt_id (0 : ℝ)).mul_const (Matrix.single c.1 c.2 (1 : ℝ) i j)).const_add (Y 0 i j)
      have hz : (((0 : ℝ), fun i j => Y 0 i j + 0 * Matrix.single c.1 c.2 (1 : ℝ) i j) : ℝ × (Fin 3 → Fin 3 → ℝ)) = z0 := by simp [z0]
      have := HasFDerivAt.comp_hasDerivAt (0 : ℝ) (by rw [hz]; exact hGD : HasFDerivAt G D ((0 : ℝ), fun i j => Y 0 i j + 0 * Matrix.single c.1 c.2 (1 : ℝ) i j)) hl
      exact this.deriv
    have hsum : ((1 : ℝ), fun i j => Y' (i, j)) = (1, 0) + ∑ c : Fin 3 × Fin 3, Y' c • ((0 : ℝ), fun i j => Matrix.single c.1 c.2 (1 : ℝ) i j) := by
      refine Prod.ext ?_ ?_
      · simp [Prod.fst_sum]
      · funext i j
        simp only [Prod.snd_add, Prod.snd_sum, Prod.smul_snd, Pi.add_apply, Pi.zero_apply, zero_add, Finset.sum_apply, Pi.smul_apply, smul_eq_mul, Matrix.single_apply]
        rw [sum_eq_single (i, j)]
        · simp
        · rintro ⟨k, l⟩ _ hne
          have : ¬ (k = i ∧ l = j) := fun h => hne (Prod.ext h.1 h.2)
          simp [this]
        · exact fun h => absurd (mem_univ _) h
    have h4 : D (1, fun i j => Y' (i, j)) = D (1, 0) + ∑ c, Y' c * jac_y a c := by
      rw [hsum, map_add, map_sum]
      congr 1
      exact sum_congr rfl fun c _ => by rw [map_smul, smul_eq_mul, h3]
    rw [Pi.neg_apply, h2']
    show ∑ c, jac_y a c * Y' c = _
    rw [h1'] at h4
    have : ∑ c, jac_y a c * Y' c = ∑ c, Y' c * jac_y a c := sum_congr rfl fun c _ => mul_comm _ _
    rw [this]
    linarith
  refine ⟨hmain, fun hdet w hw => ?_⟩
  have hinj := Matrix.mulVec_injective_iff_isUnit.mpr ((Matrix.isUnit_iff_isUnit_det _).mpr (isUnit_iff_ne_zero.mpr hdet))
  exact hinj (hw.trans hmain.symm)

/-! ## Concrete case -/

/-- Without slip systems the branch of solutions under stretching is explicit, and its derivative solves the system of the rule. -/
example : let m : CpMaterial 0 := ⟨Fin.elim0, fun _ _ => 1, cubicC, 1⟩
    let st : CpState 0 := ⟨1, Fin.elim0, Fin.elim0, 1⟩
    let Y : ℝ → M3 := fun t => (rotate4 1 cubicC).app ((1 / 2 : ℝ) • ((t • (1 : M3) + 1)ᵀ * (t • (1 : M3) + 1) - 1))
    let u : ℝ → M3 := fun t => t • (1 : M3)
    cpJac (m.residual (u 0) st) (Y 0) *ᵥ (fun a => deriv (fun t => Y t a.1 a.2) 0) = -fun a : Fin 3 × Fin 3 => deriv (fun t : ℝ => m.residual (u t) st (Y 0) a.1 a.2) 0 := by
  intro m st Y u
  have hu : EntD u 0 := fun i j => by
    simp only [u, Matrix.smul_apply, smul_eq_mul]
    exact differentiableAt_id.mul_const _
  have hE := (hu.add (EntD.const 1 0)).transpose.mul (hu.add (EntD.const 1 0))
  have hY : EntD Y 0 := fun i j => by
    simp only [Y, T4.app, Matrix.of_apply, Matrix.smul_apply, smul_eq_mul]
    exact DifferentiableAt.fun_sum fun p _ => DifferentiableAt.fun_sum fun o _ => (((hE.sub (EntD.const 1 0)) p o).const_mul _).const_mul _
  refine (C114_jvp m u (fun _ => st) Y hu (EntD.const _ _) (EntD.const _ _) (fun a => a.elim0) (fun a => a.elim0) hY (Filter.Eventually.of_forall fun t => ?_)).1
  have hFe : (m.helper (u t) st (Y t)).2.1 = t • (1 : M3) + 1 := by
    have : m.plasticInc st (Y t) = 0 := by
      ext i j
      simp [CpMaterial.plasticInc]
    show (t • (1 : M3) + 1) * (1 * (1 - m.plasticInc st (Y t))) = _
    rw [this, sub_zero, Matrix.mul_one, Matrix.mul_one]
  rw [residual_eq, hFe]
  exact sub_self _

end Verif.Fem
