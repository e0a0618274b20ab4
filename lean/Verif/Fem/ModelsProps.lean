import Verif.Fem.Models
import Verif.Fem.Work
import Verif.Fem.PropsGeom
import Mathlib.Analysis.InnerProductSpace.PiL2

/-!
# Properties of the constitutive models: C29 (elasticity), C30 (plasticity), C32 (error norms)
-/
namespace Verif.Fem
open Finset
open scoped Matrix

variable {nn nq nf nfq dim vec : ℕ}

/-! ## C29 -/

/-- The double contraction `A : B`. -/
def ddot (A B : Matrix (Fin dim) (Fin dim) ℝ) : ℝ := ∑ i, ∑ j, A i j * B i j

theorem shearMod_pos : 0 < shearMod := by norm_num [shearMod]
theorem lame_pos : 0 < lame := by norm_num [lame]

theorem strain_apply (g : Matrix (Fin dim) (Fin dim) ℝ) (i j : Fin dim) : strain g i j = (g i j + g j i) / 2 := by
  simp only [strain, Matrix.smul_apply, Matrix.add_apply, Matrix.transpose_apply, smul_eq_mul]
  ring

theorem hooke_apply (e : Matrix (Fin dim) (Fin dim) ℝ) (i j : Fin dim) : hooke e i j = (if i = j then lame * e.trace else 0) + 2 * shearMod * e i j := by
  simp only [hooke, Matrix.add_apply, Matrix.smul_apply, Matrix.one_apply, smul_eq_mul, mul_ite, mul_one, mul_zero]

theorem strain_trace (g : Matrix (Fin dim) (Fin dim) ℝ) : (strain g).trace = g.trace := by
  simp only [Matrix.trace, Matrix.diag_apply, strain_apply]
  exact sum_congr rfl fun k _ => by ring

theorem elasticStress_apply (g : Matrix (Fin dim) (Fin dim) ℝ) (i j : Fin dim) :
    elasticStress g i j = (if i = j then lame * g.trace else 0) + shearMod * (g i j + g j i) := by
  rw [elasticStress, hooke_apply, strain_trace, strain_apply]
  ring

theorem ddot_elastic (g h : Matrix (Fin dim) (Fin dim) ℝ) :
    ddot (elasticStress g) h = lame * g.trace * h.trace + 2 * shearMod * ddot (strain g) (strain h) := by
  have e2 : ∑ i, ∑ j, strain g i j * h j i = ∑ i, ∑ j, strain g i j * h i j := by
    rw [sum_comm]
    refine sum_congr rfl fun i _ => sum_congr rfl fun j _ => ?_
    rw [strain_apply, strain_apply, add_comm]
  have e3 : ddot (strain g) (strain h) = ∑ i, ∑ j, strain g i j * h i j := by
    have : ddot (strain g) (strain h) = (∑ i, ∑ j, strain g i j * h i j) / 2 + (∑ i, ∑ j, strain g i j * h j i) / 2 := by
      unfold ddot
      rw [sum_div, sum_div, ← sum_add_distrib]
      refine sum_congr rfl fun i _ => ?_
      rw [sum_div, sum_div, ← sum_add_distrib]
      exact sum_congr rfl fun j _ => by rw [strain_apply h]; ring
    rw [this, e2]
    ring
  rw [e3]
  have e4 : ∑ i, ∑ j, (if i = j then lame * g.trace else 0) * h i j = lame * g.trace * h.trace := by
    simp only [ite_mul, zero_mul, sum_ite_eq, mem_univ, if_true]
    rw [← mul_sum]
    rfl
  rw [← e4, mul_sum]
  unfold ddot
  rw [← sum_add_distrib]
  refine sum_congr rfl fun i _ => ?_
  rw [mul_sum, ← sum_add_distrib]
  refine sum_congr rfl fun j _ => ?_
  rw [elasticStress_apply, strain_apply]
  ring

theorem ddot_self_nonneg (A : Matrix (Fin dim) (Fin dim) ℝ) : 0 ≤ ddot A A := sum_nonneg fun _ _ => sum_nonneg fun _ _ => mul_self_nonneg _

theorem ddot_comm (A B : Matrix (Fin dim) (Fin dim) ℝ) : ddot A B = ddot B A := by
  unfold ddot
  exact sum_congr rfl fun i _ => sum_congr rfl fun j _ => mul_comm _ _

theorem ddot_self_eq_zero {A : Matrix (Fin dim) (Fin dim) ℝ} : ddot A A = 0 ↔ A = 0 := by
  constructor
  · intro h
    ext i j
    have h1 := (sum_eq_zero_iff_of_nonneg fun i _ => sum_nonneg fun j _ => mul_self_nonneg (A i j)).mp h i (mem_univ i)
    exact mul_self_eq_zero.mp ((sum_eq_zero_iff_of_nonneg fun j _ => mul_self_nonneg (A i j)).mp h1 j (mem_univ j))
  · rintro rfl
    simp [ddot]

/-- **C29 (stress law).** The linear-elastic stress is linear in the displacement gradient and symmetric, and it vanishes exactly on skew gradients (infinitesimal rotations). -/
theorem C29_stress :
    (∀ (a b : ℝ) (g h : Matrix (Fin dim) (Fin dim) ℝ), elasticStress (a • g + b • h) = a • elasticStress g + b • elasticStress h) ∧
    (∀ g : Matrix (Fin dim) (Fin dim) ℝ, (elasticStress g)ᵀ = elasticStress g) ∧
    ∀ g : Matrix (Fin dim) (Fin dim) ℝ, elasticStress g = 0 ↔ gᵀ = -g := by
  refine ⟨fun a b g h => ?_, fun g => ?_, fun g => ⟨fun h0 => ?_, fun h => ?_⟩⟩
  · ext i j
    simp only [Matrix.add_apply, Matrix.smul_apply, elasticStress_apply, Matrix.trace_add, Matrix.trace_smul, smul_eq_mul]
    split_ifs <;> ring
  · ext i j
    rw [Matrix.transpose_apply, elasticStress_apply, elasticStress_apply]
    by_cases hij : i = j
    · subst hij; rfl
    · rw [if_neg hij, if_neg (Ne.symm hij)]; ring
  · have h1 := ddot_elastic g g
    rw [h0] at h1
    have h2 : 0 = lame * g.trace ^ 2 + 2 * shearMod * ddot (strain g) (strain g) := by
      rw [show (0 : ℝ) = ddot (0 : Matrix (Fin dim) (Fin dim) ℝ) g by simp [ddot], h1]; ring
    have h3 : ddot (strain g) (strain g) = 0 := by
      have ha := mul_nonneg lame_pos.le (sq_nonneg g.trace)
      have hb := ddot_self_nonneg (strain g)
      have hc := shearMod_pos
      nlinarith
    have h4 := ddot_self_eq_zero.mp h3
    ext i j
    have := congrFun (congrFun h4 i) j
    rw [strain_apply, Matrix.zero_apply] at this
    rw [Matrix.transpose_apply, Matrix.neg_apply]
    linarith
  · have h1 : ∀ i j, g j i = -g i j := fun i j => by simpa using congrFun (congrFun h i) j
    have ht : g.trace = 0 := by
      rw [Matrix.trace]
      refine sum_eq_zero fun i _ => ?_
      have := h1 i i
      rw [Matrix.diag_apply]
      linarith
    ext i j
    rw [elasticStress_apply, ht, h1 i j]
    simp

/-- **C29 (energy).** The work `σ(g) : h` is symmetric in the two gradients, non-negative for `h = g`, and zero there only for skew gradients. -/
theorem C29_energy (g h : Matrix (Fin dim) (Fin dim) ℝ) :
    ddot (elasticStress g) h = ddot (elasticStress h) g ∧ 0 ≤ ddot (elasticStress g) g ∧ (ddot (elasticStress g) g = 0 ↔ gᵀ = -g) := by
  have hw := ddot_elastic g g
  have ha := mul_nonneg lame_pos.le (sq_nonneg g.trace)
  have hb := ddot_self_nonneg (strain g)
  have hc := shearMod_pos
  refine ⟨?_, ?_, ?_, ?_⟩
  · rw [ddot_elastic, ddot_elastic, ddot_comm (strain g)]
    ring
  · rw [hw]
    nlinarith [mul_nonneg hc.le hb]
  · intro h0
    rw [hw] at h0
    have h3 : ddot (strain g) (strain g) = 0 := by nlinarith
    have h4 := ddot_self_eq_zero.mp h3
    ext i j
    have := congrFun (congrFun h4 i) j
    rw [strain_apply, Matrix.zero_apply] at this
    rw [Matrix.transpose_apply, Matrix.neg_apply]
    linarith
  · intro hs
    rw [(C29_stress.2.2 g).mpr hs]
    simp [ddot]

/-- **C29 (Hooke's law).** In three dimensions the stress is the one of an isotropic solid with Young's modulus 70000 and Poisson ratio 0.3: `E ε = (1 + ν) σ - ν tr(σ) I`. -/
theorem C29_hooke (g : Matrix (Fin 3) (Fin 3) ℝ) (i j : Fin 3) :
    70000 * ((g i j + g j i) / 2) = (1 + 0.3) * elasticStress g i j - 0.3 * (∑ k, elasticStress g k k) * (if i = j then 1 else 0) := by
  simp only [elasticStress_apply, Fin.sum_univ_three, Matrix.trace_fin_three, if_true]
  have h1 : lame = 70000 * 0.3 / (1.3 * 0.4) := by norm_num [lame]
  have h2 : shearMod = 70000 / 2.6 := by norm_num [shearMod]
  rw [h1, h2]
  fin_cases i <;> fin_cases j <;> norm_num [Fin.ext_iff] <;> ring

/-- The bilinear form of the stiffness: `∑_cells ∑_q σ(∇u) : ∇v JxW`. -/
noncomputable def Fem.stiffness (F : Fem nn nq nf nfq dim dim) (u v : ℕ → Fin dim → ℝ) : ℝ :=
  (F.cells.map fun c => ∑ q, ddot (elasticStress (Matrix.of (F.gradAt u c q))) (Matrix.of (F.gradAt v c q)) * F.JxW c q).sum

/-- **C29 (stiffness form).** The residual of a linear-elastic problem without loads, paired with a test field, is `∑ σ(∇u) : ∇v JxW`; this form is symmetric, and positive semidefinite whenever all `JxW` are non-negative. -/
theorem C29_stiffness (F : Fem nn nq nf nfq dim dim) (hmesh : ∀ c ∈ F.cells, ∀ a, c a < F.numTotal) (hc : F.cauchy = none) (hn : F.neumann = none)
    (hs : F.source = none) (hb : F.bodyVar = none) (u v Ru Rv : ℕ → Fin dim → ℝ) (hu : (elasticFem F).computeResidual u = .ok Ru) (hv : (elasticFem F).computeResidual v = .ok Rv) :
    ∑ n ∈ range F.numTotal, ∑ i, Ru n i * v n i = F.stiffness u v ∧
    ∑ n ∈ range F.numTotal, ∑ i, Ru n i * v n i = ∑ n ∈ range F.numTotal, ∑ i, Rv n i * u n i ∧
    ((∀ c ∈ F.cells, ∀ q, 0 ≤ F.JxW c q) → 0 ≤ ∑ n ∈ range F.numTotal, ∑ i, Ru n i * u n i) := by
  have key : ∀ u v R : ℕ → Fin dim → ℝ, (elasticFem F).computeResidual u = .ok R → ∑ n ∈ range F.numTotal, ∑ i, R n i * v n i = F.stiffness u v := by
    intro u v R h
    have h1 := C71_virtual_work (elasticFem F) hmesh u v R h
    have hz : ((elasticFem F).cells.map fun c => ∑ q, (∑ i, (elasticFem F).load c q i * (elasticFem F).uAt v c q i) * (elasticFem F).JxW c q).sum = 0 := by
      refine List.sum_eq_zero fun x hx => ?_
      obtain ⟨c, -, rfl⟩ := List.mem_map.mp hx
      simp [Fem.load, elasticFem, hs, hb]
    rw [hz] at h1
    simp only [show (elasticFem F).cauchy = none from hc, show (elasticFem F).neumann = none from hn, Fem.pairs, Option.elim, List.map_nil, List.sum_nil, add_zero, sub_zero] at h1
    rw [show (elasticFem F).numTotal = F.numTotal from rfl] at h1
    rw [h1]
    unfold Fem.stiffness
    have : ∀ p : (Fin nn → ℕ) × ℕ, (∑ q, ((∑ i, ∑ d, (elasticFem F).stress p.2 q ((elasticFem F).gradAt u p.1 q) i d * (elasticFem F).gradAt v p.1 q i d)
          + ∑ i, (elasticFem F).massAt p.2 q ((elasticFem F).uAt u p.1 q) i * (elasticFem F).uAt v p.1 q i) * (elasticFem F).JxW p.1 q)
        = ∑ q, ddot (elasticStress (Matrix.of (F.gradAt u p.1 q))) (Matrix.of (F.gradAt v p.1 q)) * F.JxW p.1 q := by
      intro p
      refine sum_congr rfl fun q _ => ?_
      have hm : ∑ i, (elasticFem F).massAt p.2 q ((elasticFem F).uAt u p.1 q) i * (elasticFem F).uAt v p.1 q i = 0 := by
        simp [Fem.massAt, elasticFem]
      rw [hm, add_zero]
      rfl
    simp only [this]
    rw [show (elasticFem F).cells = F.cells from rfl]
    conv_rhs => rw [← List.zipIdx_map_fst 0 F.cells, List.map_map]
    rfl
  refine ⟨key u v Ru hu, ?_, fun hJ => ?_⟩
  · rw [key u v Ru hu, key v u Rv hv]
    unfold Fem.stiffness
    refine sum_map_congr fun c _ => sum_congr rfl fun q _ => ?_
    rw [(C29_energy _ _).1]
  · rw [key u u Ru hu]
    refine List.sum_nonneg fun x hx => ?_
    obtain ⟨c, hc', rfl⟩ := List.mem_map.mp hx
    exact sum_nonneg fun q _ => mul_nonneg (C29_energy _ (Matrix.of (F.gradAt u c q))).2.1 (hJ c hc' q)

/-- Instances: a pure shear has positive energy and a nonzero stress, a rotation has none. -/
example : elasticStress !![0, 1; -1, 0] = 0 ∧ 0 < ddot (elasticStress !![0, 1; 1, 0]) !![0, 1; 1, 0] := by
  constructor
  · refine (C29_stress.2.2 _).mpr ?_
    ext i j
    fin_cases i <;> fin_cases j <;> simp
  · refine lt_of_le_of_ne (C29_energy _ !![0, 1; 1, 0]).2.1 fun h => ?_
    have := congrFun (congrFun ((C29_energy !![0, 1; 1, 0] !![0, 1; 1, 0]).2.2.mp h.symm) 0) 1
    simp at this
    norm_num at this

/-- One triangle with two displacement components, for the instances below. -/
noncomputable def triVec : Fem 3 1 3 1 2 2 where
  numTotal := 3
  points := triExample.points
  cells := triExample.cells
  shapeVals := triExample.shapeVals
  shapeGradsRef := triExample.shapeGradsRef
  quadWeights := triExample.quadWeights
  faceShapeVals := fun _ _ _ => 0
  faceShapeGradsRef := fun _ _ _ _ => 0
  faceWeights := fun _ _ => 0
  faceNormals := fun _ _ => 0
  faceInds := triExample.faceInds
  tensorMap := none
  massMap := none
  lapRows := none
  massRows := none
  source := none
  bodyVar := none
  neumann := none
  cauchy := none

/-- The hypotheses of `C29_stiffness` hold for this triangle and any two displacement fields. -/
example (u v : ℕ → Fin 2 → ℝ) : ∃ Ru Rv, (elasticFem triVec).computeResidual u = .ok Ru ∧ (elasticFem triVec).computeResidual v = .ok Rv ∧
    ∑ n ∈ range 3, ∑ i, Ru n i * v n i = ∑ n ∈ range 3, ∑ i, Rv n i * u n i := by
  have hok : ∀ u : ℕ → Fin 2 → ℝ, ∃ R, (elasticFem triVec).computeResidual u = .ok R := fun u => by
    rw [C13_returns]
    refine ⟨?_, ?_, ?_, ?_, ?_⟩ <;> simp [elasticFem, triVec, triExample]
  obtain ⟨Ru, hu⟩ := hok u
  obtain ⟨Rv, hv⟩ := hok v
  refine ⟨Ru, Rv, hu, hv, (C29_stiffness triVec ?_ rfl rfl rfl rfl u v Ru Rv hu hv).2.1⟩
  intro c hc a
  obtain rfl : c = ![0, 1, 2] := by simpa [triVec, triExample] using hc
  show (![0, 1, 2] : Fin 3 → ℕ) a < 3
  fin_cases a <;> decide

/-! ## C30 -/

/-- The deviator. -/
noncomputable def dev (A : Matrix (Fin dim) (Fin dim) ℝ) : Matrix (Fin dim) (Fin dim) ℝ := A - (A.trace / dim) • 1

/-- The von Mises stress `sqrt(3/2 s : s)`. -/
noncomputable def mises (A : Matrix (Fin dim) (Fin dim) ℝ) : ℝ := Real.sqrt (3 / 2 * ddot (dev A) (dev A))

/-- In three dimensions this is the usual expression in the stress components. -/
theorem mises_three (A : Matrix (Fin 3) (Fin 3) ℝ) (hA : Aᵀ = A) :
    mises A = Real.sqrt (((A 0 0 - A 1 1) ^ 2 + (A 1 1 - A 2 2) ^ 2 + (A 2 2 - A 0 0) ^ 2) / 2 + 3 * (A 0 1 ^ 2 + A 1 2 ^ 2 + A 2 0 ^ 2)) := by
  have h : ∀ i j, A j i = A i j := fun i j => congrFun (congrFun hA i) j
  unfold mises ddot dev
  congr 1
  simp only [Fin.sum_univ_three, Matrix.sub_apply, Matrix.smul_apply, Matrix.one_apply, smul_eq_mul, Matrix.trace_fin_three]
  rw [h 0 1, h 1 2, h 2 0]
  norm_num [Fin.ext_iff]
  ring

theorem trace_dev (hdim : 0 < dim) (A : Matrix (Fin dim) (Fin dim) ℝ) : (dev A).trace = 0 := by
  have : (dim : ℝ) ≠ 0 := by exact_mod_cast hdim.ne'
  unfold dev
  rw [Matrix.trace_sub, Matrix.trace_smul, Matrix.trace_one, Fintype.card_fin, smul_eq_mul]
  field_simp
  ring

theorem dev_of_trace_zero {A : Matrix (Fin dim) (Fin dim) ℝ} (h : A.trace = 0) : dev A = A := by
  simp [dev, h]

theorem dev_sub_smul (hdim : 0 < dim) (A : Matrix (Fin dim) (Fin dim) ℝ) (c : ℝ) : dev (A - c • dev A) = (1 - c) • dev A := by
  have h := trace_dev hdim A
  have e : dev (A - c • dev A) = dev A - c • dev A := by
    have e2 : dev (A - c • dev A) = A - c • dev A - ((A - c • dev A).trace / dim) • 1 := rfl
    rw [e2, Matrix.trace_sub, Matrix.trace_smul, h, smul_zero, sub_zero]
    conv_rhs => lhs; unfold dev
    abel
  rw [e, sub_smul, one_smul]

theorem ddot_smul (c : ℝ) (A : Matrix (Fin dim) (Fin dim) ℝ) : ddot (c • A) (c • A) = c ^ 2 * ddot A A := by
  unfold ddot
  rw [mul_sum]
  refine sum_congr rfl fun i _ => ?_
  rw [mul_sum]
  exact sum_congr rfl fun j _ => by simp only [Matrix.smul_apply, smul_eq_mul]; ring

theorem mises_sub_smul (hdim : 0 < dim) (A : Matrix (Fin dim) (Fin dim) ℝ) (c : ℝ) : mises (A - c • dev A) = |1 - c| * mises A := by
  unfold mises
  rw [dev_sub_smul hdim, ddot_smul, show 3 / 2 * ((1 - c) ^ 2 * ddot (dev A) (dev A)) = (1 - c) ^ 2 * (3 / 2 * ddot (dev A) (dev A)) by ring,
    Real.sqrt_mul (sq_nonneg _), Real.sqrt_sq_eq_abs]

/-- The elastic trial stress. -/
noncomputable def trialStress (g so eo : Matrix (Fin dim) (Fin dim) ℝ) : Matrix (Fin dim) (Fin dim) ℝ := hooke (strain g - eo) + so

theorem safeSqrt_eq (x : ℝ) : safeSqrt x = Real.sqrt x := by
  unfold safeSqrt
  split_ifs with h
  · rfl
  · rw [Real.sqrt_eq_zero_of_nonpos (not_lt.mp h)]

theorem returnMap_eq (g so eo : Matrix (Fin dim) (Fin dim) ℝ) :
    returnMap g so eo = trialStress g so eo - (max (mises (trialStress g so eo) - 250) 0 / mises (trialStress g so eo)) • dev (trialStress g so eo) := by
  set T := trialStress g so eo with hT
  have hd : T - (1 / (dim : ℝ) * T.trace) • (1 : Matrix (Fin dim) (Fin dim) ℝ) = dev T := by
    unfold dev
    rw [one_div_mul_eq_div]
  ext i j
  show T i j - safeDivide ((if safeSqrt (3 / 2 * ∑ i, ∑ j, (T - (1 / (dim : ℝ) * T.trace) • (1 : Matrix (Fin dim) (Fin dim) ℝ)) i j * (T - (1 / (dim : ℝ) * T.trace) • (1 : Matrix (Fin dim) (Fin dim) ℝ)) i j) - 250 > 0 then
    safeSqrt (3 / 2 * ∑ i, ∑ j, (T - (1 / (dim : ℝ) * T.trace) • (1 : Matrix (Fin dim) (Fin dim) ℝ)) i j * (T - (1 / (dim : ℝ) * T.trace) • (1 : Matrix (Fin dim) (Fin dim) ℝ)) i j) - 250 else 0) *
    (T - (1 / (dim : ℝ) * T.trace) • (1 : Matrix (Fin dim) (Fin dim) ℝ)) i j)
    (safeSqrt (3 / 2 * ∑ i, ∑ j, (T - (1 / (dim : ℝ) * T.trace) • (1 : Matrix (Fin dim) (Fin dim) ℝ)) i j * (T - (1 / (dim : ℝ) * T.trace) • (1 : Matrix (Fin dim) (Fin dim) ℝ)) i j)) = _
  rw [hd, safeSqrt_eq]
  change T i j - safeDivide ((if mises T - 250 > 0 then mises T - 250 else 0) * dev T i j) (mises T) = _
  have hm : (if mises T - 250 > 0 then mises T - 250 else 0) = max (mises T - 250) 0 := by
    split_ifs with h
    · rw [max_eq_left h.le]
    · rw [max_eq_right (not_lt.mp h)]
  rw [hm, Matrix.sub_apply, Matrix.smul_apply, smul_eq_mul]
  unfold safeDivide
  split_ifs with h
  · rw [h]; simp
  · ring

theorem mises_nonneg (A : Matrix (Fin dim) (Fin dim) ℝ) : 0 ≤ mises A := Real.sqrt_nonneg _

/-- **C30 (one step).** A step whose trial stress is inside the yield surface is purely elastic: the stress increment is Hooke's law of the strain increment. Otherwise the new stress lies on the yield
surface, its deviator is a positive multiple of the trial deviator and the hydrostatic part is the trial one. -/
theorem C30_step (hdim : 0 < dim) (g so eo : Matrix (Fin dim) (Fin dim) ℝ) :
    (mises (so + hooke (strain g - eo)) ≤ 250 → returnMap g so eo = so + hooke (strain g - eo)) ∧
    (250 < mises (so + hooke (strain g - eo)) → mises (returnMap g so eo) = 250 ∧
      (∃ c : ℝ, 0 < c ∧ c < 1 ∧ dev (returnMap g so eo) = c • dev (so + hooke (strain g - eo))) ∧ (returnMap g so eo).trace = (so + hooke (strain g - eo)).trace) := by
  have hT : so + hooke (strain g - eo) = trialStress g so eo := add_comm _ _
  rw [hT, returnMap_eq]
  set T := trialStress g so eo
  constructor
  · intro h
    rw [max_eq_right (by linarith), zero_div, zero_smul, sub_zero]
  · intro h
    have hpos : 0 < mises T := by linarith
    rw [max_eq_left (by linarith)]
    have hc : 1 - (mises T - 250) / mises T = 250 / mises T := by field_simp; ring
    refine ⟨?_, ⟨250 / mises T, by positivity, (div_lt_one hpos).mpr h, ?_⟩, ?_⟩
    · rw [mises_sub_smul hdim, hc, abs_of_pos (by positivity)]
      field_simp
    · rw [dev_sub_smul hdim, hc]
    · rw [Matrix.trace_sub, Matrix.trace_smul, trace_dev hdim, smul_zero, sub_zero]

/-- Admissible stress and strain at a quadrature point. -/
structure Admissible (sig eps : Matrix (Fin dim) (Fin dim) ℝ) : Prop where
  yield : mises sig ≤ 250
  symm : sigᵀ = sig
  hydro : sig.trace = (hooke eps).trace
  esymm : epsᵀ = eps

theorem hooke_add (a b : Matrix (Fin dim) (Fin dim) ℝ) : hooke (a + b) = hooke a + hooke b := by
  ext i j
  simp only [hooke_apply, Matrix.add_apply, Matrix.trace_add]
  split_ifs <;> ring

theorem hooke_sub (a b : Matrix (Fin dim) (Fin dim) ℝ) : hooke (a - b) = hooke a - hooke b := by
  ext i j
  simp only [hooke_apply, Matrix.sub_apply, Matrix.trace_sub]
  split_ifs <;> ring

theorem hooke_transpose (a : Matrix (Fin dim) (Fin dim) ℝ) : (hooke a)ᵀ = hooke aᵀ := by
  ext i j
  simp only [Matrix.transpose_apply, hooke_apply, Matrix.trace_transpose, eq_comm]

theorem strain_symm (g : Matrix (Fin dim) (Fin dim) ℝ) : (strain g)ᵀ = strain g := by
  ext i j
  rw [Matrix.transpose_apply, strain_apply, strain_apply, add_comm]

theorem dev_transpose (A : Matrix (Fin dim) (Fin dim) ℝ) : (dev A)ᵀ = dev Aᵀ := by
  simp [dev, Matrix.transpose_sub, Matrix.transpose_smul, Matrix.trace_transpose]

theorem Admissible.step (hdim : 0 < dim) {so eo : Matrix (Fin dim) (Fin dim) ℝ} (h : Admissible so eo) (g : Matrix (Fin dim) (Fin dim) ℝ) : Admissible (returnMap g so eo) (strain g) := by
  have htr : (so + hooke (strain g - eo)).trace = (hooke (strain g)).trace := by
    rw [Matrix.trace_add, hooke_sub, Matrix.trace_sub, h.hydro]
    ring
  have hsym : (trialStress g so eo)ᵀ = trialStress g so eo := by
    unfold trialStress
    rw [Matrix.transpose_add, hooke_transpose, Matrix.transpose_sub, strain_symm, h.esymm, h.symm]
  obtain ⟨h1, h2⟩ := C30_step hdim g so eo
  refine ⟨?_, ?_, ?_, strain_symm g⟩
  · rcases le_or_gt (mises (so + hooke (strain g - eo))) 250 with hm | hm
    · rw [h1 hm]; exact hm
    · exact (h2 hm).1.le
  · rw [returnMap_eq, Matrix.transpose_sub, Matrix.transpose_smul, dev_transpose, hsym]
  · rcases le_or_gt (mises (so + hooke (strain g - eo))) 250 with hm | hm
    · rw [h1 hm, htr]
    · rw [(h2 hm).2.2, htr]

theorem Admissible.zero : Admissible (0 : Matrix (Fin dim) (Fin dim) ℝ) 0 := by
  refine ⟨?_, by simp, ?_, by simp⟩
  · have : mises (0 : Matrix (Fin dim) (Fin dim) ℝ) = 0 := by simp [mises, ddot, dev]
    rw [this]; norm_num
  · have : hooke (0 : Matrix (Fin dim) (Fin dim) ℝ) = 0 := by ext i j; simp [hooke_apply]
    rw [this]

/-- The invariant of the stored arrays: one admissible row per cell. -/
def PlastInv (F : Fem nn nq nf nfq dim dim) (st : PlastState nq dim) : Prop :=
  st.sig.length = F.cells.length ∧ st.eps.length = F.cells.length ∧ ∀ (k : ℕ) (s e : Fin nq → Matrix (Fin dim) (Fin dim) ℝ), st.sig[k]? = some s → st.eps[k]? = some e → ∀ q, Admissible (s q) (e q)

theorem PlastInv.init (F : Fem nn nq nf nfq dim dim) : PlastInv F (plastInit F) := by
  refine ⟨by simp [plastInit], by simp [plastInit], fun k s e hs he q => ?_⟩
  simp only [plastInit, List.getElem?_map, Option.map_eq_some_iff] at hs he
  obtain ⟨_, -, rfl⟩ := hs
  obtain ⟨_, -, rfl⟩ := he
  exact Admissible.zero

theorem update_ok (F : Fem nn nq nf nfq dim dim) (st : PlastState nq dim) (h1 : st.sig.length = F.cells.length) (h2 : st.eps.length = F.cells.length) (sol : ℕ → Fin dim → ℝ) :
    updateStressStrain F st sol = .ok ⟨((F.solToGrad sol).zip (st.sig.zip st.eps)).map fun p q => returnMap (Matrix.of (p.1 q)) (p.2.1 q) (p.2.2 q),
      (F.solToGrad sol).map fun g q => strain (Matrix.of (g q))⟩ := by
  unfold updateStressStrain
  rw [if_pos]
  rw [h1, h2]
  exact ⟨by simp [Fem.solToGrad], rfl⟩

theorem update_get (F : Fem nn nq nf nfq dim dim) (st st' : PlastState nq dim) (h1 : st.sig.length = F.cells.length) (h2 : st.eps.length = F.cells.length) (sol : ℕ → Fin dim → ℝ)
    (hu : updateStressStrain F st sol = .ok st') (k : ℕ) (c : Fin nn → ℕ) (hk : F.cells[k]? = some c) :
    ∃ s e : Fin nq → Matrix (Fin dim) (Fin dim) ℝ, st.sig[k]? = some s ∧ st.eps[k]? = some e ∧ st'.sig[k]? = some (fun q => returnMap (Matrix.of (F.gradAt sol c q)) (s q) (e q)) ∧
      st'.eps[k]? = some fun q => strain (Matrix.of (F.gradAt sol c q)) := by
  rw [update_ok F st h1 h2 sol] at hu
  injection hu with hu
  obtain ⟨hkl, hkc⟩ := List.getElem?_eq_some_iff.mp hk
  have hs : k < st.sig.length := by omega
  have he : k < st.eps.length := by omega
  have hg : (F.solToGrad sol)[k]? = some fun q => F.gradAt sol c q := by
    simp only [Fem.solToGrad, List.getElem?_map, hk, Option.map_some]
    rfl
  refine ⟨st.sig[k], st.eps[k], List.getElem?_eq_getElem hs, List.getElem?_eq_getElem he, ?_, ?_⟩
  · rw [← hu]
    simp only [List.getElem?_map, List.zip, List.getElem?_zipWith, hg, List.getElem?_eq_getElem hs, List.getElem?_eq_getElem he]
    rfl
  · rw [← hu]
    simp only [List.getElem?_map, hg, Option.map_some]

theorem PlastInv.update (hdim : 0 < dim) {F : Fem nn nq nf nfq dim dim} {st : PlastState nq dim} (h : PlastInv F st) (sol : ℕ → Fin dim → ℝ) :
    ∃ st', updateStressStrain F st sol = .ok st' ∧ PlastInv F st' := by
  obtain ⟨h1, h2, h3⟩ := h
  refine ⟨_, update_ok F st h1 h2 sol, by simp [Fem.solToGrad, h1, h2], by simp [Fem.solToGrad], fun k s' e' hs' he' q => ?_⟩
  obtain ⟨hkl, -⟩ := List.getElem?_eq_some_iff.mp he'
  have hk : k < F.cells.length := by simpa [Fem.solToGrad] using hkl
  obtain ⟨s, e, hs, he, hs2, he2⟩ := update_get F st _ h1 h2 sol (update_ok F st h1 h2 sol) k F.cells[k] (List.getElem?_eq_getElem hk)
  rw [hs2] at hs'
  rw [he2] at he'
  cases hs'
  cases he'
  exact (h3 k s e hs he q).step hdim _

/-- **C30 (every load history).** Calling `update_stress_strain` for any list of displacement fields, starting from the initial state, never raises; afterwards every cell and quadrature point has a stored
stress which is symmetric, within the yield surface and with the hydrostatic part of Hooke's law for the stored strain, and the stored strain is that of the last displacement field (zero if there was none). -/
theorem C30_history (hdim : 0 < dim) (F : Fem nn nq nf nfq dim dim) (sols : List (ℕ → Fin dim → ℝ)) :
    ∃ st, plastRun F sols = .ok st ∧ st.sig.length = F.cells.length ∧ st.eps.length = F.cells.length ∧
      (∀ (k : ℕ) (s e : Fin nq → Matrix (Fin dim) (Fin dim) ℝ), st.sig[k]? = some s → st.eps[k]? = some e → ∀ q, mises (s q) ≤ 250 ∧ (s q)ᵀ = s q ∧ (s q).trace = (hooke (e q)).trace) ∧
      ∀ (k : ℕ) (c : Fin nn → ℕ), F.cells[k]? = some c → st.eps[k]? = some fun q => sols.getLast?.elim 0 fun sol => strain (Matrix.of (F.gradAt sol c q)) := by
  have key : ∃ st, plastRun F sols = .ok st ∧ PlastInv F st ∧
      ∀ (k : ℕ) (c : Fin nn → ℕ), F.cells[k]? = some c → st.eps[k]? = some fun q => sols.getLast?.elim 0 fun sol => strain (Matrix.of (F.gradAt sol c q)) := by
    induction sols using List.reverseRecOn with
    | nil =>
      refine ⟨_, rfl, PlastInv.init F, fun k c hk => ?_⟩
      show (F.cells.map fun _ _ => (0 : Matrix (Fin dim) (Fin dim) ℝ))[k]? = _
      rw [List.getElem?_map, hk]
      rfl
    | append_singleton sols sol ih =>
      obtain ⟨st, hst, hinv, -⟩ := ih
      obtain ⟨st', hu, hinv'⟩ := hinv.update hdim sol
      refine ⟨st', ?_, hinv', fun k c hk => ?_⟩
      · unfold plastRun at hst ⊢
        rw [List.foldlM_append, hst]
        show updateStressStrain F st sol >>= pure = _
        rw [hu]
        rfl
      · obtain ⟨s, e, -, -, -, he⟩ := update_get F st st' hinv.1 hinv.2.1 sol hu k c hk
        rw [he]
        simp
  obtain ⟨st, h1, h2, h3⟩ := key
  exact ⟨st, h1, h2.1, h2.2.1, fun k s e hs he q => ⟨(h2.2.2 k s e hs he q).yield, (h2.2.2 k s e hs he q).symm, (h2.2.2 k s e hs he q).hydro⟩, h3⟩

theorem ddot_smul_right (c : ℝ) (A B : Matrix (Fin dim) (Fin dim) ℝ) : ddot A (c • B) = c * ddot A B := by
  unfold ddot
  rw [mul_sum]
  refine sum_congr rfl fun i _ => ?_
  rw [mul_sum]
  exact sum_congr rfl fun j _ => by simp only [Matrix.smul_apply, smul_eq_mul]; ring

theorem ddot_smul_left (c : ℝ) (A B : Matrix (Fin dim) (Fin dim) ℝ) : ddot (c • A) B = c * ddot A B := by
  rw [ddot_comm, ddot_smul_right, ddot_comm]

theorem ddot_one_left (c : ℝ) (B : Matrix (Fin dim) (Fin dim) ℝ) : ddot (c • 1) B = c * B.trace := by
  rw [ddot_smul_left]
  congr 1
  simp [ddot, Matrix.one_apply, Matrix.trace]

theorem ddot_add_left (A B C : Matrix (Fin dim) (Fin dim) ℝ) : ddot (A + B) C = ddot A C + ddot B C := by
  simp [ddot, add_mul, sum_add_distrib]

/-- **C30 (dissipation).** The strain increment splits into an elastic part, which produces the stress increment by Hooke's law, and a plastic part which is traceless, has non-negative work with the new stress,
is a non-negative multiple of the new deviator (normality), and vanishes when the new stress is strictly inside the yield surface. -/
theorem C30_dissipation (hdim : 0 < dim) (g so eo : Matrix (Fin dim) (Fin dim) ℝ) :
    ∃ dp : Matrix (Fin dim) (Fin dim) ℝ, returnMap g so eo - so = hooke (strain g - eo - dp) ∧ dp.trace = 0 ∧ 0 ≤ ddot (returnMap g so eo) dp ∧
      (∃ c : ℝ, 0 ≤ c ∧ dp = c • dev (returnMap g so eo)) ∧ (mises (returnMap g so eo) < 250 → dp = 0) := by
  have hT : so + hooke (strain g - eo) = trialStress g so eo := add_comm _ _
  obtain ⟨h1, h2⟩ := C30_step hdim g so eo
  rcases le_or_gt (mises (so + hooke (strain g - eo))) 250 with hm | hm
  · refine ⟨0, ?_, by simp, by simp [ddot], ⟨0, le_rfl, by simp⟩, fun _ => rfl⟩
    rw [h1 hm, sub_zero]
    abel
  · obtain ⟨h3, ⟨c, hc0, hc1, hdev⟩, htr⟩ := h2 hm
    have hmu := shearMod_pos
    have hk : 0 ≤ (1 / c - 1) / (2 * shearMod) := by
      apply div_nonneg _ (by linarith)
      rw [sub_nonneg]
      exact (one_le_div hc0).mpr hc1.le
    have ht0 : (((1 / c - 1) / (2 * shearMod)) • dev (returnMap g so eo)).trace = 0 := by rw [Matrix.trace_smul, trace_dev hdim, smul_zero]
    refine ⟨((1 / c - 1) / (2 * shearMod)) • dev (returnMap g so eo), ?_, ht0, ?_, ⟨_, hk, rfl⟩, fun h => absurd h3 h.ne⟩
    · rw [hooke_sub]
      have e1 : hooke (((1 / c - 1) / (2 * shearMod)) • dev (returnMap g so eo)) = (1 / c - 1) • dev (returnMap g so eo) := by
        unfold hooke
        rw [ht0, mul_zero, zero_smul, zero_add, smul_smul]
        congr 1
        field_simp
      have e2 : so + hooke (strain g - eo) = returnMap g so eo + (1 / c - 1) • dev (returnMap g so eo) := by
        have e3 : dev (so + hooke (strain g - eo)) = (1 / c) • dev (returnMap g so eo) := by
          rw [hdev, smul_smul, one_div_mul_cancel hc0.ne', one_smul]
        have e4 : so + hooke (strain g - eo) = dev (so + hooke (strain g - eo)) + ((so + hooke (strain g - eo)).trace / dim) • 1 := by unfold dev; abel
        have e5 : returnMap g so eo = dev (returnMap g so eo) + ((returnMap g so eo).trace / dim) • 1 := by unfold dev; abel
        rw [e4, e3, ← htr]
        conv_rhs => lhs; rw [e5]
        rw [sub_smul, one_smul]
        abel
      rw [e1]
      have : returnMap g so eo = so + hooke (strain g - eo) - (1 / c - 1) • dev (returnMap g so eo) := by rw [e2]; abel
      conv_lhs => rw [this]
      abel
    · rw [ddot_smul_right]
      refine mul_nonneg hk ?_
      have e5 : returnMap g so eo = dev (returnMap g so eo) + ((returnMap g so eo).trace / dim) • 1 := by unfold dev; abel
      conv_rhs => lhs; rw [e5]
      rw [ddot_add_left, ddot_one_left, trace_dev hdim, mul_zero, add_zero]
      exact ddot_self_nonneg _

/-- **C30 (consistency with the residual).** The stress used by the residual of the current load step at a displacement field is exactly the stress which `update_stress_strain` stores for that field:
the assembled internal forces are those of the stored stresses. -/
theorem C30_consistent (F : Fem nn nq nf nfq dim dim) (st st' : PlastState nq dim) (h1 : st.sig.length = F.cells.length) (h2 : st.eps.length = F.cells.length)
    (hmesh : ∀ c ∈ F.cells, ∀ a, c a < F.numTotal) (hc : F.cauchy = none) (hn : F.neumann = none) (hs : F.source = none) (hb : F.bodyVar = none)
    (sol R v : ℕ → Fin dim → ℝ) (hR : (plastFem F st).computeResidual sol = .ok R) (hu : updateStressStrain F st sol = .ok st') :
    ∑ n ∈ range F.numTotal, ∑ i, R n i * v n i = (F.cells.zipIdx.map fun p => ∑ q, ddot ((st'.sig.getD p.2 0) q) (Matrix.of (F.gradAt v p.1 q)) * F.JxW p.1 q).sum := by
  have hw := C71_virtual_work (plastFem F st) hmesh sol v R hR
  have hz : ((plastFem F st).cells.map fun c => ∑ q, (∑ i, (plastFem F st).load c q i * (plastFem F st).uAt v c q i) * (plastFem F st).JxW c q).sum = 0 := by
    refine List.sum_eq_zero fun x hx => ?_
    obtain ⟨c, -, rfl⟩ := List.mem_map.mp hx
    simp [Fem.load, plastFem, hs, hb]
  rw [hz] at hw
  simp only [show (plastFem F st).cauchy = none from hc, show (plastFem F st).neumann = none from hn, Fem.pairs, Option.elim, List.map_nil, List.sum_nil, add_zero, sub_zero] at hw
  rw [show (plastFem F st).numTotal = F.numTotal from rfl] at hw
  rw [hw]
  rw [show (plastFem F st).cells = F.cells from rfl]
  refine sum_map_congr fun p hp => sum_congr rfl fun q _ => ?_
  have hm : ∑ i, (plastFem F st).massAt p.2 q ((plastFem F st).uAt sol p.1 q) i * (plastFem F st).uAt v p.1 q i = 0 := by
    simp [Fem.massAt, plastFem]
  rw [hm, add_zero]
  have hk : F.cells[p.2]? = some p.1 := List.mem_zipIdx_iff_getElem?.mp (show (p.1, p.2) ∈ F.cells.zipIdx from hp)
  obtain ⟨s, e, hs', he', hs2, -⟩ := update_get F st st' h1 h2 sol hu p.2 p.1 hk
  have e1 : st'.sig.getD p.2 0 = fun q => returnMap (Matrix.of (F.gradAt sol p.1 q)) (s q) (e q) := by simp [List.getD_eq_getElem?_getD, hs2]
  have e2 : st.sig.getD p.2 0 = s := by simp [List.getD_eq_getElem?_getD, hs']
  have e3 : st.eps.getD p.2 0 = e := by simp [List.getD_eq_getElem?_getD, he']
  have e4 : ∀ i d, (plastFem F st).stress p.2 q ((plastFem F st).gradAt sol p.1 q) i d = returnMap (Matrix.of (F.gradAt sol p.1 q)) ((st.sig.getD p.2 0) q) ((st.eps.getD p.2 0) q) i d := fun _ _ => rfl
  rw [e1]
  simp only [e4, e2, e3]
  rfl

/-! The average stress. -/

/-- The deviator as a vector of the Euclidean space. -/
noncomputable def devVec (A : Matrix (Fin dim) (Fin dim) ℝ) : EuclideanSpace ℝ (Fin dim × Fin dim) := WithLp.toLp 2 fun p => dev A p.1 p.2

theorem mises_eq_norm (A : Matrix (Fin dim) (Fin dim) ℝ) : mises A = Real.sqrt (3 / 2) * ‖devVec A‖ := by
  unfold mises
  rw [Real.sqrt_mul (by norm_num), EuclideanSpace.norm_eq]
  congr 2
  unfold ddot
  rw [Fintype.sum_prod_type]
  refine sum_congr rfl fun i _ => sum_congr rfl fun j _ => ?_
  simp [devVec, sq]

theorem devVec_add (A B : Matrix (Fin dim) (Fin dim) ℝ) : devVec (A + B) = devVec A + devVec B := by
  ext p
  simp only [devVec, dev, Matrix.trace_add, PiLp.add_apply, Matrix.sub_apply, Matrix.add_apply, Matrix.smul_apply, smul_eq_mul]
  ring

theorem devVec_smul (c : ℝ) (A : Matrix (Fin dim) (Fin dim) ℝ) : devVec (c • A) = c • devVec A := by
  ext p
  simp only [devVec, dev, Matrix.trace_smul, PiLp.smul_apply, Matrix.sub_apply, Matrix.smul_apply, smul_eq_mul]
  ring

theorem mises_add (A B : Matrix (Fin dim) (Fin dim) ℝ) : mises (A + B) ≤ mises A + mises B := by
  rw [mises_eq_norm, mises_eq_norm, mises_eq_norm, devVec_add, ← mul_add]
  exact mul_le_mul_of_nonneg_left (norm_add_le _ _) (Real.sqrt_nonneg _)

theorem mises_smul (c : ℝ) (A : Matrix (Fin dim) (Fin dim) ℝ) : mises (c • A) = |c| * mises A := by
  rw [mises_eq_norm, mises_eq_norm, devVec_smul, norm_smul, Real.norm_eq_abs]
  ring

theorem mises_zero : mises (0 : Matrix (Fin dim) (Fin dim) ℝ) = 0 := by simp [mises, ddot, dev]

theorem mises_sum {ι : Type*} (s : Finset ι) (w : ι → ℝ) (A : ι → Matrix (Fin dim) (Fin dim) ℝ) (hw : ∀ i ∈ s, 0 ≤ w i) (M : ℝ) (hA : ∀ i ∈ s, mises (A i) ≤ M) :
    mises (∑ i ∈ s, w i • A i) ≤ (∑ i ∈ s, w i) * M := by
  classical
  induction s using Finset.induction_on with
  | empty => simp [mises_zero]
  | insert a s ha ih =>
    rw [sum_insert ha, sum_insert ha, add_mul]
    refine (mises_add _ _).trans (add_le_add ?_ (ih (fun i hi => hw i (mem_insert_of_mem hi)) fun i hi => hA i (mem_insert_of_mem hi)))
    rw [mises_smul, abs_of_nonneg (hw a (mem_insert_self _ _))]
    exact mul_le_mul_of_nonneg_left (hA a (mem_insert_self _ _)) (hw a (mem_insert_self _ _))

/-- **C30 (average).** For non-negative `JxW` of positive total, the average stress reported after any load history is within the yield surface, too. -/
theorem C30_average (hdim : 0 < dim) (F : Fem nn nq nf nfq dim dim) (hJ : ∀ c ∈ F.cells, ∀ q, 0 ≤ F.JxW c q) (hvol : 0 < (F.cells.map fun c => ∑ q, F.JxW c q).sum)
    (sols : List (ℕ → Fin dim → ℝ)) (st : PlastState nq dim) (h : plastRun F sols = .ok st) : mises (avgStress F st) ≤ 250 := by
  obtain ⟨st2, h1, hl1, hl2, h3, -⟩ := C30_history hdim F sols
  rw [h1] at h
  cases h
  have hall : ∀ s ∈ st.sig, ∀ q, mises (s q) ≤ 250 := by
    intro s hs q
    obtain ⟨k, hk, rfl⟩ := List.getElem_of_mem hs
    have hk2 : k < st.eps.length := by omega
    exact (h3 k _ _ (List.getElem?_eq_getElem hk) (List.getElem?_eq_getElem hk2) q).1
  have key : ∀ (l : List (Fin nn → ℕ)) (s : List (Fin nq → Matrix (Fin dim) (Fin dim) ℝ)), s.length = l.length → (∀ c ∈ l, ∀ q, 0 ≤ F.JxW c q) → (∀ x ∈ s, ∀ q, mises (x q) ≤ 250) →
      mises ((s.zip (l.map F.JxW)).map fun p => ∑ q, p.2 q • p.1 q).sum ≤ (l.map fun c => ∑ q, F.JxW c q).sum * 250 := by
    intro l
    induction l with
    | nil => intro s hs _ _; simp [mises_zero]
    | cons c l ih =>
      intro s hs hJ hm
      cases s with
      | nil => simp at hs
      | cons x s =>
        simp only [List.map_cons, List.zip_cons_cons, List.sum_cons, add_mul]
        refine (mises_add _ _).trans (add_le_add ?_ (ih s (by simpa using hs) (fun c hc => hJ c (List.mem_cons_of_mem _ hc)) fun x hx => hm x (List.mem_cons_of_mem _ hx)))
        exact mises_sum univ _ _ (fun q _ => hJ c (List.mem_cons_self ..) q) 250 fun q _ => hm x (List.mem_cons_self ..) q
  have := key F.cells st.sig hl1 hJ hall
  unfold avgStress
  dsimp only
  rw [mises_smul, abs_of_pos (inv_pos.mpr hvol), inv_mul_le_iff₀ hvol]
  exact this

/-- Instances of C30 in three dimensions: a shear of 0.01 from the stress-free state yields (the trial stress is outside), a shear of 0.001 is elastic with stress 26.9. -/
theorem shear_trial (a : ℝ) (ha : 0 ≤ a) : mises ((0 : Matrix (Fin 3) (Fin 3) ℝ) + hooke (strain !![0, a, 0; 0, 0, 0; 0, 0, 0] - 0)) = Real.sqrt 3 * (shearMod * a) := by
  have h : (0 : Matrix (Fin 3) (Fin 3) ℝ) + hooke (strain !![0, a, 0; 0, 0, 0; 0, 0, 0] - 0) = !![0, shearMod * a, 0; shearMod * a, 0, 0; 0, 0, 0] := by
    rw [zero_add, sub_zero]
    ext i j
    change elasticStress _ i j = _
    rw [elasticStress_apply, Matrix.trace_fin_three]
    fin_cases i <;> fin_cases j <;> simp
  rw [h, mises_three _ (by ext i j; fin_cases i <;> fin_cases j <;> simp)]
  have : 0 ≤ shearMod * a := mul_nonneg shearMod_pos.le ha
  rw [← Real.sqrt_sq this, ← Real.sqrt_mul (by norm_num)]
  congr 1
  simp
  rw [Real.sqrt_sq this]

example : mises (returnMap (!![0, 0.01, 0; 0, 0, 0; 0, 0, 0] : Matrix (Fin 3) (Fin 3) ℝ) 0 0) = 250 := by
  refine ((C30_step (by norm_num) _ _ _).2 ?_).1
  rw [shear_trial 0.01 (by norm_num)]
  have h3 : (1 : ℝ) ≤ Real.sqrt 3 := Real.one_le_sqrt.mpr (by norm_num)
  have hs : (260 : ℝ) < shearMod * 0.01 := by norm_num [shearMod]
  nlinarith

example : returnMap (!![0, 0.001, 0; 0, 0, 0; 0, 0, 0] : Matrix (Fin 3) (Fin 3) ℝ) 0 0 0 1 = shearMod * 0.001 := by
  rw [(C30_step (by norm_num) _ _ _).1 ?_]
  · rw [zero_add, sub_zero]
    change elasticStress _ 0 1 = _
    rw [elasticStress_apply]
    simp
  · rw [shear_trial 0.001 (by norm_num)]
    have h3 : Real.sqrt 3 ≤ 2 := Real.sqrt_le_iff.mpr ⟨by norm_num, by norm_num⟩
    have hs : shearMod * 0.001 < 27 := by norm_num [shearMod]
    have hs0 : 0 ≤ shearMod * 0.001 := by norm_num [shearMod]
    nlinarith

/-- A load history on the triangle: two displacement fields; the theorem applies without further hypotheses. -/
example (u1 u2 : ℕ → Fin 2 → ℝ) : ∃ st s, plastRun triVec [u1, u2] = .ok st ∧ st.sig[0]? = some s ∧ mises (s 0) ≤ 250 := by
  obtain ⟨st, h1, h2, h3, h4, -⟩ := C30_history (by norm_num : 0 < 2) triVec [u1, u2]
  have hl : triVec.cells.length = 1 := rfl
  have hs : 0 < st.sig.length := by rw [h2, hl]; norm_num
  have he : 0 < st.eps.length := by rw [h3, hl]; norm_num
  exact ⟨st, st.sig[0], h1, List.getElem?_eq_getElem hs, (h4 0 _ _ (List.getElem?_eq_getElem hs) (List.getElem?_eq_getElem he) 0).1⟩

/-! ## C32 -/

theorem l2Error_eq (F : Fem nn nq nf nfq dim vec) (sol : ℕ → Fin vec → ℝ) (f : (Fin dim → ℝ) → Fin vec → ℝ) :
    F.l2Error sol f = Real.sqrt (F.cells.map fun c => ∑ q, ∑ i, (F.uAt sol c q i - f (F.xAt c q) i) ^ 2 * F.JxW c q).sum := by
  unfold Fem.l2Error Fem.convertFromDofToQuad Fem.quadPoints
  simp only [List.map_map]
  congr 2
  induction F.cells with
  | nil => rfl
  | cons c l ih => simp only [List.map_cons, List.zip_cons_cons, ih]; rfl

theorem h1Error_eq (F : Fem nn nq nf nfq dim vec) (sol : ℕ → Fin vec → ℝ) (f : (Fin dim → ℝ) → Fin vec → ℝ) :
    F.h1Error sol f = F.l2Error sol f + Real.sqrt (F.cells.map fun c => ∑ q, ∑ i, ∑ d, (F.gradAt sol c q i d - jacRev f (F.xAt c q) i d) ^ 2 * F.JxW c q).sum := by
  unfold Fem.h1Error Fem.solToGrad Fem.quadPoints
  simp only [List.map_map]
  congr 3
  induction F.cells with
  | nil => rfl
  | cons c l ih => simp only [List.map_cons, List.zip_cons_cons, ih]; rfl

/-- **C32 (affine fields).** On every mesh the object can be built for, if the shape functions are a partition of unity and the nodal values sample an affine field, both error norms with respect to that field are zero. -/
theorem C32_affine (F : Fem nn nq nf nfq dim vec) (G) (hok : F.getShapeGrads = .ok G) (hsum : ∀ q b, ∑ n, F.shapeGradsRef q n b = 0) (hone : ∀ q, ∑ n, F.shapeVals q n = 1)
    (A : Fin vec → Fin dim → ℝ) (b : Fin vec → ℝ) (sol : ℕ → Fin vec → ℝ) (hsol : ∀ c ∈ F.cells, ∀ n i, sol (c n) i = ∑ d, A i d * F.points (c n) d + b i) :
    F.l2Error sol (fun x i => ∑ d, A i d * x d + b i) = 0 ∧ F.h1Error sol (fun x i => ∑ d, A i d * x d + b i) = 0 := by
  have hv := C10_values F hone A b sol hsol
  have hg := C10_gradient F G hok hsum A b sol hsol
  have hval : ∀ c ∈ F.cells, ∀ q i, F.uAt sol c q i = ∑ d, A i d * F.xAt c q d + b i := by
    intro c hc q i
    unfold Fem.convertFromDofToQuad Fem.quadPoints at hv
    rw [List.map_map] at hv
    exact congrFun (congrFun (List.map_inj_left.mp hv c hc) q) i
  have hgrad : ∀ c ∈ F.cells, ∀ q, F.gradAt sol c q = A := by
    intro c hc q
    have := (List.eq_replicate_iff.mp hg).2 (fun q i d => ∑ n, sol (c n) i * F.shapeGrad c q n d) (List.mem_map.mpr ⟨c, hc, rfl⟩)
    exact congrFun this q
  have hjac : ∀ x, jacRev (fun x i => ∑ d, A i d * x d + b i) x = A := by
    intro x
    funext i d
    unfold jacRev
    have : (fun t : ℝ => ∑ d', A i d' * (x + t • (Pi.single d 1 : Fin dim → ℝ)) d' + b i) = fun t => (∑ d', A i d' * x d' + b i) + t * A i d := by
      funext t
      simp only [Pi.add_apply, Pi.smul_apply, smul_eq_mul, mul_add, sum_add_distrib, Pi.single_apply, mul_ite, mul_one, mul_zero, sum_ite_eq', mem_univ, if_true]
      ring
    rw [this]
    simp
  have h0 : F.l2Error sol (fun x i => ∑ d, A i d * x d + b i) = 0 := by
    rw [l2Error_eq, List.sum_eq_zero, Real.sqrt_zero]
    intro y hy
    obtain ⟨c, hc, rfl⟩ := List.mem_map.mp hy
    simp [hval c hc]
  refine ⟨h0, ?_⟩
  rw [h1Error_eq, h0, zero_add, List.sum_eq_zero, Real.sqrt_zero]
  intro y hy
  obtain ⟨c, hc, rfl⟩ := List.mem_map.mp hy
  simp [hgrad c hc, hjac]

/-- **C32 (zero exactly on reproduced fields).** The norms are non-negative; when all `JxW` are positive the `L2` error is zero iff the interpolated solution equals the true function at every quadrature point, and the `H1` error iff the
gradients agree there as well. -/
theorem C32_zero_iff (F : Fem nn nq nf nfq dim vec) (sol : ℕ → Fin vec → ℝ) (f : (Fin dim → ℝ) → Fin vec → ℝ) :
    0 ≤ F.l2Error sol f ∧ F.l2Error sol f ≤ F.h1Error sol f ∧ ((∀ c ∈ F.cells, ∀ q, 0 < F.JxW c q) →
      (F.l2Error sol f = 0 ↔ ∀ c ∈ F.cells, ∀ q i, F.uAt sol c q i = f (F.xAt c q) i) ∧
      (F.h1Error sol f = 0 ↔ (∀ c ∈ F.cells, ∀ q i, F.uAt sol c q i = f (F.xAt c q) i) ∧ ∀ c ∈ F.cells, ∀ q i d, F.gradAt sol c q i d = jacRev f (F.xAt c q) i d)) := by
  have sumzero : ∀ (l : List (Fin nn → ℕ)) (w : (Fin nn → ℕ) → ℝ), (∀ c ∈ l, 0 ≤ w c) → (Real.sqrt (l.map w).sum = 0 ↔ ∀ c ∈ l, w c = 0) := by
    intro l w hw
    have hn : 0 ≤ (l.map w).sum := List.sum_nonneg fun x hx => by
      obtain ⟨c, hc, rfl⟩ := List.mem_map.mp hx
      exact hw c hc
    rw [Real.sqrt_eq_zero hn]
    constructor
    · intro h0 c hc
      exact List.all_zero_of_le_zero_le_of_sum_eq_zero (l := l.map w) (fun x hx => by
        obtain ⟨c, hc, rfl⟩ := List.mem_map.mp hx
        exact hw c hc) h0 (List.mem_map.mpr ⟨c, hc, rfl⟩)
    · intro h
      exact List.sum_eq_zero fun x hx => by
        obtain ⟨c, hc, rfl⟩ := List.mem_map.mp hx
        exact h c hc
  have h0 : 0 ≤ F.l2Error sol f := Real.sqrt_nonneg _
  have h1 : F.l2Error sol f ≤ F.h1Error sol f := by
    rw [h1Error_eq]
    exact le_add_of_nonneg_right (Real.sqrt_nonneg _)
  refine ⟨h0, h1, fun hJ => ?_⟩
  have hl2 : F.l2Error sol f = 0 ↔ ∀ c ∈ F.cells, ∀ q i, F.uAt sol c q i = f (F.xAt c q) i := by
    rw [l2Error_eq, sumzero _ _ fun c hc => sum_nonneg fun q _ => sum_nonneg fun i _ => mul_nonneg (sq_nonneg _) (hJ c hc q).le]
    refine forall₂_congr fun c hc => ?_
    rw [sum_eq_zero_iff_of_nonneg fun q _ => sum_nonneg fun i _ => mul_nonneg (sq_nonneg _) (hJ c hc q).le]
    refine forall_congr' fun q => ?_
    rw [imp_iff_right (mem_univ q), sum_eq_zero_iff_of_nonneg fun i _ => mul_nonneg (sq_nonneg _) (hJ c hc q).le]
    refine forall_congr' fun i => ?_
    rw [imp_iff_right (mem_univ i), mul_eq_zero, or_iff_left (hJ c hc q).ne', sq_eq_zero_iff, sub_eq_zero]
  refine ⟨hl2, ?_⟩
  rw [h1Error_eq, add_eq_zero_iff_of_nonneg h0 (Real.sqrt_nonneg _), hl2]
  refine and_congr_right fun _ => ?_
  rw [sumzero _ _ fun c hc => sum_nonneg fun q _ => sum_nonneg fun i _ => sum_nonneg fun d _ => mul_nonneg (sq_nonneg _) (hJ c hc q).le]
  refine forall₂_congr fun c hc => ?_
  rw [sum_eq_zero_iff_of_nonneg fun q _ => sum_nonneg fun i _ => sum_nonneg fun d _ => mul_nonneg (sq_nonneg _) (hJ c hc q).le]
  refine forall_congr' fun q => ?_
  rw [imp_iff_right (mem_univ q), sum_eq_zero_iff_of_nonneg fun i _ => sum_nonneg fun d _ => mul_nonneg (sq_nonneg _) (hJ c hc q).le]
  refine forall_congr' fun i => ?_
  rw [imp_iff_right (mem_univ i), sum_eq_zero_iff_of_nonneg fun d _ => mul_nonneg (sq_nonneg _) (hJ c hc q).le]
  refine forall_congr' fun d => ?_
  rw [imp_iff_right (mem_univ d), mul_eq_zero, or_iff_left (hJ c hc q).ne', sq_eq_zero_iff, sub_eq_zero]

/-- Instance of C32: the triangle with the field `3x - y + 5` has zero errors; with the nodal value 6 instead of 5 at the third node the `L2` error is positive. -/
example : triExample.l2Error (fun n _ => if n = 0 then 5 else if n = 1 then 11 else 5) (fun x _ => ∑ d, (![3, -1] : Fin 2 → ℝ) d * x d + 5) = 0 := by
  have hdet : ∀ c ∈ triExample.cells, ∀ q, (triExample.jacobian c q).det ≠ 0 := by
    intro c hc q
    obtain rfl : c = ![0, 1, 2] := by simpa [triExample] using hc
    rw [triExample_jacobian, Matrix.det_fin_two_of]
    norm_num
  refine (C32_affine triExample _ ((getShapeGrads_ok_iff _ _).mpr ⟨hdet, rfl⟩) ?_ ?_ (fun _ => ![3, -1]) (fun _ => 5) _ ?_).1
  · intro q b
    fin_cases b <;> simp [triExample, Fin.sum_univ_three]
  · intro q
    simp [triExample, Fin.sum_univ_three]
    norm_num
  · intro c hc n i
    obtain rfl : c = ![0, 1, 2] := by simpa [triExample] using hc
    fin_cases n <;> simp [triExample, Fin.sum_univ_two] <;> norm_num

example : triExample.l2Error (fun n _ => if n = 0 then 5 else if n = 1 then 11 else 6) (fun x _ => ∑ d, (![3, -1] : Fin 2 → ℝ) d * x d + 5) ≠ 0 := by
  have hJ : ∀ c ∈ triExample.cells, ∀ q, 0 < triExample.JxW c q := by
    intro c hc q
    obtain rfl : c = ![0, 1, 2] := by simpa [triExample] using hc
    rw [Fem.JxW, triExample_jacobian, Matrix.det_fin_two_of]
    norm_num [triExample]
  intro h
  have := ((C32_zero_iff triExample _ _).2.2 hJ).1.mp h ![0, 1, 2] (by simp [triExample]) 0 0
  simp [Fem.uAt, Fem.xAt, triExample, Fin.sum_univ_three, Fin.sum_univ_two] at this
  norm_num at this

end Verif.Fem
