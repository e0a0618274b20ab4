import Verif.Fem.TopOptGrad
import Verif.Fem.TopLoop

/-!
# C136: two materials (model of applications/fem/top_opt/multi_material.py)

Each cell has two design variables: `theta1` is the density and `theta2` the share of the stiff material. The design is a flat vector of `2 m` entries, `theta1` and `theta2` of cell `k` at `2k` and `2k + 1`
(row-major order of the array `params` of shape `(m, 2)`).
-/
namespace Verif.TopProg
open Finset Verif.Fem

variable {nn nq nf nfq dim m : ℕ}

/-- `params` of shape `(m, 2)` from the flat vector. -/
def pairParams (q : Fin (m * 2) → ℝ) : ℕ → ℕ → ℝ := fun k c => ext q (2 * k + c)

/-- The problem seen by `ad_wrapper` (multi_material.py 44-45): `flex_inds = arange(len(cells))` and the two-material tensor map. -/
noncomputable def multiProb [NeZero dim] (F : Fem nn nq nf nfq dim dim) (groups : List (Fem.Group ℝ)) (m : ℕ) : ParamProb (m * 2) FemErr where
  prob q := (topFem F multiMap (List.range m) (pairParams q)).toProb groups
  res q x d := match (topFem F multiMap (List.range m) (pairParams q)).computeResidual (fun n i => x (dim * n + i)) with
    | .ok R => R (d / dim) (Fin.ofNat dim d)
    | .error _ => 0

/-- Specification: the modulus of cell `k`. -/
noncomputable def multiE (q : Fin (m * 2) → ℝ) (k : ℕ) : ℝ := if k < m then 70 + ext q (2 * k) ^ 3 * (14e3 + 56e3 * ext q (2 * k + 1) ^ 3) else 70 + 70e3

theorem multiModulus_eq (a b : ℝ) : multiModulus 70 70e3 3 a b = 70 + a ^ 3 * (14e3 + 56e3 * b ^ 3) := by
  simp only [multiModulus]
  ring

theorem multi_full (q : Fin (m * 2) → ℝ) (k : ℕ) : multiModulus 70 70e3 3 (fullParams (List.range m) (pairParams q) k 0) (fullParams (List.range m) (pairParams q) k 1) = multiE q k := by
  unfold multiE
  by_cases h : k < m
  · rw [(C102_params (List.range m) List.nodup_range (pairParams q)).2.2 m k h, multiModulus_eq, if_pos h]
    rfl
  · rw [(C102_params (List.range m) List.nodup_range (pairParams q)).2.1 k (by simpa using h), multiModulus_eq, if_neg h]
    norm_num

theorem topFem_multi (F : Fem nn nq nf nfq dim dim) (q : Fin (m * 2) → ℝ) : topFem F multiMap (List.range m) (pairParams q) = scaledFem F (isoStress 1 0.3) (multiE q) := by
  rw [topFem_eq F multiMap _ (isoStress 1 0.3) (C102_materials (dim := dim)).2.2.2.eq]
  congr 1
  funext k
  exact multi_full q k

theorem multiProb_eq [NeZero dim] (F : Fem nn nq nf nfq dim dim) (groups : List (Fem.Group ℝ)) : multiProb F groups m = densityProb F (isoStress 1 0.3) groups multiE := by
  unfold multiProb densityProb
  simp only [topFem_multi F]
  rfl

theorem ext_contDiff {N : ℕ} (d : ℕ) (p : Fin N → ℝ) : ContDiffAt ℝ 1 (fun q : Fin N → ℝ => ext q d) p := by
  unfold Fem.ext
  by_cases h : d < N
  · simp only [h, dif_pos]
    fun_prop
  · simp only [h, dif_neg, not_false_eq_true]
    exact contDiffAt_const

theorem multiE_smooth (p : Fin (m * 2) → ℝ) (k : ℕ) : ContDiffAt ℝ 1 (fun q : Fin (m * 2) → ℝ => multiE q k) p := by
  unfold multiE
  by_cases h : k < m
  · simp only [h, if_true]
    exact contDiffAt_const.add (((ext_contDiff _ p).pow 3).mul (contDiffAt_const.add (contDiffAt_const.mul ((ext_contDiff _ p).pow 3))))
  · simp only [h, if_false]
    exact contDiffAt_const

theorem multiE_pos (p : Fin (m * 2) → ℝ) (hp : ∀ j, 0 ≤ p j) (k : ℕ) : 0 < multiE p k := by
  have h0 : ∀ d, 0 ≤ ext p d := by
    intro d
    unfold Fem.ext
    split_ifs with h
    · exact hp _
    · exact le_rfl
  unfold multiE
  split_ifs
  · have := mul_nonneg (pow_nonneg (h0 (2 * k)) 3) (by linarith [pow_nonneg (h0 (2 * k + 1)) 3] : 0 ≤ 14e3 + 56e3 * ext p (2 * k + 1) ^ 3)
    linarith
  · norm_num

theorem multiE_fderiv (p : Fin (m * 2) → ℝ) (k : ℕ) (j : Fin (m * 2)) :
    fderiv ℝ (fun q : Fin (m * 2) → ℝ => multiE q k) p (Pi.single j 1) =
      if k < m then (if 2 * k = j then 3 * ext p (2 * k) ^ 2 * (14e3 + 56e3 * ext p (2 * k + 1) ^ 3) else 0) + (if 2 * k + 1 = j then 168e3 * ext p (2 * k) ^ 3 * ext p (2 * k + 1) ^ 2 else 0) else 0 := by
  have hd := ((multiE_smooth p k).differentiableAt (by norm_num)).hasFDerivAt
  have h1 : HasDerivAt (fun s : ℝ => p + s • (Pi.single j 1 : Fin (m * 2) → ℝ)) (Pi.single j 1) 0 := by
    simpa using ((hasDerivAt_id (0 : ℝ)).smul_const (Pi.single j 1 : Fin (m * 2) → ℝ)).const_add p
  have h2 : HasFDerivAt (fun q : Fin (m * 2) → ℝ => multiE q k) (fderiv ℝ (fun q : Fin (m * 2) → ℝ => multiE q k) p) (p + (0 : ℝ) • (Pi.single j 1 : Fin (m * 2) → ℝ)) := by simpa using hd
  have h3 := h2.comp_hasDerivAt (0 : ℝ) h1
  refine h3.unique ?_
  show HasDerivAt (fun s : ℝ => multiE (p + s • (Pi.single j 1 : Fin (m * 2) → ℝ)) k) _ 0
  unfold multiE
  by_cases h : k < m
  · simp only [h, if_true, ext_line, ext_single, Pi.add_apply, Pi.smul_apply, smul_eq_mul, Pi.single_apply]
    have lin : ∀ d : ℕ, HasDerivAt (fun s : ℝ => ext p d + s * (if d = (j : ℕ) then 1 else 0)) (if d = (j : ℕ) then 1 else 0) 0 := fun d => by
      simpa using ((hasDerivAt_id (0 : ℝ)).mul_const (if d = (j : ℕ) then (1 : ℝ) else 0)).const_add (ext p d)
    have h5 := (((lin (2 * k)).pow 3).mul ((((lin (2 * k + 1)).pow 3).const_mul (56e3 : ℝ)).const_add (14e3 : ℝ))).const_add (70 : ℝ)
    refine h5.congr_deriv ?_
    by_cases e1 : 2 * k = (j : ℕ)
    · have e2 : ¬ 2 * k + 1 = (j : ℕ) := by omega
      simp [e1]
    · by_cases e2 : 2 * k + 1 = (j : ℕ)
      · simp [e1, e2]
        ring
      · simp [e1, e2]
  · simp only [h, if_false]
    exact hasDerivAt_const _ _

section
variable [NeZero dim] (F : Fem nn nq nf nfq dim dim) {loc : Loc dim} {t : (Fin dim → ℝ) → Fin dim → ℝ} (hF : Loaded F loc t)

include hF in
/-- **C136 (two materials, gradient).** A clamped body, non-negative design variables, exact linear solves: reverse mode returns the derivative of the compliance with respect to both design variables of every cell:
minus `3 theta1^2 (14000 + 56000 theta2^3)` and minus `168000 theta1^3 theta2^2` times the elastic work (for modulus one) of the solution in the cell. Neither is ever positive. -/
theorem C136_multi (groups : List (Fem.Group ℝ)) (hcl : Clamped F groups) (hm : F.cells.length = m) (p : Fin (m * 2) → ℝ) (hp : ∀ j, 0 ≤ p j)
    (lin : ℕ → LinCall ℝ → ℕ → ℝ) (hlin : ExactLin (F.numTotal * dim) lin) (usePetsc : Bool) (fuel : ℕ) :
    ∃ (u : ℕ → ℝ) (g : Fin (m * 2) → ℝ), (multiProb F groups m).fwdPred lin true usePetsc fuel p = .ok u ∧
      (topFem F multiMap (List.range m) (pairParams p)).Solves (F.toProb groups).prescriptions (fun n i => u (dim * n + i)) ∧
      (multiProb F groups m).revGrad lin true usePetsc fuel (complianceObj F t) p = .ok g ∧
      HasFDerivAt ((multiProb F groups m).objective lin true usePetsc fuel (complianceObj F t)) (∑ j, g j • (ContinuousLinearMap.proj j : (Fin (m * 2) → ℝ) →L[ℝ] ℝ)) p ∧
      ∀ k : Fin m, ∃ w : ℝ, 0 ≤ w ∧ w = cellWork F (isoStress 1 0.3) (fun n i => u (dim * n + i)) (fun n i => u (dim * n + i)) (F.cells[k]'(by rw [hm]; exact k.isLt)) ∧
        g ⟨2 * k, by omega⟩ = -(3 * p ⟨2 * k, by omega⟩ ^ 2 * (14e3 + 56e3 * p ⟨2 * k + 1, by omega⟩ ^ 3) * w) ∧
        g ⟨2 * k + 1, by omega⟩ = -(168e3 * p ⟨2 * k, by omega⟩ ^ 3 * p ⟨2 * k + 1, by omega⟩ ^ 2 * w) ∧ g ⟨2 * k, by omega⟩ ≤ 0 ∧ g ⟨2 * k + 1, by omega⟩ ≤ 0 := by
  have hC : ElasticLaw (isoStress (dim := dim) 1 0.3) := C102_iso 0.3 (by norm_num) (by norm_num)
  have hpre : ∀ e : ℕ → ℝ, ((scaledFem F (isoStress 1 0.3) e).toProb groups).prescriptions = (F.toProb groups).prescriptions := scaled_pres F groups
  have hdet : (scaledFem F (isoStress 1 0.3) (multiE p)).Determined ((scaledFem F (isoStress 1 0.3) fun _ => 1).toProb groups).prescriptions := by
    rw [hpre]
    exact C103_determined F hC hF _ (multiE_pos p hp) hcl.rigid _ hcl.held
  obtain ⟨u, g, h1, h2, h3, h4, h5⟩ := C104_gradient F hC hF groups (wf_congr _ _ (by rw [toProb_vec, toProb_vec]) (by rw [toProb_groups, toProb_groups]) hcl.wf)
    (by rw [hpre]; exact hcl.zero) multiE p (multiE_smooth p) hdet lin hlin usePetsc fuel
  rw [multiProb_eq F, topFem_multi F]
  rw [hpre] at h2
  refine ⟨u, g, h1, h2, h3, h4, fun k => ?_⟩
  have hk : (k : ℕ) < F.cells.length := by rw [hm]; exact k.isLt
  have e1 : ext p (2 * k) = p ⟨2 * k, by omega⟩ := ext_lt p ⟨2 * k, by omega⟩
  have e2 : ext p (2 * k + 1) = p ⟨2 * k + 1, by omega⟩ := ext_lt p ⟨2 * k + 1, by omega⟩
  have hw : 0 ≤ cellWork F (isoStress 1 0.3) (fun n i => u (dim * n + i)) (fun n i => u (dim * n + i)) F.cells[(k : ℕ)] := cellWork_nonneg F hC (hF.vol _ (List.getElem_mem hk)) _
  have sum1 : ∀ (j : Fin (m * 2)) (c : ℝ), (∀ k' : ℕ, k' < m → k' ≠ k → fderiv ℝ (fun q : Fin (m * 2) → ℝ => multiE q k') p (Pi.single j 1) = 0) →
      fderiv ℝ (fun q : Fin (m * 2) → ℝ => multiE q k) p (Pi.single j 1) = c →
      g j = -(c * cellWork F (isoStress 1 0.3) (fun n i => u (dim * n + i)) (fun n i => u (dim * n + i)) F.cells[(k : ℕ)]) := by
    intro j c ho hc
    rw [h5 j]
    congr 1
    have h7 := zipIdx_single F.cells (fun c' => c * cellWork F (isoStress 1 0.3) (fun n i => u (dim * n + i)) (fun n i => u (dim * n + i)) c') 0 k hk
    rw [zero_add] at h7
    rw [← h7]
    congr 1
    refine List.map_congr_left fun c' hc' => ?_
    have hb : c'.2 < m := by
      have := (List.mem_zipIdx hc').2.1
      omega
    by_cases hkk : c'.2 = k
    · rw [if_pos hkk, hkk, hc]
    · rw [if_neg hkk, ho c'.2 hb hkk, zero_mul]
  have hg1 := sum1 ⟨2 * k, by omega⟩ (3 * p ⟨2 * k, by omega⟩ ^ 2 * (14e3 + 56e3 * p ⟨2 * k + 1, by omega⟩ ^ 3))
    (fun k' hk' hne => by
      rw [multiE_fderiv, if_pos hk', if_neg (fun h : 2 * k' = 2 * (k : ℕ) => hne (by omega)), if_neg (fun h : 2 * k' + 1 = 2 * (k : ℕ) => by omega), add_zero])
    (by rw [multiE_fderiv, if_pos k.isLt, if_pos rfl, if_neg (fun h : 2 * (k : ℕ) + 1 = 2 * (k : ℕ) => by omega), add_zero, e1, e2])
  have hg2 := sum1 ⟨2 * k + 1, by omega⟩ (168e3 * p ⟨2 * k, by omega⟩ ^ 3 * p ⟨2 * k + 1, by omega⟩ ^ 2)
    (fun k' hk' hne => by
      rw [multiE_fderiv, if_pos hk', if_neg (fun h : 2 * k' = 2 * (k : ℕ) + 1 => by omega), if_neg (fun h : 2 * k' + 1 = 2 * (k : ℕ) + 1 => hne (by omega)), add_zero])
    (by rw [multiE_fderiv, if_pos k.isLt, if_neg (fun h : 2 * (k : ℕ) = 2 * (k : ℕ) + 1 => by omega), if_pos rfl, zero_add, e1, e2])
  have p1 := hp ⟨2 * k, by omega⟩
  have p2 := hp ⟨2 * k + 1, by omega⟩
  refine ⟨_, hw, rfl, hg1, hg2, ?_, ?_⟩
  · rw [hg1, neg_nonpos]
    positivity
  · rw [hg2, neg_nonpos]
    positivity

end

/-! ## The constraints -/

/-- `computeGlobalVolumeConstraint` of multi_material.py 88-96 (`num_flex = m`). -/
noncomputable def weightCon (vf : ℝ) (rho : Fin m × Fin 2 → ℝ) : ℝ := (∑ k, rho (k, 0) * (rho (k, 1) * 1 + (1 - rho (k, 1)) * 0.4)) / m / vf - 1

/-- `computeConstraints` (multi_material.py 87-100). -/
noncomputable def weightHandle (vf : ℝ) (rho : Fin m × Fin 2 → ℝ) : (Fin 1 → ℝ) × (Fin 1 → Fin m × Fin 2 → ℝ) :=
  (fun _ => weightCon vf rho, fun _ j => fderiv ℝ (weightCon vf) rho (Pi.single j 1))

/-- `computeGlobalVolumeConstraint` of plasticity.py 195-200. -/
noncomputable def pairCon (vf vy : ℝ) (rho : Fin m × Fin 2 → ℝ) : Fin 2 → ℝ := ![(∑ k, rho (k, 0)) / m / vf - 1, (∑ k, rho (k, 1)) / m / vy - 1]

/-- `computeConstraints` (plasticity.py 194-204). -/
noncomputable def pairHandle (vf vy : ℝ) (rho : Fin m × Fin 2 → ℝ) : (Fin 2 → ℝ) × (Fin 2 → Fin m × Fin 2 → ℝ) :=
  (pairCon vf vy rho, fun i j => fderiv ℝ (fun q => pairCon vf vy q i) rho (Pi.single j 1))

theorem proj_hasFDerivAt (j : Fin m × Fin 2) (rho : Fin m × Fin 2 → ℝ) : HasFDerivAt (fun q : Fin m × Fin 2 → ℝ => q j) (ContinuousLinearMap.proj j : (Fin m × Fin 2 → ℝ) →L[ℝ] ℝ) rho :=
  (ContinuousLinearMap.proj j : (Fin m × Fin 2 → ℝ) →L[ℝ] ℝ).hasFDerivAt

/-- **C136 (two materials, constraint).** The constraint says that the weight, 1 per unit of stiff and 0.4 per unit of soft material, is at most `m vf`; its gradient is right; more density never lowers it, nor does a larger share of
the stiff material; the initial design of the program (`vf` and one half everywhere) is feasible with a margin of 0.3. -/
theorem C136_weight (hm : 0 < m) (vf : ℝ) (hvf : 0 < vf) (rho : Fin m × Fin 2 → ℝ) :
    ((weightHandle vf rho).1 0 ≤ 0 ↔ ∑ k, (rho (k, 0) * rho (k, 1) + 0.4 * (rho (k, 0) * (1 - rho (k, 1)))) ≤ m * vf) ∧
    (∀ k, (weightHandle vf rho).2 0 (k, 0) = (0.4 + 0.6 * rho (k, 1)) / (m * vf) ∧ (weightHandle vf rho).2 0 (k, 1) = 0.6 * rho (k, 0) / (m * vf)) ∧
    (weightHandle (m := m) vf fun j => if j.2 = 0 then vf else 0.5).1 0 = -0.3 := by
  have hm' : (0 : ℝ) < m := by exact_mod_cast hm
  refine ⟨?_, fun k => ?_, ?_⟩
  · show (∑ k, rho (k, 0) * (rho (k, 1) * 1 + (1 - rho (k, 1)) * 0.4)) / m / vf - 1 ≤ 0 ↔ _
    rw [sub_nonpos, div_le_one hvf, div_le_iff₀ hm', mul_comm vf]
    have : ∑ k, rho (k, 0) * (rho (k, 1) * 1 + (1 - rho (k, 1)) * 0.4) = ∑ k, (rho (k, 0) * rho (k, 1) + 0.4 * (rho (k, 0) * (1 - rho (k, 1)))) := sum_congr rfl fun k _ => by ring
    rw [this]
  · have hder : HasFDerivAt (weightCon (m := m) vf) ((1 / (m * vf)) • ∑ k : Fin m, ((0.4 + 0.6 * rho (k, 1)) • (ContinuousLinearMap.proj (k, 0) : (Fin m × Fin 2 → ℝ) →L[ℝ] ℝ) +
        (0.6 * rho (k, 0)) • (ContinuousLinearMap.proj (k, 1) : (Fin m × Fin 2 → ℝ) →L[ℝ] ℝ))) rho := by
      have h1 : HasFDerivAt (fun q : Fin m × Fin 2 → ℝ => ∑ k : Fin m, q (k, 0) * (0.6 * q (k, 1) + 0.4)) (∑ k : Fin m, ((0.4 + 0.6 * rho (k, 1)) • (ContinuousLinearMap.proj (k, 0) : (Fin m × Fin 2 → ℝ) →L[ℝ] ℝ) +
          (0.6 * rho (k, 0)) • (ContinuousLinearMap.proj (k, 1) : (Fin m × Fin 2 → ℝ) →L[ℝ] ℝ))) rho := by
        refine HasFDerivAt.fun_sum fun k _ => ?_
        have h2 := (proj_hasFDerivAt (k, 0) rho).fun_mul (((proj_hasFDerivAt (k, 1) rho).const_mul (0.6 : ℝ)).add_const (0.4 : ℝ))
        refine h2.congr_fderiv ?_
        ext v
        simp
        ring
      have h3 := (h1.const_smul (1 / (m * vf))).sub_const 1
      refine h3.congr_of_eventuallyEq (Filter.Eventually.of_forall fun q => ?_)
      simp only [weightCon, Pi.smul_apply, smul_eq_mul]
      rw [div_div, one_div, inv_mul_eq_div]
      congr 2
      exact sum_congr rfl fun k _ => by ring
    constructor
    · show fderiv ℝ (weightCon vf) rho (Pi.single (k, 0) 1) = _
      rw [hder.fderiv]
      simp [_root_.sum_apply, Pi.single_apply, sum_ite_eq', div_eq_mul_inv, mul_comm]
    · show fderiv ℝ (weightCon vf) rho (Pi.single (k, 1) 1) = _
      rw [hder.fderiv]
      simp [_root_.sum_apply, Pi.single_apply, sum_ite_eq', div_eq_mul_inv, mul_comm]
  · show (∑ k : Fin m, (if (0 : Fin 2) = 0 then vf else 0.5) * ((if (1 : Fin 2) = 0 then vf else 0.5) * 1 + (1 - (if (1 : Fin 2) = 0 then vf else 0.5)) * 0.4)) / m / vf - 1 = -0.3
    simp only [if_true, show ¬ (1 : Fin 2) = 0 by decide, if_false, sum_const, card_univ, Fintype.card_fin, nsmul_eq_mul]
    field_simp
    norm_num

/-- **C136 (no gain from mixing).** For design variables in the unit interval, the stiffness of a cell beyond `Emin` is at most 70000 times its weight, with equality only for an empty cell or a cell full of the stiff material: the soft
material and all intermediate values are penalised. -/
theorem C136_penalised (a b : ℝ) (ha : 0 ≤ a ∧ a ≤ 1) (hb : 0 ≤ b ∧ b ≤ 1) :
    multiModulus 70 70e3 3 a b - 70 ≤ 70e3 * (a * (b * 1 + (1 - b) * 0.4)) ∧
    (multiModulus 70 70e3 3 a b - 70 = 70e3 * (a * (b * 1 + (1 - b) * 0.4)) ↔ a = 0 ∨ a = 1 ∧ b = 1) := by
  obtain ⟨a0, a1⟩ := ha
  obtain ⟨b0, b1⟩ := hb
  have ha3 : a ^ 3 ≤ a := by nlinarith [mul_nonneg a0 (sub_nonneg.2 a1)]
  have hb3 : b ^ 3 ≤ b := by nlinarith [mul_nonneg b0 (sub_nonneg.2 b1)]
  rw [multiModulus_eq]
  have key : 70e3 * (a * (b * 1 + (1 - b) * 0.4)) - (70 + a ^ 3 * (14e3 + 56e3 * b ^ 3) - 70) = (a - a ^ 3) * (14e3 + 56e3 * b ^ 3) + a * (56e3 * (b - b ^ 3) + 14e3 * (1 - b)) := by ring
  have k1 : 0 ≤ (a - a ^ 3) * (14e3 + 56e3 * b ^ 3) := mul_nonneg (by linarith) (by linarith [pow_nonneg b0 3])
  have k2 : 0 ≤ a * (56e3 * (b - b ^ 3) + 14e3 * (1 - b)) := mul_nonneg a0 (by linarith)
  refine ⟨by linarith, fun h => ?_, ?_⟩
  · have z2 : a * (56e3 * (b - b ^ 3) + 14e3 * (1 - b)) = 0 := by linarith
    have z1 : (a - a ^ 3) * (14e3 + 56e3 * b ^ 3) = 0 := by linarith
    rcases mul_eq_zero.1 z2 with h0 | h0
    · exact Or.inl h0
    · have hb' : b = 1 := by linarith
      rcases mul_eq_zero.1 z1 with h1 | h1
      · have h2 : a * ((1 - a) * (1 + a)) = 0 := by rw [← h1]; ring
        rcases mul_eq_zero.1 h2 with h3 | h3
        · exact Or.inl h3
        · rcases mul_eq_zero.1 h3 with h4 | h4
          · exact Or.inr ⟨by linarith, hb'⟩
          · linarith
      · linarith [pow_nonneg b0 3]
  · rintro (h | ⟨h, h'⟩)
    · subst h; norm_num
    · subst h; subst h'; norm_num

/-- **C136 (plasticity, constraints).** The mean density is at most `vf` and the mean of the second variable at most `vy`, with the right gradients; the initial design meets both with equality. -/
theorem C136_pair (hm : 0 < m) (vf vy : ℝ) (hvf : 0 < vf) (hvy : 0 < vy) (rho : Fin m × Fin 2 → ℝ) :
    ((pairHandle vf vy rho).1 0 ≤ 0 ↔ ∑ k, rho (k, 0) ≤ m * vf) ∧ ((pairHandle vf vy rho).1 1 ≤ 0 ↔ ∑ k, rho (k, 1) ≤ m * vy) ∧
    (∀ k c, (pairHandle vf vy rho).2 0 (k, c) = (if c = 0 then 1 / (m * vf) else 0) ∧ (pairHandle vf vy rho).2 1 (k, c) = (if c = 1 then 1 / (m * vy) else 0)) ∧
    ∀ i, (pairHandle (m := m) vf vy fun j => if j.2 = 0 then vf else vy).1 i = 0 := by
  have hm' : (0 : ℝ) < m := by exact_mod_cast hm
  have feas : ∀ (v S : ℝ), 0 < v → (S / m / v - 1 ≤ 0 ↔ S ≤ m * v) := fun v S hv => by rw [sub_nonpos, div_le_one hv, div_le_iff₀ hm', mul_comm v]
  have der : ∀ (v : ℝ) (c : Fin 2), HasFDerivAt (fun q : Fin m × Fin 2 → ℝ => (∑ k, q (k, c)) / m / v - 1) ((1 / (m * v)) • ∑ k : Fin m, (ContinuousLinearMap.proj (k, c) : (Fin m × Fin 2 → ℝ) →L[ℝ] ℝ)) rho := by
    intro v c
    have h2 := ((HasFDerivAt.fun_sum (u := (univ : Finset (Fin m))) fun k _ => proj_hasFDerivAt (k, c) rho).const_smul (1 / (m * v))).sub_const 1
    refine h2.congr_of_eventuallyEq (Filter.Eventually.of_forall fun q => ?_)
    simp only [Pi.smul_apply, smul_eq_mul]
    rw [div_div, one_div, inv_mul_eq_div]
  refine ⟨feas vf _ hvf, feas vy _ hvy, fun k c => ⟨?_, ?_⟩, ?_⟩
  · show fderiv ℝ (fun q : Fin m × Fin 2 → ℝ => (∑ k, q (k, 0)) / m / vf - 1) rho (Pi.single (k, c) 1) = _
    rw [(der vf 0).fderiv]
    by_cases hc : c = 0
    · subst hc
      simp [_root_.sum_apply, Pi.single_apply]
    · have hc' : ¬ (0 : Fin 2) = c := fun h => hc h.symm
      simp [_root_.sum_apply, Pi.single_apply, hc, hc']
  · show fderiv ℝ (fun q : Fin m × Fin 2 → ℝ => (∑ k, q (k, 1)) / m / vy - 1) rho (Pi.single (k, c) 1) = _
    rw [(der vy 1).fderiv]
    by_cases hc : c = 1
    · subst hc
      simp [_root_.sum_apply, Pi.single_apply]
    · have hc' : ¬ (1 : Fin 2) = c := fun h => hc h.symm
      simp [_root_.sum_apply, Pi.single_apply, hc, hc']
  · intro i
    fin_cases i
    · show (∑ k : Fin m, (if (0 : Fin 2) = 0 then vf else vy)) / m / vf - 1 = 0
      simp only [if_true, sum_const, card_univ, Fintype.card_fin, nsmul_eq_mul]
      field_simp
      simp
    · show (∑ k : Fin m, (if (1 : Fin 2) = 0 then vf else vy)) / m / vy - 1 = 0
      simp only [show ¬ (1 : Fin 2) = 0 by decide, if_false, sum_const, card_univ, Fintype.card_fin, nsmul_eq_mul]
      field_simp
      simp

/-- A cell full of soft material has a fifth of the stiffness for two fifths of the weight. -/
example : multiModulus 70 70e3 3 1 0 - 70 = 14e3 ∧ (70e3 : ℝ) * (1 * (0 * 1 + (1 - 0) * 0.4)) = 28e3 := by norm_num [multiModulus]

end Verif.TopProg
