import Verif.Fem.EigenOptProps

/-!
# C133: signs, orthogonality, the smooth minimum and the constraint function
-/
namespace Verif.Fem
open Finset Filter Topology Verif.Pencil

variable {nn nq nf nfq m : ℕ}

section
variable {F : Fem nn nq nf nfq 2 2} (hF : FreeBody F)

theorem ext_hasFDerivAt (p : Fin m → ℝ) (k : ℕ) : HasFDerivAt (fun q : Fin m → ℝ => ext q k) (if h : k < m then (ContinuousLinearMap.proj ⟨k, h⟩ : (Fin m → ℝ) →L[ℝ] ℝ) else 0) p := by
  unfold ext
  by_cases h : k < m
  · simp only [dif_pos h]
    exact (ContinuousLinearMap.proj (R := ℝ) (φ := fun _ : Fin m => ℝ) ⟨k, h⟩).hasFDerivAt
  · simp only [dif_neg h]
    exact hasFDerivAt_const 0 p

theorem weighted_gradient (cells : List (Fin nn → ℕ)) (hm : cells.length = m) (W : (Fin nn → ℕ) → ℝ) (f : ℝ → ℝ) (f' : ℝ → ℝ) (hf : ∀ x, HasDerivAt f (f' x) x) (p : Fin m → ℝ) (j : Fin m) :
    fderiv ℝ (fun q : Fin m → ℝ => (cells.zipIdx.map fun c => f (ext q c.2) * W c.1).sum) p (Pi.single j 1) = f' (p j) * W (cells[(j : ℕ)]'(by omega)) := by
  have h1 := list_hasFDerivAt cells.zipIdx (fun c (q : Fin m → ℝ) => f (ext q c.2) * W c.1) _ p fun c _ => ((hf (ext p c.2)).comp_hasFDerivAt p (ext_hasFDerivAt p c.2)).mul_const (W c.1)
  rw [h1.fderiv, list_clm_apply]
  have hj : (j : ℕ) < cells.length := by omega
  have h2 := zipIdx_single cells (fun c => f' (p j) * W c) 0 j hj
  rw [← h2]
  congr 1
  refine List.map_congr_left fun c hc => ?_
  have hlt : c.2 < m := by
    have := (List.mem_zipIdx hc).2.1
    omega
  simp only [dif_pos hlt, zero_add, _root_.smul_apply, smul_eq_mul, ContinuousLinearMap.proj_apply, Pi.single_apply]
  by_cases e : c.2 = j
  · have e' : (⟨c.2, hlt⟩ : Fin m) = j := Fin.ext e
    rw [if_pos e, if_pos e']
    have : ext p c.2 = p j := by unfold ext; rw [dif_pos hlt, e']
    rw [this]
    ring
  · have e' : ¬ (⟨c.2, hlt⟩ : Fin m) = j := fun h => e (congrArg Fin.val h)
    rw [if_neg e, if_neg e']
    ring

include hF in
/-- **C133 (the gradients of the forms).** With respect to the density of cell `j`: `5 (Emax − Emin) ρⱼ⁴` times the work of the unit modulus in that cell, and the mass density times the integral of the square. -/
theorem C133_gradient (p : Fin m → ℝ) (hm : F.cells.length = m) (v : ℕ → ℝ) (j : Fin m) :
    gradVAv (stiffFem F) p v j = 5 * (70e9 - 70e6) * p j ^ 4 * cellWork F (planeStress 1 0.3) (fieldOf v) (fieldOf v) (F.cells[(j : ℕ)]'(by omega)) ∧
      gradVAv (massFem F) p v j = 2700 * cellMass F (fieldOf v) (fieldOf v) (F.cells[(j : ℕ)]'(by omega)) := by
  constructor
  · have e : (fun q : Fin m → ℝ => okVal (vAv (stiffFem F q) v)) = fun q => (F.cells.zipIdx.map fun c => simpModulus (1e-3 * 70e9) 70e9 5 (ext q c.2) * cellWork F (planeStress 1 0.3) (fieldOf v) (fieldOf v) c.1).sum := by
      funext q
      rw [(C133_forms hF q hm v).1]
      rfl
    unfold gradVAv
    rw [e, weighted_gradient F.cells hm (cellWork F (planeStress 1 0.3) (fieldOf v) (fieldOf v)) (simpModulus (1e-3 * 70e9) 70e9 5) (fun x => (70e9 - 1e-3 * 70e9) * (5 * x ^ 4)) (fun x => by
      unfold simpModulus
      simpa using ((hasDerivAt_pow 5 x).const_mul ((70e9 : ℝ) - 1e-3 * 70e9)).const_add (1e-3 * 70e9))]
    norm_num
    left
    ring
  · have e : (fun q : Fin m → ℝ => okVal (vAv (massFem F q) v)) = fun q => (F.cells.zipIdx.map fun c => (fun x : ℝ => x * 2.7e3) (ext q c.2) * cellMass F (fieldOf v) (fieldOf v) c.1).sum := by
      funext q
      rw [(C133_forms hF q hm v).2]
      rfl
    unfold gradVAv
    rw [e, weighted_gradient F.cells hm (cellMass F (fieldOf v) (fieldOf v)) (fun x : ℝ => x * 2.7e3) (fun _ => 2.7e3) (fun x => by simpa using (hasDerivAt_id x).mul_const (2.7e3 : ℝ))]
    norm_num

theorem ext_nonneg (p : Fin m → ℝ) (hp : ∀ j, 0 ≤ p j) (k : ℕ) : 0 ≤ ext p k := by
  unfold ext
  split
  · exact hp _
  · exact le_refl _

theorem eigE_pos (p : Fin m → ℝ) (hp : ∀ j, 0 ≤ p j) (k : ℕ) : 0 < eigE p k := by
  unfold eigE simpModulus
  have := pow_nonneg (ext_nonneg p hp k) 5
  have : 0 ≤ ((70e9 : ℝ) - 1e-3 * 70e9) * ext p k ^ 5 := mul_nonneg (by norm_num) this
  have : (0 : ℝ) < 1e-3 * 70e9 := by norm_num
  linarith

theorem cellMass_nonneg (c : Fin nn → ℕ) (hvol : ∀ q, 0 < F.JxW c q) (u : ℕ → Fin 2 → ℝ) : 0 ≤ cellMass F u u c :=
  sum_nonneg fun q _ => mul_nonneg (sum_nonneg fun i _ => mul_self_nonneg _) (hvol q).le

theorem zip_mem_cells {c : (Fin nn → ℕ) × ℕ} (hc : c ∈ F.cells.zipIdx) : c.1 ∈ F.cells := by
  have := List.mem_zipIdx hc
  rw [this.2.2]
  exact List.getElem_mem _

include hF in
theorem eigB_nonneg (p : Fin m → ℝ) (hp : ∀ j, 0 ≤ p j) (u : ℕ → Fin 2 → ℝ) : 0 ≤ eigB F p u u := by
  unfold eigB totalMass
  refine List.sum_nonneg fun x hx => ?_
  obtain ⟨c, hc, rfl⟩ := List.mem_map.mp hx
  exact mul_nonneg (mul_nonneg (ext_nonneg p hp _) (by norm_num)) (cellMass_nonneg _ (hF.vol _ (zip_mem_cells hc)) u)

include hF in
/-- **C133 (signs).** For nonnegative densities both forms are nonnegative; every pair with nonzero kinetic product has the Rayleigh quotient as its eigenvalue, which is therefore not negative. -/
theorem C133_nonneg (p : Fin m → ℝ) (hm : F.cells.length = m) (hp : ∀ j, 0 ≤ p j) (lam : ℝ) (x : ℕ → ℝ) (h : IsPair F p lam x) :
    ∃ vKv vMv, vAv (stiffFem F p) x = .ok vKv ∧ vAv (massFem F p) x = .ok vMv ∧ 0 ≤ vKv ∧ 0 ≤ vMv ∧ vKv = lam * vMv ∧ (vMv ≠ 0 → lam = vKv / vMv ∧ 0 ≤ lam) := by
  obtain ⟨e1, e2⟩ := C133_forms hF p hm x
  have hA : 0 ≤ eigA F p (fieldOf x) (fieldOf x) := totalWork_nonneg F planeLaw hF.vol _ (fun k => (eigE_pos p hp k).le) _
  have hB := eigB_nonneg hF p hp (fieldOf x)
  have he := (C133_weak hF p hm lam x).mp h (fieldOf x)
  refine ⟨_, _, e1, e2, hA, hB, he, fun hn => ?_⟩
  have hl : lam = eigA F p (fieldOf x) (fieldOf x) / eigB F p (fieldOf x) (fieldOf x) := by rw [he]; field_simp
  exact ⟨hl, hl ▸ div_nonneg hA hB⟩

include hF in
/-- **C133 (orthogonality).** Pairs with different eigenvalues are orthogonal for both products. -/
theorem C133_orthogonal (p : Fin m → ℝ) (hm : F.cells.length = m) (lam mu : ℝ) (x y : ℕ → ℝ) (hx : IsPair F p lam x) (hy : IsPair F p mu y) (hne : lam ≠ mu) :
    eigB F p (fieldOf x) (fieldOf y) = 0 ∧ eigA F p (fieldOf x) (fieldOf y) = 0 := by
  have h1 := (C133_weak hF p hm lam x).mp hx (fieldOf y)
  have h2 := (C133_weak hF p hm mu y).mp hy (fieldOf x)
  rw [eigA_symm, eigB_symm] at h2
  have h3 : (lam - mu) * eigB F p (fieldOf x) (fieldOf y) = 0 := by linear_combination h2 - h1
  have h4 := (mul_eq_zero.mp h3).resolve_left (sub_ne_zero.mpr hne)
  exact ⟨h4, by rw [h1, h4, mul_zero]⟩

end

/-! ## The smooth minimum -/

theorem expSum_pos (v : Fin 3 → ℝ) : 0 < ∑ i, Real.exp (-(10 * v i)) := sum_pos (fun i _ => Real.exp_pos _) ⟨0, mem_univ _⟩

/-- **C133 (smooth minimum).** The smooth minimum lies below every eigenvalue and at most `log 3 / 10` below the smallest. -/
theorem C133_smoothMin (v : Fin 3 → ℝ) : (∀ i, smoothMin v < v i) ∧ ∃ i, v i - Real.log 3 / 10 ≤ smoothMin v := by
  have hpos := expSum_pos v
  constructor
  · intro i
    have h1 : Real.exp (-(10 * v i)) < ∑ i, Real.exp (-(10 * v i)) := by
      rw [← add_sum_erase _ _ (mem_univ i)]
      have : 0 < ∑ k ∈ univ.erase i, Real.exp (-(10 * v k)) := by
        refine sum_pos (fun k _ => Real.exp_pos _) ?_
        rw [← card_pos, card_erase_of_mem (mem_univ i), card_univ, Fintype.card_fin]
        norm_num
      linarith
    have h2 := Real.log_lt_log (Real.exp_pos _) h1
    rw [Real.log_exp] at h2
    unfold smoothMin
    linarith
  · obtain ⟨i, -, hi⟩ := exists_min_image univ v ⟨0, mem_univ _⟩
    refine ⟨i, ?_⟩
    have h1 : ∑ k, Real.exp (-(10 * v k)) ≤ 3 * Real.exp (-(10 * v i)) := by
      have : ∀ k ∈ univ, Real.exp (-(10 * v k)) ≤ Real.exp (-(10 * v i)) := fun k hk => Real.exp_le_exp.mpr (by have := hi k hk; linarith)
      simpa using sum_le_card_nsmul univ _ _ this
    have h2 := Real.log_le_log hpos h1
    rw [Real.log_mul (by norm_num) (Real.exp_pos _).ne', Real.log_exp] at h2
    unfold smoothMin
    linarith

/-- **C133 (the constraint).** `c2 ≤ 0` guarantees that all three eigenvalues exceed `min_freq`; it holds as soon as they exceed it by `log 3 / 10`. -/
theorem C133_constraint (v : Fin 3 → ℝ) : (eigenCstr v ≤ 0 → ∀ i, 1e6 < v i) ∧ ((∀ i, 1e6 + Real.log 3 / 10 ≤ v i) → eigenCstr v ≤ 0) := by
  obtain ⟨h1, i, h2⟩ := C133_smoothMin v
  unfold eigenCstr
  constructor
  · intro h k
    have h3 : (1 : ℝ) ≤ smoothMin v / 1e6 := by linarith
    rw [le_div_iff₀ (by norm_num)] at h3
    have := h1 k
    linarith
  · intro h
    have h3 : (1 : ℝ) ≤ smoothMin v / 1e6 := by
      rw [le_div_iff₀ (by norm_num)]
      have := h i
      linarith
    linarith

theorem eigenCstr_hasFDerivAt (v : Fin 3 → ℝ) : HasFDerivAt eigenCstr (∑ i, (-(1 / 1e6) * (Real.exp (-(10 * v i)) / ∑ k, Real.exp (-(10 * v k)))) • (ContinuousLinearMap.proj i : (Fin 3 → ℝ) →L[ℝ] ℝ)) v := by
  have h1 : ∀ i : Fin 3, HasFDerivAt (fun w : Fin 3 → ℝ => Real.exp (-(10 * w i))) (Real.exp (-(10 * v i)) • (-((10 : ℝ) • (ContinuousLinearMap.proj i : (Fin 3 → ℝ) →L[ℝ] ℝ)))) v := by
    intro i
    have hp : HasFDerivAt (fun w : Fin 3 → ℝ => w i) (ContinuousLinearMap.proj i : (Fin 3 → ℝ) →L[ℝ] ℝ) v := (ContinuousLinearMap.proj (R := ℝ) (φ := fun _ : Fin 3 => ℝ) i).hasFDerivAt
    exact (hp.const_mul 10).fun_neg.exp
  have h2 := HasFDerivAt.fun_sum (u := univ) fun i _ => h1 i
  have h3 := ((h2.log (expSum_pos v).ne').const_mul (-(1 / 10 : ℝ))).mul_const ((1 : ℝ) / 1e6)
  have h4 := h3.const_sub (1 : ℝ)
  have e : eigenCstr = fun w => 1 - -(1 / 10 : ℝ) * Real.log (∑ i, Real.exp (-(10 * w i))) * (1 / 1e6) := by
    funext w
    unfold eigenCstr smoothMin
    ring
  rw [e]
  refine h4.congr_fderiv ?_
  ext w
  simp only [_root_.neg_apply, _root_.smul_apply, _root_.sum_apply, smul_eq_mul, ContinuousLinearMap.proj_apply, mul_neg, sum_neg_distrib, ← mul_sum]
  rw [neg_neg, mul_sum, mul_sum, mul_sum]
  refine sum_congr rfl fun i _ => ?_
  have := (expSum_pos v).ne'
  field_simp

/-- **C133 (weights).** The derivative of `c2` with respect to the eigenvalues: minus the softmax weights over `min_freq`; the weights are positive and sum to one. -/
theorem C133_weights (v : Fin 3 → ℝ) : ∃ w : Fin 3 → ℝ, (∀ j, fderiv ℝ eigenCstr v (Pi.single j 1) = -(w j) / 1e6) ∧ (∀ j, 0 < w j) ∧ ∑ j, w j = 1 ∧ ∀ i j, v i ≤ v j → w j ≤ w i := by
  have hpos := expSum_pos v
  refine ⟨fun j => Real.exp (-(10 * v j)) / ∑ k, Real.exp (-(10 * v k)), fun j => ?_, fun j => div_pos (Real.exp_pos _) hpos, ?_, fun i j h => ?_⟩
  · rw [(eigenCstr_hasFDerivAt v).fderiv]
    simp only [_root_.sum_apply, _root_.smul_apply, ContinuousLinearMap.proj_apply, smul_eq_mul, Pi.single_apply, mul_ite, mul_one, mul_zero, sum_ite_eq', mem_univ, if_true]
    ring
  · rw [← sum_div]
    exact div_self hpos.ne'
  · exact div_le_div_of_nonneg_right (Real.exp_le_exp.mpr (by linarith)) hpos.le

/-! ## The constraint function -/

section
variable {F : Fem nn nq nf nfq 2 2} (hF : FreeBody F)

include hF in
/-- **C133 (errors).** With one density per cell the analysis fails exactly when the solver has found fewer than ten pairs. -/
theorem C133_errors (rho : Fin m → ℝ) (vf : ℝ) (eps : List (ℝ × (ℕ → ℝ))) (hm : F.cells.length = m) :
    (eps = [] → eigenConstraints F vf rho eps = .error .emptyStack) ∧ (eps ≠ [] → eps.length < 10 → eigenConstraints F vf rho eps = .error .noPair) ∧
      (10 ≤ eps.length → ∃ c g, eigenConstraints F vf rho eps = .ok (c, g)) := by
  obtain ⟨nwK, nwM, hK, hM, -, -⟩ := assembled hF rho hm
  unfold eigenConstraints eigenAnalysis
  rw [hK, hM]
  refine ⟨fun h => ?_, fun h h' => ?_, fun h => ?_⟩
  · simp only [if_pos h]
  · simp only [if_neg h, if_pos h']
  · have h0 : eps ≠ [] := by rintro rfl; simp at h
    have hd : ∀ l v, ∃ G, dEigenVal F rho l v = .ok G := by
      intro l v
      obtain ⟨e1, e2⟩ := C133_forms hF rho hm v
      exact ⟨_, by unfold dEigenVal; rw [e1, e2]⟩
    simp only [if_neg h0, if_neg (by omega : ¬ eps.length < 10)]
    obtain ⟨g0, h0⟩ := hd (eps.getD (3 + (0 : Fin 3)) (0, 0)).1 (eps.getD (3 + (0 : Fin 3)) (0, 0)).2
    obtain ⟨g1, h1⟩ := hd (eps.getD (3 + (1 : Fin 3)) (0, 0)).1 (eps.getD (3 + (1 : Fin 3)) (0, 0)).2
    obtain ⟨g2, h2⟩ := hd (eps.getD (3 + (2 : Fin 3)) (0, 0)).1 (eps.getD (3 + (2 : Fin 3)) (0, 0)).2
    rw [h0, h1, h2]
    exact ⟨_, _, rfl⟩

/-- **C133 (errors, rows).** With a number of densities different from the number of cells the assembly fails. -/
theorem C133_rows (rho : Fin m → ℝ) (vf : ℝ) (eps : List (ℝ × (ℕ → ℝ))) (hm : F.cells.length ≠ m) : ∃ e, eigenConstraints F vf rho eps = .error (.fem e) := by
  cases h : ((stiffFem F rho).toProb []).newton 0 with
  | error e =>
    refine ⟨e, ?_⟩
    unfold eigenConstraints eigenAnalysis
    rw [h]
  | ok nw =>
    exfalso
    cases hn : (stiffFem F rho).newtonUpdate (fun n i => (0 : ℕ → ℝ) (2 * n + (i : Fin 2))) with
    | error e =>
      simp only [Fem.toProb] at h
      rw [hn] at h
      cases h
    | ok nu =>
      have h1 := ((newtonUpdate_ok_iff _ _ nu.1 nu.2.1 nu.2.2.1 nu.2.2.2).mp hn).1
      have h2 : m = F.cells.length := ((computeResidual_ok_iff _ _ _).mp h1).1.lap
      exact hm h2.symm

include hF in
/-- **C133 (the handle).** If numbers 3, 4 and 5 of the list are simple pairs with nonzero kinetic product, the function returns the volume constraint of C104 with its gradient, and the eigenvalue constraint with the gradient of
the constraint as a function of the densities along the (unique) branches. -/
theorem C133_handle (rho : Fin m → ℝ) (vf : ℝ) (eps : List (ℝ × (ℕ → ℝ))) (hm : F.cells.length = m) (h10 : 10 ≤ eps.length) (lam : Fin 3 → ℝ) (x : Fin 3 → Fin (dofs F) → ℝ)
    (heps : ∀ i : Fin 3, eps.getD (3 + i) (0, 0) = (lam i, ext (x i))) (hpair : ∀ i, IsPair F rho (lam i) (ext (x i))) (hn : ∀ i, eigB F rho (fieldOf (ext (x i))) (fieldOf (ext (x i))) ≠ 0)
    (hs : ∀ i (y : Fin (dofs F) → ℝ), IsPair F rho (lam i) (ext y) → ∃ a : ℝ, y = a • x i) :
    ∃ (X : Fin 3 → (Fin m → ℝ) → Fin (dofs F) → ℝ) (L : Fin 3 → (Fin m → ℝ) → ℝ), (∀ i, X i rho = x i ∧ L i rho = lam i ∧ ContinuousAt (X i) rho ∧ ∀ᶠ q in 𝓝 rho, IsPair F q (L i q) (ext (X i q))) ∧
      ∃ c g, eigenConstraints F vf rho eps = .ok (c, g) ∧ c 0 = (consHandle vf rho).1 0 ∧ g 0 = (consHandle vf rho).2 0 ∧ c 1 = eigenCstr lam ∧
        ∀ k, g 1 k = fderiv ℝ (fun q => eigenCstr fun i => L i q) rho (Pi.single k 1) := by
  choose X L G h1 h2 h3 h4 h5 h6 h7 h8 using fun i => C133_simple hF hm rho (lam i) (x i) (hpair i) (hn i) (hs i)
  refine ⟨X, L, fun i => ⟨h1 i, h2 i, (h3 i).continuousAt, h5 i⟩, ![(consHandle vf rho).1 0, eigenCstr lam], ![(consHandle vf rho).2 0, fun k => ∑ j, fderiv ℝ eigenCstr lam (Pi.single j 1) * G j k], ?_, rfl, rfl, rfl, fun k => ?_⟩
  · obtain ⟨nwK, nwM, hK, hM, -, -⟩ := assembled hF rho hm
    unfold eigenConstraints eigenAnalysis
    rw [hK, hM]
    have h0 : eps ≠ [] := by rintro rfl; simp at h10
    simp only [if_neg h0, if_neg (by omega : ¬ eps.length < 10), heps, h7]
    congr 3
  · have hL : HasFDerivAt (fun q i => L i q) (ContinuousLinearMap.pi fun i => fderiv ℝ (L i) rho) rho := hasFDerivAt_pi.mpr fun i => (h4 i).hasFDerivAt
    have hc : HasFDerivAt eigenCstr (fderiv ℝ eigenCstr lam) (fun i => L i rho) := by
      rw [funext h2]
      exact (eigenCstr_hasFDerivAt lam).differentiableAt.hasFDerivAt
    have h := hc.comp rho hL
    rw [show (fun q => eigenCstr fun i => L i q) = eigenCstr ∘ fun q i => L i q from rfl, h.fderiv]
    show ∑ j, fderiv ℝ eigenCstr lam (Pi.single j 1) * G j k = fderiv ℝ eigenCstr lam (fun i => fderiv ℝ (L i) rho (Pi.single k 1))
    have e : (fun i => fderiv ℝ (L i) rho (Pi.single k 1)) = ∑ i, G i k • (Pi.single i 1 : Fin 3 → ℝ) := by
      rw [funext fun i => h8 i k]
      exact pi_eq_sum_univ' _
    rw [e]
    simp only [map_sum, map_smul, smul_eq_mul]
    exact sum_congr rfl fun j _ => mul_comm _ _

end

end Verif.Fem
