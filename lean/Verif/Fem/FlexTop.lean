import Verif.Fem.TopOptMesh
import Verif.Fem.Mma

/-!
# C160: topology optimisation of a part of the body (applications/fem/top_opt/freecad.py)

Only the cells with the centroid in a design box carry a density; all other cells keep full material. The volume fraction of the constraint is taken from the volume of a human design.
-/
namespace Verif.Fem.FlexTop
open Verif.Fem Finset

variable {nn nq nf nfq dim m : ℕ}

/-! ## Model -/

/-- `flex_location` (freecad.py 41-46) for the corners of the box; the file has `[-15, 10, 5]` and `[20, 30, 25]`. -/
noncomputable def flexLocation (lower upper : Fin dim → ℝ) (point : Fin dim → ℝ) : Bool := open Classical in decide (∀ d, lower d < point d) && decide (∀ d, point d < upper d)

/-- `flex_inds = np.argwhere(jax.vmap(flex_location)(problem.cell_centroids)).reshape(-1)` (freecad.py 87, 113; the centroids are from fem_model.py 10): the accepted cells in rising order. -/
noncomputable def flexInds (F : Fem nn nq nf nfq dim dim) (flag : (Fin dim → ℝ) → Bool) : List ℕ :=
  (F.cells.zipIdx.filter fun c => flag (Mma.centroid F.points c.1)).map Prod.snd

/-- The problem of freecad.py seen by `ad_wrapper` (freecad.py 112-114): `set_params` of fem_model.py 102-107 with any `flex_inds`. -/
noncomputable def flexProb [NeZero dim] (F : Fem nn nq nf nfq dim dim) (stress : (Fin dim → Fin dim → ℝ) → (ℕ → ℝ) → Fin dim → Fin dim → ℝ) (groups : List (Group ℝ)) (flex : List ℕ) (m : ℕ) : ParamProb m FemErr where
  prob q := (topFem F stress flex (rowParams q)).toProb groups
  res q x d := match (topFem F stress flex (rowParams q)).computeResidual (fun n i => x (dim * n + i)) with
    | .ok R => R (d / dim) (Fin.ofNat dim d)
    | .error _ => 0

/-- The sum of row `k` of `problem.JxW` (freecad.py 88-89, 146). -/
noncomputable def rowVolume (F : Fem nn nq nf nfq dim dim) (k : ℕ) : ℝ := match F.cells[k]? with
  | some c => ∑ q, F.JxW c q
  | none => 0

/-- `np.sum(problem.JxW[flex_inds])` (freecad.py 89, 146). -/
noncomputable def boxVolume (F : Fem nn nq nf nfq dim dim) (flex : List ℕ) : ℝ := (flex.map (rowVolume F)).sum

/-! ## Specification -/

/-- Specification: the volume of cell `k`, the sum of the quadrature weights times the Jacobian determinants. -/
noncomputable def cellVol (F : Fem nn nq nf nfq dim dim) (k : ℕ) : ℝ := (F.cells.map fun c => ∑ q, F.JxW c q).getD k 0

/-- Specification: the material in the design box: the densities times the volumes of their cells. -/
noncomputable def material (F : Fem nn nq nf nfq dim dim) (flex : List ℕ) (rho : Fin m → ℝ) : ℝ := ∑ j : Fin m, rho j * cellVol F (flex.getD j 0)

/-! ## The design box -/

theorem zipIdx_filter {α : Type*} (l : List α) (f : α → Bool) : ∀ s, ((l.zipIdx s).filter fun c => f c.1).map Prod.snd = ((l.zipIdx s).map Prod.snd).filter fun k => (l[k - s]?).elim false f := by
  induction l with
  | nil => intro s; rfl
  | cons a l ih =>
    intro s
    have h : (((l.zipIdx (s + 1)).map Prod.snd).filter fun k => ((a :: l)[k - s]?).elim false f) = ((l.zipIdx (s + 1)).map Prod.snd).filter fun k => (l[k - (s + 1)]?).elim false f := by
      refine List.filter_congr fun k hk => ?_
      obtain ⟨c, hc, rfl⟩ := List.mem_map.mp hk
      have h1 := List.le_snd_of_mem_zipIdx hc
      rw [show c.2 - s = (c.2 - (s + 1)) + 1 by omega, List.getElem?_cons_succ]
    rw [List.zipIdx_cons, List.map_cons, List.filter_cons, List.filter_cons, h, ← ih (s + 1)]
    by_cases hf : f a = true
    · simp [hf]
    · simp [hf]

theorem flexInds_rising (F : Fem nn nq nf nfq dim dim) (flag : (Fin dim → ℝ) → Bool) : (flexInds F flag).Pairwise (· < ·) := by
  unfold flexInds
  rw [zipIdx_filter F.cells (fun c => flag (Mma.centroid F.points c)) 0, List.zipIdx_map_snd]
  exact (List.pairwise_lt_range' ..).filter _

theorem flexInds_sorted (F : Fem nn nq nf nfq dim dim) (flag : (Fin dim → ℝ) → Bool) : (∀ k ∈ flexInds F flag, k < F.cells.length) ∧ (flexInds F flag).Nodup := by
  refine ⟨fun k hk => ?_, (flexInds_rising F flag).imp fun h => h.ne⟩
  obtain ⟨c, hc, rfl⟩ := List.mem_map.mp hk
  have h := List.mem_zipIdx_iff_getElem?.mp (List.mem_filter.mp hc).1
  exact (List.getElem?_eq_some_iff.mp h).1

/-- **C160 (design box).** The design cells are exactly the cells with the centroid strictly inside the box; they are listed once each, in rising order. -/
theorem C160_box (F : Fem nn nq nf nfq dim dim) (lower upper : Fin dim → ℝ) :
    (∀ k, k ∈ flexInds F (flexLocation lower upper) ↔ ∃ h : k < F.cells.length, ∀ d, lower d < Mma.centroid F.points F.cells[k] d ∧ Mma.centroid F.points F.cells[k] d < upper d) ∧
    (flexInds F (flexLocation lower upper)).Pairwise (· < ·) ∧ (flexInds F (flexLocation lower upper)).Nodup := by
  have hs := flexInds_rising F (flexLocation lower upper)
  refine ⟨fun k => ?_, hs, hs.imp fun h => h.ne⟩
  simp only [flexInds, List.mem_map, List.mem_filter, flexLocation, Bool.and_eq_true, decide_eq_true_eq]
  constructor
  · rintro ⟨c, ⟨hc, h1, h2⟩, rfl⟩
    have h3 := List.mem_zipIdx_iff_getElem?.mp hc
    obtain ⟨h4, h5⟩ := List.getElem?_eq_some_iff.mp h3
    refine ⟨h4, fun d => ?_⟩
    rw [h5]
    exact ⟨h1 d, h2 d⟩
  · rintro ⟨h, hd⟩
    exact ⟨(F.cells[k], k), ⟨List.mem_zipIdx_iff_getElem?.mpr (List.getElem?_eq_getElem h), fun d => (hd d).1, fun d => (hd d).2⟩, rfl⟩

/-! ## The compliance and its gradient -/

section
variable [NeZero dim] (F : Fem nn nq nf nfq dim dim) {C : (Fin dim → Fin dim → ℝ) → Fin dim → Fin dim → ℝ} {stress : (Fin dim → Fin dim → ℝ) → (ℕ → ℝ) → Fin dim → Fin dim → ℝ}
  {Emin Emax : ℝ} {penal : ℕ} (hlaw : DensityLaw stress (fun theta => simpModulus Emin Emax penal (theta 0)) C Emin Emax)
  {loc : Loc dim} {t : (Fin dim → ℝ) → Fin dim → ℝ} (hF : Loaded F loc t) (flex : List ℕ) (hnd : flex.Nodup) (hlen : flex.length = m)

include hnd hlen in
theorem full_eq (q : Fin m → ℝ) (k : ℕ) : fullParams flex (rowParams q) k = fun _ => if h : flex.idxOf k < m then q ⟨flex.idxOf k, h⟩ else 1 := by
  by_cases hk : k ∈ flex
  · have h1 : flex.idxOf k < flex.length := List.idxOf_lt_length_iff.mpr hk
    have h2 := (C102_params flex hnd (rowParams q)).1 (flex.idxOf k) h1
    rw [List.getElem_idxOf] at h2
    rw [h2]
    have h3 : flex.idxOf k < m := hlen ▸ h1
    funext _
    simp [rowParams, ext, h3]
  · rw [(C102_params flex hnd (rowParams q)).2.1 k hk]
    have h1 : ¬ flex.idxOf k < m := by rw [← hlen]; exact fun h => hk (List.idxOf_lt_length_iff.mp h)
    funext _
    rw [dif_neg h1]

include hlaw hnd hlen in
omit [NeZero dim] in
theorem flexFem_eq (q : Fin m → ℝ) : topFem F stress flex (rowParams q) = scaledFem F C fun k => simpE Emin Emax penal q (flex.idxOf k) := by
  rw [topFem_eq F stress _ C hlaw.eq]
  congr 1
  funext k
  rw [full_eq flex hnd hlen]
  unfold simpE
  split_ifs <;> rfl

include hlaw hnd hlen in
theorem flexProb_eq (groups : List (Group ℝ)) : flexProb F stress groups flex m = densityProb F C groups fun q k => simpE Emin Emax penal q (flex.idxOf k) := by
  unfold flexProb densityProb
  simp only [flexFem_eq F hlaw flex hnd hlen]
  rfl

include hlaw hF hnd in
/-- **C160 (gradient).** Densities `p j ≥ 0` in the design cells `flex`, full material elsewhere, a clamped body: the forward solve returns the discrete solution, reverse mode returns the derivative of the
compliance, and entry `j` is `-penal·(Emax - Emin)·p_j^(penal-1)` times the elastic work (for modulus one) of the solution in cell `flex[j]`, never positive. -/
theorem C160_gradient (hE : Emin ≤ Emax) (groups : List (Group ℝ)) (hcl : Clamped F groups) (hlen : flex.length = m) (hin : ∀ k ∈ flex, k < F.cells.length) (p : Fin m → ℝ) (hp : ∀ j, 0 ≤ p j)
    (lin : ℕ → LinCall ℝ → ℕ → ℝ) (hlin : ExactLin (F.numTotal * dim) lin) (usePetsc : Bool) (fuel : ℕ) :
    ∃ (u : ℕ → ℝ) (g : Fin m → ℝ), (flexProb F stress groups flex m).fwdPred lin true usePetsc fuel p = .ok u ∧
      (topFem F stress flex (rowParams p)).Solves (F.toProb groups).prescriptions (fun n i => u (dim * n + i)) ∧
      (flexProb F stress groups flex m).revGrad lin true usePetsc fuel (complianceObj F t) p = .ok g ∧
      HasFDerivAt ((flexProb F stress groups flex m).objective lin true usePetsc fuel (complianceObj F t)) (∑ j, g j • (ContinuousLinearMap.proj j : (Fin m → ℝ) →L[ℝ] ℝ)) p ∧
      ∀ j : Fin m, g j = -(penal * (Emax - Emin) * p j ^ (penal - 1) * cellWork F C (fun n i => u (dim * n + i)) (fun n i => u (dim * n + i))
        (F.cells[flex[j]'(by rw [hlen]; exact j.isLt)]'(hin _ (List.getElem_mem _)))) ∧ g j ≤ 0 := by
  set e : (Fin m → ℝ) → ℕ → ℝ := fun q k => simpE Emin Emax penal q (flex.idxOf k) with he
  have hpre : ∀ e : ℕ → ℝ, ((scaledFem F C e).toProb groups).prescriptions = (F.toProb groups).prescriptions := scaled_pres F groups
  have hdet : (scaledFem F C (e p)).Determined ((scaledFem F C fun _ => 1).toProb groups).prescriptions := by
    rw [hpre]
    exact C103_determined F hlaw.law hF _ (fun k => simpE_pos hlaw p hp hE _) hcl.rigid _ hcl.held
  obtain ⟨u, g, h1, h2, h3, h4, h5⟩ := C104_gradient F hlaw.law hF groups (wf_congr _ _ (by rw [toProb_vec, toProb_vec]) (by rw [toProb_groups, toProb_groups]) hcl.wf)
    (by rw [hpre]; exact hcl.zero) e p (fun k => simpE_smooth p _) hdet lin hlin usePetsc fuel
  rw [flexProb_eq F hlaw flex hnd hlen, flexFem_eq F hlaw flex hnd hlen]
  rw [hpre] at h2
  refine ⟨u, g, h1, h2, h3, h4, fun j => ?_⟩
  have hj : (j : ℕ) < flex.length := by rw [hlen]; exact j.isLt
  have hc : flex[(j : ℕ)] < F.cells.length := hin _ (List.getElem_mem _)
  have h6 : g j = -(penal * (Emax - Emin) * p j ^ (penal - 1) * cellWork F C (fun n i => u (dim * n + i)) (fun n i => u (dim * n + i)) F.cells[flex[(j : ℕ)]]) := by
    rw [h5 j]
    congr 1
    have h7 := zipIdx_single F.cells (fun c => penal * (Emax - Emin) * p j ^ (penal - 1) * cellWork F C (fun n i => u (dim * n + i)) (fun n i => u (dim * n + i)) c) 0 flex[(j : ℕ)] hc
    rw [zero_add] at h7
    rw [← h7]
    congr 1
    refine List.map_congr_left fun c _ => ?_
    rw [he]
    simp only [simpE_fderiv]
    have h8 : flex.idxOf c.2 = j ↔ c.2 = flex[(j : ℕ)] := by
      constructor
      · intro h
        have h9 : flex.idxOf c.2 < flex.length := by rw [h]; exact hj
        have h10 := List.getElem_idxOf h9
        simp only [h] at h10
        exact h10.symm
      · intro h
        rw [h]
        exact hnd.idxOf_getElem _ hj
    by_cases h9 : c.2 = flex[(j : ℕ)]
    · rw [if_pos (h8.mpr h9), if_pos h9]
    · rw [if_neg fun h => h9 (h8.mp h), if_neg h9, zero_mul]
  refine ⟨h6, ?_⟩
  rw [h6, neg_nonpos]
  exact mul_nonneg (mul_nonneg (mul_nonneg (Nat.cast_nonneg _) (by linarith)) (pow_nonneg (hp j) _)) (cellWork_nonneg F hlaw.law (hF.vol _ (List.getElem_mem hc)) _)

include hlaw hF hnd in
/-- **C160 (bounds).** More density in the design cells never increases the compliance, so it lies between the value for the full box and the value for the empty box. -/
theorem C160_bounds (hE : Emin ≤ Emax) (groups : List (Group ℝ)) (hcl : Clamped F groups) (hlen : flex.length = m) (hin : ∀ k ∈ flex, k < F.cells.length) (p : Fin m → ℝ) (hp : ∀ j, 0 ≤ p j)
    (lin : ℕ → LinCall ℝ → ℕ → ℝ) (hlin : ExactLin (F.numTotal * dim) lin) (usePetsc : Bool) (fuel : ℕ) :
    let J := (flexProb F stress groups flex m).objective lin true usePetsc fuel (complianceObj F t)
    0 ≤ J p ∧ (∀ p' : Fin m → ℝ, (∀ j, p j ≤ p' j) → J p' ≤ J p) ∧ J p ≤ J (fun _ => 0) ∧ ((∀ j, p j ≤ 1) → J (fun _ => 1) ≤ J p) := by
  intro J
  have key : ∀ p p' : Fin m → ℝ, (∀ j, 0 ≤ p j) → (∀ j, p j ≤ p' j) → 0 ≤ J p ∧ J p' ≤ J p := by
    intro p p' hp hle
    have hp' : ∀ j, 0 ≤ p' j := fun j => (hp j).trans (hle j)
    obtain ⟨u, g, h1, h2, -⟩ := C160_gradient F hlaw hF flex hnd hE groups hcl hlen hin p hp lin hlin usePetsc fuel
    obtain ⟨u', g', h1', h2', -⟩ := C160_gradient F hlaw hF flex hnd hE groups hcl hlen hin p' hp' lin hlin usePetsc fuel
    rw [flexFem_eq F hlaw flex hnd hlen] at h2 h2'
    have h3 := C103_monotone F hlaw.law hF _ _ (fun k => (simpE_pos hlaw p hp hE _).le) (fun k => simpE_mono p p' hp hle hE _) _ hcl.zero _ _ h2 h2'
    have h4 := (C103_energy F hlaw.law hF _ (fun k => (simpE_pos hlaw p hp hE _).le) _ hcl.zero _ h2).2
    show 0 ≤ ParamProb.objective _ _ _ _ _ _ _ ∧ ParamProb.objective _ _ _ _ _ _ _ ≤ ParamProb.objective _ _ _ _ _ _ _
    unfold ParamProb.objective
    rw [h1, h1']
    show 0 ≤ complianceObj F t u ∧ complianceObj F t u' ≤ complianceObj F t u
    rw [complianceObj_eq F hF, complianceObj_eq F hF]
    exact ⟨h4, h3⟩
  exact ⟨(key p p hp fun _ => le_refl _).1, fun p' h => (key p p' hp h).2, (key (fun _ => 0) p (fun _ => le_refl _) hp).2, fun h => (key p (fun _ => 1) hp h).2⟩

include hlaw hnd in
omit [NeZero dim] in
/-- **C160 (frozen cells).** Whatever the densities, a cell outside `flex_inds` keeps the full modulus at all its quadrature points; with ones as densities (human_design, line 76, and line 167) so do all cells,
whichever cells are flexible. -/
theorem C160_frozen (hlen : flex.length = m) (q : Fin m → ℝ) :
    (∃ T, (topFem F stress flex (rowParams q)).tensorMap = some T ∧ ∀ k, k ∉ flex → ∀ (x : Fin nq) g, T k x g = Emax • C g) ∧
    topFem F stress flex (rowParams fun _ : Fin m => 1) = scaledFem F C fun _ => Emax := by
  have h1 : simpModulus Emin Emax penal 1 = Emax := by simp [simpModulus]
  constructor
  · rw [flexFem_eq F hlaw flex hnd hlen]
    refine ⟨_, rfl, fun k hk x g => ?_⟩
    have h2 : ¬ flex.idxOf k < m := by rw [← hlen]; exact fun h => hk (List.idxOf_lt_length_iff.mp h)
    simp only [simpE, dif_neg h2, h1]
  · rw [flexFem_eq F hlaw flex hnd hlen]
    congr 1
    funext k
    unfold simpE
    split_ifs <;> exact h1

end

/-! ## The volume constraint -/

theorem rowVolume_eq (F : Fem nn nq nf nfq dim dim) (k : ℕ) : rowVolume F k = cellVol F k := by
  unfold rowVolume cellVol
  rw [List.getD_eq_getElem?_getD, List.getElem?_map]
  cases F.cells[k]? <;> rfl

/-- **C160 (volume).** `vf` is the volume of the human design over the volume of the design box, strictly between 0 and 1. The constraint `mean(rho) ≤ vf` keeps the material of every design in the unit
interval within the volume of the human design exactly when all design cells have the same volume. -/
theorem C160_volume (F : Fem nn nq nf nfq dim dim) (flex : List ℕ) (hlen : flex.length = m) (hm : 0 < m) (V_design : ℝ) (hb : 0 < boxVolume F flex) (h0 : 0 < V_design) (h1 : V_design < boxVolume F flex) :
    (∀ rho : Fin m → ℝ, (∀ j, 0 ≤ rho j ∧ rho j ≤ 1) → (consHandle (V_design / boxVolume F flex) rho).1 0 ≤ 0 → material F flex rho ≤ V_design) ↔
      ∀ i j : Fin m, cellVol F (flex.getD i 0) = cellVol F (flex.getD j 0) := by
  set vf := V_design / boxVolume F flex with hvf
  have hvf0 : 0 < vf := div_pos h0 hb
  have hvf1 : vf < 1 := (div_lt_one hb).mpr h1
  have hmul : vf * boxVolume F flex = V_design := div_mul_cancel₀ _ hb.ne'
  set v : Fin m → ℝ := fun j => cellVol F (flex.getD j 0) with hv
  have hbox : boxVolume F flex = ∑ j, v j := by
    unfold boxVolume
    subst hlen
    rw [← List.sum_ofFn]
    congr 1
    refine List.ext_getElem (by simp) fun i hi hi' => ?_
    have hi2 : i < flex.length := by simpa using hi
    simp [hv, hi2, rowVolume_eq]
  have hcon : ∀ rho : Fin m → ℝ, (consHandle vf rho).1 0 ≤ 0 ↔ ∑ j, rho j ≤ m * vf := fun rho => (C104_constraint hm vf hvf0 rho).1
  constructor
  · intro h
    by_contra hne
    push Not at hne
    obtain ⟨i, j, hij⟩ := hne
    have key : ∀ i j : Fin m, ¬ v i < v j := by
      intro i j hlt
      have hne : i ≠ j := fun e => by rw [e] at hlt; exact lt_irrefl _ hlt
      set ε := min vf (1 - vf) with hε
      have e0 : 0 < ε := lt_min hvf0 (by linarith)
      have e1 : ε ≤ vf := min_le_left _ _
      have e2 : ε ≤ 1 - vf := min_le_right _ _
      set rho : Fin m → ℝ := fun k => vf + ((Pi.single j ε : Fin m → ℝ) k - (Pi.single i ε : Fin m → ℝ) k) with hr
      have hb1 : ∀ k, 0 ≤ rho k ∧ rho k ≤ 1 := by
        intro k
        simp only [hr, Pi.single_apply]
        split_ifs <;> constructor <;> linarith
      have hs : ∑ k, rho k = m * vf := by
        simp only [hr, sum_add_distrib, sum_sub_distrib, sum_pi_single', mem_univ, if_true, sub_self, sum_const, card_univ, Fintype.card_fin, nsmul_eq_mul, add_zero]
      have hmat := h rho hb1 ((hcon rho).mpr hs.le)
      have h2 : material F flex rho = V_design + ε * (v j - v i) := by
        have : material F flex rho = ∑ k, rho k * v k := rfl
        rw [this, ← hmul, hbox]
        simp only [hr, add_mul, sub_mul, sum_add_distrib, sum_sub_distrib, ← mul_sum, Pi.single_apply, ite_mul, zero_mul, sum_ite_eq', mem_univ, if_true]
        ring
      rw [h2] at hmat
      have := mul_pos e0 (sub_pos.mpr hlt)
      linarith
    rcases lt_or_gt_of_ne hij with h2 | h2
    · exact key i j h2
    · exact key j i h2
  · intro heq rho hrho hc
    have hs := (hcon rho).mp hc
    set a := v ⟨0, hm⟩ with ha
    have hva : ∀ j, v j = a := fun j => heq j _
    have hb2 : boxVolume F flex = m * a := by rw [hbox]; simp [hva]
    have hm' : (0 : ℝ) < m := by exact_mod_cast hm
    have ha0 : 0 < a := by
      rw [hb2] at hb
      exact pos_of_mul_pos_right hb hm'.le
    have h2 : material F flex rho = (∑ j, rho j) * a := by
      have : material F flex rho = ∑ k, rho k * v k := rfl
      rw [this, sum_mul]
      exact sum_congr rfl fun j _ => by rw [hva]
    rw [h2, ← hmul, hb2]
    calc (∑ j, rho j) * a ≤ m * vf * a := mul_le_mul_of_nonneg_right hs ha0.le
      _ = vf * (m * a) := by ring

/-- The law of freecad.py on the rectangle of the demo with 1800 cells: the first 900 cells are designed, the others are solid; the assumptions of the theorems hold together. -/
example (lin : ℕ → LinCall ℝ → ℕ → ℝ) (hlin : ExactLin (61 * 31 * 2) lin) (p : Fin 900 → ℝ) (hp : ∀ j, 0 ≤ p j) :
    ∃ ns cs ws, dirichletBC (61 * 31) (Verif.Mesh.rectangleMesh 60 30 (60 : ℝ) 30).points.get (some (exampleInfo fixedLocation)) = .ok (ns, cs, ws) ∧
      ∃ g : Fin 900 → ℝ, (flexProb (exampleFem 60 30 60 30 (loadLocation 60 30) neumannVal) demoStress (groupsOf ns cs ws) (List.range 900) 900).revGrad lin true false 1
        (complianceObj (exampleFem 60 30 60 30 (loadLocation 60 30) neumannVal) neumannVal) p = .ok g ∧ ∀ j, g j ≤ 0 := by
  obtain ⟨ns, cs, ws, hbc, hcl⟩ := C105_clamped (Nx := 60) (Ny := 30) (Lx := 60) (Ly := 30) (by norm_num) (by norm_num) (by norm_num) (by norm_num) (loadLocation 60 30) neumannVal fixedLocation fixedLocation_left
  have hld := C105_loaded (Nx := 60) (Ny := 30) (Lx := 60) (Ly := 30) (by norm_num) (by norm_num) (by norm_num) (by norm_num) (loadLocation 60 30) neumannVal
  have hlen : (exampleFem 60 30 60 30 (loadLocation 60 30) neumannVal).cells.length = 1800 := by
    have h : ∀ Nx Ny, (exampleFem Nx Ny 60 30 (loadLocation 60 30) neumannVal).cells.length = Nx * Ny := fun Nx Ny => by
      show (List.map _ (List.range (Nx * Ny))).length = Nx * Ny
      rw [List.length_map, List.length_range]
    rw [h]
  obtain ⟨u, g, -, -, h3, -, h5⟩ := C160_gradient _ (C102_materials (dim := 2)).1 hld (List.range 900) List.nodup_range (by norm_num) (groupsOf ns cs ws) hcl List.length_range
    (fun k hk => by rw [hlen]; have := List.mem_range.mp hk; omega) p hp lin hlin false 1
  exact ⟨ns, cs, ws, hbc, g, h3, fun j => (h5 j).2⟩

/-- The point `(0, 20, 10)` is in the box of the file, a point on a face is not. -/
example : flexLocation ![-15, 10, 5] ![20, 30, 25] ![0, 20, 10] = true ∧ flexLocation ![-15, 10, 5] ![20, 30, 25] ![-15, 20, 10] = false := by
  constructor
  · simp only [flexLocation, Bool.and_eq_true, decide_eq_true_eq]
    constructor <;> intro d <;> fin_cases d <;> norm_num
  · simp only [flexLocation, Bool.and_eq_false_iff, decide_eq_false_iff_not]
    refine Or.inl fun h => ?_
    have := h 0
    norm_num at this

end Verif.Fem.FlexTop
