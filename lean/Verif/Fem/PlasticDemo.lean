import Verif.Fem.RadialReturn
import Verif.Fem.MultiScaleDeploy
import Verif.Fem.PropsPatch2

/-!
# C126: the load cycle of the plasticity demo (model of demos/fem/plasticity/example.py)

The class `Plasticity` of the demo (lines 12-83) is that of models.py; it is modelled by `returnMap`, `updateStressStrain`, `plastFem`, `avgStress`. Not modelled: printing, VTK output and the plot.
-/
namespace Verif.Fem
open Finset Matrix

/-- The `Plasticity` object of the demo (example.py 86-92, 116), for any number of cells per direction (the demo has 10): HEX8 on a cube of side 10. The gmsh box is taken as the grid of `box_mesh`. -/
noncomputable def plasticObj (N : Fin 3 → ℕ) : Fem 8 (2 ^ 3) 6 (2 ^ 2) 3 3 :=
  Fem.ofElement 8 6 3 3 hex8 (gaussRule 3) (gaussRule 2) ((N 0 + 1) * (N 1 + 1) * (N 2 + 1)) (Verif.Mesh.boxMesh (N 0) (N 1) (N 2) (10 : ℝ) 10 10).points.get
    (Verif.Mesh.boxMesh (N 0) (N 1) (N 2) (10 : ℝ) 10 10).cells.toList

/-- `bottom`, `top` (example.py 94-98); `isclose` with `atol=1e-5` and the default relative tolerance. -/
noncomputable def plasticBottom : Loc 3 := fun x => open Classical in decide (|x 2 - 0| ≤ 1e-5 + 1e-5 * |(0 : ℝ)|)
noncomputable def plasticTop : Loc 3 := fun x => open Classical in decide (|x 2 - 10| ≤ 1e-5 + 1e-5 * |(10 : ℝ)|)

/-- `dirichlet_bc_info` with the last value function for `disp` (example.py 100-114, 121). -/
noncomputable def plasticBc (disp : ℝ) : List (Loc 3) × List ℕ × List ((Fin 3 → ℝ) → ℝ) := ([plasticBottom, plasticTop], [2, 2], [fun _ => 0, fun _ => disp])

/-- `disps` (example.py 108). -/
noncomputable def plasticDisps : List ℝ := ((List.range 11).map fun k : ℕ => 0 + (0.1 - 0) / 10 * (k : ℝ)) ++ (List.range 10).map fun k : ℕ => 0.09 + (0 - 0.09) / 9 * (k : ℝ)

/-- One pass of the loop (example.py 119-127): the stored stress and strain, and the list of averaged stresses. `solve` stands for `update_Dirichlet_boundary_conditions` and `solver(problem, use_petsc=True)`. -/
noncomputable def plasticStep {nn nq nf nfq : ℕ} (F : Fem nn nq nf nfq 3 3) (solve : PlastState nq 3 → List (Loc 3) × List ℕ × List ((Fin 3 → ℝ) → ℝ) → Except FemErr (ℕ → Fin 3 → ℝ))
    (acc : PlastState nq 3 × List (Matrix (Fin 3) (Fin 3) ℝ)) (disp : ℝ) : Except FemErr (PlastState nq 3 × List (Matrix (Fin 3) (Fin 3) ℝ)) := do
  let sol ← solve acc.1 (plasticBc disp)
  let st ← updateStressStrain F acc.1 sol
  pure (st, acc.2 ++ [avgStress F st])

/-- The loop of the demo (example.py 116-131) over any list of displacements: the final state and `avg_stresses`. -/
noncomputable def plasticCycle {nn nq nf nfq : ℕ} (F : Fem nn nq nf nfq 3 3) (solve : PlastState nq 3 → List (Loc 3) × List ℕ × List ((Fin 3 → ℝ) → ℝ) → Except FemErr (ℕ → Fin 3 → ℝ)) (disps : List ℝ) :
    Except FemErr (PlastState nq 3 × List (Matrix (Fin 3) (Fin 3) ℝ)) := disps.foldlM (plasticStep F solve) (plastInit F, [])

/-! ## Specification -/

/-- Specification: an exact solution of a load step. The prescribed values are taken at the selected nodes and the residual vanishes at every other degree of freedom. -/
structure LoadStep {nn nq nf nfq : ℕ} (F : Fem nn nq nf nfq 3 3) (st : PlastState nq 3) (info : List (Loc 3) × List ℕ × List ((Fin 3 → ℝ) → ℝ)) (u : ℕ → Fin 3 → ℝ) : Prop where
  prescribed : ∀ t ∈ info.1.zip (info.2.1.zip info.2.2), ∀ n < F.numTotal, t.1 (F.points n) = true → ∀ i : Fin 3, (i : ℕ) = t.2.1 → u n i = t.2.2 (F.points n)
  equilibrium : ∃ R, (plastFem F st).computeResidual u = .ok R ∧
    ∀ n < F.numTotal, ∀ i : Fin 3, (∀ t ∈ info.1.zip (info.2.1.zip info.2.2), t.1 (F.points n) = true → (i : ℕ) ≠ t.2.1) → R n i = 0

/-- Specification: the stress of a bar of length 10 with Young's modulus 70000 and yield stress 250 without hardening, after its end moved from `d` to `d'`. -/
noncomputable def barStep (s d d' : ℝ) : ℝ := max (-250) (min 250 (s + 70000 * ((d' - d) / 10)))

/-- Specification: the stresses of the bar along a list of end positions. -/
noncomputable def barStresses : ℝ → ℝ → List ℝ → List ℝ
  | _, _, [] => []
  | s, d, d' :: l => barStep s d d' :: barStresses (barStep s d d') d' l

/-- Uniaxial stress in direction `z`. -/
noncomputable def uniaxial (s : ℝ) : Matrix (Fin 3) (Fin 3) ℝ := s • Matrix.single 2 2 1

/-! ## The material under uniaxial load -/

theorem shearMod_val : shearMod = 350000 / 13 := by norm_num [shearMod]
theorem lame_val : lame = 525000 / 13 := by norm_num [lame]

/-- The lateral strain increment that keeps the stress uniaxial. -/
noncomputable def lateral (s e s' : ℝ) : ℝ := ((s' - s) / 175000 - e) / 2

/-- `t/3` on the diagonal plus `q` times the deviator of a uniaxial stress. -/
noncomputable def tq (t q : ℝ) : Matrix (Fin 3) (Fin 3) ℝ := Matrix.diagonal ![(t - q) / 3, (t - q) / 3, (t + 2 * q) / 3]

theorem tq_self (s : ℝ) : tq s s = uniaxial s := by
  ext i j
  fin_cases i <;> fin_cases j <;> simp [tq, uniaxial, Matrix.single]
  ring

theorem tq_trace (t q : ℝ) : (tq t q).trace = t := by
  simp [tq, Fin.sum_univ_three]
  ring

theorem tq_dev (t q : ℝ) : dev (tq t q) = tq 0 q := by
  unfold dev
  rw [tq_trace]
  ext i j
  fin_cases i <;> fin_cases j <;> simp [tq] <;> ring

theorem tq_mises (t q : ℝ) : mises (tq t q) = |q| := by
  have h : (tq t q)ᵀ = tq t q := by simp [tq]
  rw [mises_three _ h, ← Real.sqrt_sq_eq_abs]
  congr 1
  simp [tq]
  ring

theorem tq_radial (t q : ℝ) : radial 250 (tq t q) = tq t (max (-250) (min 250 q)) := by
  unfold radial
  rw [tq_mises, tq_dev]
  have h : ∀ c, tq t q - c • tq 0 q = tq t (q - c * q) := by
    intro c
    ext i j
    fin_cases i <;> fin_cases j <;> simp [tq] <;> ring
  rw [h]
  congr 1
  rcases le_or_gt |q| 250 with h1 | h1
  · obtain ⟨h2, h3⟩ := abs_le.mp h1
    rw [max_eq_right (by linarith), min_eq_right h3, max_eq_right h2]
    ring
  · rw [max_eq_left (by linarith)]
    rcases le_or_gt 0 q with h2 | h2
    · rw [abs_of_nonneg h2] at h1 ⊢
      rw [min_eq_left h1.le, max_eq_right (by norm_num)]
      have : q ≠ 0 := by linarith
      field_simp
      ring
    · rw [abs_of_neg h2] at h1 ⊢
      rw [min_eq_right (by linarith), max_eq_left (by linarith)]
      have : q ≠ 0 := h2.ne
      field_simp
      ring

/-- The gradient increment: `e` in direction `z`, the lateral strain across. -/
noncomputable def stretch (s e s' : ℝ) : Matrix (Fin 3) (Fin 3) ℝ := Matrix.diagonal ![lateral s e s', lateral s e s', e]

/-- **C126 (material point).** From a uniaxial stress within the yield limit, the strain increment `e` with free lateral contraction gives the uniaxial stress of the bar. -/
theorem returnMap_uniaxial (s e : ℝ) (hs : |s| ≤ 250) (g eo : Matrix (Fin 3) (Fin 3) ℝ) (hg : strain g - eo = stretch s e (max (-250) (min 250 (s + 70000 * e)))) :
    returnMap g (uniaxial s) eo = uniaxial (max (-250) (min 250 (s + 70000 * e))) := by
  obtain ⟨hs1, hs2⟩ := abs_le.mp hs
  set s' := max (-250) (min 250 (s + 70000 * e)) with hs'
  have ht : isoLaw lame shearMod (stretch s e s') + uniaxial s = tq s' (2 * (350000 / 13) * (e - lateral s e s') + s) := by
    unfold isoLaw
    rw [lame_val, shearMod_val]
    ext i j
    fin_cases i <;> fin_cases j <;> simp [tq, uniaxial, Matrix.single, stretch, lateral, Fin.sum_univ_three] <;> ring
  rw [returnMap_radial, hg, ht, tq_radial, ← tq_self]
  congr 1
  unfold lateral
  rcases le_or_gt (s + 70000 * e) 250 with h1 | h1
  · rcases le_or_gt (-250) (s + 70000 * e) with h2 | h2
    · have : s' = s + 70000 * e := by rw [hs', min_eq_right h1, max_eq_right h2]
      rw [this]
      have : 2 * (350000 / 13) * (e - ((s + 70000 * e - s) / 175000 - e) / 2) + s = s + 70000 * e := by ring
      rw [this, min_eq_right h1, max_eq_right h2]
    · have : s' = -250 := by rw [hs', min_eq_right h1, max_eq_left h2.le]
      rw [this, min_eq_right (by linarith), max_eq_left (by linarith)]
  · have : s' = 250 := by rw [hs', min_eq_left h1.le, max_eq_right (by norm_num)]
    rw [this, min_eq_left (by linarith), max_eq_right (by norm_num)]

/-! ## The residual of a constant stress -/

theorem residual_const_stress {nn nq nf nfq dim vec : ℕ} (F : Fem nn nq nf nfq dim vec) (hmass : F.massMap = none) (hsrc : F.source = none) (hbody : F.bodyVar = none) (hcauchy : F.cauchy = none) (hneu : F.neumann = none)
    (T : Fin vec → Fin dim → ℝ) (sol R : ℕ → Fin vec → ℝ) (hT : ∀ k c, F.cells[k]? = some c → ∀ q, F.stress k q (F.gradAt sol c q) = T) (h : F.computeResidual sol = .ok R) (n : ℕ) (i : Fin vec) :
    R n i = ∑ d, T i d * F.nodeVector n d := by
  have hload : ∀ c q, F.load c q i = 0 := by intro c q; simp [Fem.load, hsrc, hbody]
  have hvol : ∀ p ∈ F.cells.zipIdx, (nodal n p.1 fun a => F.volTerm sol p.1 p.2 a i) = ∑ d, T i d * nodal n p.1 fun a => ∑ q, F.shapeGrad p.1 q a d * F.JxW p.1 q := by
    intro p hp
    have hc : F.cells[p.2]? = some p.1 := List.mem_zipIdx_iff_getElem?.mp (show (p.1, p.2) ∈ F.cells.zipIdx from hp)
    have : (fun a => F.volTerm sol p.1 p.2 a i) = fun a => ∑ d, T i d * ∑ q, F.shapeGrad p.1 q a d * F.JxW p.1 q := by
      funext a
      unfold Fem.volTerm
      have hm : ∀ q, F.massAt p.2 q (F.uAt sol p.1 q) i = 0 := by intro q; simp [Fem.massAt, hmass]
      simp only [hm, zero_mul, add_zero, hT p.2 p.1 hc, sum_mul, mul_sum]
      rw [sum_comm]
      exact sum_congr rfl fun d _ => sum_congr rfl fun q _ => by ring
    rw [this, nodal_sum]
    exact sum_congr rfl fun d _ => nodal_smul _ _ _ _
  rw [C13_residual F sol R h n i, sum_map_congr hvol]
  have hc0 : Fem.pairs F.cauchy = [] := by rw [hcauchy]; rfl
  have hn0 : Fem.pairs F.neumann = [] := by rw [hneu]; rfl
  have hl0 : (F.cells.map fun c => nodal n c fun a => ∑ q, F.shapeVals q a * F.load c q i * F.JxW c q).sum = 0 := by
    refine List.sum_eq_zero fun x hx => ?_
    obtain ⟨c, -, rfl⟩ := List.mem_map.mp hx
    simp [nodal, hload]
  rw [hc0, hn0, hl0]
  have hv : (F.cells.zipIdx.map fun p => ∑ d, T i d * nodal n p.1 fun a => ∑ q, F.shapeGrad p.1 q a d * F.JxW p.1 q).sum = ∑ d, T i d * F.nodeVector n d := by
    unfold Fem.nodeVector
    have hz : ∀ (G : (Fin nn → ℕ) → ℝ), (F.cells.map G).sum = (F.cells.zipIdx.map fun p => G p.1).sum := by
      intro G
      conv_lhs => rw [← List.zipIdx_map_fst 0 F.cells, List.map_map]
      rfl
    rw [← hz fun c => ∑ d, T i d * nodal n c fun a => ∑ q, F.shapeGrad c q a d * F.JxW c q]
    induction F.cells with
    | nil => simp
    | cons c l ih => simp only [List.map_cons, List.sum_cons, ih, mul_add, sum_add_distrib]
  rw [hv]
  simp

/-! ## The object of the demo -/

variable {N : Fin 3 → ℕ}

theorem plasticObj_onBox (N : Fin 3 → ℕ) : OnBox (plasticObj N) N fun _ => 10 := ⟨rfl, rfl⟩

theorem plasticObj_tables (N : Fin 3 → ℕ) : CellTables (plasticObj N) hex8 (gaussRule 3) := ⟨fun _ _ => rfl, fun _ _ _ => rfl, fun _ => rfl⟩

theorem plasticObj_sum (N : Fin 3 → ℕ) : ∀ q b, ∑ n, (plasticObj N).shapeGradsRef q n b = 0 :=
  (Tabulated.sums (F := plasticObj N) (name := "HEX8") (by decide) getElements_hex8 (by decide) (pts := (gaussRule 3).pt) ⟨(plasticObj_tables N).vals, (plasticObj_tables N).grads⟩).1

theorem plasticObj_det (hN : ∀ a, 0 < N a) : ∀ c ∈ (plasticObj N).cells, ∀ q, ((plasticObj N).jacobian c q).det ≠ 0 := by
  intro c hc q
  obtain ⟨g, hg, rfl⟩ := ((plasticObj_onBox N).mem_cells c).mp hc
  rw [(plasticObj_onBox N).jacobian _ (plasticObj_tables N) g hg, Matrix.det_diagonal]
  exact prod_ne_zero_iff.mpr fun b _ => div_ne_zero (by norm_num) (by exact_mod_cast (hN b).ne')

theorem plasticObj_mesh (N : Fin 3 → ℕ) : ∀ c ∈ (plasticObj N).cells, ∀ a, c a < (plasticObj N).numTotal := by
  intro c hc a
  obtain ⟨g, hg, rfl⟩ := ((plasticObj_onBox N).mem_cells c).mp hc
  refine gridNode_lt N _ fun b => ?_
  have h1 := (mem_boxGrid N g).mp hg b
  have h2 := hexCorner_le a b
  omega

theorem plasticObj_vol (hN : ∀ a, 0 < N a) : ∀ c ∈ (plasticObj N).cells, ∀ q, 0 < (plasticObj N).JxW c q := by
  intro c hc q
  obtain ⟨g, hg, rfl⟩ := ((plasticObj_onBox N).mem_cells c).mp hc
  rw [(plasticObj_onBox N).JxW _ (plasticObj_tables N) g hg]
  refine mul_pos (prod_pos fun b _ => div_pos (by norm_num) (by exact_mod_cast hN b)) ?_
  simp [gaussRule]

theorem plasticObj_node (n : ℕ) (hn : n < (plasticObj N).numTotal) : ∃ m : Fin 3 → ℕ, (∀ a, m a ≤ N a) ∧ n = gridNode N m := gridNode_surj N n hn

theorem plasticObj_nonempty (hN : ∀ a, 0 < N a) : (plasticObj N).cells ≠ [] := by
  intro h
  have := ((plasticObj_onBox N).mem_cells (boxCell N fun _ => 0)).mpr ⟨_, (mem_boxGrid _ _).mpr fun a => hN a, rfl⟩
  rw [h] at this
  cases this

/-- On a mesh resolved by the tolerances `bottom` and `top` select the first and the last layer of nodes. -/
theorem plastic_locs (hN : ∀ a, 0 < N a) (hfine : N 2 ≤ 10000) (m : Fin 3 → ℕ) (hm : ∀ a, m a ≤ N a) :
    (plasticBottom ((plasticObj N).points (gridNode N m)) = true ↔ m 2 = 0) ∧ (plasticTop ((plasticObj N).points (gridNode N m)) = true ↔ m 2 = N 2) := by
  have hp := (plasticObj_onBox N).point m hm 2
  have h0 : (0 : ℝ) < N 2 := by exact_mod_cast hN 2
  have h1 : (N 2 : ℝ) ≤ 10000 := by exact_mod_cast hfine
  have hd : (1e-3 : ℝ) ≤ 10 / N 2 := by
    rw [le_div_iff₀ h0]
    norm_num
    linarith
  simp only [plasticBottom, plasticTop, decide_eq_true_eq, hp]
  constructor
  · constructor
    · intro h
      by_contra hne
      have h2 : (1 : ℝ) ≤ m 2 := by exact_mod_cast Nat.one_le_iff_ne_zero.mpr hne
      have h3 : (10 : ℝ) / N 2 ≤ m 2 * (10 / N 2) := le_mul_of_one_le_left (by positivity) h2
      rw [sub_zero, abs_of_nonneg (by positivity)] at h
      norm_num at h hd
      linarith
    · intro h
      rw [h]
      norm_num
  · constructor
    · intro h
      by_contra hne
      have h2 : (m 2 : ℝ) + 1 ≤ N 2 := by exact_mod_cast Nat.lt_of_le_of_ne (hm 2) hne
      have h3 : (N 2 : ℝ) * (10 / N 2) = 10 := by field_simp
      have h4 : ((m 2 : ℝ) + 1) * (10 / N 2) ≤ N 2 * (10 / N 2) := mul_le_mul_of_nonneg_right h2 (by positivity)
      have h5 := (abs_le.mp h).1
      norm_num at h5 hd
      linarith
    · intro h
      rw [h, show (N 2 : ℝ) * (10 / N 2) = 10 by field_simp]
      norm_num

theorem plasticBc_mem (disp : ℝ) (t : Loc 3 × ℕ × ((Fin 3 → ℝ) → ℝ)) : t ∈ (plasticBc disp).1.zip ((plasticBc disp).2.1.zip (plasticBc disp).2.2) ↔ t = (plasticBottom, 2, fun _ => 0) ∨ t = (plasticTop, 2, fun _ => disp) := by
  simp [plasticBc]

/-- The conditions of a load step on the grid. -/
theorem loadStep_iff (hN : ∀ a, 0 < N a) (hfine : N 2 ≤ 10000) (st : PlastState (2 ^ 3) 3) (disp : ℝ) (u : ℕ → Fin 3 → ℝ) :
    LoadStep (plasticObj N) st (plasticBc disp) u ↔ (∀ m : Fin 3 → ℕ, (∀ a, m a ≤ N a) → (m 2 = 0 → u (gridNode N m) 2 = 0) ∧ (m 2 = N 2 → u (gridNode N m) 2 = disp)) ∧
      ∃ R, (plastFem (plasticObj N) st).computeResidual u = .ok R ∧ ∀ m : Fin 3 → ℕ, (∀ a, m a ≤ N a) → ∀ i : Fin 3, (i = 2 → m 2 ≠ 0 ∧ m 2 ≠ N 2) → R (gridNode N m) i = 0 := by
  constructor
  · rintro ⟨h1, R, hR, h2⟩
    refine ⟨fun m hm => ⟨fun h => ?_, fun h => ?_⟩, R, hR, fun m hm i hi => h2 _ (gridNode_lt N m hm) i fun t ht hl => ?_⟩
    · exact h1 _ ((plasticBc_mem disp _).mpr (.inl rfl)) _ (gridNode_lt N m hm) ((plastic_locs hN hfine m hm).1.mpr h) 2 rfl
    · exact h1 _ ((plasticBc_mem disp _).mpr (.inr rfl)) _ (gridNode_lt N m hm) ((plastic_locs hN hfine m hm).2.mpr h) 2 rfl
    · rcases (plasticBc_mem disp t).mp ht with rfl | rfl
      · exact fun h => (hi (Fin.ext h)).1 ((plastic_locs hN hfine m hm).1.mp hl)
      · exact fun h => (hi (Fin.ext h)).2 ((plastic_locs hN hfine m hm).2.mp hl)
  · rintro ⟨h1, R, hR, h2⟩
    refine ⟨fun t ht n hn hl i hi => ?_, R, hR, fun n hn i hi => ?_⟩
    · obtain ⟨m, hm, rfl⟩ := plasticObj_node n hn
      rcases (plasticBc_mem disp t).mp ht with rfl | rfl
      · obtain rfl : i = 2 := Fin.ext hi
        exact (h1 m hm).1 ((plastic_locs hN hfine m hm).1.mp hl)
      · obtain rfl : i = 2 := Fin.ext hi
        exact (h1 m hm).2 ((plastic_locs hN hfine m hm).2.mp hl)
    · obtain ⟨m, hm, rfl⟩ := plasticObj_node n hn
      refine h2 m hm i fun h => ⟨fun h0 => ?_, fun h0 => ?_⟩
      · exact hi _ ((plasticBc_mem disp _).mpr (.inl rfl)) ((plastic_locs hN hfine m hm).1.mpr h0) (by rw [h]; rfl)
      · exact hi _ ((plasticBc_mem disp _).mpr (.inr rfl)) ((plastic_locs hN hfine m hm).2.mpr h0) (by rw [h]; rfl)

/-! ## One load step -/

/-- The state after a number of load steps: every stored stress is the uniaxial stress `s`, the stored strains are those of a displacement field with the end positions `0` and `d`. -/
structure CycleInv (N : Fin 3 → ℕ) (st : PlastState (2 ^ 3) 3) (s d : ℝ) : Prop where
  hist : ∃ sols, plastRun (plasticObj N) sols = .ok st
  small : |s| ≤ 250
  sig : ∀ (k : ℕ) (c : Fin 8 → ℕ), (plasticObj N).cells[k]? = some c → st.sig[k]? = some fun _ : Fin (2 ^ 3) => uniaxial s
  eps : ∃ u : ℕ → Fin 3 → ℝ, (∀ m : Fin 3 → ℕ, (∀ a, m a ≤ N a) → (m 2 = 0 → u (gridNode N m) 2 = 0) ∧ (m 2 = N 2 → u (gridNode N m) 2 = d)) ∧
    ∀ (k : ℕ) (c : Fin 8 → ℕ), (plasticObj N).cells[k]? = some c → st.eps[k]? = some fun q => strain (Matrix.of ((plasticObj N).gradAt u c q))

theorem barStep_small (s d d' : ℝ) : |barStep s d d'| ≤ 250 := by
  unfold barStep
  rw [abs_le]
  exact ⟨le_max_left _ _, max_le (by norm_num) (min_le_left _ _)⟩

theorem CycleInv.lengths {st : PlastState (2 ^ 3) 3} {s d : ℝ} (h : CycleInv N st s d) : st.sig.length = (plasticObj N).cells.length ∧ st.eps.length = (plasticObj N).cells.length := by
  obtain ⟨sols, hs⟩ := h.hist
  obtain ⟨st', h1, h2, h3, -⟩ := C30_history (by norm_num) (plasticObj N) sols
  rw [hs] at h1
  injection h1 with h1
  subst h1
  exact ⟨h2, h3⟩

theorem CycleInv.residual_ok (hN : ∀ a, 0 < N a) {st : PlastState (2 ^ 3) 3} {s d : ℝ} (h : CycleInv N st s d) (u : ℕ → Fin 3 → ℝ) : ∃ R, (plastFem (plasticObj N) st).computeResidual u = .ok R := by
  refine (C13_returns _ u).mpr ⟨plasticObj_nonempty hN, ?_, ?_, ?_, ?_⟩
  · intro k hk; cases hk
  · intro k hk
    injection hk with hk
    rw [← hk]
    exact h.lengths.1
  · intro k hk; cases hk
  · intro k hk; cases hk

theorem strain_add (g g' : Matrix (Fin 3) (Fin 3) ℝ) : strain (g + g') = strain g + strain g' := by
  ext i j
  simp only [strain_apply, Matrix.add_apply]
  ring

theorem gradAt_plus_affine (hN : ∀ a, 0 < N a) (u : ℕ → Fin 3 → ℝ) (A : Fin 3 → Fin 3 → ℝ) (b : Fin 3 → ℝ) (c : Fin 8 → ℕ) (hc : c ∈ (plasticObj N).cells) (q : Fin (2 ^ 3)) :
    (plasticObj N).gradAt (u + fun n i => ∑ d, A i d * (plasticObj N).points n d + b i) c q = (plasticObj N).gradAt u c q + A := by
  rw [gradAt_add]
  congr 1
  exact gradAt_affine (plasticObj N) (plasticObj_sum N) A b _ c (fun n i => rfl) q (plasticObj_det hN c hc q)

/-- The homogeneous solution of a load step. -/
theorem CycleInv.trial (hN : ∀ a, 0 < N a) (hfine : N 2 ≤ 10000) {st : PlastState (2 ^ 3) 3} {s d : ℝ} (h : CycleInv N st s d) (d' : ℝ) :
    ∃ v sv, LoadStep (plasticObj N) st (plasticBc d') v ∧ updateStressStrain (plasticObj N) st v = .ok sv ∧ ∀ (k : ℕ) (c : Fin 8 → ℕ), (plasticObj N).cells[k]? = some c → sv.sig[k]? = some fun _ : Fin (2 ^ 3) => uniaxial (barStep s d d') := by
  obtain ⟨u, hu, heps⟩ := h.eps
  obtain ⟨hl1, hl2⟩ := h.lengths
  set s' := barStep s d d' with hs'
  set A : Fin 3 → Fin 3 → ℝ := stretch s ((d' - d) / 10) s' with hA
  set v : ℕ → Fin 3 → ℝ := u + fun n i => ∑ j, A i j * (plasticObj N).points n j + (0 : Fin 3 → ℝ) i with hv
  have hret : ∀ (k : ℕ) (c : Fin 8 → ℕ), (plasticObj N).cells[k]? = some c → ∀ q, returnMap (Matrix.of ((plasticObj N).gradAt v c q)) (uniaxial s) (strain (Matrix.of ((plasticObj N).gradAt u c q))) = uniaxial s' := by
    intro k c hk q
    refine returnMap_uniaxial s ((d' - d) / 10) h.small _ _ ?_
    rw [hv, gradAt_plus_affine hN u A 0 c (List.mem_of_getElem? hk) q]
    have h1 : (Matrix.of ((plasticObj N).gradAt u c q + A) : Matrix (Fin 3) (Fin 3) ℝ) = Matrix.of ((plasticObj N).gradAt u c q) + Matrix.of A := rfl
    rw [h1, strain_add, add_sub_cancel_left]
    show strain (stretch s ((d' - d) / 10) s') = stretch s ((d' - d) / 10) s'
    ext i j
    rw [strain_apply]
    unfold stretch
    rcases eq_or_ne i j with rfl | hij
    · ring
    · rw [Matrix.diagonal_apply_ne _ hij, Matrix.diagonal_apply_ne _ hij.symm]
      norm_num
  refine ⟨v, _, (loadStep_iff hN hfine st d' v).mpr ⟨fun m hm => ?_, ?_⟩, update_ok _ st hl1 hl2 v, fun k c hk => ?_⟩
  · have e : v (gridNode N m) 2 = u (gridNode N m) 2 + (d' - d) / 10 * (m 2 * (10 / N 2)) := by
      show u (gridNode N m) 2 + (∑ j, A 2 j * (plasticObj N).points (gridNode N m) j + (0 : Fin 3 → ℝ) 2) = _
      rw [Fin.sum_univ_three, ← (plasticObj_onBox N).point m hm 2]
      simp [hA, stretch]
    refine ⟨fun h0 => ?_, fun h0 => ?_⟩
    · rw [e, (hu m hm).1 h0, h0]
      simp
    · have h1 : (0 : ℝ) < N 2 := by exact_mod_cast hN 2
      rw [e, (hu m hm).2 h0, h0]
      field_simp
      ring
  · obtain ⟨R, hR⟩ := h.residual_ok hN v
    refine ⟨R, hR, fun m hm i hi => ?_⟩
    rw [residual_const_stress (plastFem (plasticObj N) st) rfl rfl rfl rfl rfl (uniaxial s') v R ?_ hR]
    · have e : ∀ dd, (plastFem (plasticObj N) st).nodeVector (gridNode N m) dd = (plasticObj N).nodeVector (gridNode N m) dd := fun _ => rfl
      rcases eq_or_ne i 2 with rfl | h2
      · obtain ⟨h3, h4⟩ := hi rfl
        have h5 := hm 2
        have hz : (plasticObj N).nodeVector (gridNode N m) 2 = 0 := by
          rw [(plasticObj_onBox N).nodeVector (plasticObj_tables N) hN (fun _ => by norm_num) m hm, if_pos (by omega), if_pos (by omega)]
          ring
        rw [Fin.sum_univ_three, e, e, e, hz]
        simp [uniaxial, Matrix.single]
      · refine sum_eq_zero fun dd _ => ?_
        have : uniaxial s' i dd = 0 := by
          simp only [uniaxial, Matrix.smul_apply, Matrix.single, Matrix.of_apply, smul_eq_mul]
          rw [if_neg fun hh => h2 hh.1.symm, mul_zero]
        rw [this, zero_mul]
    · intro k c hk q
      have hk' : (plasticObj N).cells[k]? = some c := hk
      show returnMap (Matrix.of ((plasticObj N).gradAt v c q)) ((st.sig.getD k 0) q) ((st.eps.getD k 0) q) = _
      have e1 : st.sig.getD k 0 = fun _ => uniaxial s := by simp [List.getD_eq_getElem?_getD, h.sig k c hk']
      have e2 : st.eps.getD k 0 = fun q => strain (Matrix.of ((plasticObj N).gradAt u c q)) := by simp [List.getD_eq_getElem?_getD, heps k c hk']
      rw [e1, e2]
      exact hret k c hk' q
  · obtain ⟨s0, e0, h1, h2, h3, -⟩ := update_get _ st _ hl1 hl2 v (update_ok _ st hl1 hl2 v) k c hk
    rw [h3]
    congr 1
    funext q
    rw [h.sig k c hk] at h1
    rw [heps k c hk] at h2
    injection h1 with h1
    injection h2 with h2
    rw [← h1, ← h2]
    exact hret k c hk q

theorem avgStress_const (hN : ∀ a, 0 < N a) (st : PlastState (2 ^ 3) 3) (T : Matrix (Fin 3) (Fin 3) ℝ) (hl : st.sig.length = (plasticObj N).cells.length)
    (hs : ∀ (k : ℕ) (c : Fin 8 → ℕ), (plasticObj N).cells[k]? = some c → st.sig[k]? = some fun _ : Fin (2 ^ 3) => T) : avgStress (plasticObj N) st = T := by
  have e : st.sig = (plasticObj N).cells.map fun _ _ => T := by
    refine List.ext_getElem? fun k => ?_
    rw [List.getElem?_map]
    cases hk : (plasticObj N).cells[k]? with
    | none =>
      have := List.getElem?_eq_none_iff.mp hk
      rw [List.getElem?_eq_none (by omega)]
      rfl
    | some c => exact hs k c hk
  have hV : ((plasticObj N).cells.map fun c => ∑ q, (plasticObj N).JxW c q).sum = 1000 := by
    rw [box_volume (plasticObj N) N (fun _ => 10) (plasticObj_onBox N) hN (gaussRule 3) (plasticObj_tables N) (gaussRule_sum 3)]
    norm_num
  unfold avgStress
  rw [e, List.zip_map', List.map_map, hV]
  have h2 : ∀ l : List (Fin 8 → ℕ), (l.map ((fun p : (Fin (2 ^ 3) → Matrix (Fin 3) (Fin 3) ℝ) × (Fin (2 ^ 3) → ℝ) => ∑ q, p.2 q • p.1 q) ∘ fun x => (fun _ => T, (plasticObj N).JxW x))).sum = (l.map fun c => ∑ q, (plasticObj N).JxW c q).sum • T := by
    intro l
    induction l with
    | nil => simp
    | cons c l ih =>
      rw [List.map_cons, List.sum_cons, ih, List.map_cons, List.sum_cons, add_smul]
      congr 1
      exact (sum_smul).symm
  rw [h2, hV, smul_smul]
  norm_num

/-- One exact load step. -/
theorem CycleInv.step (hN : ∀ a, 0 < N a) (hfine : N 2 ≤ 10000) {st st' : PlastState (2 ^ 3) 3} {s d : ℝ} (h : CycleInv N st s d) (d' : ℝ) (u : ℕ → Fin 3 → ℝ)
    (hu : LoadStep (plasticObj N) st (plasticBc d') u) (hst : updateStressStrain (plasticObj N) st u = .ok st') :
    CycleInv N st' (barStep s d d') d' ∧ avgStress (plasticObj N) st' = uniaxial (barStep s d d') := by
  obtain ⟨v, sv, hv, hsv, hsig⟩ := h.trial hN hfine d'
  obtain ⟨sols, hs⟩ := h.hist
  obtain ⟨hl1, hl2⟩ := h.lengths
  obtain ⟨hu1, Ru, hRu, hu2⟩ := (loadStep_iff hN hfine st d' u).mp hu
  obtain ⟨hv1, Rv, hRv, hv2⟩ := (loadStep_iff hN hfine st d' v).mp hv
  have hsame : st'.sig = sv.sig := by
    refine C111_stress (by norm_num) (plasticObj N) (plasticObj_mesh N) (plasticObj_vol hN) rfl sols st hs u v Ru Rv hRu hRv (fun n hn i => ?_) st' sv hst hsv
    obtain ⟨m, hm, rfl⟩ := plasticObj_node n hn
    rcases eq_or_ne i 2 with rfl | hi
    · by_cases h0 : m 2 = 0
      · exact .inl (((hu1 m hm).1 h0).trans ((hv1 m hm).1 h0).symm)
      · by_cases h1 : m 2 = N 2
        · exact .inl (((hu1 m hm).2 h1).trans ((hv1 m hm).2 h1).symm)
        · exact .inr ((hu2 m hm 2 fun _ => ⟨h0, h1⟩).trans (hv2 m hm 2 fun _ => ⟨h0, h1⟩).symm)
    · exact .inr ((hu2 m hm i fun h => absurd h hi).trans (hv2 m hm i fun h => absurd h hi).symm)
  have hinv : CycleInv N st' (barStep s d d') d' := by
    refine ⟨⟨sols ++ [u], ?_⟩, barStep_small s d d', fun k c hk => by rw [hsame]; exact hsig k c hk, u, hu1, fun k c hk => ?_⟩
    · unfold plastRun at hs ⊢
      rw [List.foldlM_append, hs]
      show updateStressStrain (plasticObj N) st u >>= pure = _
      rw [hst]
      rfl
    · obtain ⟨_, _, -, -, -, h4⟩ := update_get _ st st' hl1 hl2 u hst k c hk
      exact h4
  exact ⟨hinv, avgStress_const hN st' _ hinv.lengths.1 hinv.sig⟩

theorem CycleInv.init (N : Fin 3 → ℕ) : CycleInv N (plastInit (plasticObj N)) 0 0 := by
  refine ⟨⟨[], rfl⟩, by norm_num, fun k c hk => ?_, fun _ _ => 0, fun m hm => ⟨fun _ => rfl, fun _ => rfl⟩, fun k c hk => ?_⟩
  · show ((plasticObj N).cells.map fun _ _ => (0 : Matrix (Fin 3) (Fin 3) ℝ))[k]? = _
    rw [List.getElem?_map, hk]
    simp [uniaxial]
  · show ((plasticObj N).cells.map fun _ _ => (0 : Matrix (Fin 3) (Fin 3) ℝ))[k]? = _
    rw [List.getElem?_map, hk]
    simp only [Option.map_some, Option.some.injEq]
    funext q
    ext i j
    simp [strain_apply, Fem.gradAt]

/-! ## The load cycle -/

abbrev PlasticSolve := PlastState (2 ^ 3) 3 → List (Loc 3) × List ℕ × List ((Fin 3 → ℝ) → ℝ) → Except FemErr (ℕ → Fin 3 → ℝ)

/-- The end position and stress after a list of displacements. -/
noncomputable def barEnd : ℝ → ℝ → List ℝ → ℝ × ℝ
  | s, d, [] => (s, d)
  | s, d, d' :: l => barEnd (barStep s d d') d' l

theorem cycle_from (hN : ∀ a, 0 < N a) (hfine : N 2 ≤ 10000) (solve : PlasticSolve) (hsolve : ∀ st disp u, solve st (plasticBc disp) = .ok u → LoadStep (plasticObj N) st (plasticBc disp) u) (disps : List ℝ) :
    ∀ (st : PlastState (2 ^ 3) 3) (s d : ℝ) (avgs : List (Matrix (Fin 3) (Fin 3) ℝ)) (r : PlastState (2 ^ 3) 3 × List (Matrix (Fin 3) (Fin 3) ℝ)), CycleInv N st s d → disps.foldlM (plasticStep (plasticObj N) solve) (st, avgs) = .ok r →
      CycleInv N r.1 (barEnd s d disps).1 (barEnd s d disps).2 ∧ r.2 = avgs ++ (barStresses s d disps).map uniaxial := by
  induction disps with
  | nil =>
    intro st s d avgs r h hr
    have : r = (st, avgs) := by
      injection hr with hr
      exact hr.symm
    rw [this]
    exact ⟨h, by simp [barStresses]⟩
  | cons d' l ih =>
    intro st s d avgs r h hr
    rw [List.foldlM_cons] at hr
    cases hu : solve st (plasticBc d') with
    | error e =>
      simp only [plasticStep, hu, bind, Except.bind] at hr
      cases hr
    | ok u =>
      cases hst : updateStressStrain (plasticObj N) st u with
      | error e =>
        simp only [plasticStep, hu, hst, bind, Except.bind] at hr
        cases hr
      | ok st' =>
        obtain ⟨hinv, havg⟩ := h.step hN hfine d' u (hsolve st d' u hu) hst
        have e : plasticStep (plasticObj N) solve (st, avgs) d' = .ok (st', avgs ++ [avgStress (plasticObj N) st']) := by
          simp only [plasticStep, hu, hst, bind, Except.bind, pure, Except.pure]
        rw [e] at hr
        obtain ⟨h1, h2⟩ := ih st' _ d' _ r hinv hr
        refine ⟨h1, ?_⟩
        rw [h2, havg]
        simp [barStresses]

/-- **C126 (load cycle).** On every mesh of the cube resolved by the tolerances, for every list of end displacements and every solver that returns exact solutions: whenever the loop of the demo returns, the averaged stresses are
uniaxial with the stresses of the elastic, ideally plastic bar, and the stored stress is the same in all cells and quadrature points. -/
theorem C126_cycle (hN : ∀ a, 0 < N a) (hfine : N 2 ≤ 10000) (solve : PlasticSolve) (hsolve : ∀ st disp u, solve st (plasticBc disp) = .ok u → LoadStep (plasticObj N) st (plasticBc disp) u) (disps : List ℝ)
    (st : PlastState (2 ^ 3) 3) (avgs : List (Matrix (Fin 3) (Fin 3) ℝ)) (h : plasticCycle (plasticObj N) solve disps = .ok (st, avgs)) :
    avgs = (barStresses 0 0 disps).map uniaxial ∧ st.sig = (plasticObj N).cells.map fun _ _ => uniaxial ((barStresses 0 0 disps).getLast?.getD 0) := by
  obtain ⟨h1, h2⟩ := cycle_from hN hfine solve hsolve disps _ 0 0 [] _ (CycleInv.init N) h
  refine ⟨by simpa using h2, ?_⟩
  have hend : ∀ (l : List ℝ) (s d : ℝ), (barEnd s d l).1 = (barStresses s d l).getLast?.getD s := by
    intro l
    induction l with
    | nil => intro s d; rfl
    | cons a l ih =>
      intro s d
      show (barEnd (barStep s d a) a l).1 = (barStep s d a :: barStresses (barStep s d a) a l).getLast?.getD s
      rw [ih, List.getLast?_cons]
      rfl
  refine List.ext_getElem? fun k => ?_
  rw [List.getElem?_map]
  cases hk : (plasticObj N).cells[k]? with
  | none =>
    have := List.getElem?_eq_none_iff.mp hk
    have hl : st.sig.length = (plasticObj N).cells.length := h1.lengths.1
    rw [List.getElem?_eq_none (by omega)]
    rfl
  | some c =>
    rw [h1.sig k c hk, hend]
    rfl

open Classical in
/-- A solver that picks an exact solution if there is one. -/
noncomputable def exactSolve (N : Fin 3 → ℕ) : PlasticSolve := fun st info => if h : ∃ u, LoadStep (plasticObj N) st info u then .ok h.choose else .error .assertion

theorem exactSolve_ok (st : PlastState (2 ^ 3) 3) (info : List (Loc 3) × List ℕ × List ((Fin 3 → ℝ) → ℝ)) (h : ∃ u, LoadStep (plasticObj N) st info u) : exactSolve N st info = .ok h.choose := by
  unfold exactSolve
  rw [dif_pos h]

/-- **C126 (exact solutions exist).** There is such a solver, and with it the loop returns for every list of displacements. -/
theorem C126_exists (hN : ∀ a, 0 < N a) (hfine : N 2 ≤ 10000) : ∃ solve : PlasticSolve, (∀ st disp u, solve st (plasticBc disp) = .ok u → LoadStep (plasticObj N) st (plasticBc disp) u) ∧
    ∀ disps, ∃ r, plasticCycle (plasticObj N) solve disps = .ok r := by
  refine ⟨exactSolve N, ?_, ?_⟩
  · intro st disp u h
    by_cases hu : ∃ u, LoadStep (plasticObj N) st (plasticBc disp) u
    · rw [exactSolve_ok st _ hu] at h
      injection h with h
      rw [← h]
      exact hu.choose_spec
    · unfold exactSolve at h
      rw [dif_neg hu] at h
      cases h
  · intro disps
    unfold plasticCycle
    suffices H : ∀ (st : PlastState (2 ^ 3) 3) (s d : ℝ) (avgs : List (Matrix (Fin 3) (Fin 3) ℝ)), CycleInv N st s d → ∃ r, disps.foldlM (plasticStep (plasticObj N) (exactSolve N)) (st, avgs) = .ok r from H _ 0 0 [] (CycleInv.init N)
    induction disps with
    | nil => intro st s d avgs _; exact ⟨_, rfl⟩
    | cons d' l ih =>
      intro st s d avgs h
      obtain ⟨v, -, hv, -⟩ := h.trial hN hfine d'
      have hex : ∃ u, LoadStep (plasticObj N) st (plasticBc d') u := ⟨v, hv⟩
      obtain ⟨st', hst⟩ : ∃ st', updateStressStrain (plasticObj N) st hex.choose = .ok st' := ⟨_, update_ok (plasticObj N) st h.lengths.1 h.lengths.2 hex.choose⟩
      obtain ⟨r, hr⟩ := ih st' _ d' (avgs ++ [avgStress (plasticObj N) st']) (h.step hN hfine d' _ hex.choose_spec hst).1
      refine ⟨r, ?_⟩
      rw [List.foldlM_cons, ← hr]
      have e : plasticStep (plasticObj N) (exactSolve N) (st, avgs) d' = .ok (st', avgs ++ [avgStress (plasticObj N) st']) := by
        simp only [plasticStep, exactSolve_ok st _ hex, hst, bind, Except.bind, pure, Except.pure]
      rw [e]
      rfl

/-- **C126 (the curve of the demo).** The averaged `zz` stresses of the load cycle of the demo: elastic loading, yielding at 250, elastic unloading, and yielding in compression although the displacement is only reduced to zero. -/
theorem C126_curve : barStresses 0 0 plasticDisps = [0, 70, 140, 210, 250, 250, 250, 250, 250, 250, 250, 180, 110, 40, -30, -100, -170, -240, -250, -250, -250] := by
  have e : plasticDisps = [0, 0.01, 0.02, 0.03, 0.04, 0.05, 0.06, 0.07, 0.08, 0.09, 0.1, 0.09, 0.08, 0.07, 0.06, 0.05, 0.04, 0.03, 0.02, 0.01, 0] := by
    simp only [plasticDisps, List.range, List.range.loop, List.map_cons, List.map_nil, List.cons_append, List.nil_append, List.cons.injEq]
    norm_num
  rw [e]
  simp only [barStresses, barStep]
  norm_num

/-- **C126 (the solution of a load step is not unique).** Only the vertical displacement is prescribed, on two faces: shifting an exact solution horizontally and turning it (infinitesimally) about the vertical axis leaves the residual as
it is, in all degrees of freedom, and gives another exact solution. So the tangent matrix of every Newton step has these three motions in its kernel. -/
theorem C126_rigid (hN : ∀ a, 0 < N a) (hfine : N 2 ≤ 10000) (st : PlastState (2 ^ 3) 3) (hst : ∃ sols, plastRun (plasticObj N) sols = .ok st) (u : ℕ → Fin 3 → ℝ) (a b w : ℝ) :
    let v : ℕ → Fin 3 → ℝ := u + fun n => ![a - w * (plasticObj N).points n 1, b + w * (plasticObj N).points n 0, 0]
    (plastFem (plasticObj N) st).computeResidual v = (plastFem (plasticObj N) st).computeResidual u ∧ ∀ disp, LoadStep (plasticObj N) st (plasticBc disp) u → LoadStep (plasticObj N) st (plasticBc disp) v := by
  intro v
  obtain ⟨sols, hs⟩ := hst
  obtain ⟨st', h1, hl1, hl2, -⟩ := C30_history (by norm_num) (plasticObj N) sols
  rw [hs] at h1
  injection h1 with h1
  subst h1
  have hok : ∀ u, ∃ R, (plastFem (plasticObj N) st).computeResidual u = .ok R := by
    intro u
    refine (C13_returns _ u).mpr ⟨plasticObj_nonempty hN, ?_, ?_, ?_, ?_⟩
    · intro k hk; cases hk
    · intro k hk
      injection hk with hk
      rw [← hk]
      exact hl1
    · intro k hk; cases hk
    · intro k hk; cases hk
  obtain ⟨W, hW⟩ : ∃ W : Fin 3 → Fin 3 → ℝ, W = !![0, -w, 0; w, 0, 0; 0, 0, 0] := ⟨_, rfl⟩
  have hv : v = u + fun n i => ∑ d, W i d * (plasticObj N).points n d + (![a, b, 0] : Fin 3 → ℝ) i := by
    show (u + _) = _
    congr 1
    funext n i
    rw [hW]
    fin_cases i <;> simp [Fin.sum_univ_three] <;> ring
  have hgrad : ∀ (c : Fin 8 → ℕ), c ∈ (plasticObj N).cells → ∀ q, strain (Matrix.of ((plasticObj N).gradAt v c q)) = strain (Matrix.of ((plasticObj N).gradAt u c q)) := by
    intro c hc q
    rw [hv, gradAt_plus_affine hN u W _ c hc q]
    have h1 : (Matrix.of ((plasticObj N).gradAt u c q + W) : Matrix (Fin 3) (Fin 3) ℝ) = Matrix.of ((plasticObj N).gradAt u c q) + !![0, -w, 0; w, 0, 0; 0, 0, 0] := by rw [hW]; rfl
    rw [h1, strain_add]
    have h2 : strain (!![0, -w, 0; w, 0, 0; 0, 0, 0] : Matrix (Fin 3) (Fin 3) ℝ) = 0 := by
      ext i j
      rw [strain_apply]
      fin_cases i <;> fin_cases j <;> simp
    rw [h2, add_zero]
  have hres : (plastFem (plasticObj N) st).computeResidual v = (plastFem (plasticObj N) st).computeResidual u := by
    obtain ⟨Ru, hu⟩ := hok u
    obtain ⟨Rv, hv'⟩ := hok v
    rw [hu, hv']
    congr 1
    funext n i
    rw [C13_residual _ v Rv hv' n i, C13_residual _ u Ru hu n i]
    have hvol : ((plastFem (plasticObj N) st).cells.zipIdx.map fun p => nodal n p.1 fun a => (plastFem (plasticObj N) st).volTerm v p.1 p.2 a i) =
        (plastFem (plasticObj N) st).cells.zipIdx.map fun p => nodal n p.1 fun a => (plastFem (plasticObj N) st).volTerm u p.1 p.2 a i := by
      refine List.map_congr_left fun p hp => ?_
      have hc : p.1 ∈ (plasticObj N).cells := List.mem_of_getElem? (List.mem_zipIdx_iff_getElem?.mp (show (p.1, p.2) ∈ (plasticObj N).cells.zipIdx from hp))
      congr 1
      funext aa
      unfold Fem.volTerm
      refine sum_congr rfl fun q _ => ?_
      have hstress : (plastFem (plasticObj N) st).stress p.2 q ((plastFem (plasticObj N) st).gradAt v p.1 q) = (plastFem (plasticObj N) st).stress p.2 q ((plastFem (plasticObj N) st).gradAt u p.1 q) := by
        show returnMap (Matrix.of ((plasticObj N).gradAt v p.1 q)) ((st.sig.getD p.2 0) q) ((st.eps.getD p.2 0) q) = returnMap (Matrix.of ((plasticObj N).gradAt u p.1 q)) ((st.sig.getD p.2 0) q) ((st.eps.getD p.2 0) q)
        rw [returnMap_radial, returnMap_radial, hgrad p.1 hc q]
      rw [hstress]
      rfl
    rw [hvol]
    rfl
  refine ⟨hres, fun disp h => ?_⟩
  obtain ⟨hu1, R, hR, hu2⟩ := (loadStep_iff hN hfine st disp u).mp h
  refine (loadStep_iff hN hfine st disp v).mpr ⟨fun m hm => ?_, R, by rw [hres]; exact hR, hu2⟩
  have e : v (gridNode N m) 2 = u (gridNode N m) 2 := by
    show u (gridNode N m) 2 + 0 = _
    rw [add_zero]
  rw [e]
  exact hu1 m hm

/-- The statements are not vacuous: the mesh of the demo, its displacements, and an exact solver for which the loop returns the curve. -/
example : ∃ (solve : PlasticSolve) (r : PlastState (2 ^ 3) 3 × List (Matrix (Fin 3) (Fin 3) ℝ)), plasticCycle (plasticObj fun _ => 10) solve plasticDisps = .ok r ∧
    r.2.map (fun s => s 2 2) = [0, 70, 140, 210, 250, 250, 250, 250, 250, 250, 250, 180, 110, 40, -30, -100, -170, -240, -250, -250, -250] := by
  have hN : ∀ a : Fin 3, 0 < (fun _ => 10 : Fin 3 → ℕ) a := fun _ => by norm_num
  obtain ⟨solve, h1, h2⟩ := C126_exists (N := fun _ => 10) hN (by norm_num)
  obtain ⟨r, hr⟩ := h2 plasticDisps
  refine ⟨solve, r, hr, ?_⟩
  rw [(C126_cycle hN (by norm_num) solve h1 plasticDisps r.1 r.2 hr).1, List.map_map, C126_curve]
  simp [uniaxial, Matrix.single]

end Verif.Fem
