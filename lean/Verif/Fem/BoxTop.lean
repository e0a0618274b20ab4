import Verif.Fem.TreeTop
import Verif.Fem.Moments

/-!
# C164: the cantilever box (model of applications/fem/top_opt/box.py)
-/
namespace Verif.Fem.BoxTop
open Verif.Fem Verif.Fem.FlexTop Verif.Fem.BodyTop Finset

/-! ## Model -/

/-- `fixed_location` (box.py 35-36). -/
noncomputable def fixedLoc : Loc 3 := fun point => isclose (point 0) 0 1e-5

/-- `load_location` (box.py 38-39). -/
noncomputable def loadLoc (Lx Lz : ℝ) : Loc 3 := fun point => isclose (point 0) Lx 1e-5 && isclose (point 2) 0 (0.1 * Lz + 1e-5)

/-- `neumann_val` (box.py 44-45). -/
noncomputable def boxTraction (_ : Fin 3 → ℝ) : Fin 3 → ℝ := ![0, 0, -1e6]

/-- `dirichlet_bc_info` (box.py 41-42, 47). -/
noncomputable def boxInfo : List (Loc 3) × List ℕ × List ((Fin 3 → ℝ) → ℝ) := ([fixedLoc, fixedLoc, fixedLoc], [0, 1, 2], [fun _ => 0, fun _ => 0, fun _ => 0])

/-- `problem` (box.py 32-33, 48-49) for any size and number of cells (lines 29-30: `N = (80, 20, 40)`, `L = (2, 0.5, 1)`). -/
noncomputable def boxTop (N : Fin 3 → ℕ) (L : Fin 3 → ℝ) : Fem 8 (2 ^ 3) 6 (2 ^ 2) 3 3 := { boxObj N L with neumann := some ([loadLoc (L 0) (L 2)], [fun _ _ => boxTraction]) }

/-! ## Properties -/

theorem box_law : DensityLaw (boxMap (dim := 3)) (fun theta => simpModulus 70 70e9 3 (theta 0)) (isoStress 1 0.3) 70 70e9 :=
  simp_density _ _ _ _ _ (by norm_num) (by norm_num) (C102_iso 0.3 (by norm_num) (by norm_num)) fun g theta => isoStress_scale _ _ g

theorem top_onBox (N : Fin 3 → ℕ) (L : Fin 3 → ℝ) : OnBox (boxTop N L) N L := ⟨rfl, rfl⟩

theorem top_tables (N : Fin 3 → ℕ) (L : Fin 3 → ℝ) : CellTables (boxTop N L) hex8 (gaussRule 3) := ⟨fun _ _ => rfl, fun _ _ _ => rfl, fun _ => rfl⟩

theorem top_faces (N : Fin 3 → ℕ) (L : Fin 3 → ℝ) : FaceTables (boxTop N L) hex8 (gaussRule 2) :=
  have h := boxObj_faces N L
  { inds := h.inds, vals := h.vals, grads := h.grads, weights := h.weights, normals := h.normals }

section
variable {N : Fin 3 → ℕ} {L : Fin 3 → ℝ} (hN : ∀ a, 0 < N a) (hL : ∀ a, 0 < L a)
include hN hL

theorem size_pos (a : Fin 3) : 0 < L a / N a := div_pos (hL a) (by exact_mod_cast hN a)

/-- A box of any size and any number of cells under the load of the file is a sound object. -/
theorem top_loaded : Loaded (boxTop N L) (loadLoc (L 0) (L 2)) boxTraction := by
  have hB := top_onBox N L
  have hd : 0 < ∏ a, (L a / N a) := prod_pos fun a _ => size_pos hN hL a
  refine ⟨rfl, rfl, rfl, rfl, ?_, ?_, ?_, ?_⟩
  · intro c hc p
    obtain ⟨g, hg, rfl⟩ := (hB.mem_cells c).mp hc
    rw [mem_boxGrid] at hg
    exact gridNode_lt N _ fun b => by have := hg b; have := hexCorner_le p b; omega
  · exact List.length_pos_of_mem ((hB.mem_cells (boxCell N fun _ => 0)).mpr ⟨_, (mem_boxGrid N _).mpr fun a => hN a, rfl⟩)
  · intro p hp q
    obtain ⟨g, hg, hpg⟩ := (hB.mem_cells p.1).mp (selected_mem _ hp)
    rw [hpg, hB.faceJacobian _ (top_faces N L) g hg, Matrix.det_diagonal]
    exact hd.ne'
  · intro c hc q
    obtain ⟨g, hg, rfl⟩ := (hB.mem_cells c).mp hc
    rw [hB.JxW _ (top_tables N L) g hg]
    exact mul_pos hd (gauss_w_pos 3 q)

/-- The side `x = 0` holds the box. -/
theorem top_clamped : ∃ ns cs ws, dirichletBC (boxTop N L).numTotal (boxTop N L).points (some boxInfo) = .ok (ns, cs, ws) ∧ Clamped (boxTop N L) (groupsOf ns cs ws) := by
  set F := boxTop N L with hF
  have hB : OnBox F N L := top_onBox N L
  obtain ⟨⟨ns, cs, ws⟩, hbc⟩ := (C17_accepted F.numTotal F.points boxInfo.1 boxInfo.2.1 boxInfo.2.2).1.mpr ⟨rfl, rfl⟩
  have hv : ∀ v ∈ boxInfo.2.1, v < 3 := by
    intro v hv
    simp only [boxInfo, List.mem_cons, List.not_mem_nil, or_false] at hv
    omega
  refine ⟨ns, cs, ws, hbc, ?_, ?_, ?_, ?_⟩
  · exact C19_groups_wf (F.toProb (groupsOf ns cs ws)) (show 0 < 3 by decide) F.numTotal F.points _ _ _ ns cs ws hbc rfl
  · exact zero_prescriptions (F.toProb (groupsOf ns cs ws)) F.numTotal F.points _ _ _ (by simp [boxInfo]) ns cs ws hbc rfl
  · intro n hn
    obtain ⟨m, hm, rfl⟩ := gridNode_surj N n hn
    refine box_held hB hN hL _ 0 0 (Nat.zero_le _) (fun m hm h0 => ?_) m hm
    refine ⟨gridNode_lt N m hm, fun c hf => ?_⟩
    have hx : fixedLoc (F.points (gridNode N m)) = true := by
      show isclose (F.points (gridNode N m) 0) 0 1e-5 = true
      rw [isclose_iff, hB.point m hm 0, h0]
      norm_num
    have hu := (user_prescriptions (F.toProb (groupsOf ns cs ws)) F.points _ _ _ hv ns cs ws hbc rfl (gridNode N m) c (gridNode_lt N m hm) c.isLt).1.mp hf
    fin_cases c
    · exact hu (fixedLoc, 0, fun _ => 0) (by simp [boxInfo]) ⟨hx, rfl⟩
    · exact hu (fixedLoc, 1, fun _ => 0) (by simp [boxInfo]) ⟨hx, rfl⟩
    · exact hu (fixedLoc, 2, fun _ => 0) (by simp [boxInfo]) ⟨hx, rfl⟩
  · refine C88_rigid_hex8 _ (top_tables N L) fun c hc => ?_
    obtain ⟨g, hg, rfl⟩ := (hB.mem_cells c).mp hc
    refine ⟨fun a => g a * (L a / N a), fun a => L a / N a, fun a => (size_pos hN hL a).ne', fun p a => ?_⟩
    rw [hB.corner g hg]
    push_cast
    ring

/-- **C164 (program).** A box of any size and any number of cells: the conditions are accepted, and for all densities `p ≥ 0` the forward solve returns the discrete solution, reverse mode returns the derivative of the compliance, entry `j` is
`-3·(70e9 - 70)·p_j²` times the elastic work in cell `j` and never positive; the compliance is not negative, never grows with the densities, and full material (box.py 104) has the least one. -/
theorem C164_program (m : ℕ) (hm : m = (boxTop N L).cells.length) (lin : ℕ → LinCall ℝ → ℕ → ℝ) (hlin : ExactLin ((N 0 + 1) * (N 1 + 1) * (N 2 + 1) * 3) lin) (fuel : ℕ) :
    let F := boxTop N L
    ∃ ns cs ws, dirichletBC F.numTotal F.points (some boxInfo) = .ok (ns, cs, ws) ∧
      let D := flexProb F boxMap (groupsOf ns cs ws) (List.range m) m
      let J := D.objective lin true false fuel (complianceObj F boxTraction)
      ∀ p : Fin m → ℝ, (∀ j, 0 ≤ p j) →
        (∃ (u : ℕ → ℝ) (g : Fin m → ℝ), D.fwdPred lin true false fuel p = .ok u ∧
          (topFem F boxMap (List.range m) (rowParams p)).Solves (F.toProb (groupsOf ns cs ws)).prescriptions (fun n i => u (3 * n + i)) ∧
          D.revGrad lin true false fuel (complianceObj F boxTraction) p = .ok g ∧ HasFDerivAt J (∑ j, g j • (ContinuousLinearMap.proj j : (Fin m → ℝ) →L[ℝ] ℝ)) p ∧
          ∀ j : Fin m, g j = -(3 * (70e9 - 70) * p j ^ 2 * cellWork F (isoStress 1 0.3) (fun n i => u (3 * n + i)) (fun n i => u (3 * n + i)) (F.cells[(j : ℕ)]'(hm ▸ j.isLt))) ∧ g j ≤ 0) ∧
        0 ≤ J p ∧ (∀ p' : Fin m → ℝ, (∀ j, p j ≤ p' j) → J p' ≤ J p) ∧ ((∀ j, p j ≤ 1) → J (fun _ => 1) ≤ J p) := by
  intro F
  obtain ⟨ns, cs, ws, hbc, hcl⟩ := top_clamped hN hL
  have hld := top_loaded hN hL
  have hin : ∀ k ∈ List.range m, k < F.cells.length := fun k hk => hm ▸ List.mem_range.mp hk
  refine ⟨ns, cs, ws, hbc, ?_⟩
  intro D J p hp
  obtain ⟨u, g, h1, h2, h3, h4, h5⟩ := C160_gradient F box_law hld _ List.nodup_range (by norm_num) (groupsOf ns cs ws) hcl List.length_range hin p hp lin hlin false fuel
  obtain ⟨k1, k2, -, k4⟩ := C160_bounds F box_law hld _ List.nodup_range (by norm_num) (groupsOf ns cs ws) hcl List.length_range hin p hp lin hlin false fuel
  refine ⟨⟨u, g, h1, h2, h3, h4, fun j => ⟨?_, (h5 j).2⟩⟩, k1, k2, k4⟩
  have e : F.cells[(List.range m)[(j : ℕ)]'(by simp)]'(hin _ (List.getElem_mem _)) = F.cells[(j : ℕ)]'(hm ▸ j.isLt) := by simp only [List.getElem_range]
  have h6 := (h5 j).1
  rw [show F.cells[(List.range m)[j]'_]'_ = _ from e] at h6
  rw [h6]
  norm_num

/-- The grid points of the load: those of the side `x = Lx` in the lowest `k` layers, `k` the number of layers that fit below `0.1·Lz + 1e-5`. -/
theorem load_point (hfine : 1e-5 + 1e-5 * L 0 < L 0 / N 0) (k : ℕ) (hk : k * (L 2 / N 2) ≤ 0.1 * L 2 + 1e-5) (hk' : 0.1 * L 2 + 1e-5 < (k + 1) * (L 2 / N 2)) (m : Fin 3 → ℕ) (hm : ∀ b, m b ≤ N b) :
    loadLoc (L 0) (L 2) ((boxTop N L).points (gridNode N m)) = true ↔ m 0 = N 0 ∧ m 2 ≤ k := by
  have hB := top_onBox N L
  have h0 := size_pos hN hL 0
  have h2 := size_pos hN hL 2
  have hn : (N 0 : ℝ) ≠ 0 := by exact_mod_cast (hN 0).ne'
  show (isclose _ _ _ && isclose _ _ _) = true ↔ _
  rw [Bool.and_eq_true, isclose_iff, isclose_iff, hB.point m hm 0, hB.point m hm 2, abs_of_pos (hL 0), abs_zero, mul_zero, add_zero, sub_zero, abs_of_nonneg (mul_nonneg (Nat.cast_nonneg (m 2)) h2.le)]
  refine and_congr ?_ ?_
  · have e : (m 0 : ℝ) * (L 0 / N 0) - L 0 = -((N 0 - m 0 : ℝ) * (L 0 / N 0)) := by field_simp; ring
    have hle : (m 0 : ℝ) ≤ N 0 := by exact_mod_cast hm 0
    rw [e, abs_neg, abs_of_nonneg (mul_nonneg (by linarith) h0.le)]
    constructor
    · intro h
      by_contra hne
      have h1 : m 0 + 1 ≤ N 0 := by have := hm 0; omega
      have h1' : (m 0 : ℝ) + 1 ≤ N 0 := by exact_mod_cast h1
      have : 1 * (L 0 / N 0) ≤ (N 0 - m 0 : ℝ) * (L 0 / N 0) := mul_le_mul_of_nonneg_right (by linarith) h0.le
      linarith
    · intro h
      rw [h, sub_self, zero_mul]
      have := hL 0
      positivity
  · constructor
    · intro h
      by_contra hne
      have h1 : (k : ℝ) + 1 ≤ m 2 := by exact_mod_cast (show k + 1 ≤ m 2 by omega)
      have := mul_le_mul_of_nonneg_right h1 h2.le
      linarith
    · intro h
      have h1 : (m 2 : ℝ) ≤ k := by exact_mod_cast h
      have := mul_le_mul_of_nonneg_right h1 h2.le
      linarith

/-- **C164 (load).** With cells longer than the tolerance, the traction acts on the outer faces of the last cells in the lowest `k` layers and on nothing else; a uniform traction `t` there has the resultant `t` times the area of these layers,
and `compute_compliance` of a translation `v` is the downward load of 1e6 per area times `v`. -/
theorem C164_load (hfine : 1e-5 + 1e-5 * L 0 < L 0 / N 0) (k : ℕ) (hkN : k ≤ N 2) (hk : k * (L 2 / N 2) ≤ 0.1 * L 2 + 1e-5) (hk' : 0.1 * L 2 + 1e-5 < (k + 1) * (L 2 / N 2)) :
    let F := boxTop N L
    (∀ g : Fin 3 → ℕ, (∀ a, g a < N a) → ∀ f, F.onBoundary (loadLoc (L 0) (L 2)) (boxCell N g) f = true ↔ hexAxis f = 0 ∧ hexSide f = 1 ∧ g 0 + 1 = N 0 ∧ g 2 < k) ∧
    (∀ t v : Fin 3 → ℝ, tractionWork F (loadLoc (L 0) (L 2)) (fun _ => t) (fun _ => v) = (∑ i, t i * v i) * (L 1 * (k * (L 2 / N 2)))) ∧
    ∀ v : Fin 3 → ℝ, computeCompliance F boxTraction (fun _ => v) = .ok (-(1e6 * (L 1 * (k * (L 2 / N 2))) * v 2)) := by
  intro F
  have hB : OnBox F N L := top_onBox N L
  have ht := top_faces N L
  have hon : ∀ g : Fin 3 → ℕ, (∀ a, g a < N a) → ∀ f, F.onBoundary (loadLoc (L 0) (L 2)) (boxCell N g) f = true ↔ hexAxis f = 0 ∧ hexSide f = 1 ∧ g 0 + 1 = N 0 ∧ g 2 < k := by
    intro g hg f
    have hp : ∀ p, loadLoc (L 0) (L 2) (F.coos (boxCell N g) p) = true ↔ g 0 + Verif.Mesh.hexCorner p 0 = N 0 ∧ g 2 + Verif.Mesh.hexCorner p 2 ≤ k := fun p =>
      load_point hN hL hfine k hk hk' _ fun b => by have := hg b; have := hexCorner_le p b; omega
    unfold Fem.onBoundary
    rw [List.all_eq_true]
    simp only [hp, faceInds_hex8 F _ ht]
    have hg0 := hg 0
    constructor
    · intro hall
      have hex : ∀ f, (hexAxis f = 0 ∧ hexSide f = 1 ∧ ∃ p, Verif.Mesh.hexCorner p (hexAxis f) = hexSide f ∧ Verif.Mesh.hexCorner p 0 = 1 ∧ Verif.Mesh.hexCorner p 2 = 1) ∨
        ∃ p, Verif.Mesh.hexCorner p (hexAxis f) = hexSide f ∧ Verif.Mesh.hexCorner p 0 = 0 := by decide
      rcases hex f with ⟨h1, h2, p, h3, h4, h5⟩ | ⟨p, h3, h4⟩
      · have := hall p h3
        exact ⟨h1, h2, by omega, by omega⟩
      · have := hall p h3
        omega
    · rintro ⟨h1, h2, h3, h4⟩ p h5
      rw [h1, h2] at h5
      have := hexCorner_le p 2
      omega
  suffices hw : ∀ t v : Fin 3 → ℝ, tractionWork F (loadLoc (L 0) (L 2)) (fun _ => t) (fun _ => v) = (∑ i, t i * v i) * (L 1 * (k * (L 2 / N 2))) by
    refine ⟨hon, hw, fun v => ?_⟩
    rw [(C103_compliance F _ [] _ (top_loaded hN hL).neumann boxTraction fun _ => v).1 (top_loaded hN hL).faces, show boxTraction = fun _ => ![0, 0, -1e6] from rfl, hw]
    congr 1
    simp [Fin.sum_univ_three]
    ring
  intro t v
  unfold tractionWork
  rw [selected_sum F (loadLoc (L 0) (L 2)) fun p => ∑ q, (∑ i, t i * F.uFace (fun _ => v) p q i) * F.nansonScale p.1 p.2 q, hB.sum_cells]
  have hu : ∀ p q i, F.uFace (fun _ => v) p q i = v i := by
    intro p q i
    unfold Fem.uFace
    rw [← mul_sum, faceTables_valSum F "HEX8" (by decide) hex8 getElements_hex8 (by decide) _ ht, mul_one]
  have hcell : ∀ g ∈ boxGrid N, (∑ f, if F.onBoundary (loadLoc (L 0) (L 2)) (boxCell N g) f = true then ∑ q, (∑ i, t i * F.uFace (fun _ => v) (boxCell N g, f) q i) * F.nansonScale (boxCell N g) f q else 0) =
      if g 0 + 1 = N 0 ∧ g 2 < k then (∑ i, t i * v i) * ((L 1 / N 1) * (L 2 / N 2)) else 0 := by
    intro g hg
    have hf : ∃ f, (hexAxis f = 0 ∧ hexSide f = 1) ∧ ∀ f', hexAxis f' = 0 ∧ hexSide f' = 1 → f' = f := by decide
    obtain ⟨f, hf, hf'⟩ := hf
    have hg' := (mem_boxGrid N g).mp hg
    rw [sum_eq_single f]
    · simp only [hon g hg', hf.1, hf.2, true_and, hu, nansonScale_box F hB _ ht hN hL g hg f]
      refine if_congr Iff.rfl ?_ rfl
      rw [← mul_sum, ← sum_mul, gaussRule_sum, one_mul, show (univ.erase (0 : Fin 3)) = {1, 2} by decide, prod_pair (by decide)]
    · intro f' _ hne
      exact if_neg fun h => hne (hf' f' ⟨((hon g hg' f').mp h).1, ((hon g hg' f').mp h).2.1⟩)
    · exact fun h => absurd (mem_univ f) h
  rw [sum_congr rfl hcell, ← sum_filter, sum_const, nsmul_eq_mul]
  have hcard : ((boxGrid N).filter fun g => g 0 + 1 = N 0 ∧ g 2 < k) = Fintype.piFinset ![{N 0 - 1}, range (N 1), range k] := by
    ext g
    have := hN 0
    simp only [mem_filter, mem_boxGrid, Fintype.mem_piFinset, Fin.forall_fin_succ, IsEmpty.forall_iff]
    simp
    omega
  have hn : (N 1 : ℝ) ≠ 0 := by exact_mod_cast (hN 1).ne'
  rw [hcard, Fintype.card_piFinset, Fin.prod_univ_three]
  simp
  field_simp

end

/-- The box of the file: 80 × 20 × 40 cells; four layers carry the load, 50 kN downwards. -/
example (v : Fin 3 → ℝ) : computeCompliance (boxTop ![80, 20, 40] ![2, 0.5, 1]) boxTraction (fun _ => v) = .ok (-50000 * v 2) := by
  have h := (C164_load (N := ![80, 20, 40]) (L := ![2, 0.5, 1]) (by decide) (by intro a; fin_cases a <;> norm_num) (by norm_num) 4 (by decide) (by show (4 : ℕ) * ((1 : ℝ) / (40 : ℕ)) ≤ 0.1 * 1 + 1e-5; norm_num) (by show 0.1 * (1 : ℝ) + 1e-5 < ((4 : ℕ) + 1) * ((1 : ℝ) / (40 : ℕ)); norm_num)).2.2 v
  rw [h, show (![2, 0.5, 1] : Fin 3 → ℝ) 1 = 0.5 from rfl, show (![2, 0.5, 1] : Fin 3 → ℝ) 2 = 1 from rfl, show (![80, 20, 40] : Fin 3 → ℕ) 2 = 40 from rfl]
  refine congrArg Except.ok ?_
  norm_num

/-- One cell, no density at all: the derivative exists and is 0. -/
example (lin : ℕ → LinCall ℝ → ℕ → ℝ) (hlin : ExactLin 24 lin) : ∃ ns cs ws, ∃ g : Fin 1 → ℝ,
    (flexProb (boxTop (fun _ => 1) fun _ => 1) boxMap (groupsOf ns cs ws) (List.range 1) 1).revGrad lin true false 0 (complianceObj (boxTop (fun _ => 1) fun _ => 1) boxTraction) (fun _ => 0) = .ok g ∧ g 0 = 0 := by
  obtain ⟨ns, cs, ws, -, h⟩ := C164_program (N := fun _ => 1) (L := fun _ => 1) (by simp) (by simp) 1 rfl lin hlin 0
  obtain ⟨⟨u, g, -, -, h3, -, h5⟩, -⟩ := h (fun _ => 0) fun _ => le_refl _
  exact ⟨ns, cs, ws, g, h3, by rw [(h5 0).1]; norm_num⟩

end Verif.Fem.BoxTop
