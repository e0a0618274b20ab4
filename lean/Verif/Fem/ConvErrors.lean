import Verif.Fem.Convergence
import Mathlib.Analysis.SpecialFunctions.Log.Base
import Mathlib.Analysis.SpecialFunctions.ExpDeriv

/-!
# C148: error norms of the convergence study
-/
namespace Verif.Fem.Conv
open Finset Verif.SourceId Verif.Mesh

variable {nf nfq : ℕ} {F : Fem 8 (2 ^ 3) nf nfq 3 1} {N : Fin 3 → ℕ} {L : Fin 3 → ℝ}

/-- Specification: trilinear cells with the 2x2x2 rule on a box with `N` cells and edges `L`. -/
structure Grid (F : Fem 8 (2 ^ 3) nf nfq 3 1) (N : Fin 3 → ℕ) (L : Fin 3 → ℝ) : Prop where
  box : OnBox F N L
  num : F.numTotal = (N 0 + 1) * (N 1 + 1) * (N 2 + 1)
  tables : CellTables F hex8 (gaussRule 3)
  posN : ∀ a, 0 < N a
  posL : ∀ a, 0 < L a

/-- Specification: `s` is returned by `sol = solver(problem, linear=True, precond=True)` (example.py 59) or one of the other variants of the solver, the linear systems being solved exactly. -/
def Computed (F : Fem 8 (2 ^ 3) nf nfq 3 1) (L : Fin 3 → ℝ) (u : (Fin 3 → ℝ) → ℝ) (s : ℕ → ℝ) : Prop :=
  ∃ usePetsc lin, (convProb F L u).ExactFor usePetsc lin ∧ ∃ precond guess fuel, (convProb F L u).rowSolver realArith lin true precond usePetsc guess fuel = .ok s

/-- `l2_error = problem.compute_l2_norm_error(sol, true_u_fn)` (example.py 65; models.py 12-20). -/
noncomputable def l2 (F : Fem 8 (2 ^ 3) nf nfq 3 1) (u : (Fin 3 → ℝ) → ℝ) (s : ℕ → ℝ) : ℝ := (convObj F u).l2Error (fun n _ => s n) fun x _ => u x

/-- `h1_error = problem.compute_h1_norm_error(sol, true_u_fn)` (example.py 66; models.py 22-37). -/
noncomputable def h1 (F : Fem 8 (2 ^ 3) nf nfq 3 1) (u : (Fin 3 → ℝ) → ℝ) (s : ℕ → ℝ) : ℝ := (convObj F u).h1Error (fun n _ => s n) fun x _ => u x

theorem Grid.mesh (G : Grid F N L) : SourceId.Mesh F L := C139_box F N L G.box G.num G.posN G.posL G.tables

theorem Grid.h_pos (G : Grid F N L) (a : Fin 3) : 0 < L a / (N a : ℝ) := div_pos (G.posL a) (by exact_mod_cast G.posN a)

theorem true_wf (F : Fem 8 (2 ^ 3) nf nfq 3 1) (L : Fin 3 → ℝ) (u : (Fin 3 → ℝ) → ℝ) : (convProb F L u).WF := by
  obtain ⟨N, C, W, h, hg⟩ := trueGroups_ok F L u
  exact C19_groups_wf (convProb F L u) (by show 0 < 1; omega) F.numTotal F.points _ _ _ N C W h hg

theorem true_solution (G : Grid F N L) (u : (Fin 3 → ℝ) → ℝ) (usePetsc : Bool) :
    (∃ lin, (convProb F L u).ExactFor usePetsc lin) ∧ ∀ lin, (convProb F L u).ExactFor usePetsc lin → ∀ (precond : Bool) (guess : Option (ℕ → ℝ)) (fuel : ℕ),
      ∃ s, (convProb F L u).rowSolver realArith lin true precond usePetsc guess fuel = .ok s ∧ (convObj F u).Solves (convProb F L u).prescriptions (fun n i => s (1 * n + i)) ∧
        ∀ t, (convObj F u).Solves (convProb F L u).prescriptions t → ∀ n < F.numTotal, ∀ i : Fin 1, s (1 * n + i) = t n i :=
  C87_solution (convObj F u) (linear F _ _) (trueGroups F L u) (true_wf F L u) G.mesh.nodes ⟨0, returns F G.mesh.cells _ _ _⟩ (true_determined F L G.mesh u) usePetsc

/-- **C148 (solver).** An exact linear solver exists, and with every exact linear solver the program gets a solution. -/
theorem C148_returns (G : Grid F N L) (u : (Fin 3 → ℝ) → ℝ) (usePetsc : Bool) :
    (∃ lin, (convProb F L u).ExactFor usePetsc lin) ∧ ∀ lin, (convProb F L u).ExactFor usePetsc lin → ∀ precond guess fuel,
      ∃ s, (convProb F L u).rowSolver realArith lin true precond usePetsc guess fuel = .ok s ∧ Computed F L u s := by
  obtain ⟨h1, h2⟩ := true_solution G u usePetsc
  refine ⟨h1, fun lin hlin precond guess fuel => ?_⟩
  obtain ⟨s, hs, -⟩ := h2 lin hlin precond guess fuel
  exact ⟨s, hs, usePetsc, lin, hlin, precond, guess, fuel, hs⟩

theorem Computed.solves (G : Grid F N L) {u : (Fin 3 → ℝ) → ℝ} {s : ℕ → ℝ} (h : Computed F L u s) : (convObj F u).Solves (convProb F L u).prescriptions (fun n _ => s n) ∧
    ∀ t : ℕ → ℝ, (convObj F u).Solves (convProb F L u).prescriptions (fun n _ => t n) → ∀ n < F.numTotal, s n = t n := by
  obtain ⟨usePetsc, lin, hlin, precond, guess, fuel, hs⟩ := h
  obtain ⟨s', hs', h1, h2⟩ := (true_solution G u usePetsc).2 lin hlin precond guess fuel
  rw [hs] at hs'
  injection hs' with e
  subst e
  rw [flat_one] at h1
  refine ⟨h1, fun t ht n hn => ?_⟩
  have := h2 _ ht n hn 0
  simpa using this

/-- **C148 (nodal values).** On a box of cubes of size `h` the values at the nodes differ from those of the true solution by at most `L²/8 · Σ M h²/6`, where `M` bounds the fourth derivatives and `L` is any of the edges. -/
theorem C148_nodes (G : Grid F N L) {h : ℝ} (hc : Cubes N L h) {p : Fin 3 → ℝ → ℝ} (hp : ∀ d, ContDiff ℝ 4 (p d)) (M : Fin 3 → ℝ) (hM : ∀ d, ∀ t ∈ Set.Icc 0 (L d), |iteratedDeriv 4 (p d) t| ≤ M d)
    (s : ℕ → ℝ) (hs : Computed F L (addField p) s) (a : Fin 3) (n : ℕ) (hn : n < F.numTotal) : |s n - addField p (F.points n)| ≤ L a ^ 2 / 8 * (∑ d, M d * h ^ 2 / 6) :=
  nodal_error G.box G.num G.tables G.posN G.posL hc hp M hM s (hs.solves G).1 a n hn

/-- **C148 (cubic solutions).** On every box, cubes or not, the nodal values are exact if the fourth derivatives are zero. -/
theorem C148_exact (G : Grid F N L) {p : Fin 3 → ℝ → ℝ} (hp : ∀ d, ContDiff ℝ 4 (p d)) (h4 : ∀ d, ∀ t ∈ Set.Icc 0 (L d), iteratedDeriv 4 (p d) t = 0) (s : ℕ → ℝ) (hs : Computed F L (addField p) s) (n : ℕ)
    (hn : n < F.numTotal) : s n = addField p (F.points n) := by
  refine (hs.solves G).2 (fun n => addField p (F.points n)) ?_ n hn
  obtain ⟨R, hR⟩ := returns F G.mesh.cells (some fun x _ => bodyForce (addField p) x) none fun n _ => addField p (F.points n)
  refine ⟨R, hR, fun n hn i => ?_⟩
  rw [Fin.fin_one_eq_zero i]
  have hpr := true_prescribed F L (addField p) n hn
  refine ⟨fun v hv => (hpr.2 v hv).symm, fun hf => ?_⟩
  have hface := hpr.1.mp hf
  have hn' : n < F.numTotal := hn
  rw [G.num] at hn'
  obtain ⟨m, hm, rfl⟩ := gridNode_surj N n hn'
  have hin := onFace_outer G.box G.posN m hm hface
  rw [residual_inner G.box (bodyForce (addField p)) _ R hR m hin, residual_true G.box G.tables G.posN G.posL hp m hin, sum_eq_zero fun d _ => ?_, mul_zero]
  have hi := grid_Icc G.posN G.posL hin d
  have := defect_abs (hp d) (x := m d * (L d / N d)) (h := L d / N d) (M := 0) (G.h_pos d) fun t ht => by rw [h4 d t ⟨hi.1.trans ht.1, ht.2.trans hi.2⟩, abs_zero]
  rw [zero_mul, zero_div] at this
  exact abs_eq_zero.mp (le_antisymm this (abs_nonneg _))

/-! ## Values and gradients at the quadrature points -/

theorem val_sub (s t : ℕ → ℝ) (c : Fin 8 → ℕ) (q : Fin (2 ^ 3)) : SourceId.val F (fun n => s n - t n) c q = SourceId.val F s c q - SourceId.val F t c q := by
  unfold SourceId.val
  rw [← sum_sub_distrib]
  exact sum_congr rfl fun a _ => by ring

theorem slope_sub (s t : ℕ → ℝ) (c : Fin 8 → ℕ) (q : Fin (2 ^ 3)) (d : Fin 3) : SourceId.slope F (fun n => s n - t n) c q d = SourceId.slope F s c q d - SourceId.slope F t c q d := by
  unfold SourceId.slope
  rw [← sum_sub_distrib]
  exact sum_congr rfl fun a _ => by ring

theorem true_additive (G : Grid F N L) (p : Fin 3 → ℝ → ℝ) : Additive N (fun d i => p d ((i : ℝ) * (L d / N d))) fun n => addField p (F.points n) := fun m hm => by
  unfold addField
  exact sum_congr rfl fun d _ => by rw [G.box.point m hm d]

theorem pt_gauss (q : Fin (2 ^ 3)) (d : Fin 3) : (gaussRule 3).pt q d * (1 - (gaussRule 3).pt q d) = 1 / 6 ∧ 0 ≤ (gaussRule 3).pt q d ∧ (gaussRule 3).pt q d ≤ 1 := by
  obtain ⟨-, -, h⟩ := gauss_facts
  have := h ((q : ℕ).testBit (3 - 1 - d))
  exact ⟨this.2.2, this.1, this.2.1⟩

theorem cell_Icc (G : Grid F N L) {g : Fin 3 → ℕ} (hg : g ∈ boxGrid N) (d : Fin 3) : 0 ≤ (g d : ℝ) * (L d / N d) ∧ (g d : ℝ) * (L d / N d) + L d / N d ≤ L d := by
  have hh := G.h_pos d
  have h2 : (g d : ℝ) + 1 ≤ N d := by exact_mod_cast (mem_boxGrid _ _).mp hg d
  have e : (N d : ℝ) * (L d / N d) = L d := mul_div_cancel₀ _ (by exact_mod_cast (G.posN d).ne')
  exact ⟨by positivity, by nlinarith⟩

theorem val_bound (G : Grid F N L) {e : ℕ → ℝ} {E : ℝ} (c : Fin 8 → ℕ) (he : ∀ a, |e (c a)| ≤ E) (q : Fin (2 ^ 3)) : |SourceId.val F e c q| ≤ E := by
  unfold SourceId.val
  refine (abs_sum_le_sum_abs _ _).trans ?_
  have : ∀ a, |e (c a) * F.shapeVals q a| ≤ E * F.shapeVals q a := fun a => by
    have hp : 0 ≤ F.shapeVals q a := by rw [G.tables.vals]; exact (hex8_pos q a).le
    rw [abs_mul, abs_of_nonneg hp]
    exact mul_le_mul_of_nonneg_right (he a) hp
  refine (sum_le_sum fun a _ => this a).trans ?_
  rw [← mul_sum, G.mesh.unity, mul_one]

theorem slope_bound (G : Grid F N L) {e : ℕ → ℝ} {E : ℝ} (g : Fin 3 → ℕ) (hg : g ∈ boxGrid N) (he : ∀ a, |e (boxCell N g a)| ≤ E) (q : Fin (2 ^ 3)) (d : Fin 3) : |SourceId.slope F e (boxCell N g) q d| ≤ 2 * E / (L d / N d) := by
  unfold SourceId.slope
  refine (abs_sum_le_sum_abs _ _).trans ?_
  have hh := G.h_pos d
  have hl : ∀ (t : ℕ) (x : ℝ), 0 ≤ x → x ≤ 1 → 0 ≤ lin t x := fun t x h0 h1 => by unfold lin; split_ifs <;> linarith
  have habs : ∀ a : Fin 8, |shapeGradRef hex8 a ((gaussRule 3).pt q) d| = Verif.Fem.slope (hexCorner a d) * shapeGradRef hex8 a ((gaussRule 3).pt q) d := fun a => by
    rw [shapeGradRef_hex8, abs_mul, abs_of_nonneg (prod_nonneg fun b _ => hl _ _ (pt_gauss q b).2.1 (pt_gauss q b).2.2)]
    have := hexCorner_le a d
    interval_cases hexCorner a d <;> simp [Verif.Fem.slope]
  have hsum : ∑ a : Fin 8, |shapeGradRef hex8 a ((gaussRule 3).pt q) d| = 2 := by
    have := corner_grad (fun e t => if e = d then Verif.Fem.slope t else 0) ((gaussRule 3).pt q) d
    simp only [if_true, sum_ite_eq', mem_univ] at this
    rw [sum_congr rfl fun a _ => habs a]
    rw [this, slope_one, slope_zero]
    norm_num
  have : ∀ a, |e (boxCell N g a) * F.shapeGrad (boxCell N g) q a d| ≤ E * (|shapeGradRef hex8 a ((gaussRule 3).pt q) d| * (L d / N d)⁻¹) := fun a => by
    rw [abs_mul, G.box.shapeGrad _ G.tables G.posN G.posL g hg, abs_mul, abs_of_pos (inv_pos.mpr hh)]
    exact mul_le_mul_of_nonneg_right (he a) (by positivity)
  refine (sum_le_sum fun a _ => this a).trans ?_
  rw [← mul_sum, ← sum_mul, hsum, div_eq_mul_inv _ (L d / (N d : ℝ))]
  linarith

theorem point_error (G : Grid F N L) {p : Fin 3 → ℝ → ℝ} (hp : ∀ d, ContDiff ℝ 4 (p d)) (M : Fin 3 → ℝ) (hM : ∀ d, ∀ t ∈ Set.Icc 0 (L d), |iteratedDeriv 2 (p d) t| ≤ M d) {s : ℕ → ℝ} {E : ℝ}
    (he : ∀ n < F.numTotal, |s n - addField p (F.points n)| ≤ E) (g : Fin 3 → ℕ) (hg : g ∈ boxGrid N) (q : Fin (2 ^ 3)) :
    |SourceId.val F s (boxCell N g) q - addField p (F.xAt (boxCell N g) q)| ≤ E + ∑ d, M d * (L d / N d) ^ 2 / 12 := by
  have h1 := val_bound G (e := fun n => s n - addField p (F.points n)) (boxCell N g) (fun a => he _ (G.mesh.nodes _ ((G.box.mem_cells _).mpr ⟨g, hg, rfl⟩) a)) q
  rw [val_sub s (fun n => addField p (F.points n))] at h1
  have h2 : |SourceId.val F (fun n => addField p (F.points n)) (boxCell N g) q - addField p (F.xAt (boxCell N g) q)| ≤ ∑ d, M d * (L d / N d) ^ 2 / 12 := by
    rw [val_add G.tables (true_additive G p) g hg q, addField, ← sum_sub_distrib]
    refine (abs_sum_le_sum_abs _ _).trans (sum_le_sum fun d _ => ?_)
    have hd := fun k hk t => hasD (n := 4) (by exact_mod_cast hp d) k hk t
    have d0 : ∀ t, HasDerivAt (p d) (iteratedDeriv 1 (p d) t) t := fun t => by
      have := hd 0 (by norm_num) t
      rwa [iteratedDeriv_zero] at this
    obtain ⟨k1, k2, k3⟩ := pt_gauss q d
    have hi := cell_Icc G hg d
    have := interp_abs d0 (hd 1 (by norm_num)) (a := (g d : ℝ) * (L d / N d)) (h := L d / N d) (M := M d) (ξ := (gaussRule 3).pt q d) (G.h_pos d).le (fun t ht => hM d t ⟨hi.1.trans ht.1, ht.2.trans hi.2⟩) k2 k3
    rw [k1] at this
    rw [xAt_box G.box G.tables g hg q d]
    push_cast
    rw [add_mul, one_mul, add_mul]
    linarith
  have := abs_add_le (SourceId.val F s (boxCell N g) q - SourceId.val F (fun n => addField p (F.points n)) (boxCell N g) q) (SourceId.val F (fun n => addField p (F.points n)) (boxCell N g) q - addField p (F.xAt (boxCell N g) q))
  rw [sub_add_sub_cancel] at this
  linarith

theorem jac_add {p : Fin 3 → ℝ → ℝ} (hp : ∀ d, ContDiff ℝ 4 (p d)) (x : Fin 3 → ℝ) (d : Fin 3) : jacRev (fun x (_ : Fin 1) => addField p x) x 0 d = iteratedDeriv 1 (p d) (x d) := by
  unfold jacRev
  have d0 := hasD (n := 4) (p := p d) (by exact_mod_cast hp d) 0 (by norm_num) (x d + 0)
  rw [iteratedDeriv_zero] at d0
  simp only [addField_line]
  have := ((d0.comp_const_add (x d) 0).add_const (∑ e ∈ univ.erase d, p e (x e))).deriv
  rw [this, add_zero]

theorem grad_error (G : Grid F N L) {p : Fin 3 → ℝ → ℝ} (hp : ∀ d, ContDiff ℝ 4 (p d)) (M : Fin 3 → ℝ) (hM : ∀ d, ∀ t ∈ Set.Icc 0 (L d), |iteratedDeriv 2 (p d) t| ≤ M d) {s : ℕ → ℝ} {E : ℝ}
    (he : ∀ n < F.numTotal, |s n - addField p (F.points n)| ≤ E) (g : Fin 3 → ℕ) (hg : g ∈ boxGrid N) (q : Fin (2 ^ 3)) (d : Fin 3) :
    |SourceId.slope F s (boxCell N g) q d - jacRev (fun x (_ : Fin 1) => addField p x) (F.xAt (boxCell N g) q) 0 d| ≤ 2 * E / (L d / N d) + M d * (L d / N d) := by
  have h1 := slope_bound G (e := fun n => s n - addField p (F.points n)) g hg (fun a => he _ (G.mesh.nodes _ ((G.box.mem_cells _).mpr ⟨g, hg, rfl⟩) a)) q d
  rw [slope_sub s (fun n => addField p (F.points n))] at h1
  have h2 : |SourceId.slope F (fun n => addField p (F.points n)) (boxCell N g) q d - jacRev (fun x (_ : Fin 1) => addField p x) (F.xAt (boxCell N g) q) 0 d| ≤ M d * (L d / N d) := by
    rw [slope_add G.box G.tables G.posN G.posL (true_additive G p) g hg q d, jac_add hp, xAt_box G.box G.tables g hg q d]
    push_cast
    rw [add_mul, one_mul, add_mul]
    have hi := cell_Icc G hg d
    obtain ⟨k1, k2, k3⟩ := pt_gauss q d
    have hh := G.h_pos d
    refine slope_abs (hp d) hh ⟨?_, ?_⟩ fun t ht => hM d t ⟨hi.1.trans ht.1, ht.2.trans hi.2⟩
    · have := mul_nonneg k2 hh.le
      linarith
    · have := mul_le_mul_of_nonneg_right k3 hh.le
      linarith
  have := abs_add_le (SourceId.slope F s (boxCell N g) q d - SourceId.slope F (fun n => addField p (F.points n)) (boxCell N g) q d)
    (SourceId.slope F (fun n => addField p (F.points n)) (boxCell N g) q d - jacRev (fun x (_ : Fin 1) => addField p x) (F.xAt (boxCell N g) q) 0 d)
  rw [sub_add_sub_cancel] at this
  linarith

/-! ## Sums over the cells -/

theorem total_volume (G : Grid F N L) : ∑ g ∈ boxGrid N, ∑ q, F.JxW (boxCell N g) q = ∏ a, L a := by
  have h1 : ∀ g ∈ boxGrid N, ∑ q, F.JxW (boxCell N g) q = ∏ a, (L a / N a) := fun g hg => by
    simp only [G.box.JxW _ G.tables g hg]
    rw [← mul_sum, gaussRule_sum, mul_one]
  rw [sum_congr rfl h1, sum_const, nsmul_eq_mul]
  unfold boxGrid
  rw [Fintype.card_piFinset]
  push_cast
  simp only [card_range]
  rw [← prod_mul_distrib]
  exact prod_congr rfl fun a _ => mul_div_cancel₀ _ (by exact_mod_cast (G.posN a).ne')

theorem l2_eq (G : Grid F N L) (u : (Fin 3 → ℝ) → ℝ) (s : ℕ → ℝ) : l2 F u s = Real.sqrt (∑ g ∈ boxGrid N, ∑ q, (SourceId.val F s (boxCell N g) q - u (F.xAt (boxCell N g) q)) ^ 2 * F.JxW (boxCell N g) q) := by
  unfold l2
  rw [l2Error_eq]
  refine congrArg _ ?_
  rw [← G.box.sum_cells fun c => ∑ q, (SourceId.val F s c q - u (F.xAt c q)) ^ 2 * F.JxW c q]
  simp only [univ_unique, sum_singleton]
  rfl

theorem h1_eq (G : Grid F N L) (u : (Fin 3 → ℝ) → ℝ) (s : ℕ → ℝ) : h1 F u s = l2 F u s + Real.sqrt (∑ g ∈ boxGrid N, ∑ q, (∑ d, (SourceId.slope F s (boxCell N g) q d - jacRev (fun x (_ : Fin 1) => u x) (F.xAt (boxCell N g) q) 0 d) ^ 2) * F.JxW (boxCell N g) q) := by
  unfold h1
  rw [h1Error_eq]
  refine congrArg₂ (· + ·) rfl (congrArg _ ?_)
  rw [← G.box.sum_cells fun c => ∑ q, (∑ d, (SourceId.slope F s c q d - jacRev (fun x (_ : Fin 1) => u x) (F.xAt c q) 0 d) ^ 2) * F.JxW c q]
  simp only [univ_unique, sum_singleton, sum_mul]
  rfl

theorem JxW_pos (G : Grid F N L) {g : Fin 3 → ℕ} (hg : g ∈ boxGrid N) (q : Fin (2 ^ 3)) : 0 < F.JxW (boxCell N g) q := G.mesh.vol _ ((G.box.mem_cells _).mpr ⟨g, hg, rfl⟩) q

theorem sum_bound (G : Grid F N L) {X : (Fin 3 → ℕ) → Fin (2 ^ 3) → ℝ} {K : ℝ} (h : ∀ g ∈ boxGrid N, ∀ q, X g q ≤ K) : ∑ g ∈ boxGrid N, ∑ q, X g q * F.JxW (boxCell N g) q ≤ K * ∏ a, L a := by
  rw [← total_volume G, mul_sum]
  refine sum_le_sum fun g hg => ?_
  rw [mul_sum]
  exact sum_le_sum fun q _ => mul_le_mul_of_nonneg_right (h g hg q) (JxW_pos G hg q).le

theorem sum_const_eq (G : Grid F N L) {X : (Fin 3 → ℕ) → Fin (2 ^ 3) → ℝ} {K : ℝ} (h : ∀ g ∈ boxGrid N, ∀ q, X g q = K) : ∑ g ∈ boxGrid N, ∑ q, X g q * F.JxW (boxCell N g) q = K * ∏ a, L a := by
  rw [← total_volume G, mul_sum]
  refine sum_congr rfl fun g hg => ?_
  rw [mul_sum]
  exact sum_congr rfl fun q _ => by rw [h g hg q]

theorem prodL_pos (G : Grid F N L) : 0 < ∏ a, L a := prod_pos fun a _ => G.posL a

/-- **C148 (second order).** On cubes of size `h` the `l2_error` of every solution with bounded derivatives is at most a constant times `h²`. -/
theorem C148_l2 (G : Grid F N L) {h : ℝ} (hc : Cubes N L h) {p : Fin 3 → ℝ → ℝ} (hp : ∀ d, ContDiff ℝ 4 (p d)) (M2 M4 : Fin 3 → ℝ) (hM2 : ∀ d, ∀ t ∈ Set.Icc 0 (L d), |iteratedDeriv 2 (p d) t| ≤ M2 d)
    (hM4 : ∀ d, ∀ t ∈ Set.Icc 0 (L d), |iteratedDeriv 4 (p d) t| ≤ M4 d) (s : ℕ → ℝ) (hs : Computed F L (addField p) s) (a : Fin 3) :
    l2 F (addField p) s ≤ (L a ^ 2 / 48 * ∑ d, M4 d + (∑ d, M2 d) / 12) * Real.sqrt (∏ a, L a) * h ^ 2 := by
  have he := C148_nodes G hc hp M4 hM4 s hs a
  set B := (L a ^ 2 / 48 * ∑ d, M4 d + (∑ d, M2 d) / 12) * h ^ 2 with hB
  have hpt : ∀ g ∈ boxGrid N, ∀ q, |SourceId.val F s (boxCell N g) q - addField p (F.xAt (boxCell N g) q)| ≤ B := fun g hg q => by
    refine (point_error G hp M2 hM2 he g hg q).trans (le_of_eq ?_)
    simp only [show ∀ d, L d / (N d : ℝ) = h from hc]
    rw [hB, ← sum_div, ← sum_mul, ← sum_div, ← sum_mul]
    ring
  have hB0 : 0 ≤ B := (abs_nonneg _).trans (hpt (fun _ => 0) ((mem_boxGrid _ _).mpr G.posN) 0)
  rw [l2_eq G, show (L a ^ 2 / 48 * ∑ d, M4 d + (∑ d, M2 d) / 12) * Real.sqrt (∏ a, L a) * h ^ 2 = B * Real.sqrt (∏ a, L a) by rw [hB]; ring]
  refine (Real.sqrt_le_sqrt (sum_bound G (K := B ^ 2) fun g hg q => ?_)).trans ?_
  · rw [← sq_abs]
    exact pow_le_pow_left₀ (abs_nonneg _) (hpt g hg q) 2
  · rw [Real.sqrt_mul (sq_nonneg B), Real.sqrt_sq hB0]

/-- **C148 (first order).** ... and the gradient part of the `h1_error` at most a constant times `h`. -/
theorem C148_h1 (G : Grid F N L) {h : ℝ} (hc : Cubes N L h) {p : Fin 3 → ℝ → ℝ} (hp : ∀ d, ContDiff ℝ 4 (p d)) (M2 M4 : Fin 3 → ℝ) (hM2 : ∀ d, ∀ t ∈ Set.Icc 0 (L d), |iteratedDeriv 2 (p d) t| ≤ M2 d)
    (hM4 : ∀ d, ∀ t ∈ Set.Icc 0 (L d), |iteratedDeriv 4 (p d) t| ≤ M4 d) (s : ℕ → ℝ) (hs : Computed F L (addField p) s) (a : Fin 3) :
    h1 F (addField p) s ≤ (L a ^ 2 / 48 * ∑ d, M4 d + (∑ d, M2 d) / 12) * Real.sqrt (∏ a, L a) * h ^ 2
      + Real.sqrt ((∑ d, (L a ^ 2 / 24 * (∑ e, M4 e) + M2 d) ^ 2) * ∏ a, L a) * h := by
  have he := C148_nodes G hc hp M4 hM4 s hs a
  have h0 : 0 < h := by rw [← hc 0]; exact G.h_pos 0
  rw [h1_eq G]
  refine add_le_add (C148_l2 G hc hp M2 M4 hM2 hM4 s hs a) ?_
  have hpt : ∀ g ∈ boxGrid N, ∀ q d, |SourceId.slope F s (boxCell N g) q d - jacRev (fun x (_ : Fin 1) => addField p x) (F.xAt (boxCell N g) q) 0 d| ≤ (L a ^ 2 / 24 * (∑ e, M4 e) + M2 d) * h := fun g hg q d => by
    refine (grad_error G hp M2 hM2 he g hg q d).trans (le_of_eq ?_)
    rw [hc d, ← sum_div, ← sum_mul]
    field_simp
    ring
  refine (Real.sqrt_le_sqrt (sum_bound G (K := (∑ d, (L a ^ 2 / 24 * (∑ e, M4 e) + M2 d) ^ 2) * h ^ 2) fun g hg q => ?_)).trans ?_
  · rw [sum_mul]
    refine sum_le_sum fun d _ => ?_
    rw [← sq_abs, ← mul_pow]
    exact pow_le_pow_left₀ (abs_nonneg _) (hpt g hg q d) 2
  · rw [show (∑ d, (L a ^ 2 / 24 * (∑ e, M4 e) + M2 d) ^ 2) * h ^ 2 * ∏ a, L a = ((∑ d, (L a ^ 2 / 24 * (∑ e, M4 e) + M2 d) ^ 2) * ∏ a, L a) * h ^ 2 by ring,
      Real.sqrt_mul (mul_nonneg (sum_nonneg fun _ _ => sq_nonneg _) (prodL_pos G).le), Real.sqrt_sq h0.le]

/-! ## Explicit derivatives -/

/-- A chain of derivatives. -/
theorem chain {f : ℕ → ℝ → ℝ} {n : ℕ} (h : ∀ k < n, ∀ t, HasDerivAt (f k) (f (k + 1) t) t) (k : ℕ) (hk : k ≤ n) : iteratedDeriv k (f 0) = f k := by
  induction k with
  | zero => exact iteratedDeriv_zero
  | succ k ih =>
    rw [iteratedDeriv_succ, ih (by omega)]
    exact funext fun t => (h k (by omega) t).deriv

/-- Specification: quadratic polynomials. -/
def quad (b c k t : ℝ) : ℝ := b * t ^ 2 + c * t + k

theorem quad_chain (b c k : ℝ) (j : ℕ) (t : ℝ) : HasDerivAt ((![quad b c k, fun t => 2 * b * t + c, fun _ => 2 * b, fun _ => 0, fun _ => 0] : Fin 5 → ℝ → ℝ) (Fin.ofNat 5 (min j 4)))
    ((![quad b c k, fun t => 2 * b * t + c, fun _ => 2 * b, fun _ => 0, fun _ => 0] : Fin 5 → ℝ → ℝ) (Fin.ofNat 5 (min (j + 1) 4)) t) t := by
  rcases j with _ | _ | _ | j
  · show HasDerivAt (fun t => b * t ^ 2 + c * t + k) (2 * b * t + c) t
    refine (((((hasDerivAt_id t).pow 2).const_mul b).add ((hasDerivAt_id t).const_mul c)).add_const k).congr_deriv ?_
    simp only [id]
    ring
  · show HasDerivAt (fun t => 2 * b * t + c) (2 * b) t
    refine (((hasDerivAt_id t).const_mul (2 * b)).add_const c).congr_deriv ?_
    ring
  · exact hasDerivAt_const t (2 * b)
  · have e1 : Fin.ofNat 5 (min (j + 1 + 1 + 1 + 1) 4) = 4 := by rw [show min (j + 1 + 1 + 1 + 1) 4 = 4 by omega]; rfl
    have e2 : Fin.ofNat 5 (min (j + 1 + 1 + 1) 4) = 3 ∨ Fin.ofNat 5 (min (j + 1 + 1 + 1) 4) = 4 := by
      rcases j with _ | j
      · left; rfl
      · right; rw [show min (j + 1 + 1 + 1 + 1) 4 = 4 by omega]; rfl
    rw [e1]
    rcases e2 with e2 | e2 <;> rw [e2] <;> exact hasDerivAt_const t (0 : ℝ)

theorem quad_smooth (b c k : ℝ) : ContDiff ℝ 4 (quad b c k) := by unfold quad; fun_prop

theorem quad_deriv (b c k : ℝ) : iteratedDeriv 1 (quad b c k) = (fun t => 2 * b * t + c) ∧ iteratedDeriv 4 (quad b c k) = fun _ => 0 :=
  ⟨chain (f := fun j => (![quad b c k, fun t => 2 * b * t + c, fun _ => 2 * b, fun _ => 0, fun _ => 0] : Fin 5 → ℝ → ℝ) (Fin.ofNat 5 (min j 4))) (n := 4) (fun j _ t => quad_chain b c k j t) 1 (by norm_num),
   chain (f := fun j => (![quad b c k, fun t => 2 * b * t + c, fun _ => 2 * b, fun _ => 0, fun _ => 0] : Fin 5 → ℝ → ℝ) (Fin.ofNat 5 (min j 4))) (n := 4) (fun j _ t => quad_chain b c k j t) 4 (by norm_num)⟩

/-- **C148 (exact orders).** For a quadratic true solution `Σ b x² + c x + k` the two error norms are known exactly, on every box. -/
theorem C148_quadratic (G : Grid F N L) (b c k : Fin 3 → ℝ) (s : ℕ → ℝ) (hs : Computed F L (addField fun d => quad (b d) (c d) (k d)) s) :
    l2 F (addField fun d => quad (b d) (c d) (k d)) s = |∑ d, b d * (L d / N d) ^ 2| / 6 * Real.sqrt (∏ a, L a) ∧
    h1 F (addField fun d => quad (b d) (c d) (k d)) s = |∑ d, b d * (L d / N d) ^ 2| / 6 * Real.sqrt (∏ a, L a) + Real.sqrt ((∑ d, (b d * (L d / N d)) ^ 2) / 3 * ∏ a, L a) := by
  have hp : ∀ d, ContDiff ℝ 4 (quad (b d) (c d) (k d)) := fun d => quad_smooth _ _ _
  have hn := C148_exact G hp (fun d t _ => by rw [(quad_deriv _ _ _).2]) s hs
  have hadd : Additive N (fun d i => quad (b d) (c d) (k d) ((i : ℝ) * (L d / N d))) s := fun m hm => by
    rw [hn _ (by rw [G.num]; exact gridNode_lt N m hm)]
    exact true_additive G _ m hm
  have hv : ∀ g ∈ boxGrid N, ∀ q, (SourceId.val F s (boxCell N g) q - addField (fun d => quad (b d) (c d) (k d)) (F.xAt (boxCell N g) q)) ^ 2 = (|∑ d, b d * (L d / N d) ^ 2| / 6) ^ 2 := fun g hg q => by
    have e : SourceId.val F s (boxCell N g) q - addField (fun d => quad (b d) (c d) (k d)) (F.xAt (boxCell N g) q) = (∑ d, b d * (L d / N d) ^ 2) / 6 := by
      rw [val_add G.tables hadd g hg q, addField, ← sum_sub_distrib, sum_div]
      refine sum_congr rfl fun d _ => ?_
      rw [xAt_box G.box G.tables g hg q d]
      have k1 := (pt_gauss q d).1
      unfold quad
      push_cast
      linear_combination (b d * (L d / N d) ^ 2) * k1
    rw [e, div_pow, div_pow, sq_abs]
  have hl : l2 F (addField fun d => quad (b d) (c d) (k d)) s = |∑ d, b d * (L d / N d) ^ 2| / 6 * Real.sqrt (∏ a, L a) := by
    rw [l2_eq G, sum_const_eq G hv, Real.sqrt_mul (sq_nonneg _), Real.sqrt_sq (by positivity)]
  refine ⟨hl, ?_⟩
  rw [h1_eq G, hl]
  refine congrArg₂ (· + ·) rfl (congrArg _ ?_)
  refine sum_const_eq G fun g hg q => ?_
  rw [sum_div]
  refine sum_congr rfl fun d _ => ?_
  rw [slope_add G.box G.tables G.posN G.posL hadd g hg q d, jac_add hp, (quad_deriv _ _ _).1, xAt_box G.box G.tables g hg q d]
  have k1 := (pt_gauss q d).1
  have hne := (G.h_pos d).ne'
  have e : (quad (b d) (c d) (k d) (((g d + 1 : ℕ) : ℝ) * (L d / N d)) - quad (b d) (c d) (k d) ((g d : ℝ) * (L d / N d))) / (L d / N d) - (2 * b d * ((g d + (gaussRule 3).pt q d) * (L d / N d)) + c d)
      = b d * (L d / N d) * (1 - 2 * (gaussRule 3).pt q d) := by
    unfold quad
    push_cast
    rw [div_sub' hne, div_eq_iff hne]
    ring
  rw [e]
  linear_combination (-4 * (b d * (L d / N d)) ^ 2) * k1

/-- **C148 (printed order).** Halving the cell size divides the `l2_error` of such a solution by exactly four, so that the order `log2(e / e')` printed by the program (example.py 93) is exactly 2; if the solution is harmonic on cubes the error is zero. -/
theorem C148_order {F' : Fem 8 (2 ^ 3) nf nfq 3 1} (G : Grid F N L) (G' : Grid F' (fun a => 2 * N a) L) (b c k : Fin 3 → ℝ) (s s' : ℕ → ℝ) (hs : Computed F L (addField fun d => quad (b d) (c d) (k d)) s)
    (hs' : Computed F' L (addField fun d => quad (b d) (c d) (k d)) s') (hb : ∑ d, b d * (L d / N d) ^ 2 ≠ 0) :
    Real.logb 2 (l2 F (addField fun d => quad (b d) (c d) (k d)) s / l2 F' (addField fun d => quad (b d) (c d) (k d)) s') = 2 := by
  have e : ∑ d, b d * (L d / ((2 * N d : ℕ) : ℝ)) ^ 2 = (∑ d, b d * (L d / N d) ^ 2) / 4 := by
    rw [sum_div]
    refine sum_congr rfl fun d _ => ?_
    have hne : (N d : ℝ) ≠ 0 := by exact_mod_cast (G.posN d).ne'
    push_cast
    field_simp
    norm_num
  rw [(C148_quadratic G b c k s hs).1, (C148_quadratic G' b c k s' hs').1, e, abs_div, abs_of_pos (by norm_num : (0 : ℝ) < 4)]
  have h1 : 0 < |∑ d, b d * (L d / N d) ^ 2| := abs_pos.mpr hb
  have h2 : 0 < Real.sqrt (∏ a, L a) := Real.sqrt_pos.mpr (prodL_pos G)
  have hq : ∀ x y : ℝ, 0 < x → 0 < y → x / 6 * y / (x / 4 / 6 * y) = (2 : ℝ) ^ (2 : ℕ) := fun x y hx hy => by
    field_simp
    norm_num
  rw [hq _ _ h1 h2]
  rw [Real.logb_pow, Real.logb_self_eq_one (by norm_num)]
  norm_num

/-! ## The true solution of the program -/

/-- `true_u_fn` (example.py 21-25). -/
noncomputable def trueU (x : Fin 3 → ℝ) : ℝ := 1e2 * ((x 0 - 1 / 2) ^ 3 + 2 * (x 1 - 1 / 2) ^ 3 + 1e1 * Real.exp (-(x 2 - 1 / 2) ^ 2))

/-- The three summands of `trueU`. -/
noncomputable def truePart : Fin 3 → ℝ → ℝ :=
  ![fun t => 1e2 * (t - 1 / 2) ^ 3, fun t => 2e2 * (t - 1 / 2) ^ 3, fun t => 1e3 * Real.exp (-(t - 1 / 2) ^ 2)]

theorem trueU_eq : trueU = addField truePart := by
  funext x
  unfold trueU addField
  rw [Fin.sum_univ_three]
  show _ = 1e2 * (x 0 - 1 / 2) ^ 3 + 2e2 * (x 1 - 1 / 2) ^ 3 + 1e3 * Real.exp (-(x 2 - 1 / 2) ^ 2)
  norm_num
  ring

theorem true_smooth (d : Fin 3) : ContDiff ℝ 4 (truePart d) := by
  match d with
  | 0 => show ContDiff ℝ 4 fun t : ℝ => 1e2 * (t - 1 / 2) ^ 3; fun_prop
  | 1 => show ContDiff ℝ 4 fun t : ℝ => 2e2 * (t - 1 / 2) ^ 3; fun_prop
  | 2 => show ContDiff ℝ 4 fun t : ℝ => 1e3 * Real.exp (-(t - 1 / 2) ^ 2); fun_prop

/-- Derivatives of `A (t - 1/2)³`. -/
noncomputable def cubic (A : ℝ) : ℕ → ℝ → ℝ
  | 0, t => A * (t - 1 / 2) ^ 3
  | 1, t => 3 * A * (t - 1 / 2) ^ 2
  | 2, t => 6 * A * (t - 1 / 2)
  | 3, _ => 6 * A
  | _ + 4, _ => 0

theorem cubic_chain (A : ℝ) (k : ℕ) (hk : k < 4) (t : ℝ) : HasDerivAt (cubic A k) (cubic A (k + 1) t) t := by
  have h : HasDerivAt (fun t : ℝ => t - 1 / 2) 1 t := (hasDerivAt_id t).sub_const _
  interval_cases k
  · refine ((h.pow 3).const_mul A).congr_deriv ?_
    show _ = 3 * A * (t - 1 / 2) ^ 2
    norm_num
    ring
  · refine ((h.pow 2).const_mul (3 * A)).congr_deriv ?_
    show _ = 6 * A * (t - 1 / 2)
    norm_num
    ring
  · refine (h.const_mul (6 * A)).congr_deriv ?_
    show _ = 6 * A
    ring
  · exact hasDerivAt_const t (6 * A)

/-- Derivatives of `1000 exp(-(t - 1/2)²)`. -/
noncomputable def bell : ℕ → ℝ → ℝ
  | 0, t => 1e3 * Real.exp (-(t - 1 / 2) ^ 2)
  | 1, t => 1e3 * (Real.exp (-(t - 1 / 2) ^ 2) * (-2 * (t - 1 / 2)))
  | 2, t => 1e3 * (Real.exp (-(t - 1 / 2) ^ 2) * (4 * (t - 1 / 2) ^ 2 - 2))
  | 3, t => 1e3 * (Real.exp (-(t - 1 / 2) ^ 2) * (12 * (t - 1 / 2) - 8 * (t - 1 / 2) ^ 3))
  | _ + 4, t => 1e3 * (Real.exp (-(t - 1 / 2) ^ 2) * (16 * (t - 1 / 2) ^ 4 - 48 * (t - 1 / 2) ^ 2 + 12))

theorem bell_chain (k : ℕ) (hk : k < 4) (t : ℝ) : HasDerivAt (bell k) (bell (k + 1) t) t := by
  have h : HasDerivAt (fun t : ℝ => t - 1 / 2) 1 t := (hasDerivAt_id t).sub_const _
  have he : HasDerivAt (fun t : ℝ => Real.exp (-(t - 1 / 2) ^ 2)) (Real.exp (-(t - 1 / 2) ^ 2) * (-2 * (t - 1 / 2))) t := by
    refine ((h.pow 2).neg.exp).congr_deriv ?_
    norm_num
  interval_cases k
  · exact he.const_mul 1e3
  · refine ((he.mul (h.const_mul (-2))).const_mul 1e3).congr_deriv ?_
    show _ = 1e3 * (Real.exp (-(t - 1 / 2) ^ 2) * (4 * (t - 1 / 2) ^ 2 - 2))
    ring
  · refine ((he.mul (((h.pow 2).const_mul 4).sub_const 2)).const_mul 1e3).congr_deriv ?_
    show _ = 1e3 * (Real.exp (-(t - 1 / 2) ^ 2) * (12 * (t - 1 / 2) - 8 * (t - 1 / 2) ^ 3))
    norm_num
    ring
  · refine ((he.mul ((h.const_mul 12).sub ((h.pow 3).const_mul 8))).const_mul 1e3).congr_deriv ?_
    show _ = 1e3 * (Real.exp (-(t - 1 / 2) ^ 2) * (16 * (t - 1 / 2) ^ 4 - 48 * (t - 1 / 2) ^ 2 + 12))
    norm_num
    ring

theorem true_second (d : Fin 3) (t : ℝ) (ht : t ∈ Set.Icc (0 : ℝ) 1) : |iteratedDeriv 2 (truePart d) t| ≤ (![300, 600, 2000] : Fin 3 → ℝ) d := by
  have h1 : |t - 1 / 2| ≤ 1 / 2 := abs_le.mpr ⟨by linarith [ht.1], by linarith [ht.2]⟩
  match d with
  | 0 =>
    have e : iteratedDeriv 2 (truePart 0) = cubic 1e2 2 := chain (f := cubic 1e2) (cubic_chain 1e2) 2 (by norm_num)
    rw [e]
    show |6 * 1e2 * (t - 1 / 2)| ≤ 300
    rw [abs_mul, abs_of_pos (by norm_num)]
    linarith
  | 1 =>
    have e : iteratedDeriv 2 (truePart 1) = cubic 2e2 2 := chain (f := cubic 2e2) (cubic_chain 2e2) 2 (by norm_num)
    rw [e]
    show |6 * 2e2 * (t - 1 / 2)| ≤ 600
    rw [abs_mul, abs_of_pos (by norm_num)]
    linarith
  | 2 =>
    have e : iteratedDeriv 2 (truePart 2) = bell 2 := chain (f := bell) bell_chain 2 (by norm_num)
    rw [e]
    show |1e3 * (Real.exp (-(t - 1 / 2) ^ 2) * (4 * (t - 1 / 2) ^ 2 - 2))| ≤ 2000
    have h2 : (t - 1 / 2) ^ 2 ≤ 1 / 4 := by rw [← sq_abs]; nlinarith [abs_nonneg (t - 1 / 2)]
    have h3 : Real.exp (-(t - 1 / 2) ^ 2) ≤ 1 := Real.exp_le_one_iff.mpr (by nlinarith [sq_nonneg (t - 1 / 2)])
    rw [abs_mul, abs_of_pos (by norm_num), abs_mul, abs_of_pos (Real.exp_pos _)]
    have h4 : |4 * (t - 1 / 2) ^ 2 - 2| ≤ 2 := abs_le.mpr ⟨by nlinarith [sq_nonneg (t - 1 / 2)], by nlinarith⟩
    have := mul_le_mul h3 h4 (abs_nonneg _) zero_le_one
    linarith

theorem true_fourth (d : Fin 3) (t : ℝ) (ht : t ∈ Set.Icc (0 : ℝ) 1) : |iteratedDeriv 4 (truePart d) t| ≤ (![0, 0, 12000] : Fin 3 → ℝ) d := by
  have h1 : |t - 1 / 2| ≤ 1 / 2 := abs_le.mpr ⟨by linarith [ht.1], by linarith [ht.2]⟩
  match d with
  | 0 =>
    have e : iteratedDeriv 4 (truePart 0) = cubic 1e2 4 := chain (f := cubic 1e2) (cubic_chain 1e2) 4 le_rfl
    rw [e]
    show |(0 : ℝ)| ≤ 0
    rw [abs_zero]
  | 1 =>
    have e : iteratedDeriv 4 (truePart 1) = cubic 2e2 4 := chain (f := cubic 2e2) (cubic_chain 2e2) 4 le_rfl
    rw [e]
    show |(0 : ℝ)| ≤ 0
    rw [abs_zero]
  | 2 =>
    have e : iteratedDeriv 4 (truePart 2) = bell 4 := chain (f := bell) bell_chain 4 le_rfl
    rw [e]
    show |1e3 * (Real.exp (-(t - 1 / 2) ^ 2) * (16 * (t - 1 / 2) ^ 4 - 48 * (t - 1 / 2) ^ 2 + 12))| ≤ 12000
    have h2 : (t - 1 / 2) ^ 2 ≤ 1 / 4 := by rw [← sq_abs]; nlinarith [abs_nonneg (t - 1 / 2)]
    have h0 := sq_nonneg (t - 1 / 2)
    have h3 : Real.exp (-(t - 1 / 2) ^ 2) ≤ 1 := Real.exp_le_one_iff.mpr (by linarith)
    rw [abs_mul, abs_of_pos (by norm_num), abs_mul, abs_of_pos (Real.exp_pos _)]
    have h4 : |16 * (t - 1 / 2) ^ 4 - 48 * (t - 1 / 2) ^ 2 + 12| ≤ 12 := abs_le.mpr ⟨by nlinarith, by nlinarith⟩
    have := mul_le_mul h3 h4 (abs_nonneg _) zero_le_one
    linarith

/-- **C148 (the program).** With `n` cells in each direction of the unit cube the two errors of the program's own problem are at most `492/n²` and `492/n² + 2847/n`, and no value at a node is off by more than `250/n²`. -/
theorem C148_program {n : ℕ} (G : Grid F (fun _ => n) fun _ => 1) (s : ℕ → ℝ) (hs : Computed F (fun _ => 1) trueU s) :
    (∀ m < F.numTotal, |s m - trueU (F.points m)| ≤ 250 / (n : ℝ) ^ 2) ∧ l2 F trueU s ≤ 492 / (n : ℝ) ^ 2 ∧ h1 F trueU s ≤ 492 / (n : ℝ) ^ 2 + 2847 / n := by
  have hn : (0 : ℝ) < n := by exact_mod_cast G.posN 0
  have hc : Cubes (fun _ => n) (fun _ => 1) (1 / (n : ℝ)) := fun _ => rfl
  rw [trueU_eq] at hs ⊢
  have s4 : ∑ d, (![0, 0, 12000] : Fin 3 → ℝ) d = 12000 := by rw [Fin.sum_univ_three]; simp
  have s2 : ∑ d, (![300, 600, 2000] : Fin 3 → ℝ) d = 2900 := by rw [Fin.sum_univ_three]; simp; norm_num
  have hl : ((1 : ℝ) ^ 2 / 48 * 12000 + 2900 / 12) * Real.sqrt (∏ _a : Fin 3, 1) * (1 / (n : ℝ)) ^ 2 ≤ 492 / (n : ℝ) ^ 2 := by
    rw [prod_const_one, Real.sqrt_one, div_pow, one_pow, mul_one_div]
    exact div_le_div_of_nonneg_right (by norm_num) (by positivity)
  refine ⟨fun m hm => ?_, ?_, ?_⟩
  · refine (C148_nodes G hc true_smooth _ true_fourth s hs 0 m hm).trans (le_of_eq ?_)
    rw [← sum_div, ← sum_mul, s4, div_pow]
    ring
  · refine (C148_l2 G hc true_smooth _ _ true_second true_fourth s hs 0).trans ?_
    rw [s4, s2]
    exact hl
  · refine (C148_h1 G hc true_smooth _ _ true_second true_fourth s hs 0).trans ?_
    rw [s4, s2]
    refine add_le_add hl ?_
    rw [prod_const_one, mul_one, mul_one_div]
    refine div_le_div_of_nonneg_right ?_ hn.le
    rw [Real.sqrt_le_iff]
    refine ⟨by norm_num, ?_⟩
    rw [Fin.sum_univ_three]
    simp
    norm_num

/-- **C148 (convergence).** Along any sequence of meshes of the unit cube with more and more cells the two errors of the program tend to zero. -/
theorem C148_converges (Fs : ℕ → Fem 8 (2 ^ 3) nf nfq 3 1) (ss : ℕ → ℕ → ℝ) (cellsIn : ℕ → ℕ) (hG : ∀ j, Grid (Fs j) (fun _ => cellsIn j) fun _ => 1) (hs : ∀ j, Computed (Fs j) (fun _ => 1) trueU (ss j))
    (hmany : Filter.Tendsto cellsIn Filter.atTop Filter.atTop) :
    Filter.Tendsto (fun j => l2 (Fs j) trueU (ss j)) Filter.atTop (nhds 0) ∧ Filter.Tendsto (fun j => h1 (Fs j) trueU (ss j)) Filter.atTop (nhds 0) := by
  have t1 : Filter.Tendsto (fun j => ((cellsIn j : ℝ))⁻¹) Filter.atTop (nhds 0) := tendsto_inv_atTop_zero.comp (tendsto_natCast_atTop_atTop.comp hmany)
  have t2 : Filter.Tendsto (fun j => 492 / (cellsIn j : ℝ) ^ 2) Filter.atTop (nhds 0) := by
    have := (t1.pow 2).const_mul 492
    simpa [div_eq_mul_inv] using this
  have t3 : Filter.Tendsto (fun j => 492 / (cellsIn j : ℝ) ^ 2 + 2847 / (cellsIn j : ℝ)) Filter.atTop (nhds 0) := by
    have := t2.add (t1.const_mul 2847)
    simpa [div_eq_mul_inv] using this
  have p1 : ∀ j, 0 ≤ l2 (Fs j) trueU (ss j) := fun j => by rw [l2_eq (hG j)]; exact Real.sqrt_nonneg _
  have p2 : ∀ j, 0 ≤ h1 (Fs j) trueU (ss j) := fun j => by rw [h1_eq (hG j)]; exact add_nonneg (p1 j) (Real.sqrt_nonneg _)
  exact ⟨squeeze_zero p1 (fun j => (C148_program (hG j) _ (hs j)).2.1) t2, squeeze_zero p2 (fun j => (C148_program (hG j) _ (hs j)).2.2) t3⟩

/-- `example`: the mesh produced for any number of cells is of the kind supposed here. -/
theorem grid_obj (N : Fin 3 → ℕ) (L : Fin 3 → ℝ) (hN : ∀ a, 0 < N a) (hL : ∀ a, 0 < L a) : Grid (SourceId.obj N L) N L :=
  ⟨obj_box N L, obj_num N L, ⟨fun _ _ => rfl, fun _ _ _ => rfl, fun _ => rfl⟩, hN, hL⟩

/-- `example`: with ten cells in each direction, a run exists and the program's `l2_error` is below 5. -/
example : ∃ s, Computed (SourceId.obj (fun _ => 10) fun _ => 1) (fun _ => 1) trueU s ∧ l2 (SourceId.obj (fun _ => 10) fun _ => 1) trueU s < 5 := by
  have G := grid_obj (fun _ => 10) (fun _ => 1) (fun _ => by norm_num) (fun _ => by norm_num)
  obtain ⟨⟨lin, hlin⟩, h⟩ := C148_returns G trueU false
  obtain ⟨s, -, hs⟩ := h lin hlin true none 0
  refine ⟨s, hs, lt_of_le_of_lt (C148_program G s hs).2.1 ?_⟩
  norm_num

/-- `example`: the solution `x² + y² - 2 z²` has zero `l2_error` on a cube but not on a box of other cells. -/
example (s : ℕ → ℝ) (hs : Computed (SourceId.obj ![1, 1, 2] fun _ => 1) (fun _ => 1) (addField fun d => quad (![1, 1, -2] d) 0 0) s) :
    l2 (SourceId.obj ![1, 1, 2] fun _ => 1) (addField fun d => quad (![1, 1, -2] d) 0 0) s = 1 / 4 := by
  have G := grid_obj ![1, 1, 2] (fun _ => 1) (fun a => by fin_cases a <;> simp) (fun _ => by norm_num)
  rw [(C148_quadratic G ![1, 1, -2] (fun _ => 0) (fun _ => 0) s hs).1, Fin.sum_univ_three, prod_const_one, Real.sqrt_one]
  simp
  norm_num

end Verif.Fem.Conv
