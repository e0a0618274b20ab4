import Verif.Fem.TopOptMesh
import Mathlib.Analysis.SpecialFunctions.Trigonometric.Basic

/-!
# C159: shaping a curve by densities (`applications/fem/design/curve.py`)

A beam is compressed between two ends by prescribed displacements; the densities of the cells are to be chosen so that the points of the line `y = 0` are displaced by a sine. There are no loads.
`theta` has shape `(1,)` here, so that the stress has shape `(2, 2, 1)`; `reshape` in core.py 503-504 removes the last axis, and the value is that of `demoStress` (same numbers as example.py 23-43).
The mesh is read from a file with eight-node cells, which are not modelled; the theorems hold for every object with the stated properties, and the example is the beam of four-node cells.
-/
namespace Verif.Fem.DesignCurve
open Finset Filter Topology Verif.Fem

variable {nn nq nf nfq m : ℕ}

/-! ## The program -/

/-- The stress of `Elasticity` (curve.py 27-43). -/
noncomputable def dcStress (u_grad : Fin 2 → Fin 2 → ℝ) (theta : ℕ → ℝ) : Fin 2 → Fin 2 → ℝ :=
  let Emax := 70e3
  let Emin := 1e-3 * Emax
  let nu := 0.3
  let E := Emin + (Emax - Emin) * theta 0 ^ 3
  let epsilon : Fin 2 → Fin 2 → ℝ := fun i j => 0.5 * (u_grad i j + u_grad j i)
  let sig11 := E / (1 + nu) / (1 - nu) * (epsilon 0 0 + nu * epsilon 1 1)
  let sig22 := E / (1 + nu) / (1 - nu) * (nu * epsilon 0 0 + epsilon 1 1)
  let sig12 := E / (1 + nu) * epsilon 0 1
  ![![sig11, sig12], ![sig12, sig22]]

/-- `left_corner` (curve.py 73-74). -/
noncomputable def dcLeft : Loc 2 := fun point => isclose (point 0) 0 1e-5

/-- `right_corner` (curve.py 76-77). -/
noncomputable def dcRight (Lx : ℝ) : Loc 2 := fun point => isclose (point 0) Lx 1e-5

/-- `dirichlet_bc_info` (curve.py 94-108). -/
noncomputable def dcInfo (Lx : ℝ) : List (Loc 2) × List ℕ × List ((Fin 2 → ℝ) → ℝ) :=
  ([dcLeft, dcLeft, dcRight Lx, dcRight Lx], [0, 1, 0, 1], [fun _ => 0, fun _ => 0, fun _ => -0.01 * Lx, fun _ => 0])

/-- The value of `theta` in a cell with the centroid `c` (curve.py 113-119): four writes, one after the other. -/
noncomputable def dcTheta (Lx : ℝ) (c : Fin 2 → ℝ) : ℝ := open Classical in
  let th : ℝ := 0.5
  let th := if c 0 > 0.5 * Lx ∧ c 1 > 0 then 0 else th
  let th := if c 0 < 0.5 * Lx ∧ c 1 < 0 then 0 else th
  let th := if c 0 > 0.5 * Lx ∧ c 1 < 0 then 1 else th
  if c 0 < 0.5 * Lx ∧ c 1 > 0 then 1 else th

/-- `inds` (curve.py 125): the nodes near the line `y = 0`. -/
noncomputable def dcInds (N : ℕ) (points : ℕ → Fin 2 → ℝ) : List ℕ := (List.range N).filter fun n => isclose (points n 1) 0 1e-5

/-- `target_y_vals` at a point (curve.py 126). -/
noncomputable def dcTarget (Lx : ℝ) (x : Fin 2 → ℝ) : ℝ := 0.15 * Real.sin (2 * Real.pi / Lx * x 0)

/-- `J_total` after the forward solve (curve.py 133-134), `sol` as the flat vector of the solver. -/
noncomputable def dcError (N : ℕ) (points : ℕ → Fin 2 → ℝ) (Lx : ℝ) (sol : ℕ → ℝ) : ℝ := ((dcInds N points).map fun n => (sol (2 * n + 1) - dcTarget Lx (points n)) ^ 2).sum

/-! ## Specification -/

/-- A mesh without any load; every face of the reference cell has a node. -/
structure Unloaded (F : Fem nn nq nf nfq 2 2) : Prop where
  neumann : F.neumann = none
  cauchy : F.cauchy = none
  source : F.source = none
  body : F.bodyVar = none
  mesh : ∀ c ∈ F.cells, ∀ a, c a < F.numTotal
  cells : 0 < F.cells.length
  faces : ∀ f, F.faceInds f ≠ []
  vol : ∀ c ∈ F.cells, ∀ q, 0 < F.JxW c q

/-- Displacements of any size are prescribed at nodes which hold the body. -/
structure Supported (F : Fem nn nq nf nfq 2 2) (groups : List (Group ℝ)) : Prop where
  wf : (F.toProb groups).WF
  held : ∀ n < F.numTotal, F.Held (fun n => n < F.numTotal ∧ ∀ i : Fin 2, ¬ FreeAt (F.toProb groups).prescriptions (2 * n + i)) n
  rigid : F.RigidModes

/-! ## No load, or a load nowhere -/

/-- The object with a traction on no face. -/
def idle (F : Fem nn nq nf nfq 2 2) : Fem nn nq nf nfq 2 2 := { F with neumann := some ([fun _ => false], [fun _ _ _ => 0]) }

theorem idle_none {F : Fem nn nq nf nfq 2 2} (h : ∀ f, F.faceInds f ≠ []) : (idle F).selected (fun _ => false) = [] := by
  unfold Fem.selected
  have h1 : ∀ c f, (idle F).onBoundary (fun _ => false) c f = false := by
    intro c f
    have h2 := h f
    show (F.faceInds f).all (fun _ => false) = false
    cases h3 : F.faceInds f with
    | nil => exact absurd h3 h2
    | cons a l => rfl
  simp [h1]

theorem idle_loaded {F : Fem nn nq nf nfq 2 2} (h : Unloaded F) : Loaded (idle F) (fun _ => false) (fun _ => 0) :=
  ⟨rfl, h.cauchy, h.source, h.body, h.mesh, h.cells, fun p hp => absurd hp (by rw [idle_none h.faces]; exact List.not_mem_nil), h.vol⟩

theorem idle_integral {F : Fem nn nq nf nfq 2 2} (hf : ∀ f, F.faceInds f ≠ []) : (idle F).neumannIntegral = .ok 0 := by
  refine (neumannIntegral_ok_iff _ _).mpr ⟨?_, ?_⟩
  · intro locs vals h
    cases h
    refine ⟨fun l hl => ?_, le_refl _⟩
    rw [List.mem_singleton.mp hl]
    intro p hp
    rw [idle_none hf] at hp
    cases hp
  · funext n i
    show (0 : ℝ) = ([(idle F).neumannTerm (fun _ => false) (fun _ _ _ => 0) n i]).sum
    unfold Fem.neumannTerm
    rw [idle_none hf]
    simp

theorem none_integral (F : Fem nn nq nf nfq 2 2) (h : F.neumann = none) : F.neumannIntegral = .ok 0 := by
  unfold Fem.neumannIntegral
  rw [h]

theorem idle_helper (F : Fem nn nq nf nfq 2 2) (hf : ∀ f, F.faceInds f ≠ []) (h : F.neumann = none) (u : ℕ → Fin 2 → ℝ) (w) : (idle F).residualHelper u w = F.residualHelper u w := by
  unfold Fem.residualHelper
  rw [idle_integral hf, none_integral F h]
  rfl

theorem idle_residual (F : Fem nn nq nf nfq 2 2) (hf : ∀ f, F.faceInds f ≠ []) (h : F.neumann = none) (u : ℕ → Fin 2 → ℝ) : (idle F).computeResidual u = F.computeResidual u := by
  unfold Fem.computeResidual
  simp only [idle_helper F hf h]
  rfl

theorem idle_prob (F : Fem nn nq nf nfq 2 2) (hf : ∀ f, F.faceInds f ≠ []) (h : F.neumann = none) (groups : List (Group ℝ)) : (idle F).toProb groups = F.toProb groups := by
  unfold Fem.toProb Fem.newtonUpdate
  simp only [idle_helper F hf h, idle_integral hf, none_integral F h]
  rfl

theorem idle_density (F : Fem nn nq nf nfq 2 2) (hf : ∀ f, F.faceInds f ≠ []) (h : F.neumann = none) (C) (groups : List (Group ℝ)) (e : (Fin m → ℝ) → ℕ → ℝ) : densityProb (idle F) C groups e = densityProb F C groups e := by
  have h1 : ∀ e', scaledFem (idle F) C e' = idle (scaledFem F C e') := fun _ => rfl
  unfold densityProb
  simp only [h1, idle_residual (scaledFem F C _) hf h, idle_prob (scaledFem F C _) hf h]

theorem idle_held {F : Fem nn nq nf nfq 2 2} {Z : ℕ → Prop} {n : ℕ} (h : F.Held Z n) : (idle F).Held Z n := by
  induction h with
  | fixed n hn => exact .fixed n hn
  | cell c S a hc hne hall hsp ih => exact .cell c S a hc hne ih hsp

theorem stress_demo : dcStress = demoStress := rfl

/-! ## Moduli in proportion -/

theorem cellSum_scale (F : Fem nn nq nf nfq 2 2) (C) (e e' : ℕ → ℝ) (a : ℝ) (he : ∀ k < F.cells.length, e' k = a * e k) (u : ℕ → Fin 2 → ℝ) (n : ℕ) (i : Fin 2) :
    (scaledFem F C e').cellSum u n i = a * (scaledFem F C e).cellSum u n i := by
  unfold Fem.cellSum
  rw [← List.sum_map_mul_left]
  refine congrArg List.sum (List.map_congr_left fun p hp => ?_)
  have hk : e' p.2 = a * e p.2 := he p.2 (by
    have h1 : p ∈ F.cells.zipIdx := hp
    simpa using List.snd_lt_of_mem_zipIdx h1)
  rw [mul_sum]
  refine sum_congr rfl fun b _ => ?_
  have h : (scaledFem F C e').kernel ((scaledFem F C e').cellRow p.2 p.1 u) (fun n => u (p.1 n)) b i = a * (scaledFem F C e).kernel ((scaledFem F C e).cellRow p.2 p.1 u) (fun n => u (p.1 n)) b i := by
    show Fem.laplaceKernel (fun _ g => e' p.2 • C g) (fun n => u (p.1 n)) (F.shapeGrad p.1) (F.vGradsJxW p.1) b i + 0 = a * (Fem.laplaceKernel (fun _ g => e p.2 • C g) (fun n => u (p.1 n)) (F.shapeGrad p.1) (F.vGradsJxW p.1) b i + 0)
    rw [hk]
    simp only [Fem.laplaceKernel, add_zero, mul_sum, Pi.smul_apply, smul_eq_mul, mul_assoc]
  rw [h]
  split_ifs
  · rfl
  · rw [mul_zero]

theorem residual_eq {F : Fem nn nq nf nfq 2 2} (h : Unloaded F) (C) (e : ℕ → ℝ) (u : ℕ → Fin 2 → ℝ) : (scaledFem F C e).computeResidual u = .ok fun n i => (scaledFem F C e).cellSum u n i := by
  rw [← idle_residual (scaledFem F C e) h.faces h.neumann]
  refine (scaled_returns (C := C) (idle F) (idle_loaded h) e u).trans ?_
  congr 1
  funext n i
  have h1 : (idle F).neumannSum n i = 0 := by
    have h2 := ((neumannIntegral_ok_iff (idle F) _).mp (idle_integral h.faces)).2
    rw [← h2]
    rfl
  rw [h1, sub_zero]
  rfl

/-- Moduli in proportion: the same solutions. -/
theorem solves_scale {F : Fem nn nq nf nfq 2 2} (h : Unloaded F) (C) (e e' : ℕ → ℝ) (a : ℝ) (ha : a ≠ 0) (he : ∀ k < F.cells.length, e' k = a * e k) (pres : List (ℕ × ℝ)) (u : ℕ → Fin 2 → ℝ) :
    (scaledFem F C e').Solves pres u ↔ (scaledFem F C e).Solves pres u := by
  have hr : ∀ n i, (scaledFem F C e').cellSum u n i = 0 ↔ (scaledFem F C e).cellSum u n i = 0 := by
    intro n i
    rw [cellSum_scale F C e e' a he, mul_eq_zero, or_iff_right ha]
  have key : ∀ e : ℕ → ℝ, (scaledFem F C e).Solves pres u ↔ ∀ n < F.numTotal, ∀ i : Fin 2, (∀ v, LastAt pres (2 * n + i) v → u n i = v) ∧ (FreeAt pres (2 * n + i) → (scaledFem F C e).cellSum u n i = 0) := by
    intro e
    constructor
    · rintro ⟨R, hR, hs⟩ n hn i
      rw [residual_eq h] at hR
      injection hR with hR
      subst hR
      exact hs n hn i
    · exact fun hs => ⟨_, residual_eq h C e u, hs⟩
  rw [key, key]
  simp only [hr]

/-- Two solutions of one problem agree at the nodes of the mesh. -/
theorem solves_unique {F : Fem nn nq nf nfq 2 2} {C} (e : ℕ → ℝ) (pres : List (ℕ × ℝ)) (hd : (scaledFem F C e).Determined pres) (u v : ℕ → Fin 2 → ℝ) (hu : (scaledFem F C e).Solves pres u) (hv : (scaledFem F C e).Solves pres v) :
    ∀ n < F.numTotal, ∀ i, u n i = v n i := by
  obtain ⟨R, hR, h1⟩ := hu
  obtain ⟨S, hS, h2⟩ := hv
  refine hd u v R S hR hS (fun n hn i hf => ?_) fun n hn i hf => ?_
  · rcases free_or_last pres (2 * n + i) with h | ⟨w, h⟩
    · exact absurd h hf
    · rw [(h1 n hn i).1 w h, (h2 n hn i).1 w h]
  · rw [(h1 n hn i).2 hf, (h2 n hn i).2 hf]

section
variable {F : Fem nn nq nf nfq 2 2} {groups : List (Group ℝ)} (h : Unloaded F) (hs : Supported F groups) (hm : F.cells.length = m)
  (lin : ℕ → LinCall ℝ → ℕ → ℝ) (hlin : ExactLin (F.numTotal * 2) lin) (usePetsc : Bool) (fuel : ℕ)

/-- The modulus of the file. -/
noncomputable def dcE (p : Fin m → ℝ) : ℕ → ℝ := simpE (1e-3 * 70e3) 70e3 3 p

theorem law : DensityLaw demoStress (fun theta => simpModulus (1e-3 * 70e3) 70e3 3 (theta 0)) (planeStress 1 0.3) (1e-3 * 70e3) 70e3 := (C102_materials (dim := 2)).1

include h hs in
theorem determined (p : Fin m → ℝ) (hp : ∀ j, 0 ≤ p j) : (scaledFem F (planeStress 1 0.3) (dcE p)).Determined (F.toProb groups).prescriptions := by
  have h1 := C103_determined (idle F) law.law (idle_loaded h) (dcE p) (simpE_pos law p hp (by norm_num)) hs.rigid (F.toProb groups).prescriptions fun n hn => idle_held (hs.held n hn)
  intro u v Ru Rv hu hv
  exact h1 u v Ru Rv (by rw [← hu]; exact idle_residual (scaledFem F _ _) h.faces h.neumann u) (by rw [← hv]; exact idle_residual (scaledFem F _ _) h.faces h.neumann v)

theorem prob_eq : topProb F dcStress groups m = densityProb F (planeStress 1 0.3) groups dcE := topProb_eq F law groups

include h hs in
theorem wf_idle : ((scaledFem (idle F) (planeStress 1 0.3) fun _ => 1).toProb groups).WF :=
  wf_congr _ _ (by rw [toProb_vec, toProb_vec]) (by rw [toProb_groups, toProb_groups]) hs.wf

include h hs in
theorem idle_pres (e : ℕ → ℝ) : ((scaledFem (idle F) (planeStress 1 0.3) e).toProb groups).prescriptions = (F.toProb groups).prescriptions :=
  prescriptions_congr _ _ (by rw [toProb_vec, toProb_vec]) (by rw [toProb_groups, toProb_groups])

/-- The family of linear problems of the program. -/
noncomputable def family (h : Unloaded F) (hs : Supported F groups) (p : Fin m → ℝ) : LinearFamily (densityProb (idle F) (planeStress 1 0.3) groups dcE) (F.numTotal * 2) p :=
  densityFamily (idle F) law.law (idle_loaded h) groups (wf_idle h hs) dcE p (simpE_smooth p)

theorem family_det (p : Fin m → ℝ) (hp : ∀ j, 0 ≤ p j) : (family h hs p).Determined p := by
  refine family_determined (idle F) law.law (idle_loaded h) groups (wf_idle h hs) dcE p (simpE_smooth p) ?_
  rw [idle_pres h hs]
  exact C103_determined (idle F) law.law (idle_loaded h) (dcE p) (simpE_pos law p hp (by norm_num)) hs.rigid _ fun n hn => idle_held (hs.held n hn)

include h hs hlin in
/-- **C159 (forward).** For all densities `p ≥ 0` the forward solve of the program returns, and the result is the one solution of the discrete problem with the stress of the file. -/
theorem C159_forward (p : Fin m → ℝ) (hp : ∀ j, 0 ≤ p j) :
    ∃ u : ℕ → ℝ, (topProb F dcStress groups m).fwdPred lin true usePetsc fuel p = .ok u ∧ (∀ d, F.numTotal * 2 ≤ d → u d = 0) ∧
      (topFem F dcStress (List.range m) (rowParams p)).Solves (F.toProb groups).prescriptions (fun n i => u (2 * n + i)) ∧
      ∀ v : ℕ → Fin 2 → ℝ, (topFem F dcStress (List.range m) (rowParams p)).Solves (F.toProb groups).prescriptions v → ∀ n < F.numTotal, ∀ i, v n i = u (2 * n + i) := by
  rw [prob_eq, stress_demo, topFem_simp F law, ← idle_density F h.faces h.neumann]
  obtain ⟨s, h1, h2⟩ := (family h hs p).forward p (family_det h hs p hp) lin hlin usePetsc fuel
  have h3 := con_solves (idle F) law.law (idle_loaded h) groups (wf_idle h hs) dcE p s h2
  rw [idle_pres h hs] at h3
  have h4 : (scaledFem F (planeStress 1 0.3) (dcE p)).Solves (F.toProb groups).prescriptions (unflat 2 s) := by
    obtain ⟨R, hR, h5⟩ := h3
    exact ⟨R, by rw [← hR]; exact (idle_residual (scaledFem F _ _) h.faces h.neumann _).symm, h5⟩
  refine ⟨ext s, h1, fun d hd => ?_, h4, fun v hv => ?_⟩
  · unfold ext
    rw [dif_neg (by omega)]
  · exact solves_unique _ _ (determined h hs p hp) v _ hv h4

include h hs hm hlin in
/-- **C159 (proportional designs).** If the moduli of two designs are in proportion, the forward solve returns the same vector for both: with prescribed displacements only, the scale of the stiffness is not seen.
In particular all uniform designs give the same displacements and the same objective. -/
theorem C159_proportional (p p' : Fin m → ℝ) (hp : ∀ j, 0 ≤ p j) (hp' : ∀ j, 0 ≤ p' j) (a : ℝ) (ha : ∀ j, 70 + 69930 * p' j ^ 3 = a * (70 + 69930 * p j ^ 3)) :
    (topProb F dcStress groups m).fwdPred lin true usePetsc fuel p' = (topProb F dcStress groups m).fwdPred lin true usePetsc fuel p := by
  obtain ⟨u, h1, h2, h3, h4⟩ := C159_forward h hs lin hlin usePetsc fuel p hp
  obtain ⟨u', h1', h2', h3', h4'⟩ := C159_forward h hs lin hlin usePetsc fuel p' hp'
  rw [h1, h1']
  congr 1
  rw [stress_demo, topFem_simp F law] at h3 h3' h4
  have hne : a ≠ 0 := by
    rintro rfl
    have h5 : 0 < F.cells.length := h.cells
    have h6 := ha ⟨0, by omega⟩
    have h7 := pow_nonneg (hp' ⟨0, by omega⟩) 3
    linarith
  have h5 := (solves_scale h (planeStress 1 0.3) (simpE (1e-3 * 70e3) 70e3 3 p) (simpE (1e-3 * 70e3) 70e3 3 p') a hne (fun k hk => by
    rw [hm] at hk
    unfold simpE simpModulus
    rw [dif_pos hk, dif_pos hk]
    have := ha ⟨k, hk⟩
    norm_num
    linarith) (F.toProb groups).prescriptions fun n i => u' (2 * n + i)).mp h3'
  have h6 := h4 _ h5
  funext d
  by_cases hd : d < F.numTotal * 2
  · obtain ⟨n, hn, i, rfl⟩ := dof_exists (vec := 2) F.numTotal d hd
    exact h6 n hn i
  · rw [h2 d (by omega), h2' d (by omega)]

include h hs hm hlin in
/-- **C159 (uniform designs).** Every uniform design gives the displacements of the uniform design `0.5` the optimiser starts with. -/
theorem C159_uniform (c : ℝ) (hc : 0 ≤ c) :
    (topProb F dcStress groups m).fwdPred lin true usePetsc fuel (fun _ => c) = (topProb F dcStress groups m).fwdPred lin true usePetsc fuel (fun _ => 0.5) := by
  refine C159_proportional h hs hm lin hlin usePetsc fuel _ _ (fun _ => by norm_num) (fun _ => hc) ((70 + 69930 * c ^ 3) / (70 + 69930 * 0.5 ^ 3)) fun _ => ?_
  rw [div_mul_cancel₀]
  norm_num

theorem error_differentiable (N M : ℕ) (points : ℕ → Fin 2 → ℝ) (Lx : ℝ) : Differentiable ℝ fun x : Fin M → ℝ => dcError N points Lx (ext x) := by
  have h1 : ∀ (l : List ℕ), Differentiable ℝ fun x : Fin M → ℝ => (l.map fun n => (ext x (2 * n + 1) - dcTarget Lx (points n)) ^ 2).sum := by
    intro l
    induction l with
    | nil => exact differentiable_const 0
    | cons n l ih =>
      have h2 : Differentiable ℝ fun x : Fin M → ℝ => ext x (2 * n + 1) := by
        unfold ext
        by_cases h : 2 * n + 1 < M
        · simp only [dif_pos h]
          fun_prop
        · simp only [dif_neg h]
          exact differentiable_const 0
      simp only [List.map_cons, List.sum_cons]
      exact ((h2.sub_const _).pow 2).add ih
  exact h1 _

include h hs hm hlin in
/-- **C159 (gradient).** At every design `p ≥ 0` reverse mode returns the derivative of the program `params ↦ J_total(params)`; at a uniform design `c > 0` the entries of this gradient sum to zero, so that the optimiser,
which starts at the uniform design `0.5`, gets no information on the amount of material. -/
theorem C159_gradient (p : Fin m → ℝ) (hp : ∀ j, 0 ≤ p j) (Lx : ℝ) :
    ∃ g : Fin m → ℝ, (topProb F dcStress groups m).revGrad lin true usePetsc fuel (dcError F.numTotal F.points Lx) p = .ok g ∧
      HasFDerivAt ((topProb F dcStress groups m).objective lin true usePetsc fuel (dcError F.numTotal F.points Lx)) (∑ j, g j • (ContinuousLinearMap.proj j : (Fin m → ℝ) →L[ℝ] ℝ)) p ∧
      ∀ c, 0 < c → p = (fun _ => c) → ∑ j, g j = 0 := by
  obtain ⟨g, hg1, hg2⟩ := (family h hs p).C94_gradient (family_det h hs p hp) lin hlin usePetsc fuel (dcError F.numTotal F.points Lx) (error_differentiable _ _ _ _)
  rw [idle_density F h.faces h.neumann, ← prob_eq] at hg1 hg2
  refine ⟨g, hg1, hg2, ?_⟩
  rintro c hc rfl
  have h1 : HasDerivAt (fun t : ℝ => fun _ : Fin m => t) (fun _ => 1) c := hasDerivAt_pi.mpr fun _ => hasDerivAt_id c
  have h2 := hg2.comp_hasDerivAt c h1
  have h3 : (fun t : ℝ => (topProb F dcStress groups m).objective lin true usePetsc fuel (dcError F.numTotal F.points Lx) fun _ => t) =ᶠ[𝓝 c]
      fun _ => (topProb F dcStress groups m).objective lin true usePetsc fuel (dcError F.numTotal F.points Lx) fun _ => 0.5 := by
    filter_upwards [eventually_gt_nhds hc] with t ht
    unfold ParamProb.objective
    rw [C159_uniform h hs hm lin hlin usePetsc fuel t ht.le]
  have h4 := h2.unique ((hasDerivAt_const c _).congr_of_eventuallyEq h3)
  simpa [_root_.sum_apply] using h4

end

/-! ## The objective, the constraint, the first design -/

/-- **C159 (objective).** The objective is never negative, and it vanishes exactly when all nodes near the line are displaced as the target says. At both ends of the beam the target is zero, as the prescribed displacement is. -/
theorem C159_objective (N : ℕ) (points : ℕ → Fin 2 → ℝ) (Lx : ℝ) (hL : Lx ≠ 0) (sol : ℕ → ℝ) :
    0 ≤ dcError N points Lx sol ∧ (dcError N points Lx sol = 0 ↔ ∀ n < N, |points n 1| ≤ 1e-5 → sol (2 * n + 1) = 0.15 * Real.sin (2 * Real.pi / Lx * points n 0)) ∧
    (∀ x : Fin 2 → ℝ, x 0 = 0 ∨ x 0 = Lx → dcTarget Lx x = 0) := by
  have h0 : ∀ l : List ℕ, 0 ≤ (l.map fun n => (sol (2 * n + 1) - dcTarget Lx (points n)) ^ 2).sum ∧
      ((l.map fun n => (sol (2 * n + 1) - dcTarget Lx (points n)) ^ 2).sum = 0 ↔ ∀ n ∈ l, sol (2 * n + 1) = dcTarget Lx (points n)) := by
    intro l
    induction l with
    | nil => simp
    | cons n l ih =>
      simp only [List.map_cons, List.sum_cons, List.forall_mem_cons]
      have h1 := sq_nonneg (sol (2 * n + 1) - dcTarget Lx (points n))
      refine ⟨add_nonneg h1 ih.1, ?_⟩
      rw [add_eq_zero_iff_of_nonneg h1 ih.1, ih.2, sq_eq_zero_iff, sub_eq_zero]
  refine ⟨(h0 _).1, (h0 _).2.trans ?_, ?_⟩
  · unfold dcInds
    simp only [List.mem_filter, List.mem_range, isclose_iff, sub_zero, abs_zero, mul_zero, add_zero, and_imp]
    rfl
  · rintro x (hx | hx)
    · simp [dcTarget, hx]
    · rw [dcTarget, hx, div_mul_cancel₀ _ hL, Real.sin_two_pi, mul_zero]

/-- **C159 (constraint).** With `vf = 1` (curve.py 168) the volume constraint holds for all densities in the unit interval, and is active only for the full body. -/
theorem C159_constraint (hm : 0 < m) (rho : Fin m → ℝ) (h1 : ∀ j, rho j ≤ 1) : (consHandle 1 rho).1 0 ≤ 0 ∧ ((consHandle 1 rho).1 0 = 0 ↔ ∀ j, rho j = 1) := by
  have hm' : (0 : ℝ) < m := by exact_mod_cast hm
  have h2 : ∑ j, rho j ≤ m := by
    calc ∑ j, rho j ≤ ∑ _j : Fin m, (1 : ℝ) := sum_le_sum fun j _ => h1 j
      _ = m := by simp
  have h3 : (consHandle 1 rho).1 0 = (∑ j, rho j) / m - 1 := by simp [consHandle, volumeConstraint]
  rw [h3]
  refine ⟨by rw [sub_nonpos, div_le_one hm']; exact h2, ?_⟩
  rw [sub_eq_zero, div_eq_one_iff_eq hm'.ne']
  have h4 : ∑ j, rho j = m ↔ ∑ j, (1 - rho j) = 0 := by
    rw [sum_sub_distrib]
    simp only [sum_const, card_univ, Fintype.card_fin, nsmul_eq_mul, mul_one]
    constructor <;> intro h <;> linarith
  rw [h4, sum_eq_zero_iff_of_nonneg fun j _ => sub_nonneg.mpr (h1 j)]
  simp only [mem_univ, true_implies, sub_eq_zero]
  exact ⟨fun h j => (h j).symm, fun h j => (h j).symm⟩

/-- **C159 (first design).** The design of the first solve: full and empty quarters, opposite quarters alike, and `0.5` exactly for cells with the centroid on one of the two axes. It is unchanged by the half turn about the centre,
and the mirror images exchange full and empty. -/
theorem C159_quarters (Lx : ℝ) (c : Fin 2 → ℝ) :
    (dcTheta Lx c = 1 ↔ (c 0 - 0.5 * Lx) * c 1 < 0) ∧ (dcTheta Lx c = 0 ↔ 0 < (c 0 - 0.5 * Lx) * c 1) ∧ (dcTheta Lx c = 0.5 ↔ c 0 = 0.5 * Lx ∨ c 1 = 0) ∧
    dcTheta Lx ![Lx - c 0, -c 1] = dcTheta Lx c ∧ dcTheta Lx ![Lx - c 0, c 1] = 1 - dcTheta Lx c := by
  have key : ∀ x : Fin 2 → ℝ, dcTheta Lx x = if (x 0 - 0.5 * Lx) * x 1 < 0 then 1 else if 0 < (x 0 - 0.5 * Lx) * x 1 then 0 else 0.5 := by
    intro x
    unfold dcTheta
    dsimp only
    rcases lt_trichotomy (x 0) (0.5 * Lx) with h1 | h1 | h1 <;> rcases lt_trichotomy (x 1) 0 with h2 | h2 | h2
    · have h3 := mul_pos_of_neg_of_neg (sub_neg.mpr h1) h2
      simp [h1, h2, h1.not_gt, h2.not_gt, h3, h3.not_gt]
    · simp [h2]
    · have h3 := mul_neg_of_neg_of_pos (sub_neg.mpr h1) h2
      simp [h1, h2, h1.not_gt, h2.not_gt, h3]
    · simp [h1]
    · simp [h1]
    · simp [h1]
    · have h3 := mul_neg_of_pos_of_neg (sub_pos.mpr h1) h2
      simp [h1, h2, h1.not_gt, h2.not_gt, h3]
    · simp [h2]
    · have h3 := mul_pos (sub_pos.mpr h1) h2
      simp [h1, h2, h1.not_gt, h2.not_gt, h3, h3.not_gt]
  have e1 : ((![Lx - c 0, -c 1] : Fin 2 → ℝ) 0 - 0.5 * Lx) * (![Lx - c 0, -c 1] : Fin 2 → ℝ) 1 = (c 0 - 0.5 * Lx) * c 1 := by
    simp only [Matrix.cons_val_zero, Matrix.cons_val_one]
    ring
  have e2 : ((![Lx - c 0, c 1] : Fin 2 → ℝ) 0 - 0.5 * Lx) * (![Lx - c 0, c 1] : Fin 2 → ℝ) 1 = -((c 0 - 0.5 * Lx) * c 1) := by
    simp only [Matrix.cons_val_zero, Matrix.cons_val_one]
    ring
  rw [key, key ![Lx - c 0, -c 1], key ![Lx - c 0, c 1], e1, e2]
  have hz : (c 0 = 0.5 * Lx ∨ c 1 = 0) ↔ (c 0 - 0.5 * Lx) * c 1 = 0 := by rw [mul_eq_zero, sub_eq_zero]
  rw [hz]
  generalize (c 0 - 0.5 * Lx) * c 1 = y
  rcases lt_trichotomy y 0 with h | h | h
  · simp only [h, h.not_gt, if_true, if_false, h.ne, true_iff, iff_true, neg_pos, neg_lt_zero]
    norm_num
  · subst h
    norm_num
  · simp only [h, h.not_gt, if_true, if_false, h.ne', neg_pos, neg_lt_zero]
    norm_num

/-! ## The beam of four-node cells -/

section
variable {Nx Ny : ℕ} {Lx Ly : ℝ} (hNx : 0 < Nx) (hNy : 0 < Ny) (hLx : 0 < Lx) (hLy : 0 < Ly)

/-- The object of curve.py 110 on a rectangle of four-node cells (the file's mesh has eight-node cells and is shifted by `-0.4*Ly`). -/
noncomputable def beam (Nx Ny : ℕ) (Lx Ly : ℝ) : Fem 4 (2 ^ 2) 4 (2 ^ 1) 2 2 := { exampleFem Nx Ny Lx Ly (fun _ => false) (fun _ => 0) with neumann := none }

include hNx hNy hLx hLy in
theorem beam_unloaded : Unloaded (beam Nx Ny Lx Ly) := by
  have h1 := C105_loaded hNx hNy hLx hLy (fun _ => false) (fun _ => 0)
  refine ⟨rfl, rfl, rfl, rfl, h1.mesh, h1.cells, fun f hf => ?_, h1.vol⟩
  have h2 := (example_faces (Nx := Nx) (Ny := Ny) (Lx := Lx) (Ly := Ly) (fun _ => false) (fun _ => 0)).5 f
  have h3 : (exampleFem Nx Ny Lx Ly (fun _ => false) (fun _ => 0)).faceInds f = [] := hf
  rw [h3] at h2
  clear hf h3
  revert h2
  revert f
  clear h1 hNx hNy hLx hLy
  decide +kernel

include hNx hNy hLx hLy in
/-- **C159 (beam).** The conditions of the file on a rectangle of any size and number of cells are accepted and hold the body. -/
theorem C159_beam :
    ∃ ns cs ws, dirichletBC (beam Nx Ny Lx Ly).numTotal (beam Nx Ny Lx Ly).points (some (dcInfo Lx)) = .ok (ns, cs, ws) ∧ Unloaded (beam Nx Ny Lx Ly) ∧ Supported (beam Nx Ny Lx Ly) (groupsOf ns cs ws) := by
  set F := beam Nx Ny Lx Ly with hFdef
  have hR : OnRect F Nx Ny Lx Ly := ⟨rfl, rfl, rfl⟩
  obtain ⟨⟨ns, cs, ws⟩, hbc⟩ := (C17_accepted F.numTotal F.points (dcInfo Lx).1 (dcInfo Lx).2.1 (dcInfo Lx).2.2).1.mpr ⟨rfl, rfl⟩
  refine ⟨ns, cs, ws, hbc, beam_unloaded hNx hNy hLx hLy, ?_, ?_, ?_⟩
  · exact C19_groups_wf (F.toProb (groupsOf ns cs ws)) (show 0 < 2 by decide) F.numTotal F.points _ _ _ ns cs ws hbc rfl
  · intro n hn
    rw [hR.num] at hn
    obtain ⟨i, j, hi, hj, rfl⟩ := Verif.Mesh.idx2_surj hn
    refine rect_held hR hNy hLy _ (fun j hj => ?_) i (by omega) j (by omega)
    have hlt : j < F.numTotal := by
      rw [hR.num]
      have := Verif.Mesh.idx2_lt (show 0 < Nx + 1 by omega) (show j < Ny + 1 by omega)
      simpa using this
    refine ⟨hlt, fun c hf => ?_⟩
    have hx : F.points j 0 = 0 := by
      have := congrFun (hR.point 0 j hj) 0
      simpa using this
    have hl : dcLeft (F.points j) = true := by
      unfold dcLeft
      rw [isclose_iff, hx]
      norm_num
    have hu := (user_prescriptions (F.toProb (groupsOf ns cs ws)) F.points _ _ _ (by
      intro v hv
      show v < 2
      simp only [dcInfo, List.mem_cons, List.not_mem_nil, or_false] at hv
      omega) ns cs ws hbc rfl j c hlt c.isLt).1.mp hf
    fin_cases c
    · exact hu (dcLeft, 0, fun _ => 0) (by simp [dcInfo]) ⟨hl, rfl⟩
    · exact hu (dcLeft, 1, fun _ => 0) (by simp [dcInfo]) ⟨hl, rfl⟩
  · refine C88_rigid_quad4 _ ⟨fun _ _ => rfl, fun _ _ _ => rfl, fun _ => rfl⟩ fun c hc => ?_
    obtain ⟨i, j, hi, hj, rfl⟩ := (hR.mem_cells c).mp hc
    refine ⟨![(i : ℝ) * (Lx / Nx), (j : ℝ) * (Ly / Ny)], ![Lx / Nx, Ly / Ny], fun a => ?_, fun p a => hR.corner i j hj p a⟩
    fin_cases a
    · exact (div_pos hLx (by exact_mod_cast hNx)).ne'
    · exact (div_pos hLy (by exact_mod_cast hNy)).ne'

end

theorem split4 {α : Type*} {a b c d t : α} {l₁ l₂ : List α} (h : [a, b, c, d] = l₁ ++ t :: l₂) : (t = a ∧ l₂ = [b, c, d]) ∨ (t = b ∧ l₂ = [c, d]) ∨ (t = c ∧ l₂ = [d]) ∨ (t = d ∧ l₂ = []) := by
  rcases l₁ with _ | ⟨x1, _ | ⟨x2, _ | ⟨x3, _ | ⟨x4, l⟩⟩⟩⟩ <;> simp_all

/-- **C159 (ends).** Whatever the mesh: a solution is compressed by one percent of the length at the nodes near the right end and rests at the nodes near the left end (on a beam so short that a node is near both ends the right end decides). -/
theorem C159_ends {F : Fem nn nq nf nfq 2 2} {Lx : ℝ} (ns cs : List (List ℕ)) (ws : List (List ℝ)) (hbc : dirichletBC F.numTotal F.points (some (dcInfo Lx)) = .ok (ns, cs, ws)) (G : Fem nn nq nf nfq 2 2) (hG : G.numTotal = F.numTotal)
    (u : ℕ → Fin 2 → ℝ) (hu : G.Solves (F.toProb (groupsOf ns cs ws)).prescriptions u) (n : ℕ) (hn : n < F.numTotal) :
    (|F.points n 0 - Lx| ≤ 1e-5 + 1e-5 * |Lx| → u n 0 = -0.01 * Lx ∧ u n 1 = 0) ∧ (|F.points n 0| ≤ 1e-5 → ¬ |F.points n 0 - Lx| ≤ 1e-5 + 1e-5 * |Lx| → u n 0 = 0 ∧ u n 1 = 0) := by
  obtain ⟨R, -, hs⟩ := hu
  have hv : ∀ v ∈ (dcInfo Lx).2.1, v < 2 := by
    intro v hv
    simp only [dcInfo, List.mem_cons, List.not_mem_nil, or_false] at hv
    omega
  have key : ∀ c : Fin 2, (∃ t ∈ (dcInfo Lx).1.zip ((dcInfo Lx).2.1.zip (dcInfo Lx).2.2), t.1 (F.points n) = true ∧ t.2.1 = c) →
      ∃ t, LastTriple ((dcInfo Lx).1.zip ((dcInfo Lx).2.1.zip (dcInfo Lx).2.2)) (F.points n) c t ∧ u n c = t.2.2 (F.points n) := by
    rintro c ⟨t, ht, h1⟩
    obtain ⟨k1, k2⟩ := user_prescriptions (F.toProb (groupsOf ns cs ws)) F.points _ _ _ hv ns cs ws hbc rfl n c hn c.isLt
    rcases free_or_last (F.toProb (groupsOf ns cs ws)).prescriptions (2 * n + c) with h | ⟨v, h⟩
    · exact absurd h1 (k1.mp h t ht)
    · obtain ⟨t', -, h2, h3⟩ := k2 v h
      exact ⟨t', h2, ((hs n (hG ▸ hn) c).1 v h).trans h3⟩
  have hr : ∀ x : Fin 2 → ℝ, dcRight Lx x = true ↔ |x 0 - Lx| ≤ 1e-5 + 1e-5 * |Lx| := fun x => isclose_iff _ _ _
  have hl : ∀ x : Fin 2 → ℝ, dcLeft x = true ↔ |x 0| ≤ 1e-5 := fun x => by
    unfold dcLeft
    rw [isclose_iff]
    simp
  have hT : (dcInfo Lx).1.zip ((dcInfo Lx).2.1.zip (dcInfo Lx).2.2) = [(dcLeft, 0, fun _ => 0), (dcLeft, 1, fun _ => 0), (dcRight Lx, 0, fun _ => -0.01 * Lx), (dcRight Lx, 1, fun _ => 0)] := rfl
  rw [hT] at key
  rw [← hr, ← hl]
  have k0 : ∀ t, LastTriple [(dcLeft, 0, fun _ => (0 : ℝ)), (dcLeft, 1, fun _ => 0), (dcRight Lx, 0, fun _ => -0.01 * Lx), (dcRight Lx, 1, fun _ => 0)] (F.points n) 0 t →
      t.2.2 (F.points n) = if dcRight Lx (F.points n) = true then -0.01 * Lx else 0 := by
    rintro t ⟨l₁, l₂, h1, ⟨h2, h3⟩, h4⟩
    rcases split4 h1 with ⟨rfl, rfl⟩ | ⟨rfl, rfl⟩ | ⟨rfl, rfl⟩ | ⟨rfl, rfl⟩
    · have h5 := h4 (dcRight Lx, 0, fun _ => -0.01 * Lx) (by simp)
      rw [if_neg fun h => h5 ⟨h, rfl⟩]
    · exact absurd h3 (by simp)
    · rw [if_pos h2]
    · exact absurd h3 (by simp)
  have k1 : ∀ t, LastTriple [(dcLeft, 0, fun _ => (0 : ℝ)), (dcLeft, 1, fun _ => 0), (dcRight Lx, 0, fun _ => -0.01 * Lx), (dcRight Lx, 1, fun _ => 0)] (F.points n) 1 t → t.2.2 (F.points n) = 0 := by
    rintro t ⟨l₁, l₂, h1, ⟨h2, h3⟩, h4⟩
    rcases split4 h1 with ⟨rfl, rfl⟩ | ⟨rfl, rfl⟩ | ⟨rfl, rfl⟩ | ⟨rfl, rfl⟩
    · rfl
    · rfl
    · exact absurd h3 (by simp)
    · rfl
  refine ⟨fun h => ?_, fun h h' => ?_⟩
  · obtain ⟨t, h1, h2⟩ := key 0 ⟨(dcRight Lx, 0, fun _ => -0.01 * Lx), by simp, h, rfl⟩
    obtain ⟨t', h1', h2'⟩ := key 1 ⟨(dcRight Lx, 1, fun _ => 0), by simp, h, rfl⟩
    rw [h2, h2', k0 t h1, k1 t' h1', if_pos h]
    exact ⟨rfl, rfl⟩
  · obtain ⟨t, h1, h2⟩ := key 0 ⟨(dcLeft, 0, fun _ => 0), by simp, h, rfl⟩
    obtain ⟨t', h1', h2'⟩ := key 1 ⟨(dcLeft, 1, fun _ => 0), by simp, h, rfl⟩
    rw [h2, h2', k0 t h1, k1 t' h1', if_neg h']
    exact ⟨rfl, rfl⟩

/-- The beam of `20 × 4` cells: the uniform designs `0.5` and `1` give the same displacements, for every exact linear solver. -/
example (lin : ℕ → LinCall ℝ → ℕ → ℝ) (hlin : ExactLin (21 * 5 * 2) lin) : ∃ ns cs ws, dirichletBC (21 * 5) (beam 20 4 10 1).points (some (dcInfo 10)) = .ok (ns, cs, ws) ∧
    (topProb (beam 20 4 10 1) dcStress (groupsOf ns cs ws) 80).fwdPred lin true true 0 (fun _ => 1) = (topProb (beam 20 4 10 1) dcStress (groupsOf ns cs ws) 80).fwdPred lin true true 0 (fun _ => 0.5) := by
  obtain ⟨ns, cs, ws, h1, h2, h3⟩ := C159_beam (Nx := 20) (Ny := 4) (Lx := 10) (Ly := 1) (by norm_num) (by norm_num) (by norm_num) (by norm_num)
  refine ⟨ns, cs, ws, h1, C159_uniform h2 h3 ?_ lin hlin true 0 1 (by norm_num)⟩
  show (List.map _ (List.range (20 * 4))).length = 80
  rw [List.length_map, List.length_range]

end Verif.Fem.DesignCurve
