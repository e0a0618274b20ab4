import Verif.Fem.LimitLoad
import Verif.Fem.PlasticDemo
import Verif.Fem.PropsPatch2

/-! The limit load of a bar: the `Plasticity` object of the demo (`jax_am/fem/models.py` 138-205, mesh of `demos/fem/plasticity/example.py` 86-92) pulled by a traction at the top instead of a prescribed displacement.
The loads the solver can carry are exactly those below the yield stress. -/

namespace Verif.Fem.LimitLoad
open Finset Matrix Verif.Fem

/-- The `Plasticity` object of the demo (`plasticObj`) with the traction `(0, 0, p)` at the top as Neumann condition (`neumann_bc_info` of core.py 397-). -/
noncomputable def pulled (N : Fin 3 → ℕ) (p : ℝ) : Fem 8 (2 ^ 3) 6 (2 ^ 2) 3 3 := { plasticObj N with neumann := some ([plasticTop], [fun _ _ _ i => if i = 2 then p else 0]) }

variable {N : Fin 3 → ℕ}

theorem pulled_box (N : Fin 3 → ℕ) (p : ℝ) : OnBox (pulled N p) N fun _ => 10 := ⟨rfl, rfl⟩

theorem pulled_tables (N : Fin 3 → ℕ) (p : ℝ) : CellTables (pulled N p) hex8 (gaussRule 3) := ⟨fun _ _ => rfl, fun _ _ _ => rfl, fun _ => rfl⟩

theorem pulled_faces (N : Fin 3 → ℕ) (p : ℝ) : FaceTables (pulled N p) hex8 (gaussRule 2) := by
  have h := ofElement_hex8_face (vec := 3) (gaussRule 3) (gaussRule 2) ((N 0 + 1) * (N 1 + 1) * (N 2 + 1)) (Verif.Mesh.boxMesh (N 0) (N 1) (N 2) (10 : ℝ) 10 10).points.get
    (Verif.Mesh.boxMesh (N 0) (N 1) (N 2) (10 : ℝ) 10 10).cells.toList
  exact ⟨h.vals, h.grads, h.weights, h.normals, h.inds⟩

theorem pulled_face_det (hN : ∀ a, 0 < N a) (p : ℝ) : ∀ l, ∀ f ∈ (pulled N p).selected l, ∀ q, ((pulled N p).faceJacobian f.1 f.2 q).det ≠ 0 := by
  intro l f hf q
  obtain ⟨g, hg, hpg⟩ := ((pulled_box N p).mem_cells f.1).mp (selected_mem _ hf)
  rw [hpg, (pulled_box N p).faceJacobian _ (pulled_faces N p) g hg, Matrix.det_diagonal]
  exact prod_ne_zero_iff.mpr fun b _ => div_ne_zero (by norm_num) (by exact_mod_cast (hN b).ne')

/-- The bar with a constant stress instead of the plastic law. -/
noncomputable def stressed (N : Fin 3 → ℕ) (p : ℝ) (T : Matrix (Fin 3) (Fin 3) ℝ) : Fem 8 (2 ^ 3) 6 (2 ^ 2) 3 3 := { pulled N p with tensorMap := some fun _ _ _ i j => T i j }

theorem uniaxial_apply (s : ℝ) (i j : Fin 3) : uniaxial s i j = if i = 2 ∧ j = 2 then s else 0 := by
  unfold uniaxial
  rw [Matrix.smul_apply, Matrix.single_apply, smul_eq_mul]
  by_cases h : i = 2 ∧ j = 2
  · rw [if_pos h, if_pos ⟨h.1.symm, h.2.symm⟩, mul_one]
  · rw [if_neg h, if_neg fun hh => h ⟨hh.1.symm, hh.2.symm⟩, mul_zero]

/-- The work of the traction is the work of the uniaxial stress, on all fields without vertical displacement of the bottom. -/
theorem pulled_work (hN : ∀ a, 0 < N a) (hfine : N 2 ≤ 10000) (p : ℝ) (v : ℕ → Fin 3 → ℝ) (hv : ∀ m : Fin 3 → ℕ, (∀ a, m a ≤ N a) → m 2 = 0 → v (gridNode N m) 2 = 0) :
    extWork (pulled N p) v = intWork (pulled N p) (fun _ _ => uniaxial p) v := by
  set G := stressed N p (uniaxial p) with hG
  have hbox : OnBox G N fun _ => 10 := ⟨rfl, rfl⟩
  have ht : CellTables G hex8 (gaussRule 3) := ⟨fun _ _ => rfl, fun _ _ _ => rfl, fun _ => rfl⟩
  have hft : FaceTables G hex8 (gaussRule 2) := by
    have h := pulled_faces N p
    exact ⟨h.vals, h.grads, h.weights, h.normals, h.inds⟩
  have hret : ∃ R, G.computeResidual 0 = .ok R := by
    refine (C13_returns G 0).mpr ⟨plasticObj_nonempty hN, ?_, ?_, ?_, ?_⟩
    · intro k hk; cases hk
    · intro k hk; cases hk
    · intro k hk; cases hk
    · intro lv hlv
      injection hlv with hlv
      subst hlv
      exact ⟨by simp, fun l _ => pulled_face_det hN p l⟩
  obtain ⟨R, hR⟩ := hret
  have hwork := C71_virtual_work G (plasticObj_mesh N) 0 v R hR
  have hzero : ∑ n ∈ range G.numTotal, ∑ i, R n i * v n i = 0 := by
    refine sum_eq_zero fun n hn => sum_eq_zero fun i _ => ?_
    obtain ⟨m, hm, rfl⟩ := plasticObj_node n (mem_range.mp hn)
    rw [residual_affine G (plasticObj_sum N) (plasticObj_det hN) rfl rfl rfl rfl 0 (fun i j => uniaxial p i j) 0 (fun _ _ => rfl) 0 R (fun c _ n i => by simp) hR]
    have hpairs : Fem.pairs G.neumann = [(plasticTop, fun _ _ _ i => if i = 2 then p else 0)] := rfl
    rw [hpairs, List.map_singleton, List.sum_singleton]
    have hside := hbox.sideLoad hft hN (fun _ => by norm_num) plasticTop 2 (N 2) (Or.inr rfl) (fun m hm => (plastic_locs hN hfine m hm).2) (fun i => if i = 2 then p else 0) m hm i
    rw [hside]
    by_cases hi : i = 2
    · subst hi
      have hs : ∑ d, uniaxial p 2 d * G.nodeVector (gridNode N m) d = p * G.nodeVector (gridNode N m) 2 := by
        rw [Fin.sum_univ_three]
        simp [uniaxial_apply]
      rw [hs, hbox.nodeVector ht hN (fun _ => by norm_num) m hm 2]
      by_cases h0 : m 2 = 0
      · rw [hv m hm h0, mul_zero]
      · have h1 : 1 ≤ m 2 := Nat.one_le_iff_ne_zero.mpr h0
        by_cases h2 : m 2 = N 2
        · have h3 : ¬ m 2 < N 2 := by omega
          rw [if_pos h1, if_neg h3, if_pos h2, if_pos rfl]
          ring
        · have h3 : m 2 < N 2 := lt_of_le_of_ne (hm 2) h2
          simp [h1, h2, h3]
    · have hs : ∑ d, uniaxial p i d * G.nodeVector (gridNode N m) d = 0 := sum_eq_zero fun d _ => by rw [uniaxial_apply, if_neg fun h => hi h.1, zero_mul]
      rw [hs]
      simp [hi]
  rw [hzero] at hwork
  have hmass : ∀ k q u i, G.massAt k q u i = 0 := fun _ _ _ _ => rfl
  have hcau : Fem.pairs G.cauchy = [] := rfl
  rw [hcau] at hwork
  simp only [hmass, zero_mul, sum_const_zero, add_zero, List.map_nil, List.sum_nil] at hwork
  rw [zip_sum] at hwork
  have h1 : intWork (pulled N p) (fun _ _ => uniaxial p) v = ∑ k : Fin G.cells.length, ∑ q, (∑ i, ∑ d, G.stress k q (G.gradAt 0 G.cells[k] q) i d * G.gradAt v G.cells[k] q i d) * G.JxW G.cells[k] q := rfl
  have h2 : extWork (pulled N p) v = (G.cells.map fun c => ∑ q, (∑ i, G.load c q i * G.uAt v c q i) * G.JxW c q).sum
      + ((Fem.pairs G.neumann).map fun lv => ((G.selected lv.1).zipIdx.map fun p =>
          ∑ q, (∑ i, lv.2 p.2 q (G.xFace p.1 q) i * G.uFace v p.1 q i) * G.nansonScale p.1.1 p.1.2 q).sum).sum := rfl
  rw [h1, h2]
  linarith

theorem uniaxial_mises (s : ℝ) : mises (uniaxial s) = |s| := by rw [← tq_self, tq_mises]

/-- The residual of the pulled bar can be computed after every load history. -/
theorem pulled_returns (hN : ∀ a, 0 < N a) (p : ℝ) (sols : List (ℕ → Fin 3 → ℝ)) (st : PlastState (2 ^ 3) 3) (hst : plastRun (pulled N p) sols = .ok st) (u : ℕ → Fin 3 → ℝ) :
    ∃ R, (plastFem (pulled N p) st).computeResidual u = .ok R := by
  obtain ⟨st', hst', hls, -⟩ := C30_history (by norm_num) (pulled N p) sols
  rw [hst] at hst'
  injection hst' with hst'
  subst hst'
  refine (C13_returns _ _).mpr ⟨plasticObj_nonempty hN, ?_, ?_, ?_, ?_⟩
  · intro m hm
    cases hm
  · intro m hm
    have : (plastFem (pulled N p) st).lapRows = some st.sig.length := rfl
    rw [this] at hm
    injection hm with hm
    rw [← hm, hls]
    rfl
  · intro lv hlv
    cases hlv
  · intro lv hlv
    injection hlv with hlv
    subst hlv
    exact ⟨by simp, fun l _ => pulled_face_det hN p l⟩

/-- **C146 (the bar, below the limit).** The bar with its bottom held vertically (and any further degrees of freedom held), pulled or pushed by a traction below the yield stress: after every load history the load step has a solution. -/
theorem C146_bar_below (hN : ∀ a, 0 < N a) (hfine : N 2 ≤ 10000) (p : ℝ) (hp : |p| < 250) (held : ℕ → Fin 3 → Prop) (hbottom : ∀ n < (pulled N p).numTotal, plasticBottom ((pulled N p).points n) = true → held n 2)
    (sols : List (ℕ → Fin 3 → ℝ)) (st : PlastState (2 ^ 3) 3) (hst : plastRun (pulled N p) sols = .ok st) (b : ℕ → Fin 3 → ℝ) : ∃ u, SolvesStep (pulled N p) st held b u := by
  refine C146_exists (by norm_num) (pulled N p) (plasticObj_mesh N) (plasticObj_vol hN) rfl held (250 - |p|) (by linarith) (fun _ _ => uniaxial p) ⟨fun _ _ => ?_, fun _ _ => ?_, fun v hv => ?_⟩ sols st hst
    ⟨0, pulled_returns hN p sols st hst 0⟩ b
  · ext i j
    rw [Matrix.transpose_apply, uniaxial_apply, uniaxial_apply]
    simp only [and_comm]
  · rw [uniaxial_mises]
    linarith
  · exact pulled_work hN hfine p v fun m hm h0 => hv _ _ (hbottom _ (gridNode_lt N m hm) ((plastic_locs hN hfine m hm).1.mpr h0))

/-- The collapse mechanism of the bar: it grows by `s z` and thins by half of that on both sides. -/
noncomputable def mechanism (N : Fin 3 → ℕ) (s : ℝ) : ℕ → Fin 3 → ℝ := fun n i => (if i = 2 then s else -(s / 2)) * (plasticObj N).points n i

theorem mechanism_grad (hN : ∀ a, 0 < N a) (p s : ℝ) (c : Fin 8 → ℕ) (hc : c ∈ (pulled N p).cells) (q : Fin (2 ^ 3)) :
    (pulled N p).gradAt (mechanism N s) c q = fun i d => if i = d then (if i = 2 then s else -(s / 2)) else 0 := by
  refine gradAt_affine (pulled N p) (plasticObj_sum N) _ 0 _ c (fun n i => ?_) q (plasticObj_det hN c hc q)
  simp [mechanism, pulled]

theorem mechanism_work (hN : ∀ a, 0 < N a) (hfine : N 2 ≤ 10000) (p s : ℝ) (hs : |s| = 1) : dissipation (pulled N p) (mechanism N s) = 250 * 1000 ∧ extWork (pulled N p) (mechanism N s) = p * s * 1000 := by
  have hV : ∑ k : Fin (pulled N p).cells.length, ∑ q, (pulled N p).JxW (pulled N p).cells[k] q = 1000 := by
    have h := box_volume (plasticObj N) N (fun _ => 10) (plasticObj_onBox N) hN (gaussRule 3) (plasticObj_tables N) (gaussRule_sum 3)
    have h2 := list_sum (pulled N p).cells fun c => ∑ q, (pulled N p).JxW c q
    rw [← h2]
    refine h.trans ?_
    norm_num
  have hs2 : s * s = 1 := by
    rw [← abs_mul_abs_self, hs, one_mul]
  constructor
  · rw [← hV, mul_sum]
    unfold dissipation
    refine sum_congr rfl fun k _ => ?_
    rw [mul_sum]
    refine sum_congr rfl fun q _ => ?_
    rw [mechanism_grad hN p s (pulled N p).cells[k] (List.getElem_mem k.isLt)]
    have e : ddot (strain (Matrix.of fun i d : Fin 3 => if i = d then (if i = 2 then s else -(s / 2)) else 0)) (strain (Matrix.of fun i d : Fin 3 => if i = d then (if i = 2 then s else -(s / 2)) else 0)) = 3 / 2 := by
      simp only [ddot, Fin.sum_univ_three, strain_apply, Matrix.of_apply]
      simp
      linarith
    rw [e]
    norm_num
  · rw [pulled_work hN hfine p _ fun m hm h0 => ?_, ← hV, mul_sum]
    · unfold intWork
      refine sum_congr rfl fun k _ => ?_
      rw [mul_sum]
      refine sum_congr rfl fun q _ => ?_
      rw [mechanism_grad hN p s (pulled N p).cells[k] (List.getElem_mem k.isLt)]
      congr 1
      simp [ddot, Fin.sum_univ_three, uniaxial_apply]
    · have := (plasticObj_onBox N).point m hm 2
      simp [mechanism, this, h0]

/-- **C146 (the bar, above the limit).** If only components are held that are zero on the symmetry planes, no load step with a traction above the yield stress has a solution, after any load history and for any prescribed values. -/
theorem C146_bar_above (hN : ∀ a, 0 < N a) (hfine : N 2 ≤ 10000) (p : ℝ) (hp : 250 < |p|) (held : ℕ → Fin 3 → Prop) (hplanes : ∀ n < (pulled N p).numTotal, ∀ i, held n i → (pulled N p).points n i = 0)
    (sols : List (ℕ → Fin 3 → ℝ)) (st : PlastState (2 ^ 3) 3) (hst : plastRun (pulled N p) sols = .ok st) (b u : ℕ → Fin 3 → ℝ) : ¬ SolvesStep (pulled N p) st held b u := by
  obtain ⟨s, hs, hps⟩ : ∃ s : ℝ, |s| = 1 ∧ p * s = |p| := by
    rcases abs_cases p with ⟨h, -⟩ | ⟨h, -⟩
    · exact ⟨1, abs_one, by rw [h, mul_one]⟩
    · exact ⟨-1, by simp, by rw [h]; ring⟩
  obtain ⟨hd, he⟩ := mechanism_work hN hfine p s hs
  refine C146_collapse (by norm_num) (pulled N p) (plasticObj_mesh N) (fun c hc q => (plasticObj_vol hN c hc q).le) rfl held (mechanism N s) (fun n hn i hh => ?_) (fun c hc q => ?_) ?_ sols st hst b u
  · have : (plasticObj N).points n i = 0 := hplanes n hn i hh
    rw [mechanism, this, mul_zero]
  · rw [mechanism_grad hN p s c hc, Fin.sum_univ_three]
    simp
    ring
  · rw [hd, he, hps]
    linarith

/-- **C146 (the solver on the bar above the limit).** Above the yield stress (by a margin for the tolerance of the solver) `solver` never returns on the bar. -/
theorem C146_bar_solver (hN : ∀ a, 0 < N a) (hfine : N 2 ≤ 10000) (p : ℝ) (hp : 250 + 2e-8 * (pulled N p).numTotal < |p|) (sols : List (ℕ → Fin 3 → ℝ)) (st : PlastState (2 ^ 3) 3) (hst : plastRun (pulled N p) sols = .ok st)
    (groups : List (Group ℝ)) (hwf : ((plastFem (pulled N p) st).toProb groups).WF)
    (hplanes : ∀ n < (pulled N p).numTotal, ∀ i : Fin 3, ¬ FreeAt ((plastFem (pulled N p) st).toProb groups).prescriptions (3 * n + i) → (pulled N p).points n i = 0)
    (lin : ℕ → LinCall ℝ → ℕ → ℝ) (precond usePetsc : Bool) (guess : Option (ℕ → ℝ)) (fuel : ℕ) (x : ℕ → ℝ) : ((plastFem (pulled N p) st).toProb groups).rowSolver realArith lin false precond usePetsc guess fuel ≠ .ok x := by
  obtain ⟨s, hs, hps⟩ : ∃ s : ℝ, |s| = 1 ∧ p * s = |p| := by
    rcases abs_cases p with ⟨h, -⟩ | ⟨h, -⟩
    · exact ⟨1, abs_one, by rw [h, mul_one]⟩
    · exact ⟨-1, by simp, by rw [h]; ring⟩
  obtain ⟨hd, he⟩ := mechanism_work hN hfine p s hs
  have hsum : ∑ n ∈ range (pulled N p).numTotal, ∑ i, |mechanism N s n i| ≤ 20 * (pulled N p).numTotal := by
    have hle : ∀ n ∈ range (pulled N p).numTotal, ∑ i, |mechanism N s n i| ≤ 20 := by
      intro n hn
      obtain ⟨m, hm, rfl⟩ := plasticObj_node n (mem_range.mp hn)
      have hb : ∀ i, |(plasticObj N).points (gridNode N m) i| ≤ 10 := by
        intro i
        rw [(plasticObj_onBox N).point m hm i]
        have h0 : (0 : ℝ) < N i := by exact_mod_cast hN i
        have h1 : (m i : ℝ) ≤ N i := by exact_mod_cast hm i
        rw [abs_of_nonneg (by positivity), mul_div_assoc', div_le_iff₀ h0]
        linarith
      have h2 : |s / 2| = 1 / 2 := by rw [abs_div, hs]; norm_num
      rw [Fin.sum_univ_three]
      simp only [mechanism, abs_mul]
      have e0 := hb 0
      have e1 := hb 1
      have e2 := hb 2
      simp [hs, h2]
      linarith
    calc _ ≤ ∑ n ∈ range (pulled N p).numTotal, (20 : ℝ) := sum_le_sum hle
      _ = _ := by rw [sum_const, card_range, nsmul_eq_mul, mul_comm]
  refine C146_solver (pulled N p) (plasticObj_mesh N) (fun c hc q => (plasticObj_vol hN c hc q).le) rfl sols st hst groups hwf (mechanism N s) (fun n hn i hh => ?_) (fun c hc q => ?_) ?_ lin precond usePetsc guess fuel x
  · have : (plasticObj N).points n i = 0 := hplanes n hn i hh
    rw [mechanism, this, mul_zero]
  · rw [mechanism_grad hN p s c hc, Fin.sum_univ_three]
    simp
    ring
  · rw [hd, he, hps]
    norm_num at hp ⊢
    linarith

/-! ## Cases -/

/-- One cell, nothing loaded before, bottom held: 200 MPa can be carried, 300 MPa cannot. -/
example (b : ℕ → Fin 3 → ℝ) :
    (∃ st, plastRun (pulled (fun _ => 1) 200) [] = .ok st ∧ ∃ u, SolvesStep (pulled (fun _ => 1) 200) st (fun n i => i = 2 ∧ plasticBottom ((plasticObj fun _ => 1).points n) = true) b u)
    ∧ ∃ st, plastRun (pulled (fun _ => 1) 300) [] = .ok st ∧ ∀ u, ¬ SolvesStep (pulled (fun _ => 1) 300) st (fun n i => i = 2 ∧ plasticBottom ((plasticObj fun _ => 1).points n) = true) b u := by
  constructor
  · obtain ⟨st, hst, -⟩ := C30_history (by norm_num) (pulled (fun _ => 1) 200) []
    exact ⟨st, hst, C146_bar_below (fun _ => one_pos) (by norm_num) 200 (by norm_num [abs_of_pos]) _ (fun n _ h => ⟨rfl, h⟩) [] st hst b⟩
  · obtain ⟨st, hst, -⟩ := C30_history (by norm_num) (pulled (fun _ => 1) 300) []
    refine ⟨st, hst, fun u => C146_bar_above (fun _ => one_pos) (by norm_num) 300 (by norm_num [abs_of_pos]) _ (fun n hn i h => ?_) [] st hst b u⟩
    obtain ⟨rfl, h2⟩ := h
    obtain ⟨m, hm, rfl⟩ := plasticObj_node (N := fun _ => 1) n hn
    have h0 := (plastic_locs (N := fun _ => 1) (fun _ => one_pos) (by norm_num) m hm).1.mp h2
    have := (plasticObj_onBox fun _ => 1).point m hm 2
    show (plasticObj fun _ => 1).points _ 2 = 0
    rw [this, h0]
    simp

/-- The demo: whatever displacements the object has been updated with before (also such that balance nothing), the next step at any end position has a solution. -/
example (hN : ∀ a, 0 < N a) (sols : List (ℕ → Fin 3 → ℝ)) (disp : ℝ) : ∃ st, plastRun (plasticObj N) sols = .ok st ∧ ∃ u,
    SolvesStep (plasticObj N) st (fun n i => i = 2 ∧ (plasticBottom ((plasticObj N).points n) = true ∨ plasticTop ((plasticObj N).points n) = true)) (fun n _ => if plasticTop ((plasticObj N).points n) then disp else 0) u := by
  obtain ⟨st, hst, h⟩ := C146_displacement (by norm_num) (plasticObj N) (plasticObj_mesh N) (plasticObj_vol hN) (plasticObj_nonempty hN) rfl rfl rfl rfl
    (fun n i => i = 2 ∧ (plasticBottom ((plasticObj N).points n) = true ∨ plasticTop ((plasticObj N).points n) = true)) sols
  exact ⟨st, hst, h _⟩

/-- One cell with a corner held vertically, 300 MPa: the solver does not return. -/
example (st : PlastState (2 ^ 3) 3) (hst : plastRun (pulled (fun _ => 1) 300) [] = .ok st) (lin : ℕ → LinCall ℝ → ℕ → ℝ) (fuel : ℕ) (x : ℕ → ℝ) :
    ((plastFem (pulled (fun _ => 1) 300) st).toProb [⟨[0], [2], [0]⟩]).rowSolver realArith lin false true false none fuel ≠ .ok x := by
  refine C146_bar_solver (fun _ => one_pos) (by norm_num) 300 ?_ [] st hst _ ?_ ?_ lin true false none fuel x
  · have : (pulled (fun _ => 1) 300).numTotal = 8 := rfl
    rw [this]
    norm_num [abs_of_pos]
  · intro g hg
    obtain rfl := List.mem_singleton.mp hg
    exact ⟨rfl, rfl, List.nodup_singleton _⟩
  · intro n hn i h
    have : 3 * n + (i : ℕ) = 2 := by
      by_contra hne
      refine h fun p hp => ?_
      have hp' : p ∈ [((2 : ℕ), (0 : ℝ))] := hp
      rw [List.mem_singleton.mp hp']
      exact fun h => hne h.symm
    have h0 : n = 0 := by omega
    have h2 : i = 2 := by
      apply Fin.ext
      show (i : ℕ) = 2
      omega
    subst h0 h2
    have hp := (plasticObj_onBox fun _ => 1).point (fun _ => 0) (fun _ => zero_le_one) 2
    have e : gridNode (fun _ => 1) (fun _ => 0) = 0 := rfl
    rw [e] at hp
    show (plasticObj fun _ => 1).points 0 2 = 0
    rw [hp]
    simp

end Verif.Fem.LimitLoad
