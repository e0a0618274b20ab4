import Verif.Fem.ForceCurve

/-!
# C163: the dogbone specimen (model of applications/fem/fem_examples/jax_examples.py 31-63)

The mesh is read from an Abaqus file and left open. The ends of the specimen are the nodes of least and largest first coordinate, up to the tolerance of `np.isclose`.
-/
namespace Verif.Fem.DogBone
open Verif.Fem Finset
open Verif.Fem.ForceCurve (elasticStress_smul gradAt_scale exists_last)

variable {nn nq nf nfq : ℕ}

/-! ## Model -/

/-- `np.min(points[:, 0])` of a non-empty array (jax_examples.py 31); the theorems use it only on meshes with nodes. -/
noncomputable def minX (F : Fem nn nq nf nfq 3 3) : ℝ := ⨅ n : Fin F.numTotal, F.points n 0

/-- `np.max(points[:, 0])` (jax_examples.py 32). -/
noncomputable def maxX (F : Fem nn nq nf nfq 3 3) : ℝ := ⨆ n : Fin F.numTotal, F.points n 0

/-- `min_x_loc` (jax_examples.py 35-36). -/
noncomputable def minXLoc (F : Fem nn nq nf nfq 3 3) : Loc 3 := fun point => isclose (point 0) (minX F) 1e-5

/-- `max_x_loc` (jax_examples.py 38-39). -/
noncomputable def maxXLoc (F : Fem nn nq nf nfq 3 3) : Loc 3 := fun point => isclose (point 0) (maxX F) 1e-5

/-- `dirichlet_bc_info` (jax_examples.py 41-51). -/
noncomputable def dogInfo (F : Fem nn nq nf nfq 3 3) (disp : ℝ) : List (Loc 3) × List ℕ × List ((Fin 3 → ℝ) → ℝ) :=
  ([minXLoc F, minXLoc F, minXLoc F, maxXLoc F, maxXLoc F, maxXLoc F], [0, 1, 2, 0, 1, 2], [fun _ => 0, fun _ => 0, fun _ => 0, fun _ => disp, fun _ => 0, fun _ => 0])

/-- The boundary lists made by the constructor (jax_examples.py 55). -/
noncomputable def dogGroups (F : Fem nn nq nf nfq 3 3) (disp : ℝ) : Except (FemErr ⊕ SolveErr FemErr) (List (Group ℝ)) :=
  match dirichletBC F.numTotal F.points (some (dogInfo F disp)) with
  | .ok out => .ok (groupsOf out.1 out.2.1 out.2.2)
  | .error e => .error (.inl e)

/-- `linear_elasticity_dogbone` (jax_examples.py 30-62) without the files: the solution (line 56) and the number of degrees of freedom (line 62, returned with the wall time in line 63). On a mesh without nodes `np.min` raises a `ValueError`. -/
noncomputable def dogSolve (F : Fem nn nq nf nfq 3 3) (lin : ℕ → LinCall ℝ → ℕ → ℝ) (fuel : ℕ) (disp : ℝ) : Except (FemErr ⊕ SolveErr FemErr) ((ℕ → Fin 3 → ℝ) × ℕ) :=
  if F.numTotal = 0 then .error (.inl .shape) else do
    let groups ← dogGroups F disp
    let u ← (((elasticFem F).toProb groups).rowSolver realArith lin true true false none fuel).mapError .inr
    pure (fun n i => u (3 * n + i), F.numTotal * 3)

/-! ## Specification -/

/-- Specification: a mesh of cells of positive volume without zero-strain deformations, its nodes in range, held by the nodes of least first coordinate; no loads; longer than the tolerances at its ends. -/
structure Body (F : Fem nn nq nf nfq 3 3) : Prop where
  mesh : ∀ c ∈ F.cells, ∀ a, c a < F.numTotal
  cells : F.cells ≠ []
  vol : ∀ c ∈ F.cells, ∀ q, 0 < F.JxW c q
  rigid : (elasticFem F).RigidModes
  nodes : 0 < F.numTotal
  held : ∀ n < F.numTotal, (elasticFem F).Held (fun n => n < F.numTotal ∧ minXLoc F (F.points n) = true) n
  source : F.source = none
  body : F.bodyVar = none
  cauchy : F.cauchy = none
  neumann : F.neumann = none
  extent : 2 * 1e-5 + 1e-5 * |minX F| + 1e-5 * |maxX F| < maxX F - minX F

/-- Specification: the elastic equilibrium with one end fixed and the other moved by `disp` along the axis: displacements there, no residual at all other nodes. -/
def Equilibrium (F : Fem nn nq nf nfq 3 3) (disp : ℝ) (u R : ℕ → Fin 3 → ℝ) : Prop :=
  (elasticFem F).computeResidual u = .ok R ∧ ∀ n < F.numTotal,
    (minXLoc F (F.points n) = true → ∀ i, u n i = 0) ∧ (maxXLoc F (F.points n) = true → u n 0 = disp ∧ u n 1 = 0 ∧ u n 2 = 0) ∧
    (minXLoc F (F.points n) = false → maxXLoc F (F.points n) = false → ∀ i, R n i = 0)

/-! ## Proofs -/

theorem not_both (F : Fem nn nq nf nfq 3 3) (hB : Body F) (x : Fin 3 → ℝ) : ¬ (minXLoc F x = true ∧ maxXLoc F x = true) := by
  rintro ⟨h1, h2⟩
  rw [minXLoc, isclose_iff, abs_le] at h1
  rw [maxXLoc, isclose_iff, abs_le] at h2
  have := hB.extent
  linarith [h1.2, h2.1]

theorem residual_ok (F : Fem nn nq nf nfq 3 3) (hB : Body F) (u : ℕ → Fin 3 → ℝ) : ∃ R, (elasticFem F).computeResidual u = .ok R := by
  refine (C13_returns _ u).mpr ⟨hB.cells, fun m hm => by simp [elasticFem] at hm, fun m hm => by simp [elasticFem] at hm, fun lv hlv => ?_, fun lv hlv => ?_⟩
  · exact absurd (hB.cauchy.symm.trans hlv) (by simp)
  · exact absurd (hB.neumann.symm.trans hlv) (by simp)

theorem residual_formula (F : Fem nn nq nf nfq 3 3) (hB : Body F) (u R : ℕ → Fin 3 → ℝ) (h : (elasticFem F).computeResidual u = .ok R) (n : ℕ) (i : Fin 3) :
    R n i = (F.cells.zipIdx.map fun p => nodal n p.1 fun a => ∑ q, (∑ d, elasticStress (Matrix.of (F.gradAt u p.1 q)) i d * F.shapeGrad p.1 q a d) * F.JxW p.1 q).sum := by
  have h1 := C13_residual (elasticFem F) u R h n i
  have hc : (elasticFem F).cauchy = none := hB.cauchy
  have hn : (elasticFem F).neumann = none := hB.neumann
  have hl : ∀ c q i, (elasticFem F).load c q i = 0 := by
    intro c q i
    have hs : (elasticFem F).source = none := hB.source
    have hb : (elasticFem F).bodyVar = none := hB.body
    simp [Fem.load, hs, hb]
  have hz : ∀ c : Fin nn → ℕ, (nodal n c fun a => ∑ q, (elasticFem F).shapeVals q a * (elasticFem F).load c q i * (elasticFem F).JxW c q) = 0 := by
    intro c
    simp [hl, nodal]
  rw [hc, hn] at h1
  simp only [hz, Fem.pairs, Option.elim_none, List.map_nil, List.sum_nil, add_zero, sub_zero, List.map_const', List.sum_replicate, smul_zero] at h1
  refine h1.trans ?_
  congr 1
  refine List.map_congr_left fun p _ => ?_
  congr 1
  funext a
  refine sum_congr rfl fun q _ => ?_
  have hm : (elasticFem F).massAt p.2 q ((elasticFem F).uAt u p.1 q) i = 0 := rfl
  rw [hm, zero_mul, add_zero]
  rfl

theorem residual_scale (F : Fem nn nq nf nfq 3 3) (hB : Body F) (d : ℝ) (u R : ℕ → Fin 3 → ℝ) (h : (elasticFem F).computeResidual u = .ok R) :
    (elasticFem F).computeResidual (d • u) = .ok (d • R) := by
  obtain ⟨R', h'⟩ := residual_ok F hB (d • u)
  rw [h']
  congr 1
  funext n i
  rw [residual_formula F hB _ _ h', Pi.smul_apply, Pi.smul_apply, smul_eq_mul, residual_formula F hB _ _ h, ← List.sum_map_mul_left]
  congr 1
  refine List.map_congr_left fun p _ => ?_
  simp only [nodal, mul_sum]
  refine sum_congr rfl fun a _ => sum_congr rfl fun q _ => ?_
  rw [gradAt_scale, ← mul_assoc, mul_sum]
  congr 1
  refine sum_congr rfl fun j _ => ?_
  rw [elasticStress_smul, mul_assoc]

/-- An equilibrium for displacement `disp`, multiplied by `t`, is one for displacement `t * disp`; so are the nodal forces. -/
theorem dog_scale (F : Fem nn nq nf nfq 3 3) (hB : Body F) (disp t : ℝ) (u R : ℕ → Fin 3 → ℝ) (h : Equilibrium F disp u R) : Equilibrium F (t * disp) (t • u) (t • R) := by
  refine ⟨residual_scale F hB t u R h.1, fun n hn => ⟨fun hb i => ?_, fun ht => ?_, fun hb ht i => ?_⟩⟩
  · simp [(h.2 n hn).1 hb i]
  · obtain ⟨h0, h1, h2⟩ := (h.2 n hn).2.1 ht
    simp [h0, h1, h2]
  · simp [(h.2 n hn).2.2 hb ht i]

theorem monotone (F : Fem nn nq nf nfq 3 3) (hB : Body F) : (elasticFem F).Monotone := by
  refine ⟨hB.mesh, hB.vol, fun k q A B => (C88_elastic_strict F k q A B).1, ?_, ?_⟩
  · intro k q a b
    simp [Fem.massAt, elasticFem]
  · intro lv hlv
    have : (elasticFem F).cauchy = none := hB.cauchy
    simp [this, Fem.pairs] at hlv

theorem unique_bottom (F : Fem nn nq nf nfq 3 3) (hB : Body F) (fixed : ℕ → Fin 3 → Prop) (hfixed : ∀ n < F.numTotal, minXLoc F (F.points n) = true → ∀ i, fixed n i)
    (u v Ru Rv : ℕ → Fin 3 → ℝ) (hu : (elasticFem F).computeResidual u = .ok Ru) (hv : (elasticFem F).computeResidual v = .ok Rv)
    (hfix : ∀ n i, fixed n i → u n i = v n i) (hfree : ∀ n < F.numTotal, ∀ i, ¬ fixed n i → Ru n i = Rv n i) (n : ℕ) (hn : n < F.numTotal) (i : Fin 3) : u n i = v n i := by
  have mono : ∀ n, (elasticFem F).Held (fun n => n < F.numTotal ∧ minXLoc F (F.points n) = true) n → (elasticFem F).Held (fun n => ∀ i, fixed n i) n := by
    intro n h
    induction h with
    | fixed n h => exact .fixed n (hfixed n h.1 h.2)
    | cell c S a hc hS _ hsp ih => exact .cell c S a hc hS ih hsp
  exact C88_unique (elasticFem F) (monotone F hB) (fun k q A B => (C88_elastic_strict F k q A B).2) hB.rigid fixed (fun n hn => mono n (hB.held n hn)) u v Ru Rv hu hv hfix hfree n hn i

theorem groups_ok (F : Fem nn nq nf nfq 3 3) (disp : ℝ) : ∃ ns cs ws, dirichletBC F.numTotal F.points (some (dogInfo F disp)) = .ok (ns, cs, ws) ∧ dogGroups F disp = .ok (groupsOf ns cs ws) := by
  obtain ⟨⟨A, B, C⟩, h⟩ := (C17_accepted F.numTotal F.points (dogInfo F disp).1 (dogInfo F disp).2.1 (dogInfo F disp).2.2).1.mpr ⟨rfl, rfl⟩
  refine ⟨A, B, C, h, ?_⟩
  unfold dogGroups
  rw [show (some (dogInfo F disp)) = some ((dogInfo F disp).1, (dogInfo F disp).2.1, (dogInfo F disp).2.2) from rfl, h]

theorem mem_triples (F : Fem nn nq nf nfq 3 3) (disp : ℝ) (t) : t ∈ (dogInfo F disp).1.zip ((dogInfo F disp).2.1.zip (dogInfo F disp).2.2) ↔
    t = (minXLoc F, 0, fun _ => 0) ∨ t = (minXLoc F, 1, fun _ => 0) ∨ t = (minXLoc F, 2, fun _ => 0) ∨ t = (maxXLoc F, 0, fun _ => disp) ∨ t = (maxXLoc F, 1, fun _ => 0) ∨ t = (maxXLoc F, 2, fun _ => 0) := by
  simp [dogInfo]

theorem vecs_lt (F : Fem nn nq nf nfq 3 3) (disp : ℝ) : ∀ v ∈ (dogInfo F disp).2.1, v < 3 := by
  intro v hv
  simp only [dogInfo, List.mem_cons, List.not_mem_nil, or_false] at hv
  omega

/-- The free degrees of freedom: those of the nodes at neither end. -/
theorem free_iff (F : Fem nn nq nf nfq 3 3) (disp : ℝ) (ns cs : List (List ℕ)) (ws : List (List ℝ)) (hbc : dirichletBC F.numTotal F.points (some (dogInfo F disp)) = .ok (ns, cs, ws)) (n : ℕ) (hn : n < F.numTotal) (i : Fin 3) :
    FreeAt ((elasticFem F).toProb (groupsOf ns cs ws)).prescriptions (3 * n + i) ↔ minXLoc F (F.points n) = false ∧ maxXLoc F (F.points n) = false := by
  have h := (user_prescriptions ((elasticFem F).toProb (groupsOf ns cs ws)) F.points _ _ _ (vecs_lt F disp) ns cs ws hbc rfl n i hn i.isLt).1
  refine h.trans ⟨fun h => ?_, ?_⟩
  · constructor
    · by_contra hb
      rw [Bool.not_eq_false] at hb
      fin_cases i
      · exact h _ ((mem_triples F disp _).mpr (.inl rfl)) ⟨hb, rfl⟩
      · exact h _ ((mem_triples F disp _).mpr (.inr (.inl rfl))) ⟨hb, rfl⟩
      · exact h _ ((mem_triples F disp _).mpr (.inr (.inr (.inl rfl)))) ⟨hb, rfl⟩
    · by_contra hb
      rw [Bool.not_eq_false] at hb
      fin_cases i
      · exact h _ ((mem_triples F disp _).mpr (.inr (.inr (.inr (.inl rfl))))) ⟨hb, rfl⟩
      · exact h _ ((mem_triples F disp _).mpr (.inr (.inr (.inr (.inr (.inl rfl)))))) ⟨hb, rfl⟩
      · exact h _ ((mem_triples F disp _).mpr (.inr (.inr (.inr (.inr (.inr rfl)))))) ⟨hb, rfl⟩
  · rintro ⟨hb, ht⟩ t hmem ⟨h1, -⟩
    rcases (mem_triples F disp t).mp hmem with rfl | rfl | rfl | rfl | rfl | rfl <;> simp_all

theorem determined (F : Fem nn nq nf nfq 3 3) (hB : Body F) (disp : ℝ) (ns cs : List (List ℕ)) (ws : List (List ℝ)) (hbc : dirichletBC F.numTotal F.points (some (dogInfo F disp)) = .ok (ns, cs, ws)) :
    (elasticFem F).Determined ((elasticFem F).toProb (groupsOf ns cs ws)).prescriptions := by
  intro u v Ru Rv hu hv hfix hfree n hn i
  refine unique_bottom F hB (fun n i => n < F.numTotal ∧ ¬ FreeAt ((elasticFem F).toProb (groupsOf ns cs ws)).prescriptions (3 * n + i)) (fun n hn hb i => ⟨hn, fun hf => ?_⟩) u v Ru Rv hu hv
    (fun n i h => hfix n h.1 i h.2) (fun n hn i h => hfree n hn i ?_) n hn i
  · have := ((free_iff F disp ns cs ws hbc n hn i).mp hf).1
    rw [hb] at this
    cases this
  · by_contra hne
    exact h ⟨hn, hne⟩

theorem last_value (F : Fem nn nq nf nfq 3 3) (hB : Body F) (disp : ℝ) (ns cs : List (List ℕ)) (ws : List (List ℝ)) (hbc : dirichletBC F.numTotal F.points (some (dogInfo F disp)) = .ok (ns, cs, ws)) (n : ℕ) (hn : n < F.numTotal) (i : Fin 3) (v : ℝ)
    (hv : LastAt ((elasticFem F).toProb (groupsOf ns cs ws)).prescriptions (3 * n + i) v) : v = if maxXLoc F (F.points n) = true ∧ i = 0 then disp else 0 := by
  obtain ⟨t, hmem, ⟨l₁, l₂, -, ⟨hx, hc⟩, -⟩, rfl⟩ := (user_prescriptions ((elasticFem F).toProb (groupsOf ns cs ws)) F.points _ _ _ (vecs_lt F disp) ns cs ws hbc rfl n i hn i.isLt).2 v hv
  have hb := not_both F hB (F.points n)
  rcases (mem_triples F disp t).mp hmem with rfl | rfl | rfl | rfl | rfl | rfl
  · rw [if_neg fun h => hb ⟨hx, h.1⟩]
  · rw [if_neg fun h => hb ⟨hx, h.1⟩]
  · rw [if_neg fun h => hb ⟨hx, h.1⟩]
  · rw [if_pos ⟨hx, Fin.ext hc.symm⟩]
  · rw [if_neg fun h => by rw [h.2] at hc; cases hc]
  · rw [if_neg fun h => by rw [h.2] at hc; cases hc]

theorem solves_iff (F : Fem nn nq nf nfq 3 3) (hB : Body F) (disp : ℝ) (ns cs : List (List ℕ)) (ws : List (List ℝ)) (hbc : dirichletBC F.numTotal F.points (some (dogInfo F disp)) = .ok (ns, cs, ws)) (u : ℕ → Fin 3 → ℝ) :
    (elasticFem F).Solves ((elasticFem F).toProb (groupsOf ns cs ws)).prescriptions u ↔ ∃ R, Equilibrium F disp u R := by
  constructor
  · rintro ⟨R, hR, h⟩
    have hval : ∀ n < F.numTotal, ∀ i : Fin 3, (minXLoc F (F.points n) = true ∨ maxXLoc F (F.points n) = true) → u n i = if maxXLoc F (F.points n) = true ∧ i = 0 then disp else 0 := by
      intro n hn i hor
      obtain ⟨v, hv⟩ := exists_last (L := ((elasticFem F).toProb (groupsOf ns cs ws)).prescriptions) (d := 3 * n + i) fun hf => by
        have := (free_iff F disp ns cs ws hbc n hn i).mp hf
        rw [this.1, this.2] at hor
        simp at hor
      rw [(h n hn i).1 v hv]
      exact last_value F hB disp ns cs ws hbc n hn i v hv
    refine ⟨R, hR, fun n hn => ⟨fun hb i => ?_, fun ht => ⟨?_, ?_, ?_⟩, fun hb ht i => ?_⟩⟩
    · rw [hval n hn i (.inl hb), if_neg fun hh => not_both F hB _ ⟨hb, hh.1⟩]
    · rw [hval n hn 0 (.inr ht), if_pos ⟨ht, rfl⟩]
    · rw [hval n hn 1 (.inr ht), if_neg (by simp)]
    · rw [hval n hn 2 (.inr ht), if_neg (by simp)]
    · exact (h n hn i).2 ((free_iff F disp ns cs ws hbc n hn i).mpr ⟨hb, ht⟩)
  · rintro ⟨R, hR, h⟩
    refine ⟨R, hR, fun n hn i => ⟨fun v hv => ?_, fun hf => ?_⟩⟩
    · rw [last_value F hB disp ns cs ws hbc n hn i v hv]
      by_cases ht : maxXLoc F (F.points n) = true
      · obtain ⟨h0, h1, h2⟩ := (h n hn).2.1 ht
        fin_cases i
        · simpa [ht] using h0
        · simpa using h1
        · simpa using h2
      · rw [if_neg fun hh => ht hh.1]
        refine (h n hn).1 ?_ i
        by_contra hb
        obtain ⟨l₁, l₂, e, -⟩ := hv
        exact ((free_iff F disp ns cs ws hbc n hn i).mpr ⟨by simpa using hb, by simpa using ht⟩) (3 * n + i, v) (by rw [e]; simp) rfl
    · obtain ⟨hb, ht⟩ := (free_iff F disp ns cs ws hbc n hn i).mp hf
      exact (h n hn).2.2 hb ht i

/-- Two equilibria for the same displacement are the same at all nodes. -/
theorem equilibrium_unique (F : Fem nn nq nf nfq 3 3) (hB : Body F) (disp : ℝ) (u v R S : ℕ → Fin 3 → ℝ) (hu : Equilibrium F disp u R) (hv : Equilibrium F disp v S) (n : ℕ) (hn : n < F.numTotal) (i : Fin 3) : u n i = v n i := by
  refine unique_bottom F hB (fun n _ => n < F.numTotal ∧ (minXLoc F (F.points n) = true ∨ maxXLoc F (F.points n) = true)) (fun n hn hb _ => ⟨hn, .inl hb⟩) u v R S hu.1 hv.1 (fun n i h => ?_) (fun n hn i h => ?_) n hn i
  · rcases h with ⟨hn, hb | ht⟩
    · rw [(hu.2 n hn).1 hb i, (hv.2 n hn).1 hb i]
    · obtain ⟨a0, a1, a2⟩ := (hu.2 n hn).2.1 ht
      obtain ⟨b0, b1, b2⟩ := (hv.2 n hn).2.1 ht
      fin_cases i
      · exact a0.trans b0.symm
      · exact a1.trans b1.symm
      · exact a2.trans b2.symm
  · simp only [not_and, not_or, Bool.not_eq_true] at h
    rw [(hu.2 n hn).2.2 (h hn).1 (h hn).2 i, (hv.2 n hn).2.2 (h hn).1 (h hn).2 i]

/-- `solver` returns the equilibrium. -/
theorem solver_equilibrium (F : Fem nn nq nf nfq 3 3) (hB : Body F) (lin : ℕ → LinCall ℝ → ℕ → ℝ) (hlin : ExactLin (F.numTotal * 3) lin) (fuel : ℕ) (disp : ℝ) :
    ∃ groups u R, dogGroups F disp = .ok groups ∧ ((elasticFem F).toProb groups).rowSolver realArith lin true true false none fuel = .ok u ∧ Equilibrium F disp (fun n i => u (3 * n + i)) R := by
  obtain ⟨ns, cs, ws, hbc, hg⟩ := groups_ok F disp
  have hwf := C19_groups_wf ((elasticFem F).toProb (groupsOf ns cs ws)) (show 0 < 3 by decide) F.numTotal F.points _ _ _ ns cs ws hbc rfl
  obtain ⟨R0, hR0⟩ := residual_ok F hB 0
  obtain ⟨hex, hall⟩ := C87_solution (elasticFem F) (elastic_linear F hB.cauchy) _ hwf hB.mesh ⟨0, R0, hR0⟩ (determined F hB disp ns cs ws hbc) false
  obtain ⟨u, h1, h2, -⟩ := hall lin (exactFor_of_exactLin _ _ hex lin hlin) true none fuel
  obtain ⟨R, hR⟩ := (solves_iff F hB disp ns cs ws hbc _).mp h2
  exact ⟨_, u, R, hg, h1, hR⟩

/-- The ends are not empty: `np.min` and `np.max` are attained. -/
theorem end_nodes (F : Fem nn nq nf nfq 3 3) (h : 0 < F.numTotal) : (∃ n < F.numTotal, minXLoc F (F.points n) = true) ∧ ∃ n < F.numTotal, maxXLoc F (F.points n) = true := by
  haveI : Nonempty (Fin F.numTotal) := ⟨⟨0, h⟩⟩
  obtain ⟨a, ha⟩ := exists_eq_ciInf_of_finite (f := fun n : Fin F.numTotal => F.points n 0)
  obtain ⟨b, hb⟩ := exists_eq_ciSup_of_finite (f := fun n : Fin F.numTotal => F.points n 0)
  refine ⟨⟨a, a.isLt, ?_⟩, b, b.isLt, ?_⟩
  · rw [minXLoc, isclose_iff, minX, ← ha, sub_self, abs_zero]
    positivity
  · rw [maxXLoc, isclose_iff, maxX, ← hb, sub_self, abs_zero]
    positivity

/-- **C163 (dogbone).** On every such mesh there is one field `w`, the equilibrium under the displacement 1, such that with an exact linear solver `linear_elasticity_dogbone` computes `disp * w` at all nodes, for every `disp`, and reports three
degrees of freedom per node. -/
theorem C163_dogbone (F : Fem nn nq nf nfq 3 3) (hB : Body F) : ∃ w R, Equilibrium F 1 w R ∧ ∀ lin, ExactLin (F.numTotal * 3) lin → ∀ fuel disp,
    ∃ u, dogSolve F lin fuel disp = .ok (u, F.numTotal * 3) ∧ ∀ n < F.numTotal, ∀ i, u n i = disp * w n i := by
  obtain ⟨lin0, hlin0⟩ : ∃ lin, ExactLin (F.numTotal * 3) lin := by
    classical
    refine ⟨fun _ call => if h : ∃ x, ∀ d < F.numTotal * 3, call.op x d = call.b d then h.choose else 0, fun k call h d hd => ?_⟩
    beta_reduce
    rw [dif_pos h]
    exact h.choose_spec d hd
  obtain ⟨-, u0, R0, -, -, h0⟩ := solver_equilibrium F hB lin0 hlin0 0 1
  refine ⟨_, R0, h0, fun lin hlin fuel disp => ?_⟩
  obtain ⟨groups, u, R, hg, hs, he⟩ := solver_equilibrium F hB lin hlin fuel disp
  have hsc := dog_scale F hB 1 disp _ _ h0
  rw [mul_one] at hsc
  refine ⟨fun n i => u (3 * n + i), ?_, fun n hn i => equilibrium_unique F hB disp _ _ _ _ he hsc n hn i⟩
  unfold dogSolve
  rw [if_neg hB.nodes.ne', hg]
  dsimp only [bind, Except.bind]
  rw [hs]
  rfl

/-! ## The nodal reactions -/

theorem work (F : Fem nn nq nf nfq 3 3) (hB : Body F) (u R : ℕ → Fin 3 → ℝ) (h : (elasticFem F).computeResidual u = .ok R) :
    ∑ n ∈ range F.numTotal, ∑ i, R n i * u n i = (F.cells.map fun c => ∑ q, (∑ i, ∑ d, elasticStress (Matrix.of (F.gradAt u c q)) i d * F.gradAt u c q i d) * F.JxW c q).sum := by
  have h1 := C71_virtual_work (elasticFem F) hB.mesh u u R h
  have hc : (elasticFem F).cauchy = none := hB.cauchy
  have hn : (elasticFem F).neumann = none := hB.neumann
  have hl : ∀ c q i, (elasticFem F).load c q i = 0 := by
    intro c q i
    have hs : (elasticFem F).source = none := hB.source
    have hb : (elasticFem F).bodyVar = none := hB.body
    simp [Fem.load, hs, hb]
  rw [hc, hn] at h1
  simp only [hl, zero_mul, sum_const_zero, Fem.pairs, Option.elim_none, List.map_nil, List.sum_nil, add_zero, sub_zero, List.map_const', List.sum_replicate, smul_zero] at h1
  refine h1.trans ?_
  have hz : (F.cells.zipIdx.map fun p : (Fin nn → ℕ) × ℕ => ∑ q, (∑ i, ∑ d, elasticStress (Matrix.of (F.gradAt u p.1 q)) i d * F.gradAt u p.1 q i d) * F.JxW p.1 q)
      = F.cells.map fun c => ∑ q, (∑ i, ∑ d, elasticStress (Matrix.of (F.gradAt u c q)) i d * F.gradAt u c q i d) * F.JxW c q := by
    conv_rhs => rw [← List.zipIdx_map_fst 0 F.cells, List.map_map]
    rfl
  rw [← hz]
  congr 1
  refine List.map_congr_left fun p _ => sum_congr rfl fun q _ => ?_
  have hm : ∀ i, (elasticFem F).massAt p.2 q ((elasticFem F).uAt u p.1 q) i = 0 := fun _ => rfl
  simp only [hm, zero_mul, sum_const_zero, add_zero]
  rfl

/-- **C163 (dogbone, reaction).** The sum of the axial nodal forces on the moved end is `disp` times a positive constant. -/
theorem C163_dogbone_reaction (F : Fem nn nq nf nfq 3 3) (hB : Body F) : ∃ K : ℝ, 0 < K ∧ ∀ disp u R, Equilibrium F disp u R → ∑ n ∈ (range F.numTotal).filter (fun n => maxXLoc F (F.points n) = true), R n 0 = disp * K := by
  obtain ⟨lin0, hlin0⟩ : ∃ lin, ExactLin (F.numTotal * 3) lin := by
    classical
    refine ⟨fun _ call => if h : ∃ x, ∀ d < F.numTotal * 3, call.op x d = call.b d then h.choose else 0, fun k call h d hd => ?_⟩
    beta_reduce
    rw [dif_pos h]
    exact h.choose_spec d hd
  obtain ⟨-, u0, R0, -, -, h0⟩ := solver_equilibrium F hB lin0 hlin0 0 1
  set w : ℕ → Fin 3 → ℝ := fun n i => u0 (3 * n + i) with hw
  refine ⟨∑ n ∈ (range F.numTotal).filter (fun n => maxXLoc F (F.points n) = true), R0 n 0, ?_, fun disp u R h => ?_⟩
  swap
  · have hsc := dog_scale F hB 1 disp _ _ h0
    rw [mul_one] at hsc
    have heq := equilibrium_unique F hB disp _ _ _ _ h hsc
    rw [mul_sum]
    refine sum_congr rfl fun n _ => ?_
    rw [residual_formula F hB u R h.1, ← smul_eq_mul, ← Pi.smul_apply, ← Pi.smul_apply, residual_formula F hB _ _ hsc.1]
    congr 1
    refine List.map_congr_left fun p hp => ?_
    have hc : p.1 ∈ F.cells := List.fst_mem_of_mem_zipIdx hp
    have hg : ∀ q, F.gradAt u p.1 q = F.gradAt (disp • w) p.1 q := by
      intro q
      funext i d
      exact sum_congr rfl fun a _ => by rw [heq _ (hB.mesh _ hc a)]
    simp only [hg]
  · have hsum : ∑ n ∈ range F.numTotal, ∑ i, R0 n i * w n i = ∑ n ∈ (range F.numTotal).filter (fun n => maxXLoc F (F.points n) = true), R0 n 0 := by
      rw [sum_filter]
      refine sum_congr rfl fun n hn => ?_
      have hn := Finset.mem_range.mp hn
      split_ifs with ht
      · obtain ⟨a0, a1, a2⟩ := (h0.2 n hn).2.1 ht
        rw [Fin.sum_univ_three, a0, a1, a2]
        ring
      · refine sum_eq_zero fun i _ => ?_
        by_cases hb : minXLoc F (F.points n) = true
        · rw [(h0.2 n hn).1 hb i, mul_zero]
        · rw [(h0.2 n hn).2.2 (by simpa using hb) (by simpa using ht) i, zero_mul]
    rw [← hsum, work F hB w R0 h0.1]
    have hnn : ∀ c ∈ F.cells, ∀ q, 0 ≤ (∑ i, ∑ d, elasticStress (Matrix.of (F.gradAt w c q)) i d * F.gradAt w c q i d) * F.JxW c q :=
      fun c hc q => mul_nonneg (C29_energy (Matrix.of (F.gradAt w c q)) 0).2.1 (hB.vol c hc q).le
    have hnn' : ∀ x ∈ F.cells.map fun c => ∑ q, (∑ i, ∑ d, elasticStress (Matrix.of (F.gradAt w c q)) i d * F.gradAt w c q i d) * F.JxW c q, 0 ≤ x := by
      intro x hx
      obtain ⟨c, hc, rfl⟩ := List.mem_map.mp hx
      exact sum_nonneg fun q _ => hnn c hc q
    refine lt_of_le_of_ne (List.sum_nonneg hnn') fun hzero => ?_
    have hstress : ∀ c ∈ F.cells, ∀ q i d, elasticStress (Matrix.of (F.gradAt w c q)) i d = 0 := by
      intro c hc q i d
      have h1 := List.all_zero_of_le_zero_le_of_sum_eq_zero hnn' hzero.symm (List.mem_map.mpr ⟨c, hc, rfl⟩)
      have h2 := (sum_eq_zero_iff_of_nonneg fun q _ => hnn c hc q).mp h1 q (mem_univ q)
      have h3 := (mul_eq_zero.mp h2).resolve_right (hB.vol c hc q).ne'
      have h4 := (C29_energy (Matrix.of (F.gradAt w c q)) 0).2.2.mp h3
      have h5 : ∀ a b, F.gradAt w c q a b + F.gradAt w c q b a = 0 := by
        intro a b
        have := congrFun (congrFun h4 a) b
        simp only [Matrix.transpose_apply, Matrix.neg_apply, Matrix.of_apply] at this
        linarith
      have h6 : (Matrix.of (F.gradAt w c q)).trace = 0 := by
        simp only [Matrix.trace, Matrix.diag, Matrix.of_apply]
        exact sum_eq_zero fun a _ => by linarith [h5 a a]
      rw [elasticStress_apply, h6]
      simp only [Matrix.of_apply, h5]
      simp
    have hR0 : ∀ n i, R0 n i = 0 := by
      intro n i
      rw [residual_formula F hB w R0 h0.1]
      refine List.sum_eq_zero fun x hx => ?_
      obtain ⟨p, hp, rfl⟩ := List.mem_map.mp hx
      have hc : p.1 ∈ F.cells := List.fst_mem_of_mem_zipIdx hp
      refine sum_eq_zero fun a _ => sum_eq_zero fun q _ => ?_
      simp only [hstress _ hc, zero_mul, sum_const_zero]
    obtain ⟨n, hn, ht⟩ := (end_nodes F hB.nodes).2
    have hz := residual_scale F hB 0 w R0 h0.1
    have := unique_bottom F hB (fun n _ => n < F.numTotal ∧ minXLoc F (F.points n) = true) (fun n hn hb _ => ⟨hn, hb⟩) w (0 • w) R0 (0 • R0) h0.1 (by simpa using hz)
      (fun n i h => by simpa using (h0.2 n h.1).1 h.2 i) (fun n _ i _ => by simp [hR0]) n hn 0
    rw [((h0.2 n hn).2.1 ht).1] at this
    simp at this

/-! ## Bars -/

/-- **C163 (dogbone, bar).** Every box mesh longer than the tolerance, without loads, is such a body; its ends are at 0 and `L 0`. -/
theorem C163_dogbone_bar (F : Fem 8 (2 ^ 3) nf nfq 3 3) (N : Fin 3 → ℕ) (L : Fin 3 → ℝ) (hbox : OnBox F N L) (hnum : F.numTotal = (N 0 + 1) * (N 1 + 1) * (N 2 + 1)) (hN : ∀ a, 0 < N a)
    (hL : ∀ a, 0 < L a) (ht : CellTables F hex8 (gaussRule 3)) (hsrc : F.source = none) (hbody : F.bodyVar = none) (hcauchy : F.cauchy = none) (hneu : F.neumann = none)
    (hlong : 2 * 1e-5 + 1e-5 * L 0 < L 0) : Body F ∧ minX F = 0 ∧ maxX F = L 0 := by
  have hbox' : OnBox (elasticFem F) N L := ⟨hbox.points, hbox.cells⟩
  have ht' : CellTables (elasticFem F) hex8 (gaussRule 3) := ⟨ht.vals, ht.grads, ht.weights⟩
  have hh : ∀ a, 0 < L a / N a := fun a => div_pos (hL a) (by exact_mod_cast hN a)
  have hN0 : (0 : ℝ) < N 0 := by exact_mod_cast hN 0
  have hpos : 0 < F.numTotal := by rw [hnum]; positivity
  haveI : Nonempty (Fin F.numTotal) := ⟨⟨0, hpos⟩⟩
  have hrange : ∀ n : Fin F.numTotal, 0 ≤ F.points n 0 ∧ F.points n 0 ≤ L 0 := by
    intro n
    obtain ⟨m, hm, e⟩ := gridNode_surj N n (hnum ▸ n.isLt)
    rw [e, hbox.point m hm]
    have hm0 : (m 0 : ℝ) ≤ N 0 := by exact_mod_cast hm 0
    refine ⟨mul_nonneg (Nat.cast_nonneg _) (hh 0).le, (mul_le_mul_of_nonneg_right hm0 (hh 0).le).trans_eq ?_⟩
    exact mul_div_cancel₀ _ hN0.ne'
  have hlt : ∀ m : Fin 3 → ℕ, (∀ a, m a ≤ N a) → gridNode N m < F.numTotal := fun m hm => by
    rw [hnum]
    exact gridNode_lt N m hm
  have hmin : minX F = 0 := by
    refine le_antisymm ?_ (le_ciInf fun n => (hrange n).1)
    have h1 := ciInf_le (f := fun n : Fin F.numTotal => F.points n 0) (Set.finite_range _).bddBelow ⟨_, hlt (fun _ => 0) fun _ => Nat.zero_le _⟩
    refine h1.trans_eq ?_
    show F.points (gridNode N fun _ => 0) 0 = 0
    rw [hbox.point _ fun _ => Nat.zero_le _]
    simp
  have hmax : maxX F = L 0 := by
    refine le_antisymm (ciSup_le fun n => (hrange n).2) ?_
    have h1 := le_ciSup (f := fun n : Fin F.numTotal => F.points n 0) (Set.finite_range _).bddAbove ⟨_, hlt N fun _ => le_rfl⟩
    refine Eq.trans_le ?_ h1
    show L 0 = F.points (gridNode N N) 0
    rw [hbox.point N fun _ => le_rfl]
    exact (mul_div_cancel₀ _ hN0.ne').symm
  refine ⟨⟨?_, ?_, ?_, ?_, hpos, ?_, hsrc, hbody, hcauchy, hneu, ?_⟩, hmin, hmax⟩
  · intro c hc p
    obtain ⟨g, hg, rfl⟩ := (hbox.mem_cells c).mp hc
    rw [hnum]
    rw [mem_boxGrid] at hg
    exact gridNode_lt N _ fun a => by have := hg a; have := hexCorner_le p a; omega
  · intro hnil
    have : boxCell N (fun _ => 0) ∈ F.cells := (hbox.mem_cells _).mpr ⟨_, (mem_boxGrid _ _).mpr fun a => hN a, rfl⟩
    rw [hnil] at this
    cases this
  · intro c hc q
    obtain ⟨g, hg, rfl⟩ := (hbox.mem_cells c).mp hc
    rw [hbox.JxW _ ht g hg]
    exact mul_pos (prod_pos fun a _ => hh a) (gauss_w_pos 3 q)
  · refine C88_rigid_hex8 _ ht' fun c hc => ?_
    obtain ⟨g, hg, rfl⟩ := (hbox'.mem_cells c).mp hc
    refine ⟨fun a => g a * (L a / N a), fun a => L a / N a, fun a => (hh a).ne', fun p a => ?_⟩
    rw [hbox'.corner g hg]
    push_cast
    ring
  · intro n hn
    rw [hnum] at hn
    obtain ⟨m, hm, rfl⟩ := gridNode_surj N n hn
    refine box_held hbox' hN hL _ 0 0 (Nat.zero_le _) (fun m hm hm0 => ⟨hlt m hm, ?_⟩) m hm
    rw [minXLoc, isclose_iff, hmin, hbox.point m hm, hm0]
    norm_num
  · rw [hmin, hmax, abs_zero, abs_of_pos (hL 0)]
    linarith

/-- A bar of 4 × 3 × 10 in 2 × 1 × 5 cells, pulled by 10 as in the file: ten times the solution for 1, and 108 degrees of freedom. -/
example (lin : ℕ → LinCall ℝ → ℕ → ℝ) (hlin : ExactLin (36 * 3) lin) :
    ∃ u w : ℕ → Fin 3 → ℝ, dogSolve (boxObj ![2, 1, 5] ![4, 3, 10]) lin 0 10 = .ok (u, 108) ∧ (∃ R, Equilibrium (boxObj ![2, 1, 5] ![4, 3, 10]) 1 w R) ∧ ∀ n < 36, ∀ i, u n i = 10 * w n i := by
  obtain ⟨hB, -, -⟩ := C163_dogbone_bar (boxObj ![2, 1, 5] ![4, 3, 10]) _ _ (boxObj_onBox _ _) rfl (by intro a; fin_cases a <;> simp) (by intro a; fin_cases a <;> simp) (boxObj_tables _ _) rfl rfl rfl rfl
    (by norm_num)
  obtain ⟨w, R, hw, h⟩ := C163_dogbone _ hB
  obtain ⟨u, h1, h2⟩ := h lin hlin 0 10
  exact ⟨u, w, h1, ⟨R, hw⟩, h2⟩

end Verif.Fem.DogBone
