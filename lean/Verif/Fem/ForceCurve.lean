import Verif.Fem.ThermoLoop
import Verif.Fem.PropsElastic2
import Verif.Fem.PropsSurface
import Verif.Fem.TopOptMesh
import Verif.Fem.Moments

/-!
# C163: the force curve of the elastic cylinder (model of applications/fem/fem_examples/jax_examples.py 66-98)

The mesh (`cylinder_mesh`, made with gmsh) is left open: all statements hold for every mesh held at the bottom.
-/
namespace Verif.Fem.ForceCurve
open Verif.Fem Finset

variable {nn nq nf nfq : ℕ}

/-! ## Model -/

/-- `bottom` (jax_examples.py 70-71). -/
noncomputable def cylBottom : Loc 3 := fun point => isclose (point 2) 0 1e-5

/-- `top` (jax_examples.py 73-74). -/
noncomputable def cylTop : Loc 3 := fun point => isclose (point 2) 10 1e-5

/-- `dirichlet_bc_info` with `get_dirichlet_top(disp)` in the last place (jax_examples.py 76-87, 92). -/
noncomputable def cylInfo (disp : ℝ) : List (Loc 3) × List ℕ × List ((Fin 3 → ℝ) → ℝ) :=
  ([cylBottom, cylBottom, cylBottom, cylTop, cylTop, cylTop], [0, 1, 2, 0, 1, 2], [fun _ => 0, fun _ => 0, fun _ => 0, fun _ => 0, fun _ => 0, fun _ => disp])

/-- The boundary lists after `update_Dirichlet_boundary_conditions` (jax_examples.py 93, core.py 304-313). -/
noncomputable def cylGroups (F : Fem nn nq nf nfq 3 3) (disp : ℝ) : Except (FemErr ⊕ SolveErr FemErr) (List (Group ℝ)) :=
  match dirichletBC F.numTotal F.points (some (cylInfo disp)) with
  | .ok out => .ok (groupsOf out.1 out.2.1 out.2.2)
  | .error e => .error (.inl e)

/-- Body of the loop (jax_examples.py 92-96): `solver(problem, linear=True)` (preconditioner on, JAX solver), `compute_traction` on the top, its entry 2. -/
noncomputable def forceStep (F : Fem nn nq nf nfq 3 3) (lin : ℕ → LinCall ℝ → ℕ → ℝ) (fuel : ℕ) (disp : ℝ) : Except (FemErr ⊕ SolveErr FemErr) ℝ := do
  let groups ← cylGroups F disp
  let u ← (((elasticFem F).toProb groups).rowSolver realArith lin true true false none fuel).mapError .inr
  let traction ← ((elasticFem F).computeTraction (fun g => elasticStress (Matrix.of g)) cylTop fun n i => u (3 * n + i)).mapError .inl
  pure (traction 2)

/-- `linear_elasticity_cylinder` (jax_examples.py 84-98) without reading the mesh and writing the file: `disps[0]` fails on an empty list; the constructor evaluates the boundary conditions once. -/
noncomputable def cylForces (F : Fem nn nq nf nfq 3 3) (lin : ℕ → LinCall ℝ → ℕ → ℝ) (fuel : ℕ) (disps : List ℝ) : Except (FemErr ⊕ SolveErr FemErr) (List ℝ) :=
  match disps with
  | [] => .error (.inl .index)
  | d0 :: _ => do
    let _ ← cylGroups F d0
    disps.foldlM (fun tractions disp => do
      let t ← forceStep F lin fuel disp
      pure (tractions ++ [t])) []

/-! ## Specification -/

/-- Specification: a mesh of cells of positive volume without zero-strain deformations, its nodes in range, held by the nodes of the bottom; no loads; the faces on the top are not degenerate. -/
structure Body (F : Fem nn nq nf nfq 3 3) : Prop where
  mesh : ∀ c ∈ F.cells, ∀ a, c a < F.numTotal
  cells : F.cells ≠ []
  vol : ∀ c ∈ F.cells, ∀ q, 0 < F.JxW c q
  rigid : (elasticFem F).RigidModes
  held : ∀ n < F.numTotal, (elasticFem F).Held (fun n => n < F.numTotal ∧ cylBottom (F.points n) = true) n
  source : F.source = none
  body : F.bodyVar = none
  cauchy : F.cauchy = none
  neumann : F.neumann = none
  faces : F.FacesOk cylTop

/-- Specification: the elastic equilibrium with the bottom fixed and the top moved by `disp`: displacements there, no residual at all other nodes. -/
def Equilibrium (F : Fem nn nq nf nfq 3 3) (disp : ℝ) (u R : ℕ → Fin 3 → ℝ) : Prop :=
  (elasticFem F).computeResidual u = .ok R ∧ ∀ n < F.numTotal,
    (cylBottom (F.points n) = true → ∀ i, u n i = 0) ∧ (cylTop (F.points n) = true → u n 0 = 0 ∧ u n 1 = 0 ∧ u n 2 = disp) ∧
    (cylBottom (F.points n) = false → cylTop (F.points n) = false → ∀ i, R n i = 0)

/-! ## Proofs -/

theorem not_both (x : Fin 3 → ℝ) : ¬ (cylBottom x = true ∧ cylTop x = true) := by
  rintro ⟨h1, h2⟩
  rw [cylBottom, isclose_iff, abs_le] at h1
  rw [cylTop, isclose_iff, abs_le] at h2
  norm_num at h1 h2
  linarith [h1.2, h2.1]

theorem residual_ok (F : Fem nn nq nf nfq 3 3) (hB : Body F) (u : ℕ → Fin 3 → ℝ) : ∃ R, (elasticFem F).computeResidual u = .ok R := by
  refine (C13_returns _ u).mpr ⟨hB.cells, fun m hm => by simp [elasticFem] at hm, fun m hm => by simp [elasticFem] at hm, fun lv hlv => ?_, fun lv hlv => ?_⟩
  · exact absurd (hB.cauchy.symm.trans hlv) (by simp)
  · exact absurd (hB.neumann.symm.trans hlv) (by simp)

theorem residual_formula (F : Fem nn nq nf nfq 3 3) (hB : Body F) (u R : ℕ → Fin 3 → ℝ) (h : (elasticFem F).computeResidual u = .ok R) (n : ℕ) (i : Fin 3) :
    R n i = (F.cells.zipIdx.map fun p => nodal n p.1 fun a => ∑ q, (∑ d, elasticStress (Matrix.of (F.gradAt u p.1 q)) i d * F.shapeGrad p.1 q a d) * F.JxW p.1 q).sum := by
  have h1 := C13_residual (elasticFem F) u R h n i
  have hc : (elasticFem F).cauchy = none := hB.cauchy
  have hn : (elasticFem F).neumann = none := hB.neumann
  have hl : ∀ c q i, (elasticFem F).load c q i = 0 := by
    intro c q i
    have hs : (elasticFem F).source = none := hB.source
    have hb : (elasticFem F).bodyVar = none := hB.body
    simp [Fem.load, hs, hb]
  have hz : ∀ c : Fin nn → ℕ, (nodal n c fun a => ∑ q, (elasticFem F).shapeVals q a * (elasticFem F).load c q i * (elasticFem F).JxW c q) = 0 := by
    intro c
    simp [hl, nodal]
  rw [hc, hn] at h1
  simp only [hz, Fem.pairs, Option.elim_none, List.map_nil, List.sum_nil, add_zero, sub_zero, List.map_const', List.sum_replicate, smul_zero] at h1
  refine h1.trans ?_
  congr 1
  refine List.map_congr_left fun p _ => ?_
  congr 1
  funext a
  refine sum_congr rfl fun q _ => ?_
  have hm : (elasticFem F).massAt p.2 q ((elasticFem F).uAt u p.1 q) i = 0 := rfl
  rw [hm, zero_mul, add_zero]
  rfl

theorem elasticStress_smul (d : ℝ) (A : Fin 3 → Fin 3 → ℝ) (i j : Fin 3) : elasticStress (Matrix.of (d • A)) i j = d * elasticStress (Matrix.of A) i j := by
  simp only [elasticStress_apply, Matrix.of_apply, Matrix.trace, Matrix.diag, Pi.smul_apply, smul_eq_mul, ← mul_sum]
  split_ifs <;> ring

theorem gradAt_scale (F : Fem nn nq nf nfq 3 3) (d : ℝ) (u : ℕ → Fin 3 → ℝ) (c : Fin nn → ℕ) (q : Fin nq) : F.gradAt (d • u) c q = d • F.gradAt u c q := by
  funext i j
  simp [Fem.gradAt, mul_sum, mul_assoc]

theorem residual_scale (F : Fem nn nq nf nfq 3 3) (hB : Body F) (d : ℝ) (u R : ℕ → Fin 3 → ℝ) (h : (elasticFem F).computeResidual u = .ok R) :
    (elasticFem F).computeResidual (d • u) = .ok (d • R) := by
  obtain ⟨R', h'⟩ := residual_ok F hB (d • u)
  rw [h']
  congr 1
  funext n i
  rw [residual_formula F hB _ _ h', Pi.smul_apply, Pi.smul_apply, smul_eq_mul, residual_formula F hB _ _ h, ← List.sum_map_mul_left]
  congr 1
  refine List.map_congr_left fun p _ => ?_
  simp only [nodal, mul_sum]
  refine sum_congr rfl fun a _ => sum_congr rfl fun q _ => ?_
  rw [gradAt_scale, ← mul_assoc, mul_sum]
  congr 1
  refine sum_congr rfl fun j _ => ?_
  rw [elasticStress_smul, mul_assoc]

/-- **C163 (scaling).** An equilibrium for displacement `disp`, multiplied by `t`, is one for displacement `t * disp`; so are the nodal forces. -/
theorem C163_scale (F : Fem nn nq nf nfq 3 3) (hB : Body F) (disp t : ℝ) (u R : ℕ → Fin 3 → ℝ) (h : Equilibrium F disp u R) : Equilibrium F (t * disp) (t • u) (t • R) := by
  refine ⟨residual_scale F hB t u R h.1, fun n hn => ⟨fun hb i => ?_, fun ht => ?_, fun hb ht i => ?_⟩⟩
  · simp [(h.2 n hn).1 hb i]
  · obtain ⟨h0, h1, h2⟩ := (h.2 n hn).2.1 ht
    simp [h0, h1, h2]
  · simp [(h.2 n hn).2.2 hb ht i]

theorem monotone (F : Fem nn nq nf nfq 3 3) (hB : Body F) : (elasticFem F).Monotone := by
  refine ⟨hB.mesh, hB.vol, fun k q A B => (C88_elastic_strict F k q A B).1, ?_, ?_⟩
  · intro k q a b
    simp [Fem.massAt, elasticFem]
  · intro lv hlv
    have : (elasticFem F).cauchy = none := hB.cauchy
    simp [this, Fem.pairs] at hlv

theorem unique_bottom (F : Fem nn nq nf nfq 3 3) (hB : Body F) (fixed : ℕ → Fin 3 → Prop) (hfixed : ∀ n < F.numTotal, cylBottom (F.points n) = true → ∀ i, fixed n i)
    (u v Ru Rv : ℕ → Fin 3 → ℝ) (hu : (elasticFem F).computeResidual u = .ok Ru) (hv : (elasticFem F).computeResidual v = .ok Rv)
    (hfix : ∀ n i, fixed n i → u n i = v n i) (hfree : ∀ n < F.numTotal, ∀ i, ¬ fixed n i → Ru n i = Rv n i) (n : ℕ) (hn : n < F.numTotal) (i : Fin 3) : u n i = v n i := by
  have mono : ∀ n, (elasticFem F).Held (fun n => n < F.numTotal ∧ cylBottom (F.points n) = true) n → (elasticFem F).Held (fun n => ∀ i, fixed n i) n := by
    intro n h
    induction h with
    | fixed n h => exact .fixed n (hfixed n h.1 h.2)
    | cell c S a hc hS _ hsp ih => exact .cell c S a hc hS ih hsp
  exact C88_unique (elasticFem F) (monotone F hB) (fun k q A B => (C88_elastic_strict F k q A B).2) hB.rigid fixed (fun n hn => mono n (hB.held n hn)) u v Ru Rv hu hv hfix hfree n hn i

theorem groups_ok (F : Fem nn nq nf nfq 3 3) (disp : ℝ) : ∃ ns cs ws, dirichletBC F.numTotal F.points (some (cylInfo disp)) = .ok (ns, cs, ws) ∧ cylGroups F disp = .ok (groupsOf ns cs ws) := by
  obtain ⟨⟨A, B, C⟩, h⟩ := (C17_accepted F.numTotal F.points (cylInfo disp).1 (cylInfo disp).2.1 (cylInfo disp).2.2).1.mpr ⟨rfl, rfl⟩
  refine ⟨A, B, C, h, ?_⟩
  unfold cylGroups
  rw [show (some (cylInfo disp)) = some ((cylInfo disp).1, (cylInfo disp).2.1, (cylInfo disp).2.2) from rfl, h]

theorem mem_triples (disp : ℝ) (t) : t ∈ (cylInfo disp).1.zip ((cylInfo disp).2.1.zip (cylInfo disp).2.2) ↔
    t = (cylBottom, 0, fun _ => 0) ∨ t = (cylBottom, 1, fun _ => 0) ∨ t = (cylBottom, 2, fun _ => 0) ∨ t = (cylTop, 0, fun _ => 0) ∨ t = (cylTop, 1, fun _ => 0) ∨ t = (cylTop, 2, fun _ => disp) := by
  simp [cylInfo]

theorem vecs_lt (disp : ℝ) : ∀ v ∈ (cylInfo disp).2.1, v < 3 := by
  intro v hv
  simp only [cylInfo, List.mem_cons, List.not_mem_nil, or_false] at hv
  omega

/-- The free degrees of freedom: those of the nodes neither at the bottom nor at the top. -/
theorem free_iff (F : Fem nn nq nf nfq 3 3) (disp : ℝ) (ns cs : List (List ℕ)) (ws : List (List ℝ)) (hbc : dirichletBC F.numTotal F.points (some (cylInfo disp)) = .ok (ns, cs, ws)) (n : ℕ) (hn : n < F.numTotal) (i : Fin 3) :
    FreeAt ((elasticFem F).toProb (groupsOf ns cs ws)).prescriptions (3 * n + i) ↔ cylBottom (F.points n) = false ∧ cylTop (F.points n) = false := by
  have h := (user_prescriptions ((elasticFem F).toProb (groupsOf ns cs ws)) F.points _ _ _ (vecs_lt disp) ns cs ws hbc rfl n i hn i.isLt).1
  refine h.trans ⟨fun h => ?_, ?_⟩
  · constructor
    · by_contra hb
      rw [Bool.not_eq_false] at hb
      fin_cases i
      · exact h _ ((mem_triples disp _).mpr (.inl rfl)) ⟨hb, rfl⟩
      · exact h _ ((mem_triples disp _).mpr (.inr (.inl rfl))) ⟨hb, rfl⟩
      · exact h _ ((mem_triples disp _).mpr (.inr (.inr (.inl rfl)))) ⟨hb, rfl⟩
    · by_contra hb
      rw [Bool.not_eq_false] at hb
      fin_cases i
      · exact h _ ((mem_triples disp _).mpr (.inr (.inr (.inr (.inl rfl))))) ⟨hb, rfl⟩
      · exact h _ ((mem_triples disp _).mpr (.inr (.inr (.inr (.inr (.inl rfl)))))) ⟨hb, rfl⟩
      · exact h _ ((mem_triples disp _).mpr (.inr (.inr (.inr (.inr (.inr rfl)))))) ⟨hb, rfl⟩
  · rintro ⟨hb, ht⟩ t hmem ⟨h1, -⟩
    rcases (mem_triples disp t).mp hmem with rfl | rfl | rfl | rfl | rfl | rfl <;> simp_all

theorem determined (F : Fem nn nq nf nfq 3 3) (hB : Body F) (disp : ℝ) (ns cs : List (List ℕ)) (ws : List (List ℝ)) (hbc : dirichletBC F.numTotal F.points (some (cylInfo disp)) = .ok (ns, cs, ws)) :
    (elasticFem F).Determined ((elasticFem F).toProb (groupsOf ns cs ws)).prescriptions := by
  intro u v Ru Rv hu hv hfix hfree n hn i
  refine unique_bottom F hB (fun n i => n < F.numTotal ∧ ¬ FreeAt ((elasticFem F).toProb (groupsOf ns cs ws)).prescriptions (3 * n + i)) (fun n hn hb i => ⟨hn, fun hf => ?_⟩) u v Ru Rv hu hv
    (fun n i h => hfix n h.1 i h.2) (fun n hn i h => hfree n hn i ?_) n hn i
  · have := ((free_iff F disp ns cs ws hbc n hn i).mp hf).1
    rw [hb] at this
    cases this
  · by_contra hne
    exact h ⟨hn, hne⟩

theorem last_value (F : Fem nn nq nf nfq 3 3) (disp : ℝ) (ns cs : List (List ℕ)) (ws : List (List ℝ)) (hbc : dirichletBC F.numTotal F.points (some (cylInfo disp)) = .ok (ns, cs, ws)) (n : ℕ) (hn : n < F.numTotal) (i : Fin 3) (v : ℝ)
    (hv : LastAt ((elasticFem F).toProb (groupsOf ns cs ws)).prescriptions (3 * n + i) v) : v = if cylTop (F.points n) = true ∧ i = 2 then disp else 0 := by
  obtain ⟨t, hmem, ⟨l₁, l₂, -, ⟨hx, hc⟩, -⟩, rfl⟩ := (user_prescriptions ((elasticFem F).toProb (groupsOf ns cs ws)) F.points _ _ _ (vecs_lt disp) ns cs ws hbc rfl n i hn i.isLt).2 v hv
  have hb := not_both (F.points n)
  rcases (mem_triples disp t).mp hmem with rfl | rfl | rfl | rfl | rfl | rfl
  · rw [if_neg fun h => hb ⟨hx, h.1⟩]
  · rw [if_neg fun h => hb ⟨hx, h.1⟩]
  · rw [if_neg fun h => hb ⟨hx, h.1⟩]
  · rw [if_neg fun h => by rw [h.2] at hc; cases hc]
  · rw [if_neg fun h => by rw [h.2] at hc; cases hc]
  · rw [if_pos ⟨hx, Fin.ext hc.symm⟩]

theorem exists_last {L : List (ℕ × ℝ)} {d : ℕ} (h : ¬ FreeAt L d) : ∃ v, LastAt L d v := by
  cases hl : lastVal L d with
  | none => exact absurd ((lastVal_none _ _).mp hl) h
  | some v => exact ⟨v, (lastVal_some _ _ _).mp hl⟩

theorem solves_iff (F : Fem nn nq nf nfq 3 3) (disp : ℝ) (ns cs : List (List ℕ)) (ws : List (List ℝ)) (hbc : dirichletBC F.numTotal F.points (some (cylInfo disp)) = .ok (ns, cs, ws)) (u : ℕ → Fin 3 → ℝ) :
    (elasticFem F).Solves ((elasticFem F).toProb (groupsOf ns cs ws)).prescriptions u ↔ ∃ R, Equilibrium F disp u R := by
  constructor
  · rintro ⟨R, hR, h⟩
    have hval : ∀ n < F.numTotal, ∀ i : Fin 3, (cylBottom (F.points n) = true ∨ cylTop (F.points n) = true) → u n i = if cylTop (F.points n) = true ∧ i = 2 then disp else 0 := by
      intro n hn i hor
      obtain ⟨v, hv⟩ := exists_last (L := ((elasticFem F).toProb (groupsOf ns cs ws)).prescriptions) (d := 3 * n + i) fun hf => by
        have := (free_iff F disp ns cs ws hbc n hn i).mp hf
        rw [this.1, this.2] at hor
        simp at hor
      rw [(h n hn i).1 v hv]
      exact last_value F disp ns cs ws hbc n hn i v hv
    refine ⟨R, hR, fun n hn => ⟨fun hb i => ?_, fun ht => ⟨?_, ?_, ?_⟩, fun hb ht i => ?_⟩⟩
    · rw [hval n hn i (.inl hb), if_neg fun hh => not_both _ ⟨hb, hh.1⟩]
    · rw [hval n hn 0 (.inr ht), if_neg (by simp)]
    · rw [hval n hn 1 (.inr ht), if_neg (by simp)]
    · rw [hval n hn 2 (.inr ht), if_pos ⟨ht, rfl⟩]
    · exact (h n hn i).2 ((free_iff F disp ns cs ws hbc n hn i).mpr ⟨hb, ht⟩)
  · rintro ⟨R, hR, h⟩
    refine ⟨R, hR, fun n hn i => ⟨fun v hv => ?_, fun hf => ?_⟩⟩
    · rw [last_value F disp ns cs ws hbc n hn i v hv]
      by_cases ht : cylTop (F.points n) = true
      · obtain ⟨h0, h1, h2⟩ := (h n hn).2.1 ht
        fin_cases i
        · simpa using h0
        · simpa using h1
        · simpa [ht] using h2
      · rw [if_neg fun hh => ht hh.1]
        refine (h n hn).1 ?_ i
        by_contra hb
        obtain ⟨l₁, l₂, e, -⟩ := hv
        exact ((free_iff F disp ns cs ws hbc n hn i).mpr ⟨by simpa using hb, by simpa using ht⟩) (3 * n + i, v) (by rw [e]; simp) rfl
    · obtain ⟨hb, ht⟩ := (free_iff F disp ns cs ws hbc n hn i).mp hf
      exact (h n hn).2.2 hb ht i

/-- Two equilibria for the same displacement are the same at all nodes. -/
theorem equilibrium_unique (F : Fem nn nq nf nfq 3 3) (hB : Body F) (disp : ℝ) (u v R S : ℕ → Fin 3 → ℝ) (hu : Equilibrium F disp u R) (hv : Equilibrium F disp v S) (n : ℕ) (hn : n < F.numTotal) (i : Fin 3) : u n i = v n i := by
  refine unique_bottom F hB (fun n _ => n < F.numTotal ∧ (cylBottom (F.points n) = true ∨ cylTop (F.points n) = true)) (fun n hn hb _ => ⟨hn, .inl hb⟩) u v R S hu.1 hv.1 (fun n i h => ?_) (fun n hn i h => ?_) n hn i
  · rcases h with ⟨hn, hb | ht⟩
    · rw [(hu.2 n hn).1 hb i, (hv.2 n hn).1 hb i]
    · obtain ⟨a0, a1, a2⟩ := (hu.2 n hn).2.1 ht
      obtain ⟨b0, b1, b2⟩ := (hv.2 n hn).2.1 ht
      fin_cases i
      · exact a0.trans b0.symm
      · exact a1.trans b1.symm
      · exact a2.trans b2.symm
  · simp only [not_and, not_or, Bool.not_eq_true] at h
    rw [(hu.2 n hn).2.2 (h hn).1 (h hn).2 i, (hv.2 n hn).2.2 (h hn).1 (h hn).2 i]

/-- `solver` returns the equilibrium. -/
theorem solver_equilibrium (F : Fem nn nq nf nfq 3 3) (hB : Body F) (lin : ℕ → LinCall ℝ → ℕ → ℝ) (hlin : ExactLin (F.numTotal * 3) lin) (fuel : ℕ) (disp : ℝ) :
    ∃ groups u R, cylGroups F disp = .ok groups ∧ ((elasticFem F).toProb groups).rowSolver realArith lin true true false none fuel = .ok u ∧ Equilibrium F disp (fun n i => u (3 * n + i)) R := by
  obtain ⟨ns, cs, ws, hbc, hg⟩ := groups_ok F disp
  have hwf := C19_groups_wf ((elasticFem F).toProb (groupsOf ns cs ws)) (show 0 < 3 by decide) F.numTotal F.points _ _ _ ns cs ws hbc rfl
  obtain ⟨R0, hR0⟩ := residual_ok F hB 0
  obtain ⟨hex, hall⟩ := C87_solution (elasticFem F) (elastic_linear F hB.cauchy) _ hwf hB.mesh ⟨0, R0, hR0⟩ (determined F hB disp ns cs ws hbc) false
  obtain ⟨u, h1, h2, -⟩ := hall lin (exactFor_of_exactLin _ _ hex lin hlin) true none fuel
  obtain ⟨R, hR⟩ := (solves_iff F disp ns cs ws hbc _).mp h2
  exact ⟨_, u, R, hg, h1, hR⟩

/-- Specification: the force on the top, from the stresses at the face quadrature points: the third stress column, integrated. -/
noncomputable def topForce (F : Fem nn nq nf nfq 3 3) (u : ℕ → Fin 3 → ℝ) : ℝ :=
  ((F.selected cylTop).map fun p => ∑ q, elasticStress (Matrix.of (F.gradFace u p q)) 2 2 * F.nansonScale p.1 p.2 q).sum

theorem traction_top (F : Fem nn nq nf nfq 3 3) (hB : Body F) (u : ℕ → Fin 3 → ℝ) : ∃ T, (elasticFem F).computeTraction (fun g => elasticStress (Matrix.of g)) cylTop u = .ok T ∧ T 2 = topForce F u := by
  refine ⟨_, (surfaceIntegral_ok_iff (elasticFem F) cylTop ((3 : ℕ) = 3) .shape _ u _).mpr ⟨rfl, hB.faces, rfl⟩, ?_⟩
  show _ = topForce F u
  unfold topForce
  beta_reduce
  congr 1
  refine List.map_congr_left fun p _ => sum_congr rfl fun q _ => ?_
  rw [Fin.sum_univ_three]
  simp only [show ((0 : Fin 3) : ℕ) ≠ 2 by decide, show ((1 : Fin 3) : ℕ) ≠ 2 by decide, show ((2 : Fin 3) : ℕ) = 2 by decide, if_true, if_false, mul_zero, mul_one, zero_add]
  rfl

theorem topForce_scale (F : Fem nn nq nf nfq 3 3) (d : ℝ) (u : ℕ → Fin 3 → ℝ) : topForce F (d • u) = d * topForce F u := by
  unfold topForce
  rw [← List.sum_map_mul_left]
  congr 1
  refine List.map_congr_left fun p _ => ?_
  rw [mul_sum]
  refine sum_congr rfl fun q _ => ?_
  have : F.gradFace (d • u) p q = d • F.gradFace u p q := by
    funext i j
    simp [Fem.gradFace, mul_sum, mul_assoc]
  rw [this, elasticStress_smul, mul_assoc]

theorem topForce_congr (F : Fem nn nq nf nfq 3 3) (hB : Body F) (u v : ℕ → Fin 3 → ℝ) (h : ∀ n < F.numTotal, ∀ i, u n i = v n i) : topForce F u = topForce F v := by
  unfold topForce
  congr 1
  refine List.map_congr_left fun p hp => sum_congr rfl fun q _ => ?_
  have hc : p.1 ∈ F.cells := by
    obtain ⟨c, hc, hp⟩ := List.mem_flatMap.mp hp
    obtain ⟨f, -, rfl⟩ := List.mem_map.mp hp
    exact hc
  have : F.gradFace u p q = F.gradFace v p q := by
    funext i j
    exact sum_congr rfl fun a _ => by rw [h _ (hB.mesh _ hc a)]
  rw [this]

/-- **C163 (line).** On every mesh held at the bottom there is one stiffness `k` such that, with an exact linear solver, `linear_elasticity_cylinder` saves the forces `disp * k`, in order, for all non-empty lists of displacements: a straight
line through the origin. `k` is the force of the equilibrium under the displacement 1. An empty list is an error. -/
theorem C163_line (F : Fem nn nq nf nfq 3 3) (hB : Body F) : ∃ u R, Equilibrium F 1 u R ∧ ∀ lin, ExactLin (F.numTotal * 3) lin → ∀ fuel,
    cylForces F lin fuel [] = .error (.inl .index) ∧ ∀ disps : List ℝ, disps ≠ [] → cylForces F lin fuel disps = .ok (disps.map fun disp => disp * topForce F u) := by
  obtain ⟨lin0, hlin0⟩ : ∃ lin, ExactLin (F.numTotal * 3) lin := by
    classical
    refine ⟨fun _ call => if h : ∃ x, ∀ d < F.numTotal * 3, call.op x d = call.b d then h.choose else 0, fun k call h d hd => ?_⟩
    beta_reduce
    rw [dif_pos h]
    exact h.choose_spec d hd
  obtain ⟨-, u0, R0, -, -, h0⟩ := solver_equilibrium F hB lin0 hlin0 0 1
  refine ⟨_, R0, h0, fun lin hlin fuel => ⟨rfl, fun disps hne => ?_⟩⟩
  have hstep : ∀ disp, forceStep F lin fuel disp = .ok (disp * topForce F fun n i => u0 (3 * n + i)) := by
    intro disp
    obtain ⟨groups, u, R, hg, hs, he⟩ := solver_equilibrium F hB lin hlin fuel disp
    obtain ⟨T, hT, hT2⟩ := traction_top F hB fun n i => u (3 * n + i)
    have hsc := C163_scale F hB 1 disp _ _ h0
    rw [mul_one] at hsc
    have heq := topForce_congr F hB _ _ (equilibrium_unique F hB disp _ _ _ _ he hsc)
    unfold forceStep
    rw [hg]
    dsimp only [bind, Except.bind]
    rw [hs]
    dsimp only [Except.mapError]
    rw [hT]
    dsimp only [Except.mapError, pure, Except.pure]
    rw [hT2, heq, topForce_scale]
  have hfold : ∀ (l acc : List ℝ), l.foldlM (fun tractions disp => do
      let t ← forceStep F lin fuel disp
      pure (tractions ++ [t])) acc = (.ok (acc ++ l.map fun disp => disp * topForce F fun n i => u0 (3 * n + i)) : Except (FemErr ⊕ SolveErr FemErr) (List ℝ)) := by
    intro l
    induction l with
    | nil => intro acc; simp [pure, Except.pure]
    | cons d l ih =>
      intro acc
      rw [List.foldlM_cons, hstep]
      dsimp only [bind, Except.bind, pure, Except.pure]
      have := ih (acc ++ [d * topForce F fun n i => u0 (3 * n + i)])
      dsimp only [bind, Except.bind, pure, Except.pure] at this
      rw [this]
      simp
  cases disps with
  | nil => exact absurd rfl hne
  | cons d l =>
    obtain ⟨ns, cs, ws, -, hg⟩ := groups_ok F d
    unfold cylForces
    dsimp only
    rw [hg]
    dsimp only [bind, Except.bind]
    have := hfold (d :: l) []
    dsimp only [bind, Except.bind] at this
    rw [this, List.nil_append]

/-! ## The nodal reactions -/

theorem work (F : Fem nn nq nf nfq 3 3) (hB : Body F) (u R : ℕ → Fin 3 → ℝ) (h : (elasticFem F).computeResidual u = .ok R) :
    ∑ n ∈ range F.numTotal, ∑ i, R n i * u n i = (F.cells.map fun c => ∑ q, (∑ i, ∑ d, elasticStress (Matrix.of (F.gradAt u c q)) i d * F.gradAt u c q i d) * F.JxW c q).sum := by
  have h1 := C71_virtual_work (elasticFem F) hB.mesh u u R h
  have hc : (elasticFem F).cauchy = none := hB.cauchy
  have hn : (elasticFem F).neumann = none := hB.neumann
  have hl : ∀ c q i, (elasticFem F).load c q i = 0 := by
    intro c q i
    have hs : (elasticFem F).source = none := hB.source
    have hb : (elasticFem F).bodyVar = none := hB.body
    simp [Fem.load, hs, hb]
  rw [hc, hn] at h1
  simp only [hl, zero_mul, sum_const_zero, Fem.pairs, Option.elim_none, List.map_nil, List.sum_nil, add_zero, sub_zero, List.map_const', List.sum_replicate, smul_zero] at h1
  refine h1.trans ?_
  have hz : (F.cells.zipIdx.map fun p : (Fin nn → ℕ) × ℕ => ∑ q, (∑ i, ∑ d, elasticStress (Matrix.of (F.gradAt u p.1 q)) i d * F.gradAt u p.1 q i d) * F.JxW p.1 q)
      = F.cells.map fun c => ∑ q, (∑ i, ∑ d, elasticStress (Matrix.of (F.gradAt u c q)) i d * F.gradAt u c q i d) * F.JxW c q := by
    conv_rhs => rw [← List.zipIdx_map_fst 0 F.cells, List.map_map]
    rfl
  rw [← hz]
  congr 1
  refine List.map_congr_left fun p _ => sum_congr rfl fun q _ => ?_
  have hm : ∀ i, (elasticFem F).massAt p.2 q ((elasticFem F).uAt u p.1 q) i = 0 := fun _ => rfl
  simp only [hm, zero_mul, sum_const_zero, add_zero]
  rfl

/-- **C163 (reaction).** The sum of the vertical nodal forces on the top is `disp` times a constant; the constant is positive when the top has a node. (`compute_traction` measures the stresses at the faces instead; the two need not agree.) -/
theorem C163_reaction (F : Fem nn nq nf nfq 3 3) (hB : Body F) : ∃ K : ℝ, (∀ disp u R, Equilibrium F disp u R → ∑ n ∈ (range F.numTotal).filter (fun n => cylTop (F.points n) = true), R n 2 = disp * K) ∧
    ((∃ n < F.numTotal, cylTop (F.points n) = true) → 0 < K) := by
  obtain ⟨lin0, hlin0⟩ : ∃ lin, ExactLin (F.numTotal * 3) lin := by
    classical
    refine ⟨fun _ call => if h : ∃ x, ∀ d < F.numTotal * 3, call.op x d = call.b d then h.choose else 0, fun k call h d hd => ?_⟩
    beta_reduce
    rw [dif_pos h]
    exact h.choose_spec d hd
  obtain ⟨-, u0, R0, -, -, h0⟩ := solver_equilibrium F hB lin0 hlin0 0 1
  set w : ℕ → Fin 3 → ℝ := fun n i => u0 (3 * n + i) with hw
  refine ⟨∑ n ∈ (range F.numTotal).filter (fun n => cylTop (F.points n) = true), R0 n 2, fun disp u R h => ?_, fun htop => ?_⟩
  · have hsc := C163_scale F hB 1 disp _ _ h0
    rw [mul_one] at hsc
    have heq := equilibrium_unique F hB disp _ _ _ _ h hsc
    rw [mul_sum]
    refine sum_congr rfl fun n _ => ?_
    rw [residual_formula F hB u R h.1, ← smul_eq_mul, ← Pi.smul_apply, ← Pi.smul_apply, residual_formula F hB _ _ hsc.1]
    congr 1
    refine List.map_congr_left fun p hp => ?_
    have hc : p.1 ∈ F.cells := List.fst_mem_of_mem_zipIdx hp
    have hg : ∀ q, F.gradAt u p.1 q = F.gradAt (disp • w) p.1 q := by
      intro q
      funext i d
      exact sum_congr rfl fun a _ => by rw [heq _ (hB.mesh _ hc a)]
    simp only [hg]
  · have hsum : ∑ n ∈ range F.numTotal, ∑ i, R0 n i * w n i = ∑ n ∈ (range F.numTotal).filter (fun n => cylTop (F.points n) = true), R0 n 2 := by
      rw [sum_filter]
      refine sum_congr rfl fun n hn => ?_
      have hn := Finset.mem_range.mp hn
      split_ifs with ht
      · obtain ⟨a0, a1, a2⟩ := (h0.2 n hn).2.1 ht
        rw [Fin.sum_univ_three, a0, a1, a2]
        ring
      · refine sum_eq_zero fun i _ => ?_
        by_cases hb : cylBottom (F.points n) = true
        · rw [(h0.2 n hn).1 hb i, mul_zero]
        · rw [(h0.2 n hn).2.2 (by simpa using hb) (by simpa using ht) i, zero_mul]
    rw [← hsum, work F hB w R0 h0.1]
    have hnn : ∀ c ∈ F.cells, ∀ q, 0 ≤ (∑ i, ∑ d, elasticStress (Matrix.of (F.gradAt w c q)) i d * F.gradAt w c q i d) * F.JxW c q :=
      fun c hc q => mul_nonneg (C29_energy (Matrix.of (F.gradAt w c q)) 0).2.1 (hB.vol c hc q).le
    have hnn' : ∀ x ∈ F.cells.map fun c => ∑ q, (∑ i, ∑ d, elasticStress (Matrix.of (F.gradAt w c q)) i d * F.gradAt w c q i d) * F.JxW c q, 0 ≤ x := by
      intro x hx
      obtain ⟨c, hc, rfl⟩ := List.mem_map.mp hx
      exact sum_nonneg fun q _ => hnn c hc q
    refine lt_of_le_of_ne (List.sum_nonneg hnn') fun hzero => ?_
    have hstress : ∀ c ∈ F.cells, ∀ q i d, elasticStress (Matrix.of (F.gradAt w c q)) i d = 0 := by
      intro c hc q i d
      have h1 := List.all_zero_of_le_zero_le_of_sum_eq_zero hnn' hzero.symm (List.mem_map.mpr ⟨c, hc, rfl⟩)
      have h2 := (sum_eq_zero_iff_of_nonneg fun q _ => hnn c hc q).mp h1 q (mem_univ q)
      have h3 := (mul_eq_zero.mp h2).resolve_right (hB.vol c hc q).ne'
      have h4 := (C29_energy (Matrix.of (F.gradAt w c q)) 0).2.2.mp h3
      have h5 : ∀ a b, F.gradAt w c q a b + F.gradAt w c q b a = 0 := by
        intro a b
        have := congrFun (congrFun h4 a) b
        simp only [Matrix.transpose_apply, Matrix.neg_apply, Matrix.of_apply] at this
        linarith
      have h6 : (Matrix.of (F.gradAt w c q)).trace = 0 := by
        simp only [Matrix.trace, Matrix.diag, Matrix.of_apply]
        exact sum_eq_zero fun a _ => by linarith [h5 a a]
      rw [elasticStress_apply, h6]
      simp only [Matrix.of_apply, h5]
      simp
    have hR0 : ∀ n i, R0 n i = 0 := by
      intro n i
      rw [residual_formula F hB w R0 h0.1]
      refine List.sum_eq_zero fun x hx => ?_
      obtain ⟨p, hp, rfl⟩ := List.mem_map.mp hx
      have hc : p.1 ∈ F.cells := List.fst_mem_of_mem_zipIdx hp
      refine sum_eq_zero fun a _ => sum_eq_zero fun q _ => ?_
      simp only [hstress _ hc, zero_mul, sum_const_zero]
    obtain ⟨n, hn, ht⟩ := htop
    have hz := residual_scale F hB 0 w R0 h0.1
    have := unique_bottom F hB (fun n _ => n < F.numTotal ∧ cylBottom (F.points n) = true) (fun n hn hb _ => ⟨hn, hb⟩) w (0 • w) R0 (0 • R0) h0.1 (by simpa using hz)
      (fun n i h => by simpa using (h0.2 n h.1).1 h.2 i) (fun n _ i _ => by simp [hR0]) n hn 2
    rw [((h0.2 n hn).2.1 ht).2.2] at this
    simp at this

/-! ## Bars -/

/-- **C163 (bar).** Every box mesh of height 10 with up to 10000 layers, without loads, is such a body, and its top has a node. -/
theorem C163_bar (F : Fem 8 (2 ^ 3) 6 (2 ^ 2) 3 3) (N : Fin 3 → ℕ) (L : Fin 3 → ℝ) (hbox : OnBox F N L) (hnum : F.numTotal = (N 0 + 1) * (N 1 + 1) * (N 2 + 1)) (hN : ∀ a, 0 < N a)
    (hL : ∀ a, 0 < L a) (ht : CellTables F hex8 (gaussRule 3)) (hft : FaceTables F hex8 (gaussRule 2)) (hsrc : F.source = none) (hbody : F.bodyVar = none) (hcauchy : F.cauchy = none) (hneu : F.neumann = none)
    (hheight : L 2 = 10) (hlayers : N 2 ≤ 10000) : Body F ∧ ∃ n < F.numTotal, cylTop (F.points n) = true := by
  have hbox' : OnBox (elasticFem F) N L := ⟨hbox.points, hbox.cells⟩
  have ht' : CellTables (elasticFem F) hex8 (gaussRule 3) := ⟨ht.vals, ht.grads, ht.weights⟩
  have hh : ∀ a, 0 < L a / N a := fun a => div_pos (hL a) (by exact_mod_cast hN a)
  have hN2 : (0 : ℝ) < N 2 := by exact_mod_cast hN 2
  have hN2' : (N 2 : ℝ) ≤ 10000 := by exact_mod_cast hlayers
  have hz : ∀ m : Fin 3 → ℕ, (∀ b, m b ≤ N b) → F.points (gridNode N m) 2 = m 2 * (10 / N 2) := by
    intro m hm
    rw [hbox.point m hm, hheight]
  have htop : ∀ m : Fin 3 → ℕ, (∀ b, m b ≤ N b) → (cylTop (F.points (gridNode N m)) = true ↔ m 2 = N 2) := by
    intro m hm
    rw [cylTop, isclose_iff, hz m hm]
    constructor
    · intro h
      by_contra hne
      have h1 : (m 2 : ℝ) + 1 ≤ N 2 := by
        have := hm 2
        exact_mod_cast (by omega : m 2 + 1 ≤ N 2)
      have h2 : (m 2 : ℝ) * (10 / N 2) - 10 ≤ -(10 / N 2) := by
        have : (m 2 : ℝ) * (10 / N 2) - 10 + 10 / N 2 = (m 2 + 1 - N 2) * (10 / N 2) := by
          field_simp
          ring
        nlinarith [div_pos (show (0 : ℝ) < 10 by norm_num) hN2]
      have h3 : (1e-3 : ℝ) ≤ 10 / N 2 := by
        rw [le_div_iff₀ hN2]
        norm_num
        linarith
      have h4 := (abs_le.mp h).1
      norm_num at h4 h3
      linarith
    · intro h
      rw [h, mul_div_cancel₀ _ hN2.ne', sub_self, abs_zero]
      norm_num
  refine ⟨⟨?_, ?_, ?_, ?_, ?_, hsrc, hbody, hcauchy, hneu, ?_⟩, gridNode N N, ?_, (htop N fun _ => le_rfl).mpr rfl⟩
  · intro c hc p
    obtain ⟨g, hg, rfl⟩ := (hbox.mem_cells c).mp hc
    rw [hnum]
    rw [mem_boxGrid] at hg
    exact gridNode_lt N _ fun a => by have := hg a; have := hexCorner_le p a; omega
  · intro hnil
    have : boxCell N (fun _ => 0) ∈ F.cells := (hbox.mem_cells _).mpr ⟨_, (mem_boxGrid _ _).mpr fun a => hN a, rfl⟩
    rw [hnil] at this
    cases this
  · intro c hc q
    obtain ⟨g, hg, rfl⟩ := (hbox.mem_cells c).mp hc
    rw [hbox.JxW _ ht g hg]
    exact mul_pos (prod_pos fun a _ => hh a) (gauss_w_pos 3 q)
  · refine C88_rigid_hex8 _ ht' fun c hc => ?_
    obtain ⟨g, hg, rfl⟩ := (hbox'.mem_cells c).mp hc
    refine ⟨fun a => g a * (L a / N a), fun a => L a / N a, fun a => (hh a).ne', fun p a => ?_⟩
    rw [hbox'.corner g hg]
    push_cast
    ring
  · intro n hn
    rw [hnum] at hn
    obtain ⟨m, hm, rfl⟩ := gridNode_surj N n hn
    refine box_held hbox' hN hL _ 2 0 (Nat.zero_le _) (fun m hm hm0 => ⟨?_, ?_⟩) m hm
    · rw [hnum]
      exact gridNode_lt N m hm
    · rw [cylBottom, isclose_iff, hz m hm, hm0]
      norm_num
  · exact ((C83_area F cylTop (0 : ℕ → Fin 3 → ℝ) _).mp (C83_box_area F N L hbox hN hL (gaussRule 2) hft (gaussRule_sum 2) cylTop 2 (N 2) (.inr rfl) htop 0)).2.1
  · rw [hnum]
    exact gridNode_lt N N fun _ => le_rfl

/-- A bar of 4 × 3 × 10 in 2 × 1 × 5 cells: the third of three forces is minus twice the first; the nodal forces on the top pull against the displacement. -/
example (lin : ℕ → LinCall ℝ → ℕ → ℝ) (hlin : ExactLin (36 * 3) lin) :
    (∃ k : ℝ, cylForces (boxObj ![2, 1, 5] ![4, 3, 10]) lin 0 [0.1, 0, -0.2] = .ok [0.1 * k, 0, -2 * (0.1 * k)]) ∧
    ∃ K : ℝ, 0 < K ∧ ∀ u R, Equilibrium (boxObj ![2, 1, 5] ![4, 3, 10]) 0.1 u R →
      ∑ n ∈ (range 36).filter (fun n => cylTop ((boxObj ![2, 1, 5] ![4, 3, 10]).points n) = true), R n 2 = 0.1 * K := by
  obtain ⟨hB, htop⟩ := C163_bar (boxObj ![2, 1, 5] ![4, 3, 10]) _ _ (boxObj_onBox _ _) rfl (by intro a; fin_cases a <;> simp) (by intro a; fin_cases a <;> simp) (boxObj_tables _ _) (boxObj_faces _ _) rfl rfl rfl rfl
    rfl (by simp)
  constructor
  · obtain ⟨u, R, -, h⟩ := C163_line _ hB
    refine ⟨topForce (boxObj ![2, 1, 5] ![4, 3, 10]) u, ?_⟩
    rw [(h lin hlin 0).2 [0.1, 0, -0.2] (by simp)]
    congr 1
    simp only [List.map_cons, List.map_nil, zero_mul]
    congr 3
    ring
  · obtain ⟨K, h1, h2⟩ := C163_reaction _ hB
    exact ⟨K, h2 htop, fun u R h => h1 _ u R h⟩

end Verif.Fem.ForceCurve
