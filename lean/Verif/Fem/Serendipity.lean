import Verif.Fem.CubeDemo

/-!
# C163: the body moved to the origin and stretched by a tenth (model of applications/fem/demo/serendipity.py 21-54)

The mesh is read from an Abaqus file and left open, with the element type (`HEX20` in line 18).
-/
namespace Verif.Fem.Serendipity
open Verif.Fem Verif.Fem.DogBone Finset

variable {nn nq nf nfq : ℕ}

/-! ## Model -/

/-- Lines 24-26: every coordinate minus its least value (`onp.min` of a non-empty array). -/
noncomputable def shiftFem (F : Fem nn nq nf nfq 3 3) : Fem nn nq nf nfq 3 3 := { F with points := fun n a => F.points n a - ⨅ m : Fin F.numTotal, F.points m a }

/-- `Lx` (line 30). -/
noncomputable def lenX (G : Fem nn nq nf nfq 3 3) : ℝ := ⨆ n : Fin G.numTotal, G.points n 0

/-- `left` (lines 36-37). -/
noncomputable def left : Loc 3 := fun point => isclose (point 0) 0 1e-5

/-- `right` (lines 39-40). -/
noncomputable def right (Lx : ℝ) : Loc 3 := fun point => isclose (point 0) Lx 1e-5

/-- `dirichlet_bc_info` (lines 42-51). -/
noncomputable def serInfo (Lx : ℝ) : List (Loc 3) × List ℕ × List ((Fin 3 → ℝ) → ℝ) :=
  ([left, left, left, right Lx, right Lx, right Lx], [0, 1, 2, 0, 1, 2], [fun _ => 0, fun _ => 0, fun _ => 0, fun _ => 0.1 * Lx, fun _ => 0, fun _ => 0])

/-- `problem()` (lines 24-54) without the files; `F` is the object on the mesh as read. On a mesh without nodes `onp.min` raises a `ValueError`. -/
noncomputable def serSolve (F : Fem nn nq nf nfq 3 3) (lin : ℕ → LinCall ℝ → ℕ → ℝ) (fuel : ℕ) : Except (FemErr ⊕ SolveErr FemErr) (ℕ → Fin 3 → ℝ) :=
  if F.numTotal = 0 then .error (.inl .shape) else
    let G := shiftFem F
    match dirichletBC G.numTotal G.points (some (serInfo (lenX G))) with
    | .error e => .error (.inl e)
    | .ok out => do
      let u ← (((elasticFem G).toProb (groupsOf out.1 out.2.1 out.2.2)).rowSolver realArith lin true true false none fuel).mapError .inr
      pure fun n i => u (3 * n + i)

/-! ## Specification -/

/-- Specification: the same mesh somewhere else. -/
def moved (F : Fem nn nq nf nfq 3 3) (v : Fin 3 → ℝ) : Fem nn nq nf nfq 3 3 := { F with points := fun n a => F.points n a + v a }

/-! ## Proofs -/

theorem inf_add {n : ℕ} (h : 0 < n) (f : Fin n → ℝ) (v : ℝ) : ⨅ m, (f m + v) = (⨅ m, f m) + v := by
  haveI : Nonempty (Fin n) := ⟨⟨0, h⟩⟩
  exact ((OrderIso.addRight v).map_ciInf (Set.finite_range f).bddBelow).symm

theorem sup_add {n : ℕ} (h : 0 < n) (f : Fin n → ℝ) (v : ℝ) : ⨆ m, (f m + v) = (⨆ m, f m) + v := by
  haveI : Nonempty (Fin n) := ⟨⟨0, h⟩⟩
  exact ((OrderIso.addRight v).map_ciSup (Set.finite_range f).bddAbove).symm

theorem shift_ends (F : Fem nn nq nf nfq 3 3) (h : 0 < F.numTotal) : minX (shiftFem F) = 0 ∧ maxX (shiftFem F) = maxX F - minX F := by
  constructor
  · show ⨅ n : Fin F.numTotal, (F.points n 0 - _) = 0
    simp only [sub_eq_add_neg]
    rw [inf_add h]
    exact add_neg_cancel _
  · show ⨆ n : Fin F.numTotal, (F.points n 0 - _) = _
    simp only [sub_eq_add_neg]
    rw [sup_add h]
    rfl

theorem shift_moved (F : Fem nn nq nf nfq 3 3) (h : 0 < F.numTotal) (v : Fin 3 → ℝ) : shiftFem (moved F v) = shiftFem F := by
  have e : (fun n a => F.points n a + v a - ⨅ m : Fin F.numTotal, (F.points m a + v a)) = fun n a => F.points n a - ⨅ m : Fin F.numTotal, F.points m a := by
    funext n a
    rw [inf_add h]
    ring
  unfold shiftFem moved
  dsimp only
  rw [e]

/-- **C163 (position).** The result does not depend on where the mesh of the file lies. -/
theorem C163_position (F : Fem nn nq nf nfq 3 3) (v : Fin 3 → ℝ) (lin : ℕ → LinCall ℝ → ℕ → ℝ) (fuel : ℕ) : serSolve (moved F v) lin fuel = serSolve F lin fuel := by
  unfold serSolve
  by_cases h : F.numTotal = 0
  · rw [if_pos h, if_pos (show (moved F v).numTotal = 0 from h)]
  · rw [if_neg h, if_neg (show (moved F v).numTotal ≠ 0 from h), shift_moved F (Nat.pos_of_ne_zero h)]

/-- **C163 (stretched body).** On every mesh whose moved copy is a sound body: with an exact linear solver the program returns a field that is 0 at the left end and a tenth of the extent of the mesh as read at the right end, with no
residual at the other nodes; this field is the only one, and the nodal forces at the right end have a positive sum along the axis. -/
theorem C163_serendipity (F : Fem nn nq nf nfq 3 3) (hB : Body (shiftFem F)) (lin : ℕ → LinCall ℝ → ℕ → ℝ) (hlin : ExactLin (F.numTotal * 3) lin) (fuel : ℕ) :
    let G := shiftFem F
    let Lx := maxX F - minX F
    let equil := fun (u R : ℕ → Fin 3 → ℝ) => (elasticFem G).computeResidual u = .ok R ∧ ∀ n < F.numTotal,
      (left (G.points n) = true → ∀ i, u n i = 0) ∧ (right Lx (G.points n) = true → u n 0 = 0.1 * Lx ∧ u n 1 = 0 ∧ u n 2 = 0) ∧ (left (G.points n) = false → right Lx (G.points n) = false → ∀ i, R n i = 0)
    ∃ u R, serSolve F lin fuel = .ok u ∧ equil u R ∧ (∀ v S, equil v S → ∀ n < F.numTotal, ∀ i, v n i = u n i) ∧
      0 < ∑ n ∈ (range F.numTotal).filter (fun n => right Lx (G.points n) = true), R n 0 := by
  intro G Lx equil
  have hpos : 0 < F.numTotal := hB.nodes
  obtain ⟨hmin, hmax⟩ := shift_ends F hpos
  have hleft : minXLoc G = left := by
    funext x
    show isclose (x 0) (minX G) 1e-5 = isclose (x 0) 0 1e-5
    rw [hmin]
  have hright : maxXLoc G = right Lx := by
    funext x
    show isclose (x 0) (maxX G) 1e-5 = isclose (x 0) Lx 1e-5
    rw [hmax]
  have hlen : lenX G = Lx := hmax
  have hinfo : dogInfo G (0.1 * Lx) = serInfo Lx := by
    unfold dogInfo serInfo
    rw [hleft, hright]
  have hequil : ∀ u R, DogBone.Equilibrium G (0.1 * Lx) u R ↔ equil u R := by
    intro u R
    unfold DogBone.Equilibrium
    rw [hleft, hright]
    exact Iff.rfl
  obtain ⟨groups, u, R, hg, hs, he⟩ := solver_equilibrium G hB lin hlin fuel (0.1 * Lx)
  obtain ⟨K, hK, hsum⟩ := C163_dogbone_reaction G hB
  have hforce := hsum _ _ _ he
  rw [hright] at hforce
  have hLx : 0 < Lx := by
    have h1 := hB.extent
    have h2 := abs_nonneg (minX G)
    have h3 := abs_nonneg (maxX G)
    rw [show minX (shiftFem F) = minX G from rfl, show maxX (shiftFem F) = maxX G from rfl] at h1
    have h4 : maxX G - minX G = Lx := by rw [show minX G = 0 from hmin, show maxX G = Lx from hmax, sub_zero]
    rw [← h4]
    linarith
  refine ⟨_, R, ?_, (hequil _ _).mp he, fun v S hv n hn i => equilibrium_unique G hB (0.1 * Lx) v _ S R ((hequil _ _).mpr hv) he n hn i, ?_⟩
  · unfold dogGroups at hg
    rw [hinfo] at hg
    unfold serSolve
    rw [if_neg hpos.ne']
    dsimp only
    rw [show lenX (shiftFem F) = Lx from hlen]
    cases h : dirichletBC G.numTotal G.points (some (serInfo Lx)) with
    | error e => rw [h] at hg; cases hg
    | ok out =>
      rw [h] at hg
      injection hg with hg
      dsimp only
      rw [hg, show ((elasticFem (shiftFem F)).toProb groups).rowSolver realArith lin true true false none fuel = .ok u from hs]
      rfl
  · refine lt_of_lt_of_eq ?_ hforce.symm
    positivity

theorem box_shift (N : Fin 3 → ℕ) (L : Fin 3 → ℝ) (hL : ∀ a, 0 < L a) : shiftFem (boxObj N L) = boxObj N L := by
  have hB := boxObj_onBox N L
  have h0 := gridNode_lt N (fun _ => 0) fun _ => Nat.zero_le _
  have hmin : ∀ a, ⨅ m : Fin (boxObj N L).numTotal, (boxObj N L).points m a = 0 := by
    intro a
    haveI : Nonempty (Fin (boxObj N L).numTotal) := ⟨⟨_, h0⟩⟩
    refine le_antisymm ?_ (le_ciInf fun n => ?_)
    · have h := ciInf_le (Set.finite_range fun m : Fin (boxObj N L).numTotal => (boxObj N L).points m a).bddBelow ⟨_, h0⟩
      refine h.trans ?_
      show (boxObj N L).points (gridNode N fun _ => 0) a ≤ 0
      rw [hB.point _ (fun _ => Nat.zero_le _)]
      simp
    · obtain ⟨m, hm, e⟩ := gridNode_surj N n n.isLt
      rw [e, hB.point m hm]
      exact mul_nonneg (Nat.cast_nonneg _) (div_nonneg (hL a).le (Nat.cast_nonneg _))
  unfold shiftFem
  simp only [hmin, sub_zero]

/-- A bar of 3 × 2 × 2 cells, 5 long, that lies anywhere: the program solves. -/
example (v : Fin 3 → ℝ) (lin : ℕ → LinCall ℝ → ℕ → ℝ) (hlin : ExactLin 108 lin) : ∃ u, serSolve (moved (boxObj ![3, 2, 2] ![5, 1, 1]) v) lin 0 = .ok u := by
  have hL : ∀ a, (0 : ℝ) < (![5, 1, 1] : Fin 3 → ℝ) a := by intro a; fin_cases a <;> norm_num
  have hB : Body (boxObj ![3, 2, 2] ![5, 1, 1]) := (C163_dogbone_bar _ ![3, 2, 2] ![5, 1, 1] (boxObj_onBox _ _) rfl (by decide) hL (boxObj_tables _ _) rfl rfl rfl rfl
    (by show 2 * 1e-5 + 1e-5 * (5 : ℝ) < 5; norm_num)).1
  obtain ⟨u, -, h, -⟩ := C163_serendipity (boxObj ![3, 2, 2] ![5, 1, 1]) (by rw [box_shift _ _ hL]; exact hB) lin hlin 0
  exact ⟨u, by rw [C163_position]; exact h⟩

end Verif.Fem.Serendipity
