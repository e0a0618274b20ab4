import Verif.Fem.DogBone

/-!
# C163: the stretched cube (model of applications/fem/demo/example.py 11-43)
-/
namespace Verif.Fem.CubeDemo
open Verif.Fem Verif.Fem.DogBone Finset

/-- `left` (example.py 24-25). -/
noncomputable def left : Loc 3 := fun point => isclose (point 0) 0 1e-5

/-- `right` (example.py 27-28). -/
noncomputable def right : Loc 3 := fun point => isclose (point 0) 1 1e-5

/-- `dirichlet_bc_info` (example.py 30-39). -/
noncomputable def demoInfo : List (Loc 3) × List ℕ × List ((Fin 3 → ℝ) → ℝ) :=
  ([left, left, left, right, right, right], [0, 1, 2, 0, 1, 2], [fun _ => 0, fun _ => 0, fun _ => 0, fun _ => 0.1, fun _ => 0, fun _ => 0])

/-- `problem()` (example.py 41-42) without the files, on `box_mesh(Nx, Ny, Nz, 1, 1, 1)` (line 18 has 10 cells in each direction). -/
noncomputable def demoSolve (N : Fin 3 → ℕ) (lin : ℕ → LinCall ℝ → ℕ → ℝ) (fuel : ℕ) : Except (FemErr ⊕ SolveErr FemErr) (ℕ → Fin 3 → ℝ) :=
  let F := boxObj N fun _ => 1
  match dirichletBC F.numTotal F.points (some demoInfo) with
  | .error e => .error (.inl e)
  | .ok out => do
    let u ← (((elasticFem F).toProb (groupsOf out.1 out.2.1 out.2.2)).rowSolver realArith lin true true false none fuel).mapError .inr
    pure fun n i => u (3 * n + i)

theorem cube_body (N : Fin 3 → ℕ) (hN : ∀ a, 0 < N a) : Body (boxObj N fun _ => 1) ∧ minX (boxObj N fun _ => 1) = 0 ∧ maxX (boxObj N fun _ => 1) = 1 :=
  C163_dogbone_bar (boxObj N fun _ => 1) N (fun _ => 1) (boxObj_onBox _ _) rfl hN (fun _ => one_pos) (boxObj_tables _ _) rfl rfl rfl rfl (by norm_num)

/-- **C163 (cube).** The demo on the unit cube, for all numbers of cells: with an exact linear solver it returns a field that is 0 on the side `x = 0` and `(0.1, 0, 0)` on the side `x = 1`, with no residual at the other nodes, and this field is the only one; the
nodal forces on the side `x = 1` have a positive sum along the axis. -/
theorem C163_cube (N : Fin 3 → ℕ) (hN : ∀ a, 0 < N a) (lin : ℕ → LinCall ℝ → ℕ → ℝ) (hlin : ExactLin ((N 0 + 1) * (N 1 + 1) * (N 2 + 1) * 3) lin) (fuel : ℕ) :
    let F := boxObj N fun _ => 1
    ∃ u R, demoSolve N lin fuel = .ok u ∧ (elasticFem F).computeResidual u = .ok R ∧
      (∀ n < F.numTotal, (left (F.points n) = true → ∀ i, u n i = 0) ∧ (right (F.points n) = true → u n 0 = 0.1 ∧ u n 1 = 0 ∧ u n 2 = 0) ∧
        (left (F.points n) = false → right (F.points n) = false → ∀ i, R n i = 0)) ∧
      (∀ v S, (elasticFem F).computeResidual v = .ok S → (∀ n < F.numTotal, (left (F.points n) = true → ∀ i, v n i = 0) ∧ (right (F.points n) = true → v n 0 = 0.1 ∧ v n 1 = 0 ∧ v n 2 = 0) ∧
        (left (F.points n) = false → right (F.points n) = false → ∀ i, S n i = 0)) → ∀ n < F.numTotal, ∀ i, v n i = u n i) ∧
      0 < ∑ n ∈ (range F.numTotal).filter (fun n => right (F.points n) = true), R n 0 := by
  intro F
  obtain ⟨hB, hmin, hmax⟩ := cube_body N hN
  have hleft : minXLoc F = left := by
    funext x
    show isclose (x 0) (minX F) 1e-5 = isclose (x 0) 0 1e-5
    rw [hmin]
  have hright : maxXLoc F = right := by
    funext x
    show isclose (x 0) (maxX F) 1e-5 = isclose (x 0) 1 1e-5
    rw [hmax]
  have hinfo : dogInfo F 0.1 = demoInfo := by
    unfold dogInfo demoInfo
    rw [hleft, hright]
  obtain ⟨groups, u, R, hg, hs, he⟩ := solver_equilibrium F hB lin hlin fuel 0.1
  have he' := he
  obtain ⟨K, hK, hsum⟩ := C163_dogbone_reaction F hB
  have hforce := hsum _ _ _ he
  rw [hright] at hforce
  unfold DogBone.Equilibrium at he
  rw [hleft, hright] at he
  refine ⟨_, R, ?_, he.1, he.2, fun v S hv hval n hn i => ?_, ?_⟩
  · unfold dogGroups at hg
    rw [hinfo] at hg
    unfold demoSolve
    dsimp only
    cases h : dirichletBC (boxObj N fun _ => 1).numTotal (boxObj N fun _ => 1).points (some demoInfo) with
    | error e => rw [show dirichletBC F.numTotal F.points (some demoInfo) = _ from h] at hg; cases hg
    | ok out =>
      rw [show dirichletBC F.numTotal F.points (some demoInfo) = _ from h] at hg
      injection hg with hg
      dsimp only
      rw [hg, show ((elasticFem (boxObj N fun _ => 1)).toProb groups).rowSolver realArith lin true true false none fuel = .ok u from hs]
      rfl
  · refine equilibrium_unique F hB 0.1 v _ S R ⟨hv, ?_⟩ he' n hn i
    rw [hleft, hright]
    exact hval
  · rw [hforce]
    positivity

/-- The mesh of the file: 10 × 10 × 10 cells, 1331 nodes. -/
example (lin : ℕ → LinCall ℝ → ℕ → ℝ) (hlin : ExactLin 3993 lin) : ∃ u, demoSolve (fun _ => 10) lin 0 = .ok u := by
  obtain ⟨u, -, h, -⟩ := C163_cube (fun _ => 10) (fun _ => by norm_num) lin hlin 0
  exact ⟨u, h⟩

end Verif.Fem.CubeDemo
