# Formal model of jax-am: design

Source: `/repo` (tianjuxue/jax-am, read as text, never executed).
Model and proofs: `lean/` (Lean 4.33.0 + Mathlib), built with `lake build` in `lean/`.

## 1. Trusted base

* The Lean 4 kernel and the standard axioms `propext`, `Classical.choice`, `Quot.sound`.
  No own axioms, no `sorry`/`admit`, no `native_decide`/`bv_decide`. `Verif/Audit.lean`
  prints the axioms of every property theorem.
* The model of the Python code. Each definition cites the file and the lines it mirrors.
  Anything that is idealised is said so in the comment next to it and in section 2.
* The English reading of the theorem statements.

## 2. Modelling conventions

* **Numbers.** Floating point is idealised: scalars live in an arbitrary linearly ordered field
  `K` (so `ℚ` gives executable examples) or in `ℝ` where `sqrt`, powers, logarithms,
  derivatives are used. Rounding is not modelled. NaN/inf are modelled as separate values only
  where control flow depends on them (Newton loop exit, `solver_nonlinear`, `np.nan_to_num`).
* **Arrays.** A numpy/JAX array with shape `(n0,n1,..)` is a function on `Nat` indices (or `Fin`)
  with explicit sizes; `reshape`, `stack`, slicing, `concatenate`, `pad`, `transpose` are written as
  their flat-index arithmetic. Lists are used for index lists, COO triplets, boundary faces,
  and wherever order/length matter. Sums are `∑ i ∈ Finset.range n` or `Finset.univ`.
* **Scatter.** `x.at[idx].add(v)` and `x.at[idx].set(v)` are left folds over the list of
  `(index, value)` pairs with `Function.update` (repeated indices add up / last one wins).
  `segment`-like `take` is plain function application. JAX out-of-range gather semantics (negative
  wraps, too large clamps) is modelled where the code can reach it (LBM neighbour gather).
* **Exceptions** are values (`Except`/`Option`). Python unbound-variable, division-by-zero, ragged
  `np.array` and assertion failures are modelled as explicit error results.
* **vmap/jit** are the identity on semantics (pointwise application).
* **Automatic differentiation** (`jax.grad/jacrev/jvp/vjp`) is the mathematical derivative: a theorem
  takes `HasFDerivAt`/`HasDerivAt` of the kernel as hypothesis, or uses `fderiv` directly.
* **Linear solvers** (BiCGSTAB, PETSc, cg, np.linalg.solve) are oracles: either arbitrary
  (safety properties) or "returns an exact solution" (correctness properties), as stated.
* **User callbacks** (location functions, value functions, body forces, objectives) are arbitrary functions.

Not modelled at all: gmsh / neper / meshio file formats, plotting and video, timing decorators,
GPU/parallel behaviour, float rounding, the numerical values of basix quadrature points and of the second-order
tabulations (the shape-function properties used are hypotheses and are shown to hold for the explicitly
modelled HEX8/QUAD4/TET4/TRI3 polynomials), PETSc internals, the k-d tree (specified by `IsKdQuery`).
Section 6 lists every function of `jax_am` with the module that models it.

## 3. Layout

`Verif/<Domain>/…` with the domains `Base` (arrays, tactics), `Mesh`, `Fem` (elements, assembly, solvers,
constitutive models, MMA), `Lbm`, `PhaseField`, `Cfd`, `Misc`. In each domain the files without `Props`/`Lemmas`
in the name hold the model (every definition cites its source lines), `*Lemmas` hold helper lemmas, and `*Props*`
hold the property theorems (named `C<nn>_…`) with their small specifications and examples.
`Verif/Audit.lean` prints the axioms of every theorem named in `MANIFEST.json`.

## 4. Properties: what is modelled and how it is proved

| id | model | proof method |
|----|-------|--------------|
| C01 | `box_mesh` as linspace/meshgrid/stack/reshape index arithmetic | Nat div/mod arithmetic for all sizes |
| C02 | `rectangle_mesh` likewise | same |
| C03 | `to_id`, `to_id_xyz`, `shape_wrapper`, `compute_cell_centroid` | bijection by div/mod; centroid via C01 |
| C04 | `compute_edges_in_order` (slices of the index grid, hstack, transpose) | exact characterisation of edge list, degree count |
| C05 | `mesh3d`/`mesh2d` `cell_conn`, `surf_cell`, `surf_orient`, `surf_set` | case analysis over sides, list lemmas |
| C06 | `convert_temperature` | flat index arithmetic |
| C07 | `cylinder_mesh` post-processing | case split on index vs 14 ; counterexample |
| C08 | `generate_new_mesh` iterated | induction on layers |
| C09 | `get_elements` tables, `reorder_inds`, face tables | finite tables by `decide`, generic lemma for all index arrays |
| C10 | `get_shape_grads`, `sol_to_grad`, quad points | matrix algebra over a field, any finite dims |
| C11 | HEX8 polynomials + `box_mesh` | algebra |
| C12 | `split_and_compute_cell` | list lemma over `n / 20` batches |
| C13 | residual assembly | fold/sum exchange |
| C14 | COO triplets | linearity + HasFDerivAt of composed maps |
| C15 | body force/Neumann/Laplace kernels | sum exchange and partition of unity |
| C16 | `get_boundary_conditions_inds` (`argwhere` row-major) | list membership/nodup/sorted |
| C17 | `Dirichlet_boundary_conditions` | list lemma |
| C18 | `periodic_boundary_conditions` | case analysis on ragged candidate lists |
| C19 | `apply_bc_vec`, `assign_bc` | fold lemma for last-wins scatter |
| C20 | `row_elimination`, PETSc `zeroRows`, Jacobi | fold lemma, linear algebra |
| C21 | `linear_incremental_solver` with exact oracle | algebra |
| C22 | Newton loop with oracle and fuel | loop invariant |
| C23 | `line_search` | case analysis |
| C24 | Lagrange residual/matrix | sums over constraint groups |
| C25 | Lagrange Newton loop | loop invariant |
| C26 | error branches of two solvers | evaluation of error monad for all inputs |
| C27 | `implicit_vjp`, `implicit_jvp_helper` | chain rule (Mathlib `HasFDerivAt`), adjoint identity |
| C28 | `calC` | case analysis |
| C29 | linear elasticity | algebra over matrices |
| C30 | plasticity return map and history | invariant by induction |
| C31 | neo-Hookean energy over ℝ | det/trace algebra, AM-GM on eigenvalues, derivative at identity |
| C32 | error norms | from C10 |
| C33 | `mmasub` bounds | ordered field arithmetic |
| C34 | `subsolv` as nested loops with direction oracle | invariant by induction; termination by fuel bound |
| C35 | `optimize` loop with arbitrary handles | induction |
| C36 | `mmasub` approximations | derivative computation over ℝ |
| C37 | filter | finite sums |
| C38 | D3Q19 tables | complete finite evaluation over the 19 directions (tables are finite objects) |
| C39 | equilibria over a field | moment identities |
| C40 | collisions | moment identities |
| C41 | `update_f` on an Nx×Ny×Nz lattice | antisymmetric pair exchange, sum re-indexing |
| C42 | whole time step | invariant |
| C43 | whole time step | invariant by induction on steps |
| C44 | flag re-initialisation | proof + counterexample |
| C45 | `compute_T` | piecewise linear arithmetic |
| C46 | `read_path` | list lemmas |
| C47 | `update_h` | sum re-indexing |
| C48 | `ini_cond` | evaluation |
| C49 | Allen–Cahn rhs | gradient of energy, sum by parts |
| C50 | rhs / stepper | algebra, induction |
| C51 | BFS with queue | loop invariant on visited/queue, graph reachability |
| C52–C58 | CFD operators | telescoping sums, case analysis |
| C59 | `solver_nonlinear` loop | loop invariant |
| C60 | gamma thermal | algebra |
| C61 | `to_data_frame` counters | induction; counterexample |
| C62 | logger registry | induction over calls |
| C63 | text replace | structural induction on text |
| C64 | Allen–Cahn explicit step | invariant by induction on steps, ordered field arithmetic |
| C65 | anisotropy factor over ℝ | norm/inner product algebra |
| C66 | `rk4`, `explicit_euler` | module algebra, polynomial identity |
| C67 | velocity prediction/projection | telescoping sums, kernel of the Laplacian by connectedness |
| C68 | `solver_linear` | linear algebra, positive definiteness |
| C69 | body heat source | evaluation of error monad |
| C70 | surface heat flux | index arithmetic, order |
| C71 | whole residual paired with a test field | sum exchange |
| C72 | interior-point direction, both elimination branches | derivative of the residual, block elimination |
| C73 | totality of `subsolv`, `mmasub`, `optimize` | positive definiteness, loop termination |
| C74 | quality of the returned point | convexity, Lagrangian gap bound |
| C75 | LBM stencils, `compute_curvature` over ℝ | derivative of the unit normal, telescoping, shift bijection |
| C76, C77 | `compute_T_grad`, `compute_f_source_term`, `compute_h_src` | vector algebra, monotonicity of `exp` |
| C78 | time loop with the computed driving terms | refinement to the loop with arbitrary sources; invariant by induction |
| C79 | unit conversion | field arithmetic |
| C80 | `get_face_shape_vals_and_grads`, basix facet tables | finite tables for the combinatorics, affine algebra over ℝ for the points |
| C81 | `get_face_shape_grads` (Nanson scale) | adjugate/cross product identities, derivative of the face map |
| C82 | `check_mesh_TET4`, `get_meshio_cell_type` | determinant expansion; string case analysis |
| C83 | `compute_surface_area`, `compute_traction`, Neumann load | sum over selected faces; counting of box slabs |
| C84 | surface terms of the residual | locality of shape functions (C80) |
| C85 | whole residual on `box_mesh` | affine fields have constant gradient; sum of layer shares telescopes |
| C86 | residual of two fields | difference as test function in the virtual work identity (C71); a sum of nonnegative terms is zero only if all are; bilinear functions vanishing at the Gauss points are zero |
| C87 | `newton_update` to `solver` for affine maps | Jacobians are constant; uniqueness (C86) makes the operator injective, hence onto in finite dimension; C21 and C85 give the returned field |
| C88 | `LinearElasticity` on `box_mesh` | zero strain at the Gauss points forces rigid motions per cell; planes of nodes hold their neighbours; C87 and C85 |
| C89 | `write_sols`, `inspect_sol`, `process_eta` | argmax of a row by a fold; C04 and C51 lifted to the grid |
| C90 | `compute_aspect_ratios_and_vols` | sorted eigenvalues determined by the characteristic polynomial; Cauchy-Schwarz for collinear points |
| C91 | `process_neper_mesh`, `get_unique_ori_colors` | rounding with tolerance; reader as a fold over lines; quaternion algebra of Mathlib as specification |
| C92 | `sparsejac.jacrev`, `jacfwd` | loop invariant of the colouring (proper, downward closed); linearity of the derivative |
| C93 | `numba_assembly.assemble`, `NumbdaLaplace.compute_residual` | linearity of the kernel; reordering of nested loops |
| C94 | `ad_wrapper`, `ad_wrapper_jvp` around the linear branch of the solver | implicit function theorem; C21, C27; transposed matrix is invertible |
| C95 | `get_flatten_fn` … `assembleCSR` | derivative along lines (C20); monotonicity argument for the error bound |
| C96 | `eigen.py` `get_eigen_f_custom` | Frobenius estimates between two eigenbases; Daleckii–Krein with `dslope` |
| C97 | `example.py` `Elasticity.stress_map` (both), `psi_plus`/`psi_minus` | C96; projections on the cone of positive matrices; trace inequalities |
| C98 | `PhaseField`, `Elasticity.set_params/compute_history/compute_traction`, main loop | induction over loads and iterations; virtual work (C71) and convexity; C87, C88, C97 |
| C99 | `hash_map_for_faces`, `initialize_hash_map`, `update_hash_map`, `get_active_mesh` (applications/fem/thermal/models.py) | invariant of the face table over activation sequences; box geometry |
| C100 | `Thermal` (applications/fem/thermal/models.py), bare_plate.py | virtual work (C71), C13, C98 box lemmas |
| C101 | `ded_thin_wall` (applications/fem/thermal/thin_wall.py) | loop invariant over the tool path |
| C102 | `get_tensor_map*`, `custom_init`, `set_params` (example.py, top_opt/fem_model.py) | algebra, sums of squares |
| C103 | `compute_compliance` | virtual work (C71), energy comparison |
| C104 | `J_total`, `objectiveHandle`, `consHandle` (example.py) through `ad_wrapper` | C94 linear family, adjoint identity |
| C105 | mesh, clamp and load of example.py | rectangle geometry, induction over node columns |
| C106 | `get_von_mises_stress_fn`, `compute_von_mises_stress` | matrix algebra |
| C107 | `top`, `bottom`, `walls` of the thermo-mechanical demo, `get_boundary_conditions_inds` | box geometry |
| C108 | `Thermal`, flux functions, `solver` | virtual work, affine Newton loop |
| C109 | `Plasticity` of the demo, `update_dT_and_phase`, `update_stress_strain` | monotone operators, induction over histories |
| C110 | the time loop | loop invariant |
| C111 | `Plasticity` (models.py) | monotone operators |
| C112 | `get_rot_mat`, `rotate_tensor_rank_2/4`, `custom_init` (elastic constants) | polynomial identities |
| C113 | `helper`, `custom_init` (`q`, Schmid tensors) | real analysis of the power laws |
| C114 | `implicit_residual`, `newton_solver`, `first_PK_stress`, `f_jvp` | loop induction, frame changes, chain rule |
| C115 | `update_int_vars_gp`, `compute_avg_stress`, `simulation` | invariant over histories |
| C116 | `set_equi`, `update_rho_u`, `collide`, `lbm_collision` | moment identities |
| C117 | `lbm_streaming`, `interface_mass_exchange`, `get_epsilon`, `get_normal` | links paired with their reversal |
| C118 | `update_types`, `average_surround` | loops that touch neighbours = simultaneous update |
| C119 | `evolve`, initial state, script | invariant over runs |
| C120 | `HyperElasticity` of multi_scale: `maps_*`, `compute_energy`, `fluc_to_disp`, `custom_init` | gradient of the energy = residual |
| C121 | `compute_energy`, `rve_problem` | telescoping sums over the grid, Hill-Mandel |
| C122 | boundary conditions of `rve_problem`, `solver` with multipliers | grid characterisation of the conditions |
| C123 | `solve_rve_problem`, `generate_samples`, `collect_data` | loop invariant |
| C124 | trainer.py | splits, errors, least squares, networks |
| C125 | `compute_moduli`, `compute_traction`, `homogenization_problem` | |
| C126 | the loop of demos/fem/plasticity/example.py | homogeneous solution of each step, uniqueness of the stress (C111), induction over the steps |
| C127 | fem/autodiff_utils.py 143-183 | length of the flattened list; sizes of the pieces from the batching lemmas |
| C128 | demos/fem/inverse/example.py | the residual is homogeneous in (E, scale_n, scale_s) and bilinear in (E, rho); translation invariance; the adjoint tested with the unit translation |
| C129 | demos/fem/poisson/example.py | virtual work of the assembled residual is the Dirichlet form minus the loads; the off-diagonal entries of the bilinear stiffness are not positive for cells that are not flat |
| C130 | cfd/experiments/old | index by index comparison of the two generations of operators; loop invariant of the nonlinear solver |
| C131 | demos linear_elasticity, hyperelasticity, buckling/beam3d | virtual work with infinitesimal rotations as test fields; symmetric stress or P F^T |
| C132 | `lbm/experiments/cylinder.py` | sums over ZMod grids, direction permutations, induction over steps |
| C133 | `applications/fem/top_opt/eigen.py` | bilinear forms, implicit function theorem, bilinear shape functions at Gauss points, gluing over the grid, rank arguments |
| C134 | `applications/fem/buckling/dr.py`, `dynamic_relax_solve` | loop invariant, discrete energy identity, row-sum bound on the stiffness, telescoping sum, explicit witness |
| C135 | `applications/fem/forming/*.py` | invariant over load paths, uniqueness of the implicit step, conjugation by orthogonal matrices, mixed differences on a rectangle against a stored energy, witnesses |
| C136 | `applications/fem/top_opt/{L_shape, mma, multi_material, plasticity}.py` | limits of the correction factor, derivative of p-norms, loop count by induction, adjoint chain over load steps, independence of the adjoint from the loads |
| C137 | `applications/cfd/gamma/example.py` | algebra of the two normalisation lines, counting rows before a time, convex weights of bilinear interpolation, induction over steps |
| C138 | `applications/fem/crystal_plasticity/calibration.py` | prescribed indices as lists independent of the values, constants under `deriv`, pullback through steps by induction, fold over the steps with a failure state |
| C139 | `applications/fem/full_field_infer/poisson.py` | virtual work to pass from residual to weak form, uniqueness gives linearity, injective = surjective for the mass matrix, rank argument for the silent direction, induction over calls |
| C140 | `applications/phase_field/{simple, multi_scan, solidification}` (temperature fields) | derivatives along the axes, limit of the flux, integral of the speed |
| C141 | `applications/phase_field/multi_scan/example.py` (path, loop) | induction over segments and rows; reuse of the bounds of one step |
| C142 | `applications/phase_field/coupled/example.py` | induction over phase-field steps with the number of flow steps as a ceiling; concrete witness for negative temperatures |
| C143 | `applications/lbm/*/example.py` (initial phase, powder) | induction over the samples with pairwise distance as invariant, Cauchy-Schwarz for the particles, C03 for numbering and centroids, C78 for the runs |
| C144 | `jax_am/lbm/core.py` whole time loop, driving terms | equivariance of every stage under reflection of cells and directions, induction over the laser path |
| C145 | `cfd_am.py` `velocity_eqn.update`, `gradient`, `get_face_vels`, `update_convective_terms` | summation by parts on boxes with zero end faces, contraction of the cell means, induction over the run; counterexample on two cells |
| C146 | `models.py` `Plasticity` with the residual of `core.py` and the Newton loop of `solver.py` | the return map as gradient of a Huber energy, convexity, coercivity and compactness in stress space, virtual work; mechanism and patch test for the bar |
| C147 | `core.py` residual (779-810, 850-851) with the materials of `models.py` | change of variables in every integral of the assembled residual, permutations of lists, isotropy of the laws |
| C148 | `convergence_rate/example.py`, error norms of `models.py` (12-37) | Taylor bounds, discrete maximum principle with a quadratic barrier on the assembled stencil, exact values at Gauss points |
| C149 | `state_rhs`, `explicit_euler`, `stepper` of `allen_cahn.py`, `integrator` of `simple/example.py` | Picard-Lindelof for the clipped right-hand side, discrete Gronwall for the Euler error, box invariance by the limit of the steps |
| C150 | `local_energy_fn`, `state_rhs`, `explicit_euler` of `allen_cahn.py`, loop of `simple/example.py` | Taylor bound of the free energy on the box by squares of the change, telescoping sum, compactness |
| C151 | `solver_row_elimination` (loop, `linear_incremental_solver`, `jax_solve`), `newton_update`, `apply_bc_vec` | local Newton theorem with inexact linear solves, inverse bounded near a regular solution, smoothness of the assembled residual |
| C152 | `HyperElasticity`, `solver_row_elimination` (loop, `jax_solve`), `newton_update`, `apply_bc_vec` | inverse function theorem with explicit ball around rest, Korn-type rigidity of held meshes, derivative of the Neo-Hookean stress |
| C153 | `Thermal` of `demos/fem/thermal_mechanical/example.py`, its boundary fluxes and time loop | discrete energy estimate of the error, norm equivalence from the rank of the tables, induction over the steps with an a priori ball (Gronwall), Picard-Lindelöf for the free nodes |
| C154 | `resize_fwd`, `resize_bwd`, `style_value_and_grad` of `applications/fem/aesthetic/style_loss.py` | interpolation as a weighted sum, chain rule, exactness at grid points, pigeonhole for an unused pixel row |
| C155 | `modules.py`, `models.py`, `tree_utils.py`, `loss` of `applications/fem/aesthetic` | induction over the weight file with three images side by side, truncation lemma, sums of squares |
| C156 | `applications/fem/cauchy_bc/example.py` (problem set-up) with the residual of `jax_am/fem/core.py` | monotone replacement of the Cauchy map by 5 max(u,0)^2 and C86, derivative of the virtual work, one explicit triangle |
| C157 | `applications/fem/periodic_bc/example.py` with `compute_residual_lm`, `get_A_fn_and_res_aug` of `jax_am/fem/solver.py` and `periodic_boundary_conditions` of `jax_am/fem/core.py` | annihilator of a kernel is the range of the dual map, virtual work, explicit kernel vector |
| C158 | `Elasticity` of `applications/fem/buckling/cellular_solid.py` | embedding of the plane gradient in space, closed form of the stress in space (C31), linearised law (C152) |
| C159 | `Elasticity`, conditions, `J_total`, `consHandle` and first design of `applications/fem/design/curve.py` | scaling of the residual without loads, uniqueness (C103), reverse mode (C94), derivative along the uniform designs |
| C160 | design box, `flex_inds`, compliance gradient and volume constraint of `applications/fem/top_opt/freecad.py` | position of a cell in `flex_inds`, C104 for general moduli, exchange of density between two cells |
| C161 | compliance, stress, supports, body force, `flex_inds` of `applications/fem/aesthetic/bridge.py`; `flex_location` of `building.py` | energy balance with the body force, family of linear systems (C94), corner edge holds a column of cells and then the rectangle, height of Gauss points |
| C162 | supports, loads and stresses of `applications/fem/aesthetic/building.py` and `tree.py` | held cells spread to neighbours through common edges; translation and rotation as test fields |
| C163 | `linear_elasticity_cylinder` and `linear_elasticity_dogbone` of `applications/fem/fem_examples/jax_examples.py`; `applications/fem/demo/example.py`, `serendipity.py` | linearity of residual and traction, uniqueness of the equilibrium, induction over the list; positive reaction by virtual work |
| C164 | `topology_optimization` of `applications/fem/top_opt/box.py` | held by one side of the box, C160 for the densities of all cells; face selection on the grid, counting the loaded faces |

Status per property, exact theorem names, and gaps are in `MANIFEST.json`; deviations found between code and
intended behaviour are in section 5.

## 5. Findings (code violates the intended property)

Proved, with a witness or for all inputs:

* C07 `cylinder_mesh` silently re-attaches cells that use gmsh point 14 (`C07_dropped_points`).
* C12 zero cells: division by zero in `split_and_compute_cell` (`C12_empty`).
* C18 a ragged periodic candidate list raises (only for numpy ≥ 1.24; earlier versions give an object array).
* C22 the linear branch of `solver_row_elimination` has no residual check (`C22_linear_unchecked`).
* C23 `line_search` accepts half steps whose residual is NaN (`C23_nan_accepted`).
* C25 `solver_lagrange_multiplier` returns NaN silently (`C25_nan_silent`).
* C26 `get_A_fn_and_res_aug(use_petsc=True)` returns the unbound name `A_aug`; `dynamic_relax_solve` always raises.
  The dispatcher ignores `precond` and `initial_guess` for periodic problems (`C26_dispatch`).
* C31 the Neo-Hookean law in two dimensions is not stress-free at rest (`C31_plane_rest`).
* C37 `compute_filter_kd_tree` raises with fewer than 20 flexible cells (`C37_few`). The filter divides by the row
  sum of the source cell, so constants are reproduced only for equal row sums.
* C42 the mass correction is lost when no interface cell exists (`C42_mass_lost_without_interface`).
* C44 `adhoc_step` can leave a liquid cell next to a gas cell (`C44_step_breaks_separation`).
* C46 a laser leg shorter than one time step never reaches its end corner (`C46_short_leg_misses_corner`).
* C57 a local mesh larger than the global one makes every step fail (`C57_too_large`).
* C58 `get_face_vel_component(axis=2)` raises; `gradient` ignores its boundary conditions; `energy_eqn` passes the
  string `'True'`, so any Dirichlet side raises; a boundary type other than 0/1 is a shape error.
* C60 the GAMMA solver does not conserve heat when the conductivity varies (`C60_not_conservative`).
* C61 the snapshot time in `to_data_frame` counts fields instead of files; fewer than two files raise.
* C63 `modify_vtu_file` called in place erases the file (`C63_in_place`).
* C83 `compute_traction` hard-codes the normal (0,0,1): only right on faces with that normal, on z = 0 the sign is wrong, on other
  sides the wrong stress column is used (`C83_box_traction`); it fails for `dim ≠ 3` (`C83_traction_dim`).
* C92 `sparsejac` uses the values stored in the sparsity pattern although its documentation says that only the positions matter
  (`C92_values_used`); the column compression also relies on scipy keeping no explicit zeros.
* C94 `ad_wrapper` ignores periodic ties: with exact linear solves reverse mode returns a wrong gradient (`C94_ties_ignored`).
* C69 the body heat source divides by zero at `t ≥ t_OFF`, and its density does not depend on the laser power.

Seen while reading, recorded as notes (not theorems unless stated above):

* `dynamic_relax_solve` also uses an undefined `sol_shape`, calls `printInfo` with missing arguments and never updates
  the velocity.
* `implicit_jvp_helper`
  passes a preconditioner matrix with `precond=False`, so it is unused.
* `ghost_cell` accepts only the spelling "Dirchlet".
* `to_data_frame` reads `os.listdir` order unsorted; fields named time/x/y/z overwrite columns.
* `jax_array_list_to_numpy_diff` declares a wrong result shape for chunks of unequal length.
* Periodic + PETSc path passes a CSC matrix where CSR is expected; the augmented index arrays are float arrays.
* PETSc `zeroRows` needs every constrained row to have a stored diagonal entry.
* The convergence asserts after the linear solves are commented out.
* plasticity: `safe_sqrt`/`safe_divide` give a NaN reverse-mode gradient at zero stress.
* `linspace` with one sample returns only the start point; the collocated pressure correction does not make the
  face velocities exactly divergence free; the coupled example extrapolates temperature.
* MMA: the barrier loop takes 7 passes in real arithmetic, rounding may add one; an initial density outside [0,1] or a
  move limit of 0 breaks `alfa < beta`.
* `setup_logger`: a logger that already has handlers keeps propagating, so messages may appear twice.
* LBM `curvature` divides the mixed difference by `4*h` instead of `4*h**2`, and the height sums are not multiplied by `h`;
  harmless only because the code runs in lattice units (h = 1). C75 assumes h = 1.
* The recoil pressure at temperature 0 evaluates `exp(-inf)`; C79 therefore asks for positive temperatures there.
* `JxW` and the Nanson scale use the determinant without absolute value, so an inverted cell gets negative volumes and
  areas (C81 states the sign; C82 relates it to `check_mesh_TET4`).
* `face_inds` lists only corner nodes, so for quadratic elements a location function is tested only at corners.
* Fracture demo: the residual stiffness 1e-3 is added to `(1-d)**2`, so the undamaged tensile stress is 1.001 times Hooke's
  (`C97_intact`).
* Fracture demo: the reported "force on the top surface" is `sigma_zz` on the side `y = Ly` (normal `(0,0,1)` hard-coded, last
  component taken); in uniaxial tension that is 3/7 of the force (`C98_traction`, `C98_force_wrong`).
* Fracture demo: because of the early stop and the order of the two solves, damage never reacts to the load of its own step, and
  the first step leaves it at the nodal initial crack (`C98_lag`, `C98_first`).
* `applications/fem/thermal/models.py` 37-41: `Thermal.update_int_vars` reads boundary sets 0 and 1 unconditionally, so the class needs exactly two boundary functions. thin_wall.py 79/91 builds it with
  one when the laser is off: `IndexError` on the first laser-off row of any tool path (`C100_two`, `C101_raises`).
* `applications/fem/thermal/bare_plate.py` 64 passes `[neumann_top, neumann_walls]`, but the class applies the first function to all external faces and the others to upper faces: the laser heats the side
  walls and the bottom too, convection acts on the upper side only (`C100_plate`). thin_wall.py 78 has the other order.
* `models.py` 48-52: `top` accepts every horizontal face above z = 0, so undersides of overhangs get the laser flux (`C100_brick`).
* `thin_wall.py` 126-128: in a step without new cells the old problem is kept with its old `dt` (`C101_stale_dt`); if the very first step bears no cell, `problem` is unbound (`C101_raises`).
* `models.py` 103-108: `update_hash_map` inspects all changed cells but only handles activation; after a deactivation stale faces remain, under cell number 0 (`C99_not_removed`).
* `applications/fem/top_opt/fem_model.py`: the two-material law (line 93) adds `Emin` on top of the two materials: at full density the modulus is `Emin + Emax = 70070`, above `E1 = Emax` (example beside C102; harmless, 0.1 %).
* The same file, `get_von_mises_stress_fn` for `'plate'` and `'L_shape'`: displacements are computed in plane stress, the von Mises stress from the three-dimensional (plane strain) law with the out-of-plane stress set to zero. A bar pulled with stress `T` gets `1.097 T` (C106_plate). For `'eigen'` the function subtracts a 3x3 from a 2x2 array (C106_cases).
* `demos/fem/thermal_mechanical/example.py` uses location tolerances (`atol=1e-5`, lines 177-188) as large as its cells (1e-5). So "top" is two node layers: all six faces of the 1000 cells of the highest layer and the 1000 upper faces of the layer
  below, 7000 faces instead of 1000. A constant flux there brings seven times the intended heat, the laser at least three times; the bottom condition holds two node layers (C107). The near sides (bottom, left, front) hit the tolerance exactly, so
  in floating point they depend on rounding; the far sides have the additional relative tolerance and do not.
* Same demo: the stress-free temperature of solidified material is the temperature at the last mechanical update in the liquid state, not the liquidus temperature; neither melting nor solidification resets the stress; solid never melts
  again; melting between two mechanical updates (ten heat steps apart) is not seen (C109, C110).
* Same demo, line 269: the file of step `i+1` is written with `sol_T_old` before it is updated, so temperature and displacement in one file are one heat step apart (C110).
* Crystal plasticity, `models.py`: `Fp_inv_new = Fp_inv_old (I - L)` keeps the plastic volume to first order only; the determinant changes by the factor `1 - tr(L²)/2 - det L` (C113_volume; concrete case with two systems in CrystalFlow.lean).
* Crystal plasticity, `models.py` 64-69: with `r = 1` the loop over `q` changes nothing (all entries one); it raises unless the number of slip systems is a multiple of three (C113_q). The file `input_slip_sys.txt` is not in the repository.
* Crystal plasticity, `simple.py`: `simulation` takes its start from `problem.internal_vars['laplace']`, which `set_params` overwrites in each step; the second call (`jax.grad(simulation)(1.)`) therefore starts from the state after nine steps of the
  first (C115_simulation, C115_second). `calibration.py` 76 writes `alpha*params[1]` into the list of the problem itself; it calls `simulation` only once.
* Crystal plasticity, `polycrystal_am.py` and `polycrystal_neper.py` call `compute_avg_stress(sol)` and `update_int_vars_gp(sol)` without the required `params`: `TypeError` in the first step (read, not modelled).
* `lbm/experiments/dam_break.py` 286-287: for an interface cell with gas and fluid neighbours next to one without gas neighbours the exchange returns `fout_self` where `-fout_self` is meant, so both sides gain and streaming creates mass (C117_exchange, C117_created).
* `dam_break.py` 462: `rho_prev` is a copy of `mass`, so the fill level of an interface cell is 1 or 1/2, whatever its mass (C117_interface). The rest population of interface cells is never updated by the collision (line 154 starts at 1).
* `dam_break.py` 363-395: the share of the excess mass for the cell `p + v[n]` is read by `p - v[n]`; at a plane surface it is lost (C118_mass, C118_lost). `fdist` is never reset, so old shares are added again in every pass (C118_stale).
* `dam_break.py` 302-341: a full interface cell next to an empty one leaves liquid next to gas (C118_gap).
* `dam_break.py` 420-444: a gas cell that becomes interface gets `equi`, `rho` and `u` but no `fin`; the next collision computes 0/0. A run without not-a-number never wets an initial gas cell before its last pass (C119_dry, C119_script).
* `dam_break.py` 97-103 call `set_outlet` and `set_inlet`, which do not exist; never reached from the script (C119_closed).
* `applications/fem/multi_scale/rve.py`: the second attempt of `solve_rve_problem` repeats the first (C123_retry); `collect_data` never ends once a sample yields NaN (C123_never_ends); `exp` calls an undefined `aug_solve`. The ties of `rve_problem` are redundant along the edges, so the matrix given to the linear solver is always singular (C122_singular).
* `applications/fem/multi_scale/trainer.py`: `load_data` reads a directory `collect_data` does not write (C124_directories); the percent errors divide by a scaled value that is zero for the smallest training energy (C124_percent); `poly_psi` compares the volume ratio with 3 instead of 1, so that fits have energy at rest (C124_poly); `exp` calls an undefined `show_train_curve`. The network material has stress at rest in general (example in MultiScaleProps.lean).
* `applications/fem/multi_scale/deploy.py`: `compute_traction` takes the matrix moduli, right on the top face only for `ratio <= 1/2` (C125_face_moduli); `plot_results` uses an undefined name.
* `demos/fem/plasticity/example.py` 110-114: only the vertical displacement of the bottom and top faces is prescribed. Horizontal shifts and the (infinitesimal) rotation about the vertical axis leave the residual unchanged, so no load step has a unique solution and the matrix of each Newton step is singular (`C126_rigid`); the stresses are unique all the same (`C126_cycle`).
* `jax_array_list_to_numpy_diff` (`autodiff_utils.py` 143-183) assumes pieces of equal height. The commented call in `core.py` would pass it the pieces of `split_and_compute_cell`, whose last piece is higher unless the number of cells is at most 20 or a multiple of 20 (`C127_pieces`).
* `cfd/experiments/old/discretization.py` line 30: `get_surf_values` for `+x` reads `f[[1]]` instead of `f[[-1]]` (C130_surface_fails).
* `cfd/experiments/old/solver.py` lines 56-58, 68: the first convergence test of `solver_nonlinear` compares an array of ones with the initial guess, so a long guess is returned unchanged (C130_large_guess).
* demos/fem/hyperelasticity/example.py 63-70: the left face is given half of the displacement of a rotation by 60 degrees. That is not a rotation by 30 degrees but one with a contraction of the face by cos 30 degrees (`C131_twist`).
* applications/fem/buckling/beam3d.py 77 calls `dynamic_relax_solve`, which raises for every problem (`C26_dynamic_relax`); `C131_beam` therefore speaks about exact solutions, not about output of the script.
* `dynamic_relax_solve` (solver.py 713-831), besides its unbound names (C26): `printInfo` is called without two required arguments, so the first pass of the loop raises TypeError, and the statement updating the velocity is commented out, so the iterates would move on a straight line for ever (C134_package, C134_straight, C134_overshoot). The FEniCS original `dr.py` has the update; it converges on linear problems unless the velocity becomes exactly zero (C134_converges, C134_stall), and with a tolerance of 1 or more it returns its start unchecked because `error` starts at 1.0 (C134_loose).
* applications/fem/forming: `be_bar_trial` uses `f` instead of the volume-preserving `f_bar` (the author notes it in single.py:69). Proved: a pure change of volume scales the shear stress by the square of the stretch and can start
  plastic flow (`C135_dilate`, `C135_spurious`), the elastic law has no stored energy (`C135_noEnergy`); with `f_bar` dilations do nothing (`C135_repaired`).
* applications/fem/forming/single.py prescribes vertical displacements only: solutions come in families (`C135_single`). example_disp.py prescribes `0` and `-scale·1e-9` for the same unknown on the upper edge (`C135_conflict`).
  example_force.py and single.py import `DynamicRelaxSolve` from `jax_am.fem.solver`, where the name is `dynamic_relax_solve`; the import fails.
* `applications/fem/top_opt/L_shape.py` 93-128: `computeGlobalStressConstraint` overwrites the stored correction factor and then `jax.jacrev` evaluates the function a second time with the new factor, so the second row of the constraint gradient is the derivative times `(r + cp)/(2 cp)` with `r` the current ratio of largest stress to p-norm and `cp` the factor of the first evaluation; it is right only if the two agree (`C136_gradient`, `C136_first`). Designs with a cell above the allowed stress, up to the factor `n^(1/12)`, can satisfy the constraint (`C136_accept`, `C136_overstress`).
* `applications/fem/top_opt/mma.py` 421-493: `change` is never assigned in the loop, so `relTol` never ends the optimisation: the number of passes follows from the iteration limits alone (`C136_passes`).
* `applications/fem/top_opt/plasticity.py` 146-148: the author's remark that stale Neumann value functions in the backward pass do not affect the result is right (`C136_stale`, `C136_plastic`). But `inspect` (104-108) shows the stresses of the last but one load step beside the solution of the last (`C136_inspect`).
* `applications/cfd/gamma/example.py` 92-93 normalises the first component of the direction and then divides the second one by a norm containing the new first one, so oblique movements get a wrong direction (C137_unit, C137_short). The tool path in the repository only moves along the axes, where the result is right, so the error is latent.
* `applications/cfd/gamma/example.py` 39 subtracts `dx/2` where `dy/2` is meant (C137_window: shift `(dy-dx)/2`; harmless for the equal spacings used there). The array `melt_3d` of line 116 is computed but never saved.
* `calibration.py` 76-77, 86: `simulation` is not a function of `alpha`: it scales the slip resistance in place in the problem's own list, and `set_params` replaces that list in each step. A second call starts from the scaled state before the last step of the first; after a failed step the state before that step is left (`C138_state`, `C138_second`, and the example with 69 and 78). The finite difference quoted in lines 104-107 is right only when each value is computed in a fresh process.
* `calibration.py` 81-84: in the backward pass the Dirichlet values and `dt` are those of the last step; harmless because only values change and all `dt` are equal (`C138_calibration`). With unequal time steps the tensor map of the backward pass would be that of another `dt`.
* `applications/fem/full_field_infer/poisson.py`: the source is not determined by the data, even if all nodes were observed (C139_silent), and the regularisation is commented out; `derivative_wrapper(x)` ignores `x` and returns the gradient of the last objective call (C139_cached).
* `applications/phase_field/multi_scan/example.py`: `power` (the column `switch` of the path) is not used in `get_T_laser`, so the laser cannot be switched off between tracks (C141_switch); `linspace` spreads the samples of a segment over its whole length though the last sample comes before its end, so the laser runs ahead of its nominal position by up to `vel*dt` (C141_positions).
* `applications/phase_field/coupled/example.py`: the condition `t_pf > t_cfd + dt` advances the flow solver one step too late, so the temperature is extrapolated from the two last flow fields instead of interpolated; it can be negative although all flow temperatures are at least 300 (C142_extrapolates, C142_negative). `t_pf > t_cfd` repairs it (C142_repaired).
* `applications/lbm/pbf/example.py`: the rejection loop of `generate_powder` has no bound (C143_endless); a radius can be negative, such a circle carries no particle and is accepted inside another particle (C143_negative).
* `cfd_am.py` `velocity_eqn.update`: the pressure is computed with the compact two-point Laplacian, but the cell velocities are
  corrected with central differences and interpolated to the faces again. The velocity returned is therefore not divergence free: what
  remains is the outflow of `-dt/rho` times quarter third differences of the pressure (`C145_correction`), half of the divergence on two
  cells (`C145_half`), and the convective term of a uniform temperature is not zero (`C145_divergence_remains`).
* `Plasticity` under loads above the limit load: no displacement solves the step, and `solver` has no iteration limit, so that it can never return (C146: exact for the bar of the demo pulled by a traction; the demo itself prescribes displacements, for which every step has a solution).
* C148 the convergence study is modelled with HEX8 cells on the structured box (numbering is irrelevant by C147); the program itself asks gmsh for TET4 and TET10 meshes. The error bounds need cubes (on flat cells the matrix of the trilinear element has positive entries off the diagonal and the maximum principle is lost); nodal exactness of cubic sums needs no cubes.
* `allen_cahn.py` 34 gives a zero edge vector the angle 0, whatever the crystal orientation. With `anisotropy > 0` (solidification/pf_params.yaml: 0.15) the right-hand side is therefore a discontinuous function of the order parameters (C149_jump), and existence of a solution and convergence of the steps are proved only for `anisotropy <= 0`.
* `applications/fem/aesthetic/style_loss.py` 141-165 returns a value and a "gradient" that is not its gradient: the image gradient is averaged (not summed) over the three equal channels and interpolated back, instead of applying the transpose of the forward interpolation. On equal grids it is a third of the gradient (`C154_third`); at the sizes of the files there are losses for which it has the wrong sign (`C154_direction`, `C154_files`). The forward interpolation extrapolates, so densities in [0, 1] give pixels up to about 1.3 (`C154_overshoot`).
* `style_loss.py` 37-38 reads the same file as content and as style image, so the total loss has its minimum zero at this image (`C155_minimum`). `calculate_losses` raises as soon as one kind of loss layer is absent, although the loss itself is defined (`C155_split`).
* Read from the source, not modelled: `arguments.py` 5 calls `parse_args` before any argument is declared, so every command-line flag is rejected; `to.py` 136 calls `style_transfer` without its required arguments (TypeError).
* `applications/fem/cauchy_bc/example.py`: the Cauchy map `5*u**2` decreases for negative values, so the problem has further solutions that are negative on the sides (C156_two gives one on a single triangle); the solution with nonnegative edge means is unique (C156_unique), and the tangent is definite there (C156_tangent). The Newton loop does not check the sign.
* `applications/fem/periodic_bc/example.py`: calls `solver` with periodic conditions and `use_petsc=True`, which raises for every input (C26_petsc_periodic). The tie between the corners (0, 0) and (1, 0), and likewise at the top, repeats the Dirichlet conditions there, so the augmented matrix is singular for every tangent (C157_singular); the field is still unique (C157_unique).
* `applications/fem/buckling/cellular_solid.py` 86 calls `dynamic_relax_solve`, which raises for every problem (`C26_dynamic_relax`); the law itself is sound (C158) and corrects the plane use of `HyperElasticity`, whose reference configuration carries stress (C31_plane_rest).
* `applications/fem/design/curve.py`: the body is driven by prescribed displacements only, so that the displacements depend on the ratios of the moduli and not on their size; all uniform designs have the same objective and the first gradient of the optimiser sums to zero (C159_uniform, C159_gradient). The volume constraint with `vf = 1` never binds inside the unit cube of densities (C159_constraint). This is a property of the problem posed, not a defect of the solver.
* `applications/fem/top_opt/freecad.py` 145-161: the volume fraction is a ratio of volumes (`np.sum(problem.JxW[flex_inds])`), but the constraint bounds the mean over cells. On a mesh with design cells of different volume there are admissible designs with more material than the human design they are compared with (`C160_volume`).
* `applications/fem/aesthetic/building.py` 117-122 describes a solid frame by four flags and returns `flag1 & flag2 & flag3 & flag4 | True`; the frame does not exist, every cell is a design cell (C161_building).
* `applications/fem/aesthetic/tree.py` 89-93 fixes the nodes of the lower side between 0.45 Lx and 0.55 Lx without a check that there are two of them: with 1, 3, 5, 7 or 9 cells over the width there is none and the problem has no solution, with an even number below 20 there is one and the tree can turn about it (C162_unheld, C162_pivot). The default of 200 cells is fine.
* `applications/fem/fem_examples/jax_examples.py` 161, 185, 189 use the name `plasticity_path`, which is defined nowhere in the file: `plasticity()`, and with it `generate_fem_examples`, stops with a `NameError` (found by reading; not modelled). Line 205 joins `data_dir` with the absolute path `/txt/...`, which discards `data_dir`. `linear_elasticity_cylinder` fails on an empty list of displacements (C163_line).
* `numba_assembly.py` imports `jax_am.fem.jax_fem`, which does not exist, and calls methods by old names; C93 models its loops.

## 6. Functions of `jax_am` and where they are modelled

Generated from the line references in the comments. A function counts as modelled if a definition or theorem cites its lines; the module named holds the model. Everything after *not modelled* has no counterpart in Lean.

* `cfd/cfd_am.py`: `ghost_cell`, `get_GC_values`, `laplace`, `div`, `get_face_vels`, `get_face_vel_component` → Cfd/Ops; `gradient` → Cfd/Ops, Cfd/Project; `AM_3d.time_integration`, `AM_3d.get_body_heat_source`, `AM_3d.get_moving_box_boundary`, `AM_3d.eqn_T_init`, `AM_3d.eqn_V_init`, `AM_3d.toolpath`, `AM_3d.get_vel_bc_fn`, `AM_3d.get_energy_bc_fn`, `AM_3d.fluid_frac`, `energy_eqn.update`, `velocity_eqn.update_BCs` → Cfd/Am3d; `AM_3d.update_convective_terms` → Cfd/Project; `poisson.__init__`, `poisson.linear_laplace_kernel`, `poisson.nonlinear_laplace_kernel`, `poisson.laplace`, `poisson.source`, `poisson.apply_BC_to_residual`, `poisson.compute_residual_kernel`, `poisson.compute_residual`, `poisson.apply_BC_to_matrix`, `poisson.newton_update`, `poisson.compute_linearized_residual`, `poisson.jacobiPreconditioner`, `poisson.set_bc`, `energy_eqn.__init__`, `energy_eqn.update_BCs`, `solver_linear`, `solver_nonlinear` → Cfd/Poisson; `velocity_eqn.__init__` → Cfd/Am3d, Cfd/Poisson, Cfd/Project; `velocity_eqn.update` → Cfd/Am3d, Cfd/Project; `uniform_mesh.__init__`, `mesh2d.generate_mesh`, `mesh2d.get_neighbor`, `mesh2d.get_surface`, `mesh3d.get_neighbor` → Cfd/MeshModel; `mesh3d.generate_mesh`, `mesh3d.get_surface` → Cfd/MeshModel, Cfd/Poisson; *not modelled*: `AM_3d.__init__` (constructor storing its arguments); `AM_3d.default_args` (parameter table; the parameters are arbitrary in the model); `AM_3d.clean_sols` (removes or writes files); `AM_3d.inspect_sol` (plotting); `AM_3d.write_sols` (writes files)
* `cfd/experiments/old/discretization.py`: `ghost_cell`, `get_GC_values`, `laplace`, `get_face_vels` → Cfd/Ops (same text); `get_surf_values`, `surf_value`, `cell_to_face`, `div`, `gradient` → Cfd/Old
* `cfd/experiments/old/discretization2D.py`: `BC_surf`, `get_bound_values`, `diffusion`, `convection`, `get_face_values`, `gradient` → Cfd/Old
* `cfd/experiments/old/plot.py`: *not modelled*: `plot_lcd_contour`, `plot_lcd_compare` (plotting)
* `cfd/experiments/old/setupAM.py`: `generate_mesh` → Cfd/Old
* `cfd/experiments/old/solver.py`: `get_A_fn_linear_fn`, `solver_linear`, `solver_linear_cg`, `solver_nonlinear` → Cfd/Old
* `cfd/gamma.py`: `update_mat`, `BC_thermal`, `laplace`, `update_T` → Cfd/Gamma
* `common.py`: `box_mesh` → Mesh/Model; `rectangle_mesh` → Fem/TopOptMesh, Mesh/Model; `to_data_frame` → Misc/Frames; *not modelled*: `json_parse`, `yaml_parse` (file parsing); `make_video` (calls ffmpeg); `make_scatter` (plotting); `timeit`, `walltime` (timing)
* `fem/autodiff_utils.py`: `ad_wrapper_jvp` → Fem/AdWrapper; `implicit_jvp_helper` → Fem/Implicit; `jax_array_list_to_numpy_diff`, `jax_array_list_to_numpy_diff_jvp` → Fem/StackDiff
* `fem/basis.py`: `get_elements` → Fem/Basis, Fem/ModesQuadratic; `reorder_inds` → Fem/Basis; `get_shape_vals_and_grads` → Fem/Basis, Fem/ModesQuadratic, Fem/Tables; `get_face_shape_vals_and_grads` → Fem/Basis, Fem/Tables
* `fem/core.py`: `FEM.__post_init__` → Fem/Core, Fem/Moments, Fem/Tables; `FEM.custom_init` → (hook, empty in the base class); `FEM.get_shape_grads`, `FEM.get_face_shape_grads`, `FEM.get_physical_quad_points`, `FEM.get_physical_surface_quad_points`, `FEM.get_boundary_conditions_inds`, `FEM.compute_body_force_by_fn`, `FEM.compute_body_force_by_sol`, `FEM.get_mass_kernel`, `FEM.get_cauchy_kernel`, `FEM.compute_face`, `FEM.convert_neumann_from_dof`, `FEM.sol_to_grad`, `FEM.compute_newton_vars` → Fem/Core; `FEM.Dirichlet_boundary_conditions`, `FEM.periodic_boundary_conditions`, `FEM.compute_Neumann_boundary_inds` → Fem/Boundary; `FEM.update_Dirichlet_boundary_conditions` → Fem/ForceCurve; `FEM.compute_Neumann_integral_vars` → Fem/Core, Fem/LimitBox, Fem/Thermal; `FEM.get_laplace_kernel` → Fem/Core, Fem/DesignCurve; `FEM.unpack_kernels_vars` → Fem/Assembly (arguments of the maps); `FEM.split_and_compute_cell` → Fem/Core, Fem/StackDiff; `FEM.convert_from_dof_to_quad` → Fem/Core, Fem/FractureLoop, Fem/ThermoMech; `FEM.compute_residual_vars_helper` → Fem/Core, Fem/Moved; `FEM.compute_residual_vars` → Fem/Core, Fem/Moved, Fem/Thermal; `FEM.compute_residual`, `FEM.newton_update` → Fem/Tangent; `FEM.set_params` → Fem/Implicit (arbitrary); *not modelled*: `FEM.print_BC_info` (printing)
* `fem/experiments/adjoint_save_to_local.py`: *not modelled*: `raw_f`, `f`, `f_fwd`, `f_bwd` (demonstration script)
* `fem/experiments/memory.py`: *not modelled*: `func1`, `func2` (memory measurement)
* `fem/experiments/numba_assembly.py`: `stress`, `to_dof_ind`, `construct_phi_grad`, `assemble`, `NumbdaLaplace.compute_residual` → Fem/NumbaAssembly; `NumbdaLaplace.compute_body_force`, `NumbdaLaplace.compute_Neumann_integral` → loads taken from core.py; *not modelled*: `NumbdaLaplace.__init__`, `NumbaLinearElasticity.__init__` (constructor storing its arguments); `linear_elasticity_problem` (driver)
* `fem/experiments/sparse.py`: *not modelled*: `exp1`, `exp2`, `exp3` (timing of sparse formats)
* `fem/experiments/sparsejac.py`: `jacrev`, `jacfwd`, `_output_connectivity_from_sparsity`, `_input_connectivity_from_sparsity`, `_greedy_color`, `_expand_jacrev_jac`, `_expand_jacfwd_jac` → Fem/SparseJac
* `fem/experiments/when_to_jit.py`: *not modelled*: `f`, `f1`, `f2`, `g`, `f3` (timing)
* `fem/generate_mesh.py`: `Mesh.__init__`, `box_mesh` → Mesh/Model; `Mesh.count_selected_faces` → Fem/Core; `check_mesh_TET4`, `get_meshio_cell_type` → Fem/PropsSimplex; `cylinder_mesh` → Mesh/Transfer
* `fem/mma.py`: `compute_filter_kd_tree`, `applySensitivityFilter`, `MMA.registerMMAIter`, `MMA.setNumConstraints`, `MMA.setNumDesignVariables`, `MMA.setMinandMaxBoundsForDesignVariables`, `MMA.setObjectiveWithGradient`, `MMA.setConstraintWithGradient`, `MMA.setScalingParams`, `MMA.setMoveLimit`, `MMA.mmasub`, `subsolv` → Fem/Mma; `optimize` → Fem/Mma, Fem/TopLoop; *not modelled*: `MMA.__init__` (constructor storing its arguments); `MMA.resetMMACounter`, `MMA.setLowerAndUpperAsymptotes`, `MMA.getOptimalValues`, `MMA.getLagrangeMultipliers`, `MMA.getSlackValue`, `MMA.getAsymptoteValues` (accessor)
* `fem/models.py`: `LinearPoisson.get_tensor_map` → Fem/Models; `LinearPoisson.compute_l2_norm_error` → Fem/ConvErrors, Fem/Models, Fem/Thermal; `LinearPoisson.compute_h1_norm_error` → Fem/ConvErrors, Fem/Crystal, Fem/Models; `Mechanics.surface_integral` → Aesthetic/Style, Fem/Crystal, Fem/CrystalFlow; `Mechanics.compute_traction` → Aesthetic/Style, Fem/ActiveBox, Fem/ActiveMesh; `Mechanics.compute_surface_area`, `LinearElasticity.get_tensor_map` → Aesthetic/Style, Fem/ActiveMesh, Fem/Crystal; `HyperElasticity.get_tensor_map` → Aesthetic/Style, Fem/ActiveMesh, Fem/CrystalFlow; `Plasticity.custom_init` → Aesthetic/Style, Fem/CrystalFlow, Fem/Models; `Plasticity.get_tensor_map` → Aesthetic/Style, Fem/CrystalFlow, Fem/RadialReturn; `Plasticity.get_maps` → Aesthetic/Style, Fem/CrystalFlow, Fem/LimitBox; `Plasticity.stress_strain_fns` → Fem/CrystalFlow, Fem/RadialReturn; `Plasticity.update_stress_strain` → Fem/CrystalFlow, Fem/Models, Fem/RadialReturn; `Plasticity.compute_avg_stress` → Fem/CrystalFlow, Fem/Models
* `fem/solver.py`: `petsc_solve` → Fem/Solver (oracle `lin`); `jax_solve` → Fem/NewtonLocal; `apply_bc_vec`, `row_elimination`, `assign_bc`, `assign_ones_bc`, `assign_zeros_bc`, `copy_bc`, `jacobi_preconditioner`, `linear_guess_solve`, `linear_incremental_solver`, `line_search`, `get_A_fn`, `solver_row_elimination` → Fem/Solver; `apply_bc`, `get_flatten_fn`, `get_A_fn_linear_fn`, `get_A_fn_linear_fn_JFNK`, `operator_to_matrix`, `get_jacobi_precond`, `test_jacobi_precond`, `assembleCSR` → Fem/Operators; `aug_dof_w_zero_bc`, `aug_dof_w_bc`, `linear_guess_solve_lm`, `linear_incremental_solver_lm`, `compute_residual_lm`, `get_A_fn_and_res_aug`, `solver` → Fem/Lagrange; `solver_lagrange_multiplier` → Fem/Lagrange, Fem/PeriodicExample; `calC` → Fem/DynRelax, Fem/DynRelaxCases, Fem/Lagrange; `dynamic_relax_solve` → Fem/DynRelaxCases, Fem/Lagrange; `implicit_vjp` → Fem/Implicit; `ad_wrapper` → Fem/AdWrapper, Fem/TopOptGrad; *not modelled*: `printInfo` (printing)
* `fem/tests/fenicsx_gold.py`: *not modelled*: `linear_poisson`, `nonlinear_poisson`, `linear_elasticity_cube`, `linear_elasticity_cylinder`, `hyperelasticity`, `plasticity`, `generate_ground_truth_results_for_tests` (reference results by another program)
* `fem/tests/hyperelasticity/test.py`: *not modelled*: `Test.test_solve_problem` (test driver)
* `fem/tests/linear_elasticity_cube/test.py`: *not modelled*: `Test.test_solve_problem` (test driver)
* `fem/tests/linear_elasticity_cylinder/test.py`: *not modelled*: `Test.test_solve_problem` (test driver)
* `fem/tests/linear_poisson/test.py`: *not modelled*: `Test.test_solve_problem` (test driver)
* `fem/tests/plasticity/test.py`: *not modelled*: `Test.test_solve_problem` (test driver)
* `fem/utils.py`: `save_sol` → Fem/MultiScale; `modify_vtu_file` → Misc/Text; *not modelled*: `read_abaqus_and_write_vtk` (file conversion by meshio)
* `lbm/core.py`: `simulation` → Lbm/Forces, Lbm/Mirror, Lbm/Model
* `lbm/experiments/cylinder.py`: `main` → Lbm/Cylinder
* `lbm/experiments/dam_break.py`: `init`, `lbm_collision`, `lbm_streaming`, `update_rho_u`, `set_equi`, `collide`, `get_epsilon`, `get_normal`, `interface_mass_exchange`, `average_surround`, `evolve` → Lbm/Dam; `update_types` → Lbm/Dam, Lbm/DamMass; *not modelled*: `class_to_namedtuple` (turns the flag class into a tuple; flags are a type in the model); `animate` (plotting)
* `lbm/experiments/debug.py`: *not modelled*: `to_id_xyz`, `extract_3x3x3_grid`, `extract_7x3x3_grid`, `memory_test0`, `memory_test1`, `memory_test2`, `memory_test4` (memory measurement)
* `lbm/utils.py`: `compute_cell_centroid`, `to_id`, `to_id_xyz`, `shape_wrapper` → Mesh/Model; *not modelled*: `clean_sols` (removes or writes files)
* `logger_setup.py`: `setup_logger` → Misc/Logger
* `phase_field/allen_cahn.py`: `phase_field` → PhaseField/AllenCahn, PhaseField/GrainEnergy, PhaseField/GrainJump; `rk4`, `explicit_euler`, `get_force_eta_fn`, `PFSolver.stepper`, `PFSolver.ini_cond` → PhaseField/AllenCahn; `PFSolver.inspect_sol`, `PFSolver.write_sols` → PhaseField/Output; *not modelled*: `PFSolver.__init__` (constructor storing its arguments); `PFSolver.clean_sols` (removes or writes files)
* `phase_field/neper.py`: *not modelled*: `pre_processing` (calls neper)
* `phase_field/utils.py`: `Field.__init__` → PhaseField/AllenCahn; `Field.process_neper_mesh`, `Field.get_unique_ori_colors` → PhaseField/Neper; `generate_new_mesh` → Mesh/Transfer; `process_eta`, `compute_aspect_ratios_and_vols` → PhaseField/Output; `compute_edges_in_order`, `BFS` → PhaseField/Graph; `get_aspect_ratio_inputs` → PhaseField/Graph, PhaseField/Output
* `phase_field/yaml_parser.py`: *not modelled*: `pf_parse` (file parsing)

228 functions modelled, 66 not.

Outside the package `jax_am`: modelled are demos/fem/{phase_field_fracture (C96-C98), thermal_mechanical (C107-C110, C153), topology_optimization (C102-C105), plasticity (C126, C146), inverse (C128), poisson (C129), linear_elasticity and hyperelasticity (C131)}, and of applications/fem: multi_scale (C120-C125), buckling/beam3d.py (C131), dr.py (C134) and cellular_solid.py (C158), forming (C135), top_opt/eigen.py (C133), top_opt/{L_shape, mma, multi_material, plasticity}.py (C136), top_opt/freecad.py (C160), top_opt/box.py (C164), crystal_plasticity/models.py, calibration.py and simple.py (C112-C115, C138), full_field_infer/poisson.py (C139), convergence_rate (C148), aesthetic (C154, C155, C161, C162), cauchy_bc (C156), periodic_bc (C157), design/curve.py (C159), thermal (C99-C101), and of fem_examples/jax_examples.py the elastic cylinder and dogbone (C163), demo/example.py and demo/serendipity.py (C163); furthermore applications/cfd/gamma/example.py (C137), applications/phase_field/{simple, multi_scan, solidification, coupled} (C140-C142, C149, C150) and applications/lbm (C143, C144). Each property names the lines it covers; other lines of these scripts are not covered. Not modelled: the remaining scripts of /repo/demos and /repo/applications, among them applications/cfd/ambench and simple, crystal_plasticity/polycrystal_*.py, fem/experiments, and the scripts written for FEniCS. Many of them only call modelled functions with particular geometries, plot, or depend on external data, but some contain logic of their own.
