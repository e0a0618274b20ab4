{
 "claims": [
  {
   "property": "C01",
   "status": "proved",
   "theorems": [
    "Verif.Mesh.C01_box_mesh",
    "Verif.Mesh.C01_points_distinct"
   ],
   "note": "numpy structured mesh of phase_field/utils.py and cfd; gmsh-based generators are external and not modelled"
  },
  {
   "property": "C02",
   "status": "proved",
   "theorems": [
    "Verif.Mesh.C02_rectangle_mesh"
   ],
   "note": ""
  },
  {
   "property": "C03",
   "status": "proved",
   "theorems": [
    "Verif.Mesh.C03_numbering_bijection",
    "Verif.Mesh.C03_shape_wrapper",
    "Verif.Mesh.C03_centroid"
   ],
   "note": ""
  },
  {
   "property": "C04",
   "status": "proved",
   "theorems": [
    "Verif.PhaseField.C04_neighbours",
    "Verif.PhaseField.C04_well_formed"
   ],
   "note": "all grid sizes; neighbour relation given by coordinates differing by one in one direction"
  },
  {
   "property": "C05",
   "status": "proved",
   "theorems": [
    "Verif.Cfd.C05_conn3",
    "Verif.Cfd.C05_conn3_symmetric",
    "Verif.Cfd.C05_surf3",
    "Verif.Cfd.C05_surf3_total",
    "Verif.Cfd.C05_geometry3",
    "Verif.Cfd.C05_face_centres3",
    "Verif.Cfd.C05_conn2",
    "Verif.Cfd.C05_surf2",
    "Verif.Cfd.C05_surf2_total",
    "Verif.Cfd.C05_geometry2"
   ],
   "note": "mesh3d and mesh2d for all positive grid sizes"
  },
  {
   "property": "C06",
   "status": "proved",
   "theorems": [
    "Verif.Mesh.C06_convert_temperature"
   ],
   "note": ""
  },
  {
   "property": "C07",
   "status": "proved",
   "theorems": [
    "Verif.Mesh.C07_renumber",
    "Verif.Mesh.C07_dropped_points"
   ],
   "note": "renumbering is correct exactly when no cell refers to points 0 and 14 of the gmsh output; C07_dropped_points shows what happens otherwise"
  },
  {
   "property": "C08",
   "status": "proved",
   "theorems": [
    "Verif.Mesh.C08_layers",
    "Verif.Mesh.C08_references"
   ],
   "note": "any number of layers, by induction"
  },
  {
   "property": "C09",
   "status": "proved",
   "theorems": [
    "Verif.Fem.C09_tables",
    "Verif.Fem.C09_supported",
    "Verif.Fem.C09_reorder",
    "Verif.Fem.C09_faces",
    "Verif.Fem.C09_nodal",
    "Verif.Fem.C09_partition",
    "Verif.Fem.C09_linear",
    "Verif.Fem.C09_gradients"
   ],
   "note": ""
  },
  {
   "property": "C10",
   "status": "proved",
   "theorems": [
    "Verif.Fem.C10_gradient",
    "Verif.Fem.C10_values",
    "Verif.Fem.C10_surface_values",
    "Verif.Fem.C10_elements"
   ],
   "note": ""
  },
  {
   "property": "C100",
   "status": "proved",
   "theorems": [
    "Verif.Fem.C100_two",
    "Verif.Fem.C100_energy",
    "Verif.Fem.C100_stable",
    "Verif.Fem.C100_unique",
    "Verif.Fem.C100_equilibrium",
    "Verif.Fem.C100_sets",
    "Verif.Fem.C100_brick",
    "Verif.Fem.C100_plate",
    "Verif.Fem.C100_returns",
    "Verif.Fem.C100_box"
   ],
   "note": "existence of a solution of the linear system is C87/C88; fluxes are explicit (old temperature) as in the code; last clauses are findings"
  },
  {
   "property": "C101",
   "status": "proved",
   "theorems": [
    "Verif.Fem.C101_calls",
    "Verif.Fem.C101_stale_dt",
    "Verif.Fem.C101_raises",
    "Verif.Fem.C101_field"
   ],
   "note": "the solver is an arbitrary function; mesh and tool path files are inputs; which cells the laser reaches is an arbitrary function of the step"
  },
  {
   "property": "C102",
   "status": "proved",
   "theorems": [
    "Verif.Fem.C102_plane",
    "Verif.Fem.C102_iso",
    "Verif.Fem.C102_materials",
    "Verif.Fem.C102_params"
   ],
   "note": "float powers with integer exponents are natural powers; last clause is a finding (example beside the theorem)"
  },
  {
   "property": "C103",
   "status": "proved",
   "theorems": [
    "Verif.Fem.C103_compliance",
    "Verif.Fem.C103_energy",
    "Verif.Fem.C103_monotone",
    "Verif.Fem.C103_determined"
   ],
   "note": "quadrature sums, not continuous integrals"
  },
  {
   "property": "C104",
   "status": "proved",
   "theorems": [
    "Verif.Fem.C104_gradient",
    "Verif.Fem.C104_simp",
    "Verif.Fem.C104_full",
    "Verif.Fem.C104_constraint"
   ],
   "note": "linear solves exact; the MMA update itself is C33-C36, C72-C74"
  },
  {
   "property": "C105",
   "status": "proved",
   "theorems": [
    "Verif.Fem.C105_loaded",
    "Verif.Fem.C105_clamped",
    "Verif.Fem.C105_load",
    "Verif.Fem.C105_program",
    "Verif.Fem.C105_example",
    "Verif.Fem.C88_rigid_quad4"
   ],
   "note": "np.isclose with its default rtol=1e-5"
  },
  {
   "property": "C106",
   "status": "proved",
   "theorems": [
    "Verif.Fem.C106_formula",
    "Verif.Fem.C106_average",
    "Verif.Fem.C106_plate",
    "Verif.Fem.C106_cases"
   ],
   "note": "theta**0.5 is the real square root; last clauses are findings"
  },
  {
   "property": "C107",
   "status": "proved",
   "theorems": [
    "Verif.Fem.C107_nodes",
    "Verif.Fem.C107_top",
    "Verif.Fem.C107_walls",
    "Verif.Fem.C107_heat",
    "Verif.Fem.C107_flux",
    "Verif.Fem.C107_demo"
   ],
   "note": "exact arithmetic: node coordinates are exact multiples of the cell size; findings"
  },
  {
   "property": "C108",
   "status": "proved",
   "theorems": [
    "Verif.Fem.C108_returns",
    "Verif.Fem.C108_energy",
    "Verif.Fem.C108_stable",
    "Verif.Fem.C108_determined",
    "Verif.Fem.C108_newton",
    "Verif.Fem.C108_solve",
    "Verif.Fem.C108_loss",
    "Verif.Fem.C108_laser",
    "Verif.Fem.C108_demo",
    "Verif.Fem.C108_ambient"
   ],
   "note": "linear solves exact"
  },
  {
   "property": "C109",
   "status": "proved",
   "theorems": [
    "Verif.Fem.C109_response",
    "Verif.Fem.C109_thermal",
    "Verif.Fem.C109_phase",
    "Verif.Fem.C109_monotone",
    "Verif.Fem.C109_strain",
    "Verif.Fem.C109_history",
    "Verif.Fem.C109_pressure",
    "Verif.Fem.C109_stress"
   ],
   "note": "gradient of safe_sqrt at zero is not part of the statement"
  },
  {
   "property": "C11",
   "status": "proved",
   "theorems": [
    "Verif.Fem.C11_box_volumes",
    "Verif.Fem.C11_rectangle_areas"
   ],
   "note": ""
  },
  {
   "property": "C110",
   "status": "proved",
   "theorems": [
    "Verif.Fem.C110_times",
    "Verif.Fem.C110_loop",
    "Verif.Fem.C110_state",
    "Verif.Fem.C110_raises",
    "Verif.Fem.C110_program"
   ],
   "note": "np.arange in exact arithmetic; that the mechanical Newton loop converges is not claimed; cell data of the files not modelled"
  },
  {
   "property": "C111",
   "status": "proved",
   "theorems": [
    "Verif.Fem.C111_response",
    "Verif.Fem.C111_stress",
    "Verif.Fem.C111_flow"
   ],
   "note": "uniqueness of the stress, not of the displacement"
  },
  {
   "property": "C112",
   "status": "proved",
   "theorems": [
    "Verif.Fem.C112_rotation",
    "Verif.Fem.C112_rotate",
    "Verif.Fem.C112_elastic"
   ],
   "note": ""
  },
  {
   "property": "C113",
   "status": "proved",
   "theorems": [
    "Verif.Fem.C113_slip",
    "Verif.Fem.C113_q",
    "Verif.Fem.C113_hardening",
    "Verif.Fem.C113_schmid",
    "Verif.Fem.C113_volume"
   ],
   "note": "slip systems are a parameter, the file is not in the repository; finding"
  },
  {
   "property": "C114",
   "status": "proved",
   "theorems": [
    "Verif.Fem.C114_step",
    "Verif.Fem.C114_solver",
    "Verif.Fem.C114_law",
    "Verif.Fem.C114_cauchy",
    "Verif.Fem.C114_frame",
    "Verif.Fem.C114_covariance",
    "Verif.Fem.C114_natural",
    "Verif.Fem.C114_jvp"
   ],
   "note": "that the local loop terminates is not claimed; existence of the differentiable branch is a hypothesis of the derivative rule"
  },
  {
   "property": "C115",
   "status": "proved",
   "theorems": [
    "Verif.Fem.C115_history",
    "Verif.Fem.C115_orient",
    "Verif.Fem.C115_average",
    "Verif.Fem.C115_simulation",
    "Verif.Fem.C115_second"
   ],
   "note": "the displacement fields are arbitrary: the outer solver is covered elsewhere (C17); finding"
  },
  {
   "property": "C116",
   "status": "proved",
   "theorems": [
    "Verif.Lbm.Dam.C116_lattice",
    "Verif.Lbm.Dam.C116_equilibrium",
    "Verif.Lbm.Dam.C116_velocity",
    "Verif.Lbm.Dam.C116_collision"
   ],
   "note": ""
  },
  {
   "property": "C117",
   "status": "proved",
   "theorems": [
    "Verif.Lbm.Dam.C117_exchange",
    "Verif.Lbm.Dam.C117_mass",
    "Verif.Lbm.Dam.C117_fluid",
    "Verif.Lbm.Dam.C117_interface",
    "Verif.Lbm.Dam.C117_created"
   ],
   "note": "finding"
  },
  {
   "property": "C118",
   "status": "proved",
   "theorems": [
    "Verif.Lbm.Dam.C118_kinds",
    "Verif.Lbm.Dam.C118_flags",
    "Verif.Lbm.Dam.C118_shares",
    "Verif.Lbm.Dam.C118_mass",
    "Verif.Lbm.Dam.C118_stale",
    "Verif.Lbm.Dam.C118_lost",
    "Verif.Lbm.Dam.C118_gap"
   ],
   "note": "finding"
  },
  {
   "property": "C119",
   "status": "proved",
   "theorems": [
    "Verif.Lbm.Dam.C119_closed",
    "Verif.Lbm.Dam.C119_nan",
    "Verif.Lbm.Dam.C119_dry",
    "Verif.Lbm.Dam.C119_start",
    "Verif.Lbm.Dam.C119_script"
   ],
   "note": "finding; not-a-number ends the run in the model, the code goes on with it"
  },
  {
   "property": "C12",
   "status": "proved",
   "theorems": [
    "Verif.Fem.C12_values",
    "Verif.Fem.C12_jacobians",
    "Verif.Fem.C12_empty"
   ],
   "note": ""
  },
  {
   "property": "C120",
   "status": "proved",
   "theorems": [
    "Verif.Fem.C120_gradient",
    "Verif.Fem.C120_two_views",
    "Verif.Fem.C120_network",
    "Verif.Fem.C120_flat",
    "Verif.Fem.C120_modes"
   ],
   "note": ""
  },
  {
   "property": "C121",
   "status": "proved",
   "theorems": [
    "Verif.Fem.C121_mean_gradient",
    "Verif.Fem.C121_average",
    "Verif.Fem.C121_effective_stress",
    "Verif.Fem.C121_homogeneous"
   ],
   "note": "box_mesh of gmsh is taken to be the same grid as common.box_mesh"
  },
  {
   "property": "C122",
   "status": "proved",
   "theorems": [
    "Verif.Fem.C122_constraints",
    "Verif.Fem.C122_equilibrium",
    "Verif.Fem.C122_singular"
   ],
   "note": "finding"
  },
  {
   "property": "C123",
   "status": "proved",
   "theorems": [
    "Verif.Fem.C123_retry",
    "Verif.Fem.C123_samples",
    "Verif.Fem.C123_completes",
    "Verif.Fem.C123_never_ends",
    "Verif.Fem.C123_file_names"
   ],
   "note": "finding; the RVE solver is an oracle"
  },
  {
   "property": "C124",
   "status": "proved",
   "theorems": [
    "Verif.Fem.C124_split",
    "Verif.Fem.C124_batches",
    "Verif.Fem.C124_directories",
    "Verif.Fem.C124_pipeline",
    "Verif.Fem.C124_errors",
    "Verif.Fem.C124_percent",
    "Verif.Fem.C124_poly",
    "Verif.Fem.C124_least_squares",
    "Verif.Fem.C124_networks"
   ],
   "note": "finding; Adam steps not modelled"
  },
  {
   "property": "C125",
   "status": "proved",
   "theorems": [
    "Verif.Fem.C125_inclusion",
    "Verif.Fem.C125_face_moduli",
    "Verif.Fem.C125_energy",
    "Verif.Fem.C125_rest",
    "Verif.Fem.C125_traction",
    "Verif.Fem.C125_reaction",
    "Verif.Fem.C125_run",
    "Verif.Fem.C125_held"
   ],
   "note": ""
  },
  {
   "property": "C126",
   "status": "proved",
   "theorems": [
    "Verif.Fem.C126_cycle",
    "Verif.Fem.C126_exists",
    "Verif.Fem.C126_curve",
    "Verif.Fem.C126_rigid"
   ],
   "note": "finding; the solver is an oracle for exact solutions; gmsh's box_mesh is taken to be the grid of common.box_mesh"
  },
  {
   "property": "C127",
   "status": "proved",
   "theorems": [
    "Verif.Fem.C127_stack",
    "Verif.Fem.C127_pieces",
    "Verif.Fem.C127_jvp"
   ],
   "note": "finding"
  },
  {
   "property": "C128",
   "status": "proved",
   "theorems": [
    "Verif.Fem.C128_scaling",
    "Verif.Fem.C128_shift",
    "Verif.Fem.C128_fd",
    "Verif.Fem.C128_support",
    "Verif.Fem.C128_demo",
    "Verif.Fem.C128_mesh"
   ],
   "note": "gmsh's box_mesh is taken to be the grid of common.box_mesh"
  },
  {
   "property": "C129",
   "status": "proved",
   "theorems": [
    "Verif.Fem.C129_weak",
    "Verif.Fem.C129_program",
    "Verif.Fem.C129_comparison",
    "Verif.Fem.C129_energy",
    "Verif.Fem.C129_symmetry",
    "Verif.Fem.C129_balance",
    "Verif.Fem.C129_exact",
    "Verif.Fem.C129_demo"
   ],
   "note": "rectangle_mesh as the grid of C01"
  },
  {
   "property": "C13",
   "status": "proved",
   "theorems": [
    "Verif.Fem.C13_residual",
    "Verif.Fem.C13_returns",
    "Verif.Fem.C13_selected",
    "Verif.Fem.C13_total"
   ],
   "note": ""
  },
  {
   "property": "C130",
   "status": "proved",
   "theorems": [
    "Verif.Cfd.C130_surface",
    "Verif.Cfd.C130_surface_fails",
    "Verif.Cfd.C130_div",
    "Verif.Cfd.C130_gradient",
    "Verif.Cfd.C130_gauss",
    "Verif.Cfd.C130_gauss_total",
    "Verif.Cfd.C130_plane_ghost",
    "Verif.Cfd.C130_plane",
    "Verif.Cfd.C130_plane_gradient",
    "Verif.Cfd.C130_plane_faces",
    "Verif.Cfd.C130_mesh",
    "Verif.Cfd.C130_linear",
    "Verif.Cfd.C130_nonlinear",
    "Verif.Cfd.C130_large_guess",
    "Verif.Cfd.C130_affine"
   ],
   "note": "violated on the side +x (C130_surface_fails) and for long initial guesses (C130_large_guess)"
  },
  {
   "property": "C131",
   "status": "proved",
   "theorems": [
    "Verif.Fem.C131_moment",
    "Verif.Fem.C131_reference",
    "Verif.Fem.C131_deformed",
    "Verif.Fem.C131_kirchhoff",
    "Verif.Fem.C131_cantilever",
    "Verif.Fem.C131_program",
    "Verif.Fem.C131_twist",
    "Verif.Fem.C131_beam"
   ],
   "note": "the TET10 mesh of the linear demo is covered by C131_cantilever under hypotheses on the mesh (regular elements, loaded faces in the plane); the whole program is proved for HEX8 boxes; beam3d.py calls dynamic_relax_solve, which always raises (C26), so C131_beam speaks about exact solutions"
  },
  {
   "property": "C132",
   "status": "proved",
   "theorems": [
    "Verif.Lbm.Cyl.C132_moments",
    "Verif.Lbm.Cyl.C132_collision",
    "Verif.Lbm.Cyl.C132_drift",
    "Verif.Lbm.Cyl.C132_reflection",
    "Verif.Lbm.Cyl.C132_return",
    "Verif.Lbm.Cyl.C132_balance",
    "Verif.Lbm.Cyl.C132_mass",
    "Verif.Lbm.Cyl.C132_start",
    "Verif.Lbm.Cyl.C132_program",
    "Verif.Lbm.Cyl.C132_uniform",
    "Verif.Lbm.Cyl.C132_mirror",
    "Verif.Lbm.Cyl.C132_symmetric",
    "Verif.Lbm.Cyl.C132_mask",
    "Verif.Lbm.Cyl.C132_vorticity",
    "Verif.Lbm.Cyl.C132_nonneg",
    "Verif.Lbm.Cyl.C132_negative"
   ],
   "note": "a zero density in a fluid cell is an error of the model (NaN in the code); statements about runs assume the run ends without it; colours and axes of the plot are not modelled"
  },
  {
   "property": "C133",
   "status": "proved",
   "theorems": [
    "Verif.Fem.C133_forms",
    "Verif.Fem.C133_weak",
    "Verif.Fem.C133_derivative",
    "Verif.Fem.C133_simple",
    "Verif.Fem.C133_gradient",
    "Verif.Fem.C133_nonneg",
    "Verif.Fem.C133_orthogonal",
    "Verif.Fem.C133_smoothMin",
    "Verif.Fem.C133_constraint",
    "Verif.Fem.C133_weights",
    "Verif.Fem.C133_errors",
    "Verif.Fem.C133_rows",
    "Verif.Fem.C133_handle",
    "Verif.Fem.C133_rigid",
    "Verif.Fem.C133_mass",
    "Verif.Fem.C133_zero",
    "Verif.Fem.C133_order",
    "Verif.Fem.C133_uniform",
    "Verif.Fem.C133_program",
    "Verif.Pencil.simple_branch"
   ],
   "note": "the eigenvalue solver is an oracle; C133_order assumes its list is correct (structure Closest) and that no elastic eigenvalue lies in (0, 20]; with an eigenvalue below 20 the rigid motions would not come first. Exact real arithmetic."
  },
  {
   "property": "C134",
   "status": "proved",
   "theorems": [
    "Verif.DynRelax.C134_sound",
    "Verif.DynRelax.C134_loose",
    "Verif.DynRelax.C134_stable",
    "Verif.DynRelax.C134_energy",
    "Verif.DynRelax.C134_converges",
    "Verif.DynRelax.C134_definite",
    "Verif.DynRelax.C134_stall",
    "Verif.DynRelax.C134_package",
    "Verif.DynRelax.C134_straight",
    "Verif.DynRelax.C134_overshoot",
    "Verif.DynRelax.C134_masses"
   ],
   "note": "FEniCS assembly is an arbitrary residual and tangent function; exact real arithmetic, not-finite values are one failure value; the bound on the passes is for linear problems, nonlinear ones have soundness only."
  },
  {
   "property": "C135",
   "status": "proved",
   "theorems": [
    "Verif.Forming.C135_flow",
    "Verif.Forming.C135_unique",
    "Verif.Forming.C135_step",
    "Verif.Forming.C135_path",
    "Verif.Forming.C135_stress",
    "Verif.Forming.C135_repeat",
    "Verif.Forming.C135_frame",
    "Verif.Forming.C135_turnedPath",
    "Verif.Forming.C135_yields",
    "Verif.Forming.C135_elastic",
    "Verif.Forming.C135_dilate",
    "Verif.Forming.C135_repaired",
    "Verif.Forming.C135_spurious",
    "Verif.Forming.C135_noEnergy",
    "Verif.Forming.C135_loop",
    "Verif.Forming.C135_states",
    "Verif.Forming.C135_turn",
    "Verif.Forming.C135_single",
    "Verif.Forming.C135_balance",
    "Verif.Forming.C135_die",
    "Verif.Forming.C135_conflict"
   ],
   "note": "The nonlinear solver is an oracle for the solutions of the load steps; exact real arithmetic. Negative results on the missing volume split carry concrete witnesses."
  },
  {
   "property": "C136",
   "status": "proved",
   "theorems": [
    "Verif.TopProg.C136_pnorm",
    "Verif.TopProg.C136_correction",
    "Verif.TopProg.C136_accept",
    "Verif.TopProg.C136_settled",
    "Verif.TopProg.C136_gradient",
    "Verif.TopProg.C136_first",
    "Verif.TopProg.C136_overstress",
    "Verif.TopProg.C136_refines",
    "Verif.TopProg.C136_passes",
    "Verif.TopProg.C136_designs",
    "Verif.TopProg.C136_returns",
    "Verif.TopProg.C136_bracket",
    "Verif.TopProg.C136_multi",
    "Verif.TopProg.C136_weight",
    "Verif.TopProg.C136_penalised",
    "Verif.TopProg.C136_pair",
    "Verif.TopProg.C136_response",
    "Verif.TopProg.C136_inspect",
    "Verif.TopProg.C136_states",
    "Verif.TopProg.C136_stale_step",
    "Verif.TopProg.C136_stale",
    "Verif.TopProg.C136_chain",
    "Verif.TopProg.C136_plastic"
   ],
   "note": "Exact real arithmetic; linear solves are exact oracles; the moving asymptotes update enters with its bounds only (see C107). C136_multi is for the linear solver mode (the program uses the Newton mode, which stops after one step on a linear problem). Differentiability of the plastic update along the path is an assumption of C136_chain."
  },
  {
   "property": "C137",
   "status": "proved",
   "theorems": [
    "Verif.Cfd.GammaRun.C137_unit",
    "Verif.Cfd.GammaRun.C137_short",
    "Verif.Cfd.GammaRun.C137_segment",
    "Verif.Cfd.GammaRun.C137_times",
    "Verif.Cfd.GammaRun.C137_interp",
    "Verif.Cfd.GammaRun.C137_outside",
    "Verif.Cfd.GammaRun.C137_window",
    "Verif.Cfd.GammaRun.C137_turn",
    "Verif.Cfd.GammaRun.C137_depth",
    "Verif.Cfd.GammaRun.C137_records"
   ],
   "note": "Exact real arithmetic: rounding in arange is not modelled. scipy/jax interpolation is modelled by its documented behaviour. The laser power table, file input and mesh output are not modelled. The shipped tool path is parallel to the axes, so the direction error is latent there."
  },
  {
   "property": "C138",
   "status": "proved",
   "theorems": [
    "Verif.Calib.C138_steps",
    "Verif.Calib.C138_stale_step",
    "Verif.Calib.C138_gradient",
    "Verif.Calib.C138_calibration",
    "Verif.Calib.C138_state",
    "Verif.Calib.C138_second"
   ],
   "note": "The parameters are one flat vector; update_int_vars_gp and compute_avg_stress enter as differentiable functions of solution and parameters. Differentiability of the step solutions, the tangent property and exact adjoint solves are hypotheses (C14, C20, C27 treat them). What JAX stores in the attribute while tracing is not modelled. The statement is about the first call."
  },
  {
   "property": "C139",
   "status": "proved",
   "theorems": [
    "Verif.SourceId.C139_solution",
    "Verif.SourceId.C139_data",
    "Verif.SourceId.C139_linear",
    "Verif.SourceId.C139_quadratic",
    "Verif.SourceId.C139_gradient",
    "Verif.SourceId.C139_taylor",
    "Verif.SourceId.C139_attained",
    "Verif.SourceId.C139_stationary",
    "Verif.SourceId.C139_silent",
    "Verif.SourceId.C139_norm",
    "Verif.SourceId.C139_error",
    "Verif.SourceId.C139_nonzero",
    "Verif.SourceId.C139_cached",
    "Verif.SourceId.C139_box",
    "Verif.SourceId.C139_support"
   ],
   "note": "The linear solver is exact on solvable systems (ExactLin). gmsh's box_mesh is taken as the structured grid. L-BFGS-B itself, the random choice of nodes and the files are not modelled; the optimiser enters as an arbitrary sequence of calls."
  },
  {
   "property": "C14",
   "status": "proved",
   "theorems": [
    "Verif.Fem.C14_tangent",
    "Verif.Fem.C14_tangent_smooth",
    "Verif.Fem.C14_same_residual",
    "Verif.Fem.C14_kernel_differentiable",
    "Verif.Fem.C14_face_differentiable"
   ],
   "note": ""
  },
  {
   "property": "C140",
   "status": "proved",
   "theorems": [
    "Verif.PhaseField.C140_heat",
    "Verif.PhaseField.C140_unit",
    "Verif.PhaseField.C140_insulated",
    "Verif.PhaseField.C140_power",
    "Verif.PhaseField.C140_range",
    "Verif.PhaseField.C140_simple",
    "Verif.PhaseField.C140_grf",
    "Verif.PhaseField.C140_quench",
    "Verif.PhaseField.C140_cap"
   ],
   "note": "real arithmetic; the field is singular at the laser itself, which is excluded"
  },
  {
   "property": "C141",
   "status": "proved",
   "theorems": [
    "Verif.PhaseField.C141_rows",
    "Verif.PhaseField.C141_times",
    "Verif.PhaseField.C141_positions",
    "Verif.PhaseField.C141_run",
    "Verif.PhaseField.C141_switch",
    "Verif.PhaseField.C141_bounds"
   ],
   "note": "real arithmetic for times and lengths; writing and inspecting files is left out"
  },
  {
   "property": "C142",
   "status": "proved",
   "theorems": [
    "Verif.PhaseField.C142_calls",
    "Verif.PhaseField.C142_temperature",
    "Verif.PhaseField.C142_extrapolates",
    "Verif.PhaseField.C142_repaired",
    "Verif.PhaseField.C142_difference",
    "Verif.PhaseField.C142_range",
    "Verif.PhaseField.C142_negative",
    "Verif.PhaseField.C142_mobility",
    "Verif.PhaseField.C142_run",
    "Verif.PhaseField.C142_program"
   ],
   "note": "the flow solver is any state with a step and a temperature field; real arithmetic"
  },
  {
   "property": "C143",
   "status": "proved",
   "theorems": [
    "Verif.Lbm.Start.C143_phase",
    "Verif.Lbm.Start.C143_pbf",
    "Verif.Lbm.Start.C143_powder",
    "Verif.Lbm.Start.C143_prefix",
    "Verif.Lbm.Start.C143_endless",
    "Verif.Lbm.Start.C143_negative",
    "Verif.Lbm.Start.C143_start",
    "Verif.Lbm.Start.C143_runs",
    "Verif.Lbm.Start.C143_shapes"
   ],
   "note": "real arithmetic; the random numbers are arbitrary sequences; the laser path is arbitrary"
  },
  {
   "property": "C144",
   "status": "proved",
   "theorems": [
    "Verif.Lbm.Mirror.C144_velocities",
    "Verif.Lbm.Mirror.C144_step",
    "Verif.Lbm.Mirror.C144_run",
    "Verif.Lbm.Mirror.C144_fluid_only",
    "Verif.Lbm.Mirror.C144_balance",
    "Verif.Lbm.Mirror.C144_symmetric",
    "Verif.Lbm.Mirror.C144_symmetric_flow",
    "Verif.Lbm.Mirror.C144_programs"
   ],
   "note": "real arithmetic; in floating point sums in another order may break exact symmetry; the outer layer must be wall, as in all programs (C143)"
  },
  {
   "property": "C145",
   "status": "proved",
   "theorems": [
    "Verif.Cfd.Project.C145_correction",
    "Verif.Cfd.Project.C145_step_energy",
    "Verif.Cfd.Project.C145_rest",
    "Verif.Cfd.Project.C145_no_traction",
    "Verif.Cfd.Project.C145_solver_exists",
    "Verif.Cfd.Project.C145_unmolten_run",
    "Verif.Cfd.Project.C145_half",
    "Verif.Cfd.Project.C145_divergence_remains"
   ],
   "note": "real arithmetic; the linear solver (conjugate gradients with tolerance) is replaced by one that satisfies its equations, and such solvers are shown to exist; the expected claim that the returned velocity is divergence free is refuted"
  },
  {
   "property": "C146",
   "status": "proved",
   "theorems": [
    "Verif.Fem.LimitLoad.C146_gradient",
    "Verif.Fem.LimitLoad.C146_minimum",
    "Verif.Fem.LimitLoad.C146_upper",
    "Verif.Fem.LimitLoad.C146_collapse",
    "Verif.Fem.LimitLoad.C146_solver",
    "Verif.Fem.LimitLoad.C146_exists",
    "Verif.Fem.LimitLoad.C146_displacement",
    "Verif.Fem.LimitLoad.C146_bar_below",
    "Verif.Fem.LimitLoad.C146_bar_above",
    "Verif.Fem.LimitLoad.C146_bar_solver"
   ],
   "note": "real arithmetic; the gap between loads that can be carried and loads that cannot is closed for the bar up to the limit load itself"
  },
  {
   "property": "C147",
   "status": "proved",
   "theorems": [
    "Verif.Fem.Moved.C147_returns",
    "Verif.Fem.Moved.C147_residual",
    "Verif.Fem.Moved.C147_solutions",
    "Verif.Fem.Moved.C147_order",
    "Verif.Fem.Moved.C147_elastic",
    "Verif.Fem.Moved.C147_plastic",
    "Verif.Fem.Moved.C147_history",
    "Verif.Fem.Moved.C147_hyper",
    "Verif.Fem.Moved.C147_spin",
    "Verif.Fem.Moved.C147_elements"
   ],
   "note": "real arithmetic; hyperelasticity where det F > 0 (otherwise the energy of the code is NaN); with reflections all volumes are negative, the solutions are the same"
  },
  {
   "property": "C148",
   "status": "proved",
   "theorems": [
    "Verif.Fem.Conv.C148_returns",
    "Verif.Fem.Conv.C148_nodes",
    "Verif.Fem.Conv.C148_smooth_nodes",
    "Verif.Fem.Conv.C148_smooth",
    "Verif.Fem.Conv.C148_rate",
    "Verif.Fem.Conv.C148_exact",
    "Verif.Fem.Conv.C148_l2",
    "Verif.Fem.Conv.C148_h1",
    "Verif.Fem.Conv.C148_quadratic",
    "Verif.Fem.Conv.C148_order",
    "Verif.Fem.Conv.C148_program",
    "Verif.Fem.Conv.C148_converges"
   ],
   "note": "HEX8 cells on the structured box; the program runs TET4 and TET10 cells meshed by gmsh (not modelled). Real arithmetic, exact linear solver"
  },
  {
   "property": "C149",
   "status": "proved",
   "theorems": [
    "Verif.PhaseField.Ode.C149_exists",
    "Verif.PhaseField.Ode.C149_unique",
    "Verif.PhaseField.Ode.C149_error",
    "Verif.PhaseField.Ode.C149_program",
    "Verif.PhaseField.Ode.C149_converges",
    "Verif.PhaseField.Ode.C149_simple",
    "Verif.PhaseField.Ode.C149_jump"
   ],
   "note": "anisotropy <= 0 (as in simple, multi_scan and coupled); with anisotropy the factor is discontinuous where the edge vector vanishes, so the claim is not made there. Real arithmetic"
  },
  {
   "property": "C15",
   "status": "proved",
   "theorems": [
    "Verif.Fem.C15_balance",
    "Verif.Fem.C15_body_force",
    "Verif.Fem.C15_body_force_sol",
    "Verif.Fem.C15_neumann",
    "Verif.Fem.C15_internal_forces"
   ],
   "note": ""
  },
  {
   "property": "C150",
   "status": "proved",
   "theorems": [
    "Verif.PhaseField.Ode.C150_step",
    "Verif.PhaseField.Ode.C150_antitone",
    "Verif.PhaseField.Ode.C150_total",
    "Verif.PhaseField.Ode.C150_rates",
    "Verif.PhaseField.Ode.C150_limits",
    "Verif.PhaseField.Ode.C150_limit_exists",
    "Verif.PhaseField.Ode.C150_flow",
    "Verif.PhaseField.Ode.C150_large_step"
   ],
   "note": "anisotropy <= 0. The condition on dt implies the one of C149. That the run converges to one rest state (not only along subsequences) is not claimed. Real arithmetic"
  },
  {
   "property": "C151",
   "status": "proved",
   "theorems": [
    "Verif.Fem.NewtonLocal.C151_local",
    "Verif.Fem.NewtonLocal.C151_jax",
    "Verif.Fem.NewtonLocal.C151_quadratic",
    "Verif.Fem.NewtonLocal.C151_fem"
   ],
   "note": "that bicgstab meets its stopping test on solvable systems within its 10000 iterations is assumed (TolLin). The neighbourhood and the constants depend on the problem. Real arithmetic"
  },
  {
   "property": "C152",
   "status": "proved",
   "theorems": [
    "Verif.Fem.SmallLoads.C152_small",
    "Verif.Fem.SmallLoads.C152_linear",
    "Verif.Fem.SmallLoads.C152_linearised",
    "Verif.Fem.SmallLoads.C152_hyper",
    "Verif.Fem.SmallLoads.C152_box",
    "Verif.Fem.SmallLoads.C152_gravity"
   ],
   "note": "no mass term and no Cauchy boundary. The bounds are not computed. In two dimensions HyperElasticity is not stress-free at rest (C31_plane_rest), so the hypotheses hold in three dimensions only. That bicgstab meets its stopping test is assumed (TolLin). Real arithmetic"
  },
  {
   "property": "C153",
   "status": "proved",
   "theorems": [
    "Verif.Fem.ThermalOrder.C153_order",
    "Verif.Fem.ThermalOrder.C153_exists",
    "Verif.Fem.ThermalOrder.C153_definite",
    "Verif.Fem.ThermalOrder.C153_demo",
    "Verif.Fem.ThermalOrder.C153_file"
   ],
   "note": "on a fixed mesh; the constants depend on the mesh. The held values are exact in the steps (C108_demo gives them to 1e-6). Existence of the solution of the differential equations is proved for short times only; the order holds on every interval on which a solution with Lipschitz derivative exists, with the laser on or off throughout. Real arithmetic"
  },
  {
   "property": "C154",
   "status": "proved",
   "theorems": [
    "Verif.Aesthetic.C154_third",
    "Verif.Aesthetic.C154_total",
    "Verif.Aesthetic.C154_direction",
    "Verif.Aesthetic.C154_files",
    "Verif.Aesthetic.C154_range",
    "Verif.Aesthetic.C154_overshoot"
   ],
   "note": "the loss is any differentiable function of the image (a linear one in C154_direction); that the VGG loss itself has a wrong sign somewhere is not claimed. scipy's RegularGridInterpolator is modelled from its documented linear method; the cast to float32 is left out. Real arithmetic"
  },
  {
   "property": "C155",
   "status": "proved",
   "theorems": [
    "Verif.Aesthetic.Net.C155_network",
    "Verif.Aesthetic.Net.C155_minimum",
    "Verif.Aesthetic.Net.C155_split",
    "Verif.Aesthetic.Net.C155_file",
    "Verif.Aesthetic.Net.C155_gram",
    "Verif.Aesthetic.Net.C155_style"
   ],
   "note": "convolutions, poolings and the activation are arbitrary maps of feature maps; the shapes of image and target are taken to agree (broadcasting is not modelled). Haiku's state is the list of recorded losses of the last run. Real arithmetic"
  },
  {
   "property": "C156",
   "status": "proved",
   "theorems": [
    "Verif.Fem.CauchyExample.C156_unique",
    "Verif.Fem.CauchyExample.C156_tangent",
    "Verif.Fem.CauchyExample.C156_two"
   ],
   "note": "the mesh is any list of triangles (gmsh is not modelled); the quadrature is the centre rule of degree 1 chosen for TRI3. Existence of a solution with nonnegative edge means is not claimed for every source (the source of the file takes both signs). Real arithmetic"
  },
  {
   "property": "C157",
   "status": "proved",
   "theorems": [
    "Verif.Fem.PeriodicExample.C157_multipliers",
    "Verif.Fem.PeriodicExample.C157_built",
    "Verif.Fem.PeriodicExample.C157_weak",
    "Verif.Fem.PeriodicExample.C157_unique",
    "Verif.Fem.PeriodicExample.C157_singular",
    "Verif.Fem.C157_tri6"
   ],
   "note": "the mesh and the element are any finite element object with one unknown in the plane; absence of spurious modes is proved for TRI3, QUAD4 and for the TRI6 of the file (C86, C157_tri6; basix' three-point rule of degree 2 is written out). gmsh is not modelled; its corner points are taken to be exact (hypothesis of C157_singular). Real arithmetic"
  },
  {
   "property": "C158",
   "status": "proved",
   "theorems": [
    "Verif.Fem.CellularSolid.C158_section",
    "Verif.Fem.CellularSolid.C158_energy",
    "Verif.Fem.CellularSolid.C158_objective",
    "Verif.Fem.CellularSolid.C158_rest",
    "Verif.Fem.CellularSolid.C158_linearised"
   ],
   "note": "the run itself ends in an error because dynamic_relax_solve always raises (C26); the mesh file is not part of the repository. jax.grad is deriv. Real arithmetic"
  },
  {
   "property": "C159",
   "status": "proved",
   "theorems": [
    "Verif.Fem.DesignCurve.C159_forward",
    "Verif.Fem.DesignCurve.C159_proportional",
    "Verif.Fem.DesignCurve.C159_uniform",
    "Verif.Fem.DesignCurve.C159_gradient",
    "Verif.Fem.DesignCurve.C159_objective",
    "Verif.Fem.DesignCurve.C159_constraint",
    "Verif.Fem.DesignCurve.C159_quarters",
    "Verif.Fem.DesignCurve.C159_beam",
    "Verif.Fem.DesignCurve.C159_ends"
   ],
   "note": "the mesh file and the eight-node cells of the program are not modelled: the statements hold for every object with the stated properties, which are shown for rectangles of four-node cells. Exact linear solves, real arithmetic. The optimiser itself: C35"
  },
  {
   "property": "C16",
   "status": "proved",
   "theorems": [
    "Verif.Fem.C16_mem",
    "Verif.Fem.C16_selection",
    "Verif.Fem.C16_count",
    "Verif.Fem.C16_consistent"
   ],
   "note": ""
  },
  {
   "property": "C160",
   "status": "proved",
   "theorems": [
    "Verif.Fem.FlexTop.C160_box",
    "Verif.Fem.FlexTop.C160_gradient",
    "Verif.Fem.FlexTop.C160_bounds",
    "Verif.Fem.FlexTop.C160_frozen",
    "Verif.Fem.FlexTop.C160_volume"
   ],
   "note": "the CAD meshes are not modelled: the statements hold for every loaded and clamped object (shown for rectangles in C105). Exact linear solves, real arithmetic; integer penalisation exponent. The optimiser itself: C35, C136"
  },
  {
   "property": "C161",
   "status": "proved",
   "theorems": [
    "Verif.Fem.BodyTop.C161_compliance",
    "Verif.Fem.BodyTop.C161_moduli",
    "Verif.Fem.BodyTop.C161_gradient",
    "Verif.Fem.BodyTop.C161_bounds",
    "Verif.Fem.BodyTop.C161_supports",
    "Verif.Fem.BodyTop.C161_band",
    "Verif.Fem.BodyTop.C161_load",
    "Verif.Fem.BodyTop.C161_program",
    "Verif.Fem.BodyTop.C161_building"
   ],
   "note": "exact linear solves, real arithmetic (in floats a quadrature point cannot meet the band edge either: it lies at distance 0.2 cell heights from it). Style transfer and output are not modelled; the optimiser: C35, C136"
  },
  {
   "property": "C162",
   "status": "proved",
   "theorems": [
    "Verif.Fem.TreeTop.C162_clamped",
    "Verif.Fem.TreeTop.C162_supports",
    "Verif.Fem.TreeTop.C162_load",
    "Verif.Fem.TreeTop.C162_unheld",
    "Verif.Fem.TreeTop.C162_pivot",
    "Verif.Fem.TreeTop.C162_program",
    "Verif.Fem.TreeTop.C162_wind"
   ],
   "note": "exact linear solves, real arithmetic. Style transfer: C155; the optimiser: C35, C136. (3) and (4) concern numbers of cells other than the file's default of 200"
  },
  {
   "property": "C163",
   "status": "proved",
   "theorems": [
    "Verif.Fem.ForceCurve.C163_scale",
    "Verif.Fem.ForceCurve.C163_line",
    "Verif.Fem.ForceCurve.C163_reaction",
    "Verif.Fem.ForceCurve.C163_bar",
    "Verif.Fem.DogBone.C163_dogbone",
    "Verif.Fem.DogBone.C163_dogbone_reaction",
    "Verif.Fem.DogBone.C163_dogbone_bar",
    "Verif.Fem.CubeDemo.C163_cube",
    "Verif.Fem.Serendipity.C163_position",
    "Verif.Fem.Serendipity.C163_serendipity"
   ],
   "note": "exact linear solves, real arithmetic; the meshes of the files (gmsh, Abaqus) are left open (any mesh that fulfils the conditions). The hyperelastic and plastic curves of the same file are not covered"
  },
  {
   "property": "C164",
   "status": "proved",
   "theorems": [
    "Verif.Fem.BoxTop.C164_program",
    "Verif.Fem.BoxTop.C164_load"
   ],
   "note": "exact linear solves, real arithmetic; the optimizer call (lines 95-98) is covered by the MMA properties, files and timing (67-78, 97-103) are left out"
  },
  {
   "property": "C17",
   "status": "proved",
   "theorems": [
    "Verif.Fem.C17_dirichlet",
    "Verif.Fem.C17_accepted"
   ],
   "note": ""
  },
  {
   "property": "C18",
   "status": "proved",
   "theorems": [
    "Verif.Fem.C18_pairs",
    "Verif.Fem.C18_accepted"
   ],
   "note": "numpy 1.24 or later, where a ragged nested list is an error"
  },
  {
   "property": "C19",
   "status": "proved",
   "theorems": [
    "Verif.Fem.C19_zero_iff",
    "Verif.Fem.C19_components",
    "Verif.Fem.C19_assign",
    "Verif.Fem.C19_groups_wf",
    "Verif.Fem.C19_user"
   ],
   "note": "exact reals for the equivalence, every arithmetic for the component formula; C19_user states it on the user's predicates"
  },
  {
   "property": "C20",
   "status": "proved",
   "theorems": [
    "Verif.Fem.C20_petsc_eq_jax",
    "Verif.Fem.C20_derivative",
    "Verif.Fem.C20_jacobi",
    "Verif.Fem.C20_initial_guess",
    "Verif.Fem.C20_fem"
   ],
   "note": "exact reals; PETSc zeroRows is modelled as replacing rows by unit rows"
  },
  {
   "property": "C21",
   "status": "proved",
   "theorems": [
    "Verif.Fem.C21_linear"
   ],
   "note": "exact reals; the linear solver is assumed exact only for the operator of the problem"
  },
  {
   "property": "C22",
   "status": "proved",
   "theorems": [
    "Verif.Fem.C22_any_arithmetic",
    "Verif.Fem.C22_converged",
    "Verif.Fem.C22_nan",
    "Verif.Fem.C22_linear_unchecked"
   ],
   "note": "every residual, linear solver, guess and iteration count, in arithmetic with infinities and NaN but without rounding (C22_any_arithmetic: any arithmetic); the linear branch has no check, shown by a witness"
  },
  {
   "property": "C23",
   "status": "proved",
   "theorems": [
    "Verif.Fem.C23_line_search",
    "Verif.Fem.C23_nan_accepted"
   ],
   "note": "exact reals; with NaN the property is false, shown by a witness"
  },
  {
   "property": "C24",
   "status": "proved",
   "theorems": [
    "Verif.Fem.C24_zero_iff",
    "Verif.Fem.C24_tangent",
    "Verif.Fem.C24_symmetric",
    "Verif.Fem.C24_split",
    "Verif.Fem.C24_size",
    "Verif.Fem.LProb.C24_reverse_mode"
   ],
   "note": "exact reals"
  },
  {
   "property": "C25",
   "status": "proved",
   "theorems": [
    "Verif.Fem.C25_any_arithmetic",
    "Verif.Fem.C25_converged",
    "Verif.Fem.C25_nan_silent"
   ],
   "note": "arithmetic with infinities and NaN, without rounding"
  },
  {
   "property": "C26",
   "status": "proved",
   "theorems": [
    "Verif.Fem.C26_petsc_periodic",
    "Verif.Fem.C26_dynamic_relax",
    "Verif.Fem.C26_dispatch"
   ],
   "note": "Python's unbound locals are modelled as options without value"
  },
  {
   "property": "C27",
   "status": "proved",
   "theorems": [
    "Verif.Fem.C27_vjp",
    "Verif.Fem.C27_jvp"
   ],
   "note": "exact reals, exact derivatives and linear solves; the forward mode needs an injective tangent; Dirichlet conditions only, as in the code (periodic ties are ignored by it)"
  },
  {
   "property": "C28",
   "status": "proved",
   "theorems": [
    "Verif.Fem.C28_range",
    "Verif.Fem.C28_monotone",
    "Verif.Fem.C28_value"
   ],
   "note": "exact reals"
  },
  {
   "property": "C29",
   "status": "proved",
   "theorems": [
    "Verif.Fem.C29_stress",
    "Verif.Fem.C29_energy",
    "Verif.Fem.C29_hooke",
    "Verif.Fem.C29_stiffness"
   ],
   "note": "Stress law and assembled stiffness form of the residual."
  },
  {
   "property": "C30",
   "status": "proved",
   "theorems": [
    "Verif.Fem.C30_step",
    "Verif.Fem.C30_history",
    "Verif.Fem.C30_dissipation",
    "Verif.Fem.C30_consistent",
    "Verif.Fem.C30_average"
   ],
   "note": "By induction over the load history; real arithmetic."
  },
  {
   "property": "C31",
   "status": "proved",
   "theorems": [
    "Verif.Fem.C31_objective",
    "Verif.Fem.C31_energy",
    "Verif.Fem.C31_stress",
    "Verif.Fem.C31_rest",
    "Verif.Fem.C31_plane_rest",
    "Verif.Fem.C31_stress_objective",
    "Verif.Fem.C31_power"
   ],
   "note": "jax.grad is the derivative of the real function; C31_plane_rest shows that the same energy in two dimensions is not stress-free at rest."
  },
  {
   "property": "C32",
   "status": "proved",
   "theorems": [
    "Verif.Fem.C32_affine",
    "Verif.Fem.C32_zero_iff"
   ],
   "note": "Real square root."
  },
  {
   "property": "C33",
   "status": "proved",
   "theorems": [
    "Verif.Fem.Mma.C33_bounds"
   ],
   "note": "Both the initial and the later iterations, every history; needs xmin<xmax, move>0, xmin<=xval<=xmax."
  },
  {
   "property": "C34",
   "status": "proved",
   "theorems": [
    "Verif.Fem.Mma.C34_interior",
    "Verif.Fem.Mma.C34_iterates",
    "Verif.Fem.Mma.C34_denominators",
    "Verif.Fem.Mma.C34_terminates",
    "Verif.Fem.Mma.C34_terminates_pos",
    "Verif.Fem.Mma.C34_terminates_mma"
   ],
   "note": "Linear solver is an arbitrary function; loops are modelled with a bound on the number of passes and shown never to exhaust it."
  },
  {
   "property": "C35",
   "status": "proved",
   "theorems": [
    "Verif.Fem.Mma.C35_designs",
    "Verif.Fem.Mma.C35_result"
   ],
   "note": "Invariant over all states reachable by the optimisation loop; callbacks, filter and linear solver arbitrary. Needs a positive move limit."
  },
  {
   "property": "C36",
   "status": "proved",
   "theorems": [
    "Verif.Fem.Mma.C36_approximation"
   ],
   "note": "Directional derivatives and values at xval; strict convexity between the asymptotes."
  },
  {
   "property": "C37",
   "status": "proved",
   "theorems": [
    "Verif.Fem.Mma.C37_few",
    "Verif.Fem.Mma.C37_weights",
    "Verif.Fem.Mma.C37_symmetric",
    "Verif.Fem.Mma.C37_constants",
    "Verif.Fem.Mma.C37_total"
   ],
   "note": "The k-d tree is specified by IsKdQuery (20 nearest distinct cells, index N for missing ones). Constants need equal row sums: an example shows they are not reproduced otherwise, because the code divides by the row sum of the source cell."
  },
  {
   "property": "C38",
   "status": "proved",
   "theorems": [
    "Verif.Lbm.C38_rev",
    "Verif.Lbm.C38_velocity_set",
    "Verif.Lbm.C38_moments"
   ],
   "note": ""
  },
  {
   "property": "C39",
   "status": "proved",
   "theorems": [
    "Verif.Lbm.C39_equilibrium_f",
    "Verif.Lbm.C39_equilibrium_h"
   ],
   "note": "exact field arithmetic instead of float32"
  },
  {
   "property": "C40",
   "status": "proved",
   "theorems": [
    "Verif.Lbm.C40_collide_f_mass",
    "Verif.Lbm.C40_collide_f_momentum",
    "Verif.Lbm.C40_frozen_at_rest",
    "Verif.Lbm.C40_collide_h"
   ],
   "note": ""
  },
  {
   "property": "C41",
   "status": "proved",
   "theorems": [
    "Verif.Lbm.C41_update_f_conserves_mass",
    "Verif.Lbm.C41_collide_stream_conserves_mass",
    "Verif.Lbm.C41_conversions_conserve_mass"
   ],
   "note": ""
  },
  {
   "property": "C42",
   "status": "proved",
   "theorems": [
    "Verif.Lbm.C42_step_mass",
    "Verif.Lbm.C42_total_mass_constant",
    "Verif.Lbm.C42_mass_lost_without_interface"
   ],
   "note": "forces and heat sources (curvature, Marangoni, recoil, laser) are arbitrary inputs of the step"
  },
  {
   "property": "C43",
   "status": "proved",
   "theorems": [
    "Verif.Lbm.C43_invariants",
    "Verif.Lbm.C43_melted_monotone",
    "Verif.Lbm.C43_stays_enclosed"
   ],
   "note": ""
  },
  {
   "property": "C44",
   "status": "proved",
   "theorems": [
    "Verif.Lbm.C44_separated_after_liquid_to_lg",
    "Verif.Lbm.C44_separated_after_gas_to_lg",
    "Verif.Lbm.C44_adhoc_breaks_separation",
    "Verif.Lbm.C44_step_breaks_separation"
   ],
   "note": "includes the negation: the end-of-step claim is false, with a concrete lattice"
  },
  {
   "property": "C45",
   "status": "proved",
   "theorems": [
    "Verif.Lbm.C45_monotone_iff",
    "Verif.Lbm.C45_phase_test"
   ],
   "note": ""
  },
  {
   "property": "C46",
   "status": "proved",
   "theorems": [
    "Verif.Lbm.Path.C46_read_path",
    "Verif.Lbm.Path.C46_timing",
    "Verif.Lbm.Path.C46_short_leg_misses_corner",
    "Verif.Lbm.Path.C46_errors"
   ],
   "note": ""
  },
  {
   "property": "C47",
   "status": "proved",
   "theorems": [
    "Verif.Lbm.C47_update_h_balance",
    "Verif.Lbm.C47_no_wall"
   ],
   "note": ""
  },
  {
   "property": "C48",
   "status": "proved",
   "theorems": [
    "Verif.PhaseField.C48_one_hot"
   ],
   "note": ""
  },
  {
   "property": "C49",
   "status": "proved",
   "theorems": [
    "Verif.PhaseField.C49_gradient_flow",
    "Verif.PhaseField.C49_dissipation",
    "Verif.PhaseField.C49_diffusion_conserves",
    "Verif.PhaseField.C49_diffusion_constant"
   ],
   "note": "for every value of ad_hoc; jax.grad is modelled as the partial derivative"
  },
  {
   "property": "C50",
   "status": "proved",
   "theorems": [
    "Verif.PhaseField.C50_single_grain",
    "Verif.PhaseField.C50_stationary",
    "Verif.PhaseField.C50_stationary_run",
    "Verif.PhaseField.C50_zeta",
    "Verif.PhaseField.C50_solid_run",
    "Verif.PhaseField.C50_equivariant",
    "Verif.PhaseField.C50_equivariant_run",
    "Verif.PhaseField.C50_step"
   ],
   "note": "equivariance also with anisotropy (crystal directions permuted along)"
  },
  {
   "property": "C51",
   "status": "proved",
   "theorems": [
    "Verif.PhaseField.C51_partition",
    "Verif.PhaseField.C51_components",
    "Verif.PhaseField.C51_orientation",
    "Verif.PhaseField.C51_volume",
    "Verif.PhaseField.C51_grid_symmetric"
   ],
   "note": "breadth-first search over an arbitrary symmetric graph, termination included"
  },
  {
   "property": "C52",
   "status": "proved",
   "theorems": [
    "Verif.Cfd.C52_dirichlet",
    "Verif.Cfd.C52_neumann",
    "Verif.Cfd.C52_marangoni",
    "Verif.Cfd.C52_other",
    "Verif.Cfd.C52_sides"
   ],
   "note": ""
  },
  {
   "property": "C53",
   "status": "proved",
   "theorems": [
    "Verif.Cfd.C53_laplace_flux",
    "Verif.Cfd.C53_laplace_default",
    "Verif.Cfd.C53_laplace_const",
    "Verif.Cfd.C53_div_flux",
    "Verif.Cfd.C53_div_closed",
    "Verif.Cfd.C53_div_const",
    "Verif.Cfd.C53_faceVels_noflow",
    "Verif.Cfd.C53_gradient_const",
    "Verif.Cfd.C53_gradient_interior"
   ],
   "note": ""
  },
  {
   "property": "C54",
   "status": "proved",
   "theorems": [
    "Verif.Cfd.C54_jacobian",
    "Verif.Cfd.C54_jacobian_nonlinear",
    "Verif.Cfd.C54_affine",
    "Verif.Cfd.C54_symmetric",
    "Verif.Cfd.C54_psd",
    "Verif.Cfd.C54_precond",
    "Verif.Cfd.C54_balance"
   ],
   "note": "mesh hypotheses proved for the 3-d grid in mesh3d_valid"
  },
  {
   "property": "C55",
   "status": "proved",
   "theorems": [
    "Verif.Cfd.C55_heat_balance",
    "Verif.Cfd.C55_max_principle"
   ],
   "note": "stated for exact solutions of the implicit step"
  },
  {
   "property": "C56",
   "status": "proved",
   "theorems": [
    "Verif.Cfd.C56_fluid_frac",
    "Verif.Cfd.C56_solidID",
    "Verif.Cfd.C56_solidID_meaning"
   ],
   "note": "for arbitrary equation updates"
  },
  {
   "property": "C57",
   "status": "proved",
   "theorems": [
    "Verif.Cfd.C57_window",
    "Verif.Cfd.C57_laser_inside",
    "Verif.Cfd.C57_outside",
    "Verif.Cfd.C57_inside",
    "Verif.Cfd.C57_too_large",
    "Verif.Cfd.C57_time",
    "Verif.Cfd.C57_progress"
   ],
   "note": "includes the failing case of a local mesh larger than the global one"
  },
  {
   "property": "C58",
   "status": "proved",
   "theorems": [
    "Verif.Cfd.C58_face_vel_axis2",
    "Verif.Cfd.C58_face_vel_axis01",
    "Verif.Cfd.C58_gradient_ignores_bcs",
    "Verif.Cfd.C58_energy_dirichlet",
    "Verif.Cfd.C58_constructor",
    "Verif.Cfd.C58_missing_side"
   ],
   "note": "defects of the code stated as theorems"
  },
  {
   "property": "C59",
   "status": "proved",
   "theorems": [
    "Verif.Cfd.C59_solver_nonlinear"
   ],
   "note": "linear solver and residual norm are arbitrary"
  },
  {
   "property": "C60",
   "status": "proved",
   "theorems": [
    "Verif.Cfd.Gamma.C60_material",
    "Verif.Cfd.Gamma.C60_ghost",
    "Verif.Cfd.Gamma.C60_edges",
    "Verif.Cfd.Gamma.C60_ambient",
    "Verif.Cfd.Gamma.C60_convex",
    "Verif.Cfd.Gamma.C60_bounds",
    "Verif.Cfd.Gamma.C60_heat_balance",
    "Verif.Cfd.Gamma.C60_not_conservative"
   ],
   "note": "also exact heat balance at uniform conductivity and a witness that heat is not conserved otherwise"
  },
  {
   "property": "C61",
   "status": "proved",
   "theorems": [
    "Verif.Misc.C61_times",
    "Verif.Misc.C61_iff",
    "Verif.Misc.C61_k",
    "Verif.Misc.C61_few"
   ],
   "note": "The intended times hold iff every file but the last has exactly one point field; several fields give the wrong time (twoFields_ok). os.listdir order, int() and round() are parameters."
  },
  {
   "property": "C62",
   "status": "proved",
   "theorems": [
    "Verif.Misc.C62_calls",
    "Verif.Misc.C62_once",
    "Verif.Misc.C62_idempotent",
    "Verif.Misc.C62_levels"
   ],
   "note": "Any sequence of calls from any registry state."
  },
  {
   "property": "C63",
   "status": "proved",
   "theorems": [
    "Verif.Misc.C63_text",
    "Verif.Misc.C63_idempotent",
    "Verif.Misc.C63_missing",
    "Verif.Misc.C63_in_place"
   ],
   "note": "For distinct input and output, up to the newline translation of text mode (CR LF becomes LF). Called in place the file is truncated before reading and its content is lost (C63_in_place)."
  },
  {
   "property": "C64",
   "status": "proved",
   "theorems": [
    "Verif.PhaseField.C64_step_bounds",
    "Verif.PhaseField.C64_run_bounds",
    "Verif.PhaseField.C64_force_liquid"
   ],
   "note": ""
  },
  {
   "property": "C65",
   "status": "proved",
   "theorems": [
    "Verif.PhaseField.C65_aniso_range",
    "Verif.PhaseField.C65_aniso_symmetry",
    "Verif.PhaseField.C65_formula",
    "Verif.PhaseField.C65_crystal_symmetry"
   ],
   "note": ""
  },
  {
   "property": "C66",
   "status": "proved",
   "theorems": [
    "Verif.PhaseField.C66_rk4_linear",
    "Verif.PhaseField.C66_rk4_cubic",
    "Verif.PhaseField.C66_fixed_point"
   ],
   "note": ""
  },
  {
   "property": "C67",
   "status": "proved",
   "theorems": [
    "Verif.Cfd.C67_pressure_compatible",
    "Verif.Cfd.C67_pressure_unique",
    "Verif.Cfd.C67_divergence_sums_to_zero",
    "Verif.Cfd.C67_velUpdate_total",
    "Verif.Cfd.C67_bc_forms"
   ],
   "note": ""
  },
  {
   "property": "C68",
   "status": "proved",
   "theorems": [
    "Verif.Cfd.C68_solver_linear",
    "Verif.Cfd.C68_solver_linear_relative",
    "Verif.Cfd.C68_unique",
    "Verif.Cfd.C68_velocity_reaction"
   ],
   "note": "exactness of the iterative solver assumed only for the system solved"
  },
  {
   "property": "C69",
   "status": "proved",
   "theorems": [
    "Verif.Cfd.C69_laser_off_fails",
    "Verif.Cfd.C69_no_long_run",
    "Verif.Cfd.C69_laser_on"
   ],
   "note": "defect of the code"
  },
  {
   "property": "C70",
   "status": "proved",
   "theorems": [
    "Verif.Cfd.C70_top_flux",
    "Verif.Cfd.C70_flux_bounds",
    "Verif.Cfd.C70_loss_sign",
    "Verif.Cfd.C70_ambient"
   ],
   "note": ""
  },
  {
   "property": "C71",
   "status": "proved",
   "theorems": [
    "Verif.Fem.C71_virtual_work"
   ],
   "note": "For every residual the code returns."
  },
  {
   "property": "C72",
   "status": "proved",
   "theorems": [
    "Verif.Fem.Mma.C72_newton"
   ],
   "note": "HasDerivAt of the full residual along the direction; both elimination branches."
  },
  {
   "property": "C73",
   "status": "proved",
   "theorems": [
    "Verif.Fem.Mma.C73_subsolv",
    "Verif.Fem.Mma.C73_mmasub",
    "Verif.Fem.Mma.C73_optimize"
   ],
   "note": "Real arithmetic; exists_exact shows the solver hypothesis is satisfiable."
  },
  {
   "property": "C74",
   "status": "proved",
   "theorems": [
    "Verif.Fem.Mma.C74_gap",
    "Verif.Fem.Mma.C74_result"
   ],
   "note": "Specification of the subproblem (cost, Feasible) is independent of the residual computed by the code."
  },
  {
   "property": "C75",
   "status": "proved",
   "theorems": [
    "Verif.Lbm.C75_curvature_exact",
    "Verif.Lbm.C75_phi_exact",
    "Verif.Lbm.C75_phi_total",
    "Verif.Lbm.C75_axis",
    "Verif.Lbm.C75_surface",
    "Verif.Lbm.C75_sign",
    "Verif.Lbm.C75_exchange",
    "Verif.Lbm.C75_flat"
   ],
   "note": "Real arithmetic, lattice units h = 1."
  },
  {
   "property": "C76",
   "status": "proved",
   "theorems": [
    "Verif.Lbm.C76_marangoni",
    "Verif.Lbm.C76_recoil",
    "Verif.Lbm.C76_bulk",
    "Verif.Lbm.C76_T_grad"
   ],
   "note": "Real arithmetic."
  },
  {
   "property": "C77",
   "status": "proved",
   "theorems": [
    "Verif.Lbm.C77_laser",
    "Verif.Lbm.C77_loss"
   ],
   "note": "Real arithmetic."
  },
  {
   "property": "C78",
   "status": "proved",
   "theorems": [
    "Verif.Lbm.C78_driven",
    "Verif.Lbm.C78_quiet"
   ],
   "note": "Laser samples are arbitrary; read_path is C46."
  },
  {
   "property": "C79",
   "status": "proved",
   "theorems": [
    "Verif.Lbm.C79_relaxation",
    "Verif.Lbm.C79_temperature",
    "Verif.Lbm.C79_force",
    "Verif.Lbm.C79_heat"
   ],
   "note": "Temperatures positive in the recoil term."
  },
  {
   "property": "C80",
   "status": "proved",
   "theorems": [
    "Verif.Fem.C80_plane",
    "Verif.Fem.C80_normals",
    "Verif.Fem.C80_local",
    "Verif.Fem.C80_measures"
   ],
   "note": "Reference tables of basix are transcribed (trusted); locality for the seven Lagrange elements, quad8/hex20 serendipity elements excluded."
  },
  {
   "property": "C81",
   "status": "proved",
   "theorems": [
    "Verif.Fem.C81_area_element",
    "Verif.Fem.C81_length_element",
    "Verif.Fem.C81_tet4",
    "Verif.Fem.C81_tri3"
   ],
   "note": "Lagrange elements; determinant sign kept."
  },
  {
   "property": "C82",
   "status": "proved",
   "theorems": [
    "Verif.Fem.C82_check_mesh",
    "Verif.Fem.C82_cell_type"
   ],
   "note": ""
  },
  {
   "property": "C83",
   "status": "proved",
   "theorems": [
    "Verif.Fem.C83_area",
    "Verif.Fem.C83_traction",
    "Verif.Fem.C83_traction_dim",
    "Verif.Fem.C83_box_area",
    "Verif.Fem.C83_box_traction",
    "Verif.Fem.C83_box_load"
   ],
   "note": "compute_traction is wrong on faces other than +z; the theorem states what it returns."
  },
  {
   "property": "C84",
   "status": "proved",
   "theorems": [
    "Verif.Fem.C84_surface_support"
   ],
   "note": "Linear elements."
  },
  {
   "property": "C85",
   "status": "proved",
   "theorems": [
    "Verif.Fem.C85_patch_box",
    "Verif.Fem.C85_patch_traction"
   ],
   "note": "Box meshes with HEX8."
  },
  {
   "property": "C86",
   "status": "proved",
   "theorems": [
    "Verif.Fem.C86_unique",
    "Verif.Fem.C86_modes_tet4",
    "Verif.Fem.C86_modes_tri3",
    "Verif.Fem.C86_modes_hex8",
    "Verif.Fem.C86_modes_quad4",
    "Verif.Fem.C86_modes_tri6",
    "Verif.Fem.C86_modes_tet10"
   ],
   "note": "Maps may be nonlinear; monotonicity is the hypothesis. For elasticity (only the symmetric gradient is seen) see C88."
  },
  {
   "property": "C87",
   "status": "proved",
   "theorems": [
    "Verif.Fem.C87_affine",
    "Verif.Fem.C87_solution",
    "Verif.Fem.C87_determined",
    "Verif.Fem.C87_patch"
   ],
   "note": "Exact linear solver is a hypothesis tied to the problem's own tangent operator, and its existence is part of the theorem."
  },
  {
   "property": "C88",
   "status": "proved",
   "theorems": [
    "Verif.Fem.C88_unique",
    "Verif.Fem.C88_rigid_tet4",
    "Verif.Fem.C88_rigid_tri3",
    "Verif.Fem.C88_rigid_hex8",
    "Verif.Fem.C88_elastic_strict",
    "Verif.Fem.C88_solution",
    "Verif.Fem.C88_bar"
   ],
   "note": "HEX8 statement for bricks (edges along the axes), as produced by box_mesh."
  },
  {
   "property": "C89",
   "status": "proved",
   "theorems": [
    "Verif.PhaseField.C89_orientation",
    "Verif.PhaseField.C89_initial",
    "Verif.PhaseField.C89_colours",
    "Verif.PhaseField.C89_percent",
    "Verif.PhaseField.C89_grains",
    "Verif.PhaseField.C89_mismatch",
    "Verif.PhaseField.C89_at_liquidus"
   ],
   "note": "files are not modelled: cell data written = cell data read"
  },
  {
   "property": "C90",
   "status": "proved",
   "theorems": [
    "Verif.PhaseField.C90_at_least_one",
    "Verif.PhaseField.C90_undefined",
    "Verif.PhaseField.C90_similar",
    "Verif.PhaseField.C90_box",
    "Verif.PhaseField.C90_unequal_volumes"
   ],
   "note": "explained_variance_ of scikit-learn's PCA = eigenvalues of the sample covariance (trusted)"
  },
  {
   "property": "C91",
   "status": "proved",
   "theorems": [
    "Verif.PhaseField.C91_grid",
    "Verif.PhaseField.C91_grid_sound",
    "Verif.PhaseField.C91_grid_order",
    "Verif.PhaseField.C91_orientations",
    "Verif.PhaseField.C91_grain_count",
    "Verif.PhaseField.C91_untagged",
    "Verif.PhaseField.C91_obj",
    "Verif.PhaseField.C91_obj_blank",
    "Verif.PhaseField.C91_obj_no_group",
    "Verif.PhaseField.C91_rotation",
    "Verif.PhaseField.C91_frame",
    "Verif.PhaseField.C91_scale",
    "Verif.PhaseField.C91_zero"
   ],
   "note": "IPF colours and plots not modelled; scipy's rotation formula trusted"
  },
  {
   "property": "C92",
   "status": "proved",
   "theorems": [
    "Verif.SparseJac.C92_coloring",
    "Verif.SparseJac.C92_jacrev",
    "Verif.SparseJac.C92_jacfwd",
    "Verif.SparseJac.C92_positive",
    "Verif.SparseJac.C92_values_used"
   ],
   "note": "networkx greedy_color and scipy's sparse product are modelled from their documentation; zero products are not edges"
  },
  {
   "property": "C93",
   "status": "proved",
   "theorems": [
    "Verif.Fem.C93_triplets",
    "Verif.Fem.C93_residual"
   ],
   "note": "the script itself cannot be imported any more (module jax_am.fem.jax_fem does not exist); loads taken from core.py"
  },
  {
   "property": "C94",
   "status": "proved",
   "theorems": [
    "Verif.Fem.C94_differentiable",
    "Verif.Fem.LinearFamily.C94_linear",
    "Verif.Fem.LinearFamily.C94_gradient",
    "Verif.Fem.LinearFamily.C94_tangent",
    "Verif.Fem.C94_ties_ignored"
   ],
   "note": "linear solver idealised as exact on solvable systems; parameters are one flat vector"
  },
  {
   "property": "C95",
   "status": "proved",
   "theorems": [
    "Verif.Fem.C95_matrix_free",
    "Verif.Fem.C95_jfnk_affine",
    "Verif.Fem.C95_jfnk_error",
    "Verif.Fem.C95_matrix",
    "Verif.Fem.C95_same_matrix",
    "Verif.Fem.C95_precond"
   ],
   "note": "real arithmetic"
  },
  {
   "property": "C96",
   "status": "proved",
   "theorems": [
    "Verif.Fem.C96_derivative",
    "Verif.Fem.C96_value",
    "Verif.Fem.C96_unique",
    "Verif.Fem.C96_polynomial",
    "Verif.Fem.C96_kink"
   ],
   "note": "eigh is an oracle returning some orthonormal eigendecomposition of the symmetric part; exact real arithmetic, so the tolerance test for equal eigenvalues is equality"
  },
  {
   "property": "C97",
   "status": "proved",
   "theorems": [
    "Verif.Fem.C97_split",
    "Verif.Fem.C97_gradient",
    "Verif.Fem.C97_options",
    "Verif.Fem.C97_noise",
    "Verif.Fem.C97_monotone",
    "Verif.Fem.C97_unilateral",
    "Verif.Fem.C97_intact",
    "Verif.Fem.C97_isotropic"
   ],
   "note": "last clause is a finding: the residual stiffness 1e-3 is added without rescaling; PRNG noise is an arbitrary matrix"
  },
  {
   "property": "C98",
   "status": "proved",
   "theorems": [
    "Verif.Fem.C98_irreversible",
    "Verif.Fem.C98_history",
    "Verif.Fem.C98_minimiser",
    "Verif.Fem.C98_phase_solution",
    "Verif.Fem.C98_uniform",
    "Verif.Fem.C98_displacement",
    "Verif.Fem.C98_box",
    "Verif.Fem.C98_converged",
    "Verif.Fem.C98_lag",
    "Verif.Fem.C98_first",
    "Verif.Fem.C98_traction",
    "Verif.Fem.C98_force_wrong",
    "Verif.Fem.C98_damage"
   ],
   "note": "the solver calls in the loop are arbitrary functions; the displacement problem is nonlinear and only uniqueness is proved for it; last clauses are findings"
  },
  {
   "property": "C99",
   "status": "proved",
   "theorems": [
    "Verif.Fem.C99_active_mesh",
    "Verif.Fem.C99_active_returns",
    "Verif.Fem.C99_write_back",
    "Verif.Fem.C99_external",
    "Verif.Fem.C99_returns",
    "Verif.Fem.C99_not_removed",
    "Verif.Fem.C99_box",
    "Verif.Fem.C99_plate"
   ],
   "note": "dictionary keys are sorted node lists; the order of a Python set is not modelled (the result is stated as a set without repetition); last clause is a finding"
  }
 ]
}