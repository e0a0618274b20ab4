{"id": "C01", "title": "Structured box mesh is geometrically and combinatorially correct", "statement": "common.box_mesh(Nx,Ny,Nz,Lx,Ly,Lz) returns (Nx+1)(Ny+1)(Nz+1) points and Nx*Ny*Nz hexahedra; every connectivity entry is a valid point index, the 8 nodes of a cell are pairwise distinct, and node p of cell (i,j,k) sits at (i*hx,j*hy,k*hz) plus the p-th corner offset of the meshio hexahedron ordering, so every cell is the positively oriented brick of size hx*hy*hz at its grid position.", "quantifier": "every Nx,Ny,Nz>=1, every real domain size, every cell and every local node", "why_tests_cant": "a test fixes a few mesh sizes; index arithmetic of reshape/slice/stack must be right for all of them", "anchors": ["jax_am/common.py:box_mesh"]}
{"id": "C02", "title": "Structured rectangle mesh is correct", "statement": "common.rectangle_mesh(Nx,Ny,Lx,Ly) returns (Nx+1)(Ny+1) points and Nx*Ny quads, all indices valid, nodes distinct and listed counter-clockwise around the cell at grid position (i,j).", "quantifier": "every Nx,Ny>=1 and every domain size", "why_tests_cant": "finitely many mesh sizes cannot cover the index arithmetic", "anchors": ["jax_am/common.py:rectangle_mesh"]}
{"id": "C03", "title": "Lattice numbering is a bijection and agrees with the mesh cell order", "statement": "lbm to_id and to_id_xyz are mutually inverse between {0..Nx*Ny*Nz-1} and the grid; shape_wrapper puts the value computed for lattice id n at grid entry to_id_xyz(n); and cell n of common.box_mesh has its centroid at ((ix+1/2)hx,(iy+1/2)hy,(iz+1/2)hz) for (ix,iy,iz)=to_id_xyz(n), so laser heat, initial phases and VTK output all refer to the same cell.", "quantifier": "every lattice size and every lattice id / grid position", "why_tests_cant": "agreement of four independent index conventions for all sizes cannot be sampled", "anchors": ["jax_am/lbm/utils.py:to_id,to_id_xyz,shape_wrapper,compute_cell_centroid", "jax_am/common.py:box_mesh"]}
{"id": "C04", "title": "Phase-field neighbour lists are exactly the face neighbours of the grid", "statement": "compute_edges_in_order lists c2 among the neighbours of c1 iff the two cells share a face of the (Nz,Ny,Nx) grid; the relation is symmetric, irreflexive and each neighbour is listed once.", "quantifier": "every Nx,Ny,Nz and every pair of cells", "why_tests_cant": "boundary and degenerate grid sizes (Nx=1, ...) are unbounded in number", "anchors": ["jax_am/phase_field/utils.py:compute_edges_in_order"]}
{"id": "C05", "title": "CFD structured mesh: neighbour table, boundary tables and metric are coherent", "statement": "In mesh3d/mesh2d the neighbour table row of cell (i,j,k) is [self,x-,x+,y-,y+,z-,z+] with the cell itself replacing neighbours outside the domain; neighbourship is symmetric between opposite directions; the boundary-face list enumerates every (boundary cell, side) exactly once, grouped by the six index sets whose sizes are surf_set_num; D[s]/dS[s]>0 for every side s.", "quantifier": "every grid size >=1 in each direction, every cell and side", "why_tests_cant": "requires all grid sizes including 1-cell-thick grids", "anchors": ["jax_am/cfd/cfd_am.py:mesh3d,mesh2d,uniform_mesh"]}
{"id": "C06", "title": "CFD to phase-field temperature transfer keeps every value in its own cell", "statement": "The array produced by convert_temperature from a (Nx,Ny,Nz) CFD field has, at the phase-field index of grid cell (i,j,k) (x fastest), exactly the CFD value of cell (i,j,k).", "quantifier": "every grid size, field and cell", "why_tests_cant": "transposition errors are invisible on symmetric test grids; must hold for all shapes", "anchors": ["applications/phase_field/coupled/example.py:convert_temperature", "jax_am/phase_field/allen_cahn.py:phase_field"]}
{"id": "C07", "title": "Cylinder mesh renumbering preserves geometry for cells that avoid the two deleted points", "statement": "After deleting points 0 and 14 and renumbering, every connectivity entry still refers to the same coordinates and is in range, for every mesh whose cells do not use points 0 and 14; a cell that uses point 14 is silently re-attached to a different point.", "quantifier": "every point array of length >=15, every connectivity", "why_tests_cant": "the generated gmsh file is only one instance; validity depends on an undocumented precondition", "anchors": ["jax_am/fem/generate_mesh.py:cylinder_mesh"]}
{"id": "C08", "title": "Multi-layer polycrystal stacking", "statement": "Starting from a single-layer mesh with P points and applying generate_new_mesh for layers 1,2,...,k with the same neper base mesh: all connectivity entries are in range, the cells added by layer l only reference points added by layer l, and those points and centroids are the base ones shifted by l*domain_z; per-cell arrays stay aligned with the cells.", "quantifier": "every base mesh and every number of layers (induction over the build history)", "why_tests_cant": "history dependent: offsets accumulate over an unbounded number of layers", "anchors": ["jax_am/phase_field/utils.py:generate_new_mesh"]}
{"id": "C09", "title": "Element node-order tables are consistent permutations", "statement": "For every supported element type the re-ordering table is a permutation, reorder_inds maps each reference vertex to the mesh-local node that carries it (and so face node lists in mesh order describe the same faces), and the reference position of the basix node assigned to mesh-local node p is the position meshio's ordering prescribes for p; unsupported names raise.", "quantifier": "every element type name, every index array (any shape) fed to the re-ordering", "why_tests_cant": "a wrong table still yields plausible numbers for symmetric elements; the inverse property is for all index arrays", "anchors": ["jax_am/fem/basis.py:get_elements,reorder_inds,get_face_shape_vals_and_grads"]}
{"id": "C10", "title": "Affine patch test: gradients of affine fields are exact on every valid mesh", "statement": "For any element whose reference shape-function gradients sum to zero and any mesh whose Jacobians are invertible, the FEM gradient (sol_to_grad) of nodal values of an affine field u(x)=A x+b equals A at every quadrature point of every cell; with shape values summing to one, interpolated positions/values are exact too.", "quantifier": "every mesh geometry, dimension, element, quadrature rule, affine field", "why_tests_cant": "continuum of distorted meshes; tests check a few regular ones", "anchors": ["jax_am/fem/core.py:FEM.get_shape_grads,FEM.sol_to_grad,FEM.convert_from_dof_to_quad,FEM.get_physical_quad_points"]}
{"id": "C11", "title": "Element volumes on the structured mesh are exact and positive", "statement": "On common.box_mesh with HEX8 elements the Jacobian at every reference point is diag(hx,hy,hz) in the code's node order, so JxW at every quadrature point is weight*hx*hy*hz>0 and the JxW of a cell sum to its volume (weights summing to 1), and the total to Lx*Ly*Lz.", "quantifier": "every mesh size, domain size, cell and reference point", "why_tests_cant": "combines three node-order conventions for all sizes", "anchors": ["jax_am/fem/core.py:FEM.get_shape_grads", "jax_am/fem/basis.py:get_elements", "jax_am/common.py:box_mesh"]}
{"id": "C12", "title": "Splitting cells into batches never drops, duplicates or reorders a cell", "statement": "split_and_compute_cell returns, for any number of cells n>=1, exactly the list of per-cell kernel values (and Jacobians) in cell order, i.e. the batched evaluation equals the unbatched map; with zero cells it raises a division error.", "quantifier": "every number of cells, every kernel, every input arrays", "why_tests_cant": "the remainder logic depends on n mod 20; all n must work", "anchors": ["jax_am/fem/core.py:FEM.split_and_compute_cell"]}
{"id": "C13", "title": "Assembly adds each element contribution exactly once", "statement": "The assembled residual at node n, component i equals the sum over all (cell, local node) pairs attached to n of the cell kernel values (plus selected boundary faces), minus body force and Neumann loads; summed over all nodes it equals the sum over all element contributions.", "quantifier": "every mesh (including repeated nodes), kernel, solution", "why_tests_cant": "scatter-add with repeated indices over arbitrary connectivity", "anchors": ["jax_am/fem/core.py:FEM.compute_residual_vars_helper,FEM.compute_body_force_by_fn,FEM.compute_face"]}
{"id": "C14", "title": "The assembled sparse matrix is the derivative of the assembled residual", "statement": "The COO triplets (I,J,V) produced by newton_update define a matrix K with K*v equal to the directional derivative at sol of compute_residual in direction v, for every sol and v, given that the per-element Jacobian blocks are the derivatives of the element kernels; volume and Cauchy-boundary parts included.", "quantifier": "every mesh, element kernel, solution vector and direction", "why_tests_cant": "finite-difference tests are approximate and only sample directions", "anchors": ["jax_am/fem/core.py:FEM.compute_newton_vars,FEM.compute_residual_vars_helper"]}
{"id": "C15", "title": "Loads are conserved: total nodal load equals the integral of the applied load; internal forces sum to zero", "statement": "With partition-of-unity shape functions the sum over nodes of the body-force vector equals sum over quadrature points of f*JxW, the sum of the Neumann vector equals sum over selected face quadrature points of traction*scale, and the sum over nodes of the Laplace-type internal force is zero for every constitutive law and every solution.", "quantifier": "every mesh, load function, constitutive map, solution", "why_tests_cant": "global balance for arbitrary nonlinear constitutive functions", "anchors": ["jax_am/fem/core.py:FEM.compute_body_force_by_fn,FEM.compute_Neumann_integral_vars,FEM.get_laplace_kernel,FEM.get_mass_kernel"]}
{"id": "C16", "title": "Boundary faces selected exactly", "statement": "get_boundary_conditions_inds returns, sorted by (cell, face) and without repetition, exactly the (cell, local face) pairs all of whose face vertices satisfy the location predicate, and Mesh.count_selected_faces equals the number of them.", "quantifier": "every mesh, face table and location predicate", "why_tests_cant": "arbitrary user predicates and meshes", "anchors": ["jax_am/fem/core.py:FEM.get_boundary_conditions_inds", "jax_am/fem/generate_mesh.py:Mesh.count_selected_faces"]}
{"id": "C17", "title": "Dirichlet specification selects exactly the nodes satisfying the predicate with their values", "statement": "Dirichlet_boundary_conditions returns for the i-th triple the increasing list of exactly those nodes whose point satisfies location_fns[i], constant component vecs[i], and values value_fns[i](point) in the same order; mismatched list lengths raise; None yields no constraints.", "quantifier": "every mesh, every list of predicates/components/value functions", "why_tests_cant": "arbitrary user callbacks", "anchors": ["jax_am/fem/core.py:FEM.Dirichlet_boundary_conditions,FEM.update_Dirichlet_boundary_conditions"]}
{"id": "C18", "title": "Periodic pairing is correct whenever it is accepted", "statement": "If periodic_boundary_conditions returns, then for each spec the i-th A node is paired with a B-boundary node whose point lies within 1e-5 of mapping(A point), every such node being the only candidate (for nonempty A), and A/B/vec lists have equal length; if some A node has zero or several candidates the call raises.", "quantifier": "every mesh, predicates, mapping", "why_tests_cant": "failure branches depend on ragged candidate sets that tests rarely construct", "anchors": ["jax_am/fem/core.py:FEM.periodic_boundary_conditions"]}
{"id": "C19", "title": "Row elimination: residual encodes exactly the constrained problem", "statement": "The BC-modified residual at dofs u is zero iff every prescribed dof of u equals its prescribed value (the last prescription when a dof is prescribed several times) and the physical residual vanishes at every unprescribed dof; initial assignment of BC values makes all prescribed components vanish.", "quantifier": "every mesh, BC lists (overlapping allowed), residual vector, dof vector", "why_tests_cant": "overlapping BC lists and arbitrary index sets", "anchors": ["jax_am/fem/solver.py:apply_bc_vec,assign_bc,apply_bc"]}
{"id": "C20", "title": "All tangent operators agree: matrix-free elimination, PETSc zeroRows and the derivative of the BC residual", "statement": "For every matrix K: the operator returned by get_A_fn (JAX path), the matrix with Dirichlet rows zeroed and unit diagonal (PETSc path) and the derivative of the BC-modified residual act identically on every vector; the Jacobi preconditioner diagonal is the diagonal of that operator; the initial guess of the incremental solve satisfies the constrained rows of A x = b.", "quantifier": "every sparse matrix, BC lists, vectors", "why_tests_cant": "operator identity over all vectors", "anchors": ["jax_am/fem/solver.py:row_elimination,get_A_fn,jacobi_preconditioner,assign_ones_bc,linear_incremental_solver,copy_bc"]}
{"id": "C21", "title": "Linear problems are solved in one incremental step", "statement": "If the residual is affine with matrix K and the linear solver returns an exact solution of A inc = b, the linear branch of the row-elimination solver returns a solution that satisfies every Dirichlet value exactly and zero residual at all free dofs.", "quantifier": "every affine problem, BC lists, right-hand sides", "why_tests_cant": "all linear systems", "anchors": ["jax_am/fem/solver.py:solver_row_elimination,linear_incremental_solver"]}
{"id": "C22", "title": "Newton solver never returns an unconverged solution", "statement": "Whenever the nonlinear branch of solver_row_elimination returns (for any initial guess, residual, linear solver behaviour including garbage or NaN), the returned solution has finite entries and BC-modified residual norm <= 1e-6, so every prescribed dof is within 1e-6 of its value; a non-finite residual ends in an assertion error. The linear branch gives no such guarantee (only finiteness).", "quantifier": "every residual function, every (even adversarial) linear solver, every number of iterations", "why_tests_cant": "unbounded loop, arbitrary oracles, NaN exit path", "anchors": ["jax_am/fem/solver.py:solver_row_elimination"]}
{"id": "C23", "title": "Line search never accepts a step worse than the full step", "statement": "line_search returns dofs+alpha*inc with alpha in {1,1/2,1/4,1/8} and residual norm not larger than at alpha=1.", "quantifier": "every residual norm function", "why_tests_cant": "arbitrary residual landscapes", "anchors": ["jax_am/fem/solver.py:line_search"]}
{"id": "C24", "title": "Lagrange-multiplier residual and matrix", "statement": "The augmented residual is zero iff the physical residual plus eps*B^T lambda vanishes and all Dirichlet and periodic constraints hold exactly (eps nonzero); the augmented COO matrix is the derivative of the augmented residual, and is symmetric whenever K is; multiplier blocks are split consistently for any number and sizes of constraint groups.", "quantifier": "every mesh, constraint group lists, eps, dofs, multipliers", "why_tests_cant": "arbitrary numbers of groups, cumulative offset logic", "anchors": ["jax_am/fem/solver.py:compute_residual_lm,get_A_fn_and_res_aug,aug_dof_w_zero_bc,aug_dof_w_bc"]}
{"id": "C25", "title": "Lagrange-multiplier Newton: constraint violation on return", "statement": "Whenever the nonlinear branch of solver_lagrange_multiplier returns (without NaN) the Dirichlet and periodic constraint violations are each at most 1e-6/|eps|; unlike the row-elimination solver a NaN residual is returned silently.", "quantifier": "every residual, linear solver behaviour, iteration count", "why_tests_cant": "unbounded loop and arbitrary oracle", "anchors": ["jax_am/fem/solver.py:solver_lagrange_multiplier"]}
{"id": "C26", "title": "Unreachable solver paths: periodic+PETSc and dynamic relaxation always fail", "statement": "solver(problem,use_petsc=True) with periodic BCs raises on every problem that reaches the matrix construction, and dynamic_relax_solve raises on every input before doing any work; hence no caller can ever obtain a result from them. (Intended property 'they return a solution' is false.)", "quantifier": "every problem and argument", "why_tests_cant": "a negative for all inputs", "anchors": ["jax_am/fem/solver.py:get_A_fn_and_res_aug,dynamic_relax_solve,solver"]}
{"id": "C27", "title": "Implicit differentiation: adjoint and tangent sensitivities are exact and consistent", "statement": "If c(u(p),p)=0 near p with u differentiable, then the tangent computed by implicit_jvp_helper equals du/dp * pdot and the vector computed by implicit_vjp satisfies <vjp(v),pdot> = <v, du/dp pdot> for all v,pdot, given exact linear solves.", "quantifier": "every differentiable constraint, parameter, cotangent and direction", "why_tests_cant": "finite differences only sample", "anchors": ["jax_am/fem/solver.py:implicit_vjp,ad_wrapper", "jax_am/fem/autodiff_utils.py:implicit_jvp_helper"]}
{"id": "C28", "title": "Damping coefficient is always within its limits", "statement": "calC(t,cmin,cmax) lies in [cmin,cmax] for every t when cmin<=cmax, and is monotone in t.", "quantifier": "every real t, cmin<=cmax", "why_tests_cant": "continuum of inputs", "anchors": ["jax_am/fem/solver.py:calC"]}
{"id": "C29", "title": "Linear elasticity: symmetric, frame-indifferent to infinitesimal rotation, non-negative energy", "statement": "The linear-elastic stress is linear in the displacement gradient, symmetric, zero for skew gradients, and does non-negative work; the resulting element stiffness form is symmetric positive semidefinite for non-negative JxW.", "quantifier": "every displacement gradient, dimension, mesh, pair of fields", "why_tests_cant": "all matrices / all meshes", "anchors": ["jax_am/fem/models.py:LinearElasticity.get_tensor_map", "jax_am/fem/core.py:FEM.get_laplace_kernel"]}
{"id": "C30", "title": "Plasticity: stress stays within the yield surface for every load history", "statement": "After any sequence of update_stress_strain calls starting from the initial state, at every quadrature point the von Mises stress is <= 250, the stress is symmetric, and the hydrostatic part follows the elastic law of the total strain; a step that stays inside the yield surface is purely elastic.", "quantifier": "every load history (list of displacement fields), every cell and quadrature point", "why_tests_cant": "unbounded histories", "anchors": ["jax_am/fem/models.py:Plasticity.get_maps,Plasticity.update_stress_strain"]}
{"id": "C31", "title": "Neo-Hookean energy: objective, isotropic, zero and stationary at rest (3D)", "statement": "psi(QF)=psi(FQ)=psi(F) for rotations Q; psi>=0 for every deformation gradient with positive determinant; psi(I)=0; and the first Piola stress vanishes at zero displacement gradient (3D).", "quantifier": "every deformation gradient with positive determinant, every rotation", "why_tests_cant": "continuum of deformations", "anchors": ["jax_am/fem/models.py:HyperElasticity.get_tensor_map"]}
{"id": "C32", "title": "Error norms vanish exactly on reproduced fields", "statement": "compute_l2_norm_error and compute_h1_norm_error are zero when the nodal solution samples an affine field (on any valid mesh) and the true function is that field; they are non-negative always.", "quantifier": "every mesh, affine field", "why_tests_cant": "all meshes", "anchors": ["jax_am/fem/models.py:LinearPoisson.compute_l2_norm_error,LinearPoisson.compute_h1_norm_error"]}
{"id": "C33", "title": "MMA bounds: asymptotes straddle the design and move limits are respected", "statement": "After the asymptote/bounds computation: low<xval<upp strictly, low<alfa, beta<upp, xmin<=alfa<=xval<=beta<=xmax, alfa<beta, |alfa-xval|,|beta-xval| <= move*(xmax-xmin), in both the initial and the later iterations.", "quantifier": "every xval in [xmin,xmax] with xmin<xmax, every previous iterates/asymptotes, move>0", "why_tests_cant": "arbitrary iteration histories", "anchors": ["jax_am/fem/mma.py:MMA.mmasub"]}
{"id": "C34", "title": "MMA interior point keeps all iterates strictly feasible", "statement": "Every iterate of subsolv has alfa<x<beta and y,z,lam,xsi,eta,mu,zet,s>0, whatever the Newton direction returned by the linear solves, hence so does the returned point; all three nested loops terminate.", "quantifier": "every problem data, every direction oracle, every iteration", "why_tests_cant": "arbitrary linear solver outputs, nested unbounded loops", "anchors": ["jax_am/fem/mma.py:subsolv"]}
{"id": "C35", "title": "Topology optimisation keeps densities in [0,1] forever", "statement": "For any objective and constraint handles (arbitrary values and gradients), filter and number of iterations, if the initial densities are in [0,1] then every design passed to the handles and the returned design is in [0,1] and successive designs differ by at most the move limit.", "quantifier": "every objective/constraint function and history, every maxIters", "why_tests_cant": "history quantification over arbitrary callbacks", "anchors": ["jax_am/fem/mma.py:optimize,MMA.mmasub,subsolv"]}
{"id": "C36", "title": "MMA subproblem is a first-order exact convex approximation", "statement": "The separable approximations of objective and constraints built by mmasub have at xval the same gradient (and, for constraints, the same value) as the original functions, and are strictly convex between the asymptotes.", "quantifier": "every gradient, value and asymptotes", "why_tests_cant": "all inputs", "anchors": ["jax_am/fem/mma.py:MMA.mmasub"]}
{"id": "C37", "title": "Sensitivity filter", "statement": "Filter weights are non-negative with positive row sums, the filter reproduces constants when row sums are equal/symmetric, and preserves the total sensitivity for symmetric H and densities >= 1e-3; with fewer than 20 flexible cells the filter construction raises.", "quantifier": "every design, sensitivities, cell positions", "why_tests_cant": "all designs; small-mesh failure branch", "anchors": ["jax_am/fem/mma.py:compute_filter_kd_tree,applySensitivityFilter"]}
{"id": "C38", "title": "D3Q19 lattice tables satisfy the lattice-Boltzmann moment conditions", "statement": "rev is an involution reversing every velocity; weights are positive, sum to 1, are invariant under rev and have isotropic second moments cs^2*delta_ij and fourth moments cs^4(dd+dd+dd), all odd moments vanish.", "quantifier": "all 19 directions and all index combinations", "why_tests_cant": "table typo detection needs the complete moment system", "anchors": ["jax_am/lbm/core.py:simulation(vels,rev,weights)"]}
{"id": "C39", "title": "Equilibria carry exactly the prescribed mass, momentum and enthalpy", "statement": "Sum_q f_eq = rho, Sum_q e_q f_eq = rho*u, second moment rho*(cs^2 I + u u^T); Sum_q h_eq = enthalpy, for every rho,u,enthalpy,T.", "quantifier": "every real density, velocity, temperature, enthalpy", "why_tests_cant": "continuum of states", "anchors": ["jax_am/lbm/core.py:equilibrium_f,equilibrium_h"]}
{"id": "C40", "title": "Collision conserves mass, adds exactly force*dt momentum and source/rho*dt enthalpy", "statement": "collide_f leaves the density of every non-gas, non-wall cell unchanged and (in unfrozen cells with the code's velocity definition) changes its momentum by exactly dt*force; collide_h changes cell enthalpy by exactly dt*power/rho; gas and wall cells become zero.", "quantifier": "every distribution, force, temperature, relaxation time", "why_tests_cant": "continuum of states, both frozen and fluid branches", "anchors": ["jax_am/lbm/core.py:collide_f,collide_h,f_forcing,h_forcing_vmap,compute_u"]}
{"id": "C41", "title": "Streaming with free surface and walls conserves total mass", "statement": "update_f leaves the total mass (liquid densities plus interface masses) unchanged for every configuration in which the outer layer of the lattice consists of gas/wall cells and no liquid cell touches a gas cell; each cell's mass change is the sum of antisymmetric pairwise exchanges.", "quantifier": "every lattice size, phase configuration satisfying the separation condition, distributions, fill levels", "why_tests_cant": "all configurations, JAX wrap/clamp index semantics at the border", "anchors": ["jax_am/lbm/core.py:update_f,extract_local,extract_income,compute_total_mass"]}
{"id": "C42", "title": "Total mass equals the initial mass after every time step", "statement": "After every time step that ends with at least one interface cell, the total mass equals the total mass computed at start, for arbitrary forces, heat sources and parameters; without an interface cell the correction is lost.", "quantifier": "every number of steps, every force/heat history, every initial phase field", "why_tests_cant": "whole-history invariant with arbitrary driving terms", "anchors": ["jax_am/lbm/core.py:simulation main loop,compute_total_mass,refresh_for_output"]}
{"id": "C43", "title": "Walls are permanent, cell states stay legal, empty cells stay empty", "statement": "At every step the set of wall cells equals the initial one, every phase value is one of the four states, gas and wall cells carry zero distributions and mass after each step, and `melted` never reverts from 1 to 0.", "quantifier": "every number of steps and every driving history", "why_tests_cant": "whole-history invariant", "anchors": ["jax_am/lbm/core.py:simulation main loop,reini_*,adhoc_step,refresh_for_output"]}
{"id": "C44", "title": "Interface separates liquid from gas", "statement": "After reini_liquid_to_lg no liquid cell touches a gas cell. After the following adhoc_step this can fail: two adjacent interface cells may become gas and liquid in the same step (counterexample), so the property 'at the end of a time step no liquid cell touches gas' is false.", "quantifier": "every phase configuration", "why_tests_cant": "simultaneous update hazard needs a specific configuration", "anchors": ["jax_am/lbm/core.py:reini_liquid_to_lg,reini_gas_to_lg,adhoc_step"]}
{"id": "C45", "title": "Temperature-enthalpy relation is continuous, monotone and invertible", "statement": "compute_T is monotone in enthalpy on each branch and globally non-decreasing exactly when the enthalpy parameters match the solidus temperature; T<T_solidus iff enthalpy<enthalpy_s under consistent parameters.", "quantifier": "every enthalpy value and every consistent parameter set", "why_tests_cant": "continuum incl. branch boundaries", "anchors": ["jax_am/lbm/core.py:compute_T"]}
{"id": "C46", "title": "Laser path sampling", "statement": "read_path returns four lists of equal length; every sampled position lies on the polyline segment it was sampled from (within the segment's bounding box), the first sample of each segment is its start corner and the last one its end corner whenever the segment has at least two samples (a segment travelled in less than one time step yields only its start corner), power equals the segment's switch value, and per-segment times start at the accumulated travel time with increments dt.", "quantifier": "every list of corners, speeds and dt>0", "why_tests_cant": "all tool paths", "anchors": ["jax_am/lbm/core.py:read_path"]}
{"id": "C47", "title": "Streaming of enthalpy", "statement": "update_h conserves the total enthalpy of a configuration whose non-gas cells have no wall neighbour, and every wall link contributes exactly the fixed ambient equilibrium minus the outgoing population.", "quantifier": "every configuration", "why_tests_cant": "all configurations", "anchors": ["jax_am/lbm/core.py:update_h"]}
{"id": "C48", "title": "Initial grain field is one-hot", "statement": "ini_cond gives every cell exactly one order parameter equal to 1, namely that of its orientation, and 0 for all the others.", "quantifier": "every number of cells/orientations and every valid orientation assignment", "why_tests_cant": "all assignments", "anchors": ["jax_am/phase_field/allen_cahn.py:PFSolver.ini_cond"]}
{"id": "C49", "title": "Phase-field right-hand side is the exact gradient flow of a discrete free energy", "statement": "With ad_hoc=1 and no anisotropy the time derivative is -Lg times the gradient of local energy plus kappa/2 * sum of squared face differences; consequently the energy derivative along the flow is <=0; the diffusion part sums to zero over cells and vanishes on constant fields.", "quantifier": "every grid, every state, every temperature field", "why_tests_cant": "all states", "anchors": ["jax_am/phase_field/allen_cahn.py:phase_field,local_energy_fn,state_rhs"]}
{"id": "C50", "title": "Phase-field equivariance and stationarity", "statement": "A uniform single-grain field is stationary where the material is solid (zeta=1); relabelling orientations permutes the solution; each explicit step is y+h*f and the recorded time is the requested time.", "quantifier": "every grid, temperature, permutation, history of steps", "why_tests_cant": "all histories", "anchors": ["jax_am/phase_field/allen_cahn.py:state_rhs,explicit_euler,PFSolver.stepper"]}
{"id": "C51", "title": "Grain segmentation: BFS returns exactly the connected components", "statement": "BFS terminates and partitions the non-liquid cells into grains: every non-liquid cell is in exactly one grain exactly once, liquid cells in none; two cells are in the same grain iff they are joined by a path of neighbouring non-liquid cells of the same orientation; grain volumes sum to the non-liquid volume.", "quantifier": "every grid/graph, liquid mask and orientation map", "why_tests_cant": "graph algorithm correctness for all graphs", "anchors": ["jax_am/phase_field/utils.py:BFS,compute_edges_in_order,get_aspect_ratio_inputs"]}
{"id": "C52", "title": "Ghost cells realise the boundary conditions exactly", "statement": "For Dirichlet the face average of ghost and boundary cell equals the prescribed value, for Neumann the signed difference quotient across the face equals the prescribed derivative, for Marangoni the tangential components are Neumann and the normal one Dirichlet; any other type yields no ghost value.", "quantifier": "every field, value, spacing, side", "why_tests_cant": "all inputs and code paths", "anchors": ["jax_am/cfd/cfd_am.py:ghost_cell,get_GC_values"]}
{"id": "C53", "title": "Finite-volume operators are conservative", "statement": "The sum over all cells of laplace() equals the net boundary flux (zero for the default boundary treatment) for scalar and face-wise viscosity; the sum over cells of div() equals the net boundary convective flux and vanishes if boundary face velocities vanish; both vanish identically on constants (div when the face velocity is divergence free).", "quantifier": "every grid size, field, velocity, theta", "why_tests_cant": "telescoping for all sizes", "anchors": ["jax_am/cfd/cfd_am.py:laplace,div,get_face_vels,gradient"]}
{"id": "C54", "title": "Cell-based Poisson operator: residual, matrix and global balance agree", "statement": "For the linear equation the residual is affine with exactly the matrix used by compute_linearized_residual (Dirichlet terms included), the matrix is symmetric positive semidefinite, and summing the residual over cells gives minus total source minus total boundary flux; for the nonlinear harmonic-mean conductivity internal fluxes cancel pairwise.", "quantifier": "every grid, field, source, boundary assignment", "why_tests_cant": "all fields", "anchors": ["jax_am/cfd/cfd_am.py:poisson"]}
{"id": "C55", "title": "Discrete maximum principle of the implicit temperature step", "statement": "Any exact solution of the implicit energy step without source, convection and boundary flux satisfies min T0 <= T <= max T0; total heat content changes exactly by boundary flux, source and convection.", "quantifier": "every grid, initial temperature, positive conductivity and capacity functions", "why_tests_cant": "all data", "anchors": ["jax_am/cfd/cfd_am.py:energy_eqn,poisson"]}
{"id": "C56", "title": "Liquid fraction and re-melting record", "statement": "fluid_frac is in [0,1], 0 at/below Ts, 1 at/above Tl and monotone; solidID is at every time the running maximum of fluid fractions, hence within [0,1] and non-decreasing in time.", "quantifier": "every temperature history", "why_tests_cant": "unbounded histories", "anchors": ["jax_am/cfd/cfd_am.py:AM_3d.fluid_frac,AM_3d.time_integration"]}
{"id": "C57", "title": "Moving box stays inside the domain", "statement": "When the local mesh is not larger than the global one, for every time the velocity window satisfies 0<=x0, x1<=Nx, x1-x0=Nx_local (same for y; z window at the top); velocities outside the window are unchanged by a step. If the local mesh is larger the window is invalid.", "quantifier": "every time, speed, start position, mesh sizes", "why_tests_cant": "all times; rounding behaviour", "anchors": ["jax_am/cfd/cfd_am.py:AM_3d.get_moving_box_boundary,AM_3d.time_integration,AM_3d.toolpath"]}
{"id": "C58", "title": "Dead and failing CFD branches", "statement": "get_face_vel_component(axis=2) raises on every input; energy_eqn raises for any boundary specification containing a Dirichlet side (because the nonlinear flag is the string 'True'); gradient ignores its BCs argument.", "quantifier": "every input", "why_tests_cant": "negative for all inputs", "anchors": ["jax_am/cfd/cfd_am.py:get_face_vel_component,energy_eqn,poisson.apply_BC_to_residual,gradient"]}
{"id": "C59", "title": "Nonlinear CFD solve stops within max_it and reports honestly", "statement": "solver_nonlinear performs at most max_it Newton updates, and if it stopped earlier the relative residual is <= tol or not a number.", "quantifier": "every equation, every linear solver behaviour", "why_tests_cant": "arbitrary oracle loop", "anchors": ["jax_am/cfd/cfd_am.py:solver_nonlinear"]}
{"id": "C60", "title": "GAMMA thermal solver: ambient equilibrium, material bounds, untouched edges", "statement": "With laser off a uniform ambient field is a fixed point of update_T; fl in [0,1], k>0, cp>0; ghost faces realise -k dT/dn = q exactly; edge and corner ghost entries are never modified; under the CFL condition interior updates are convex combinations of neighbours.", "quantifier": "every grid size, temperature field, material parameters", "why_tests_cant": "all fields and sizes", "anchors": ["jax_am/cfd/gamma.py:update_mat,BC_thermal,laplace,update_T"]}
{"id": "C61", "title": "Snapshot times in the exported data frame", "statement": "to_data_frame assigns to the j-th snapshot file the time j*stepsave*dt. This holds iff every preceding file has exactly one point field; with k fields per file the recorded time is j*k*stepsave*dt (counterexample), and with fewer than two files the call raises.", "quantifier": "every list of snapshot files and fields per file", "why_tests_cant": "depends on an input shape tests do not vary", "anchors": ["jax_am/common.py:to_data_frame"]}
{"id": "C62", "title": "Logger set-up is idempotent", "statement": "Calling setup_logger any number of times with any names leaves exactly one handler per fresh logger and never adds one to a logger that already has handlers.", "quantifier": "every sequence of calls", "why_tests_cant": "history property", "anchors": ["jax_am/logger_setup.py:setup_logger"]}
{"id": "C63", "title": "VTU header rewrite", "statement": "modify_vtu_file changes exactly the non-overlapping occurrences of the version-2.2 header, leaves all other text and the number of lines unchanged, and is idempotent.", "quantifier": "every file content", "why_tests_cant": "all texts", "anchors": ["jax_am/fem/utils.py:modify_vtu_file"]}
{"id": "C64", "title": "Order parameters stay in [0,1] under a step-size condition", "statement": "Starting from the initial condition, if every explicit step satisfies h*Lg*(m_g/ad_hoc*(4m-2) + 2*kappa*ad_hoc*a_max*(1/hx^2+1/hy^2+1/hz^2)) <= 1, every order parameter of every cell stays in [0,1] for the whole run, with or without anisotropy; zeroing the liquid removes order parameters exactly above the liquidus plus one degree and is idempotent.", "quantifier": "every grid, temperature history, number of steps, number of orientations", "why_tests_cant": "unbounded histories and grids", "anchors": ["jax_am/phase_field/allen_cahn.py:state_rhs,explicit_euler,ini_cond,get_force_eta_fn"]}
{"id": "C65", "title": "Anisotropy factor is bounded and depends only on the interface line", "statement": "For anisotropy strength A>=0 the factor lies in [1+A/2, 1+A], and it does not change when the interface normal is reversed or rescaled.", "quantifier": "every normal vector, crystal orientation, strength", "why_tests_cant": "continuum of directions", "anchors": ["jax_am/phase_field/allen_cahn.py:update_anisotropy_helper"]}
{"id": "C66", "title": "Runge-Kutta step is fourth-order exact", "statement": "rk4 applied to y'=Ay is the degree-4 Taylor polynomial of exp(hA) applied to y; applied to a cubic polynomial of time it is the exact integral; states with vanishing right-hand side are fixed points of both integrators.", "quantifier": "every linear operator, cubic, state and step", "why_tests_cant": "infinitely many operators", "anchors": ["jax_am/phase_field/allen_cahn.py:rk4,explicit_euler"]}
{"id": "C67", "title": "Pressure correction is a well-posed problem up to a constant", "statement": "With no slip on five sides and no normal velocity on top the right-hand side of the pressure problem sums to zero for every predicted velocity; this is necessary for a solution; two pressures with equal residual differ by one constant; the velocity update never raises for positive sizes; the flux form and the ghost-cell form of the velocity conditions agree.", "quantifier": "every grid, velocity, temperature, linear solver", "why_tests_cant": "all fields and sizes", "anchors": ["jax_am/cfd/cfd_am.py:velocity_eqn.update,AM_3d.get_vel_bc_fn"]}
{"id": "C68", "title": "Linear finite-volume solve", "statement": "If the linear solver is exact on the system it is given, solver_linear returns a field with zero residual (in relative mode: zero residual in every row except row 0, where the value is 0); the velocity prediction has exactly one solution.", "quantifier": "every linear problem on every valid mesh", "why_tests_cant": "all right-hand sides and meshes", "anchors": ["jax_am/cfd/cfd_am.py:solver_linear,velocity_eqn"]}
{"id": "C69", "title": "Body heat source fails after switch-off", "statement": "With heat_source==1 every time step at t >= t_OFF raises a division by zero, so no run passes t_OFF; while the laser is on, the density inside the penetration depth does not depend on laser power.", "quantifier": "every state, parameters, solver behaviour", "why_tests_cant": "negative for all states", "anchors": ["jax_am/cfd/cfd_am.py:AM_3d.get_body_heat_source,AM_3d.toolpath,AM_3d.time_integration"]}
{"id": "C70", "title": "Surface heat flux lands in the right cell with the right sign", "statement": "Entry i*Ny+j of the top values is the loss of cell (i,j,Nz-1) plus the Gaussian flux at its face centre, and is scattered into that cell; all other sides are insulated; the flux is in [0, 2 P eta/(pi rb^2)], zero after switch-off; losses have the sign of Tref-T; the ambient field with laser off is an exact fixed point of the energy update.", "quantifier": "every grid, temperature, time", "why_tests_cant": "all sizes and fields", "anchors": ["jax_am/cfd/cfd_am.py:AM_3d.get_energy_bc_fn,energy_eqn.update"]}
{"id": "C71", "title": "Virtual work: the residual paired with any test field is internal work minus external work", "statement": "Whenever compute_residual returns R at a solution, for every nodal test field v the sum over nodes of R·v equals the quadrature over the cells of stress(∇u):∇v + mass(u)·v, plus the Cauchy (Robin) law tested with v on its selected faces, minus the body load tested with v, minus the prescribed tractions tested with v on their selected faces.", "quantifier": "every mesh, element, constitutive law, load, boundary data, solution and test field", "why_tests_cant": "weak form identity for arbitrary nonlinear laws, test fields and combinations of loads", "anchors": ["jax_am/fem/core.py:FEM.compute_residual_vars_helper,FEM.get_laplace_kernel,FEM.get_mass_kernel,FEM.get_cauchy_kernel,FEM.compute_Neumann_integral_vars,FEM.compute_body_force_by_fn"]}
{"id": "C72", "title": "The interior-point direction is the exact Newton direction", "statement": "At every strictly feasible point the direction assembled by subsolv — through either elimination branch (m<n or m>=n) and the back substitutions for dy,dxsi,deta,dmu,dzet,ds — makes the directional derivative of the full perturbed optimality residual equal to minus the residual; the reduced matrices are nonsingular so the solve cannot fail.", "quantifier": "every well-formed subproblem, barrier parameter, strictly feasible point and exact linear solver", "why_tests_cant": "algebraic elimination identity for arbitrary sizes and data", "anchors": ["jax_am/fem/mma.py:subsolv"]}
{"id": "C73", "title": "The optimiser never raises by itself", "statement": "With a linear solver that solves every nonsingular system, subsolv, mmasub and optimize return a value (no singular matrix, no empty maximum, no exhausted loop) for every well-formed subproblem, every design within its bounds, and all callbacks that do not raise.", "quantifier": "every subproblem, history, callbacks, number of iterations", "why_tests_cant": "totality over arbitrary callbacks and nested loops", "anchors": ["jax_am/fem/mma.py:subsolv,MMA.mmasub,optimize"]}
{"id": "C74", "title": "The point returned by subsolv is nearly optimal for the convex subproblem", "statement": "When subsolv returns without having exhausted the 200 passes of its last Newton loop, the returned point violates the constraints by at most 9e-7 and its cost exceeds that of every feasible point by at most 1.9e-6*(2n+2m+1) plus 9e-7 times the distance and multiplier terms; in general the gap of any strictly feasible point is bounded by its residual.", "quantifier": "every well-formed subproblem, linear solver and feasible competitor", "why_tests_cant": "optimality against all competitors", "anchors": ["jax_am/fem/mma.py:subsolv"]}
{"id": "C75", "title": "Interface normal and curvature are exact for smooth surfaces", "statement": "compute_curvature: phi is the exact gradient of affine fill fields and sums to zero over the lattice; the height-function formula is the exact curvature (minus the divergence of the unit normal) of every quadratic surface, in particular when the cells are filled up to such a surface within the seven-cell columns, along each axis; it is zero for planes and non-negative for concave caps; the axis chosen is one of largest |phi|; exchanging liquid and gas leaves kappa*phi unchanged; a flat interface produces no capillary force.", "quantifier": "every lattice size, site, fill field, quadratic surface", "why_tests_cant": "formula exactness over all real coefficients", "anchors": ["jax_am/lbm/core.py:compute_curvature"]}
{"id": "C76", "title": "Volume forces: Marangoni is tangential, recoil follows Clausius-Clapeyron, bulk feels only gravity", "statement": "The Marangoni force is orthogonal to phi, equals 2*st_grad*vof*|phi| times the tangential temperature gradient and has the sign of st_grad along it; the recoil force is rp*p_atm*exp(L/R(1/T_evap-1/T))*phi, increasing in T, zero at T=0; where phi=0 the force is rho*g; the temperature gradient ignores gas and wall cells and is exact for affine fields.", "quantifier": "every parameter set, phi, temperature field, site", "why_tests_cant": "universally quantified vector identities", "anchors": ["jax_am/lbm/core.py:compute_f_source_term", "jax_am/lbm/core.py:compute_T_grad"]}
{"id": "C77", "title": "Heat source: bounded laser absorption on upward faces, losses with the right sign", "statement": "The absorbed laser power is between 0 and 2*vof*|phi| times the beam peak, zero on faces not pointing up and when the switch is off; without interface there is no source; losses vanish at ambient temperature, have the sign of T0-T and decrease with T.", "quantifier": "every parameter set, site, temperature", "why_tests_cant": "inequalities over all reals", "anchors": ["jax_am/lbm/core.py:compute_h_src"]}
{"id": "C78", "title": "The simulation driven by its own forces conserves mass and keeps a quiet box quiet", "statement": "With the forces and heat sources the code computes and for every laser path: mass equals the initial mass after every step leaving an interface cell, walls are permanent, states legal, gas and wall cells empty; a closed gas-free box at ambient temperature (below solidus, or without gravity) never changes.", "quantifier": "every lattice, parameter set, initial phase, laser path of any length", "why_tests_cant": "invariant over all executions", "anchors": ["jax_am/lbm/core.py:simulation"]}
{"id": "C79", "title": "Conversion to lattice units is consistent", "statement": "Relaxation times are 3*nu*dt/h^2+1/2; temperature law, force density and heat source evaluated with the converted parameters on scaled arguments equal the physical ones divided by their units.", "quantifier": "every positive set of scales and all physical parameters", "why_tests_cant": "identity over all parameters", "anchors": ["jax_am/lbm/core.py:simulation"]}
{"id": "C80", "title": "Reference facet geometry: face points, normals and measures are consistent", "statement": "Every face quadrature point lies on its facet; tabulated normals are unit and point outwards; the shape function of a node off a facet vanishes on the whole facet; measure-weighted normals sum to zero and give the cell volume (divergence theorem on the reference cell).", "quantifier": "every supported element, facet, face rule", "why_tests_cant": "universally quantified over face coordinates and rules", "anchors": ["jax_am/fem/basis.py:get_face_shape_vals_and_grads", "jax_am/fem/basis.py:get_elements"]}
{"id": "C81", "title": "Nanson scale is the physical area (length) element", "statement": "On every non-degenerate cell the face scale used by the code equals weight times |dX/ds0 x dX/ds1| of the physical face (edge length in 2D) with the sign of the Jacobian determinant; on TET4/TRI3 meshes the scales of a face add up to the signed triangle area / edge length.", "quantifier": "every Lagrange element, mesh, cell, face point", "why_tests_cant": "curved cells, all coordinates", "anchors": ["jax_am/fem/core.py:FEM.get_face_shape_grads"]}
{"id": "C82", "title": "check_mesh_TET4 predicts whether assembly is possible; meshio cell types match the elements", "statement": "check_mesh_TET4 returns 6 times the sum of JxW per cell; gradients can be formed iff no quality is zero; all JxW are positive iff all qualities are. get_meshio_cell_type is defined for exactly the supported elements, injective and with the right number of nodes.", "quantifier": "every TET4 mesh; every string", "why_tests_cant": "all meshes, all strings", "anchors": ["jax_am/fem/generate_mesh.py:check_mesh_TET4", "jax_am/fem/generate_mesh.py:get_meshio_cell_type"]}
{"id": "C83", "title": "Surface area, traction and load integrals", "statement": "compute_surface_area returns the sum of areas of the selected faces (exactly when none is singular), independent of the solution; on a box side it is the exact area. compute_traction of an affine displacement returns the third stress column times the area whatever the normal; a constant Neumann value t on a box side puts the total load t*area on the nodes.", "quantifier": "every mesh, location function, stress function, affine field, box size, face rule", "why_tests_cant": "integrals over all meshes and fields", "anchors": ["jax_am/fem/models.py:Mechanics.compute_surface_area", "jax_am/fem/models.py:Mechanics.compute_traction", "jax_am/fem/core.py:FEM.compute_Neumann_integral_vars"]}
{"id": "C84", "title": "Surface conditions act only on nodes satisfying their location function", "statement": "On linear elements Neumann and Cauchy contributions vanish at every node where the location function is false.", "quantifier": "every mesh of linear elements, location function, boundary value and map", "why_tests_cant": "all meshes and callbacks", "anchors": ["jax_am/fem/core.py:FEM.get_boundary_conditions_inds", "jax_am/fem/core.py:FEM.compute_Neumann_integral_vars"]}
{"id": "C85", "title": "Patch test", "statement": "HEX8 on box_mesh: the residual of every affine field vanishes at every interior node for every stress function and quadrature rule, and with tractions T*n on any set of sides (Gauss rules) at every node all of whose sides are in the set.", "quantifier": "every box size and resolution, stress function, affine field, set of loaded sides", "why_tests_cant": "all meshes, materials and fields", "anchors": ["jax_am/fem/core.py:FEM.compute_residual", "jax_am/fem/generate_mesh.py:box_mesh"]}
{"id": "C86", "title": "Discrete solutions are unique", "statement": "For strictly monotone stress (plus monotone mass and Robin maps), positive volumes, elements without zero-gradient modes and every node connected to a prescribed one, two fields with the same prescribed values and the same free residuals coincide at all nodes; TET4, TRI3 (any rule), HEX8 and QUAD4 (2-point Gauss) cells of any shape have no zero-gradient modes, QUAD4 with a one-point rule has.", "quantifier": "every mesh, material map, boundary condition and pair of fields", "why_tests_cant": "all meshes, nonlinear maps and fields", "anchors": ["jax_am/fem/core.py:FEM.compute_residual", "jax_am/fem/basis.py:get_shape_vals_and_grads"]}
{"id": "C87", "title": "Linear problems: solver returns the unique discrete solution; patch test through the whole program", "statement": "For affine maps newton_update returns the same matrix at every state and the residual is K u - f; if the problem is determined an exact linear solver exists and with every exact linear solver (JAX or PETSc, with or without preconditioner, any guess) solver returns the unique field with the prescribed values and zero free residual. For HEX8 on box_mesh with affine Dirichlet data on all boundary nodes this field is the affine one.", "quantifier": "every linear problem, boundary specification, exact linear solver, initial guess; every box size and resolution", "why_tests_cant": "all problems and all solvers", "anchors": ["jax_am/fem/solver.py:solver_row_elimination", "jax_am/fem/core.py:FEM.newton_update", "jax_am/fem/core.py:FEM.compute_residual", "jax_am/fem/generate_mesh.py:box_mesh"]}
{"id": "C88", "title": "Elasticity: unique solution and exact bars", "statement": "LinearElasticity on box_mesh (HEX8, 2x2x2 rule): fields without strain at the quadrature points of a brick (or TET4/TRI3 cell of any shape) are rigid motions; if all components are prescribed on one grid plane the solver returns, for every exact linear solver, the unique discrete solution; with tractions T*n on some sides and the affine displacement on the remaining ones it returns exactly the affine displacement.", "quantifier": "every box size and resolution, load, boundary specification, exact linear solver, initial guess", "why_tests_cant": "all meshes, loads and solvers", "anchors": ["jax_am/fem/models.py:LinearElasticity.get_tensor_map", "jax_am/fem/solver.py:solver_row_elimination", "jax_am/fem/core.py:FEM.compute_residual", "jax_am/fem/generate_mesh.py:box_mesh"]}
{"id": "C89", "title": "Phase-field output and grain statistics", "statement": "write_sols records for every cell the lowest-numbered orientation with the largest order parameter (for the initial state: the assigned one), blackens exactly the cells above the liquidus; the printed percentages lie in [0,100] and are 0/100 exactly when no/every cell changed. process_eta on such a file never fails on the matching grid, its grains are the maximal face-connected sets of cells below the liquidus with equal orientation, each cell once, and volumes are cell counts times cell volume, adding up to the volume below the liquidus. A cell exactly at the liquidus is coloured but in no grain.", "quantifier": "every grid, state, temperature field", "why_tests_cant": "all grids and fields", "anchors": ["jax_am/phase_field/allen_cahn.py:PFSolver.write_sols", "jax_am/phase_field/allen_cahn.py:PFSolver.inspect_sol", "jax_am/phase_field/utils.py:process_eta"]}
{"id": "C90", "title": "Aspect ratios of grains", "statement": "A reported aspect ratio is at least 1; the division by zero happens exactly for grains of at least five cells whose weighted centroids are collinear; with equal cell volumes the result does not change under translation, rotation, reflection, scaling and reordering; a brick of a x b x c cells has 2 hx sqrt(a^2-1)/(hy sqrt(b^2-1)+hz sqrt(c^2-1)). With unequal volumes the result depends on the position of the grain (counterexample).", "quantifier": "every grain", "why_tests_cant": "all grains and similarity transforms", "anchors": ["jax_am/phase_field/utils.py:compute_aspect_ratios_and_vols"]}
{"id": "C91", "title": "Reading the Neper polycrystal", "statement": "For a lattice mesh listed x fastest from the origin the grid size and spacing are recovered exactly, also with coordinate errors below h/(2N+1); other orderings raise; cells of one grain get the same orientation; the grain-count assertion fails exactly when the largest tag differs; untagged cells silently get the last grain's orientation. The obj reader inverts the obj text of every polyhedral mesh and fails on blank lines and on faces without group. The crystal directions are q e_k q^-1, an orthonormal right-handed frame independent of the length and sign of q; the zero quaternion raises.", "quantifier": "every mesh, tag list, obj text, quaternion", "why_tests_cant": "all meshes and quaternions", "anchors": ["jax_am/phase_field/utils.py:Field.process_neper_mesh", "jax_am/phase_field/utils.py:Field.get_unique_ori_colors"]}
{"id": "C92", "title": "Sparse Jacobians by colouring", "statement": "Greedy colouring in any visiting order gives adjacent nodes different colours, uses exactly the colours 0..ncolors-1, and a colour never exceeds the number of neighbours. If all nonzero derivatives are in the sparsity pattern, jacrev and jacfwd return the Jacobian at every stored position (a position stored p times counts p times in the dense matrix), for positive pattern values. The values of the pattern do matter, contrary to the documentation: with cancelling values a wrong Jacobian is returned.", "quantifier": "every differentiable function, sparsity pattern, visiting order, point", "why_tests_cant": "all functions, patterns and orders", "anchors": ["jax_am/fem/experiments/sparsejac.py:jacrev", "jax_am/fem/experiments/sparsejac.py:jacfwd", "jax_am/fem/experiments/sparsejac.py:_greedy_color"]}
{"id": "C93", "title": "Assembly by loops agrees with automatic differentiation", "statement": "The five nested loops of numba_assembly.assemble produce, entry by entry and in the same order, the triplets that newton_update obtains by differentiating the cell kernel of LinearElasticity (at every solution), and the residual computed with this matrix equals compute_residual.", "quantifier": "every mesh, element type, quadrature, solution", "why_tests_cant": "all meshes and solutions", "anchors": ["jax_am/fem/experiments/numba_assembly.py:assemble", "jax_am/fem/experiments/numba_assembly.py:NumbdaLaplace.compute_residual"]}
{"id": "C94", "title": "Differentiating through a whole linear solve is exact", "statement": "For every family of linear problems K(q)u=f(q) with parameter-dependent Dirichlet values, continuously differentiable at p and uniquely solvable there, with a linear solver that solves solvable systems exactly: near p the forward solve of ad_wrapper succeeds and its result is differentiable at p, reverse mode returns the gradient of the program params -> J(fwd_pred(params)) for every differentiable objective, forward mode (ad_wrapper_jvp) returns its directional derivative. For nonlinear problems every continuous branch of regular solutions is differentiable. With periodic ties the reverse mode result is wrong (witness).", "quantifier": "every linear family, parameter, objective, direction, JAX and PETSc path", "why_tests_cant": "finite differences sample single problems and directions and have truncation error", "anchors": ["jax_am/fem/solver.py:ad_wrapper,implicit_vjp", "jax_am/fem/autodiff_utils.py:ad_wrapper_jvp,implicit_jvp_helper"]}
{"id": "C95", "title": "Matrix-free operators, difference quotients and debugging helpers agree with the assembled matrix", "statement": "The JVP operator of the flattened BC residual equals the operator built from the assembled triplets; the JFNK difference quotient equals it on affine functions and differs by at most 5e-4*M if the derivative along the line is Lipschitz with constant M; operator_to_matrix returns a matrix representing any linear operator and, for get_A_fn, exactly the matrix of assembleCSR; test_jacobi_precond logs ratio one wherever the diagonal does not vanish.", "quantifier": "every finite element problem with smooth maps, operator, vector, index", "why_tests_cant": "operator identities over all vectors", "anchors": ["jax_am/fem/solver.py:get_flatten_fn,apply_bc,get_A_fn_linear_fn,get_A_fn_linear_fn_JFNK,operator_to_matrix,get_jacobi_precond,test_jacobi_precond,assembleCSR"]}
{"id": "C96", "title": "The eigenvalue-based matrix function and its hand-written derivative rule are correct", "statement": "For every scalar function fn and every matrix x, whatever orthonormal eigendecomposition eigh returns: f applies fn to the symmetric part of x (symmetric result, fn(t) on each eigenvector of eigenvalue t, equal to the polynomial of the matrix when fn is a polynomial); f_jvp is linear and is the Frechet derivative of f at every x where fn is differentiable at the eigenvalues, also when eigenvalues coincide; f is differentiable at x only there; value and derivative rule do not depend on which eigenbasis eigh picks.", "quantifier": "every dimension, matrix (distinct or repeated eigenvalues), scalar function differentiable at the eigenvalues, direction, eigendecomposition", "why_tests_cant": "repeated eigenvalues and non-unique eigenvectors form a null set that random matrices miss; a derivative is a limit statement", "anchors": ["demos/fem/phase_field_fracture/eigen.py:24-92"]}
{"id": "C97", "title": "The spectral split of the fracture model: energy, stress, monotonicity, unilateral behaviour", "statement": "psi_plus and psi_minus are nonnegative and sum to Hooke's energy; the second stress implementation is the exact gradient of g(d)*psi_plus+psi_minus and equals the first one up to the added noise, with an explicit bound; the stress is strongly monotone in the displacement gradient uniformly in the damage; states of pure compression keep the undamaged stress and states of pure tension have all stress degraded; the law is isotropic; at d = 0 in tension the stress is 1.001 times Hooke's.", "quantifier": "every dimension, displacement gradient, damage value, noise matrix, rotation", "why_tests_cant": "monotonicity and differentiability are statements about all pairs of states including kinks of the split", "anchors": ["demos/fem/phase_field_fracture/example.py:23-106"]}
{"id": "C98", "title": "The fracture demo: irreversible damage, exact phase-field solve, lag and reported force", "statement": "In every run of the staggered loop, whatever the solvers return and whatever the load history, with or without the early stop: damage never decreases at any node, stays at least the initial crack, and the history variable is the largest tensile energy of the accepted displacements. For nonnegative history the phase-field residual vanishes exactly at the unique minimiser of the discrete crack energy, and solver returns it; a uniform history H gives damage 2H/(G_c/l+2H)<1. For every damage field at most one displacement solves the displacement problem. Findings: in the file as it stands damage does not depend on the load of its own step, is exactly the initial crack after the first one, and the reported force uses the normal (0,0,1) on the side y=Ly, giving 3/7 of the intended force in uniaxial tension.", "quantifier": "every mesh with positive volumes and no spurious modes (every box mesh), solver behaviour, load sequence, crack, damage field, noise", "why_tests_cant": "histories of arbitrary length and arbitrary solver outputs; uniqueness of a minimiser over an infinite-dimensional family of meshes and fields", "anchors": ["demos/fem/phase_field_fracture/example.py:28-47", "demos/fem/phase_field_fracture/example.py:110-159", "demos/fem/phase_field_fracture/example.py:162-258"]}
{"id": "C99", "title": "Active mesh and external faces of a growing part", "statement": "get_active_mesh returns the mesh restricted to the active cells (same geometry, order kept, points exactly the nodes of active cells, points_map_active their old numbers; raises exactly if an active cell names a missing point), and writing a solution back through points_map_active changes exactly those nodes. However cells are deposited, as long as none is removed, the faces returned by initialize_hash_map/update_hash_map are exactly the faces of active cells that no other active cell shares, each once, with the new cell number. On box_mesh: a face is external iff no active cell lies on its other side. Finding: when a cell is removed its faces stay, under cell number 0.", "quantifier": "every mesh, face table, activation sequence of any length, box size", "why_tests_cant": "all activation orders of all meshes; correctness depends on an incremental hash table over the whole history", "anchors": ["applications/fem/thermal/models.py:71-125"]}
{"id": "C100", "title": "Heat problem of the deposition examples: energy balance, stability, uniqueness, boundary sets", "statement": "For the Thermal class with two boundary functions: whenever the residual of a step vanishes, the heat content changes by dt times the power through the boundary (first function on all external faces, second on those accepted by top); the step is unconditionally stable in the quadratic heat content; at most one temperature solves it; a uniform equilibrium is kept; on box_mesh the residual always exists. On a brick with any active cells the second set is the horizontal external faces above the ground. Findings: the class works only with exactly two functions (the laser-off list of thin_wall.py raises IndexError); undersides of overhangs get the laser; in bare_plate.py the list is in the other order, so the laser heats walls and bottom and heat is lost at the upper side only.", "quantifier": "every mesh, boundary function, step size, old temperature, activation, box", "why_tests_cant": "an identity over all meshes and fields, existence and uniqueness over an infinite set, exceptions depending on list lengths", "anchors": ["applications/fem/thermal/models.py:11-68", "applications/fem/thermal/bare_plate.py:43-71", "applications/fem/thermal/thin_wall.py:64-79"]}
{"id": "C101", "title": "The thin-wall deposition loop poses the right problem in each step, with a stale step size", "statement": "In every run that returns, for every tool path and whatever the solver does: each step calls the solver once, on the mesh of exactly the cells reached so far, with exactly their external faces and the current temperature field as old temperature; nodes not reached before have the initial temperature; the final field is the last solution on the active nodes. Findings: the step size used is that of the last step in which a cell was born; no path with a laser-off row can be run, and none whose first step bears no cell.", "quantifier": "every mesh, base plate, tool path, solver behaviour", "why_tests_cant": "arbitrarily long tool paths and arbitrary solver outputs; the invariant ties five loop variables together", "anchors": ["applications/fem/thermal/thin_wall.py:42-143"]}
{"id": "C102", "title": "Material laws of topology optimisation", "statement": "Every stress map selectable in the topology optimisation code is a modulus times a linear elastic law: the stress is linear, symmetric and depends on the strain only, the law is self-adjoint, its energy is non-negative and vanishes only for zero strain; for densities in the unit interval the modulus stays between a positive lower and an upper bound and does not decrease when a density grows. set_params gives cell flex_inds[i] row i and every other cell the value 1, at all quadrature points. Finding: the two-material law at full density has modulus Emin+Emax, above the modulus E1 of its stiffer material.", "quantifier": "every gradient, density vector, case flag, list of design cells", "why_tests_cant": "positivity and monotonicity over all gradients and densities are universal statements over the reals", "anchors": ["demos/fem/topology_optimization/example.py:16-52", "applications/fem/top_opt/fem_model.py:8-107"]}
{"id": "C103", "title": "Compliance: what it is, its sign, its monotonicity", "statement": "compute_compliance returns the traction work on the first Neumann boundary if its face Jacobians are invertible and raises otherwise. For every discrete solution with zero prescribed displacements the compliance equals the elastic energy product, so it is non-negative; increasing the modulus of any cells never increases it; with positive moduli, cells without spurious zero-strain modes and nodes held by the clamped ones, the discrete solution is unique.", "quantifier": "every mesh, element, load, modulus field, discrete solution", "why_tests_cant": "a comparison between the solutions of two different linear systems on arbitrary meshes", "anchors": ["demos/fem/topology_optimization/example.py:54-66", "applications/fem/top_opt/fem_model.py:109-119", "jax_am/fem/core.py:373-400"]}
{"id": "C104", "title": "The gradient handed to the optimiser is the derivative of the compliance", "statement": "For a clamped body, one density per cell and exact linear solves: the forward prediction returns the discrete solution, and reverse mode through ad_wrapper returns exactly the derivative of compliance as a function of the densities; entry j is -penal (Emax-Emin) rho_j^(penal-1) times the elastic work of the solution in cell j for modulus one, hence never positive; more material never increases the objective and full material is best. The constraint handle returns mean(rho)/vf-1 and its derivative, with shapes (1,) and (1,m).", "quantifier": "every mesh, load, number of cells, density vector, exact linear solver, both back ends", "why_tests_cant": "differentiability and equality of derivatives for all density vectors and all problem sizes; finite differences only approximate at sample points", "anchors": ["demos/fem/topology_optimization/example.py:95-134", "jax_am/fem/solver.py:929-960"]}
{"id": "C105", "title": "The topology optimisation example satisfies the assumptions, on every rectangle", "statement": "For rectangle_mesh of any size and number of QUAD4 cells with the 2x2 rule, clamped at least on the left edge, any load: the boundary conditions are accepted and hold the body, no cell has a zero-strain mode, all Jacobians are positive; so C103 and C104 apply to the program. A load region that contains exactly the grid nodes of the right edge up to row k loads exactly the lowest k edges of the right side, with resultant traction times k Ly/Ny; with the numbers of the file the force is 300 downwards.", "quantifier": "every grid size, domain size, load, clamping predicate true on the left edge, density vector", "why_tests_cant": "all meshes of a family, and floating point predicates such as isclose evaluated at all grid nodes", "anchors": ["demos/fem/topology_optimization/example.py:73-102", "jax_am/common.py:58-73"]}
{"id": "C106", "title": "Von Mises stress of the topology optimisation applications", "statement": "The helper computes the equivalent stress of von Mises (textbook formula), unchanged by pressure and rotation, absolutely homogeneous, zero exactly for hydrostatic stress; the reported cell value is an average of the values at the quadrature points, between their minimum and maximum. Findings: in the plane cases the stress it is applied to is not the plane stress used for the displacements: a bar of full material pulled with stress T gets a value more than nine percent above T; for the accepted plane case 'eigen' the function cannot be evaluated (shapes 2x2 and 3x3).", "quantifier": "every stress tensor, rotation, mesh, displacement field, T > 0", "why_tests_cant": "invariance under all rotations and pressures, bounds on all meshes", "anchors": ["applications/fem/top_opt/fem_model.py:121-160"]}
{"id": "C107", "title": "Boundary faces of the thermo-mechanical demo", "statement": "For a box mesh whose cells are as large as the location tolerance 1e-5 (as in the file): the predicate of the top side takes all six faces of every cell of the highest layer and the upper faces of the layer below; the predicate of the bottom takes the two lowest node layers. A constant flux on the top brings seven times the heat of the real surface with the numbers of the file, and every non-negative flux at least three times (finding).", "quantifier": "every grid and box size with that cell size, every flux", "why_tests_cant": "a run gives a plausible temperature field; the surplus of faces is not visible in it", "anchors": ["demos/fem/thermal_mechanical/example.py:172-188", "jax_am/fem/core.py:get_boundary_conditions_inds"]}
{"id": "C108", "title": "Heat step of the thermo-mechanical demo", "statement": "The residual is evaluated iff there are cells and the selected faces have invertible Jacobians. Energy balance: the heat content grows by dt times (flux power plus nodal residuals). Stability estimate towards the ambient temperature. The step is linear, its solution unique; with an exact linear solver the Newton loop returns after at most one iteration with prescribed values and equations met to 1e-6, for every old temperature, laser position and switch, also for the mesh of the file. The loss term vanishes exactly at the ambient temperature and has the right sign; the laser is non-negative, symmetric, and brings absorbed power eta P. 300 K is the only equilibrium with laser off.", "quantifier": "every mesh, old temperature, laser position, switch, solver output that is exact", "why_tests_cant": "needs all states and an argument about the solver loop", "anchors": ["demos/fem/thermal_mechanical/example.py:19-47,153-222,249-251", "jax_am/fem/solver.py:solver"]}
{"id": "C109", "title": "Phases and stress of the thermo-mechanical demo", "statement": "The return mapping is the unique solution of the incremental response of perfect plasticity with thermal strain, for each phase. The phase after any sequence of updates is solid iff an update saw a temperature above and a later one a temperature below the liquidus, liquid iff one above and none below afterwards, else powder; phases never go back. Accumulated thermal strain is the expansion coefficient times (last temperature minus the temperature of the last liquid update). After any history the stored stress is symmetric, within the yield surface; the stress of a step is unique.", "quantifier": "every sequence of temperatures and displacements, every mesh", "why_tests_cant": "statement about all histories", "anchors": ["demos/fem/thermal_mechanical/example.py:50-150"]}
{"id": "C110", "title": "Time loop of the thermo-mechanical demo", "statement": "499 iterations, laser on in the first 249, its centre then between one and three quarters of the length. After any number of iterations that return: the temperatures form a chain of heat steps from 300 K; every tenth iteration makes a mechanical step with the temperature change since the last one; files are numbered 0,10,20,...; file 10j contains the displacement of step 10j and the temperature of step 10j-1 (finding). Stored phases depend on every tenth temperature only. The loop raises only what a solver call raises, with exact linear solves only the mechanical one.", "quantifier": "every number of iterations, every solver behaviour", "why_tests_cant": "needs an invariant over the loop", "anchors": ["demos/fem/thermal_mechanical/example.py:213-274"]}
{"id": "C111", "title": "Perfect plasticity step: uniqueness", "statement": "The return mapping of the plasticity model gives the unique stress and plastic strain increment that fulfil elastic law, incompressible flow, yield condition and maximum dissipation; hence two displacements with the same prescribed values and the same free residuals have the same stress, after any load history. A volume-preserving strain beyond yield can be scaled up without changing the stress.", "quantifier": "every history, displacement, mesh, dimension", "why_tests_cant": "comparison of two arbitrary solutions", "anchors": ["jax_am/fem/models.py:Plasticity"]}
{"id": "C112", "title": "Crystal plasticity: orientations and elastic constants", "statement": "The matrix of a quaternion is the map v -> q v q*, a rotation for unit quaternions, multiplicative, the same for q and -q. Rotating tensors of rank two and four is the change of frame. The cubic tensor has all symmetries in every orientation, is invariant under the cube's rotations and positive definite on symmetric strains in every orientation.", "quantifier": "every quaternion, rotation, strain", "why_tests_cant": "polynomial identities over all reals", "anchors": ["applications/fem/crystal_plasticity/models.py:21-47,77-116"]}
{"id": "C113", "title": "Crystal plasticity: slip, hardening, plastic volume", "statement": "Each slip increment has the sign of its shear stress (no negative work), is odd, strictly increasing and zero only with the stress. The hardening matrix is built iff the number of systems is a multiple of three and is then all ones, so equal resistances stay equal; they move towards the saturation value and do not cross it while the slip of the step is at most t_sat/h. Schmid tensors are trace-free and nilpotent in every orientation; the determinant of the plastic update is 1 - tr(L^2)/2 - det L, so plastic volume is kept exactly with one active system and only to first order in general (finding).", "quantifier": "every state, stress, slip system file with perpendicular rows", "why_tests_cant": "real-valued power laws; the volume drift is tiny in a run", "anchors": ["applications/fem/crystal_plasticity/models.py:49-69,122-166"]}
{"id": "C114", "title": "Crystal plasticity: local solver and stress", "statement": "The damped Newton loop accepts the first of five halvings that lowers the residual, else the last; if it returns, the residual norm is at most 1e-8 and the stress fulfils the elastic law to that accuracy and is symmetric to 2e-8. The first Piola-Kirchhoff stress converts to the Cauchy stress of the elastic part. A rigid rotation after the deformation rotates the stress and changes no internal variable; rotating sample and crystal together rotates the equations. An orthogonal elastic part gives zero stress and no change of state. The custom derivative rule solves the system that the derivative of every differentiable branch of solutions fulfils.", "quantifier": "every deformation gradient, state, material, solver of the linear systems, differentiable path", "why_tests_cant": "quantifies over all deformations and paths", "anchors": ["applications/fem/crystal_plasticity/models.py:132-247,277-283"]}
{"id": "C115", "title": "Crystal plasticity: load histories and drivers", "statement": "For every sequence of displacement fields and time steps from the initial state: orientations never change; while no step slips more than t_sat/h, each point has one common resistance that starts at 60.8, never decreases and never exceeds 109.8; steps with one active system keep the plastic volume. The cell stress is the weighted mean of the Cauchy stresses of its points. A call of simulation leaves the state before its last step in the problem, so the differentiated second call of simple.py starts from the state after nine steps of the first (finding).", "quantifier": "every history length, mesh, displacement field, orientation", "why_tests_cant": "invariant over all histories; state carried between calls", "anchors": ["applications/fem/crystal_plasticity/models.py:71-76,249-291", "applications/fem/crystal_plasticity/simple.py:24-99", "applications/fem/crystal_plasticity/calibration.py:73-97"]}
{"id": "C116", "title": "Dam break: lattice, equilibrium, velocity and collision", "statement": "The nine velocities are all offsets of a cell and its neighbours, v_inv is the reversal, the weights have the moments of an isotropic lattice. The equilibrium has the given density and momentum. The velocity update yields density and (clipped) momentum of the populations or not-a-number exactly for zero density. The collision keeps mass and changes momentum by -rho g / 3; inlet and outlet cells call functions that do not exist.", "quantifier": "every cell state, relaxation, gravity", "why_tests_cant": "identities over all reals", "anchors": ["jax_am/lbm/experiments/dam_break.py:42-117,189-238"]}
{"id": "C117", "title": "Dam break: streaming and mass exchange", "statement": "In a closed domain streaming changes the total mass only by the unbalanced exchange between interface cells: mass is conserved if no pair of neighbouring interface cells is unbalanced, and with the rules of the code mass is created as soon as a population moves from an interface cell touching fluid and gas to one touching only fluid (finding). Fluid cells change mass by the change of their populations. Interface cells keep their rest population; the fill level used is always 1 or 1/2 because the density passed is the mass (finding).", "quantifier": "every grid size, closed state, previous masses", "why_tests_cant": "sums over all links of grids of any size", "anchors": ["jax_am/lbm/experiments/dam_break.py:119-186,240-289,455-465"]}
{"id": "C118", "title": "Dam break: change of cell types and excess mass", "statement": "For every closed state the loops of update_types, which change neighbours in place, yield exactly: full interface cells become fluid, empty ones gas, gas next to the former and fluid next to the latter interface; walls stay; the state is closed again and the neighbourhood flags are right. Liquid touches gas afterwards only if a full and an empty interface cell were neighbours, which happens (finding). Excess mass is split with weights of sum one over interface neighbours, but read from the opposite direction, so it is lost at plane surfaces, and what is left in fdist is added again in every later pass (findings).", "quantifier": "every grid size and closed state", "why_tests_cant": "order of in-place updates over all grids", "anchors": ["jax_am/lbm/experiments/dam_break.py:295-444"]}
{"id": "C119", "title": "Dam break: runs", "statement": "From a closed state every pass yields a closed state or not-a-number. A wet cell with zero populations yields not-a-number. The populations of gas cells are never initialised, so if a run of N passes from a start with empty gas cells has no not-a-number, none of the initial gas cells was wet before the last pass: the script either breaks down or the dam never breaks (finding). The initial state is closed, separated and consistent.", "quantifier": "every number of passes, grid size, start block", "why_tests_cant": "induction over runs", "anchors": ["jax_am/lbm/experiments/dam_break.py:295-342,420-515"]}
{"id": "C120", "title": "Two-scale material: energy, stress and residual", "statement": "In all three modes and on every mesh the assembled residual is the gradient of compute_energy. Representative volume with fluctuation and fully resolved material with the total displacement have the same energy and residual. The network material is objective, its stress is the derivative through the right Cauchy-Green tensor; it need not vanish at rest. The two flattenings invert each other on symmetric tensors. Other modes and a missing H_bar raise.", "quantifier": "every mesh, field, H_bar, network, moduli", "why_tests_cant": "derivatives and all meshes", "anchors": ["applications/fem/multi_scale/fem_model.py:15-132", "applications/fem/multi_scale/utils.py:6-13"]}
{"id": "C121", "title": "Representative volume: averages and effective stress", "statement": "The gradient of every periodic field integrates to zero over box_mesh, so the mean deformation gradient is I + H_bar. At an equilibrium the derivative of the stored energy with respect to H_bar, however the fluctuation follows, is the integral of the stress (Hill-Mandel). With equal moduli the zero fluctuation is the equilibrium, with volume times density and stress.", "quantifier": "every box, resolution, quadrature, H_bar", "why_tests_cant": "all periodic fields, derivatives", "anchors": ["applications/fem/multi_scale/fem_model.py:67-132", "applications/fem/multi_scale/rve.py:29-110"]}
{"id": "C122", "title": "Representative volume: boundary conditions", "statement": "rve_problem succeeds on every mesh resolved by its tolerances; its conditions hold exactly for periodic fields that vanish at the corner; a zero of the augmented residual is an equilibrium among those. The ties along the edges are redundant: the augmented matrix is singular for every tangent (finding).", "quantifier": "every number of elements and edge length", "why_tests_cant": "all meshes, all fields, kernel vector for every tangent", "anchors": ["applications/fem/multi_scale/rve.py:29-110", "jax_am/fem/core.py:269-350", "jax_am/fem/solver.py:293-420"]}
{"id": "C123", "title": "Collection of training data", "statement": "The retry of a failed sample repeats the very same computation, so it never helps (finding). Every sample of the box has a positive determinant of I + H. collect_data returns iff every sample not on disk succeeds in some pass, writes each exactly once, and otherwise never ends (finding). The index parsed from a file name is the one it was written with, below 100000.", "quantifier": "every set of files, oracle, number of samples", "why_tests_cant": "unbounded loops", "anchors": ["applications/fem/multi_scale/rve.py:112-230"]}
{"id": "C124", "title": "Training of the surrogate", "statement": "The split is a partition for every permutation, with empty validation set up to five rows; batches cover the data once. load_data does not read what collect_data writes (finding). A network that fits a row yields its energy in the deployed material under every rotation. The scaled error is the mean square error over the squared range and zero iff all predictions are right; on the training rows the percent errors always contain inf or NaN (finding). The polynomial features are isotropic, two of them do not vanish at rest (finding). The fit is the least squares solution; with fewer than ten rows the normal matrix is singular. Networks with tanh, sigmoid, softplus are differentiable for all weights, with relu and selu not.", "quantifier": "every data set, permutation, weights, depth, width", "why_tests_cant": "all weights and data", "anchors": ["applications/fem/multi_scale/trainer.py:23-240"]}
{"id": "C125", "title": "Tensile test of the two-scale material", "statement": "Inclusions are the open cubes around unit centres, disjoint for ratio at most 1/2; then the matrix moduli used for the traction are right on the top face, beyond 1/2 not. The energy of the resolved material is non-negative and zero iff all points are rotated; the first record is zero. The traction of an affine field is the third stress column times the area. The rate of energy under unit speed of the top is the reaction, balanced by the bottom. A run has eleven records, record k belonging to displacement k/100 of the height, independent of earlier ones.", "quantifier": "every arguments, mesh, oracle", "why_tests_cant": "all fields and meshes", "anchors": ["applications/fem/multi_scale/deploy.py:48-119", "applications/fem/multi_scale/fem_model.py:134-185"]}
{"id": "C126", "title": "Load cycle of the plasticity demo", "statement": "For every list of end displacements and every solver returning exact solutions of the load steps, all stored stresses of the cube are uniaxial and equal in all cells and quadrature points, and the averaged stresses are those of an elastic, ideally plastic bar. Exact solutions exist for every step. For the displacements of the demo the curve is 0, 70, 140, 210, 250 (7 times), 180, 110, 40, -30, -100, -170, -240, -250 (3 times). Horizontal shifts and rotation about the vertical axis do not change the residual, so no step has a unique solution and the tangent matrix is singular (finding).", "quantifier": "every mesh of the cube resolved by the tolerances, every displacement history, every exact solver", "why_tests_cant": "unbounded histories and all solutions of each step", "anchors": ["demos/fem/plasticity/example.py:12-131", "jax_am/fem/models.py:138-206", "jax_am/fem/core.py:269-313"]}
{"id": "C127", "title": "Stacking of arrays with its own derivative rule", "statement": "jax_array_list_to_numpy_diff returns the rows of the given arrays in order, whenever it returns; it returns for every non-empty list of arrays of equal height and raises on an empty list. Used on the pieces of split_and_compute_cell, as the commented lines of core.py do, it works iff the number of cells is at most 20 or a multiple of 20 and raises a shape error otherwise (finding). Its forward rule raises exactly when the function does and returns the directional derivative.", "quantifier": "every list of arrays, every number of cells, every tangent", "why_tests_cant": "The failing cell counts are those not divisible by 20 above 20; a test with one mesh sees one count.", "anchors": ["jax_am/fem/autodiff_utils.py:143-183", "jax_am/fem/core.py:601-658"]}
{"id": "C128", "title": "Derivatives printed by the inverse demo", "statement": "For the hyperelastic block of the inverse demo with parameters E, rho, scale_d, scale_n, scale_s: the gradient returned by reverse mode through ad_wrapper always satisfies E dE = sum of rho drho, even if the forward or adjoint system is solved inexactly. At an exact solution E dE + scale_n dscale_n + scale_s dscale_s = 0. Changing scale_d moves the set of exact solutions rigidly along z. With an exact adjoint and positive determinants dscale_d = 2 Lz sum of u_z, and the finite difference of the demo exceeds it by exactly h scale_d Lz^2 num_nodes (0.216 in the demo).", "quantifier": "every mesh of cells with partition of unity and regular top faces (in particular every box mesh), all parameter values, every linear solver, both solver variants", "why_tests_cant": "The demo compares two numbers by eye for one set of parameters; the identities hold for all of them and do not need the solution.", "anchors": ["demos/fem/inverse/example.py:14-135", "jax_am/fem/solver.py:857-948"]}
{"id": "C129", "title": "Poisson demo solves the Galerkin problem", "statement": "For a rectangle of QUAD4 cells with zero values on the left and right sides, fluxes through bottom and top and a source: the arrays for which the assembled residual vanishes at the free nodes and the Dirichlet data hold are exactly the solutions of the Galerkin problem (Dirichlet form of the bilinear interpolants integrated exactly, loads at the Gauss points). The linear solver branch returns that solution, which is unique and minimises the energy. Larger sources and fluxes give a nowhere smaller solution when the cells are not flatter than 1 : sqrt 2. Data symmetric about the midline give a symmetric solution. The residuals on the held sides add up to minus the total load.", "quantifier": "all numbers of cells, side lengths (with the tolerance of isclose below the cell sizes), all sources and fluxes, every exact linear solver, PETSc or JAX path", "why_tests_cant": "The demo writes a file nobody compares; the statements hold for the discrete solution itself, not up to discretisation error.", "anchors": ["demos/fem/poisson/example.py:9-60", "jax_am/fem/core.py:113-560"]}
{"id": "C130", "title": "Earlier finite-volume operators against the present ones", "statement": "The operators of cfd/experiments/old agree with those of cfd_am.py: div and gradient are the present ones times the cell volume, gradient is the sum of cell_to_face values times face areas (so its total is a surface term), and the plane operators are the three-dimensional ones on one insulated layer of cells. get_surf_values agrees with cell_to_face on every side for every condition, except on +x where it reads the second cell instead of the last (violated for an insulated side and three cells). The number returned by the linear solver is the relative residual of its linear system; the nonlinear loop stops within max_it, and before that only with a last increment of at most tol times the solution - but an initial guess longer than |ones|/tol is returned unchanged.", "quantifier": "all fields, grid sizes, spacings, boundary conditions and velocities; all residual functions and iterative methods", "why_tests_cant": "Two generations of the same operators are never compared in the repository; the deviating side of get_surf_values shows only for more than two cells and conditions other than Dirichlet.", "anchors": ["jax_am/cfd/experiments/old/discretization.py:5-122", "jax_am/cfd/experiments/old/discretization2D.py:4-66", "jax_am/cfd/experiments/old/setupAM.py:5-25", "jax_am/cfd/experiments/old/solver.py:6-72"]}
{"id": "C131", "title": "Balance of forces and moments of the reactions", "statement": "For every mesh, element and solution: if the stress is symmetric (small strain) the moment of the nodal residual about the reference positions equals the moment of the loads; if P F^T is symmetric (finite strain, as for the neo-Hookean law) the same holds at the deformed positions. Consequences for the demos: clamped cantilever with end traction has reaction force (0,0,100A) and bending moment 100 Lx A; the twisted block and the buckled beam have opposite end forces and balanced end moments; the prescribed twist is a rotation by 30 degrees with a contraction by cos 30.", "quantifier": "all meshes with regular elements, all element tables with partition of unity, all solutions (finite strain: with positive determinants), all numbers of cells and box sizes for the program statement", "why_tests_cant": "moment balance is an identity over all solutions and meshes; a test evaluates one solution up to solver tolerance, and no test of the repository looks at reactions", "anchors": ["demos/fem/linear_elasticity/example.py:13-74", "demos/fem/hyperelasticity/example.py:11-82", "applications/fem/buckling/beam3d.py:12-77", "jax_am/fem/core.py:141-171", "jax_am/fem/models.py:105-135"]}
{"id": "C132", "title": "Flow past a cylinder: conservation, reflection and mirror symmetry", "statement": "For every mask, relaxation time, grid size and number of steps the total mass stays the same (4000000 in the program); the momentum lost in a step is twice the momentum carried into the cylinder; what a cell sends into the cylinder comes back to it unchanged; the collision keeps mass and momentum and scales the distance to equilibrium by 1-1/tau; the uniform flow is steady exactly if it is at rest or there is no cylinder; mirrored starts give mirrored runs, so without asymmetric noise there is no vertical velocity on the axis and no lift, ever; the initial density is rho0 everywhere; populations stay non-negative for tau >= 1 and moderate speed but not for the tau of the program.", "quantifier": "all grids, masks, noise fields above -100, relaxation times, numbers of steps, states", "why_tests_cant": "conservation and symmetry over all initial states and 4000 steps cannot be observed up to rounding on single runs; the repository has no test of this file", "anchors": ["jax_am/lbm/experiments/cylinder.py:13-102"]}
{"id": "C133", "title": "Eigenvalue constraints: modes, derivatives, rigid motions, smooth minimum", "statement": "The pairs K x = lambda M x of the two assembled matrices of eigen.py are exactly the discrete modes (elastic virtual work equals lambda times inertia for every test field); pairs with different eigenvalues are orthogonal, eigenvalues are Rayleigh quotients and not negative. For every differentiable branch of pairs the program's d_eigen_val is the derivative of the eigenvalue; a simple eigenvalue has exactly one such branch, and gradc of the constraint function is then the gradient of the constraint. On rectangles of QUAD4 cells with positive densities the eigenvalue 0 belongs exactly to the three-dimensional space of plane rigid motions and vMv is never 0; if all other eigenvalues exceed 20, a correct solver with target 10 lists the rigid motions first, so the pairs 3, 4, 5 used by the program are elastic modes. c2 <= 0 implies that the three eigenvalues exceed min_freq.", "quantifier": "all free meshes, densities, vectors, curves of densities; all rectangle sizes for the rigid motions; all lists returned by the solver", "why_tests_cant": "a test compares one difference quotient at one design; it cannot show the derivative for every branch or the exact null space for every mesh", "anchors": ["applications/fem/top_opt/eigen.py:26-62", "applications/fem/top_opt/eigen.py:104-195", "applications/fem/top_opt/eigen.py:239-265"]}
{"id": "C134", "title": "Dynamic relaxation: soundness, energy decay, bound on the passes, stalls, and the package's version", "statement": "DynamicRelaxSolve of dr.py reports convergence (tolerance below 1) only with the prescribed boundary values and every free residual within the tolerance, for every residual and tangent. The lumped masses satisfy the stability limit of the scheme. On every linear symmetric problem, positive semidefinite on the free unknowns and solvable, the discrete energy decreases in every pass and the program ends within a number of passes bounded by the start energy and the tolerance, converged or stopped by a velocity that is exactly zero; a definite problem where the latter happens exists. With tolerance >= 1 the start is returned unchecked. The package's dynamic_relax_solve, called a direct translation, can (with its unbound names supplied) only return its start value or raise; with its print call repaired too it moves on a straight line and with one unknown never ends.", "quantifier": "every number of unknowns, residual and tangent function, boundary list, start, tolerance; linear problems of every size for the convergence part", "why_tests_cant": "Convergence for all linear problems, sizes and dampings, and the impossibility of a result, are not observable by finitely many runs; the stall is a set of measure zero.", "anchors": ["applications/fem/buckling/dr.py:DynamicRelaxSolve,calC,assembleVec,assembleCSR,applyBCs,homogenizeBCs", "jax_am/fem/solver.py:dynamic_relax_solve,calC,printInfo,assembleCSR"]}
{"id": "C135", "title": "Finite-strain plasticity of the forming application: return map, load paths, frames, and the missing volume split", "statement": "From every admissible state and for every invertible deformation the return map gives the unique solution of the implicit equations of associative J2 flow with linear hardening, with the Kuhn-Tucker conditions. Along every load path the elastic strain stays symmetric positive definite, the shear stress stays in the von Mises cylinder and the plastic strain never decreases. Stresses transform correctly under superposed turns, Cauchy stress is symmetric, repeating a step changes nothing, and on every mesh the nodal forces have no resultant and no moment. The code uses f where f_bar belongs: a pure dilation scales the shear stress and can yield, and even the elastic law has no stored energy. single.py holds only vertical displacements, so its solutions are not isolated; example_disp.py prescribes two different values on the edge of the upper face.", "quantifier": "all states, deformation gradients, load paths, turns, meshes with regular elements", "why_tests_cant": "tests see a few load paths; the claims are about every path, the absence of any energy function and whole families of solutions", "anchors": ["applications/fem/forming/example_disp.py:20-197", "applications/fem/forming/single.py:32-184", "applications/fem/forming/example_force.py:20-220"]}
{"id": "C136", "title": "Topology optimisation programs: stress constraint, optimiser loop, two materials, plastic load steps", "statement": "The stress constraint of the L-shaped bracket is a corrected p-norm: the correction factor converges to the ratio of the largest stress to the p-norm; its gradient is the true derivative times (r+cp)/(2cp) because the stored factor is overwritten before differentiation, and designs with overstressed cells can be accepted up to a stated factor. The optimiser loop makes a number of passes that depends on the iteration limits only: the relative tolerance never ends it. For two materials the gradient of the compliance with respect to density and share is the stated multiple of the elastic work of the cell and never positive, the weight constraint has the right gradient, and mixtures never pay. With plasticity the returned stress is the unique response for the modulus and yield stress of the cell, no state leaves the yield surface, the state shown belongs to the last but one load, and running backwards with the loads of the last step gives the derivative all the same.", "quantifier": "all designs, mesh sizes, handles, tolerances and iteration limits; all load sequences, parameter laws, solutions and stale load functions", "why_tests_cant": "Gradient factors, acceptance bounds and loop counts hold for all designs; a test sees one optimisation run, and the wrong gradient still descends.", "anchors": ["applications/fem/top_opt/L_shape.py:93-128", "applications/fem/top_opt/mma.py:421-493", "applications/fem/top_opt/multi_material.py:17-100", "applications/fem/top_opt/plasticity.py:30-204"]}
{"id": "C137", "title": "Driver of the GAMMA solver: tool path, directions, recorded window, recording steps", "statement": "Inside a segment of the tool path the laser position is linear in time and the direction is the one stored for that segment. The stored direction of a movement has length one iff the movement is along an axis or has length one, because the second component is divided by a norm that already contains the normalised first one; distances in the recorded window are scaled by that length. Position and direction lookups all succeed iff the last time step is at least half inside the table. The recorded window is a bilinear interpolation: between the bounds of the array, exact for affine fields up to a shift (dy-dx)/2, zero outside; each depth is one layer of cells. File number k is written in step 24+50k.", "quantifier": "for all tool paths with increasing times, movements, time steps, arrays, window points and steps", "why_tests_cant": "the shipped tool path only moves along the axes with equal spacings and a whole number of steps, so running it shows none of the deviations", "anchors": ["applications/cfd/gamma/example.py:33-45", "applications/cfd/gamma/example.py:87-123"]}
{"id": "C138", "title": "Calibration of the crystal plasticity model: gradient through ten load steps, stale boundary values, state left behind", "statement": "All load steps prescribe the same degrees of freedom and have the same dt, so running backwards with the Dirichlet values and the dt of the last step (attributes of the problem) changes nothing: jax.grad(simulation)(alpha) of a first call is the derivative of the last averaged stress with respect to the scale of the initial slip resistance, including the direct dependence of the stress on the parameters. simulation is not a function of alpha: params[1] = alpha*params[1] and set_params change the state of the problem, a call that returns leaves the state before its last step, a call whose step k fails leaves the state before step k, and the next call scales that state.", "quantifier": "for all meshes, material laws, adjoint solvers exact on the given systems, scales, load step solutions differentiable in their parameters; for all updates, failures and pairs of calls", "why_tests_cant": "The script prints one gradient and compares it with a finite difference taken from separate runs; it shows neither that the stale boundary values are harmless for every mesh and law, nor what a second call in one process computes.", "anchors": ["applications/fem/crystal_plasticity/calibration.py:37-110", "applications/fem/crystal_plasticity/models.py:245-257", "jax_am/fem/solver.py:857-948", "jax_am/fem/core.py:269-313"]}
{"id": "C139", "title": "Identification of a source in the Poisson equation: prediction, gradient, Taylor test, what the data determine, the calls of the optimiser", "statement": "fwd_pred(params) returns the unique solution of the weak form of -Δu = b, zero on the six faces, with b the interpolation of params; it is linear in params, so J_total is quadratic, jax.grad(J_total) is its derivative and the first order remainder of the Taylor test is exactly h² times a constant. Some params reproduce true_sol exactly although the true source is not piecewise trilinear; the gradient vanishes exactly when the prediction agrees with the data at all observed nodes, so every stationary point is a global minimum. Even if all nodes were observed the source would not be determined: a change other than zero leaves prediction and objective unchanged. compute_L2 is a norm squared on nodal fields and a reported relative error is zero exactly for equal fields. jac(x) ignores x and returns the gradient at the last point where fun was called (AttributeError before); each call of fun adds one file and one row.", "quantifier": "for all box meshes (numbers of cells, edge lengths), exact linear solvers, parameters, directions, step sizes, sets of observed nodes; for all sequences of calls of fun and jac", "why_tests_cant": "The program runs one Taylor test at params = 0 for one mesh and one random choice of 250 nodes; it does not show that the remainder is exactly quadratic, that stationary points are minima, that the minimum is attained, or that the source is not determined by any data.", "anchors": ["applications/fem/full_field_infer/poisson.py:32-66", "applications/fem/full_field_infer/poisson.py:75-205", "jax_am/fem/solver.py:929-948", "jax_am/fem/core.py:439-490"]}
{"id": "C140", "title": "Temperature fields prescribed for the phase-field solver: moving point source, varying speed and power, quenching", "statement": "The field of multi_scan and simple/example.py around a laser that moves with constant speed in a direction of length one solves the heat equation outside the laser, and only then; the heat flux through the top surface vanishes; the heat that crosses a small half-sphere around the laser tends to Q; the field is above ambient and not larger than that of a source at rest, and a point ahead of the laser is not hotter than the opposite point behind. In example_grf.py the laser position is the integral of its speed and covers 20 % to 80 % of the length. In solidification/example.py the liquidus isotherm is the plane z = 0.2 t. The cap at 2000 does not influence the evolution.", "quantifier": "for all material constants, speeds, directions, laser positions, times and points (real numbers)", "why_tests_cant": "A run evaluates the field at the cell centroids of one mesh; a wrong sign or factor in the exponent gives equally smooth pictures, and the differential equation, the limit of the flux and the integral cannot be sampled.", "anchors": ["applications/phase_field/multi_scan/example.py:34-48", "applications/phase_field/simple/example.py:22-35", "applications/phase_field/simple/example_grf.py:22-44", "applications/phase_field/solidification/example.py:23-34", "jax_am/phase_field/allen_cahn.py:54-88"]}
{"id": "C141", "title": "Laser path and time loop of the multi-scan phase-field program", "statement": "read_path succeeds exactly if there are at least two corners and the lists cover them; it writes ⌈length/(vel dt)⌉ rows per segment, with increasing times that differ by at most dt. Each row lies on its segment with a direction of length one, but strictly ahead of the position of a laser with the given speed from the second row on, by at most vel dt. The loop is explicit Euler with the temperature of the start of each step. The column `switch` has no influence on anything the program computes: the laser cannot be switched off. Under the step-size condition the order parameters stay in [0, 1] for every path.", "quantifier": "for all lists of corners and switches, speeds, time steps, initial grains, cell centroids, model parameters", "why_tests_cant": "The application comes with one path; no test checks rows for other paths, and a column without influence does not show in any single run.", "anchors": ["applications/phase_field/multi_scan/example.py:34-112", "jax_am/phase_field/allen_cahn.py:54-131"]}
{"id": "C142", "title": "One-way coupling of the flow solver and the phase-field solver", "statement": "The flow solver has done max(1, ⌈(t - Dt)/Dt⌉) steps when the phase-field solver is at time t and T_past, T_future are its last two fields. The temperature given to the phase-field solver is the value at the end of the step of the line through them, at the right cell. After the first flow step this is always an extrapolation (by up to one flow step), not the interpolation announced; it differs from the interpolation by the second difference of the flow temperatures, can leave the range of the flow temperatures by its width and can be negative, which makes the mobility larger than its prefactor. With `t_pf > t_cfd` instead of `t_pf > t_cfd + dt` it is an interpolation at all times. The program stops with an AssertionError exactly if the flow step is smaller than the phase-field step.", "quantifier": "for all flow solvers (any state and step), grids, time steps, numbers of steps, model parameters", "why_tests_cant": "A run uses one flow problem with slowly varying temperatures, for which extrapolation and interpolation look alike.", "anchors": ["applications/phase_field/coupled/example.py:32-42", "applications/phase_field/coupled/example.py:73-117", "jax_am/phase_field/allen_cahn.py:54-131"]}
{"id": "C143", "title": "Initial phases and powder of the lattice Boltzmann programs, and what every run keeps of them", "statement": "initialize_phase makes the outer layer of cells wall; inside, a cell is liquid exactly if its centre is in the region of the program (plate and particles, block, everything below 80 % of the height) and gas otherwise. If generate_powder ends there are 90 circles whose particles are pairwise disjoint, lie above the plate, touch it and lie over it; further random numbers have no influence; the loop has no bound; a normal sample below -5 gives a negative radius, no particle, and is accepted also within a particle. At the start the interface consists of the gas cells touching a liquid cell, every fluid cell has density one and is at rest, and the mass is the number of liquid cells plus half the number of interface cells. In every run, for every laser path, exactly the outer layer is wall, the fluid stays inside, and as long as an interface cell exists the mass has this value.", "quantifier": "for all numbers of cells, sequences of random samples, circles, laser paths, material and force parameters (real arithmetic)", "why_tests_cant": "The programs run for hours for one box and one random seed; no test counts cells, checks particles for overlap or the mass after arbitrary laser paths.", "anchors": ["applications/lbm/pbf/example.py:17-76", "applications/lbm/free_fall/example.py:16-37", "applications/lbm/surface_tension/example.py:16-37", "applications/lbm/multi_scan/example.py:19-37", "jax_am/lbm/core.py:644-724", "jax_am/lbm/utils.py:26-49"]}
{"id": "C144", "title": "Lattice Boltzmann runs commute with reflections of the box; symmetric problems keep symmetric solutions", "statement": "If the outer layer of cells is wall, a pass of the time loop with mirrored driving terms takes the mirror image of a state (cells, directions, velocities) to the mirror image of its successor. The run for mirrored initial phases and the mirrored laser path is the mirror image of the run, for both vertical planes, and for the horizontal plane if there is neither gravity nor laser. Symmetric phases and a laser in the mirror plane give a symmetric state at all times. With fluid_only the flow does not depend on the laser path or the heat parameters, so in the free-fall program the flow is symmetric with respect to both vertical planes and in the surface-tension program, without gravity, to all three: no momentum across the plane, centre of mass in the plane.", "quantifier": "for all box sizes, states, laser paths of any length, material and force parameters, each of the three axes (real arithmetic)", "why_tests_cant": "Symmetry could break through one wrong entry in the tables of velocities, weights or reversed directions, a wrong stencil or a one-sided tie rule; a test looks at one shape for some steps with rounding noise, not at all states and all numbers of steps.", "anchors": ["jax_am/lbm/core.py:15-724", "applications/lbm/free_fall/example.py:16-38", "applications/lbm/surface_tension/example.py:15-37"]}
{"id": "C145", "title": "Pressure correction of the melt-pool flow: energy never grows, rest is kept, but the divergence is not removed", "statement": "With linear solves that solve: (1) face velocities corrected by the pressure slopes themselves would leave no outflow from any cell, but the face velocities that the code interpolates from the returned velocity leave exactly the outflow of -dt/rho times quarter third differences of the pressure; (2) the energy of the returned velocity plus that of the correction is at most the energy of the predicted velocity, and without surface traction at most that of the freely advanced velocity divided by (1 + delta dt)^2 if every cell has the drag delta; (3) a fluid at rest without traction stays exactly at rest; solid or uniformly heated surfaces exert no traction, so a run in which nothing melts has exactly zero flow at all times; (4) solvers of this kind exist for every box; (5) on 2 x 1 x 1 cells exactly half of the divergence remains, so that a uniform temperature gets a nonzero convective term.", "quantifier": "for all box sizes, spacings, densities, viscosities, time steps, velocities, pressures, runs of any length (real arithmetic)", "why_tests_cant": "Whether the projection is exact, and in which sense it contracts, depends on the interplay of compact and central differences and ghost cells at every cell; a test looks at one field and a tolerance, and would not see that the energy bound holds for all fields while the divergence-free property fails.", "anchors": ["jax_am/cfd/cfd_am.py:82-113", "jax_am/cfd/cfd_am.py:254-259", "jax_am/cfd/cfd_am.py:528-590"]}
{"id": "C146", "title": "Load steps of perfect plasticity: energy, existence of solutions, limit loads", "statement": "For the Plasticity problem after every load history: (1) the residual tested with any direction is the derivative of a convex energy of the step, and a displacement solves the step (residual zero at all free degrees of freedom, prescribed values elsewhere) if and only if it minimises this energy; (2) if some stress field strictly inside the yield surface balances the loads then the step has a solution for all prescribed values, in particular every step driven by displacements alone has one; (3) if the loads do more work on some volume-preserving motion of the free degrees of freedom than the yield stress can dissipate then no displacement solves the step, and the Newton solver returns for no initial guess, linear solver or number of iterations; (4) the bar of the demo pulled by a traction p at the top: solvable if |p| is below the yield stress of 250, not solvable if it is above.", "quantifier": "for all meshes with positive volumes, dimensions, load histories, loads, prescribed values, held degrees of freedom, linear solvers, guesses and iteration counts (real arithmetic)", "why_tests_cant": "Existence of a solution is a statement about all displacement fields, non-existence even more so; a test that hangs or diverges cannot tell a limit load from a bad initial guess, and the limit is exact only in the proof.", "anchors": ["jax_am/fem/models.py:139-205", "jax_am/fem/core.py:850-853", "jax_am/fem/solver.py:332-394", "demos/fem/plasticity/example.py:90-98"]}
{"id": "C147", "title": "The finite element residual commutes with renumbering, reordering, motions and scaling of the mesh", "statement": "(1) Moving the mesh by any similarity x -> lam Q x + t (rotations, reflections, shifts, changes of the unit of length), renumbering the nodes and changing unknowns and equations by matrices, with all data (flux and mass laws, sources, body forces, surface loads, Robin terms, location functions) transformed accordingly: the residual can be computed exactly when it could before, and it is the given residual renumbered and multiplied by the matrices and one common factor. (2) Hence the moved field solves the moved problem exactly when the given field solves the given one, for any trial space. (3) Listing the cells with their internal variables in another order leaves the residual unchanged, if surface loads are not given face by face. (4) For the materials LinearElasticity, Plasticity (with turned stored stresses and strains, which are those stored by the turned load history) and HyperElasticity (rotations, no inverted points) the transformed law is the law itself: a similar body has similar forces. (5) A hyperelastic body without loads turned and shifted as a whole has the turned residual, so it stays in equilibrium. The hypothesis on the shape functions holds for every element of the package.", "quantifier": "for all meshes, elements, dimensions, numbers of components, similarities, numberings, cell orders, laws, loads, fields and load histories (real arithmetic)", "why_tests_cant": "A test compares two runs on two meshes up to a tolerance; no finite set of runs covers all rotations, numberings and loads, and a direction-dependent term can vanish in the aligned test meshes.", "anchors": ["jax_am/fem/core.py:439-490", "jax_am/fem/core.py:779-810", "jax_am/fem/core.py:850-851", "jax_am/fem/models.py:105-205"]}
{"id": "C148", "title": "The finite element solution of the convergence study converges with order two (values) and one (gradients)", "statement": "The Poisson problem of applications/fem/convergence_rate/example.py (body force minus the Laplacian of a true solution, true values on the six faces) on a box of trilinear cells with the 2x2x2 rule. (1) An exact linear solver exists and with every exact linear solver the run returns a solution. (2) If the true solution is a sum of functions of one coordinate each (as in the program), four times continuously differentiable, and the cells are cubes of size h, then every nodal value is within L^2/8 * sum M4 h^2/6 of the true one, compute_l2_norm_error is at most (L^2/48 sum M4 + sum M2/12) sqrt(vol) h^2, and compute_h1_norm_error at most that plus a given constant times h, where M2, M4 bound the second and fourth derivatives. (2b) For every true solution with four continuous derivatives, additive or not, on cubes of size h: nodal errors at most L^2/4 M4 h^2, l2_error at most (L^2/4 M4 + M2/2) sqrt(vol) h^2, h1_error at most that plus (L^2/2 M4 + M2) sqrt(3 vol) h; so on the unit cube with n cells in each direction the errors are at most C/n^2 and C/n with C depending on the true solution only. (3) On every box, cubes or not, cubic solutions are exact at the nodes. (4) For quadratic solutions both norms are known exactly, so that the printed order log2(e(N)/e(2N)) is exactly 2. (5) For the true solution of the program with n cells in each direction: nodal errors at most 250/n^2, l2_error at most 492/n^2, h1_error at most 492/n^2 + 2847/n; both tend to zero when the mesh is refined.", "quantifier": "for all numbers of cells, box sizes, four times continuously differentiable true solutions, linear solvers that solve exactly, starting guesses and solver options (real arithmetic)", "why_tests_cant": "The program prints two numbers for two meshes; convergence is a statement about all meshes, and an observed ratio near 4 on one pair does not bound the error on the next mesh.", "anchors": ["applications/fem/convergence_rate/example.py:16-67", "applications/fem/convergence_rate/example.py:91-96", "jax_am/fem/models.py:7-37", "jax_am/fem/solver.py:332-430"]}
{"id": "C149", "title": "The grain-growth equations have one solution and the phase-field program converges to it", "statement": "For an isotropic material with the physical signs of the constants and a positive temperature history that, after the cap at 2000, changes at a bounded rate: (1) from every start with order parameters in [0,1] the equations d eta/dt = state_rhs(eta, T(t)) have a solution on the whole time interval and it stays in [0,1]; (2) two solutions with the same start agree, even if not assumed to stay in [0,1]; (3) with a time step dt that satisfies dt*rate <= 1, the order parameters of the loop differ after every number of passes from the solution by at most an explicit constant times dt; (4) the program ends less than one step before t_OFF + 1e-10 and its result converges to the solution at that time as dt goes to zero; (5) all of this holds for simple/example.py with its moving point source and tanh, if no cell centroid is on the top surface. (6) Limit: for every positive anisotropy there is a grid and a crystal orientation for which the right-hand side is discontinuous in the order parameters, because a zero edge vector is given the angle 0 whatever the crystal orientation.", "quantifier": "for all grids, numbers of orientations, material constants of the stated signs, temperature histories of the class, starts in [0,1], time steps and numbers of passes (real arithmetic)", "why_tests_cant": "A run gives one state for one step size; that the steps approach a solution of the differential equations, that there is one at all and that there is only one are statements about all step sizes and about a continuum of times.", "anchors": ["jax_am/phase_field/allen_cahn.py:53-88", "jax_am/phase_field/allen_cahn.py:106-114", "jax_am/phase_field/allen_cahn.py:139-153", "applications/phase_field/simple/example.py:22-63", "jax_am/phase_field/allen_cahn.py:28-39"]}
{"id": "C150", "title": "Annealing: every pass of the phase-field loop lowers the free energy and runs end at rest states", "statement": "For an isotropic material with the physical signs of the constants, order parameters that start in [0,1] and a time step with dt*Lmax*Kq <= 1/2 (Kq: half of the largest curvature of the free energy on [0,1]): (1) one pass lowers the free energy at the temperature of that pass by at least dt/(2*Lmax) times the sum of the squared rates; (2) at constant temperature the free energy never increases from pass to pass; (3) the squared rates of all passes together are bounded by the free energy of the start; (4) all rates go to zero; (5) every state the run comes close to again and again has order parameters in [0,1] and all rates zero, and there is such a state; (6) the exact solution of the grain-growth equations at constant temperature never increases the free energy; (7) without the step condition the free energy can increase.", "quantifier": "for all grids, numbers of orientations, material constants of the stated signs, constant temperature fields (any history for (1)), starts in [0,1], steps under the condition, and all passes (real arithmetic)", "why_tests_cant": "The decay is about every pass of runs of any length, and the limit statements about infinitely many passes; a run shows finitely many states for one start.", "anchors": ["jax_am/phase_field/allen_cahn.py:42-49", "jax_am/phase_field/allen_cahn.py:53-85", "jax_am/phase_field/allen_cahn.py:106-114", "applications/phase_field/simple/example.py:40-63"]}
{"id": "C151", "title": "The Newton loop of the solver ends near every regular solution, with quadratic convergence", "statement": "Let z be a regular solution: near z the residual is continuously differentiable with the assembled triplets as derivative, at z the residual with boundary conditions vanishes and the operator of get_A_fn is not singular. Then (1) if the linear solver meets max(rtol*|b|, atol) on solvable systems with rtol < q < 1 and atol < 1e-6*q, there is a neighbourhood of z from which the loop of solver_row_elimination ends after as many passes as reduce the start residual to 1e-6 by factors q, returns without the assertion, and the result has a residual of at most 1e-6 and a distance of at most C*1e-6 to z; (2) with the tolerances 1e-10 of jax_solve every pass gains a factor 1000; (3) if the residual is twice continuously differentiable and the linear systems are solved exactly, one pass squares the distance to z up to a constant; (4) for assembled finite element problems these smoothness conditions follow from smoothness of the tensor, mass and Cauchy maps at the quadrature points of z.", "quantifier": "for all problems, meshes, boundary groups, maps smooth at the solution, linear solvers within the tolerance, starts in the neighbourhood and numbers of passes; both operator variants, with and without preconditioner (real arithmetic)", "why_tests_cant": "The statement is about all starts near a solution and arbitrary nonlinear laws; a run shows that one start converged for one law.", "anchors": ["jax_am/fem/solver.py:43-76", "jax_am/fem/solver.py:245-264", "jax_am/fem/solver.py:304-329", "jax_am/fem/solver.py:332-405", "jax_am/fem/core.py:812-854"]}
{"id": "C152", "title": "Nonlinear bodies under small loads: one equilibrium near rest, linear elasticity to first order, found by the Newton loop", "statement": "Let the material be stress-free and continuously differentiable at rest with a tangent whose work is positive for every strain, and let the fully prescribed nodes hold the mesh. Then there are bounds such that for all prescribed values, volume loads and tractions with data vector below the bound (1) the assembled problem has exactly one solution in a fixed ball around rest, and its norm is at most a constant times the data; (2) solver_row_elimination with the tolerances of jax_solve returns from every guess near rest within as many passes as bring the first residual to 1e-6 by factors of 1000, at most C*1e-6 away from that solution; (3) the solution differs from that of the linearised material by less than any multiple of the data once the data are small. The Neo-Hookean law of HyperElasticity in three dimensions satisfies the hypotheses: its tangent at rest is Hooke's law with the bulk and shear moduli of the code (Young's modulus 1e3, Poisson's ratio 0.3); box meshes of HEX8 cells clamped at a grid plane are held. In particular a clamped Neo-Hookean block under a body force of strength g has for small g one equilibrium near rest of size at most C*g, Hooke's to first order, which a fixed number of passes from the zero state returns.", "quantifier": "for all meshes, materials, loads, prescribed values, guesses and linear solvers within the stated bounds; the constants do not depend on the loads (real arithmetic)", "why_tests_cant": "Existence, uniqueness and the order of the error quantify over all small loads and all states near rest; a run solves for one load.", "anchors": ["jax_am/fem/models.py:117-136", "jax_am/fem/solver.py:43-76", "jax_am/fem/solver.py:245-264", "jax_am/fem/solver.py:304-329", "jax_am/fem/solver.py:332-405", "jax_am/fem/core.py:812-854"]}
{"id": "C153", "title": "The heat steps of the thermo-mechanical demo converge with first order to the heat equation discretised in space", "statement": "Consider rho*Cp*T' = div(k grad T) discretised in space on a fixed mesh, with temperature-dependent boundary fluxes of the present time and temperature and held values at given nodes. (1) If the fluxes are Lipschitz in time and temperature on bounded sets, a solution exists for a short time from any initial temperatures. (2) Let T be a solution on [0, tau]. There are constants delta > 0 and C such that for all dt <= delta, all residual tolerances eps <= delta and all starts within delta of T(0), the temperatures Ts(i) of the time loop (each new one solves the weak form of Thermal with the old one in the storage term and in the boundary fluxes) satisfy |Ts(i)(n) - T(i*dt)(n)| <= C*(start error + dt + eps) at every node n and every i with i*dt <= tau: the loop is stable and convergent of first order without a bound between dt and the cell size beyond dt <= delta, although the radiation and convection fluxes are taken at the old temperature and grow with its fourth power. (3) The demo (k = 15, rho = 8440, Cp = 588, laser moving at 0.5 m/s, switch on or off, convection and radiation on top and walls, bottom held) satisfies all hypotheses on every box mesh of HEX8 cells, and its time steps exist for every dt.", "quantifier": "for all meshes with positive cell volumes and tables of full rank, all fluxes, all initial temperatures, all steps and tolerances below the bound, all numbers of steps", "why_tests_cant": "An order of convergence is a statement about all small steps at once and about the exact solution of a nonlinear system of differential equations, which no run has.", "anchors": ["demos/fem/thermal_mechanical/example.py:19-47", "demos/fem/thermal_mechanical/example.py:190-222", "demos/fem/thermal_mechanical/example.py:240-275"]}
{"id": "C154", "title": "The gradient returned by style_value_and_grad is not the gradient of the returned value: a third on equal grids, and of the wrong sign for some losses at the sizes of the files", "statement": "style_value_and_grad resizes the density to the image by bilinear interpolation at the pixel centres, takes the loss and its image gradient there, averages the gradient over the three channels and interpolates it back at the cell centres. (1) If cells and pixels agree, the returned gradient is exactly one third of the gradient of the returned value, for every differentiable loss. (2) For an image gradient g equal in all pixels, the derivative of the value along the direction in which all densities grow alike is 3*S^2*g, the sum of the returned gradient Nx*Ny*g. (3) If S > 2*Nx there is a loss, linear in the image, whose value strictly decreases along the returned gradient at every density, so that a descent step along the negative returned gradient increases it; the sizes of tree.py and to.py (200 cells, 512 pixels) and of building.py (100 by 500 cells) are of this kind. (4) If S <= Nx and S <= Ny the pixels stay within the bounds of the densities; if S > Nx there are densities in [0, 1] for which the first row of pixels is 3/2 - Nx/(2*S) > 1, since the interpolator extrapolates.", "quantifier": "for all numbers of cells and pixels (at least two), all lengths, all differentiable losses, all densities and directions", "why_tests_cant": "The true gradient is not computed by the code, so a run has nothing to compare with; the style steps print plausible decreasing losses for many images.", "anchors": ["applications/fem/aesthetic/style_loss.py:107-130", "applications/fem/aesthetic/style_loss.py:132-165", "applications/fem/aesthetic/arguments.py:10", "applications/fem/aesthetic/arguments.py:45-48"]}
{"id": "C155", "title": "The network with loss layers computes the losses of the plain network; the style image itself is the minimum of the total loss", "statement": "(1) For every weight file, all choices of loss layers, every trained image and every input: the losses recorded by augmented_vgg19 (targets computed with the layers so far, loss layers inserted between, cut off after the last loss layer, Normalization replacing the input by the parameter image) are, in order, weight*mean((Gram(x) - Gram(s))^2) and weight*mean((x - c)^2) of the trained, style and content image, each standardised and sent through the network without loss layers; the input plays no part. (2) style_transfer uses one image as style and content image: the total loss of this image is zero and no image has a smaller one (weights not negative). (3) The printed content and style loss add up to the loss; they are an error exactly when one kind of loss layer is absent, the loss itself only when both are. (4) With the layers of arguments.py and at least 14 convolutions nothing is an error. (5) The Gram matrix is symmetric, positive semidefinite and does not change when the pixels are rearranged; the style loss is zero exactly when the Gram matrices agree.", "quantifier": "for all weight files (lists of poolings, convolutions and other entries), all maps used as layers, all weights, images and inputs", "why_tests_cant": "Needs a weight file of a particular network; a run sees one network and one image, and cannot show that inserted layers, truncation and the order of construction never change a loss.", "anchors": ["applications/fem/aesthetic/modules.py:12-89", "applications/fem/aesthetic/models.py:56-157", "applications/fem/aesthetic/tree_utils.py:13-39", "applications/fem/aesthetic/style_loss.py:37-38", "applications/fem/aesthetic/style_loss.py:83-100"]}
{"id": "C156", "title": "The Poisson problem with the Cauchy map 5u^2 has at most one solution that is not negative on the sides, a positive definite tangent there, and second solutions with negative values", "statement": "For the problem of cauchy_bc/example.py (TRI3, bottom and top held at one, Cauchy map 5u^2 on left and right, any source) on every mesh of positively oriented triangles connected with a held node: (1) two solutions whose edge means on the left and right sides are not negative agree at all nodes. (2) At every field with nonnegative edge means on the sides the matrix of newton_update is positive definite on the fields that vanish at the held nodes, so the linear problem of a Newton step has one solution. (3) Without the sign condition uniqueness fails: on one triangle without source there are two solutions, one positive and one negative at the free node.", "quantifier": "for all meshes of positively oriented triangles, all sources, all fields and directions", "why_tests_cant": "A run finds one solution from one start; it cannot show that no other one exists, nor that one does exist which the Newton loop did not find.", "anchors": ["applications/fem/cauchy_bc/example.py:60-101", "jax_am/fem/core.py:527-540", "jax_am/fem/core.py:669-690"]}
{"id": "C157", "title": "Multipliers exist exactly for constrained equilibria; the periodic Poisson example has a unique field but a singular augmented matrix", "statement": "(1) For every problem with well-formed Dirichlet and periodic lists, redundant or not: a field can be completed by multipliers to a zero of the augmented residual of the Lagrange-multiplier solver exactly when it satisfies all conditions and its residual does no work in any variation that vanishes at the prescribed positions and agrees at the ties. (2) The problem of periodic_bc/example.py is built exactly when each node on the left side has one partner (within 1e-5 of its image) on the right side. (3) Its zeros are exactly the fields that vanish on bottom and top, agree at partners, and satisfy the weak form. (4) Two zeros have the same field on every mesh of elements without spurious modes connected with bottom or top. (5) If there is a node at the origin, the tie at the corner repeats the Dirichlet conditions: for every tangent the augmented matrix has a nonzero vector in its kernel and the multipliers are never unique.", "quantifier": "for all problems and constraint lists (1), all meshes and elements with one unknown in the plane (2, 3, 5), all meshes of elements without spurious modes (4)", "why_tests_cant": "Needs all meshes; the example itself cannot be run to its end (C26: periodic conditions with use_petsc=True always raise), and iterative solvers hide a singular matrix.", "anchors": ["applications/fem/periodic_bc/example.py:72-104", "jax_am/fem/solver.py:455-508", "jax_am/fem/solver.py:585-650", "jax_am/fem/core.py:315-350"]}
{"id": "C158", "title": "The plane law of the cellular solid is the plane-strain section of the law in space", "statement": "For every plane deformation gradient with positive determinant: (1) the stress of Elasticity in cellular_solid.py is the in-plane part of the stress that HyperElasticity, with seventy times its moduli, gives the body in space of constant thickness, and that stress has no shear components out of the plane. (2) The stored energy is not negative and zero exactly for rotations. (3) A rotation of the deformed body leaves the energy unchanged and turns the stress. (4) The reference configuration is free of stress (HyperElasticity with dim = 2 is not, C31). (5) The tangent at rest is Hooke's law of plane strain with E = 70e3 and nu = 0.3.", "quantifier": "for all plane deformation gradients with positive determinant, all rotations, all directions", "why_tests_cant": "A test evaluates the law at some matrices; vanishing shear, definiteness and frame indifference concern all of them.", "anchors": ["applications/fem/buckling/cellular_solid.py:14-37"]}
{"id": "C159", "title": "Curve design: displacements see only ratios of stiffness; the first gradient sums to zero", "statement": "For every mesh without loads on which the prescribed displacements hold the body, and an exact linear solver: (1) for all densities p >= 0 the forward solve returns the one solution of the discrete problem. (2) Two designs with proportional moduli get the same displacements; in particular all uniform designs give the result of the initial design 0.5. (3) Reverse mode returns the derivative of J_total, and at every uniform design, hence at the first step of the optimiser, its entries sum to zero. (4) J_total is not negative and zero exactly when the nodes near y = 0 follow the sine, which vanishes at both ends like the prescribed displacement. (5) With vf = 1 the volume constraint holds for all densities in the unit interval and is active only for the full body. (6) The design of the first solve is 1, 0 or 0.5 according to the sign of (x - Lx/2) y, is invariant under the half turn, and mirrored it exchanges full and empty. (7) The conditions of the file are accepted and hold every rectangle of four-node cells; every solution is compressed by one percent of the length at the right end and rests at the left end.", "quantifier": "for all sound meshes, densities, exact linear solvers, both solver paths, all lengths and cell numbers", "why_tests_cant": "A test compares two designs on one mesh up to the tolerance of the solver; that the stiffness scale never matters and that the gradient sums exactly to zero is a statement on all meshes.", "anchors": ["applications/fem/design/curve.py:17-53", "applications/fem/design/curve.py:73-108", "applications/fem/design/curve.py:113-134", "applications/fem/design/curve.py:156-172"]}
{"id": "C160", "title": "Design box: gradient on a part of the cells, and a volume constraint that counts cells", "statement": "Topology optimisation where only the cells flex_inds carry a density and all others stay full material: (1) the design cells are exactly the cells with the centroid strictly inside the box, each once, in rising order. (2) For densities p >= 0 on a loaded and clamped mesh the forward solve returns the discrete solution and reverse mode the derivative of the compliance; entry j is -penal (Emax - Emin) p_j^(penal-1) times the elastic work of cell flex_inds[j], never positive. (3) The compliance is not negative, never grows with the densities, and lies between the values of the full and the empty box. (4) Cells outside the box always keep the modulus Emax, and with ones as parameters the body is the full body, whichever cells are flexible. (5) With vf = V_design / V_design_box the constraint mean(rho) <= vf keeps the material of all designs within the volume of the human design exactly when all design cells have the same volume.", "quantifier": "for all meshes, boxes, lists of design cells, densities, penalisation exponents, exact linear solvers, both solver paths", "why_tests_cant": "A test sees one mesh and one box; the index shift between parameters and cells and the cases in which the mean bounds the volume are statements on all of them.", "anchors": ["applications/fem/top_opt/freecad.py:41-46", "applications/fem/top_opt/freecad.py:76", "applications/fem/top_opt/freecad.py:87-89", "applications/fem/top_opt/freecad.py:112-129", "applications/fem/top_opt/freecad.py:145-161", "applications/fem/top_opt/fem_model.py:102-119"]}
{"id": "C161", "title": "Topology optimisation under a body force: compliance gradient, supports and loaded band of the bridge", "statement": "(1) The compliance of bridge.py is the work of the body force for every mesh and field, and raises without source function. (2) On every clamped mesh with a body force only, for densities p >= 0 of the flexible cells, the forward solve returns the discrete solution and reverse mode the derivative of the compliance; entry j is -penal (Emax - Emin) p_j^(penal-1) times the elastic work of cell flex_inds[j], never positive; the compliance is not negative, never grows with the densities, and lies between the values of full and empty design. The same for every differentiable map from parameters to moduli. (3) On a rectangle with more than 20 cells over the height the supports of the file are accepted and hold the body. (4) With 10k cells over the height the frozen cells are exactly the rows 3k..4k-1, the force is -100 at all quadrature points of these cells and zero at all others. (5) The total load is 10 Lx Ly downwards. (6) In building.py the `| True` of flex_location makes every cell flexible, so the frame described by the flags does not exist.", "quantifier": "for all meshes, densities, penalisation exponents, exact linear solvers, both solver paths; rectangles of any size and number of cells within (3)-(5)", "why_tests_cant": "A test sees one mesh and some densities; that the load meets the frozen cells only and that two nodes at a corner hold the body are statements on all meshes.", "anchors": ["applications/fem/aesthetic/bridge.py:41-57", "applications/fem/aesthetic/bridge.py:59-67", "applications/fem/aesthetic/bridge.py:69-74", "applications/fem/aesthetic/bridge.py:91-113", "applications/fem/aesthetic/bridge.py:117-122", "applications/fem/aesthetic/building.py:117-122"]}
{"id": "C162", "title": "Supports of building and tree: two corners of a cell hold the body, one node or none does not", "statement": "(1) On a rectangle of any size and number of cells, conditions that fix both components at two corners of one cell, wherever it lies, hold the whole body. (2) Hence the ground holds the building on every mesh, and the foot of the tree (nodes of the lower side between 0.45 Lx and 0.55 Lx) holds it for 20 or more cells over the width and for 11, 13, 15, 17, 19. (3) With 1, 3, 5, 7, 9 cells no node lies in the foot: the conditions are accepted without complaint and the discrete problem has no solution, for all densities. (4) With an even number of cells below 20 the foot is one node: with every solution all rotations of it about this node are solutions. (5) The traction of the tree acts exactly on the upper edges of the upper cells with the resultant Lx downwards. (6) For both programs, densities p >= 0 and enough cells, reverse mode returns the derivative of the compliance, without positive entries; the compliance is not negative and full material has the least one. (7) The traction of the building acts exactly on the outer edges of the left and right cells (with one cell over the width on all its edges), on both sides in the same direction, with the resultant 10 Ly.", "quantifier": "for all sizes, numbers of cells, densities, exact linear solvers; (3)-(5) for meshes not finer than the tolerance of isclose", "why_tests_cant": "A test runs some meshes; which numbers of cells leave the structure movable, and that a held cell holds all others, are statements on all meshes.", "anchors": ["applications/fem/aesthetic/building.py:43-60", "applications/fem/aesthetic/building.py:99-128", "applications/fem/aesthetic/tree.py:34-51", "applications/fem/aesthetic/tree.py:89-110"]}
{"id": "C163", "title": "Elastic cylinder and dogbone: force curve and solution are proportional to the displacement", "statement": "linear_elasticity_cylinder fixes the bottom of a linear elastic body, moves the top by each displacement of a list, and saves the third component of compute_traction on the top. (1) An equilibrium times t is an equilibrium for t times the displacement, with t times the nodal forces. (2) On every mesh of proper cells held by the nodes of the bottom there is one stiffness k, the force of the equilibrium under the displacement 1, such that the program saves disp*k for every displacement of every non-empty list, in order; an empty list is an error (disps[0]). (3) The sum of the vertical nodal forces on the top is the displacement times a constant, and this constant is positive when the top has a node. (4) Every box mesh of height 10 with at most 10000 layers is such a body. (5) linear_elasticity_dogbone fixes the nodes of least first coordinate and moves those of largest first coordinate by disp along the axis: on every such mesh longer than the tolerances, it computes disp times one field, the equilibrium under the displacement 1, and reports three degrees of freedom per node; the axial nodal forces on the moved end add up to disp times a positive constant; every box longer than the tolerances is such a body, with ends at 0 and its length. (6) applications/fem/demo/example.py on the unit cube with any numbers of cells returns the one and only equilibrium with the side x = 0 fixed and the side x = 1 moved by 0.1 along the axis; the nodal forces on that side have a positive sum along the axis. (7) applications/fem/demo/serendipity.py moves the mesh to the origin first: its result does not depend on the position of the mesh, and on every mesh that is such a body after the move it is the one and only equilibrium with the left end fixed and the right end moved by a tenth of the extent of the mesh, with a positive axial force.", "quantifier": "for all meshes with positive Jacobians, no zero-strain cell modes and all nodes held by the bottom, all lists of displacements, all exact linear solvers", "why_tests_cant": "A test runs one mesh and some displacements; that no earlier step influences a later one and that one constant fits all displacements concerns all lists.", "anchors": ["applications/fem/fem_examples/jax_examples.py:17-63", "applications/fem/fem_examples/jax_examples.py:66-98", "jax_am/fem/models.py:41-92", "jax_am/fem/core.py:304-313", "applications/fem/demo/example.py:11-43", "applications/fem/demo/serendipity.py:21-54"]}
{"id": "C164", "title": "The cantilever box: load, exact gradient and bounds of the compliance", "statement": "topology_optimization of box.py clamps the side x = 0 of a box of hexahedra and pulls the lower tenth of the side x = Lx downwards. (1) The boundary conditions are accepted and hold the body; for all densities p >= 0 the forward solve returns the discrete solution, reverse mode returns the derivative of the compliance, and entry j is -3*(Emax-Emin)*p_j^2 times the elastic work of cell j, never positive. (2) The compliance is not negative, never grows when densities grow, and full material (the value printed at the end) has the least one. (3) The traction acts exactly on the outer faces of the last cells in the layers that fit below 0.1*Lz + 1e-5, and its resultant is the traction times the area of these layers (50 kN downwards for the file).", "quantifier": "for all sizes and numbers of cells of the box, all nonnegative densities, all exact linear solvers; (3) for cells longer than the tolerance of isclose", "why_tests_cant": "A test differentiates at some densities of one mesh; sign, formula and monotonicity concern all densities and meshes.", "anchors": ["applications/fem/top_opt/box.py:29-65", "applications/fem/top_opt/box.py:104-104", "applications/fem/top_opt/fem_model.py:9-26", "applications/fem/top_opt/fem_model.py:68-80", "applications/fem/top_opt/fem_model.py:102-119"]}
