import Verif.Base.Tactics
import Verif.Base.Arr
import Verif.Mesh.Model
import Verif.Mesh.Lemmas
import Verif.Mesh.Props
import Verif.Lbm.Model
import Verif.Lbm.Lemmas
import Verif.Lbm.PropsMoments
import Verif.Lbm.PropsMass
import Verif.Lbm.PropsFlags
import Verif.Lbm.Path
import Verif.Mesh.Transfer
import Verif.PhaseField.Graph
import Verif.PhaseField.GraphProps
import Verif.Cfd.MeshModel
import Verif.Cfd.MeshProps
import Verif.PhaseField.AllenCahn
import Verif.PhaseField.AllenCahnLemmas
import Verif.PhaseField.AllenCahnProps
import Verif.PhaseField.AllenCahnBounds
import Verif.PhaseField.Rk4
import Verif.Cfd.Ops
import Verif.Cfd.OpsProps
import Verif.Cfd.Poisson
import Verif.Cfd.PoissonLemmas
import Verif.Cfd.PoissonProps
import Verif.Cfd.Am3d
import Verif.Cfd.Am3dProps
import Verif.Cfd.Gamma
import Verif.Cfd.GammaProps
import Verif.Fem.Basis
import Verif.Fem.BasisProps
import Verif.Fem.Core
import Verif.Fem.Lemmas
import Verif.Fem.PropsGeom
import Verif.Fem.Assembly
import Verif.Fem.PropsAssembly
import Verif.Fem.Tangent
import Verif.Fem.PropsTangent
import Verif.Fem.Boundary
import Verif.Fem.Solver
import Verif.Fem.SolverLemmas
import Verif.Fem.SolverProps
import Verif.Fem.Lagrange
import Verif.Fem.LagrangeProps
import Verif.Fem.Implicit
import Verif.Fem.Models
import Verif.Fem.Work
import Verif.Fem.ModelsProps
import Verif.Fem.HyperProps
import Verif.Fem.Mma
import Verif.Fem.MmaProps
import Verif.Fem.MmaNewton
import Verif.Fem.MmaOpt
import Verif.Fem.MmaDual
import Verif.Misc.Text
import Verif.Misc.Logger
import Verif.Misc.Frames
import Verif.Lbm.Forces
import Verif.Lbm.PropsForces
import Verif.Lbm.PropsDrive
import Verif.Lbm.Units
import Verif.Fem.Tables
import Verif.Fem.PropsTables
import Verif.Fem.PropsNanson
import Verif.Fem.PropsSimplex
import Verif.Fem.Box
import Verif.Fem.PropsSurface
import Verif.Fem.PropsPatch
import Verif.Fem.PropsPatch2
import Verif.Fem.PropsUnique
import Verif.Fem.PropsLinear
import Verif.Fem.PropsLinear2
import Verif.Fem.PropsElastic
import Verif.Fem.PropsElastic2
import Verif.PhaseField.Output
import Verif.PhaseField.AspectProps
import Verif.PhaseField.OutputProps
import Verif.PhaseField.Neper
import Verif.PhaseField.NeperProps
import Verif.PhaseField.AnisoProps
import Verif.Fem.SparseJac
import Verif.Fem.SparseJacProps
import Verif.Fem.NumbaAssembly
import Verif.Fem.AdWrapper
import Verif.Fem.Operators
import Verif.Fem.Spectral
import Verif.Fem.SpectralProps
import Verif.Fem.Fracture
import Verif.Fem.FractureProps
import Verif.Fem.FractureLoop
import Verif.Fem.FractureLoopProps
import Verif.Fem.ActiveMesh
import Verif.Fem.ActiveBox
import Verif.Fem.Thermal
import Verif.Fem.ThermalFaces
import Verif.Fem.ThinWall
import Verif.Fem.TopOpt
import Verif.Fem.TopOptProps
import Verif.Fem.TopOptGrad
import Verif.Fem.TopOptMesh
import Verif.Fem.TopOptVm
import Verif.Fem.ThermoFaces
import Verif.Fem.NewtonLinear
import Verif.Fem.Thermo
import Verif.Fem.RadialReturn
import Verif.Fem.ThermoMech
import Verif.Fem.ThermoLoop
import Verif.Fem.Crystal
import Verif.Fem.CrystalFlow
import Verif.Fem.CrystalStress
import Verif.Fem.CrystalAd
import Verif.Fem.CrystalRun
import Verif.Lbm.Dam
import Verif.Lbm.DamProps
import Verif.Lbm.DamStream
import Verif.Lbm.DamTypes
import Verif.Lbm.DamMass
import Verif.Lbm.DamRun
import Verif.Lbm.DamWitness
import Verif.Fem.MultiScale
import Verif.Fem.MultiScaleProps
import Verif.Fem.MultiScaleRve
import Verif.Fem.MultiScaleBc
import Verif.Fem.MultiScaleData
import Verif.Fem.MultiScaleTrain
import Verif.Fem.MultiScaleDeploy
import Verif.Fem.PlasticDemo
import Verif.Fem.StackDiff
import Verif.Fem.InverseDemo
import Verif.Fem.PoissonDemo
import Verif.Cfd.Old
import Verif.Fem.Moments
import Verif.Lbm.Cylinder
import Verif.Fem.Pencil
import Verif.Fem.EigenOpt
import Verif.Fem.EigenOptProps
import Verif.Fem.EigenOptCons
import Verif.Fem.EigenOptRect
import Verif.Fem.DynRelax
import Verif.Fem.DynRelaxProps
import Verif.Fem.DynRelaxRun
import Verif.Fem.DynRelaxCases
import Verif.Fem.Forming
import Verif.Fem.FormingProps
import Verif.Fem.FormingCases
import Verif.Fem.FormingFem
import Verif.Fem.StressCon
import Verif.Fem.TopLoop
import Verif.Fem.TopMulti
import Verif.Fem.TopPlastic
import Verif.Cfd.GammaRun
import Verif.Fem.Calibration
import Verif.Fem.SourceId
import Verif.PhaseField.Laser
import Verif.PhaseField.Scan
import Verif.PhaseField.CoupledRun
import Verif.Lbm.Start
import Verif.Lbm.Mirror
import Verif.Cfd.Project
import Verif.Fem.LimitLoad
import Verif.Fem.LimitBox
import Verif.Fem.Moved
import Verif.Fem.MovedLaws
import Verif.Fem.ConvTaylor
import Verif.Fem.Convergence
import Verif.Fem.ConvErrors
import Verif.Fem.ConvGeneral
import Verif.PhaseField.EulerOde
import Verif.PhaseField.GrainOde
import Verif.PhaseField.GrainRun
import Verif.PhaseField.GrainJump
import Verif.PhaseField.GrainEnergy
import Verif.Fem.NewtonLocal
import Verif.Fem.SmallLoads
import Verif.Fem.HyperSmall
import Verif.Fem.ThermalOrder
import Verif.Fem.ThermalOde
import Verif.Fem.ThermalDemo
import Verif.Aesthetic.Resize
import Verif.Aesthetic.Direction
import Verif.Aesthetic.Style
import Verif.Fem.CauchyExample
import Verif.Fem.PeriodicExample
import Verif.Fem.ModesQuadratic
import Verif.Fem.CellularSolid
import Verif.Fem.DesignCurve
import Verif.Fem.FlexTop
import Verif.Fem.BodyTop
import Verif.Fem.BridgeRect
import Verif.Fem.TreeTop
import Verif.Fem.ForceCurve
import Verif.Fem.DogBone
import Verif.Fem.CubeDemo
import Verif.Fem.BoxTop
import Verif.Fem.Serendipity

/-! Axioms of every theorem named in `MANIFEST.json`; the build log must list only
`propext`, `Classical.choice` and `Quot.sound`. -/

-- C01
#print axioms Verif.Mesh.C01_box_mesh
#print axioms Verif.Mesh.C01_points_distinct
-- C02
#print axioms Verif.Mesh.C02_rectangle_mesh
-- C03
#print axioms Verif.Mesh.C03_numbering_bijection
#print axioms Verif.Mesh.C03_shape_wrapper
#print axioms Verif.Mesh.C03_centroid
-- C04
#print axioms Verif.PhaseField.C04_neighbours
#print axioms Verif.PhaseField.C04_well_formed
-- C05
#print axioms Verif.Cfd.C05_conn3
#print axioms Verif.Cfd.C05_conn3_symmetric
#print axioms Verif.Cfd.C05_surf3
#print axioms Verif.Cfd.C05_surf3_total
#print axioms Verif.Cfd.C05_geometry3
#print axioms Verif.Cfd.C05_face_centres3
#print axioms Verif.Cfd.C05_conn2
#print axioms Verif.Cfd.C05_surf2
#print axioms Verif.Cfd.C05_surf2_total
#print axioms Verif.Cfd.C05_geometry2
-- C06
#print axioms Verif.Mesh.C06_convert_temperature
-- C07
#print axioms Verif.Mesh.C07_renumber
#print axioms Verif.Mesh.C07_dropped_points
-- C08
#print axioms Verif.Mesh.C08_layers
#print axioms Verif.Mesh.C08_references
-- C09
#print axioms Verif.Fem.C09_tables
#print axioms Verif.Fem.C09_supported
#print axioms Verif.Fem.C09_reorder
#print axioms Verif.Fem.C09_faces
#print axioms Verif.Fem.C09_nodal
#print axioms Verif.Fem.C09_partition
#print axioms Verif.Fem.C09_linear
#print axioms Verif.Fem.C09_gradients
-- C10
#print axioms Verif.Fem.C10_gradient
#print axioms Verif.Fem.C10_values
#print axioms Verif.Fem.C10_surface_values
#print axioms Verif.Fem.C10_elements
-- C100
#print axioms Verif.Fem.C100_two
#print axioms Verif.Fem.C100_energy
#print axioms Verif.Fem.C100_stable
#print axioms Verif.Fem.C100_unique
#print axioms Verif.Fem.C100_equilibrium
#print axioms Verif.Fem.C100_sets
#print axioms Verif.Fem.C100_brick
#print axioms Verif.Fem.C100_plate
#print axioms Verif.Fem.C100_returns
#print axioms Verif.Fem.C100_box
-- C101
#print axioms Verif.Fem.C101_calls
#print axioms Verif.Fem.C101_stale_dt
#print axioms Verif.Fem.C101_raises
#print axioms Verif.Fem.C101_field
-- C102
#print axioms Verif.Fem.C102_plane
#print axioms Verif.Fem.C102_iso
#print axioms Verif.Fem.C102_materials
#print axioms Verif.Fem.C102_params
-- C103
#print axioms Verif.Fem.C103_compliance
#print axioms Verif.Fem.C103_energy
#print axioms Verif.Fem.C103_monotone
#print axioms Verif.Fem.C103_determined
-- C104
#print axioms Verif.Fem.C104_gradient
#print axioms Verif.Fem.C104_simp
#print axioms Verif.Fem.C104_full
#print axioms Verif.Fem.C104_constraint
-- C105
#print axioms Verif.Fem.C105_loaded
#print axioms Verif.Fem.C105_clamped
#print axioms Verif.Fem.C105_load
#print axioms Verif.Fem.C105_program
#print axioms Verif.Fem.C105_example
#print axioms Verif.Fem.C88_rigid_quad4
-- C106
#print axioms Verif.Fem.C106_formula
#print axioms Verif.Fem.C106_average
#print axioms Verif.Fem.C106_plate
#print axioms Verif.Fem.C106_cases
-- C107
#print axioms Verif.Fem.C107_nodes
#print axioms Verif.Fem.C107_top
#print axioms Verif.Fem.C107_walls
#print axioms Verif.Fem.C107_heat
#print axioms Verif.Fem.C107_flux
#print axioms Verif.Fem.C107_demo
-- C108
#print axioms Verif.Fem.C108_returns
#print axioms Verif.Fem.C108_energy
#print axioms Verif.Fem.C108_stable
#print axioms Verif.Fem.C108_determined
#print axioms Verif.Fem.C108_newton
#print axioms Verif.Fem.C108_solve
#print axioms Verif.Fem.C108_loss
#print axioms Verif.Fem.C108_laser
#print axioms Verif.Fem.C108_demo
#print axioms Verif.Fem.C108_ambient
-- C109
#print axioms Verif.Fem.C109_response
#print axioms Verif.Fem.C109_thermal
#print axioms Verif.Fem.C109_phase
#print axioms Verif.Fem.C109_monotone
#print axioms Verif.Fem.C109_strain
#print axioms Verif.Fem.C109_history
#print axioms Verif.Fem.C109_pressure
#print axioms Verif.Fem.C109_stress
-- C11
#print axioms Verif.Fem.C11_box_volumes
#print axioms Verif.Fem.C11_rectangle_areas
-- C110
#print axioms Verif.Fem.C110_times
#print axioms Verif.Fem.C110_loop
#print axioms Verif.Fem.C110_state
#print axioms Verif.Fem.C110_raises
#print axioms Verif.Fem.C110_program
-- C111
#print axioms Verif.Fem.C111_response
#print axioms Verif.Fem.C111_stress
#print axioms Verif.Fem.C111_flow
-- C112
#print axioms Verif.Fem.C112_rotation
#print axioms Verif.Fem.C112_rotate
#print axioms Verif.Fem.C112_elastic
-- C113
#print axioms Verif.Fem.C113_slip
#print axioms Verif.Fem.C113_q
#print axioms Verif.Fem.C113_hardening
#print axioms Verif.Fem.C113_schmid
#print axioms Verif.Fem.C113_volume
-- C114
#print axioms Verif.Fem.C114_step
#print axioms Verif.Fem.C114_solver
#print axioms Verif.Fem.C114_law
#print axioms Verif.Fem.C114_cauchy
#print axioms Verif.Fem.C114_frame
#print axioms Verif.Fem.C114_covariance
#print axioms Verif.Fem.C114_natural
#print axioms Verif.Fem.C114_jvp
-- C115
#print axioms Verif.Fem.C115_history
#print axioms Verif.Fem.C115_orient
#print axioms Verif.Fem.C115_average
#print axioms Verif.Fem.C115_simulation
#print axioms Verif.Fem.C115_second
-- C116
#print axioms Verif.Lbm.Dam.C116_lattice
#print axioms Verif.Lbm.Dam.C116_equilibrium
#print axioms Verif.Lbm.Dam.C116_velocity
#print axioms Verif.Lbm.Dam.C116_collision
-- C117
#print axioms Verif.Lbm.Dam.C117_exchange
#print axioms Verif.Lbm.Dam.C117_mass
#print axioms Verif.Lbm.Dam.C117_fluid
#print axioms Verif.Lbm.Dam.C117_interface
#print axioms Verif.Lbm.Dam.C117_created
-- C118
#print axioms Verif.Lbm.Dam.C118_kinds
#print axioms Verif.Lbm.Dam.C118_flags
#print axioms Verif.Lbm.Dam.C118_shares
#print axioms Verif.Lbm.Dam.C118_mass
#print axioms Verif.Lbm.Dam.C118_stale
#print axioms Verif.Lbm.Dam.C118_lost
#print axioms Verif.Lbm.Dam.C118_gap
-- C119
#print axioms Verif.Lbm.Dam.C119_closed
#print axioms Verif.Lbm.Dam.C119_nan
#print axioms Verif.Lbm.Dam.C119_dry
#print axioms Verif.Lbm.Dam.C119_start
#print axioms Verif.Lbm.Dam.C119_script
-- C12
#print axioms Verif.Fem.C12_values
#print axioms Verif.Fem.C12_jacobians
#print axioms Verif.Fem.C12_empty
-- C120
#print axioms Verif.Fem.C120_gradient
#print axioms Verif.Fem.C120_two_views
#print axioms Verif.Fem.C120_network
#print axioms Verif.Fem.C120_flat
#print axioms Verif.Fem.C120_modes
-- C121
#print axioms Verif.Fem.C121_mean_gradient
#print axioms Verif.Fem.C121_average
#print axioms Verif.Fem.C121_effective_stress
#print axioms Verif.Fem.C121_homogeneous
-- C122
#print axioms Verif.Fem.C122_constraints
#print axioms Verif.Fem.C122_equilibrium
#print axioms Verif.Fem.C122_singular
-- C123
#print axioms Verif.Fem.C123_retry
#print axioms Verif.Fem.C123_samples
#print axioms Verif.Fem.C123_completes
#print axioms Verif.Fem.C123_never_ends
#print axioms Verif.Fem.C123_file_names
-- C124
#print axioms Verif.Fem.C124_split
#print axioms Verif.Fem.C124_batches
#print axioms Verif.Fem.C124_directories
#print axioms Verif.Fem.C124_pipeline
#print axioms Verif.Fem.C124_errors
#print axioms Verif.Fem.C124_percent
#print axioms Verif.Fem.C124_poly
#print axioms Verif.Fem.C124_least_squares
#print axioms Verif.Fem.C124_networks
-- C125
#print axioms Verif.Fem.C125_inclusion
#print axioms Verif.Fem.C125_face_moduli
#print axioms Verif.Fem.C125_energy
#print axioms Verif.Fem.C125_rest
#print axioms Verif.Fem.C125_traction
#print axioms Verif.Fem.C125_reaction
#print axioms Verif.Fem.C125_run
#print axioms Verif.Fem.C125_held
-- C126
#print axioms Verif.Fem.C126_cycle
#print axioms Verif.Fem.C126_exists
#print axioms Verif.Fem.C126_curve
#print axioms Verif.Fem.C126_rigid
-- C127
#print axioms Verif.Fem.C127_stack
#print axioms Verif.Fem.C127_pieces
#print axioms Verif.Fem.C127_jvp
-- C128
#print axioms Verif.Fem.C128_scaling
#print axioms Verif.Fem.C128_shift
#print axioms Verif.Fem.C128_fd
#print axioms Verif.Fem.C128_support
#print axioms Verif.Fem.C128_demo
#print axioms Verif.Fem.C128_mesh
-- C129
#print axioms Verif.Fem.C129_weak
#print axioms Verif.Fem.C129_program
#print axioms Verif.Fem.C129_comparison
#print axioms Verif.Fem.C129_energy
#print axioms Verif.Fem.C129_symmetry
#print axioms Verif.Fem.C129_balance
#print axioms Verif.Fem.C129_exact
#print axioms Verif.Fem.C129_demo
-- C13
#print axioms Verif.Fem.C13_residual
#print axioms Verif.Fem.C13_returns
#print axioms Verif.Fem.C13_selected
#print axioms Verif.Fem.C13_total
-- C130
#print axioms Verif.Cfd.C130_surface
#print axioms Verif.Cfd.C130_surface_fails
#print axioms Verif.Cfd.C130_div
#print axioms Verif.Cfd.C130_gradient
#print axioms Verif.Cfd.C130_gauss
#print axioms Verif.Cfd.C130_gauss_total
#print axioms Verif.Cfd.C130_plane_ghost
#print axioms Verif.Cfd.C130_plane
#print axioms Verif.Cfd.C130_plane_gradient
#print axioms Verif.Cfd.C130_plane_faces
#print axioms Verif.Cfd.C130_mesh
#print axioms Verif.Cfd.C130_linear
#print axioms Verif.Cfd.C130_nonlinear
#print axioms Verif.Cfd.C130_large_guess
#print axioms Verif.Cfd.C130_affine
-- C131
#print axioms Verif.Fem.C131_moment
#print axioms Verif.Fem.C131_reference
#print axioms Verif.Fem.C131_deformed
#print axioms Verif.Fem.C131_kirchhoff
#print axioms Verif.Fem.C131_cantilever
#print axioms Verif.Fem.C131_program
#print axioms Verif.Fem.C131_twist
#print axioms Verif.Fem.C131_beam
-- C132
#print axioms Verif.Lbm.Cyl.C132_moments
#print axioms Verif.Lbm.Cyl.C132_collision
#print axioms Verif.Lbm.Cyl.C132_drift
#print axioms Verif.Lbm.Cyl.C132_reflection
#print axioms Verif.Lbm.Cyl.C132_return
#print axioms Verif.Lbm.Cyl.C132_balance
#print axioms Verif.Lbm.Cyl.C132_mass
#print axioms Verif.Lbm.Cyl.C132_start
#print axioms Verif.Lbm.Cyl.C132_program
#print axioms Verif.Lbm.Cyl.C132_uniform
#print axioms Verif.Lbm.Cyl.C132_mirror
#print axioms Verif.Lbm.Cyl.C132_symmetric
#print axioms Verif.Lbm.Cyl.C132_mask
#print axioms Verif.Lbm.Cyl.C132_vorticity
#print axioms Verif.Lbm.Cyl.C132_nonneg
#print axioms Verif.Lbm.Cyl.C132_negative
-- C133
#print axioms Verif.Fem.C133_forms
#print axioms Verif.Fem.C133_weak
#print axioms Verif.Fem.C133_derivative
#print axioms Verif.Fem.C133_simple
#print axioms Verif.Fem.C133_gradient
#print axioms Verif.Fem.C133_nonneg
#print axioms Verif.Fem.C133_orthogonal
#print axioms Verif.Fem.C133_smoothMin
#print axioms Verif.Fem.C133_constraint
#print axioms Verif.Fem.C133_weights
#print axioms Verif.Fem.C133_errors
#print axioms Verif.Fem.C133_rows
#print axioms Verif.Fem.C133_handle
#print axioms Verif.Fem.C133_rigid
#print axioms Verif.Fem.C133_mass
#print axioms Verif.Fem.C133_zero
#print axioms Verif.Fem.C133_order
#print axioms Verif.Fem.C133_uniform
#print axioms Verif.Fem.C133_program
#print axioms Verif.Pencil.simple_branch
-- C134
#print axioms Verif.DynRelax.C134_sound
#print axioms Verif.DynRelax.C134_loose
#print axioms Verif.DynRelax.C134_stable
#print axioms Verif.DynRelax.C134_energy
#print axioms Verif.DynRelax.C134_converges
#print axioms Verif.DynRelax.C134_definite
#print axioms Verif.DynRelax.C134_stall
#print axioms Verif.DynRelax.C134_package
#print axioms Verif.DynRelax.C134_straight
#print axioms Verif.DynRelax.C134_overshoot
#print axioms Verif.DynRelax.C134_masses
-- C135
#print axioms Verif.Forming.C135_flow
#print axioms Verif.Forming.C135_unique
#print axioms Verif.Forming.C135_step
#print axioms Verif.Forming.C135_path
#print axioms Verif.Forming.C135_stress
#print axioms Verif.Forming.C135_repeat
#print axioms Verif.Forming.C135_frame
#print axioms Verif.Forming.C135_turnedPath
#print axioms Verif.Forming.C135_yields
#print axioms Verif.Forming.C135_elastic
#print axioms Verif.Forming.C135_dilate
#print axioms Verif.Forming.C135_repaired
#print axioms Verif.Forming.C135_spurious
#print axioms Verif.Forming.C135_noEnergy
#print axioms Verif.Forming.C135_loop
#print axioms Verif.Forming.C135_states
#print axioms Verif.Forming.C135_turn
#print axioms Verif.Forming.C135_single
#print axioms Verif.Forming.C135_balance
#print axioms Verif.Forming.C135_die
#print axioms Verif.Forming.C135_conflict
-- C136
#print axioms Verif.TopProg.C136_pnorm
#print axioms Verif.TopProg.C136_correction
#print axioms Verif.TopProg.C136_accept
#print axioms Verif.TopProg.C136_settled
#print axioms Verif.TopProg.C136_gradient
#print axioms Verif.TopProg.C136_first
#print axioms Verif.TopProg.C136_overstress
#print axioms Verif.TopProg.C136_refines
#print axioms Verif.TopProg.C136_passes
#print axioms Verif.TopProg.C136_designs
#print axioms Verif.TopProg.C136_returns
#print axioms Verif.TopProg.C136_bracket
#print axioms Verif.TopProg.C136_multi
#print axioms Verif.TopProg.C136_weight
#print axioms Verif.TopProg.C136_penalised
#print axioms Verif.TopProg.C136_pair
#print axioms Verif.TopProg.C136_response
#print axioms Verif.TopProg.C136_inspect
#print axioms Verif.TopProg.C136_states
#print axioms Verif.TopProg.C136_stale_step
#print axioms Verif.TopProg.C136_stale
#print axioms Verif.TopProg.C136_chain
#print axioms Verif.TopProg.C136_plastic
-- C137
#print axioms Verif.Cfd.GammaRun.C137_unit
#print axioms Verif.Cfd.GammaRun.C137_short
#print axioms Verif.Cfd.GammaRun.C137_segment
#print axioms Verif.Cfd.GammaRun.C137_times
#print axioms Verif.Cfd.GammaRun.C137_interp
#print axioms Verif.Cfd.GammaRun.C137_outside
#print axioms Verif.Cfd.GammaRun.C137_window
#print axioms Verif.Cfd.GammaRun.C137_turn
#print axioms Verif.Cfd.GammaRun.C137_depth
#print axioms Verif.Cfd.GammaRun.C137_records
-- C138
#print axioms Verif.Calib.C138_steps
#print axioms Verif.Calib.C138_stale_step
#print axioms Verif.Calib.C138_gradient
#print axioms Verif.Calib.C138_calibration
#print axioms Verif.Calib.C138_state
#print axioms Verif.Calib.C138_second
-- C139
#print axioms Verif.SourceId.C139_solution
#print axioms Verif.SourceId.C139_data
#print axioms Verif.SourceId.C139_linear
#print axioms Verif.SourceId.C139_quadratic
#print axioms Verif.SourceId.C139_gradient
#print axioms Verif.SourceId.C139_taylor
#print axioms Verif.SourceId.C139_attained
#print axioms Verif.SourceId.C139_stationary
#print axioms Verif.SourceId.C139_silent
#print axioms Verif.SourceId.C139_norm
#print axioms Verif.SourceId.C139_error
#print axioms Verif.SourceId.C139_nonzero
#print axioms Verif.SourceId.C139_cached
#print axioms Verif.SourceId.C139_box
#print axioms Verif.SourceId.C139_support
-- C14
#print axioms Verif.Fem.C14_tangent
#print axioms Verif.Fem.C14_tangent_smooth
#print axioms Verif.Fem.C14_same_residual
#print axioms Verif.Fem.C14_kernel_differentiable
#print axioms Verif.Fem.C14_face_differentiable
-- C140
#print axioms Verif.PhaseField.C140_heat
#print axioms Verif.PhaseField.C140_unit
#print axioms Verif.PhaseField.C140_insulated
#print axioms Verif.PhaseField.C140_power
#print axioms Verif.PhaseField.C140_range
#print axioms Verif.PhaseField.C140_simple
#print axioms Verif.PhaseField.C140_grf
#print axioms Verif.PhaseField.C140_quench
#print axioms Verif.PhaseField.C140_cap
-- C141
#print axioms Verif.PhaseField.C141_rows
#print axioms Verif.PhaseField.C141_times
#print axioms Verif.PhaseField.C141_positions
#print axioms Verif.PhaseField.C141_run
#print axioms Verif.PhaseField.C141_switch
#print axioms Verif.PhaseField.C141_bounds
-- C142
#print axioms Verif.PhaseField.C142_calls
#print axioms Verif.PhaseField.C142_temperature
#print axioms Verif.PhaseField.C142_extrapolates
#print axioms Verif.PhaseField.C142_repaired
#print axioms Verif.PhaseField.C142_difference
#print axioms Verif.PhaseField.C142_range
#print axioms Verif.PhaseField.C142_negative
#print axioms Verif.PhaseField.C142_mobility
#print axioms Verif.PhaseField.C142_run
#print axioms Verif.PhaseField.C142_program
-- C143
#print axioms Verif.Lbm.Start.C143_phase
#print axioms Verif.Lbm.Start.C143_pbf
#print axioms Verif.Lbm.Start.C143_powder
#print axioms Verif.Lbm.Start.C143_prefix
#print axioms Verif.Lbm.Start.C143_endless
#print axioms Verif.Lbm.Start.C143_negative
#print axioms Verif.Lbm.Start.C143_start
#print axioms Verif.Lbm.Start.C143_runs
#print axioms Verif.Lbm.Start.C143_shapes
-- C144
#print axioms Verif.Lbm.Mirror.C144_velocities
#print axioms Verif.Lbm.Mirror.C144_step
#print axioms Verif.Lbm.Mirror.C144_run
#print axioms Verif.Lbm.Mirror.C144_fluid_only
#print axioms Verif.Lbm.Mirror.C144_balance
#print axioms Verif.Lbm.Mirror.C144_symmetric
#print axioms Verif.Lbm.Mirror.C144_symmetric_flow
#print axioms Verif.Lbm.Mirror.C144_programs
-- C145
#print axioms Verif.Cfd.Project.C145_correction
#print axioms Verif.Cfd.Project.C145_step_energy
#print axioms Verif.Cfd.Project.C145_rest
#print axioms Verif.Cfd.Project.C145_no_traction
#print axioms Verif.Cfd.Project.C145_solver_exists
#print axioms Verif.Cfd.Project.C145_unmolten_run
#print axioms Verif.Cfd.Project.C145_half
#print axioms Verif.Cfd.Project.C145_divergence_remains
-- C146
#print axioms Verif.Fem.LimitLoad.C146_gradient
#print axioms Verif.Fem.LimitLoad.C146_minimum
#print axioms Verif.Fem.LimitLoad.C146_upper
#print axioms Verif.Fem.LimitLoad.C146_collapse
#print axioms Verif.Fem.LimitLoad.C146_solver
#print axioms Verif.Fem.LimitLoad.C146_exists
#print axioms Verif.Fem.LimitLoad.C146_displacement
#print axioms Verif.Fem.LimitLoad.C146_bar_below
#print axioms Verif.Fem.LimitLoad.C146_bar_above
#print axioms Verif.Fem.LimitLoad.C146_bar_solver
-- C147
#print axioms Verif.Fem.Moved.C147_returns
#print axioms Verif.Fem.Moved.C147_residual
#print axioms Verif.Fem.Moved.C147_solutions
#print axioms Verif.Fem.Moved.C147_order
#print axioms Verif.Fem.Moved.C147_elastic
#print axioms Verif.Fem.Moved.C147_plastic
#print axioms Verif.Fem.Moved.C147_history
#print axioms Verif.Fem.Moved.C147_hyper
#print axioms Verif.Fem.Moved.C147_spin
#print axioms Verif.Fem.Moved.C147_elements
-- C148
#print axioms Verif.Fem.Conv.C148_returns
#print axioms Verif.Fem.Conv.C148_nodes
#print axioms Verif.Fem.Conv.C148_smooth_nodes
#print axioms Verif.Fem.Conv.C148_smooth
#print axioms Verif.Fem.Conv.C148_rate
#print axioms Verif.Fem.Conv.C148_exact
#print axioms Verif.Fem.Conv.C148_l2
#print axioms Verif.Fem.Conv.C148_h1
#print axioms Verif.Fem.Conv.C148_quadratic
#print axioms Verif.Fem.Conv.C148_order
#print axioms Verif.Fem.Conv.C148_program
#print axioms Verif.Fem.Conv.C148_converges
-- C149
#print axioms Verif.PhaseField.Ode.C149_exists
#print axioms Verif.PhaseField.Ode.C149_unique
#print axioms Verif.PhaseField.Ode.C149_error
#print axioms Verif.PhaseField.Ode.C149_program
#print axioms Verif.PhaseField.Ode.C149_converges
#print axioms Verif.PhaseField.Ode.C149_simple
#print axioms Verif.PhaseField.Ode.C149_jump
-- C15
#print axioms Verif.Fem.C15_balance
#print axioms Verif.Fem.C15_body_force
#print axioms Verif.Fem.C15_body_force_sol
#print axioms Verif.Fem.C15_neumann
#print axioms Verif.Fem.C15_internal_forces
-- C150
#print axioms Verif.PhaseField.Ode.C150_step
#print axioms Verif.PhaseField.Ode.C150_antitone
#print axioms Verif.PhaseField.Ode.C150_total
#print axioms Verif.PhaseField.Ode.C150_rates
#print axioms Verif.PhaseField.Ode.C150_limits
#print axioms Verif.PhaseField.Ode.C150_limit_exists
#print axioms Verif.PhaseField.Ode.C150_flow
#print axioms Verif.PhaseField.Ode.C150_large_step
-- C151
#print axioms Verif.Fem.NewtonLocal.C151_local
#print axioms Verif.Fem.NewtonLocal.C151_jax
#print axioms Verif.Fem.NewtonLocal.C151_quadratic
#print axioms Verif.Fem.NewtonLocal.C151_fem
-- C152
#print axioms Verif.Fem.SmallLoads.C152_small
#print axioms Verif.Fem.SmallLoads.C152_linear
#print axioms Verif.Fem.SmallLoads.C152_linearised
#print axioms Verif.Fem.SmallLoads.C152_hyper
#print axioms Verif.Fem.SmallLoads.C152_box
#print axioms Verif.Fem.SmallLoads.C152_gravity
-- C153
#print axioms Verif.Fem.ThermalOrder.C153_order
#print axioms Verif.Fem.ThermalOrder.C153_exists
#print axioms Verif.Fem.ThermalOrder.C153_definite
#print axioms Verif.Fem.ThermalOrder.C153_demo
#print axioms Verif.Fem.ThermalOrder.C153_file
-- C154
#print axioms Verif.Aesthetic.C154_third
#print axioms Verif.Aesthetic.C154_total
#print axioms Verif.Aesthetic.C154_direction
#print axioms Verif.Aesthetic.C154_files
#print axioms Verif.Aesthetic.C154_range
#print axioms Verif.Aesthetic.C154_overshoot
-- C155
#print axioms Verif.Aesthetic.Net.C155_network
#print axioms Verif.Aesthetic.Net.C155_minimum
#print axioms Verif.Aesthetic.Net.C155_split
#print axioms Verif.Aesthetic.Net.C155_file
#print axioms Verif.Aesthetic.Net.C155_gram
#print axioms Verif.Aesthetic.Net.C155_style
-- C156
#print axioms Verif.Fem.CauchyExample.C156_unique
#print axioms Verif.Fem.CauchyExample.C156_tangent
#print axioms Verif.Fem.CauchyExample.C156_two
-- C157
#print axioms Verif.Fem.PeriodicExample.C157_multipliers
#print axioms Verif.Fem.PeriodicExample.C157_built
#print axioms Verif.Fem.PeriodicExample.C157_weak
#print axioms Verif.Fem.PeriodicExample.C157_unique
#print axioms Verif.Fem.PeriodicExample.C157_singular
#print axioms Verif.Fem.C157_tri6
-- C158
#print axioms Verif.Fem.CellularSolid.C158_section
#print axioms Verif.Fem.CellularSolid.C158_energy
#print axioms Verif.Fem.CellularSolid.C158_objective
#print axioms Verif.Fem.CellularSolid.C158_rest
#print axioms Verif.Fem.CellularSolid.C158_linearised
-- C159
#print axioms Verif.Fem.DesignCurve.C159_forward
#print axioms Verif.Fem.DesignCurve.C159_proportional
#print axioms Verif.Fem.DesignCurve.C159_uniform
#print axioms Verif.Fem.DesignCurve.C159_gradient
#print axioms Verif.Fem.DesignCurve.C159_objective
#print axioms Verif.Fem.DesignCurve.C159_constraint
#print axioms Verif.Fem.DesignCurve.C159_quarters
#print axioms Verif.Fem.DesignCurve.C159_beam
#print axioms Verif.Fem.DesignCurve.C159_ends
-- C16
#print axioms Verif.Fem.C16_mem
#print axioms Verif.Fem.C16_selection
#print axioms Verif.Fem.C16_count
#print axioms Verif.Fem.C16_consistent
-- C160
#print axioms Verif.Fem.FlexTop.C160_box
#print axioms Verif.Fem.FlexTop.C160_gradient
#print axioms Verif.Fem.FlexTop.C160_bounds
#print axioms Verif.Fem.FlexTop.C160_frozen
#print axioms Verif.Fem.FlexTop.C160_volume
-- C161
#print axioms Verif.Fem.BodyTop.C161_compliance
#print axioms Verif.Fem.BodyTop.C161_moduli
#print axioms Verif.Fem.BodyTop.C161_gradient
#print axioms Verif.Fem.BodyTop.C161_bounds
#print axioms Verif.Fem.BodyTop.C161_supports
#print axioms Verif.Fem.BodyTop.C161_band
#print axioms Verif.Fem.BodyTop.C161_load
#print axioms Verif.Fem.BodyTop.C161_program
#print axioms Verif.Fem.BodyTop.C161_building
-- C162
#print axioms Verif.Fem.TreeTop.C162_clamped
#print axioms Verif.Fem.TreeTop.C162_supports
#print axioms Verif.Fem.TreeTop.C162_load
#print axioms Verif.Fem.TreeTop.C162_unheld
#print axioms Verif.Fem.TreeTop.C162_pivot
#print axioms Verif.Fem.TreeTop.C162_program
#print axioms Verif.Fem.TreeTop.C162_wind
-- C163
#print axioms Verif.Fem.ForceCurve.C163_scale
#print axioms Verif.Fem.ForceCurve.C163_line
#print axioms Verif.Fem.ForceCurve.C163_reaction
#print axioms Verif.Fem.ForceCurve.C163_bar
#print axioms Verif.Fem.DogBone.C163_dogbone
#print axioms Verif.Fem.DogBone.C163_dogbone_reaction
#print axioms Verif.Fem.DogBone.C163_dogbone_bar
#print axioms Verif.Fem.CubeDemo.C163_cube
#print axioms Verif.Fem.Serendipity.C163_position
#print axioms Verif.Fem.Serendipity.C163_serendipity
-- C164
#print axioms Verif.Fem.BoxTop.C164_program
#print axioms Verif.Fem.BoxTop.C164_load
-- C17
#print axioms Verif.Fem.C17_dirichlet
#print axioms Verif.Fem.C17_accepted
-- C18
#print axioms Verif.Fem.C18_pairs
#print axioms Verif.Fem.C18_accepted
-- C19
#print axioms Verif.Fem.C19_zero_iff
#print axioms Verif.Fem.C19_components
#print axioms Verif.Fem.C19_assign
#print axioms Verif.Fem.C19_groups_wf
#print axioms Verif.Fem.C19_user
-- C20
#print axioms Verif.Fem.C20_petsc_eq_jax
#print axioms Verif.Fem.C20_derivative
#print axioms Verif.Fem.C20_jacobi
#print axioms Verif.Fem.C20_initial_guess
#print axioms Verif.Fem.C20_fem
-- C21
#print axioms Verif.Fem.C21_linear
-- C22
#print axioms Verif.Fem.C22_any_arithmetic
#print axioms Verif.Fem.C22_converged
#print axioms Verif.Fem.C22_nan
#print axioms Verif.Fem.C22_linear_unchecked
-- C23
#print axioms Verif.Fem.C23_line_search
#print axioms Verif.Fem.C23_nan_accepted
-- C24
#print axioms Verif.Fem.C24_zero_iff
#print axioms Verif.Fem.C24_tangent
#print axioms Verif.Fem.C24_symmetric
#print axioms Verif.Fem.C24_split
#print axioms Verif.Fem.C24_size
#print axioms Verif.Fem.LProb.C24_reverse_mode
-- C25
#print axioms Verif.Fem.C25_any_arithmetic
#print axioms Verif.Fem.C25_converged
#print axioms Verif.Fem.C25_nan_silent
-- C26
#print axioms Verif.Fem.C26_petsc_periodic
#print axioms Verif.Fem.C26_dynamic_relax
#print axioms Verif.Fem.C26_dispatch
-- C27
#print axioms Verif.Fem.C27_vjp
#print axioms Verif.Fem.C27_jvp
-- C28
#print axioms Verif.Fem.C28_range
#print axioms Verif.Fem.C28_monotone
#print axioms Verif.Fem.C28_value
-- C29
#print axioms Verif.Fem.C29_stress
#print axioms Verif.Fem.C29_energy
#print axioms Verif.Fem.C29_hooke
#print axioms Verif.Fem.C29_stiffness
-- C30
#print axioms Verif.Fem.C30_step
#print axioms Verif.Fem.C30_history
#print axioms Verif.Fem.C30_dissipation
#print axioms Verif.Fem.C30_consistent
#print axioms Verif.Fem.C30_average
-- C31
#print axioms Verif.Fem.C31_objective
#print axioms Verif.Fem.C31_energy
#print axioms Verif.Fem.C31_stress
#print axioms Verif.Fem.C31_rest
#print axioms Verif.Fem.C31_plane_rest
#print axioms Verif.Fem.C31_stress_objective
#print axioms Verif.Fem.C31_power
-- C32
#print axioms Verif.Fem.C32_affine
#print axioms Verif.Fem.C32_zero_iff
-- C33
#print axioms Verif.Fem.Mma.C33_bounds
-- C34
#print axioms Verif.Fem.Mma.C34_interior
#print axioms Verif.Fem.Mma.C34_iterates
#print axioms Verif.Fem.Mma.C34_denominators
#print axioms Verif.Fem.Mma.C34_terminates
#print axioms Verif.Fem.Mma.C34_terminates_pos
#print axioms Verif.Fem.Mma.C34_terminates_mma
-- C35
#print axioms Verif.Fem.Mma.C35_designs
#print axioms Verif.Fem.Mma.C35_result
-- C36
#print axioms Verif.Fem.Mma.C36_approximation
-- C37
#print axioms Verif.Fem.Mma.C37_few
#print axioms Verif.Fem.Mma.C37_weights
#print axioms Verif.Fem.Mma.C37_symmetric
#print axioms Verif.Fem.Mma.C37_constants
#print axioms Verif.Fem.Mma.C37_total
-- C38
#print axioms Verif.Lbm.C38_rev
#print axioms Verif.Lbm.C38_velocity_set
#print axioms Verif.Lbm.C38_moments
-- C39
#print axioms Verif.Lbm.C39_equilibrium_f
#print axioms Verif.Lbm.C39_equilibrium_h
-- C40
#print axioms Verif.Lbm.C40_collide_f_mass
#print axioms Verif.Lbm.C40_collide_f_momentum
#print axioms Verif.Lbm.C40_frozen_at_rest
#print axioms Verif.Lbm.C40_collide_h
-- C41
#print axioms Verif.Lbm.C41_update_f_conserves_mass
#print axioms Verif.Lbm.C41_collide_stream_conserves_mass
#print axioms Verif.Lbm.C41_conversions_conserve_mass
-- C42
#print axioms Verif.Lbm.C42_step_mass
#print axioms Verif.Lbm.C42_total_mass_constant
#print axioms Verif.Lbm.C42_mass_lost_without_interface
-- C43
#print axioms Verif.Lbm.C43_invariants
#print axioms Verif.Lbm.C43_melted_monotone
#print axioms Verif.Lbm.C43_stays_enclosed
-- C44
#print axioms Verif.Lbm.C44_separated_after_liquid_to_lg
#print axioms Verif.Lbm.C44_separated_after_gas_to_lg
#print axioms Verif.Lbm.C44_adhoc_breaks_separation
#print axioms Verif.Lbm.C44_step_breaks_separation
-- C45
#print axioms Verif.Lbm.C45_monotone_iff
#print axioms Verif.Lbm.C45_phase_test
-- C46
#print axioms Verif.Lbm.Path.C46_read_path
#print axioms Verif.Lbm.Path.C46_timing
#print axioms Verif.Lbm.Path.C46_short_leg_misses_corner
#print axioms Verif.Lbm.Path.C46_errors
-- C47
#print axioms Verif.Lbm.C47_update_h_balance
#print axioms Verif.Lbm.C47_no_wall
-- C48
#print axioms Verif.PhaseField.C48_one_hot
-- C49
#print axioms Verif.PhaseField.C49_gradient_flow
#print axioms Verif.PhaseField.C49_dissipation
#print axioms Verif.PhaseField.C49_diffusion_conserves
#print axioms Verif.PhaseField.C49_diffusion_constant
-- C50
#print axioms Verif.PhaseField.C50_single_grain
#print axioms Verif.PhaseField.C50_stationary
#print axioms Verif.PhaseField.C50_stationary_run
#print axioms Verif.PhaseField.C50_zeta
#print axioms Verif.PhaseField.C50_solid_run
#print axioms Verif.PhaseField.C50_equivariant
#print axioms Verif.PhaseField.C50_equivariant_run
#print axioms Verif.PhaseField.C50_step
-- C51
#print axioms Verif.PhaseField.C51_partition
#print axioms Verif.PhaseField.C51_components
#print axioms Verif.PhaseField.C51_orientation
#print axioms Verif.PhaseField.C51_volume
#print axioms Verif.PhaseField.C51_grid_symmetric
-- C52
#print axioms Verif.Cfd.C52_dirichlet
#print axioms Verif.Cfd.C52_neumann
#print axioms Verif.Cfd.C52_marangoni
#print axioms Verif.Cfd.C52_other
#print axioms Verif.Cfd.C52_sides
-- C53
#print axioms Verif.Cfd.C53_laplace_flux
#print axioms Verif.Cfd.C53_laplace_default
#print axioms Verif.Cfd.C53_laplace_const
#print axioms Verif.Cfd.C53_div_flux
#print axioms Verif.Cfd.C53_div_closed
#print axioms Verif.Cfd.C53_div_const
#print axioms Verif.Cfd.C53_faceVels_noflow
#print axioms Verif.Cfd.C53_gradient_const
#print axioms Verif.Cfd.C53_gradient_interior
-- C54
#print axioms Verif.Cfd.C54_jacobian
#print axioms Verif.Cfd.C54_jacobian_nonlinear
#print axioms Verif.Cfd.C54_affine
#print axioms Verif.Cfd.C54_symmetric
#print axioms Verif.Cfd.C54_psd
#print axioms Verif.Cfd.C54_precond
#print axioms Verif.Cfd.C54_balance
-- C55
#print axioms Verif.Cfd.C55_heat_balance
#print axioms Verif.Cfd.C55_max_principle
-- C56
#print axioms Verif.Cfd.C56_fluid_frac
#print axioms Verif.Cfd.C56_solidID
#print axioms Verif.Cfd.C56_solidID_meaning
-- C57
#print axioms Verif.Cfd.C57_window
#print axioms Verif.Cfd.C57_laser_inside
#print axioms Verif.Cfd.C57_outside
#print axioms Verif.Cfd.C57_inside
#print axioms Verif.Cfd.C57_too_large
#print axioms Verif.Cfd.C57_time
#print axioms Verif.Cfd.C57_progress
-- C58
#print axioms Verif.Cfd.C58_face_vel_axis2
#print axioms Verif.Cfd.C58_face_vel_axis01
#print axioms Verif.Cfd.C58_gradient_ignores_bcs
#print axioms Verif.Cfd.C58_energy_dirichlet
#print axioms Verif.Cfd.C58_constructor
#print axioms Verif.Cfd.C58_missing_side
-- C59
#print axioms Verif.Cfd.C59_solver_nonlinear
-- C60
#print axioms Verif.Cfd.Gamma.C60_material
#print axioms Verif.Cfd.Gamma.C60_ghost
#print axioms Verif.Cfd.Gamma.C60_edges
#print axioms Verif.Cfd.Gamma.C60_ambient
#print axioms Verif.Cfd.Gamma.C60_convex
#print axioms Verif.Cfd.Gamma.C60_bounds
#print axioms Verif.Cfd.Gamma.C60_heat_balance
#print axioms Verif.Cfd.Gamma.C60_not_conservative
-- C61
#print axioms Verif.Misc.C61_times
#print axioms Verif.Misc.C61_iff
#print axioms Verif.Misc.C61_k
#print axioms Verif.Misc.C61_few
-- C62
#print axioms Verif.Misc.C62_calls
#print axioms Verif.Misc.C62_once
#print axioms Verif.Misc.C62_idempotent
#print axioms Verif.Misc.C62_levels
-- C63
#print axioms Verif.Misc.C63_text
#print axioms Verif.Misc.C63_idempotent
#print axioms Verif.Misc.C63_missing
#print axioms Verif.Misc.C63_in_place
-- C64
#print axioms Verif.PhaseField.C64_step_bounds
#print axioms Verif.PhaseField.C64_run_bounds
#print axioms Verif.PhaseField.C64_force_liquid
-- C65
#print axioms Verif.PhaseField.C65_aniso_range
#print axioms Verif.PhaseField.C65_aniso_symmetry
#print axioms Verif.PhaseField.C65_formula
#print axioms Verif.PhaseField.C65_crystal_symmetry
-- C66
#print axioms Verif.PhaseField.C66_rk4_linear
#print axioms Verif.PhaseField.C66_rk4_cubic
#print axioms Verif.PhaseField.C66_fixed_point
-- C67
#print axioms Verif.Cfd.C67_pressure_compatible
#print axioms Verif.Cfd.C67_pressure_unique
#print axioms Verif.Cfd.C67_divergence_sums_to_zero
#print axioms Verif.Cfd.C67_velUpdate_total
#print axioms Verif.Cfd.C67_bc_forms
-- C68
#print axioms Verif.Cfd.C68_solver_linear
#print axioms Verif.Cfd.C68_solver_linear_relative
#print axioms Verif.Cfd.C68_unique
#print axioms Verif.Cfd.C68_velocity_reaction
-- C69
#print axioms Verif.Cfd.C69_laser_off_fails
#print axioms Verif.Cfd.C69_no_long_run
#print axioms Verif.Cfd.C69_laser_on
-- C70
#print axioms Verif.Cfd.C70_top_flux
#print axioms Verif.Cfd.C70_flux_bounds
#print axioms Verif.Cfd.C70_loss_sign
#print axioms Verif.Cfd.C70_ambient
-- C71
#print axioms Verif.Fem.C71_virtual_work
-- C72
#print axioms Verif.Fem.Mma.C72_newton
-- C73
#print axioms Verif.Fem.Mma.C73_subsolv
#print axioms Verif.Fem.Mma.C73_mmasub
#print axioms Verif.Fem.Mma.C73_optimize
-- C74
#print axioms Verif.Fem.Mma.C74_gap
#print axioms Verif.Fem.Mma.C74_result
-- C75
#print axioms Verif.Lbm.C75_curvature_exact
#print axioms Verif.Lbm.C75_phi_exact
#print axioms Verif.Lbm.C75_phi_total
#print axioms Verif.Lbm.C75_axis
#print axioms Verif.Lbm.C75_surface
#print axioms Verif.Lbm.C75_sign
#print axioms Verif.Lbm.C75_exchange
#print axioms Verif.Lbm.C75_flat
-- C76
#print axioms Verif.Lbm.C76_marangoni
#print axioms Verif.Lbm.C76_recoil
#print axioms Verif.Lbm.C76_bulk
#print axioms Verif.Lbm.C76_T_grad
-- C77
#print axioms Verif.Lbm.C77_laser
#print axioms Verif.Lbm.C77_loss
-- C78
#print axioms Verif.Lbm.C78_driven
#print axioms Verif.Lbm.C78_quiet
-- C79
#print axioms Verif.Lbm.C79_relaxation
#print axioms Verif.Lbm.C79_temperature
#print axioms Verif.Lbm.C79_force
#print axioms Verif.Lbm.C79_heat
-- C80
#print axioms Verif.Fem.C80_plane
#print axioms Verif.Fem.C80_normals
#print axioms Verif.Fem.C80_local
#print axioms Verif.Fem.C80_measures
-- C81
#print axioms Verif.Fem.C81_area_element
#print axioms Verif.Fem.C81_length_element
#print axioms Verif.Fem.C81_tet4
#print axioms Verif.Fem.C81_tri3
-- C82
#print axioms Verif.Fem.C82_check_mesh
#print axioms Verif.Fem.C82_cell_type
-- C83
#print axioms Verif.Fem.C83_area
#print axioms Verif.Fem.C83_traction
#print axioms Verif.Fem.C83_traction_dim
#print axioms Verif.Fem.C83_box_area
#print axioms Verif.Fem.C83_box_traction
#print axioms Verif.Fem.C83_box_load
-- C84
#print axioms Verif.Fem.C84_surface_support
-- C85
#print axioms Verif.Fem.C85_patch_box
#print axioms Verif.Fem.C85_patch_traction
-- C86
#print axioms Verif.Fem.C86_unique
#print axioms Verif.Fem.C86_modes_tet4
#print axioms Verif.Fem.C86_modes_tri3
#print axioms Verif.Fem.C86_modes_hex8
#print axioms Verif.Fem.C86_modes_quad4
#print axioms Verif.Fem.C86_modes_tri6
#print axioms Verif.Fem.C86_modes_tet10
-- C87
#print axioms Verif.Fem.C87_affine
#print axioms Verif.Fem.C87_solution
#print axioms Verif.Fem.C87_determined
#print axioms Verif.Fem.C87_patch
-- C88
#print axioms Verif.Fem.C88_unique
#print axioms Verif.Fem.C88_rigid_tet4
#print axioms Verif.Fem.C88_rigid_tri3
#print axioms Verif.Fem.C88_rigid_hex8
#print axioms Verif.Fem.C88_elastic_strict
#print axioms Verif.Fem.C88_solution
#print axioms Verif.Fem.C88_bar
-- C89
#print axioms Verif.PhaseField.C89_orientation
#print axioms Verif.PhaseField.C89_initial
#print axioms Verif.PhaseField.C89_colours
#print axioms Verif.PhaseField.C89_percent
#print axioms Verif.PhaseField.C89_grains
#print axioms Verif.PhaseField.C89_mismatch
#print axioms Verif.PhaseField.C89_at_liquidus
-- C90
#print axioms Verif.PhaseField.C90_at_least_one
#print axioms Verif.PhaseField.C90_undefined
#print axioms Verif.PhaseField.C90_similar
#print axioms Verif.PhaseField.C90_box
#print axioms Verif.PhaseField.C90_unequal_volumes
-- C91
#print axioms Verif.PhaseField.C91_grid
#print axioms Verif.PhaseField.C91_grid_sound
#print axioms Verif.PhaseField.C91_grid_order
#print axioms Verif.PhaseField.C91_orientations
#print axioms Verif.PhaseField.C91_grain_count
#print axioms Verif.PhaseField.C91_untagged
#print axioms Verif.PhaseField.C91_obj
#print axioms Verif.PhaseField.C91_obj_blank
#print axioms Verif.PhaseField.C91_obj_no_group
#print axioms Verif.PhaseField.C91_rotation
#print axioms Verif.PhaseField.C91_frame
#print axioms Verif.PhaseField.C91_scale
#print axioms Verif.PhaseField.C91_zero
-- C92
#print axioms Verif.SparseJac.C92_coloring
#print axioms Verif.SparseJac.C92_jacrev
#print axioms Verif.SparseJac.C92_jacfwd
#print axioms Verif.SparseJac.C92_positive
#print axioms Verif.SparseJac.C92_values_used
-- C93
#print axioms Verif.Fem.C93_triplets
#print axioms Verif.Fem.C93_residual
-- C94
#print axioms Verif.Fem.C94_differentiable
#print axioms Verif.Fem.LinearFamily.C94_linear
#print axioms Verif.Fem.LinearFamily.C94_gradient
#print axioms Verif.Fem.LinearFamily.C94_tangent
#print axioms Verif.Fem.C94_ties_ignored
-- C95
#print axioms Verif.Fem.C95_matrix_free
#print axioms Verif.Fem.C95_jfnk_affine
#print axioms Verif.Fem.C95_jfnk_error
#print axioms Verif.Fem.C95_matrix
#print axioms Verif.Fem.C95_same_matrix
#print axioms Verif.Fem.C95_precond
-- C96
#print axioms Verif.Fem.C96_derivative
#print axioms Verif.Fem.C96_value
#print axioms Verif.Fem.C96_unique
#print axioms Verif.Fem.C96_polynomial
#print axioms Verif.Fem.C96_kink
-- C97
#print axioms Verif.Fem.C97_split
#print axioms Verif.Fem.C97_gradient
#print axioms Verif.Fem.C97_options
#print axioms Verif.Fem.C97_noise
#print axioms Verif.Fem.C97_monotone
#print axioms Verif.Fem.C97_unilateral
#print axioms Verif.Fem.C97_intact
#print axioms Verif.Fem.C97_isotropic
-- C98
#print axioms Verif.Fem.C98_irreversible
#print axioms Verif.Fem.C98_history
#print axioms Verif.Fem.C98_minimiser
#print axioms Verif.Fem.C98_phase_solution
#print axioms Verif.Fem.C98_uniform
#print axioms Verif.Fem.C98_displacement
#print axioms Verif.Fem.C98_box
#print axioms Verif.Fem.C98_converged
#print axioms Verif.Fem.C98_lag
#print axioms Verif.Fem.C98_first
#print axioms Verif.Fem.C98_traction
#print axioms Verif.Fem.C98_force_wrong
#print axioms Verif.Fem.C98_damage
-- C99
#print axioms Verif.Fem.C99_active_mesh
#print axioms Verif.Fem.C99_active_returns
#print axioms Verif.Fem.C99_write_back
#print axioms Verif.Fem.C99_external
#print axioms Verif.Fem.C99_returns
#print axioms Verif.Fem.C99_not_removed
#print axioms Verif.Fem.C99_box
#print axioms Verif.Fem.C99_plate
