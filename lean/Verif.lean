import Verif.Base.Tactics
import Verif.Base.Arr
import Verif.Mesh.Model
import Verif.Mesh.Lemmas
import Verif.Mesh.Props
import Verif.Lbm.Model
import Verif.Lbm.Lemmas
import Verif.Lbm.PropsMoments
import Verif.Lbm.PropsMass
import Verif.Lbm.PropsFlags
import Verif.Lbm.Path
import Verif.Mesh.Transfer
import Verif.PhaseField.Graph
import Verif.PhaseField.GraphProps
import Verif.Cfd.MeshModel
import Verif.Cfd.MeshProps
import Verif.PhaseField.AllenCahn
import Verif.PhaseField.AllenCahnLemmas
import Verif.PhaseField.AllenCahnProps
import Verif.PhaseField.AllenCahnBounds
import Verif.PhaseField.Rk4
import Verif.Cfd.Ops
import Verif.Cfd.OpsProps
import Verif.Cfd.Poisson
import Verif.Cfd.PoissonLemmas
import Verif.Cfd.PoissonProps
import Verif.Cfd.Am3d
import Verif.Cfd.Am3dProps
import Verif.Cfd.Gamma
import Verif.Cfd.GammaProps
import Verif.Fem.Basis
import Verif.Fem.BasisProps
import Verif.Fem.Core
import Verif.Fem.Lemmas
import Verif.Fem.PropsGeom
import Verif.Fem.Assembly
import Verif.Fem.PropsAssembly
import Verif.Fem.Tangent
import Verif.Fem.PropsTangent
import Verif.Fem.Boundary
import Verif.Fem.Solver
import Verif.Fem.SolverLemmas
import Verif.Fem.SolverProps
import Verif.Fem.Lagrange
import Verif.Fem.LagrangeProps
import Verif.Fem.Implicit
import Verif.Fem.Models
import Verif.Fem.Work
import Verif.Fem.ModelsProps
import Verif.Fem.HyperProps
import Verif.Fem.Mma
import Verif.Fem.MmaProps
import Verif.Fem.MmaNewton
import Verif.Fem.MmaOpt
import Verif.Fem.MmaDual
import Verif.Misc.Text
import Verif.Misc.Logger
import Verif.Misc.Frames
import Verif.Lbm.Forces
import Verif.Lbm.PropsForces
import Verif.Lbm.PropsDrive
import Verif.Lbm.Units
import Verif.Fem.Tables
import Verif.Fem.PropsTables
import Verif.Fem.PropsNanson
import Verif.Fem.PropsSimplex
import Verif.Fem.Box
import Verif.Fem.PropsSurface
import Verif.Fem.PropsPatch
import Verif.Fem.PropsPatch2
import Verif.Fem.PropsUnique
import Verif.Fem.PropsLinear
import Verif.Fem.PropsLinear2
import Verif.Fem.PropsElastic
import Verif.Fem.PropsElastic2
import Verif.PhaseField.Output
import Verif.PhaseField.AspectProps
import Verif.PhaseField.OutputProps
import Verif.PhaseField.Neper
import Verif.PhaseField.NeperProps
import Verif.PhaseField.AnisoProps
import Verif.Fem.SparseJac
import Verif.Fem.SparseJacProps
import Verif.Fem.NumbaAssembly
import Verif.Fem.AdWrapper
import Verif.Fem.Operators
import Verif.Fem.Spectral
import Verif.Fem.SpectralProps
import Verif.Fem.Fracture
import Verif.Fem.FractureProps
import Verif.Fem.FractureLoop
import Verif.Fem.FractureLoopProps
import Verif.Fem.ActiveMesh
import Verif.Fem.ActiveBox
import Verif.Fem.Thermal
import Verif.Fem.ThermalFaces
import Verif.Fem.ThinWall
import Verif.Fem.TopOpt
import Verif.Fem.TopOptProps
import Verif.Fem.TopOptGrad
import Verif.Fem.TopOptMesh
import Verif.Fem.TopOptVm
import Verif.Fem.ThermoFaces
import Verif.Fem.NewtonLinear
import Verif.Fem.Thermo
import Verif.Fem.RadialReturn
import Verif.Fem.ThermoMech
import Verif.Fem.ThermoLoop
import Verif.Fem.Crystal
import Verif.Fem.CrystalFlow
import Verif.Fem.CrystalStress
import Verif.Fem.CrystalAd
import Verif.Fem.CrystalRun
import Verif.Lbm.Dam
import Verif.Lbm.DamProps
import Verif.Lbm.DamStream
import Verif.Lbm.DamTypes
import Verif.Lbm.DamMass
import Verif.Lbm.DamRun
import Verif.Lbm.DamWitness
import Verif.Fem.MultiScale
import Verif.Fem.MultiScaleProps
import Verif.Fem.MultiScaleRve
import Verif.Fem.MultiScaleBc
import Verif.Fem.MultiScaleData
import Verif.Fem.MultiScaleTrain
import Verif.Fem.MultiScaleDeploy
import Verif.Fem.PlasticDemo
import Verif.Fem.StackDiff
import Verif.Fem.InverseDemo
import Verif.Fem.PoissonDemo
import Verif.Cfd.Old
import Verif.Fem.Moments
import Verif.Lbm.Cylinder
import Verif.Fem.Pencil
import Verif.Fem.EigenOpt
import Verif.Fem.EigenOptProps
import Verif.Fem.EigenOptCons
import Verif.Fem.EigenOptRect
import Verif.Fem.DynRelax
import Verif.Fem.DynRelaxProps
import Verif.Fem.DynRelaxRun
import Verif.Fem.DynRelaxCases
import Verif.Fem.Forming
import Verif.Fem.FormingProps
import Verif.Fem.FormingCases
import Verif.Fem.FormingFem
import Verif.Fem.StressCon
import Verif.Fem.TopLoop
import Verif.Fem.TopMulti
import Verif.Fem.TopPlastic
import Verif.Cfd.GammaRun
import Verif.Fem.Calibration
import Verif.Fem.SourceId
import Verif.PhaseField.Laser
import Verif.PhaseField.Scan
import Verif.PhaseField.CoupledRun
import Verif.Lbm.Start
import Verif.Lbm.Mirror
import Verif.Cfd.Project
import Verif.Fem.LimitLoad
import Verif.Fem.LimitBox
import Verif.Fem.Moved
import Verif.Fem.MovedLaws
import Verif.Fem.ConvTaylor
import Verif.Fem.Convergence
import Verif.Fem.ConvErrors
import Verif.Fem.ConvGeneral
import Verif.PhaseField.EulerOde
import Verif.PhaseField.GrainOde
import Verif.PhaseField.GrainRun
import Verif.PhaseField.GrainJump
import Verif.PhaseField.GrainEnergy
import Verif.Fem.NewtonLocal
import Verif.Fem.SmallLoads
import Verif.Fem.HyperSmall
import Verif.Fem.ThermalOrder
import Verif.Fem.ThermalOde
import Verif.Fem.ThermalDemo
import Verif.Aesthetic.Resize
import Verif.Aesthetic.Direction
import Verif.Aesthetic.Style
import Verif.Fem.CauchyExample
import Verif.Fem.PeriodicExample
import Verif.Fem.ModesQuadratic
import Verif.Fem.CellularSolid
import Verif.Fem.DesignCurve
import Verif.Fem.FlexTop
import Verif.Fem.BodyTop
import Verif.Fem.BridgeRect
import Verif.Fem.TreeTop
import Verif.Fem.ForceCurve
import Verif.Fem.DogBone
import Verif.Fem.CubeDemo
import Verif.Fem.BoxTop
import Verif.Fem.Serendipity
import Verif.Audit
