import Verif.Model.Augmentation
import Verif.Model.BLMixing
import Verif.Model.BoundaryConditions
import Verif.Model.Boussinesq
import Verif.Model.BoussinesqBalance
import Verif.Model.Columns
import Verif.Model.CommonForms
import Verif.Model.ComplexProxy
import Verif.Model.CompressibleSolver
import Verif.Model.Configuration
import Verif.Model.ConsistentMetric
import Verif.Model.CoordTransforms
import Verif.Model.CubedSphere
import Verif.Model.DGForms
import Verif.Model.DeferredBase
import Verif.Model.DeferredCorrection
import Verif.Model.DeferredInit
import Verif.Model.DiagnosticLife
import Verif.Model.Diagnostics
import Verif.Model.DomainGeometry
import Verif.Model.EqNames
import Verif.Model.EquationDiagnostics
import Verif.Model.EquationSet
import Verif.Model.Euler
import Verif.Model.EulerFull
import Verif.Model.ExplicitRK
import Verif.Model.FML
import Verif.Model.FlatLatLon
import Verif.Model.Hydrostatic
import Verif.Model.Icosphere
import Verif.Model.ImplicitRK
import Verif.Model.LimiterArgs
import Verif.Model.Limiters
import Verif.Model.Logging
import Verif.Model.MPI
import Verif.Model.ModelClasses
import Verif.Model.Multilevel
import Verif.Model.NetCDF
import Verif.Model.NumericalIntegral
import Verif.Model.ParallelDC
import Verif.Model.ParallelIO
import Verif.Model.Physics
import Verif.Model.Predictor
import Verif.Model.PrescribedTransport
import Verif.Model.Projection
import Verif.Model.QNSetup
import Verif.Model.QuasiNewton
import Verif.Model.Recoverer
import Verif.Model.RecoveryKernels
import Verif.Model.RefProfiles
import Verif.Model.Registry
import Verif.Model.Rexi
import Verif.Model.SUPG
import Verif.Model.SetUp
import Verif.Model.ShallowWater
import Verif.Model.ShallowWater1d
import Verif.Model.SiqnFamily
import Verif.Model.SolverParams
import Verif.Model.Solvers
import Verif.Model.Spaces
import Verif.Model.SplitTimestepper
import Verif.Model.StaticAdjustment
import Verif.Model.Store
import Verif.Model.Tableaux
import Verif.Model.Thermodynamics
import Verif.Model.TimeDisc
import Verif.Model.TimeLevels
import Verif.Model.TimeLoop
import Verif.Model.TopoSort
import Verif.Model.TrBdf2Family
import Verif.Model.TransportEquations
import Verif.Model.Wrappers
import Verif.Spec.Collocation
import Verif.Spec.Constrained
import Verif.Spec.ConstrainedSchemes
import Verif.Spec.Convergence
import Verif.Spec.DCConvergence
import Verif.Spec.Energy
import Verif.Spec.FML
import Verif.Spec.IMEXOrder
import Verif.Spec.ImplicitRK
import Verif.Spec.Intertwine
import Verif.Spec.IntertwineSchemes
import Verif.Spec.Invariants
import Verif.Spec.LocalConvergence
import Verif.Spec.LocalOrder
import Verif.Spec.Multistep
import Verif.Spec.NetCDF
import Verif.Spec.OrderConditions
import Verif.Spec.Projection
import Verif.Spec.RIDCPipe
import Verif.Spec.RK
import Verif.Spec.Recovery
import Verif.Spec.SSP
import Verif.Spec.Splitting
import Verif.Spec.Superposition
import Verif.Spec.Symmetry
import Verif.Lemmas.Collectives
import Verif.Lemmas.Constrained
import Verif.Lemmas.ConstrainedDC
import Verif.Lemmas.ConstrainedRK
import Verif.Lemmas.ConstrainedRes
import Verif.Lemmas.ConstrainedSchemes
import Verif.Lemmas.Convergence
import Verif.Lemmas.ConvergenceAdditive
import Verif.Lemmas.ConvergenceImplicit
import Verif.Lemmas.ConvergenceMultilevel
import Verif.Lemmas.ConvergenceOrder
import Verif.Lemmas.ConvergenceRuns
import Verif.Lemmas.ConvergenceTrees
import Verif.Lemmas.CubedSphere
import Verif.Lemmas.DCConvergence
import Verif.Lemmas.DeferredCorrection
import Verif.Lemmas.ExplicitRK
import Verif.Lemmas.FML
import Verif.Lemmas.Gauss
import Verif.Lemmas.Icosphere
import Verif.Lemmas.IcosphereCount
import Verif.Lemmas.IcospherePoints
import Verif.Lemmas.ImplicitRK
import Verif.Lemmas.Intertwine
import Verif.Lemmas.IntertwineDC
import Verif.Lemmas.IntertwineRK
import Verif.Lemmas.IntertwineRes
import Verif.Lemmas.IntertwineSchemes
import Verif.Lemmas.LinearRK
import Verif.Lemmas.LocalOrder
import Verif.Lemmas.Localise
import Verif.Lemmas.MPI
import Verif.Lemmas.Multilevel
import Verif.Lemmas.ParallelRIDC
import Verif.Lemmas.ParallelSDC
import Verif.Lemmas.RIDCConvergence
import Verif.Lemmas.SiqnConvergence
import Verif.Lemmas.Splitting
import Verif.Lemmas.Store
import Verif.Lemmas.TimeDisc
import Verif.Lemmas.TimeLoop
import Verif.Lemmas.TrBdf2Convergence
import Verif.Props.Augmentation
import Verif.Props.BLMixing
import Verif.Props.BoundaryConditions
import Verif.Props.BoundaryPhysics
import Verif.Props.Boussinesq
import Verif.Props.BoussinesqBalance
import Verif.Props.Columns
import Verif.Props.CommonForms
import Verif.Props.ComplexProxy
import Verif.Props.CompressibleSolver
import Verif.Props.Configuration
import Verif.Props.Conservation
import Verif.Props.ConsistentMetric
import Verif.Props.ConstrainedEquation
import Verif.Props.Contractive
import Verif.Props.Convergence
import Verif.Props.CoordTransforms
import Verif.Props.CubedSphere
import Verif.Props.CubedSphereGeometry
import Verif.Props.DCConvergence
import Verif.Props.DGForms
import Verif.Props.DeferredBase
import Verif.Props.DeferredCorrection
import Verif.Props.DiagnosticLife
import Verif.Props.Diagnostics
import Verif.Props.DomainGeometry
import Verif.Props.Energy
import Verif.Props.EqNames
import Verif.Props.EquationDiagnostics
import Verif.Props.EquationSet
import Verif.Props.Euler
import Verif.Props.EulerFull
import Verif.Props.EulerHydrostatic
import Verif.Props.ExplicitRK
import Verif.Props.FlatLatLon
import Verif.Props.Hybrid
import Verif.Props.Hydrostatic
import Verif.Props.IMEX
import Verif.Props.Icosphere
import Verif.Props.IcosphereGeometry
import Verif.Props.ImplicitBounds
import Verif.Props.ImplicitRK
import Verif.Props.LimitedSchemes
import Verif.Props.Limiters
import Verif.Props.LocalConvergence
import Verif.Props.LocalMultilevel
import Verif.Props.Logging
import Verif.Props.Microphysics
import Verif.Props.ModelClasses
import Verif.Props.Multilevel
import Verif.Props.MultilevelConvergence
import Verif.Props.NetCDF
import Verif.Props.NumericalIntegral
import Verif.Props.OneStep
import Verif.Props.ParallelIO
import Verif.Props.ParallelRIDC
import Verif.Props.ParallelSDC
import Verif.Props.Predictor
import Verif.Props.PrescribedTransport
import Verif.Props.Projection
import Verif.Props.QNEnergy
import Verif.Props.QNMass
import Verif.Props.QNSetup
import Verif.Props.QuasiNewton
import Verif.Props.RIDC
import Verif.Props.RIDCConvergence
import Verif.Props.Recoverer
import Verif.Props.Recovery
import Verif.Props.RefProfiles
import Verif.Props.Registry
import Verif.Props.Restart
import Verif.Props.Rexi
import Verif.Props.SSP
import Verif.Props.SUPG
import Verif.Props.SWPhysics
import Verif.Props.SetUp
import Verif.Props.ShallowWater
import Verif.Props.ShallowWater1d
import Verif.Props.SiqnConvergence
import Verif.Props.SolverParams
import Verif.Props.Solvers
import Verif.Props.Spaces
import Verif.Props.Split
import Verif.Props.SplitConvergence
import Verif.Props.StageConvergence
import Verif.Props.StaticAdjustment
import Verif.Props.Steady
import Verif.Props.Store
import Verif.Props.Superposition
import Verif.Props.Symmetry
import Verif.Props.Tableaux
import Verif.Props.Thermodynamics
import Verif.Props.TimeLevels
import Verif.Props.TimeLoop
import Verif.Props.TopoSort
import Verif.Props.TrBdf2Convergence
import Verif.Props.TransportEquations
import Verif.Props.Wrappers
