import Verif.Props.TimeLoop
import Verif.Props.Csr
import Verif.Props.Energy
import Verif.Props.Routes
import Verif.Props.Integrators
import Verif.Props.Fields
import Verif.Props.Partition
import Verif.Props.SgbcMesh
import Verif.Props.FaceRotation
import Verif.Props.SgbcSub
import Verif.Props.Implicit
import Verif.Props.ImplicitEnergy
import Verif.Props.SgbcEvol
import Verif.Props.SgbcPar
import Verif.Props.SgbcStep
import Verif.Props.SgbcFlux
import Verif.Props.SurfaceFile
import Verif.Props.Spherical
import Verif.Props.Rcs
import Verif.Props.RcsDriver
import Verif.Props.FarField
import Verif.Props.Gmsh
import Verif.Props.Config
import Verif.Props.Layer
import Verif.Props.Launch
import Verif.Props.Mor
import Verif.Props.TimeStep
import Verif.Props.Sources
import Verif.Props.Wave
import Verif.Props.Dipole
import Verif.Props.Delay
import Verif.Props.SourceCfg
import Verif.Props.SubMesh
import Verif.Props.NtffMesh
import Verif.Props.NodalMaps
import Verif.Props.Nodal
import Verif.Props.NodalSide
import Verif.Props.Movie
import Verif.Props.PoleFit
import Verif.Props.RcsWave
import Verif.Props.Decimal
import Verif.Props.ProbeFiles
import Verif.Props.ProbeCfg
import Verif.Props.Device
import Verif.Props.OpSource
import Verif.Props.OpLayer
import Verif.Props.SgbcInit
import Verif.Props.OpMaxwellSource
import Verif.Props.Spectral
import Verif.Props.TimeInt
import Verif.Props.TimeIntRun
import Verif.Props.Par
import Verif.Props.ParSource
import Verif.Props.TimeIntDriven
import Verif.Props.NodalAssembly
import Verif.Props.NodalRun
import Verif.Props.Frame
import Verif.Props.Local
import Verif.Props.Recip
import Verif.Props.Super
import Verif.Props.NodalCurved
import Verif.Props.Mode
import Verif.Props.Galerkin
import Verif.Props.GalerkinCase
import Verif.Props.GalerkinMass
import Verif.Props.GalerkinMassCase
import Verif.Props.Polynomial
import Verif.Props.PolynomialCase
import Verif.Props.Convergence
import Verif.Props.ConvergenceCase
import Verif.Props.Charge
import Verif.Props.ChargeCase
import Verif.Props.Straight
import Verif.Props.StraightCase
import Verif.Props.PoleSolve
import Verif.Props.PoleTarget
import Verif.Props.CflCase
import Verif.Props.UniformCase
import Verif.Props.Simulate
import Verif.Props.Pointwise
import Verif.Props.SimulateCase
import Verif.Props.GalerkinSourceImplicit
import Verif.Props.GalerkinSourceCase
import Verif.Props.Collective
import Verif.Props.MeshRead
import Verif.Props.SuperImplicit
import Verif.Props.Export
import Verif.Props.Saw
import Verif.Props.SawCase
import Verif.Props.Gmres
import Verif.Props.StraightField
import Verif.Props.StraightConvergence
import Verif.Props.StraightFieldCase
import Verif.Props.NodalFem
import Verif.Props.NodalFemMesh
import Verif.Props.NodalFemCase
import Verif.Props.SgbcReport
import Verif.Props.SgbcRanks
import Verif.Props.Split
import Verif.Props.FloatClock
import Verif.Props.LineMesh
import Verif.Props.NodalConn
import Verif.Props.StraightCharge
import Verif.Props.StraightChargeCase
import Verif.Props.ChildBdr
import Verif.Props.NodeNormal
import Verif.Props.Reverse
import Verif.Props.Dual
import Verif.Props.Scale
import Verif.Props.Image
import Verif.Props.Power
import Verif.Props.Static
import Verif.Props.StaticCase
import Verif.Props.Stats
import Verif.Props.Modes
import Verif.Props.Account
import Verif.Props.RefNodes
import Verif.Props.SurfaceDirs
import Verif.Props.SurfaceRun
import Verif.Props.Spectra
import Verif.Props.PartitionReport
import Verif.Props.Renumber
import Verif.Props.EntryOrder
import Verif.Props.Watch
import Verif.Props.Longer
import Verif.Props.AtRest
import Verif.Props.Memory
import Verif.Props.NoLayers
import Verif.Props.LayerStep
import Verif.Props.Finish
import Verif.Props.FaceKinds
import Verif.Props.Drop
import Verif.Props.DropRun
import Verif.Props.DropRanks
import Verif.Props.ModePulse
