import Verif.Py
import Verif.Config.Model
import Verif.Config.Lemmas
import Verif.Config.Props
import Verif.Beam2D.Data
import Verif.Beam2D.DataLemmas
import Verif.Beam2D.DataProps
import Verif.Beam2D.Source
import Verif.Beam2D.Pusher
import Verif.Beam2D.PusherProps
import Verif.Beam2D.DepositProps
import Verif.Beam2D.MoveProps
import Verif.Beam2D.Sweep
import Verif.Beam2D.SweepProps
import Verif.Mpi.Proc
import Verif.Mpi.Model
import Verif.Mpi.Spec
import Verif.Mpi.Trace
import Verif.Mpi.Props
import Verif.Mpi.World2D
import Verif.Mpi.Overtake
import Verif.Mpi.World3D
import Verif.Mpi.Run3D
import Verif.Mpi.Causality
import Verif.Mpi.Causality3D
import Verif.Mpi.CausalityExamples
import Verif.Mpi.Continue
import Verif.Mpi.ContinueExamples
import Verif.Beam2D.Strong
import Verif.Plasma2D.Ode
import Verif.Plasma2D.Fields
import Verif.Plasma2D.Deposit
import Verif.Plasma2D.Init
import Verif.Plasma2D.Uniform
import Verif.Plasma2D.Move
import Verif.Plasma2D.Substep
import Verif.Plasma2D.Layer
import Verif.Plasma2D.World
import Verif.Plasma3D.Weights
import Verif.Plasma3D.Move
import Verif.Plasma3D.Init
import Verif.Plasma3D.Spectral
import Verif.Plasma3D.Fields
import Verif.Plasma3D.NoiseFilter
import Verif.Plasma3D.Step
import Verif.Plasma3D.Swap
import Verif.Plasma3D.Profile
import Verif.Beam3D.Data
import Verif.Beam3D.Deposit
import Verif.Beam3D.Move
import Verif.Beam3D.Sweep
import Verif.Beam3D.Rigid
import Verif.Gen.Model
import Verif.Gen.Props
import Verif.Gen.Charge
import Verif.Gen.Beam
import Verif.Gen.Params
import Verif.Gen.Cases
import Verif.Diag.Time
import Verif.Diag.Buffer
import Verif.Diag.FXi
import Verif.Diag.Slice
import Verif.Diag.Coords
import Verif.Diag.Particles
import Verif.Plasma3D.GpuStep
import Verif.Beam3D.GpuDeposit
import Verif.Beam3D.GpuPusher
import Verif.Beam3D.GpuSweep
import Verif.Plasma3D.Mirror
import Verif.Plasma3D.Symmetric
import Verif.Plasma3D.Stream
import Verif.Sim.Driver
import Verif.Sim.DriverCases
import Verif.Config.Dump
import Verif.Config.DumpText
import Verif.Config.DumpProps
import Verif.Config.DumpSpec
import Verif.Config.Rerun
import Verif.Split
import Verif.Plasma2D.Split
import Verif.Plasma3D.Split
import Verif.Mpi.Split2D
import Verif.Mpi.Split3D
import Verif.Mpi.Whole
import Verif.Mpi.TestBeam
import Verif.Mpi.FreeBeam3D
import Verif.Mpi.FreeBeam2D
import Verif.Mpi.Mirror3D
import Verif.Mpi.MirrorSim3D
import Verif.Plasma3D.Conj
import Verif.Mpi.Conj3D
import Verif.Plasma2D.Chiral
import Verif.Plasma2D.Conj
import Verif.Mpi.Chiral2D
import Verif.Legacy.Scan
import Verif.Legacy.Segments
import Verif.Legacy.Layers
import Verif.Legacy.Beam
import Verif.Fp.Round
import Verif.Fp.Counts
import Verif.Fp.Borders
import Verif.Fp.Window
import Verif.Fp.Times
import Verif.Fp.Slices
import Verif.Mpi.Datatype
import Verif.Plasma2D.Alike
import Verif.Mpi.Shift2D
import Verif.Mpi.Shift3D
import Verif.Mpi.Held3D
import Verif.Fp.Index
import Verif.Fp.Index3D
import Verif.Mem.Heap
import Verif.Mem.Solver2D
import Verif.Mem.Solver3D
import Verif.Mem.Loop
import Verif.Mem.Runs
import Verif.Mem.Rows
import Verif.Sim.Start
import Verif.Sim.StartProps
import Verif.Sim.StartCases
import Verif.Mpi.Window
import Verif.Gen.Tail
import Verif.Gen.TailCases
import Verif.Num.Taylor
import Verif.Plasma2D.Converge
import Verif.Plasma2D.ConvergeAll
import Verif.Num.Plane
import Verif.Plasma3D.Converge
import Verif.Plasma3D.Neumann
import Verif.Plasma3D.ConvergeBz
import Verif.Plasma3D.ConvergeAll
import Verif.Plasma3D.ConvergeCases
import Verif.Diag.Old
import Verif.Diag.OldFXi
import Verif.Diag.OldMaps
import Verif.Diag.OldOther
import Verif.Diag.OldCases
import Verif.Beam3D.Converge
import Verif.Beam3D.ConvergeSampled
import Verif.Beam3D.ConvergeGpu
import Verif.Beam3D.ConvergeCases
import Verif.Beam2D.Converge
import Verif.Beam2D.ConvergeCases
import Verif.Fp.Sums
import Verif.Fp.BeamSum
import Verif.Fp.BeamCharge
import Verif.Fp.BeamExact
import Verif.Fp.Trapz
import Verif.Fp.Deposit3D
import Verif.Fp.Tridiag
import Verif.Fp.TridiagError
import Verif.Fp.FieldSolve
import Verif.Fp.FieldModel
import Verif.Fp.Sqrt
import Verif.Fp.SubLoop
import Verif.Fp.PlasmaWorld
import Verif.Fp.PlasmaQuiet
import Verif.Fp.PlasmaStep
import Verif.Fp.PlasmaDeposit
import Verif.Fp.Plasma3World
import Verif.Fp.Plasma3Quiet
import Verif.Fp.Plasma3Deposit
import Verif.Plasma2D.Profiles
import Verif.Plasma3D.Dual
import Verif.Legacy.MakeBeam2
import Verif.Fp.Mirror
import Verif.Plasma3D.Trajectory
import Verif.Plasma3D.TrajectoryStep
import Verif.Plasma3D.TrajectoryCases
import Verif.Plasma2D.Trajectory
import Verif.Plasma2D.TrajectoryLayers
import Verif.Plasma2D.TrajectoryCases
import Verif.Plasma3D.Invariant
import Verif.Diag.Targets
import Verif.Plasma2D.SecondOrder
import Verif.Plasma2D.SecondOrderCases
import Verif.Config.CConfig
import Verif.Config.MainGet
import Verif.Sim.Examples
import Verif.Gen.Whole
import Verif.Sim.DiagStart
import Verif.Diag.Dispatch
