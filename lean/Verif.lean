import Verif.Props.ApiUpdates
import Verif.Proofs.Real
import Verif.Spec.Geometry
import Verif.Proofs.Geometry
import Verif.Props.Geometry
import Verif.Proofs.Gradient
import Verif.Props.Gradient
import Verif.Props.Jacobian
import Verif.Proofs.Components
import Verif.Props.Components
import Verif.Props.Plan
import Verif.Props.Decompose
import Verif.Props.Solve
import Verif.Props.Rng
import Verif.Props.Lm
import Verif.Props.LmTermination
import Verif.Props.LmNan
import Verif.Props.SolvePanic
import Verif.Props.Lbfgs
import Verif.Props.LbfgsWitness
import Verif.Props.LineSearchWitness
import Verif.Props.LbfgsHang
import Verif.Props.LbfgsCase
import Verif.Props.Analyze
import Verif.Props.Sparse
import Verif.Props.Permutation
import Verif.Props.Forest
import Verif.Props.EliminationTree
import Verif.Proofs.ColCounts
import Verif.Props.Cholesky
import Verif.Props.Qr
import Verif.Props.LmQr
import Verif.Props.AnyNumbers
import Verif.Props.ColamdErrors
import Verif.Props.OrderChildren
import Verif.Props.ColamdPattern
import Verif.Props.Symamd
import Verif.Props.ColamdOrdering
import Verif.Props.ColamdDense
import Verif.Props.SymamdDense
import Verif.Props.QrOverflow
import Verif.Props.Svg
import Verif.Tests.UnitTests
import Verif.Props.LbfgsReturns
import Verif.Props.LbfgsCorner
import Verif.Props.Scaling
import Verif.Props.ScalingRounded
import Verif.Props.Rest
import Verif.Props.RestDefault
import Verif.Props.Success
import Verif.Props.SuccessWitness
import Verif.Props.ClusterJacobian
import Verif.Props.ClusterDense
import Verif.Props.SuccessRecursive
import Verif.Spec.Carry
import Verif.Proofs.OwnedOnce
import Verif.Proofs.RigidStep
import Verif.Props.Rigid
import Verif.Spec.Dense
import Verif.Proofs.DenseExact
import Verif.Proofs.IncidenceCount
import Verif.Props.Dense
import Verif.Proofs.PairScan
import Verif.Proofs.PairPhase
import Verif.Proofs.Freedom
import Verif.Proofs.PairKeep
import Verif.Proofs.PairSolve
import Verif.Props.SuccessDistances
import Verif.Spec.LevenbergMarquardt
import Verif.Props.LmMachine
import Verif.Props.LmStuck
import Verif.Spec.HagerZhang
import Verif.Proofs.HagerZhang
import Verif.Props.LbfgsMachine
import Verif.Props.LbfgsWorse
import Verif.Proofs.Fronted
import Verif.Proofs.RecursiveTotal
import Verif.Props.SolveRecursive
import Verif.Proofs.AffineLm
import Verif.Proofs.Differences
import Verif.Props.Coincidence
import Verif.Spec.Rounding
import Verif.Proofs.Rounding
import Verif.Proofs.Binary64
import Verif.Props.Rounding
import Verif.Spec.Contract
import Verif.Proofs.Contract
import Verif.Props.Contract
import Verif.Spec.Size
import Verif.Proofs.Stay
import Verif.Proofs.RoundedSums
import Verif.Proofs.StayRounded
import Verif.Props.StayRounded
import Verif.Proofs.StayAngles
import Verif.Props.StayAngles
import Verif.Proofs.StayAssembly
import Verif.Props.StayAssembly
import Verif.Proofs.Overlay
import Verif.Props.Unlinked
import Verif.Spec.Figure
import Verif.Proofs.FittingMap
import Verif.Proofs.LinearModel
import Verif.Proofs.Turned
import Verif.Proofs.ObjectiveMap
import Verif.Proofs.ConTerm
import Verif.Proofs.WholeSolve
import Verif.Proofs.ConTurn
import Verif.Proofs.FigureTurn
import Verif.Proofs.FigureSolve
import Verif.Proofs.FigureParts
import Verif.Props.Figures
import Verif.Proofs.Gap
import Verif.Spec.Loose
import Verif.Props.Lengths
import Verif.Props.AxisPass
import Verif.Props.OrderPass
import Verif.Proofs.Canonical
import Verif.Props.Present
import Verif.Model.DecomposeI16
import Verif.Proofs.Narrow
import Verif.Proofs.NarrowBound
import Verif.Props.Narrow
import Verif.Props.SymamdLower
import Verif.Props.ColamdStatus
import Verif.Props.NotWorse
import Verif.Props.NotWorseLbfgs
import Verif.Proofs.RelError
import Verif.Proofs.RoundedBackSubst
import Verif.Proofs.QrSteps
import Verif.Proofs.VecNorm
import Verif.Proofs.RoundedReflector
import Verif.Proofs.RoundedQr
import Verif.Proofs.RoundedSolve
import Verif.Props.QrRounded
import Verif.Proofs.RoundedLm
import Verif.Props.LmRounded
import Verif.Props.FormatError
import Verif.Props.ColamdFirst
import Verif.Props.ColamdForest
import Verif.Props.QrForest
import Verif.Proofs.Balance
import Verif.Props.Centroid
import Verif.Props.Joined
import Verif.Props.Again
import Verif.Proofs.Compromise
import Verif.Props.Contradict
import Verif.Props.Centre
import Verif.Props.Meeting
import Verif.Props.Symmetry
import Verif.Props.ClearReuse
import Verif.Props.Drawn
import Verif.Props.Straight
import Verif.Props.StraightDefault
import Verif.Props.StraightPass
import Verif.Props.DrawnJoined
import Verif.Props.PairMoves
