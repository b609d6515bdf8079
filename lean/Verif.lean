import Verif.Code.Diff
import Verif.Proofs.Diff
import Verif.Proofs.Reach
import Verif.Proofs.Deriv
import Verif.Proofs.Calc
import Verif.Proofs.Panics
import Verif.Proofs.Sim
import Verif.Props.Expr
import Verif.Props.Expr2
import Verif.Props.Diff
import Verif.Props.Std
import Verif.Props.Matrix
import Verif.Props.Problem
import Verif.Props.Constr
import Verif.Props.ModelStd
import Verif.Props.ModelStd2
import Verif.Props.ModelStd3
import Verif.Props.Solve
import Verif.Props.Print
import Verif.Props.LpFile
import Verif.Props.Param
import Verif.Props.SolFile
import Verif.Props.CmdSolver
import Verif.Props.Ipopt
import Verif.Props.Ipopt2
import Verif.Props.ModelPrint
import Verif.Props.EndToEnd
import Verif.Props.Ipopt3
import Verif.Props.Kkt
import Verif.Props.Convex
import Verif.Props.Repro
import Verif.Props.Duals
import Verif.Props.DualsIpopt
import Verif.Props.Rounding
import Verif.Tests.Expr
import Verif.Tests.Std
import Verif.Tests.Examples
import Verif.Props.Tolerance
import Verif.Props.History
import Verif.Props.FileTolerance
import Verif.Props.SelfQuotient
import Verif.Props.Sci
import Verif.Props.Near
import Verif.Props.IpoptWithin
import Verif.Props.RoundingStd
import Verif.Props.RoundingSolve
import Verif.Props.Report
import Verif.Props.Binary64
import Verif.Props.ExactData
import Verif.Props.ExactSolve
import Verif.Props.ExactEval
import Verif.Props.Partial
import Verif.Props.Rounding64
import Verif.Props.RoundingStd64
import Verif.Props.RoundingSolve64
import Verif.Code.Float64
import Verif.Spec.File64
import Verif.Proofs.File64
import Verif.Proofs.FileData64
import Verif.Proofs.FileWithin64
import Verif.Props.File64
import Verif.Spec.RoundingNlp64
import Verif.Props.RoundingNlp64
import Verif.Spec.SumForm
import Verif.Props.SumForm
import Verif.Spec.RoundingDeriv64
import Verif.Props.RoundingDeriv64
import Verif.Proofs.SumFormW
import Verif.Spec.RoundingGrad64
import Verif.Props.RoundingGrad64
import Verif.Spec.LinearValues64
import Verif.Proofs.LinearValues64
import Verif.Props.LinearValues64
import Verif.Spec.IpoptWithin64
import Verif.Proofs.IpoptWithin64
import Verif.Props.IpoptWithin64
import Verif.Spec.IpoptOpt64
import Verif.Props.IpoptOpt64
import Verif.Spec.FloatText
import Verif.Props.FloatText
import Verif.Code.Macros
import Verif.Props.Macros
import Verif.Spec.PolyDeriv64
import Verif.Proofs.PolyRep64
import Verif.Proofs.PolyDeriv64
import Verif.Props.PolyDeriv64
import Verif.Spec.PolyModel64
import Verif.Proofs.PolyStd64
import Verif.Proofs.PolyModel64
import Verif.Props.PolyModel64
import Verif.Code.IpoptMem
import Verif.Spec.IpoptMem
import Verif.Proofs.IpoptMem
import Verif.Props.IpoptMem
import Verif.Spec.PathCount
import Verif.Proofs.PathCount
import Verif.Props.PathCount
import Verif.Props.Missing64
import Verif.Spec.NoPanic
import Verif.Proofs.NoPanic
import Verif.Props.NoPanic
import Verif.Code.Memory
import Verif.Spec.Memory
import Verif.Proofs.Memory
import Verif.Props.Memory
import Verif.Spec.Graded
import Verif.Proofs.Graded
import Verif.Proofs.GradedModel
import Verif.Proofs.GradedLaws
import Verif.Props.Tame
import Verif.Spec.Replay
import Verif.Proofs.Rename
import Verif.Proofs.RenameDiff
import Verif.Proofs.RenameModel
import Verif.Proofs.Replay
import Verif.Props.Replay
import Verif.Code.Stack
import Verif.Spec.Depth
import Verif.Proofs.Depth
import Verif.Props.Depth
import Verif.Code.Cost
import Verif.Spec.Size
import Verif.Proofs.Size
import Verif.Props.Size
import Verif.Proofs.Cells
import Verif.Code.CmdProc
import Verif.Spec.Concurrent
import Verif.Proofs.Concurrent
import Verif.Props.Concurrent
import Verif.Props.IpoptPoly64
import Verif.Code.MemStack
import Verif.Props.DropDepth
import Verif.Props.MulDepth
import Verif.Spec.DerivForm
import Verif.Proofs.DerivForm
import Verif.Props.DerivForm
