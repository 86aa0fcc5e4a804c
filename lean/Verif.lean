import Verif.AbsNormal.Model
import Verif.AbsNormal.Thm
import Verif.AbsOpt.Box
import Verif.AbsOpt.EvalApprox
import Verif.AbsOpt.EvalModel
import Verif.AbsOpt.EvalSecond
import Verif.AbsOpt.EvalSpec
import Verif.AbsOpt.EvalThm
import Verif.AbsOpt.EvalWrong
import Verif.AbsOpt.Example
import Verif.AbsOpt.Init
import Verif.AbsOpt.Iter
import Verif.AbsOpt.Loops
import Verif.AbsOpt.MinLinear
import Verif.AbsOpt.Model
import Verif.AbsOpt.Nso
import Verif.AbsOpt.Pivot
import Verif.AbsOpt.QpBox
import Verif.AbsOpt.QpExample
import Verif.AbsOpt.QpModel
import Verif.AbsOpt.QpNewton
import Verif.AbsOpt.QpSpec
import Verif.AbsOpt.QpThm
import Verif.AbsOpt.Slope
import Verif.AbsOpt.Spec
import Verif.AtomEx.Base
import Verif.AtomEx.CholDeriv
import Verif.AtomEx.CholModel
import Verif.AtomEx.CholObj
import Verif.AtomEx.CholPos
import Verif.AtomEx.CholThm
import Verif.AtomEx.CholWrong
import Verif.AtomEx.Example
import Verif.AtomEx.InvFwd
import Verif.AtomEx.InvModel
import Verif.AtomEx.InvObj
import Verif.AtomEx.InvThm
import Verif.AtomEx.InvWrong
import Verif.AtomEx.MatCalc
import Verif.AtomEx.MatChol
import Verif.AtomEx.MatFwd
import Verif.AtomEx.MatModel
import Verif.AtomEx.MatRev
import Verif.AtomEx.MatSparse
import Verif.AtomEx.VecFwd
import Verif.AtomEx.VecModel
import Verif.AtomEx.VecRev
import Verif.AtomEx.VecSparse
import Verif.AtomEx.VecThm
import Verif.Chkpoint.Contract
import Verif.Chkpoint.Example
import Verif.Chkpoint.Inline
import Verif.Chkpoint.Model
import Verif.Chkpoint.OneHist
import Verif.Chkpoint.OneModel
import Verif.Chkpoint.OneThm
import Verif.Chkpoint.OneWrong
import Verif.Chkpoint.Thm
import Verif.Color.Calc
import Verif.Color.General
import Verif.Color.SparseHes
import Verif.Color.SparseJac
import Verif.Color.Symmetric
import Verif.Csrc.Example
import Verif.Csrc.Main
import Verif.Csrc.Model
import Verif.Csrc.Thm
import Verif.Graph.Example
import Verif.Graph.From
import Verif.Graph.From2
import Verif.Graph.From3
import Verif.Graph.Itr
import Verif.Graph.Json
import Verif.Graph.JsonLex
import Verif.Graph.JsonMain
import Verif.Graph.JsonThm
import Verif.Graph.JsonUse
import Verif.Graph.JsonWrong
import Verif.Graph.Model
import Verif.Graph.Thm
import Verif.Graph.To
import Verif.Graph.To2
import Verif.Ipopt.Dense
import Verif.Ipopt.Example
import Verif.Ipopt.Idx
import Verif.Ipopt.Inv
import Verif.Ipopt.Keep
import Verif.Ipopt.Main
import Verif.Ipopt.Model
import Verif.Ipopt.Patterns
import Verif.Ipopt.Spec
import Verif.Ipopt.Thm
import Verif.Ipopt.Wrong
import Verif.Legacy.Example
import Verif.Legacy.Hes
import Verif.Legacy.Jac
import Verif.Legacy.Model
import Verif.Legacy.Patterns
import Verif.Legacy.Sets
import Verif.Legacy.Wrong
import Verif.Ode.ErrInv
import Verif.Ode.ErrModel
import Verif.Ode.ErrSpec
import Verif.Ode.ErrStep
import Verif.Ode.ErrThm
import Verif.Ode.GearControl
import Verif.Ode.GearCtlThm
import Verif.Ode.GearInv
import Verif.Ode.GearModel
import Verif.Ode.GearThm
import Verif.Ode.GearWeights
import Verif.Ode.RkChain
import Verif.Ode.RkCoef
import Verif.Ode.RkCoef4
import Verif.Ode.RkLoops
import Verif.Ode.RkNan
import Verif.Ode.RkOrder
import Verif.Ode.RkRefine
import Verif.Ode.RkSeries
import Verif.Ode.RkTab
import Verif.Ode.RkTaylor
import Verif.Ode.RkThm
import Verif.Ode.RosCoef
import Verif.Ode.RosLoops
import Verif.Ode.RosNan
import Verif.Ode.RosRefine
import Verif.Ode.RosSeries
import Verif.Ode.RosTab
import Verif.Ode.RosThm
import Verif.Ode.Rosen34
import Verif.Ode.Runge45
import Verif.OptVal.Bender
import Verif.OptVal.Calc
import Verif.OptVal.Loops
import Verif.OptVal.Model
import Verif.OptVal.Spec
import Verif.OptVal.Thm
import Verif.OptVal.Wrong
import Verif.Optimize.AtomExample
import Verif.Optimize.Csum
import Verif.Optimize.Emit
import Verif.Optimize.Main
import Verif.Optimize.Model
import Verif.Optimize.NumSkip
import Verif.Optimize.Pars
import Verif.Optimize.Preserve
import Verif.Optimize.Prev
import Verif.Optimize.Run
import Verif.Optimize.Sem
import Verif.Optimize.Thm
import Verif.Optimize.Usage
import Verif.Optimize.UsageAll
import Verif.Optimize.Value
import Verif.Optimize.Wrong
import Verif.Play.Model
import Verif.Play.Thm
import Verif.Record.Atan2
import Verif.Record.AtomExample
import Verif.Record.AtomOk
import Verif.Record.Inv
import Verif.Record.Model
import Verif.Record.OpsOk
import Verif.Record.Par
import Verif.Record.Parallel
import Verif.Record.Print
import Verif.Record.Prog
import Verif.Record.Replay
import Verif.Record.Session
import Verif.Record.Thm
import Verif.Record.Thm2
import Verif.Record.Threads
import Verif.Record.VecOk
import Verif.Romberg.Exact
import Verif.Romberg.Model
import Verif.Romberg.Mul
import Verif.Romberg.MulOrder
import Verif.Romberg.MulThm
import Verif.Romberg.One
import Verif.Romberg.Order
import Verif.Romberg.Quad
import Verif.Romberg.Value
import Verif.SetVec.ListAdd
import Verif.SetVec.ListBuild
import Verif.SetVec.ListHas
import Verif.SetVec.ListInv
import Verif.SetVec.ListOps
import Verif.SetVec.ListProcess
import Verif.SetVec.ListRead
import Verif.SetVec.ListThm
import Verif.SetVec.ListVec
import Verif.SetVec.Pack
import Verif.SetVec.PackProof
import Verif.SetVec.PackThm
import Verif.SetVec.SortLemmas
import Verif.SetVec.Spec
import Verif.SetVec.Svec
import Verif.SetVec.SvecGc
import Verif.SetVec.SvecInv
import Verif.SetVec.SvecMerge
import Verif.SetVec.SvecOps
import Verif.SetVec.SvecPost
import Verif.SetVec.SvecSet
import Verif.SetVec.SvecThm
import Verif.SetVec.SvecWrong
import Verif.Sparsity.Apply
import Verif.Sparsity.AtomWrong
import Verif.Sparsity.Closure
import Verif.Sparsity.Hes
import Verif.Sparsity.HesFor
import Verif.Sparsity.Jac
import Verif.Sparsity.Local
import Verif.Sparsity.LocalAtom
import Verif.Sparsity.Model
import Verif.Sparsity.Symm
import Verif.Sparsity.VecHes
import Verif.Sparsity.VecJac
import Verif.Sparsity.VecModel
import Verif.Sparsity.VecThm
import Verif.Speed.Model
import Verif.Speed.Ode
import Verif.Speed.Thm
import Verif.Subgraph.Graph
import Verif.Subgraph.JacRev
import Verif.Subgraph.Model
import Verif.Subgraph.Reverse
import Verif.Subgraph.Sparsity
import Verif.Subgraph.Sweep
import Verif.Taylor.Arith
import Verif.Taylor.Atan
import Verif.Taylor.AtomCert
import Verif.Taylor.AtomLoop
import Verif.Taylor.AtomType
import Verif.Taylor.Binary
import Verif.Taylor.Cert
import Verif.Taylor.Div
import Verif.Taylor.Drivers
import Verif.Taylor.DriversTwo
import Verif.Taylor.Erf
import Verif.Taylor.Exp
import Verif.Taylor.FunDirs
import Verif.Taylor.FunMem
import Verif.Taylor.FunModel
import Verif.Taylor.FunProof
import Verif.Taylor.FunRev
import Verif.Taylor.FunSpec
import Verif.Taylor.Gen
import Verif.Taylor.GenFrame
import Verif.Taylor.GenThm
import Verif.Taylor.GenZero
import Verif.Taylor.History
import Verif.Taylor.LocLin
import Verif.Taylor.Log
import Verif.Taylor.Loop
import Verif.Taylor.Misc
import Verif.Taylor.Mixed
import Verif.Taylor.ModelArith
import Verif.Taylor.ModelAtom
import Verif.Taylor.ModelErf
import Verif.Taylor.ModelExp
import Verif.Taylor.ModelLog
import Verif.Taylor.ModelMisc
import Verif.Taylor.ModelPow
import Verif.Taylor.ModelTrig
import Verif.Taylor.Op
import Verif.Taylor.Pow
import Verif.Taylor.Pow2
import Verif.Taylor.Rev
import Verif.Taylor.Series
import Verif.Taylor.Stages
import Verif.Taylor.Tan
import Verif.Taylor.Tape
import Verif.Taylor.TapeRev
import Verif.Taylor.Trig
import Verif.Taylor.Two
import Verif.Taylor.Unary
import Verif.Taylor.Zero
import Verif.Util.Alloc
import Verif.Util.AllocProof
import Verif.Util.Det
import Verif.Util.ErrorHandler
import Verif.Util.IndexSort
import Verif.Util.Lu
import Verif.Util.LuRatio
import Verif.Util.Memory
import Verif.Util.NearEqual
import Verif.Util.Pod
import Verif.Util.PodProof
import Verif.Util.PodThm
import Verif.Util.PowPoly
import Verif.Util.SparseRc
import Verif.Util.Vector
import Verif.Util.VectorBool
import Verif.Util.VectorBoolProof
import Verif.Util.VectorProof
import Verif.Util.While
import Verif.ValGraph.Clean
import Verif.ValGraph.CleanPass
import Verif.ValGraph.DeadCode
import Verif.ValGraph.Eval
import Verif.ValGraph.FoldCon
import Verif.ValGraph.Fun
import Verif.ValGraph.Fun2Val
import Verif.ValGraph.Fun2ValThm
import Verif.ValGraph.FunThm
import Verif.ValGraph.FunWrong
import Verif.ValGraph.Model
import Verif.ValGraph.Optimize
import Verif.ValGraph.Renumber
import Verif.ValGraph.RevDep
import Verif.ValGraph.Summation
import Verif.ValGraph.Val2Fun
import Verif.ValGraph.Val2FunMain
import Verif.ValGraph.Val2FunThm
import Verif.ValGraph.Wrong
