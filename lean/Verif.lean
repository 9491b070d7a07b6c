import Verif.Lib.Loop
import Verif.Model.CInt
import Verif.Model.Generic
import Verif.Spec.Lanes
import Verif.Props.Generic
import Verif.Model.Util
import Verif.Props.Util
import Verif.Lib.Reg
import Verif.Model.Tables
import Verif.Model.Native
import Verif.Model.Mask
import Verif.Proofs.Native
import Verif.Proofs.Blend
import Verif.Proofs.Mask
import Verif.Props.X86Mask
import Verif.Props.X86MaskReduce
import Verif.Model.NativeInt
import Verif.Model.Vector
import Verif.Spec.Calls
import Verif.Proofs.NativeInt
import Verif.Proofs.Vector
import Verif.Props.X86Int
import Verif.Props.X86Shift
import Verif.Props.X86Reduce
import Verif.Model.Shuffle
import Verif.Proofs.Shuffle
import Verif.Props.X86Shuffle
import Verif.Spec.Float
import Verif.Model.FloatBits
import Verif.Proofs.FloatBits
import Verif.Proofs.Nextafter
import Verif.Props.X86Float
import Verif.Spec.Ieee
import Verif.Proofs.Ieee
import Verif.Model.Cvt
import Verif.Proofs.Cvt
import Verif.Props.X86Cvt
import Verif.Model.FloatManip
import Verif.Spec.Manip
import Verif.Proofs.Fields
import Verif.Proofs.Frexp
import Verif.Proofs.StoreExp
import Verif.Props.X86Manip
import Verif.Proofs.Guard
import Verif.Proofs.Scalbn
import Verif.Proofs.ScalbnSpec
import Verif.Props.X86Scalbn
import Verif.Proofs.Modf
import Verif.Proofs.ModfSpec
import Verif.Props.X86Modf
import Verif.Proofs.Ilogb
import Verif.Proofs.Logb
import Verif.Props.X86Logb
import Verif.Model.Round
import Verif.Spec.Round
import Verif.Proofs.RoundInt
import Verif.Proofs.Round
import Verif.Proofs.RoundSse2
import Verif.Proofs.RintSse2
import Verif.Proofs.TruncSse2
import Verif.Proofs.RoundTie
import Verif.Props.X86Round
import Verif.Spec.Cpuid
import Verif.Model.Cpuid
import Verif.Props.Cpuid
import Verif.Spec.Fma
import Verif.Spec.FloatCvt
import Verif.Model.Mbase
import Verif.Model.Hypot
import Verif.Model.Trig
import Verif.Proofs.Trig
import Verif.Proofs.TrigLane
import Verif.Proofs.FloatNan
import Verif.Spec.Trig
import Verif.Proofs.TrigSpec
import Verif.Props.X86Trig
import Verif.Spec.Real
import Verif.Proofs.RealFp
import Verif.Proofs.Horner
import Verif.Proofs.Sqrt
import Verif.Proofs.Hypot
import Verif.Proofs.RealOps
import Verif.Proofs.HypotAcc
import Verif.Props.X86Polevl
import Verif.Spec.Mbase
import Verif.Props.X86Mbase
import Verif.Props.X86Hypot
import Verif.Model.Log
import Verif.Proofs.Log
import Verif.Proofs.LogRed
import Verif.Props.X86Log
import Verif.Proofs.LogCert
import Verif.Proofs.LogAcc
import Verif.Proofs.LogEval
import Verif.Proofs.Log2Cert
import Verif.Proofs.Log2Acc
import Verif.Proofs.Log2Dbl
import Verif.Proofs.Log2Eval
import Verif.Props.X86LogAcc
import Verif.Proofs.Log10Acc
import Verif.Proofs.Log10Scale
import Verif.Props.X86Log10Acc
import Verif.Proofs.Log1pAcc
import Verif.Props.X86Log1pAcc
import Verif.Model.Program
import Verif.Props.Backends
import Verif.Proofs.TrigTaylor
import Verif.Proofs.PolyCert
import Verif.Proofs.TrigPol
import Verif.Proofs.TrigRnd
import Verif.Proofs.TrigSinAcc
import Verif.Proofs.TrigCosAcc
import Verif.Proofs.TrigRed
import Verif.Proofs.TrigCore
import Verif.Proofs.TrigOct
import Verif.Proofs.TrigAcc
import Verif.Proofs.TrigMain
import Verif.Props.X86TrigAcc
import Verif.Props.X86TrigFar
import Verif.Props.X86TrigFma
import Verif.Proofs.PolyPos
import Verif.Proofs.InvCoef
import Verif.Proofs.InvCert
import Verif.Proofs.InvRnd
import Verif.Proofs.InvAcc
import Verif.Proofs.InvPol
import Verif.Proofs.InvAsin
import Verif.Proofs.InvBig
import Verif.Proofs.InvMain
import Verif.Proofs.InvAcos
import Verif.Proofs.InvAtan
import Verif.Props.X86InvAcc
import Verif.Model.GenericMath
import Verif.Model.Callable
import Verif.Model.RoundInt
import Verif.Proofs.RoundVec
import Verif.Props.X86RoundInt
import Verif.Props.GenericMath
import Verif.Props.Callable
import Verif.Model.CallMask
import Verif.Props.CallMask
import Verif.Model.ConstEval
import Verif.Props.ConstEval
import Verif.Model.Conv
import Verif.Spec.Cast
import Verif.Proofs.Conv
import Verif.Props.X86Conv
import Verif.Spec.FltScalar
import Verif.Model.FloatProgram
import Verif.Spec.FloatExpr
import Verif.Spec.FloatArith
import Verif.Props.X86FloatExpr
import Verif.Model.Rcp
import Verif.Spec.Approx
import Verif.Props.X86Rcp
import Verif.Model.Msvc
import Verif.Props.Msvc
import Verif.Model.Align
import Verif.Props.Align
import Verif.Model.Alias
import Verif.Props.Alias
import Verif.Model.X86Lib
import Verif.Props.X86Lib
import Verif.Props.X86SincosAcc
import Verif.Props.NanErrors
import Verif.Props.AbiTypes
import Verif.Props.ScalarForms
import Verif.Model.Config
import Verif.Spec.Compilers
import Verif.Props.Config
import Verif.Model.CpuidWin
import Verif.Props.CpuidWin
import Verif.Model.Imperative
import Verif.Spec.ScalarProgram
import Verif.Props.ScalarProgram
import Verif.Props.Imperative
import Verif.Props.MapLoop
import Verif.Props.SearchLoop
import Verif.Spec.Machine
import Verif.Props.Exec
import Verif.Props.Machine
import Verif.Props.FloatLoops
import Verif.Props.AccLoop
import Verif.Spec.Sum
import Verif.Proofs.SumErr
import Verif.Props.FloatSum
import Verif.Spec.Svml
import Verif.Model.Svml
import Verif.Props.Svml
import Verif.Spec.Flags
import Verif.Model.Flags
import Verif.Props.Flags
import Verif.Props.FlagsMath
import Verif.Props.FlagExpr
import Verif.Props.FlagLoop
import Verif.Spec.RoundDir
import Verif.Model.RoundDir
import Verif.Proofs.RoundDir
import Verif.Proofs.RintDir
import Verif.Props.RoundDir
import Verif.Proofs.RoundAway
import Verif.Props.RoundDirInt
import Verif.Props.RoundDirIround
import Verif.Model.Threads
import Verif.Proofs.Threads
import Verif.Proofs.ThreadRuns
import Verif.Proofs.ThreadBackends
import Verif.Proofs.ThreadLoops
import Verif.Props.Threads
import Verif.Props.ThreadSum
import Verif.Props.ThreadFloatSum
import Verif.Model.Sse
import Verif.Model.Construct
import Verif.Props.Construct
import Verif.Model.Operand
import Verif.Props.Operand
import Verif.Props.Sse
import Verif.Spec.Scalars
import Verif.Model.FromScalar
import Verif.Props.FromScalar
import Verif.Props.ImplicitConv
