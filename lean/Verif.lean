import Verif.Model.AMap
import Verif.Model.AbsInt
import Verif.Model.Access
import Verif.Model.Asm
import Verif.Model.AsmText
import Verif.Model.Attrs
import Verif.Model.Backend
import Verif.Model.BackendSnapshot
import Verif.Model.Blockchain
import Verif.Model.Builder
import Verif.Model.BuiltinSyms
import Verif.Model.Builtins
import Verif.Model.CallIf
import Verif.Model.ConstFold
import Verif.Model.Dedup
import Verif.Model.Diff
import Verif.Model.DotHtml
import Verif.Model.Dse
import Verif.Model.EvmWord
import Verif.Model.Exit
import Verif.Model.Flow
import Verif.Model.Frames
import Verif.Model.Helper
import Verif.Model.HelperIo
import Verif.Model.JitEvm
import Verif.Model.Linker
import Verif.Model.Lower
import Verif.Model.MemJump
import Verif.Model.MemSections
import Verif.Model.ObjCapture
import Verif.Model.Opcode
import Verif.Model.Parse
import Verif.Model.Pause
import Verif.Model.Program
import Verif.Model.ReadCode
import Verif.Model.RunBench
import Verif.Model.RunCmd
import Verif.Model.Runner
import Verif.Model.Sections
import Verif.Model.Session
import Verif.Model.StateRoot
import Verif.Model.Store
import Verif.Model.Suspend
import Verif.Model.Tramp
import Verif.Model.U256
import Verif.Model.VStack
import Verif.Model.Whole
import Verif.Model.WholeDedup
import Verif.Model.WholeDedupGas
import Verif.Model.WholeGas
import Verif.Model.WholeMem
import Verif.Model.Workers
import Verif.Spec.AbsInt
import Verif.Spec.Access
import Verif.Spec.Arith
import Verif.Spec.Asm
import Verif.Spec.AsmText
import Verif.Spec.Attrs
import Verif.Spec.Backend
import Verif.Spec.Blockchain
import Verif.Spec.Builder
import Verif.Spec.BuiltinSyms
import Verif.Spec.CallIf
import Verif.Spec.Calls
import Verif.Spec.Code
import Verif.Spec.DataAccess
import Verif.Spec.Dedup
import Verif.Spec.Diff
import Verif.Spec.Dse
import Verif.Spec.EvmWord
import Verif.Spec.Exit
import Verif.Spec.Flow
import Verif.Spec.Forks
import Verif.Spec.Frames
import Verif.Spec.Helper
import Verif.Spec.HelperIo
import Verif.Spec.MemJump
import Verif.Spec.MemSections
import Verif.Spec.Pause
import Verif.Spec.ReadCode
import Verif.Spec.Redirect
import Verif.Spec.Runner
import Verif.Spec.Sections
import Verif.Spec.Session
import Verif.Spec.StateRoot
import Verif.Spec.Store
import Verif.Spec.Suspend
import Verif.Spec.Tramp
import Verif.Spec.VStack
import Verif.Spec.Whole
import Verif.Spec.WholeDedup
import Verif.Spec.WholeDedupGas
import Verif.Spec.WholeGas
import Verif.Spec.WholeMem
import Verif.Spec.Workers
import Verif.Lemmas.AMap
import Verif.Lemmas.AbsInt
import Verif.Lemmas.Access
import Verif.Lemmas.AccessAsk
import Verif.Lemmas.Arith
import Verif.Lemmas.ArithLower
import Verif.Lemmas.Asm
import Verif.Lemmas.AsmDecode
import Verif.Lemmas.AsmDefine
import Verif.Lemmas.AsmMacro
import Verif.Lemmas.AsmRound
import Verif.Lemmas.AsmText
import Verif.Lemmas.Attrs
import Verif.Lemmas.BackendEvict
import Verif.Lemmas.BackendHot
import Verif.Lemmas.BackendMicro
import Verif.Lemmas.BackendSource
import Verif.Lemmas.BackendSteps
import Verif.Lemmas.BackendTrace
import Verif.Lemmas.BackendWait
import Verif.Lemmas.Blockchain
import Verif.Lemmas.Builder
import Verif.Lemmas.BuiltinSyms
import Verif.Lemmas.Builtins
import Verif.Lemmas.Byte
import Verif.Lemmas.CallIf
import Verif.Lemmas.Calls
import Verif.Lemmas.DataAccess
import Verif.Lemmas.Dedup
import Verif.Lemmas.DedupInv
import Verif.Lemmas.DedupParse
import Verif.Lemmas.DedupRound
import Verif.Lemmas.DedupSame
import Verif.Lemmas.DedupSim
import Verif.Lemmas.DedupSteady
import Verif.Lemmas.DedupTotal
import Verif.Lemmas.Diff
import Verif.Lemmas.Dse
import Verif.Lemmas.DseBlock
import Verif.Lemmas.DseTotal
import Verif.Lemmas.DseWalk
import Verif.Lemmas.EvmWord
import Verif.Lemmas.Exit
import Verif.Lemmas.FlowBlocks
import Verif.Lemmas.FlowCfg
import Verif.Lemmas.FlowCommit
import Verif.Lemmas.FlowDead
import Verif.Lemmas.FlowEvolve
import Verif.Lemmas.FlowFinal
import Verif.Lemmas.FlowFix
import Verif.Lemmas.FlowGlobal
import Verif.Lemmas.FlowLocal
import Verif.Lemmas.FlowParse
import Verif.Lemmas.FlowRun
import Verif.Lemmas.FlowSem
import Verif.Lemmas.FlowShape
import Verif.Lemmas.FrameCalls
import Verif.Lemmas.FrameOps
import Verif.Lemmas.FrameRuns
import Verif.Lemmas.Frames
import Verif.Lemmas.Helper
import Verif.Lemmas.HelperIo
import Verif.Lemmas.HelperIoHistory
import Verif.Lemmas.HelperSettings
import Verif.Lemmas.Imm
import Verif.Lemmas.Interp
import Verif.Lemmas.InterpBlock
import Verif.Lemmas.ListExtra
import Verif.Lemmas.MemFix
import Verif.Lemmas.MemJump
import Verif.Lemmas.MemSections
import Verif.Lemmas.Opcode
import Verif.Lemmas.Parse
import Verif.Lemmas.Pause
import Verif.Lemmas.PushKnown
import Verif.Lemmas.ReadCode
import Verif.Lemmas.Redirect
import Verif.Lemmas.Runner
import Verif.Lemmas.Sections
import Verif.Lemmas.Session
import Verif.Lemmas.SessionFresh
import Verif.Lemmas.SessionGood
import Verif.Lemmas.SessionInv
import Verif.Lemmas.StateRoot
import Verif.Lemmas.SteadyCommit
import Verif.Lemmas.SteadyGlobal
import Verif.Lemmas.SteadyLocal
import Verif.Lemmas.SteadyMark
import Verif.Lemmas.SteadyOf
import Verif.Lemmas.SteadyStack
import Verif.Lemmas.Store
import Verif.Lemmas.Suspend
import Verif.Lemmas.SuspendCalls
import Verif.Lemmas.SuspendPoint
import Verif.Lemmas.SuspendRun
import Verif.Lemmas.Tramp
import Verif.Lemmas.VStack
import Verif.Lemmas.VStackBody
import Verif.Lemmas.VStackRun
import Verif.Lemmas.VStackSeq
import Verif.Lemmas.VStackStep
import Verif.Lemmas.WholeBlock
import Verif.Lemmas.WholeDedupFacts
import Verif.Lemmas.WholeDedupGas
import Verif.Lemmas.WholeDedupGasSec
import Verif.Lemmas.WholeDedupGood
import Verif.Lemmas.WholeDedupOf
import Verif.Lemmas.WholeDedupRel
import Verif.Lemmas.WholeDedupSim
import Verif.Lemmas.WholeDedupVirt
import Verif.Lemmas.WholeEnd
import Verif.Lemmas.WholeExec
import Verif.Lemmas.WholeFail
import Verif.Lemmas.WholeGasCode
import Verif.Lemmas.WholeGasEnd
import Verif.Lemmas.WholeGasExec
import Verif.Lemmas.WholeGasInv
import Verif.Lemmas.WholeGasNum
import Verif.Lemmas.WholeGasPart
import Verif.Lemmas.WholeGasRun
import Verif.Lemmas.WholeGasSec
import Verif.Lemmas.WholeInv
import Verif.Lemmas.WholeLower
import Verif.Lemmas.WholeMemCode
import Verif.Lemmas.WholeMemPath
import Verif.Lemmas.WholeMemRun
import Verif.Lemmas.WholeMemStep
import Verif.Lemmas.WholeProg
import Verif.Lemmas.WholeRun
import Verif.Lemmas.WholeStep
import Verif.Lemmas.WholeTotal
import Verif.Lemmas.Workers
import Verif.Lemmas.WorkersInv
import Verif.Props.AbsInt
import Verif.Props.Access
import Verif.Props.Arith
import Verif.Props.Asm
import Verif.Props.AsmText
import Verif.Props.Attrs
import Verif.Props.Backend
import Verif.Props.BackendEvict
import Verif.Props.BackendSnapshot
import Verif.Props.BackendWait
import Verif.Props.Blockchain
import Verif.Props.Builder
import Verif.Props.BuiltinSyms
import Verif.Props.Builtins
import Verif.Props.CallIf
import Verif.Props.DataAccess
import Verif.Props.Dedup
import Verif.Props.DedupBytes
import Verif.Props.DedupPass
import Verif.Props.Diff
import Verif.Props.DiffRoots
import Verif.Props.DotHtml
import Verif.Props.Dse
import Verif.Props.EvmWord
import Verif.Props.Flow
import Verif.Props.Frames
import Verif.Props.Helper
import Verif.Props.HelperIo
import Verif.Props.Imm
import Verif.Props.Inspect
import Verif.Props.JitEvm
import Verif.Props.Linker
import Verif.Props.MemJump
import Verif.Props.MemSections
import Verif.Props.ObjCapture
import Verif.Props.Opcode
import Verif.Props.Parse
import Verif.Props.Pause
import Verif.Props.ReadCode
import Verif.Props.Redirect
import Verif.Props.RunBench
import Verif.Props.RunCmd
import Verif.Props.Runner
import Verif.Props.Sections
import Verif.Props.Session
import Verif.Props.StateRoot
import Verif.Props.Store
import Verif.Props.Suspend
import Verif.Props.Tramp
import Verif.Props.VStack
import Verif.Props.Whole
import Verif.Props.WholeDedup
import Verif.Props.WholeDedupGas
import Verif.Props.WholeGas
import Verif.Props.WholeMem
import Verif.Props.WholeTotal
import Verif.Props.Workers
