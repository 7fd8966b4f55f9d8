import Verif.Model.X64Inst
import Verif.Model.AsmReg
import Verif.Model.Asm
import Verif.Spec.X86Meaning
import Verif.Props.X64
import Verif.Props.X64Encoder
import Verif.Props.X64Builder
import Verif.Props.Join
import Verif.Props.Mac
import Verif.Props.Obj
import Verif.Props.AsmExpr
import Verif.Props.AsmLine
import Verif.Props.AsmData
import Verif.Props.AsmInst
import Verif.Props.MacStrings
import Verif.Props.AsmStops
import Verif.Props.Asm
import Verif.Props.Main
import Verif.Props.EndToEnd
import Verif.Props.Run
import Verif.Props.Builds
import Verif.Props.Success
import Verif.Props.Layout
import Verif.Spec.AsmErrors
import Verif.Proofs.Decimal
import Verif.Proofs.AsmErrors
import Verif.Props.AsmErrors
import Verif.Model.AsmParseStr
import Verif.Spec.AsmStrict
import Verif.Props.AsmStrict
import Verif.Tests.RepoX64
import Verif.Tests.Foreign
import Verif.Tests.RepoMac
import Verif.Tests.RepoAsm
import Verif.Props.MacCodes
import Verif.Props.Reruns
import Verif.Props.ObjRead
import Verif.Props.AsmRender
import Verif.Props.Rename
import Verif.Props.Oversize
import Verif.Props.AsmIo
import Verif.Props.ObjFile
import Verif.Props.ObjWrap
import Verif.Props.ObjChecks
import Verif.Props.Shown
import Verif.Props.X64Regs
import Verif.Props.AsmTry
import Verif.Props.Outcome
import Verif.Props.X64Code
import Verif.Props.AsmReads
import Verif.Props.MacRead
import Verif.Props.MacDecode
import Verif.Props.MacPrims
import Verif.Props.ObjViews
import Verif.Props.X64Bytes
import Verif.Props.LinkMany
import Verif.Props.Debug
import Verif.Props.Obtained
import Verif.Props.Session
import Verif.Props.Separate
import Verif.Props.Process
import Verif.Props.Together
import Verif.Spec.SameFile
import Verif.Props.SameFile
import Verif.Props.Meddle
import Verif.Props.MeddleAny
import Verif.Props.Linear
import Verif.Props.MeddleEnds
import Verif.Props.Local
import Verif.Props.Killed
import Verif.Props.Calls
import Verif.Props.Prompt
import Verif.Props.Incomplete
import Verif.Props.SameTime
