import Verif.Spec.X86
open X86
def hexv (c : Char) : Nat := if c.isDigit then c.toNat - 48 else c.toNat - 87
def parseHex : List Char → List UInt8
  | a :: b :: r => UInt8.ofNat (hexv a * 16 + hexv b) :: parseHex r
  | _ => []
def showM : MemRef → String
  | .rip d => s!"rip {d}"
  | .sib b i d => s!"sib {match b with | some x => toString x | none => "-"} {match i with | some (x,s) => s!"{x}*{2^s}" | none => "-"} {d}"
def w : Width → String | .w16 => "16" | .w32 => "32" | .w64 => "64"
def showI : Inst → String
  | .movRegReg v d s => s!"movrr {w v} {d} {s}"
  | .movRegImm v d s => s!"movri {w v} {d} {s}"
  | .movMemReg v m s => s!"movmr {w v} {showM m} {s}"
  | .movRegMem v d m => s!"movrm {w v} {d} {showM m}"
  | .lea v d m => s!"lea {w v} {d} {showM m}"
  | .pushReg v r => s!"pushr {w v} {r}"
  | .popReg v r => s!"popr {w v} {r}"
  | .pushImm v x => s!"pushi {w v} {x}"
  | .ret => "ret"
  | .syscall => "syscall"
partial def loop (h : IO.FS.Stream) : IO Unit := do
  let l ← h.getLine
  if l.isEmpty then return
  let bs := parseHex (l.trimAscii.toString.toList)
  match decode bs with
  | none => IO.println "none"
  | some (i, r) => IO.println s!"{bs.length - r.length} {showI i}"
  loop h
def main : IO Unit := do loop (← IO.getStdin)
