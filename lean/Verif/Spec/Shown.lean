import Verif.Model.MacSymbols
import Verif.Model.MacHeader
import Verif.Model.MacSegment
/-!
# Specification: how lists are shown by `{:?}` and `{:#?}`
-/

namespace AT.MachO
open AT.Mac

/-- Items with a comma and a space between them. -/
def joined : List Str → Str
  | [] => []
  | [e] => e
  | e :: e' :: es => e ++ ',' :: ' ' :: joined (e' :: es)

/-- Items one per line, each indented and followed by a comma. -/
def stacked (es : List Str) : Str := (es.map (fun e => "    ".toList ++ e ++ ",\n".toList)).flatten

/-- A list between brackets, on one line or (`alt`) on one line per item. -/
def shown (alt : Bool) (op cl : Char) (es : List Str) : Str :=
  if alt ∧ es ≠ [] then op :: '\n' :: stacked es ++ [cl] else op :: joined es ++ [cl]

/-- How a byte of a string table is shown: a NUL as an empty string, a printable character between
quotes, a quote or backslash after a backslash, tab, line feed and carriage return by their letters,
other control characters by their number. -/
inductive ByteShown : UInt8 → Str → Prop where
  | nul : ByteShown 0 ['"', '"']
  | printable (b : UInt8) (h1 : 32 ≤ b) (h2 : b < 127) (hq : Char.ofNat b.toNat ≠ '\'')
      (hb : Char.ofNat b.toNat ≠ '\\') : ByteShown b ['\'', Char.ofNat b.toNat, '\'']
  | escaped (b : UInt8) (h : Char.ofNat b.toNat = '\'' ∨ Char.ofNat b.toNat = '\\') :
      ByteShown b ['\'', '\\', Char.ofNat b.toNat, '\'']
  | letter (b : UInt8) (c : Char)
      (h : (Char.ofNat b.toNat, c) ∈ [('\t', 't'), ('\n', 'n'), ('\r', 'r')]) :
      ByteShown b ['\'', '\\', c, '\'']
  | number (b : UInt8) (h0 : b ≠ 0) (h : b < 32 ∨ b = 127)
      (hl : Char.ofNat b.toNat ∉ ['\t', '\n', '\r']) :
      ByteShown b ("'\\u{".toList ++ Nat.toDigits 16 b.toNat ++ "}'".toList)

/-- A string table made with the functions of `StringTable`. -/
inductive Made : StringTable → Prop where
  | withNull : Made StringTable.withNull
  | push (t t' : StringTable) (s : Str) (ht : Made t) (h : t.pushWithNull s = .ok t') : Made t'
  | ofVec (v : Bytes) (t : StringTable) (h : StringTable.ofVec v = .ok t) : Made t

/-- Name of a flag in the documentation of the crate. -/
def flagName : Flag → String
  | .noUndefs => "NoUndefs" | .incrLink => "IncrLink" | .dyldLink => "DyldLink"
  | .bindAtLoad => "BindAtLoad" | .preBound => "PreBound" | .splitSegs => "SplitSegs"
  | .twoLevel => "TwoLevel" | .forceFlat => "ForceFlat" | .noMultiDefs => "NoMultiDefs"
  | .noFixPreBinding => "NoFixPreBinding" | .preBindable => "PreBindable"
  | .allModsBound => "AllModsBound" | .subsectionsViaSymbols => "SubsectionsViaSymbols"
  | .canonical => "Canonical" | .pie => "Pie" | .hasTlvDescriptors => "HasTlvDescriptors"

/-- Name of a section attribute in the documentation of the crate. -/
def attrName : SectionAttr → String
  | .pureInstructions => "PureInstructions" | .noToc => "NoToc"
  | .stripStaticSyms => "StripStaticSyms" | .liveSupport => "LiveSupport" | .debug => "Debug"
  | .someInstructions => "SomeInstructions" | .extReloc => "ExtReloc" | .locReloc => "LocReloc"

end AT.MachO
