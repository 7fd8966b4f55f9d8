import Verif.Model.MacHeader
import Verif.Model.MacLoadCommand
import Verif.Model.MacSymbols
import Verif.Model.AsmParse
import Verif.Model.Obj
import Verif.Model.X64Encoder
/-!
# Specification: how values are shown by `{:?}` and `{:#?}`

A value is shown as a tree of named groups.  The tree of a type is read off its Rust declaration: the
names are those of the declaration, in its order.
-/

namespace AT.DebugSpec

/-- Kinds of groups. -/
inductive Kind where
  /-- `Name { field: item, … }` -/
  | record (name : Str)
  /-- `Name(item, …)` -/
  | tuple (name : Str)
  /-- `[item, …]` -/
  | list
  /-- `{item, …}` -/
  | set
  deriving DecidableEq

mutual
/-- What is shown: a word, a string in quotes, or a group of items. -/
inductive Text where
  | word (s : Str)
  | quoted (s : Str)
  | group (k : Kind) (items : Items)
/-- The items of a group; `label` is empty if the items have no names. -/
inductive Items where
  | nil
  | cons (label : Str) (t : Text) (rest : Items)
end

/-- Before the first item, on one line. -/
def Kind.opening : Kind → Str
  | .record n => n ++ str% " { "
  | .tuple n => n ++ str% "("
  | .list => str% "["
  | .set => str% "{"

/-- After the last item, on one line. -/
def Kind.closing : Kind → Str
  | .record _ => str% " }"
  | .tuple _ => str% ")"
  | .list => str% "]"
  | .set => str% "}"

/-- The line before the items, if each has its own lines. -/
def Kind.head : Kind → Str
  | .record n => n ++ str% " {"
  | .tuple n => n ++ str% "("
  | .list => str% "["
  | .set => str% "{"

/-- The line after the items, if each has its own lines. -/
def Kind.foot : Kind → Str
  | .record _ => str% "}"
  | .tuple _ => str% ")"
  | .list => str% "]"
  | .set => str% "}"

/-- The whole group if it has no items. -/
def Kind.empty : Kind → Str
  | .record n => n
  | .tuple n => n
  | .list => str% "[]"
  | .set => str% "{}"

/-- Characters written with a backslash and a letter. -/
def letters : List (Char × Char) :=
  [('\x00', '0'), ('\t', 't'), ('\r', 'r'), ('\n', 'n'), ('\\', '\\'), ('"', '"')]

/-- One character of a string in quotes: `plain` are the characters written as they are. -/
def escaped (plain : Char → Bool) (c : Char) : Str :=
  match letters.lookup c with
  | some l => ['\\', l]
  | none => if plain c then [c] else str% "\\u{" ++ Nat.toDigits 16 c.toNat ++ str% "}"

/-- A string in quotes. -/
def inQuotes (plain : Char → Bool) (s : Str) : Str :=
  str% "\"" ++ (s.map (escaped plain)).flatten ++ str% "\""

/-- `label: ` before an item that has a name. -/
def labelled (l : Str) : Str := if l = [] then [] else l ++ str% ": "

/-- Puts `a` before the first line and `b` after the last one. -/
def around (a : Str) (ls : List Str) (b : Str) : List Str :=
  match ls with
  | [] => [a ++ b]
  | l :: ls => append (a ++ l) ls
where
  /-- `b` after the last of the lines. -/
  append (l : Str) : List Str → List Str
    | [] => [l ++ b]
    | l' :: ls => l :: append l' ls

mutual
/-- `{:?}`: everything on one line. -/
def Text.oneLine (plain : Char → Bool) : Text → Str
  | .word s => s
  | .quoted s => inQuotes plain s
  | .group k .nil => k.empty
  | .group k (.cons l t r) =>
    k.opening ++ labelled l ++ t.oneLine plain ++ r.oneLine plain ++ k.closing
/-- Items after the first one. -/
def Items.oneLine (plain : Char → Bool) : Items → Str
  | .nil => []
  | .cons l t r => str% ", " ++ labelled l ++ t.oneLine plain ++ r.oneLine plain
end

mutual
/-- `{:#?}`: the lines; every item begins on its own line, four columns further in, and ends in a
comma. -/
def Text.lines (plain : Char → Bool) : Text → List Str
  | .word s => [s]
  | .quoted s => [inQuotes plain s]
  | .group k .nil => [k.empty]
  | .group k (.cons l t r) =>
    k.head :: ((around (labelled l) (t.lines plain) (str% ",")).map (str% "    " ++ ·) ++
      r.lines plain ++ [k.foot])
def Items.lines (plain : Char → Bool) : Items → List Str
  | .nil => []
  | .cons l t r =>
    (around (labelled l) (t.lines plain) (str% ",")).map (str% "    " ++ ·) ++ r.lines plain
end

/-- Lines with a line feed between them. -/
def byLine : List Str → Str
  | [] => []
  | [l] => l
  | l :: l' :: ls => l ++ '\n' :: byLine (l' :: ls)

/-- What is written: `{:#?}` if `alt`, otherwise `{:?}`. -/
def Text.written (plain : Char → Bool) (alt : Bool) (t : Text) : Str :=
  if alt then byLine (t.lines plain) else t.oneLine plain

/-- What may follow a value that is part of another one: a comma or the end of a group. -/
def Ends (r : Str) : Prop :=
  ∀ c t, r = c :: t → c = ',' ∨ c = ')' ∨ c = ']' ∨ c = '}' ∨ (c = ' ' ∧ ∃ u, t = '}' :: u)

/-- What is shown tells which value it is, and where it ends. -/
def Tells {α : Type} (f : α → Str) : Prop :=
  ∀ v w r r', Ends r → Ends r' → f v ++ r = f w ++ r' → v = w ∧ r = r'

/-! ## Values of std -/

def fields : List (Str × Text) → Items
  | [] => .nil
  | (l, t) :: r => .cons l t (fields r)

def items : List Text → Items
  | [] => .nil
  | t :: r => .cons [] t (items r)

def record (name : Str) (fs : List (Str × Text)) : Text := .group (.record name) (fields fs)
def tuple (name : Str) (ts : List Text) : Text := .group (.tuple name) (items ts)
def list (ts : List Text) : Text := .group .list (items ts)
def set (ts : List Text) : Text := .group .set (items ts)

/-- The variant of that number of an enumeration without data, in the order of the declaration. -/
def unit (names : List Str) (i : Nat) : Text := .word (names.getD i [])

/-- A number without sign. -/
def num (n : Nat) : Text := .word (Nat.toDigits 10 n)

/-- A number with a sign if it is negative. -/
def int (n : Int) : Text :=
  .word (if n < 0 then '-' :: Nat.toDigits 10 (-n).toNat else Nat.toDigits 10 n.toNat)

def bool : Bool → Text
  | true => .word (str% "true")
  | false => .word (str% "false")

def option : Option Text → Text
  | none => .word (str% "None")
  | some t => tuple (str% "Some") [t]

def bytes (b : Bytes) : Text := list (b.map fun x => num x.toNat)

/-! ## Values of the crates -/

def endian (v : Mac.Endian) : Text := unit [
  str% "Little", str% "Big"] v.ctorIdx

def magic (v : Mac.Magic) : Text := unit [
  str% "Magic64", str% "Cigam64", str% "Magic", str% "Cigam", str% "FatMagic",
  str% "FatCigam"] v.ctorIdx

def fileType (v : Mac.FileType) : Text := unit [
  str% "Object", str% "Execute", str% "FVMLib", str% "Core", str% "Preload", str% "Dylib",
  str% "Dylinker", str% "Bundle", str% "Dsym"] v.ctorIdx

def flag (v : Mac.Flag) : Text := unit [
  str% "NoUndefs", str% "IncrLink", str% "DyldLink", str% "BindAtLoad", str% "PreBound",
  str% "SplitSegs", str% "TwoLevel", str% "ForceFlat", str% "NoMultiDefs",
  str% "NoFixPreBinding", str% "PreBindable", str% "AllModsBound", str% "SubsectionsViaSymbols",
  str% "Canonical", str% "Pie", str% "HasTlvDescriptors"] v.ctorIdx

def sectionType (v : Mac.SectionType) : Text := unit [
  str% "Regular", str% "Zerofill", str% "CstringLiterals", str% "FourByteLiterals",
  str% "EightByteLiterals", str% "LiteralPointers", str% "Coalesced"] v.ctorIdx

def sectionAttr (v : Mac.SectionAttr) : Text := unit [
  str% "PureInstructions", str% "NoToc", str% "StripStaticSyms", str% "LiveSupport",
  str% "Debug", str% "SomeInstructions", str% "ExtReloc", str% "LocReloc"] v.ctorIdx

def platform (v : Mac.Platform) : Text := unit [
  str% "MacOS", str% "IOS", str% "TvOS", str% "WatchOS", str% "BridgeOS", str% "MacCatalyst",
  str% "IOSSimulator", str% "TvOSSimulator", str% "WatchOSSimulator", str% "Driverkit"] v.ctorIdx

def tool (v : Mac.Tool) : Text := unit [
  str% "Clang", str% "Swift", str% "LD"] v.ctorIdx

def relocLength (v : Mac.RelocLength) : Text := unit [
  str% "Byte", str% "Word", str% "Long", str% "Quad"] v.ctorIdx

def x86RelocType (v : Mac.X86RelocType) : Text := unit [
  str% "Vanilla", str% "Pair", str% "Sectdiff", str% "PbLaPtr", str% "LocalSectdiff",
  str% "Tlv"] v.ctorIdx

def x86_64RelocType (v : Mac.X86_64RelocType) : Text := unit [
  str% "Unsigned", str% "Signed", str% "Branch", str% "GotLoad", str% "Got", str% "Subtractor",
  str% "Signed1", str% "Signed2", str% "Signed4", str% "Tlv"] v.ctorIdx

def nType (v : Mac.NType) : Text := unit [
  str% "Undf", str% "Abs", str% "Sect", str% "Pbud", str% "Indr"] v.ctorIdx

def debugSymbol (v : Mac.DebugSymbol) : Text := unit [
  str% "Gsym"] v.ctorIdx

def asmSection (v : Asm.Section) : Text := unit [
  str% "Text", str% "Data", str% "Bss"] v.ctorIdx

def reg64 (v : X64.Reg64) : Text := unit [
  str% "RAX", str% "RDI", str% "RSI", str% "RDX", str% "RCX", str% "RBP", str% "RSP", str% "RBX",
  str% "R8", str% "R9", str% "R10", str% "R11", str% "R12", str% "R13", str% "R14",
  str% "R15"] v.ctorIdx

def reg32 (v : X64.Reg32) : Text := unit [
  str% "EAX", str% "EDI", str% "ESI", str% "EDX", str% "ECX", str% "EBP", str% "ESP", str% "EBX",
  str% "R8D", str% "R9D", str% "R10D", str% "R11D", str% "R12D", str% "R13D", str% "R14D",
  str% "R15D"] v.ctorIdx

def reg16 (v : X64.Reg16) : Text := unit [
  str% "AX", str% "DI", str% "SI", str% "DX", str% "CX", str% "BP", str% "SP", str% "BX",
  str% "R8W", str% "R9W", str% "R10W", str% "R11W", str% "R12W", str% "R13W", str% "R14W",
  str% "R15W"] v.ctorIdx

def reg8 (v : X64.Reg8) : Text := unit [
  str% "AL", str% "DIL", str% "SIL", str% "DL", str% "CL", str% "BPL", str% "SPL", str% "BL",
  str% "R8B", str% "R9B", str% "R10B", str% "R11B", str% "R12B", str% "R13B", str% "R14B",
  str% "R15B"] v.ctorIdx

/-- `CpuSubTypeX86` and `CpuSubTypeX86_64`. -/
def cpuSubType (v : Mac.CpuSubType) : Text := unit [str% "All"] v.ctorIdx

def cpuType : Mac.CpuType → Text
  | .x86 s => tuple (str% "X86") [cpuSubType s]
  | .x86_64 s => tuple (str% "X86_64") [cpuSubType s]

def flags (l : Mac.Flags) : Text := set (l.map flag)

def sectionAttrs (l : Mac.SectionAttrs) : Text := set (l.map sectionAttr)

def header64 : Mac.Header64 → Text
  | ⟨magic', cpu_type, file_type, n_cmds, size_of_cmds, flags', reserved⟩ =>
    record (str% "Header64") [(str% "magic", magic magic'), (str% "cpu_type", cpuType cpu_type),
      (str% "file_type", fileType file_type), (str% "n_cmds", num n_cmds.toNat),
      (str% "size_of_cmds", num size_of_cmds.toNat), (str% "flags", flags flags'),
      (str% "reserved", num reserved.toNat)]

def segmentCommand64 : Mac.SegmentCommand64 → Text
  | ⟨cmd, cmdsize, segname, vmaddr, vmsize, fileoff, filesize, maxprot, initprot, nsects, flags⟩ =>
    record (str% "SegmentCommand64") [(str% "cmd", num cmd.toNat), (str% "cmdsize", num cmdsize.toNat),
      (str% "segname", .quoted segname), (str% "vmaddr", num vmaddr.toNat),
      (str% "vmsize", num vmsize.toNat), (str% "fileoff", num fileoff.toNat),
      (str% "filesize", num filesize.toNat), (str% "maxprot", int maxprot.toInt),
      (str% "initprot", int initprot.toInt), (str% "nsects", num nsects.toNat),
      (str% "flags", num flags.toNat)]

def section64 : Mac.Section64 → Text
  | ⟨sectname, segname, addr, size, offset, align, reloff, nreloc, attrs, type, r1, r2, r3⟩ =>
    record (str% "Section64") [(str% "sectname", .quoted sectname), (str% "segname", .quoted segname),
      (str% "addr", num addr.toNat), (str% "size", num size.toNat), (str% "offset", num offset.toNat),
      (str% "align", num align.toNat), (str% "reloff", num reloff.toNat),
      (str% "nreloc", num nreloc.toNat),
      (str% "flags", tuple [] [sectionAttrs attrs, sectionType type]),
      (str% "reserved1", num r1.toNat), (str% "reserved2", num r2.toNat),
      (str% "reserved3", num r3.toNat)]

def symtabCommand : Mac.SymtabCommand → Text
  | ⟨cmd, cmdsize, symoff, nsyms, stroff, strsize⟩ =>
    record (str% "SymtabCommand") [(str% "cmd", num cmd.toNat), (str% "cmdsize", num cmdsize.toNat),
      (str% "symoff", num symoff.toNat), (str% "nsyms", num nsyms.toNat),
      (str% "stroff", num stroff.toNat), (str% "strsize", num strsize.toNat)]

def dysymtabCommand : Mac.DysymtabCommand → Text
  | ⟨cmd, cmdsize, ilocalsym, nlocalsym, iextdefsym, nextdefsym, iundefsym, nundefsym, tocoff, ntoc,
      modtaboff, nmodtab, extrefsymoff, nextrefsyms, indirectsymoff, nindirectsyms, extreloff, nextrel,
      locreloff, nlocrel⟩ =>
    record (str% "DysymtabCommand") [(str% "cmd", num cmd.toNat), (str% "cmdsize", num cmdsize.toNat),
      (str% "ilocalsym", num ilocalsym.toNat), (str% "nlocalsym", num nlocalsym.toNat),
      (str% "iextdefsym", num iextdefsym.toNat), (str% "nextdefsym", num nextdefsym.toNat),
      (str% "iundefsym", num iundefsym.toNat), (str% "nundefsym", num nundefsym.toNat),
      (str% "tocoff", num tocoff.toNat), (str% "ntoc", num ntoc.toNat),
      (str% "modtaboff", num modtaboff.toNat), (str% "nmodtab", num nmodtab.toNat),
      (str% "extrefsymoff", num extrefsymoff.toNat), (str% "nextrefsyms", num nextrefsyms.toNat),
      (str% "indirectsymoff", num indirectsymoff.toNat),
      (str% "nindirectsyms", num nindirectsyms.toNat), (str% "extreloff", num extreloff.toNat),
      (str% "nextrel", num nextrel.toNat), (str% "locreloff", num locreloff.toNat),
      (str% "nlocrel", num nlocrel.toNat)]

def version : Mac.Version → Text
  | ⟨major, minor, release⟩ =>
    record (str% "Version") [(str% "major", num major.toNat), (str% "minor", num minor.toNat),
      (str% "release", num release.toNat)]

def buildVersionCommand : Mac.BuildVersionCommand → Text
  | ⟨cmd, cmdsize, platform', minos, sdk, ntools⟩ =>
    record (str% "BuildVersionCommand") [(str% "cmd", num cmd.toNat),
      (str% "cmdsize", num cmdsize.toNat), (str% "platform", platform platform'),
      (str% "minos", version minos), (str% "sdk", version sdk), (str% "ntools", num ntools.toNat)]

def buildToolVersion : Mac.BuildToolVersion → Text
  | ⟨tool', version⟩ =>
    record (str% "BuildToolVersion") [(str% "tool", tool tool'), (str% "version", num version.toNat)]

def loadCommand : Mac.LoadCommand → Text
  | .segment64 c ss => tuple (str% "Segment64") [segmentCommand64 c, list (ss.map section64)]
  | .symtab c => tuple (str% "Symtab") [symtabCommand c]
  | .dysymtab c => tuple (str% "Dysymtab") [dysymtabCommand c]
  | .buildVersion c ts =>
    tuple (str% "BuildVersion") [buildVersionCommand c, list (ts.map buildToolVersion)]

def relocationInfo : Mac.RelocationInfo → Text
  | ⟨r_address, r_symbolnum, r_pcrel, r_length, r_extern, r_type⟩ =>
    record (str% "RelocationInfo") [(str% "r_address", int r_address.toInt),
      (str% "r_symbolnum", num r_symbolnum.toNat), (str% "r_pcrel", bool r_pcrel),
      (str% "r_length", relocLength r_length), (str% "r_extern", bool r_extern),
      (str% "r_type", num r_type.toNat)]

def nTypeField : Mac.NTypeField → Text
  | .norm n_pext n_type n_ext =>
    record (str% "Norm") [(str% "n_pext", bool n_pext), (str% "n_type", nType n_type),
      (str% "n_ext", bool n_ext)]
  | .stab s => tuple (str% "Stab") [debugSymbol s]

def nList64 : Mac.NList64 → Text
  | ⟨n_strx, n_type, n_sect, n_desc, n_value⟩ =>
    record (str% "NList64") [(str% "n_strx", num n_strx.toNat), (str% "n_type", nTypeField n_type),
      (str% "n_sect", num n_sect.toNat), (str% "n_desc", num n_desc.toNat),
      (str% "n_value", num n_value.toNat)]

def data : Asm.Data → Text
  | ⟨label, bytes'⟩ =>
    record (str% "Data") [(str% "label", option (label.map .quoted)), (str% "bytes", bytes bytes')]

def globalSymbol (name : Str) : Text := tuple (str% "GlobalSymbol") [.quoted name]

def parseError (msg : Str) : Text := record (str% "ParseError") [(str% "msg", .quoted msg)]

def expr (n : UInt64) : Text := tuple (str% "Expr") [num n.toNat]

def bytesAtMost {M : Nat} : X64.BytesAtMost M → Text
  | ⟨bytes', len⟩ =>
    record (str% "BytesAtMost") [(str% "bytes", bytes bytes'), (str% "len", num len)]

def mem64 : X64.Mem64 → Text
  | .regOffset r d => tuple (str% "RegOffset") [reg64 r, num d.toNat]
  | .ripOffset d => tuple (str% "RipOffset") [num d.toNat]
  | .sib base disp index scale =>
    record (str% "Sib") [(str% "base", option (base.map reg64)), (str% "disp", num disp.toNat),
      (str% "index", reg64 index), (str% "scale", num scale.toNat)]

def reg : X64.Reg → Text
  | .reg64 r => tuple (str% "Reg64") [reg64 r]
  | .reg32 r => tuple (str% "Reg32") [reg32 r]
  | .reg16 r => tuple (str% "Reg16") [reg16 r]
  | .reg8 r => tuple (str% "Reg8") [reg8 r]

def symbol : Obj.Symbol → Text
  | .undef name => record (str% "Undef") [(str% "name", .quoted name)]
  | .abs name val ext =>
    record (str% "Abs") [(str% "name", .quoted name), (str% "val", num val.toNat), (str% "ext", bool ext)]
  | .ref name addr ext =>
    record (str% "Ref") [(str% "name", .quoted name), (str% "addr", num addr.toNat),
      (str% "ext", bool ext)]

end AT.DebugSpec
