import Verif.Model.MacDebug
import Verif.Model.MacLoadCommand
import Verif.Model.AsmParse
import Verif.Model.Obj
import Verif.Model.X64Encoder
/-!
# Model of the derived `Debug` of every type (`#[derive(Debug)]` in all four crates)

`alt` is `true` for `{:#?}` and `false` for `{:?}`.  `debug_struct` and `debug_tuple` of
`std::fmt::builders` are modelled as the calls `derive` makes, in the order of the fields; lists and
sets are in `Model/MacDebug.lean`.  `plain` stands for the table of `std` that says which characters
`str`'s `Debug` writes as they are; nothing is assumed about it.
-/

namespace AT.Mac

/-- `DebugStruct::field` (std): the output so far, whether it has fields, and one more field. -/
def debugField (alt : Bool) (st : Str × Bool) (f : Str × Str) : Str × Bool :=
  if alt then
    (st.1 ++ (if st.2 then [] else str% " {\n") ++
      padAdapter true (f.1 ++ str% ": " ++ f.2 ++ str% ",\n"), true)
  else (st.1 ++ (if st.2 then str% ", " else str% " { ") ++ f.1 ++ str% ": " ++ f.2, true)

/-- `debug_struct(name).field(..)….finish()` (std). -/
def debugStruct (alt : Bool) (name : Str) (fs : List (Str × Str)) : Str :=
  let st := fs.foldl (debugField alt) (name, false)
  st.1 ++ (if st.2 then (if alt then str% "}" else str% " }") else [])

/-- `DebugTuple::field` (std). -/
def debugItem (alt : Bool) (st : Str × Bool) (e : Str) : Str × Bool :=
  if alt then
    (st.1 ++ (if st.2 then [] else str% "(\n") ++ padAdapter true (e ++ str% ",\n"), true)
  else (st.1 ++ (if st.2 then str% ", " else str% "(") ++ e, true)

/-- `debug_tuple(name).field(..)….finish()` (std).  The comma `std` adds to a nameless tuple of one
item is left out: no such tuple is shown. -/
def debugTuple (alt : Bool) (name : Str) (es : List Str) : Str :=
  let st := es.foldl (debugItem alt) (name, false)
  st.1 ++ (if st.2 then str% ")" else [])

/-- `char::escape_debug_ext` (std) as `str`'s `Debug` calls it. -/
def escapeDebug (plain : Char → Bool) (c : Char) : Str :=
  if c = '\x00' then str% "\\0"
  else if c = '\t' then str% "\\t"
  else if c = '\r' then str% "\\r"
  else if c = '\n' then str% "\\n"
  else if c = '\\' then str% "\\\\"
  else if c = '"' then str% "\\\""
  else if plain c then [c]
  else str% "\\u{" ++ Nat.toDigits 16 c.toNat ++ str% "}"

/-- `Debug` of `str` and `String` (std). -/
def debugStr (plain : Char → Bool) (s : Str) : Str :=
  '"' :: s.flatMap (escapeDebug plain) ++ str% "\""

/-- `Debug` of the unsigned integers (std). -/
def debugNat (n : Nat) : Str := AT.Asm.showNat n

/-- `Debug` of `i32` (std). -/
def debugI32 (n : Int32) : Str :=
  if n.toInt < 0 then '-' :: AT.Asm.showNat n.toInt.natAbs else AT.Asm.showNat n.toInt.natAbs

/-- `Debug` of `bool` (std). -/
def debugBool (b : Bool) : Str := if b then str% "true" else str% "false"

/-- `Debug` of `Option` (std). -/
def debugOption (alt : Bool) (o : Option Str) : Str :=
  match o with
  | some s => debugTuple alt (str% "Some") [s]
  | none => str% "None"

/-- `Debug` of `Vec<u8>` and `[u8; N]` (std). -/
def debugBytes (alt : Bool) (b : Bytes) : Str := debugList alt (b.map fun x => debugNat x.toNat)

end AT.Mac

namespace AT
open AT.Mac

/-- `at-mac/src/io.rs:4` derived `Debug` of `Endian`. -/
def Mac.Endian.debug : Mac.Endian → Str
  | .little => str% "Little"
  | .big => str% "Big"

/-- `header.rs:76` derived `Debug` of `Magic`. -/
def Mac.Magic.debug : Mac.Magic → Str
  | .magic64 => str% "Magic64"
  | .cigam64 => str% "Cigam64"
  | .magic => str% "Magic"
  | .cigam => str% "Cigam"
  | .fatMagic => str% "FatMagic"
  | .fatCigam => str% "FatCigam"

/-- `header.rs:118,123` derived `Debug` of `CpuSubType`. -/
def Mac.CpuSubType.debug : Mac.CpuSubType → Str
  | .all => str% "All"

/-- `header.rs:155` derived `Debug` of `FileType`. -/
def Mac.FileType.debug : Mac.FileType → Str
  | .object => str% "Object"
  | .execute => str% "Execute"
  | .fvmLib => str% "FVMLib"
  | .core => str% "Core"
  | .preload => str% "Preload"
  | .dylib => str% "Dylib"
  | .dylinker => str% "Dylinker"
  | .bundle => str% "Bundle"
  | .dsym => str% "Dsym"

/-- `segment64.rs:173` derived `Debug` of `SectionType`. -/
def Mac.SectionType.debug : Mac.SectionType → Str
  | .regular => str% "Regular"
  | .zerofill => str% "Zerofill"
  | .cstringLiterals => str% "CstringLiterals"
  | .fourByteLiterals => str% "FourByteLiterals"
  | .eightByteLiterals => str% "EightByteLiterals"
  | .literalPointers => str% "LiteralPointers"
  | .coalesced => str% "Coalesced"

/-- `build_version.rs:66` derived `Debug` of `Platform`. -/
def Mac.Platform.debug : Mac.Platform → Str
  | .macOS => str% "MacOS"
  | .iOS => str% "IOS"
  | .tvOS => str% "TvOS"
  | .watchOS => str% "WatchOS"
  | .bridgeOS => str% "BridgeOS"
  | .macCatalyst => str% "MacCatalyst"
  | .iOSSimulator => str% "IOSSimulator"
  | .tvOSSimulator => str% "TvOSSimulator"
  | .watchOSSimulator => str% "WatchOSSimulator"
  | .driverkit => str% "Driverkit"

/-- `build_version.rs:142` derived `Debug` of `Tool`. -/
def Mac.Tool.debug : Mac.Tool → Str
  | .clang => str% "Clang"
  | .swift => str% "Swift"
  | .ld => str% "LD"

/-- `reloc.rs:116` derived `Debug` of `RelocLength`. -/
def Mac.RelocLength.debug : Mac.RelocLength → Str
  | .byte => str% "Byte"
  | .word => str% "Word"
  | .long => str% "Long"
  | .quad => str% "Quad"

/-- `reloc.rs:138` derived `Debug` of `X86RelocType`. -/
def Mac.X86RelocType.debug : Mac.X86RelocType → Str
  | .vanilla => str% "Vanilla"
  | .pair => str% "Pair"
  | .sectdiff => str% "Sectdiff"
  | .pbLaPtr => str% "PbLaPtr"
  | .localSectdiff => str% "LocalSectdiff"
  | .tlv => str% "Tlv"

/-- `reloc.rs:166` derived `Debug` of `X86_64RelocType`. -/
def Mac.X86_64RelocType.debug : Mac.X86_64RelocType → Str
  | .unsigned => str% "Unsigned"
  | .signed => str% "Signed"
  | .branch => str% "Branch"
  | .gotLoad => str% "GotLoad"
  | .got => str% "Got"
  | .subtractor => str% "Subtractor"
  | .signed1 => str% "Signed1"
  | .signed2 => str% "Signed2"
  | .signed4 => str% "Signed4"
  | .tlv => str% "Tlv"

/-- `nlist.rs:110` derived `Debug` of `NType`. -/
def Mac.NType.debug : Mac.NType → Str
  | .undf => str% "Undf"
  | .abs => str% "Abs"
  | .sect => str% "Sect"
  | .pbud => str% "Pbud"
  | .indr => str% "Indr"

/-- `nlist.rs:140` derived `Debug` of `DebugSymbol`. -/
def Mac.DebugSymbol.debug : Mac.DebugSymbol → Str
  | .gsym => str% "Gsym"

/-- `at-asm/src/parsers/section.rs:3` derived `Debug` of `Section`. -/
def Asm.Section.debug : Asm.Section → Str
  | .text => str% "Text"
  | .data => str% "Data"
  | .bss => str% "Bss"

/-- `at-x64/src/reg.rs:22` derived `Debug` of `Reg64`. -/
def X64.Reg64.debug : X64.Reg64 → Str
  | .RAX => str% "RAX"
  | .RDI => str% "RDI"
  | .RSI => str% "RSI"
  | .RDX => str% "RDX"
  | .RCX => str% "RCX"
  | .RBP => str% "RBP"
  | .RSP => str% "RSP"
  | .RBX => str% "RBX"
  | .R8 => str% "R8"
  | .R9 => str% "R9"
  | .R10 => str% "R10"
  | .R11 => str% "R11"
  | .R12 => str% "R12"
  | .R13 => str% "R13"
  | .R14 => str% "R14"
  | .R15 => str% "R15"

/-- `reg.rs:130` derived `Debug` of `Reg32`. -/
def X64.Reg32.debug : X64.Reg32 → Str
  | .EAX => str% "EAX"
  | .EDI => str% "EDI"
  | .ESI => str% "ESI"
  | .EDX => str% "EDX"
  | .ECX => str% "ECX"
  | .EBP => str% "EBP"
  | .ESP => str% "ESP"
  | .EBX => str% "EBX"
  | .R8D => str% "R8D"
  | .R9D => str% "R9D"
  | .R10D => str% "R10D"
  | .R11D => str% "R11D"
  | .R12D => str% "R12D"
  | .R13D => str% "R13D"
  | .R14D => str% "R14D"
  | .R15D => str% "R15D"

/-- `reg.rs:221` derived `Debug` of `Reg16`. -/
def X64.Reg16.debug : X64.Reg16 → Str
  | .AX => str% "AX"
  | .DI => str% "DI"
  | .SI => str% "SI"
  | .DX => str% "DX"
  | .CX => str% "CX"
  | .BP => str% "BP"
  | .SP => str% "SP"
  | .BX => str% "BX"
  | .R8W => str% "R8W"
  | .R9W => str% "R9W"
  | .R10W => str% "R10W"
  | .R11W => str% "R11W"
  | .R12W => str% "R12W"
  | .R13W => str% "R13W"
  | .R14W => str% "R14W"
  | .R15W => str% "R15W"

/-- `reg.rs:312` derived `Debug` of `Reg8`. -/
def X64.Reg8.debug : X64.Reg8 → Str
  | .AL => str% "AL"
  | .DIL => str% "DIL"
  | .SIL => str% "SIL"
  | .DL => str% "DL"
  | .CL => str% "CL"
  | .BPL => str% "BPL"
  | .SPL => str% "SPL"
  | .BL => str% "BL"
  | .R8B => str% "R8B"
  | .R9B => str% "R9B"
  | .R10B => str% "R10B"
  | .R11B => str% "R11B"
  | .R12B => str% "R12B"
  | .R13B => str% "R13B"
  | .R14B => str% "R14B"
  | .R15B => str% "R15B"

/-- `at-mac/src/header.rs:112` derived `Debug` of `CpuType`. -/
def Mac.CpuType.debug (alt : Bool) : Mac.CpuType → Str
  | .x86 s => debugTuple alt (str% "X86") [s.debug]
  | .x86_64 s => debugTuple alt (str% "X86_64") [s.debug]

/-- `header.rs:10` derived `Debug` of `Header64`. -/
def Mac.Header64.debug (alt : Bool) (h : Mac.Header64) : Str :=
  debugStruct alt (str% "Header64") [
    (str% "magic", h.magic.debug),
    (str% "cpu_type", h.cpuType.debug alt),
    (str% "file_type", h.fileType.debug),
    (str% "n_cmds", debugNat h.nCmds.toNat),
    (str% "size_of_cmds", debugNat h.sizeOfCmds.toNat),
    (str% "flags", Mac.Flags.debug alt h.flags),
    (str% "reserved", debugNat h.reserved.toNat)]

/-- `load_command/segment64.rs:9` derived `Debug` of `SegmentCommand64`. -/
def Mac.SegmentCommand64.debug (plain : Char → Bool) (alt : Bool) (c : Mac.SegmentCommand64) : Str :=
  debugStruct alt (str% "SegmentCommand64") [
    (str% "cmd", debugNat c.cmd.toNat),
    (str% "cmdsize", debugNat c.cmdsize.toNat),
    (str% "segname", debugStr plain c.segname),
    (str% "vmaddr", debugNat c.vmaddr.toNat),
    (str% "vmsize", debugNat c.vmsize.toNat),
    (str% "fileoff", debugNat c.fileoff.toNat),
    (str% "filesize", debugNat c.filesize.toNat),
    (str% "maxprot", debugI32 c.maxprot),
    (str% "initprot", debugI32 c.initprot),
    (str% "nsects", debugNat c.nsects.toNat),
    (str% "flags", debugNat c.flags.toNat)]

/-- `segment64.rs:90` derived `Debug` of `Section64`. -/
def Mac.Section64.debug (plain : Char → Bool) (alt : Bool) (s : Mac.Section64) : Str :=
  debugStruct alt (str% "Section64") [
    (str% "sectname", debugStr plain s.sectname),
    (str% "segname", debugStr plain s.segname),
    (str% "addr", debugNat s.addr.toNat),
    (str% "size", debugNat s.size.toNat),
    (str% "offset", debugNat s.offset.toNat),
    (str% "align", debugNat s.align.toNat),
    (str% "reloff", debugNat s.reloff.toNat),
    (str% "nreloc", debugNat s.nreloc.toNat),
    (str% "flags", debugTuple alt [] [Mac.SectionAttrs.debug alt s.attrs, s.type.debug]),
    (str% "reserved1", debugNat s.reserved1.toNat),
    (str% "reserved2", debugNat s.reserved2.toNat),
    (str% "reserved3", debugNat s.reserved3.toNat)]

/-- `load_command/symtab.rs:4` derived `Debug` of `SymtabCommand`. -/
def Mac.SymtabCommand.debug (alt : Bool) (c : Mac.SymtabCommand) : Str :=
  debugStruct alt (str% "SymtabCommand") [
    (str% "cmd", debugNat c.cmd.toNat),
    (str% "cmdsize", debugNat c.cmdsize.toNat),
    (str% "symoff", debugNat c.symoff.toNat),
    (str% "nsyms", debugNat c.nsyms.toNat),
    (str% "stroff", debugNat c.stroff.toNat),
    (str% "strsize", debugNat c.strsize.toNat)]

/-- `load_command/dysymtab.rs:42` derived `Debug` of `DysymtabCommand`. -/
def Mac.DysymtabCommand.debug (alt : Bool) (c : Mac.DysymtabCommand) : Str :=
  debugStruct alt (str% "DysymtabCommand") [
    (str% "cmd", debugNat c.cmd.toNat),
    (str% "cmdsize", debugNat c.cmdsize.toNat),
    (str% "ilocalsym", debugNat c.ilocalsym.toNat),
    (str% "nlocalsym", debugNat c.nlocalsym.toNat),
    (str% "iextdefsym", debugNat c.iextdefsym.toNat),
    (str% "nextdefsym", debugNat c.nextdefsym.toNat),
    (str% "iundefsym", debugNat c.iundefsym.toNat),
    (str% "nundefsym", debugNat c.nundefsym.toNat),
    (str% "tocoff", debugNat c.tocoff.toNat),
    (str% "ntoc", debugNat c.ntoc.toNat),
    (str% "modtaboff", debugNat c.modtaboff.toNat),
    (str% "nmodtab", debugNat c.nmodtab.toNat),
    (str% "extrefsymoff", debugNat c.extrefsymoff.toNat),
    (str% "nextrefsyms", debugNat c.nextrefsyms.toNat),
    (str% "indirectsymoff", debugNat c.indirectsymoff.toNat),
    (str% "nindirectsyms", debugNat c.nindirectsyms.toNat),
    (str% "extreloff", debugNat c.extreloff.toNat),
    (str% "nextrel", debugNat c.nextrel.toNat),
    (str% "locreloff", debugNat c.locreloff.toNat),
    (str% "nlocrel", debugNat c.nlocrel.toNat)]

/-- `load_command/build_version.rs:90` derived `Debug` of `Version`. -/
def Mac.Version.debug (alt : Bool) (v : Mac.Version) : Str :=
  debugStruct alt (str% "Version") [
    (str% "major", debugNat v.major.toNat),
    (str% "minor", debugNat v.minor.toNat),
    (str% "release", debugNat v.release.toNat)]

/-- `build_version.rs:9` derived `Debug` of `BuildVersionCommand`. -/
def Mac.BuildVersionCommand.debug (alt : Bool) (c : Mac.BuildVersionCommand) : Str :=
  debugStruct alt (str% "BuildVersionCommand") [
    (str% "cmd", debugNat c.cmd.toNat),
    (str% "cmdsize", debugNat c.cmdsize.toNat),
    (str% "platform", c.platform.debug),
    (str% "minos", c.minos.debug alt),
    (str% "sdk", c.sdk.debug alt),
    (str% "ntools", debugNat c.ntools.toNat)]

/-- `build_version.rs:119` derived `Debug` of `BuildToolVersion`. -/
def Mac.BuildToolVersion.debug (alt : Bool) (t : Mac.BuildToolVersion) : Str :=
  debugStruct alt (str% "BuildToolVersion") [
    (str% "tool", t.tool.debug),
    (str% "version", debugNat t.version.toNat)]

/-- `load_command/mod.rs:17` derived `Debug` of `LoadCommand`. -/
def Mac.LoadCommand.debug (plain : Char → Bool) (alt : Bool) : Mac.LoadCommand → Str
  | .segment64 c ss =>
    debugTuple alt (str% "Segment64") [c.debug plain alt, debugList alt (ss.map (·.debug plain alt))]
  | .symtab c => debugTuple alt (str% "Symtab") [c.debug alt]
  | .dysymtab c => debugTuple alt (str% "Dysymtab") [c.debug alt]
  | .buildVersion c ts =>
    debugTuple alt (str% "BuildVersion") [c.debug alt, debugList alt (ts.map (·.debug alt))]

/-- `reloc.rs:6` derived `Debug` of `RelocationInfo`. -/
def Mac.RelocationInfo.debug (alt : Bool) (r : Mac.RelocationInfo) : Str :=
  debugStruct alt (str% "RelocationInfo") [
    (str% "r_address", debugI32 r.rAddress),
    (str% "r_symbolnum", debugNat r.rSymbolnum.toNat),
    (str% "r_pcrel", debugBool r.rPcrel),
    (str% "r_length", r.rLength.debug),
    (str% "r_extern", debugBool r.rExtern),
    (str% "r_type", debugNat r.rType.toNat)]

/-- `nlist.rs:63` derived `Debug` of `NTypeField`. -/
def Mac.NTypeField.debug (alt : Bool) : Mac.NTypeField → Str
  | .norm p t e =>
    debugStruct alt (str% "Norm") [
      (str% "n_pext", debugBool p), (str% "n_type", t.debug), (str% "n_ext", debugBool e)]
  | .stab s => debugTuple alt (str% "Stab") [s.debug]

/-- `nlist.rs:6` derived `Debug` of `NList64`. -/
def Mac.NList64.debug (alt : Bool) (n : Mac.NList64) : Str :=
  debugStruct alt (str% "NList64") [
    (str% "n_strx", debugNat n.nStrx.toNat),
    (str% "n_type", n.nType.debug alt),
    (str% "n_sect", debugNat n.nSect.toNat),
    (str% "n_desc", debugNat n.nDesc.toNat),
    (str% "n_value", debugNat n.nValue.toNat)]

/-- `at-asm/src/parsers/data.rs:5` derived `Debug` of `Data`. -/
def Asm.Data.debug (plain : Char → Bool) (alt : Bool) (d : Asm.Data) : Str :=
  debugStruct alt (str% "Data") [
    (str% "label", debugOption alt (d.label.map (debugStr plain))),
    (str% "bytes", debugBytes alt d.bytes)]

/-- `at-asm/src/parsers/global_symbol.rs:3` derived `Debug` of `GlobalSymbol`, which holds `name`. -/
def Asm.globalSymbolDebug (plain : Char → Bool) (alt : Bool) (name : Str) : Str :=
  debugTuple alt (str% "GlobalSymbol") [debugStr plain name]

/-- `at-asm/src/parsers/mod.rs:22` derived `Debug` of `ParseError`, which holds `msg`. -/
def Asm.parseErrorDebug (plain : Char → Bool) (alt : Bool) (msg : Str) : Str :=
  debugStruct alt (str% "ParseError") [(str% "msg", debugStr plain msg)]

/-- `at-asm/src/parsers/expr.rs:4` derived `Debug` of `Expr`, which holds `n`. -/
def Asm.exprDebug (alt : Bool) (n : UInt64) : Str :=
  debugTuple alt (str% "Expr") [debugNat n.toNat]

/-- `at-x64/src/bytes.rs:3` derived `Debug` of `BytesAtMost`: the whole array is shown. -/
def X64.BytesAtMost.debug {M : Nat} (alt : Bool) (b : X64.BytesAtMost M) : Str :=
  debugStruct alt (str% "BytesAtMost") [
    (str% "bytes", debugBytes alt b.buf),
    (str% "len", debugNat b.len)]

/-- `at-x64/src/mem.rs:3` derived `Debug` of `Mem64`. -/
def X64.Mem64.debug (alt : Bool) : X64.Mem64 → Str
  | .regOffset r d => debugTuple alt (str% "RegOffset") [r.debug, debugNat d.toNat]
  | .ripOffset d => debugTuple alt (str% "RipOffset") [debugNat d.toNat]
  | .sib b d i s =>
    debugStruct alt (str% "Sib") [
      (str% "base", debugOption alt (b.map X64.Reg64.debug)),
      (str% "disp", debugNat d.toNat),
      (str% "index", i.debug),
      (str% "scale", debugNat s.toNat)]

/-- `at-x64/src/reg.rs:3` derived `Debug` of `Reg`. -/
def X64.Reg.debug (alt : Bool) : X64.Reg → Str
  | .reg64 r => debugTuple alt (str% "Reg64") [r.debug]
  | .reg32 r => debugTuple alt (str% "Reg32") [r.debug]
  | .reg16 r => debugTuple alt (str% "Reg16") [r.debug]
  | .reg8 r => debugTuple alt (str% "Reg8") [r.debug]

/-- `at-obj/src/object.rs:188` derived `Debug` of `Symbol`. -/
def Obj.Symbol.debug (plain : Char → Bool) (alt : Bool) : Obj.Symbol → Str
  | .undef n => debugStruct alt (str% "Undef") [(str% "name", debugStr plain n)]
  | .abs n v e =>
    debugStruct alt (str% "Abs") [
      (str% "name", debugStr plain n), (str% "val", debugNat v.toNat), (str% "ext", debugBool e)]
  | .ref n a e =>
    debugStruct alt (str% "Ref") [
      (str% "name", debugStr plain n), (str% "addr", debugNat a.toNat), (str% "ext", debugBool e)]

end AT
