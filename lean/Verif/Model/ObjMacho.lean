import Verif.Model.Obj
import Verif.Model.MacHeader
import Verif.Model.MacLoadCommand
import Verif.Model.MacSymbols
/-!
# at-obj: writing an object as a Mach-O file (`/repo/at-obj/src/macho.rs`)

`bd` is the cargo profile (overflow behaviour), `h` the host byte order.
-/

namespace AT.Obj
open AT.Mac

/-- `macho.rs:79-91` `gen_header64`. -/
def genHeader64 (bd : Build) (o : Object) : Res Header64 := do
  let sects ← mulU32 bd o.sections.len Section64.SIZE
  let s ← addU32 bd SegmentCommand64.SIZE sects
  let s ← addU32 bd s SymtabCommand.SIZE
  pure {
    magic := .magic64
    cpuType := .x86_64 .all
    fileType := .object
    nCmds := 2
    sizeOfCmds := s
    flags := []
    reserved := 0 }

/-- `Header64::SIZE + SegmentCommand64::SIZE + len * Section64::SIZE + SymtabCommand::SIZE`
(`macho.rs:101-104`, `122-125`, `228-231`). -/
def dataStart (bd : Build) (o : Object) : Res UInt32 := do
  let a ← addU32 bd Header64.SIZE SegmentCommand64.SIZE
  let sects ← mulU32 bd o.sections.len Section64.SIZE
  let a ← addU32 bd a sects
  addU32 bd a SymtabCommand.SIZE

/-- `sections().iter().map(file_size).sum::<u32>().aligned(8)`
(`macho.rs:105-110`, `127-132`, `232-237`). -/
def alignedFileSize (bd : Build) (o : Object) : Res UInt32 := do
  let s ← sumU32 bd (o.sections.iter.map SectionRef.fileSize)
  alignedU32 bd s 8

/-- `macho.rs:93-118` `gen_segment_command64`. -/
def genSegmentCommand64 (bd : Build) (o : Object) : Res SegmentCommand64 := do
  let sects ← mulU32 bd o.sections.len Section64.SIZE
  let cmdsize ← addU32 bd SegmentCommand64.SIZE sects
  let vmsize ← sumU64 bd (o.sections.iter.map SectionRef.vmSize)
  let fileoff ← dataStart bd o
  let filesize ← alignedFileSize bd o
  pure {
    cmd := SegmentCommand64.TYPE
    cmdsize := cmdsize
    segname := []
    vmaddr := 0
    vmsize := vmsize
    fileoff := fileoff.toUInt64
    filesize := filesize.toUInt64
    maxprot := 7
    initprot := 7
    nsects := o.sections.len
    flags := 0 }

/-- `macho.rs:166-169`, `189-192`: relocation attributes. -/
def relocAttrs (relocs : List Reloc) : SectionAttrs :=
  if relocs.isEmpty then [] else [.locReloc, .extReloc]

/-- `macho.rs:162-185` `gen_section64_from_text`. -/
def genSection64FromText (t : TextSection) (addr : UInt64) (offset reloff : UInt32) : Section64 where
  sectname := str% "__text"
  segname := str% "__TEXT"
  addr := addr
  size := UInt64.ofNat t.bytes.length
  offset := offset
  align := 0
  reloff := reloff
  nreloc := UInt32.ofNat t.relocs.length
  attrs := [.someInstructions, .pureInstructions] ++ relocAttrs t.relocs
  type := .regular
  reserved1 := 0
  reserved2 := 0
  reserved3 := 0

/-- `macho.rs:187-208` `gen_section64_from_data`. -/
def genSection64FromData (d : DataSection) (addr : UInt64) (offset reloff : UInt32) : Section64 where
  sectname := str% "__data"
  segname := str% "__DATA"
  addr := addr
  size := UInt64.ofNat d.bytes.length
  offset := offset
  align := 0
  reloff := reloff
  nreloc := UInt32.ofNat d.relocs.length
  attrs := relocAttrs d.relocs
  type := .regular
  reserved1 := 0
  reserved2 := 0
  reserved3 := 0

/-- `macho.rs:210-225` `gen_section64_from_bss`. -/
def genSection64FromBss (b : BssSection) (addr : UInt64) : Section64 where
  sectname := str% "__bss"
  segname := str% "__DATA"
  addr := addr
  size := b.size
  offset := 0
  align := 0
  reloff := 0
  nreloc := 0
  attrs := []
  type := .zerofill
  reserved1 := 0
  reserved2 := 0
  reserved3 := 0

/-- `macho.rs:152-160` `gen_section64`. -/
def genSection64 (s : SectionRef) (addr : UInt64) (offset reloff : UInt32) : Section64 :=
  match s with
  | .text t => genSection64FromText t addr offset reloff
  | .data d => genSection64FromData d addr offset reloff
  | .bss b => genSection64FromBss b addr

/-- The `map` closure of `gen_section64s` (`macho.rs:137-148`) over the sections, threading
`vmaddr`, `data_start`, `reloc_start`. -/
def genSection64sGo (bd : Build) (vmaddr : UInt64) (dataStart relocStart : UInt32) :
    List SectionRef → Res (List Section64)
  | [] => pure []
  | s :: ss => do
    let vmaddr' ← addU64 bd vmaddr s.vmSize
    let dataStart' ← addU32 bd dataStart s.fileSize
    let r ← mulU32 bd RelocationInfo.SIZE (UInt32.ofNat s.relocs.length)
    let relocStart' ← addU32 bd relocStart r
    let rest ← genSection64sGo bd vmaddr' dataStart' relocStart' ss
    pure (genSection64 s vmaddr dataStart relocStart :: rest)

/-- `macho.rs:120-150` `gen_section64s`. -/
def genSection64s (bd : Build) (o : Object) : Res (List Section64) := do
  let ds ← dataStart bd o
  let fs ← alignedFileSize bd o
  let rs ← addU32 bd ds fs
  genSection64sGo bd 0 ds rs o.sections.iter

/-- `sym.name().len() as u32 + 1` (`macho.rs:256`). -/
def nameSize (bd : Build) (s : Symbol) : Res UInt32 := addU32 bd (UInt32.ofNat (utf8Len s.name)) 1

/-- `macho.rs:253-258`: string table bytes of one section's symbols. -/
def sectStrSize (bd : Build) (s : SectionRef) : Res UInt32 := do
  let l ← s.symbols.mapM (nameSize bd)
  sumU32 bd l

/-- `macho.rs:227-270` `gen_symtab_command`. -/
def genSymtabCommand (bd : Build) (o : Object) : Res SymtabCommand := do
  let ds ← dataStart bd o
  let fs ← alignedFileSize bd o
  let a ← addU32 bd ds fs
  let nrel ← sumU32 bd (o.sections.iter.map (fun s => UInt32.ofNat s.relocs.length))
  let rsz ← mulU32 bd nrel RelocationInfo.SIZE
  let symoff ← addU32 bd a rsz
  let nsyms ← sumU32 bd (o.sections.iter.map (fun s => UInt32.ofNat s.symbols.length))
  let ssz ← mulU32 bd nsyms NList64.SIZE
  let stroff ← addU32 bd symoff ssz
  let l ← o.sections.iter.mapM (sectStrSize bd)
  let total ← sumU32 bd l
  let strsize ← addU32 bd total 1
  pure ⟨SymtabCommand.TYPE, SymtabCommand.SIZE, symoff, nsyms, stroff, strsize⟩

/-- The loop of `write_section_data_into` (`macho.rs:273-277`), from `file_size`. -/
def writeSectionDataGo (bd : Build) (fileSize : UInt32) : List SectionRef → Wr UInt32
  | [] => pure fileSize
  | s :: ss => do
    emit s.fileData
    let fileSize ← Wr.lift (addU32 bd fileSize s.fileSize)
    writeSectionDataGo bd fileSize ss

/-- `macho.rs:272-281` `write_section_data_into`. `&padding[..n]` panics for `n > 7`. -/
def writeSectionDataInto (bd : Build) (o : Object) : Wr Unit := do
  let fileSize ← writeSectionDataGo bd 0 o.sections.iter
  let nPadding ← Wr.lift (paddingU32 bd fileSize 8)
  Wr.lift (rassert (nPadding ≤ 7))
  emit (List.replicate nPadding.toNat 0)

/-- `macho.rs:283-291` `gen_string_table`. -/
def genStringTable (o : Object) : Res StringTable :=
  (o.sections.iter.flatMap SectionRef.symbols).foldlM (fun t s => t.pushWithNull s.name)
    StringTable.withNull

/-- The loop of `get_strx` (`macho.rs:295-304`) over the entries of `stab.iter()`. -/
def getStrxGo (bd : Build) (name : Str) (idx : UInt32) : List Bytes → Res UInt32
  | [] => pure idx
  | b :: bs => do
    let s ← runwrap (fromUtf8 b)
    let idx ← addU32 bd idx 1
    if s = name then pure idx
    else do
      let idx ← addU32 bd idx (UInt32.ofNat (utf8Len s))
      getStrxGo bd name idx bs

/-- `macho.rs:294-305` `get_strx`. -/
def getStrx (bd : Build) (stab : StringTable) (name : Str) : Res UInt32 :=
  getStrxGo bd name 0 stab.rawIter

/-- The `match sym` of `gen_nlist64s` (`macho.rs:312-346`); `i` is the 0-based position of the
section among the emitted ones. -/
def genNList64 (bd : Build) (sections : List Section64) (stab : StringTable) (i : Nat)
    (sym : Symbol) : Res NList64 :=
  match sym with
  | .undef name => do
    let strx ← getStrx bd stab name
    pure ⟨strx, .norm false .undf true, 0, 0, 0⟩
  | .abs name val ext => do
    let strx ← getStrx bd stab name
    pure ⟨strx, .norm false .abs ext, UInt8.ofNat (i + 1), 0, val⟩
  | .ref name addr ext => do
    let strx ← getStrx bd stab name
    let sect ← runwrap sections[i]?
    let value ← addU64 bd sect.addr addr
    pure ⟨strx, .norm false .sect ext, UInt8.ofNat (i + 1), 0, value⟩

/-- The two nested `for_each` of `gen_nlist64s` (`macho.rs:309-348`), from section number `i`. -/
def genNList64sGo (bd : Build) (sections : List Section64) (stab : StringTable) (i : Nat) :
    List SectionRef → Res (List NList64)
  | [] => pure []
  | s :: ss => do
    let l ← s.symbols.mapM (genNList64 bd sections stab i)
    let rest ← genNList64sGo bd sections stab (i + 1) ss
    pure (l ++ rest)

/-- `macho.rs:293-351` `gen_nlist64s`. -/
def genNList64s (bd : Build) (o : Object) (sections : List Section64) (stab : StringTable) :
    Res (List NList64) := genNList64sGo bd sections stab 0 o.sections.iter

/-- `get_sym_idx` (`macho.rs:358-365`), from index `i`: the `find` loop, then `unwrap`. -/
def getSymIdxGo (stab : StringTable) (name : Str) (i : Nat) : List NList64 → Res UInt32
  | [] => .error .panic
  | s :: ss => do
    let n ← stab.get s.nStrx.toNat
    if n = name then pure (UInt32.ofNat i) else getSymIdxGo stab name (i + 1) ss

/-- `macho.rs:358-365` `get_sym_idx`. -/
def getSymIdx (symbols : List NList64) (stab : StringTable) (name : Str) : Res UInt32 :=
  getSymIdxGo stab name 0 symbols

/-- The body of the loop of `gen_relocation_infos` (`macho.rs:370-382`). -/
def genRelocationInfo (symbols : List NList64) (stab : StringTable) (r : Reloc) :
    Res RelocationInfo := do
  let idx ← getSymIdx symbols stab r.symbol
  let len ← runwrap (RelocLength.fromU32? r.len.toUInt32)
  pure ⟨r.addr, idx, r.pcrel, len, true, X86_64RelocType.unsigned.toU8⟩

/-- `macho.rs:353-386` `gen_relocation_infos`. -/
def genRelocationInfos (o : Object) (symbols : List NList64) (stab : StringTable) :
    Res (List RelocationInfo) :=
  (o.sections.iter.flatMap SectionRef.relocs).mapM (genRelocationInfo symbols stab)

/-- `macho.rs:42-75` `write_into`. -/
def writeInto (bd : Build) (h : Endian) (o : Object) : Wr Unit := do
  let header ← Wr.lift (genHeader64 bd o)
  header.writeInto h
  let segment ← Wr.lift (genSegmentCommand64 bd o)
  segment.writeInto h
  let sections ← Wr.lift (genSection64s bd o)
  forWr (Section64.writeInto h) sections
  let symtab ← Wr.lift (genSymtabCommand bd o)
  symtab.writeInto h
  writeSectionDataInto bd o
  let stab ← Wr.lift (genStringTable o)
  let symbols ← Wr.lift (genNList64s bd o sections stab)
  let relocs ← Wr.lift (genRelocationInfos o symbols stab)
  forWr (RelocationInfo.writeInto h) relocs
  forWr (NList64.writeInto h) symbols
  emit stab.data

end AT.Obj
