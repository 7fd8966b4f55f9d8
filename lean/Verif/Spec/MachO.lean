import Verif.Model.MacHeader
import Verif.Model.MacLoadCommand
import Verif.Model.MacSymbols
/-!
# Specification: the Mach-O file format, by field offsets

Written from Apple's `mach-o/loader.h`, `mach-o/nlist.h`, `mach-o/reloc.h`,
`mach-o/x86_64/reloc.h`, independently of the reader and writer models.  From the model only the
data types (names of enum variants, record types) and the byte order type are used, no function.
-/

namespace AT.MachO
open AT.Mac

/-! ## Access to a file by offset -/

/-- `len` bytes of `f` at offset `off`, if they are all there. -/
def bytesAt (f : Bytes) (off len : Nat) : Option Bytes :=
  if off + len ≤ f.length then some ((f.drop off).take len) else none

/-- Value of a byte string read as a number: most significant byte first. -/
def beNat (b : Bytes) : Nat := b.foldl (fun n x => 256 * n + x.toNat) 0

/-- Value of a byte string read as a number in byte order `e`. -/
def numOf (e : Endian) (b : Bytes) : Nat :=
  match e with
  | .big => beNat b
  | .little => beNat b.reverse

/-- The `len`-byte number at offset `off`. -/
def numAt (e : Endian) (f : Bytes) (off len : Nat) : Option Nat := (bytesAt f off len).map (numOf e)

/-- A fixed-size name field: the bytes of the name, then zeros. -/
def nameField (len : Nat) (s : Str) : Bytes :=
  s.map (fun c => UInt8.ofNat c.toNat) ++ List.replicate (len - s.length) 0

/-- NUL-terminated string at offset `off`: the bytes up to (excluding) the next zero byte, which
must exist. -/
def cstrAt (f : Bytes) (off : Nat) : Option Bytes :=
  if off ≤ f.length ∧ 0 ∈ f.drop off then some ((f.drop off).takeWhile (· ≠ 0)) else none

/-! ## Numbers of `loader.h` -/

/-- `MH_MAGIC_64`, `MH_CIGAM_64`, `MH_MAGIC`, `MH_CIGAM`, `FAT_MAGIC`, `FAT_CIGAM`. -/
def magicNum : Magic → Nat
  | .magic64 => 0xfeedfacf
  | .cigam64 => 0xcffaedfe
  | .magic => 0xfeedface
  | .cigam => 0xcefaedfe
  | .fatMagic => 0xcafebabe
  | .fatCigam => 0xbebafeca

/-- `CPU_TYPE_X86 = 7`, `CPU_TYPE_X86_64 = 7 | 0x01000000`. -/
def cpuNum : CpuType → Nat
  | .x86 _ => 7
  | .x86_64 _ => 16777223

/-- `MH_OBJECT` ... `MH_DSYM`. -/
def fileTypeNum : FileType → Nat
  | .object => 1 | .execute => 2 | .fvmLib => 3 | .core => 4 | .preload => 5
  | .dylib => 6 | .dylinker => 7 | .bundle => 8 | .dsym => 10

/-- Bit number of a header flag (`MH_NOUNDEFS` is bit 0, ...). -/
def flagBit : Flag → Nat
  | .noUndefs => 0 | .incrLink => 1 | .dyldLink => 2 | .bindAtLoad => 3 | .preBound => 4
  | .splitSegs => 5 | .twoLevel => 7 | .forceFlat => 8 | .noMultiDefs => 9
  | .noFixPreBinding => 10 | .preBindable => 11 | .allModsBound => 12
  | .subsectionsViaSymbols => 13 | .canonical => 14 | .pie => 21 | .hasTlvDescriptors => 23

/-- All header flags, in bit order. -/
def allFlags : List Flag :=
  [.noUndefs, .incrLink, .dyldLink, .bindAtLoad, .preBound, .splitSegs, .twoLevel, .forceFlat,
   .noMultiDefs, .noFixPreBinding, .preBindable, .allModsBound, .subsectionsViaSymbols,
   .canonical, .pie, .hasTlvDescriptors]

/-- Bit number of a section attribute (`S_ATTR_...`). -/
def attrBit : SectionAttr → Nat
  | .locReloc => 8 | .extReloc => 9 | .someInstructions => 10 | .debug => 25
  | .liveSupport => 27 | .stripStaticSyms => 29 | .noToc => 30 | .pureInstructions => 31

/-- All section attributes, in bit order. -/
def allAttrs : List SectionAttr :=
  [.locReloc, .extReloc, .someInstructions, .debug, .liveSupport, .stripStaticSyms, .noToc,
   .pureInstructions]

/-- `S_REGULAR` ... `S_COALESCED`. -/
def sectionTypeNum : SectionType → Nat
  | .regular => 0 | .zerofill => 1 | .cstringLiterals => 2 | .fourByteLiterals => 3
  | .eightByteLiterals => 4 | .literalPointers => 5 | .coalesced => 11

/-- `PLATFORM_MACOS` ... `PLATFORM_DRIVERKIT`. -/
def platformNum : Platform → Nat
  | .macOS => 1 | .iOS => 2 | .tvOS => 3 | .watchOS => 4 | .bridgeOS => 5 | .macCatalyst => 6
  | .iOSSimulator => 7 | .tvOSSimulator => 8 | .watchOSSimulator => 9 | .driverkit => 10

/-- `TOOL_CLANG`, `TOOL_SWIFT`, `TOOL_LD`. -/
def toolNum : Tool → Nat
  | .clang => 1 | .swift => 2 | .ld => 3

/-- `N_UNDF`, `N_ABS`, `N_SECT`, `N_PBUD`, `N_INDR` (within mask `0x0e`). -/
def nTypeNum : NType → Nat
  | .undf => 0 | .abs => 2 | .sect => 14 | .pbud => 12 | .indr => 10

/-- `N_GSYM` (within mask `0xe0`). -/
def debugSymbolNum : DebugSymbol → Nat
  | .gsym => 32

/-- `GENERIC_RELOC_VANILLA` ... `GENERIC_RELOC_TLV`. -/
def x86RelocNum : X86RelocType → Nat
  | .vanilla => 0 | .pair => 1 | .sectdiff => 2 | .pbLaPtr => 3 | .localSectdiff => 4 | .tlv => 5

/-- `X86_64_RELOC_UNSIGNED` ... `X86_64_RELOC_TLV`. -/
def x86_64RelocNum : X86_64RelocType → Nat
  | .unsigned => 0 | .signed => 1 | .branch => 2 | .gotLoad => 3 | .got => 4 | .subtractor => 5
  | .signed1 => 6 | .signed2 => 7 | .signed4 => 8 | .tlv => 9

/-- The members of a list of flags, in bit order and once each. -/
def sortFlags (l : List Flag) : List Flag := allFlags.filter (fun f => decide (f ∈ l))

/-- The members of a list of attributes, in bit order and once each. -/
def sortAttrs (l : List SectionAttr) : List SectionAttr :=
  allAttrs.filter (fun a => decide (a ∈ l))

/-- The number with exactly the bits of the listed flags. -/
def flagWord (l : List Flag) : Nat := ((allFlags.filter (· ∈ l)).map (fun f => 2 ^ flagBit f)).sum

/-- The number with exactly the bits of the listed attributes. -/
def attrWord (l : List SectionAttr) : Nat :=
  ((allAttrs.filter (· ∈ l)).map (fun a => 2 ^ attrBit a)).sum

/-- A name that fits a fixed-size field and can be read back: ASCII, no NUL, at most `n` bytes. -/
structure NameFits (n : Nat) (s : Str) : Prop where
  ascii : ∀ c ∈ s, c.toNat < 128
  nul : ∀ c ∈ s, c.toNat ≠ 0
  len : s.length ≤ n

/-! ## Structure layouts: offset, width, value of every field -/

/-- A field of a structure in a file. -/
inductive Field where
  /-- a number of `len` bytes at `off` (relative to the structure) with value `val` -/
  | num (off len val : Nat)
  /-- a NUL-padded name of `len` bytes at `off` -/
  | name (off len : Nat) (s : Str)
  deriving DecidableEq, Repr

/-- The field is present in `f`, in a structure placed at `base`. -/
def Field.holds (e : Endian) (f : Bytes) (base : Nat) : Field → Prop
  | .num off len val => numAt e f (base + off) len = some val
  | .name off len s => bytesAt f (base + off) len = some (nameField len s)

/-- All fields of a structure placed at `base` are present in `f`. -/
def HasFields (e : Endian) (f : Bytes) (base : Nat) (l : List Field) : Prop :=
  ∀ fd ∈ l, fd.holds e f base

/-- A signed 32-bit field as the unsigned number with the same bits. -/
def i32Num (n : Int32) : Nat := (n.toInt % 2 ^ 32).toNat

/-- `struct mach_header_64`. -/
def headerFields (x : Header64) : List Field :=
  [ .num 0 4 (magicNum x.magic),
    .num 4 4 (cpuNum x.cpuType),
    .num 8 4 3,
    .num 12 4 (fileTypeNum x.fileType),
    .num 16 4 x.nCmds.toNat,
    .num 20 4 x.sizeOfCmds.toNat,
    .num 24 4 (flagWord x.flags),
    .num 28 4 x.reserved.toNat ]

/-- `struct segment_command_64`. -/
def segmentFields (x : SegmentCommand64) : List Field :=
  [ .num 0 4 x.cmd.toNat,
    .num 4 4 x.cmdsize.toNat,
    .name 8 16 x.segname,
    .num 24 8 x.vmaddr.toNat,
    .num 32 8 x.vmsize.toNat,
    .num 40 8 x.fileoff.toNat,
    .num 48 8 x.filesize.toNat,
    .num 56 4 (i32Num x.maxprot),
    .num 60 4 (i32Num x.initprot),
    .num 64 4 x.nsects.toNat,
    .num 68 4 x.flags.toNat ]

/-- `struct section_64`. -/
def sectionFields (x : Section64) : List Field :=
  [ .name 0 16 x.sectname,
    .name 16 16 x.segname,
    .num 32 8 x.addr.toNat,
    .num 40 8 x.size.toNat,
    .num 48 4 x.offset.toNat,
    .num 52 4 x.align.toNat,
    .num 56 4 x.reloff.toNat,
    .num 60 4 x.nreloc.toNat,
    .num 64 4 (attrWord x.attrs + sectionTypeNum x.type),
    .num 68 4 x.reserved1.toNat,
    .num 72 4 x.reserved2.toNat,
    .num 76 4 x.reserved3.toNat ]

/-- `struct symtab_command`. -/
def symtabFields (x : SymtabCommand) : List Field :=
  [ .num 0 4 x.cmd.toNat,
    .num 4 4 x.cmdsize.toNat,
    .num 8 4 x.symoff.toNat,
    .num 12 4 x.nsyms.toNat,
    .num 16 4 x.stroff.toNat,
    .num 20 4 x.strsize.toNat ]

/-- `struct dysymtab_command`. -/
def dysymtabFields (x : DysymtabCommand) : List Field :=
  [ .num 0 4 x.cmd.toNat,
    .num 4 4 x.cmdsize.toNat,
    .num 8 4 x.ilocalsym.toNat,
    .num 12 4 x.nlocalsym.toNat,
    .num 16 4 x.iextdefsym.toNat,
    .num 20 4 x.nextdefsym.toNat,
    .num 24 4 x.iundefsym.toNat,
    .num 28 4 x.nundefsym.toNat,
    .num 32 4 x.tocoff.toNat,
    .num 36 4 x.ntoc.toNat,
    .num 40 4 x.modtaboff.toNat,
    .num 44 4 x.nmodtab.toNat,
    .num 48 4 x.extrefsymoff.toNat,
    .num 52 4 x.nextrefsyms.toNat,
    .num 56 4 x.indirectsymoff.toNat,
    .num 60 4 x.nindirectsyms.toNat,
    .num 64 4 x.extreloff.toNat,
    .num 68 4 x.nextrel.toNat,
    .num 72 4 x.locreloff.toNat,
    .num 76 4 x.nlocrel.toNat ]

/-- A version `xxxx.yy.zz` packed as `loader.h` documents. -/
def versionNum (v : Version) : Nat := v.major.toNat * 65536 + v.minor.toNat * 256 + v.release.toNat

/-- `struct build_version_command`. -/
def buildVersionFields (x : BuildVersionCommand) : List Field :=
  [ .num 0 4 x.cmd.toNat,
    .num 4 4 x.cmdsize.toNat,
    .num 8 4 (platformNum x.platform),
    .num 12 4 (versionNum x.minos),
    .num 16 4 (versionNum x.sdk),
    .num 20 4 x.ntools.toNat ]

/-- `struct build_tool_version`. -/
def toolFields (x : BuildToolVersion) : List Field :=
  [ .num 0 4 (toolNum x.tool),
    .num 4 4 x.version.toNat ]

/-- The `n_type` byte: stab number, or private-extern bit, type, external bit. -/
def nTypeByte : NTypeField → Nat
  | .norm pext t ext => pext.toNat * 16 + nTypeNum t + ext.toNat
  | .stab .gsym => 0x20

/-- `struct nlist_64`. -/
def nlistFields (x : NList64) : List Field :=
  [ .num 0 4 x.nStrx.toNat,
    .num 4 1 (nTypeByte x.nType),
    .num 5 1 x.nSect.toNat,
    .num 6 2 x.nDesc.toNat,
    .num 8 8 x.nValue.toNat ]

/-- `r_length`: 0 = byte, 1 = word, 2 = long, 3 = quad. -/
def relocLengthNum : RelocLength → Nat
  | .byte => 0 | .word => 1 | .long => 2 | .quad => 3

/-- The bit-field word of `struct relocation_info`
(`r_symbolnum:24, r_pcrel:1, r_length:2, r_extern:1, r_type:4`): bit-fields are allocated from the
low end on little-endian and from the high end on big-endian targets. -/
def relocWord (e : Endian) (x : RelocationInfo) : Nat :=
  match e with
  | .little => x.rSymbolnum.toNat + x.rPcrel.toNat * 2 ^ 24 + relocLengthNum x.rLength * 2 ^ 25 +
      x.rExtern.toNat * 2 ^ 27 + x.rType.toNat * 2 ^ 28
  | .big => x.rSymbolnum.toNat * 2 ^ 8 + x.rPcrel.toNat * 2 ^ 7 + relocLengthNum x.rLength * 2 ^ 5 +
      x.rExtern.toNat * 2 ^ 4 + x.rType.toNat

/-- The second word for a symbol number and a type of any size, which may overlap the other bits: the
bits of all fields together, cut to the word. -/
def relocWordOr (e : Endian) (x : RelocationInfo) : Nat :=
  match e with
  | .little => x.rSymbolnum.toNat |||
      (x.rPcrel.toNat * 2 ^ 24 + relocLengthNum x.rLength * 2 ^ 25 + x.rExtern.toNat * 2 ^ 27) |||
      x.rType.toNat * 2 ^ 28 % 2 ^ 32
  | .big => x.rSymbolnum.toNat * 2 ^ 8 % 2 ^ 32 |||
      (x.rPcrel.toNat * 2 ^ 7 + relocLengthNum x.rLength * 2 ^ 5 + x.rExtern.toNat * 2 ^ 4) |||
      x.rType.toNat

/-- `struct relocation_info`. -/
def relocFields (e : Endian) (x : RelocationInfo) : List Field :=
  [ .num 0 4 (i32Num x.rAddress),
    .num 4 4 (relocWord e x) ]

end AT.MachO
