import Verif.Model.MacIo
/-!
# at-mac: segment and section commands (`/repo/at-mac/src/load_command/segment64.rs`)
-/

namespace AT.Mac

/-- `at-mac/src/load_command/segment64.rs:173-182` `enum SectionType`. -/
inductive SectionType where
  | regular
  | zerofill
  | cstringLiterals
  | fourByteLiterals
  | eightByteLiterals
  | literalPointers
  | coalesced
  deriving DecidableEq, Repr

/-- `at-mac/src/load_command/segment64.rs:191-193` `to_u32`. -/
def SectionType.toU32 : SectionType → UInt32
  | .regular => 0x0
  | .zerofill => 0x1
  | .cstringLiterals => 0x2
  | .fourByteLiterals => 0x3
  | .eightByteLiterals => 0x4
  | .literalPointers => 0x5
  | .coalesced => 0xB

/-- `at-mac/src/load_command/segment64.rs:187-189` `from_u32`; `none` is the panic of the `unwrap`. -/
def SectionType.fromU32? (n : UInt32) : Option SectionType :=
  if n == 0x0 then some .regular
  else if n == 0x1 then some .zerofill
  else if n == 0x2 then some .cstringLiterals
  else if n == 0x3 then some .fourByteLiterals
  else if n == 0x4 then some .eightByteLiterals
  else if n == 0x5 then some .literalPointers
  else if n == 0xB then some .coalesced
  else none

/-- `at-mac/src/load_command/segment64.rs:196-222` `enum SectionAttr`. -/
inductive SectionAttr where
  | pureInstructions
  | noToc
  | stripStaticSyms
  | liveSupport
  | debug
  | someInstructions
  | extReloc
  | locReloc
  deriving DecidableEq, Repr

/-- `at-mac/src/load_command/segment64.rs:230-232` `to_u32`. -/
def SectionAttr.toU32 : SectionAttr → UInt32
  | .pureInstructions => 0x80000000
  | .noToc => 0x40000000
  | .stripStaticSyms => 0x20000000
  | .liveSupport => 0x08000000
  | .debug => 0x02000000
  | .someInstructions => 0x00000400
  | .extReloc => 0x00000200
  | .locReloc => 0x00000100

/-- `at-mac/src/load_command/segment64.rs:225-228` `from_u32`; `none` is the panic of the `unwrap`. -/
def SectionAttr.fromU32? (n : UInt32) : Option SectionAttr :=
  if n == 0x80000000 then some .pureInstructions
  else if n == 0x40000000 then some .noToc
  else if n == 0x20000000 then some .stripStaticSyms
  else if n == 0x08000000 then some .liveSupport
  else if n == 0x02000000 then some .debug
  else if n == 0x00000400 then some .someInstructions
  else if n == 0x00000200 then some .extReloc
  else if n == 0x00000100 then some .locReloc
  else none

/-- `segment64.rs:185` -/
def SectionType.BIT_MASK : UInt32 := 0x000000ff

/-- `segment64.rs:235-238` `struct SectionAttrs`. -/
abbrev SectionAttrs := List SectionAttr

/-- `segment64.rs:241` -/
def SectionAttrs.BIT_MASK : UInt32 := 0xffffff00

/-- One iteration of the loop of `SectionAttrs::from_u32` (`segment64.rs:253-258`). -/
def SectionAttrs.fromStep (flags : UInt32) (acc : SectionAttrs) (i : Nat) : Res SectionAttrs :=
  let attrN := flags &&& ((1 : UInt32) <<< UInt32.ofNat i)
  if attrN != 0 then do
    let a ← runwrap (SectionAttr.fromU32? attrN)
    pure (acc ++ [a])
  else pure acc

/-- `segment64.rs:251-260` `SectionAttrs::from_u32`: bits 8 to 31. -/
def SectionAttrs.fromU32 (flags : UInt32) : Res SectionAttrs :=
  (List.range' 8 24).foldlM (SectionAttrs.fromStep flags) []

/-- `segment64.rs:262-268` `SectionAttrs::to_u32`. -/
def SectionAttrs.toU32 (l : SectionAttrs) : UInt32 := l.foldl (fun n a => n ||| a.toU32) 0

/-- `segment64.rs:90-115` `struct Section64`. -/
structure Section64 where
  sectname : Str
  segname : Str
  addr : UInt64
  size : UInt64
  offset : UInt32
  align : UInt32
  reloff : UInt32
  nreloc : UInt32
  attrs : SectionAttrs
  type : SectionType
  reserved1 : UInt32
  reserved2 : UInt32
  reserved3 : UInt32
  deriving DecidableEq, Repr

/-- `segment64.rs:118` -/
def Section64.SIZE : UInt32 := 0x50

/-- `segment64.rs:120-152` `Section64::read_from_in`. -/
def Section64.readFromIn (e : Endian) : Rd Section64 := do
  let sectname ← readFixedStr 16
  let segname ← readFixedStr 16
  let addr ← readU64 e
  let size ← readU64 e
  let offset ← readU32 e
  let align ← readU32 e
  let reloff ← readU32 e
  let nreloc ← readU32 e
  let flagsN ← readU32 e
  let sectType ← Rd.lift (runwrap (SectionType.fromU32? (flagsN &&& SectionType.BIT_MASK)))
  let sectAttrs ← Rd.lift (SectionAttrs.fromU32 (flagsN &&& SectionAttrs.BIT_MASK))
  let reserved1 ← readU32 e
  let reserved2 ← readU32 e
  let reserved3 ← readU32 e
  pure ⟨sectname, segname, addr, size, offset, align, reloff, nreloc, sectAttrs, sectType,
    reserved1, reserved2, reserved3⟩

/-- `segment64.rs:154-170` `Section64::write_into`. -/
def Section64.writeInto (h : Endian) (x : Section64) : Wr Unit := do
  writeFixedStr x.sectname 16
  writeFixedStr x.segname 16
  writeU64 h x.addr
  writeU64 h x.size
  writeU32 h x.offset
  writeU32 h x.align
  writeU32 h x.reloff
  writeU32 h x.nreloc
  writeU32 h (x.attrs.toU32 ||| x.type.toU32)
  writeU32 h x.reserved1
  writeU32 h x.reserved2
  writeU32 h x.reserved3

/-- `segment64.rs:9-33` `struct SegmentCommand64`. -/
structure SegmentCommand64 where
  cmd : UInt32
  cmdsize : UInt32
  segname : Str
  vmaddr : UInt64
  vmsize : UInt64
  fileoff : UInt64
  filesize : UInt64
  maxprot : Int32
  initprot : Int32
  nsects : UInt32
  flags : UInt32
  deriving DecidableEq, Repr

/-- `segment64.rs:36` -/
def SegmentCommand64.TYPE : UInt32 := 0x19
/-- `segment64.rs:41` -/
def SegmentCommand64.SIZE : UInt32 := 0x48

/-- `segment64.rs:43-73` `SegmentCommand64::read_from_in`. -/
def SegmentCommand64.readFromIn (bd : Build) (e : Endian) : Rd SegmentCommand64 := do
  let cmd ← readU32 e
  Rd.lift (rassert (cmd == SegmentCommand64.TYPE))
  let cmdsize ← readU32 e
  let segname ← readFixedStr 16
  let vmaddr ← readU64 e
  let vmsize ← readU64 e
  let fileoff ← readU64 e
  let filesize ← readU64 e
  let maxprot ← readI32 e
  let initprot ← readI32 e
  let nsects ← readU32 e
  let flags ← readU32 e
  let sectsSize ← Rd.lift (mulU32 bd nsects Section64.SIZE)
  let expected ← Rd.lift (addU32 bd SegmentCommand64.SIZE sectsSize)
  Rd.lift (rassert (cmdsize == expected))
  pure ⟨cmd, cmdsize, segname, vmaddr, vmsize, fileoff, filesize, maxprot, initprot, nsects, flags⟩

/-- `segment64.rs:75-87` `SegmentCommand64::write_into`. -/
def SegmentCommand64.writeInto (h : Endian) (x : SegmentCommand64) : Wr Unit := do
  writeU32 h x.cmd
  writeU32 h x.cmdsize
  writeFixedStr x.segname 16
  writeU64 h x.vmaddr
  writeU64 h x.vmsize
  writeU64 h x.fileoff
  writeU64 h x.filesize
  writeI32 h x.maxprot
  writeI32 h x.initprot
  writeU32 h x.nsects
  writeU32 h x.flags

end AT.Mac
