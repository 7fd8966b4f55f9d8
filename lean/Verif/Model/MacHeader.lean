import Verif.Model.MacIo
/-!
# at-mac: Mach-O header (`/repo/at-mac/src/header.rs`)
-/

namespace AT.Mac

/-- `at-mac/src/header.rs:76-96` `enum Magic`. -/
inductive Magic where
  | magic64
  | cigam64
  | magic
  | cigam
  | fatMagic
  | fatCigam
  deriving DecidableEq, Repr

/-- `at-mac/src/header.rs:107-109` `to_u32`. -/
def Magic.toU32 : Magic → UInt32
  | .magic64 => 0xfeedfacf
  | .cigam64 => 0xcffaedfe
  | .magic => 0xfeedface
  | .cigam => 0xcefaedfe
  | .fatMagic => 0xcafebabe
  | .fatCigam => 0xbebafeca

/-- `at-mac/src/header.rs:99-105` `from_u32_checked` / `from_u32` (num-derive); `none` is the panic of the `unwrap`. -/
def Magic.fromU32? (n : UInt32) : Option Magic :=
  if n == 0xfeedfacf then some .magic64
  else if n == 0xcffaedfe then some .cigam64
  else if n == 0xfeedface then some .magic
  else if n == 0xcefaedfe then some .cigam
  else if n == 0xcafebabe then some .fatMagic
  else if n == 0xbebafeca then some .fatCigam
  else none

/-- `at-mac/src/header.rs:118-126` `CpuSubTypeX86` / `CpuSubTypeX86_64` (only `All = 3`). -/
inductive CpuSubType where
  | all
  deriving DecidableEq, Repr

/-- `as i32` on the subtype. -/
def CpuSubType.toI32 : CpuSubType → Int32
  | .all => 3

/-- num-derive `from_i32` on the subtype. -/
def CpuSubType.fromI32? (n : Int32) : Option CpuSubType := if n == 3 then some .all else none

/-- `at-mac/src/header.rs:112-116` `enum CpuType`. -/
inductive CpuType where
  | x86 (sub : CpuSubType)
  | x86_64 (sub : CpuSubType)
  deriving DecidableEq, Repr

/-- `at-mac/src/header.rs:130` -/
def cpuTypeX86 : Int32 := 0x7
/-- `at-mac/src/header.rs:129-131`: `CPU_TYPE_X86 | CPU_ARCH_ABI64`. -/
def cpuTypeX86_64 : Int32 := 0x7 ||| 0x01000000

/-- `at-mac/src/header.rs:133-145` `from_i32_i32`. -/
def CpuType.fromI32I32 (t sub : Int32) : Res CpuType :=
  if t == cpuTypeX86 then .x86 <$> runwrap (CpuSubType.fromI32? sub)
  else if t == cpuTypeX86_64 then .x86_64 <$> runwrap (CpuSubType.fromI32? sub)
  else .error .panic

/-- `at-mac/src/header.rs:147-152` `to_i32_i32`. -/
def CpuType.toI32I32 : CpuType → Int32 × Int32
  | .x86 sub => (cpuTypeX86, sub.toI32)
  | .x86_64 sub => (cpuTypeX86_64, sub.toI32)

/-- `at-mac/src/header.rs:155-167` `enum FileType`. -/
inductive FileType where
  | object
  | execute
  | fvmLib
  | core
  | preload
  | dylib
  | dylinker
  | bundle
  | dsym
  deriving DecidableEq, Repr

/-- `at-mac/src/header.rs:174-176` `to_u32`. -/
def FileType.toU32 : FileType → UInt32
  | .object => 0x1
  | .execute => 0x2
  | .fvmLib => 0x3
  | .core => 0x4
  | .preload => 0x5
  | .dylib => 0x6
  | .dylinker => 0x7
  | .bundle => 0x8
  | .dsym => 0xA

/-- `at-mac/src/header.rs:170-172` `from_u32`; `none` is the panic of the `unwrap`. -/
def FileType.fromU32? (n : UInt32) : Option FileType :=
  if n == 0x1 then some .object
  else if n == 0x2 then some .execute
  else if n == 0x3 then some .fvmLib
  else if n == 0x4 then some .core
  else if n == 0x5 then some .preload
  else if n == 0x6 then some .dylib
  else if n == 0x7 then some .dylinker
  else if n == 0x8 then some .bundle
  else if n == 0xA then some .dsym
  else none

/-- `at-mac/src/header.rs:179-198` `enum Flag`. -/
inductive Flag where
  | noUndefs
  | incrLink
  | dyldLink
  | bindAtLoad
  | preBound
  | splitSegs
  | twoLevel
  | forceFlat
  | noMultiDefs
  | noFixPreBinding
  | preBindable
  | allModsBound
  | subsectionsViaSymbols
  | canonical
  | pie
  | hasTlvDescriptors
  deriving DecidableEq, Repr

/-- `at-mac/src/header.rs:205-207` `to_u32`. -/
def Flag.toU32 : Flag → UInt32
  | .noUndefs => 0x000001
  | .incrLink => 0x000002
  | .dyldLink => 0x000004
  | .bindAtLoad => 0x000008
  | .preBound => 0x000010
  | .splitSegs => 0x000020
  | .twoLevel => 0x000080
  | .forceFlat => 0x000100
  | .noMultiDefs => 0x000200
  | .noFixPreBinding => 0x000400
  | .preBindable => 0x000800
  | .allModsBound => 0x001000
  | .subsectionsViaSymbols => 0x002000
  | .canonical => 0x004000
  | .pie => 0x200000
  | .hasTlvDescriptors => 0x800000

/-- `at-mac/src/header.rs:201-203` `from_u32`; `none` is the panic of the `unwrap`. -/
def Flag.fromU32? (n : UInt32) : Option Flag :=
  if n == 0x000001 then some .noUndefs
  else if n == 0x000002 then some .incrLink
  else if n == 0x000004 then some .dyldLink
  else if n == 0x000008 then some .bindAtLoad
  else if n == 0x000010 then some .preBound
  else if n == 0x000020 then some .splitSegs
  else if n == 0x000080 then some .twoLevel
  else if n == 0x000100 then some .forceFlat
  else if n == 0x000200 then some .noMultiDefs
  else if n == 0x000400 then some .noFixPreBinding
  else if n == 0x000800 then some .preBindable
  else if n == 0x001000 then some .allModsBound
  else if n == 0x002000 then some .subsectionsViaSymbols
  else if n == 0x004000 then some .canonical
  else if n == 0x200000 then some .pie
  else if n == 0x800000 then some .hasTlvDescriptors
  else none

/-- `at-mac/src/header.rs:210-213` `struct Flags`. -/
abbrev Flags := List Flag

/-- One iteration of the loop of `Flags::from_u32` (`header.rs:226-232`). -/
def Flags.fromStep (n : UInt32) (acc : Flags) (i : Nat) : Res Flags :=
  let flagN := n &&& ((1 : UInt32) <<< UInt32.ofNat i)
  if flagN != 0 then do
    let f ← runwrap (Flag.fromU32? flagN)
    pure (acc ++ [f])
  else pure acc

/-- `at-mac/src/header.rs:224-235` `Flags::from_u32`. -/
def Flags.fromU32 (n : UInt32) : Res Flags := (List.range 32).foldlM (Flags.fromStep n) []

/-- `at-mac/src/header.rs:237-245` `Flags::to_u32`. -/
def Flags.toU32 (fs : Flags) : UInt32 := fs.foldl (fun n f => n ||| f.toU32) 0

/-- `at-mac/src/header.rs:10-19` `struct Header64`. -/
structure Header64 where
  magic : Magic
  cpuType : CpuType
  fileType : FileType
  nCmds : UInt32
  sizeOfCmds : UInt32
  flags : Flags
  reserved : UInt32
  deriving DecidableEq, Repr

/-- `at-mac/src/header.rs:22` -/
def Header64.SIZE : UInt32 := 0x20

/-- `at-mac/src/header.rs:27-31`: byte order announced by the magic number, seen on host `h`. -/
def Magic.endian (h : Endian) : Magic → Res Endian
  | .magic64 | .magic => .ok h
  | .cigam64 | .cigam => .ok h.reverse
  | _ => .error .panic

/-- `at-mac/src/header.rs:24-60` `Header64::read_from`. -/
def Header64.readFrom (h : Endian) : Rd (Header64 × Endian) := do
  let magicN ← readU32 h
  let mag ← Rd.lift (runwrap (Magic.fromU32? magicN))
  let endian ← Rd.lift (mag.endian h)
  let cpuTypeN ← readI32 endian
  let cpuSubN ← readI32 endian
  let cpuType ← Rd.lift (CpuType.fromI32I32 cpuTypeN cpuSubN)
  let fileTypeN ← readU32 endian
  let fileType ← Rd.lift (runwrap (FileType.fromU32? fileTypeN))
  let nCmds ← readU32 endian
  let sizeOfCmds ← readU32 endian
  let flagsN ← readU32 endian
  let flags ← Rd.lift (Flags.fromU32 flagsN)
  let reserved ← readU32 endian
  pure (⟨mag, cpuType, fileType, nCmds, sizeOfCmds, flags, reserved⟩, endian)

/-- `at-mac/src/header.rs:62-72` `Header64::write_into`. -/
def Header64.writeInto (h : Endian) (x : Header64) : Wr Unit := do
  writeU32 h x.magic.toU32
  writeI32 h x.cpuType.toI32I32.1
  writeI32 h x.cpuType.toI32I32.2
  writeU32 h x.fileType.toU32
  writeU32 h x.nCmds
  writeU32 h x.sizeOfCmds
  writeU32 h x.flags.toU32
  writeU32 h x.reserved

end AT.Mac
