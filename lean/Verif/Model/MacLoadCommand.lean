import Verif.Model.MacSegment
/-!
# at-mac: the other load commands and the dispatcher
(`/repo/at-mac/src/load_command/{symtab,dysymtab,build_version,mod}.rs`)
-/

namespace AT.Mac

/-- `load_command/symtab.rs:4-17` `struct SymtabCommand`. -/
structure SymtabCommand where
  cmd : UInt32
  cmdsize : UInt32
  symoff : UInt32
  nsyms : UInt32
  stroff : UInt32
  strsize : UInt32
  deriving DecidableEq, Repr

/-- `load_command/symtab.rs:20` -/
def SymtabCommand.TYPE : UInt32 := 0x2
/-- `load_command/symtab.rs:22` -/
def SymtabCommand.SIZE : UInt32 := 0x18

/-- `load_command/symtab.rs:24-44` `read_from_in`. -/
def SymtabCommand.readFromIn (e : Endian) : Rd SymtabCommand := do
  let cmd ← readU32 e
  Rd.lift (rassert (cmd == SymtabCommand.TYPE))
  let cmdsize ← readU32 e
  Rd.lift (rassert (cmdsize == SymtabCommand.SIZE))
  let symoff ← readU32 e
  let nsyms ← readU32 e
  let stroff ← readU32 e
  let strsize ← readU32 e
  pure ⟨cmd, cmdsize, symoff, nsyms, stroff, strsize⟩

/-- `load_command/symtab.rs:46-53` `write_into`. -/
def SymtabCommand.writeInto (h : Endian) (x : SymtabCommand) : Wr Unit := do
  writeU32 h x.cmd
  writeU32 h x.cmdsize
  writeU32 h x.symoff
  writeU32 h x.nsyms
  writeU32 h x.stroff
  writeU32 h x.strsize

/-- `load_command/dysymtab.rs:42-82` `struct DysymtabCommand`. -/
structure DysymtabCommand where
  cmd : UInt32
  cmdsize : UInt32
  ilocalsym : UInt32
  nlocalsym : UInt32
  iextdefsym : UInt32
  nextdefsym : UInt32
  iundefsym : UInt32
  nundefsym : UInt32
  tocoff : UInt32
  ntoc : UInt32
  modtaboff : UInt32
  nmodtab : UInt32
  extrefsymoff : UInt32
  nextrefsyms : UInt32
  indirectsymoff : UInt32
  nindirectsyms : UInt32
  extreloff : UInt32
  nextrel : UInt32
  locreloff : UInt32
  nlocrel : UInt32
  deriving DecidableEq, Repr

/-- `load_command/dysymtab.rs:85` -/
def DysymtabCommand.TYPE : UInt32 := 0xB
/-- `load_command/dysymtab.rs:87` -/
def DysymtabCommand.SIZE : UInt32 := 0x50

/-- `load_command/dysymtab.rs:89-137` `read_from_in`. -/
def DysymtabCommand.readFromIn (e : Endian) : Rd DysymtabCommand := do
  let cmd ← readU32 e
  Rd.lift (rassert (cmd == DysymtabCommand.TYPE))
  let cmdsize ← readU32 e
  Rd.lift (rassert (cmdsize == DysymtabCommand.SIZE))
  let ilocalsym ← readU32 e
  let nlocalsym ← readU32 e
  let iextdefsym ← readU32 e
  let nextdefsym ← readU32 e
  let iundefsym ← readU32 e
  let nundefsym ← readU32 e
  let tocoff ← readU32 e
  let ntoc ← readU32 e
  let modtaboff ← readU32 e
  let nmodtab ← readU32 e
  let extrefsymoff ← readU32 e
  let nextrefsyms ← readU32 e
  let indirectsymoff ← readU32 e
  let nindirectsyms ← readU32 e
  let extreloff ← readU32 e
  let nextrel ← readU32 e
  let locreloff ← readU32 e
  let nlocrel ← readU32 e
  pure ⟨cmd, cmdsize, ilocalsym, nlocalsym, iextdefsym, nextdefsym, iundefsym, nundefsym, tocoff, ntoc,
    modtaboff, nmodtab, extrefsymoff, nextrefsyms, indirectsymoff, nindirectsyms,
    extreloff, nextrel, locreloff, nlocrel⟩

/-- `load_command/dysymtab.rs:139-160` `write_into`. -/
def DysymtabCommand.writeInto (h : Endian) (x : DysymtabCommand) : Wr Unit := do
  writeU32 h x.cmd
  writeU32 h x.cmdsize
  writeU32 h x.ilocalsym
  writeU32 h x.nlocalsym
  writeU32 h x.iextdefsym
  writeU32 h x.nextdefsym
  writeU32 h x.iundefsym
  writeU32 h x.nundefsym
  writeU32 h x.tocoff
  writeU32 h x.ntoc
  writeU32 h x.modtaboff
  writeU32 h x.nmodtab
  writeU32 h x.extrefsymoff
  writeU32 h x.nextrefsyms
  writeU32 h x.indirectsymoff
  writeU32 h x.nindirectsyms
  writeU32 h x.extreloff
  writeU32 h x.nextrel
  writeU32 h x.locreloff
  writeU32 h x.nlocrel

/-- `at-mac/src/load_command/build_version.rs:66-78` `enum Platform`. -/
inductive Platform where
  | macOS
  | iOS
  | tvOS
  | watchOS
  | bridgeOS
  | macCatalyst
  | iOSSimulator
  | tvOSSimulator
  | watchOSSimulator
  | driverkit
  deriving DecidableEq, Repr

/-- `at-mac/src/load_command/build_version.rs:85-87` `to_u32`. -/
def Platform.toU32 : Platform → UInt32
  | .macOS => 1
  | .iOS => 2
  | .tvOS => 3
  | .watchOS => 4
  | .bridgeOS => 5
  | .macCatalyst => 6
  | .iOSSimulator => 7
  | .tvOSSimulator => 8
  | .watchOSSimulator => 9
  | .driverkit => 10

/-- `at-mac/src/load_command/build_version.rs:81-83` `from_u32`; `none` is the panic of the `unwrap`. -/
def Platform.fromU32? (n : UInt32) : Option Platform :=
  if n == 1 then some .macOS
  else if n == 2 then some .iOS
  else if n == 3 then some .tvOS
  else if n == 4 then some .watchOS
  else if n == 5 then some .bridgeOS
  else if n == 6 then some .macCatalyst
  else if n == 7 then some .iOSSimulator
  else if n == 8 then some .tvOSSimulator
  else if n == 9 then some .watchOSSimulator
  else if n == 10 then some .driverkit
  else none

/-- `load_command/build_version.rs:90-95` `struct Version`. -/
structure Version where
  major : UInt16
  minor : UInt8
  release : UInt8
  deriving DecidableEq, Repr

/-- `build_version.rs:99-108` `Version::from_u32`. -/
def Version.fromU32 (n : UInt32) : Version :=
  ⟨((n &&& 0xFFFF0000) >>> 16).toUInt16, ((n &&& 0x0000FF00) >>> 8).toUInt8,
    (n &&& 0x000000FF).toUInt8⟩

/-- `build_version.rs:110-116` `Version::to_u32`. -/
def Version.toU32 (v : Version) : UInt32 :=
  (v.major.toUInt32 <<< 16) ||| (v.minor.toUInt32 <<< 8) ||| v.release.toUInt32

/-- `at-mac/src/load_command/build_version.rs:142-147` `enum Tool`. -/
inductive Tool where
  | clang
  | swift
  | ld
  deriving DecidableEq, Repr

/-- `at-mac/src/load_command/build_version.rs:154-156` `to_u32`. -/
def Tool.toU32 : Tool → UInt32
  | .clang => 1
  | .swift => 2
  | .ld => 3

/-- `at-mac/src/load_command/build_version.rs:150-152` `from_u32`; `none` is the panic of the `unwrap`. -/
def Tool.fromU32? (n : UInt32) : Option Tool :=
  if n == 1 then some .clang
  else if n == 2 then some .swift
  else if n == 3 then some .ld
  else none

/-- `build_version.rs:119-123` `struct BuildToolVersion`. -/
structure BuildToolVersion where
  tool : Tool
  version : UInt32
  deriving DecidableEq, Repr

/-- `build_version.rs:126` -/
def BuildToolVersion.SIZE : UInt32 := 0x8

/-- `build_version.rs:128-134` `read_from_in`. -/
def BuildToolVersion.readFromIn (e : Endian) : Rd BuildToolVersion := do
  let toolN ← readU32 e
  let tool ← Rd.lift (runwrap (Tool.fromU32? toolN))
  let version ← readU32 e
  pure ⟨tool, version⟩

/-- `build_version.rs:136-139` `write_into`. -/
def BuildToolVersion.writeInto (h : Endian) (x : BuildToolVersion) : Wr Unit := do
  writeU32 h x.tool.toU32
  writeU32 h x.version

/-- `build_version.rs:9-20` `struct BuildVersionCommand`. -/
structure BuildVersionCommand where
  cmd : UInt32
  cmdsize : UInt32
  platform : Platform
  minos : Version
  sdk : Version
  ntools : UInt32
  deriving DecidableEq, Repr

/-- `build_version.rs:23` -/
def BuildVersionCommand.TYPE : UInt32 := 0x32
/-- `build_version.rs:25` -/
def BuildVersionCommand.SIZE : UInt32 := 0x18

/-- `build_version.rs:27-54` `read_from_in`. -/
def BuildVersionCommand.readFromIn (bd : Build) (e : Endian) : Rd BuildVersionCommand := do
  let cmd ← readU32 e
  Rd.lift (rassert (cmd == BuildVersionCommand.TYPE))
  let cmdsize ← readU32 e
  let platformN ← readU32 e
  let platform ← Rd.lift (runwrap (Platform.fromU32? platformN))
  let minosN ← readU32 e
  let sdkN ← readU32 e
  let ntools ← readU32 e
  let toolsSize ← Rd.lift (mulU32 bd BuildToolVersion.SIZE ntools)
  let expected ← Rd.lift (addU32 bd BuildVersionCommand.SIZE toolsSize)
  Rd.lift (rassert (cmdsize == expected))
  pure ⟨cmd, cmdsize, platform, Version.fromU32 minosN, Version.fromU32 sdkN, ntools⟩

/-- `build_version.rs:56-63` `write_into`. -/
def BuildVersionCommand.writeInto (h : Endian) (x : BuildVersionCommand) : Wr Unit := do
  writeU32 h x.cmd
  writeU32 h x.cmdsize
  writeU32 h x.platform.toU32
  writeU32 h x.minos.toU32
  writeU32 h x.sdk.toU32
  writeU32 h x.ntools

/-! ## `load_command/mod.rs` -/

/-- `load_command/mod.rs:17-23` `enum LoadCommand`. -/
inductive LoadCommand where
  | segment64 (cmd : SegmentCommand64) (sections : List Section64)
  | symtab (cmd : SymtabCommand)
  | dysymtab (cmd : DysymtabCommand)
  | buildVersion (cmd : BuildVersionCommand) (tools : List BuildToolVersion)
  deriving DecidableEq, Repr

/-- `load_command/mod.rs:26-35` `cmd`. -/
def LoadCommand.cmd : LoadCommand → UInt32
  | .segment64 c _ => c.cmd
  | .symtab c => c.cmd
  | .dysymtab c => c.cmd
  | .buildVersion c _ => c.cmd

/-- `load_command/mod.rs:37-46` `cmd_size`. -/
def LoadCommand.cmdSize : LoadCommand → UInt32
  | .segment64 c _ => c.cmdsize
  | .symtab c => c.cmdsize
  | .dysymtab c => c.cmdsize
  | .buildVersion c _ => c.cmdsize

/-- `for _ in 0..n { v.push(r) }` (`load_command/mod.rs:65-68`, `83-86`; `Vec::with_capacity`
only reserves memory and is not modelled). -/
def readN {α : Type} (r : Rd α) : Nat → Rd (List α)
  | 0 => pure []
  | n + 1 => do
    let x ← r
    let xs ← readN r n
    pure (x :: xs)

/-- Put bytes back in front of the input: `cmd_bytes.chain(read)` (`load_command/mod.rs:59`). -/
def unread (b : Bytes) : Rd Unit := fun s => .ok ((), b ++ s)

/-- `load_command/mod.rs:48-91` `read_from_in`. -/
def LoadCommand.readFromIn (bd : Build) (e : Endian) : Rd LoadCommand := do
  let cmd ← readU32 e
  unread (intBytes e 4 cmd.toNat)
  if cmd == SegmentCommand64.TYPE then do
    let c ← SegmentCommand64.readFromIn bd e
    let sections ← readN (Section64.readFromIn e) c.nsects.toNat
    pure (.segment64 c sections)
  else if cmd == SymtabCommand.TYPE then do
    let c ← SymtabCommand.readFromIn e
    pure (.symtab c)
  else if cmd == DysymtabCommand.TYPE then do
    let c ← DysymtabCommand.readFromIn e
    pure (.dysymtab c)
  else if cmd == BuildVersionCommand.TYPE then do
    let c ← BuildVersionCommand.readFromIn bd e
    let tools ← readN (BuildToolVersion.readFromIn e) c.ntools.toNat
    pure (.buildVersion c tools)
  else Rd.lift (.error .panic)

/-- `load_command/mod.rs:93-116` `write_into`. -/
def LoadCommand.writeInto (h : Endian) : LoadCommand → Wr Unit
  | .segment64 c sections => do
    c.writeInto h
    forWr (Section64.writeInto h) sections
  | .symtab c => c.writeInto h
  | .dysymtab c => c.writeInto h
  | .buildVersion c tools => do
    c.writeInto h
    forWr (BuildToolVersion.writeInto h) tools

end AT.Mac
