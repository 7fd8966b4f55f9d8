import Verif.Model.AsmIo
import Verif.Model.MacHeader
import Verif.Model.MacLoadCommand
import Verif.Model.MacSymbols
/-!
# at-mac: the readers over any `Read`

`MacIo.lean` and the files after it model the readers over the bytes still to come.  Here the same readers
run over a `Read` whose every call may deliver less than asked, be interrupted, or fail.
-/

namespace AT.Mac
open AT.Asm (Got)

/-! ## `Read` -/

/-- A reader: `Read::chain` of the bytes `pre` (empty for a reader that is not chained) and a reader
whose next calls of `read` return `gs` (the end of the list is the end of the file). -/
structure Src where
  pre : Bytes
  gs : List Got
  deriving DecidableEq, Repr

/-- `Read::read` with a buffer of `k > 0` bytes.  A chained reader is asked only when `pre` is used up
(std `io::Chain::read`); it delivers at most `k` bytes and keeps the others for the next call. -/
def Src.read (k : Nat) (s : Src) : Got × Src :=
  match s.pre with
  | b :: bs => (.bytes ((b :: bs).take k), ⟨(b :: bs).drop k, s.gs⟩)
  | [] =>
    match s.gs with
    | [] => (.bytes [], s)
    | .bytes c :: gs =>
      if c.length ≤ k then (.bytes c, ⟨[], gs⟩) else (.bytes (c.take k), ⟨[], .bytes (c.drop k) :: gs⟩)
    | g :: gs => (g, ⟨[], gs⟩)

theorem Src.read_interrupted {k : Nat} {s s' : Src} (h : s.read k = (.interrupted, s')) :
    s'.gs.length < s.gs.length := by
  obtain ⟨pre, gs⟩ := s
  cases pre with
  | cons b bs => simp [Src.read] at h
  | nil =>
    cases gs with
    | nil => simp [Src.read] at h
    | cons g gs =>
      cases g with
      | bytes c => simp only [Src.read] at h; split at h <;> simp at h
      | interrupted => simp only [Src.read, Prod.mk.injEq, true_and] at h; subst h; simp
      | failed => simp [Src.read] at h

/-- std `io::default_read_exact` into a `k`-byte buffer, `unwrap`ped: an interrupted `read` is repeated;
the end of the file and any other error is a panic. -/
def readExactIo (k : Nat) (s : Src) : Res (Bytes × Src) :=
  if k = 0 then .ok ([], s)
  else
    match _h : s.read k with
    | (.bytes [], _) => .error .panic
    | (.bytes (c :: cs), s') => do
      let r ← readExactIo (k - (cs.length + 1)) s'
      pure (c :: cs ++ r.1, r.2)
    | (.interrupted, s') => readExactIo k s'
    | (.failed, _) => .error .panic
termination_by (k, s.gs.length)
decreasing_by
  · exact Prod.Lex.left _ _ (by omega)
  · exact Prod.Lex.right _ (Src.read_interrupted _h)

/-- A reading computation over a `Read`. -/
abbrev RdIo (α : Type) := StateT Src Res α

/-- A computation that may stop, inside a reader. -/
def RdIo.lift {α : Type} (r : Res α) : RdIo α := fun s => r.map (fun a => (a, s))

/-! ## `io.rs` -/

/-- `at-mac/src/io.rs:32-34` `read_u8`. -/
def readU8Io : RdIo UInt8 := do
  let b ← readExactIo 1
  pure (UInt8.ofNat (leVal b))

/-- `at-mac/src/io.rs:36-38` `read_u16_in`. -/
def readU16Io (e : Endian) : RdIo UInt16 := do
  let b ← readExactIo 2
  pure (UInt16.ofNat (intVal e b))

/-- `at-mac/src/io.rs:40-42` `read_i32_in`. -/
def readI32Io (e : Endian) : RdIo Int32 := do
  let b ← readExactIo 4
  pure (UInt32.ofNat (intVal e b)).toInt32

/-- `at-mac/src/io.rs:44-46` `read_u32_in`. -/
def readU32Io (e : Endian) : RdIo UInt32 := do
  let b ← readExactIo 4
  pure (UInt32.ofNat (intVal e b))

/-- `at-mac/src/io.rs:48-50` `read_u64_in`. -/
def readU64Io (e : Endian) : RdIo UInt64 := do
  let b ← readExactIo 8
  pure (UInt64.ofNat (intVal e b))

/-- `at-mac/src/io.rs:52-59` `read_fixed_size_string`. -/
def readFixedStrIo (size : Nat) : RdIo Str := do
  let buf ← readExactIo size
  RdIo.lift (runwrap (fromUtf8 (buf.takeWhile (· != 0))))

/-! ## `header.rs` -/

/-- `at-mac/src/header.rs:24-60` `Header64::read_from`. -/
def Header64.readFromIo (h : Endian) : RdIo (Header64 × Endian) := do
  let magicN ← readU32Io h
  let mag ← RdIo.lift (runwrap (Magic.fromU32? magicN))
  let endian ← RdIo.lift (mag.endian h)
  let cpuTypeN ← readI32Io endian
  let cpuSubN ← readI32Io endian
  let cpuType ← RdIo.lift (CpuType.fromI32I32 cpuTypeN cpuSubN)
  let fileTypeN ← readU32Io endian
  let fileType ← RdIo.lift (runwrap (FileType.fromU32? fileTypeN))
  let nCmds ← readU32Io endian
  let sizeOfCmds ← readU32Io endian
  let flagsN ← readU32Io endian
  let flags ← RdIo.lift (Flags.fromU32 flagsN)
  let reserved ← readU32Io endian
  pure (⟨mag, cpuType, fileType, nCmds, sizeOfCmds, flags, reserved⟩, endian)

/-! ## `load_command/*.rs` -/

/-- `at-mac/src/load_command/segment64.rs:120-152` `Section64::read_from_in`. -/
def Section64.readFromInIo (e : Endian) : RdIo Section64 := do
  let sectname ← readFixedStrIo 16
  let segname ← readFixedStrIo 16
  let addr ← readU64Io e
  let size ← readU64Io e
  let offset ← readU32Io e
  let align ← readU32Io e
  let reloff ← readU32Io e
  let nreloc ← readU32Io e
  let flagsN ← readU32Io e
  let sectType ← RdIo.lift (runwrap (SectionType.fromU32? (flagsN &&& SectionType.BIT_MASK)))
  let sectAttrs ← RdIo.lift (SectionAttrs.fromU32 (flagsN &&& SectionAttrs.BIT_MASK))
  let reserved1 ← readU32Io e
  let reserved2 ← readU32Io e
  let reserved3 ← readU32Io e
  pure ⟨sectname, segname, addr, size, offset, align, reloff, nreloc, sectAttrs, sectType,
    reserved1, reserved2, reserved3⟩

/-- `at-mac/src/load_command/segment64.rs:43-73` `SegmentCommand64::read_from_in`. -/
def SegmentCommand64.readFromInIo (bd : Build) (e : Endian) : RdIo SegmentCommand64 := do
  let cmd ← readU32Io e
  RdIo.lift (rassert (cmd == SegmentCommand64.TYPE))
  let cmdsize ← readU32Io e
  let segname ← readFixedStrIo 16
  let vmaddr ← readU64Io e
  let vmsize ← readU64Io e
  let fileoff ← readU64Io e
  let filesize ← readU64Io e
  let maxprot ← readI32Io e
  let initprot ← readI32Io e
  let nsects ← readU32Io e
  let flags ← readU32Io e
  let sectsSize ← RdIo.lift (mulU32 bd nsects Section64.SIZE)
  let expected ← RdIo.lift (addU32 bd SegmentCommand64.SIZE sectsSize)
  RdIo.lift (rassert (cmdsize == expected))
  pure ⟨cmd, cmdsize, segname, vmaddr, vmsize, fileoff, filesize, maxprot, initprot, nsects, flags⟩

/-- `at-mac/src/load_command/symtab.rs:24-44` `read_from_in`. -/
def SymtabCommand.readFromInIo (e : Endian) : RdIo SymtabCommand := do
  let cmd ← readU32Io e
  RdIo.lift (rassert (cmd == SymtabCommand.TYPE))
  let cmdsize ← readU32Io e
  RdIo.lift (rassert (cmdsize == SymtabCommand.SIZE))
  let symoff ← readU32Io e
  let nsyms ← readU32Io e
  let stroff ← readU32Io e
  let strsize ← readU32Io e
  pure ⟨cmd, cmdsize, symoff, nsyms, stroff, strsize⟩

/-- `at-mac/src/load_command/dysymtab.rs:89-137` `read_from_in`. -/
def DysymtabCommand.readFromInIo (e : Endian) : RdIo DysymtabCommand := do
  let cmd ← readU32Io e
  RdIo.lift (rassert (cmd == DysymtabCommand.TYPE))
  let cmdsize ← readU32Io e
  RdIo.lift (rassert (cmdsize == DysymtabCommand.SIZE))
  let ilocalsym ← readU32Io e
  let nlocalsym ← readU32Io e
  let iextdefsym ← readU32Io e
  let nextdefsym ← readU32Io e
  let iundefsym ← readU32Io e
  let nundefsym ← readU32Io e
  let tocoff ← readU32Io e
  let ntoc ← readU32Io e
  let modtaboff ← readU32Io e
  let nmodtab ← readU32Io e
  let extrefsymoff ← readU32Io e
  let nextrefsyms ← readU32Io e
  let indirectsymoff ← readU32Io e
  let nindirectsyms ← readU32Io e
  let extreloff ← readU32Io e
  let nextrel ← readU32Io e
  let locreloff ← readU32Io e
  let nlocrel ← readU32Io e
  pure ⟨cmd, cmdsize, ilocalsym, nlocalsym, iextdefsym, nextdefsym, iundefsym, nundefsym, tocoff, ntoc,
    modtaboff, nmodtab, extrefsymoff, nextrefsyms, indirectsymoff, nindirectsyms,
    extreloff, nextrel, locreloff, nlocrel⟩

/-- `at-mac/src/load_command/build_version.rs:128-134` `read_from_in`. -/
def BuildToolVersion.readFromInIo (e : Endian) : RdIo BuildToolVersion := do
  let toolN ← readU32Io e
  let tool ← RdIo.lift (runwrap (Tool.fromU32? toolN))
  let version ← readU32Io e
  pure ⟨tool, version⟩

/-- `at-mac/src/load_command/build_version.rs:27-54` `read_from_in`. -/
def BuildVersionCommand.readFromInIo (bd : Build) (e : Endian) : RdIo BuildVersionCommand := do
  let cmd ← readU32Io e
  RdIo.lift (rassert (cmd == BuildVersionCommand.TYPE))
  let cmdsize ← readU32Io e
  let platformN ← readU32Io e
  let platform ← RdIo.lift (runwrap (Platform.fromU32? platformN))
  let minosN ← readU32Io e
  let sdkN ← readU32Io e
  let ntools ← readU32Io e
  let toolsSize ← RdIo.lift (mulU32 bd BuildToolVersion.SIZE ntools)
  let expected ← RdIo.lift (addU32 bd BuildVersionCommand.SIZE toolsSize)
  RdIo.lift (rassert (cmdsize == expected))
  pure ⟨cmd, cmdsize, platform, Version.fromU32 minosN, Version.fromU32 sdkN, ntools⟩

/-! ## `nlist.rs` and `reloc.rs` -/

/-- `at-mac/src/nlist.rs:37-52` `NList64::read_from_in`. -/
def NList64.readFromInIo (e : Endian) : RdIo NList64 := do
  let nStrx ← readU32Io e
  let nTypeN ← readU8Io
  let nType ← RdIo.lift (NTypeField.fromU8 nTypeN)
  let nSect ← readU8Io
  let nDesc ← readU16Io e
  let nValue ← readU64Io e
  pure ⟨nStrx, nType, nSect, nDesc, nValue⟩

/-- `at-mac/src/reloc.rs:34-79` `RelocationInfo::read_from_in`. -/
def RelocationInfo.readFromInIo (e : Endian) : RdIo RelocationInfo := do
  let rAddress ← readI32Io e
  let infos ← readU32Io e
  RdIo.lift (RelocationInfo.unpack e rAddress infos)

/-! ## `load_command/mod.rs` -/

/-- `for _ in 0..n { v.push(r) }` (`at-mac/src/load_command/mod.rs:65-68`, `83-86`). -/
def readNIo {α : Type} (r : RdIo α) : Nat → RdIo (List α)
  | 0 => pure []
  | n + 1 => do
    let x ← r
    let xs ← readNIo r n
    pure (x :: xs)

/-- `at-mac/src/load_command/mod.rs:61-90`: the `match cmd` of `read_from_in`, reading from the chain. -/
def LoadCommand.dispatchIo (bd : Build) (e : Endian) (cmd : UInt32) : RdIo LoadCommand :=
  if cmd == SegmentCommand64.TYPE then do
    let c ← SegmentCommand64.readFromInIo bd e
    let sections ← readNIo (Section64.readFromInIo e) c.nsects.toNat
    pure (.segment64 c sections)
  else if cmd == SymtabCommand.TYPE then do
    let c ← SymtabCommand.readFromInIo e
    pure (.symtab c)
  else if cmd == DysymtabCommand.TYPE then do
    let c ← DysymtabCommand.readFromInIo e
    pure (.dysymtab c)
  else if cmd == BuildVersionCommand.TYPE then do
    let c ← BuildVersionCommand.readFromInIo bd e
    let tools ← readNIo (BuildToolVersion.readFromInIo e) c.ntools.toNat
    pure (.buildVersion c tools)
  else RdIo.lift (.error .panic)

/-- `at-mac/src/load_command/mod.rs:48-91` `LoadCommand::read_from_in`: the command word is read, put in
front of the reader with `chain`, and read again.  What is left in the chain when the function returns is
dropped. -/
def LoadCommand.readFromInIo (bd : Build) (e : Endian) (gs : List Got) :
    Res (LoadCommand × List Got) := do
  let r ← readU32Io e ⟨[], gs⟩
  let c ← LoadCommand.dispatchIo bd e r.1 ⟨intBytes e 4 r.1.toNat, r.2.gs⟩
  pure (c.1, c.2.gs)

end AT.Mac
