import Verif.Spec.MachO
/-!
# Specification: what a Mach-O reader must return for arbitrary bytes

For each structure, a relation between the bytes of a file and the value they stand for, by field
offsets.  A reader may accept more than a writer produces: what follows the NUL of a name does not
matter, a name need not be ASCII, the low bits of a debugging symbol's type byte are not looked at.
-/

namespace AT.MachO
open AT.Mac

/-- What a field of a structure placed at `base` says to a reader.  A name is the text, in UTF-8, of
the bytes before the first NUL (all bytes if there is none). -/
def Field.says (e : Endian) (f : Bytes) (base : Nat) : Field → Prop
  | .num off len val => numAt e f (base + off) len = some val
  | .name off len s => ∃ b, bytesAt f (base + off) len = some b ∧ utf8 s = b.takeWhile (· ≠ 0)

/-- Every field of a structure placed at `base` says what is listed. -/
def Says (e : Endian) (f : Bytes) (base : Nat) (l : List Field) : Prop := ∀ fd ∈ l, fd.says e f base

/-- Byte order of a file in which a host of byte order `h` finds magic number `m`.  Fat files have no
such order. -/
inductive Announces (h : Endian) : Magic → Endian → Prop where
  | native64 : Announces h .magic64 h
  | native : Announces h .magic h
  | swapped64 (e : Endian) (he : e ≠ h) : Announces h .cigam64 e
  | swapped (e : Endian) (he : e ≠ h) : Announces h .cigam e

/-- `f` starts with the header `x` of a file of byte order `e`, seen by a host of byte order `h`. -/
structure HeaderAt (h : Endian) (f : Bytes) (x : Header64) (e : Endian) : Prop where
  magic : numAt h f 0 4 = some (magicNum x.magic)
  order : Announces h x.magic e
  fields : Says e f 0 (headerFields x).tail
  flags : sortFlags x.flags = x.flags

/-- The stated size of a command of `n` bytes: the size is computed with 32-bit numbers, and an
overflow is only noticed by a debug build. -/
def SizeIs (bd : Build) (size : UInt32) (n : Nat) : Prop :=
  match bd with
  | .debug => size.toNat = n
  | .release => size.toNat = n % 2 ^ 32

/-- A `segment_command_64`. -/
structure SegmentAt (bd : Build) (e : Endian) (f : Bytes) (base : Nat) (x : SegmentCommand64) : Prop where
  cmd : x.cmd = 0x19
  size : SizeIs bd x.cmdsize (72 + 80 * x.nsects.toNat)
  fields : Says e f base (segmentFields x)

/-- A `section_64`. -/
structure SectionAt (e : Endian) (f : Bytes) (base : Nat) (x : Section64) : Prop where
  fields : Says e f base (sectionFields x)
  attrs : sortAttrs x.attrs = x.attrs

/-- A `symtab_command`. -/
structure SymtabAt (e : Endian) (f : Bytes) (base : Nat) (x : SymtabCommand) : Prop where
  cmd : x.cmd = 2
  size : x.cmdsize = 24
  fields : Says e f base (symtabFields x)

/-- A `dysymtab_command`. -/
structure DysymtabAt (e : Endian) (f : Bytes) (base : Nat) (x : DysymtabCommand) : Prop where
  cmd : x.cmd = 0xB
  size : x.cmdsize = 80
  fields : Says e f base (dysymtabFields x)

/-- A `build_version_command`. -/
structure BuildVersionAt (bd : Build) (e : Endian) (f : Bytes) (base : Nat) (x : BuildVersionCommand) :
    Prop where
  cmd : x.cmd = 0x32
  size : SizeIs bd x.cmdsize (24 + 8 * x.ntools.toNat)
  fields : Says e f base (buildVersionFields x)

/-- A `build_tool_version`. -/
def ToolAt (e : Endian) (f : Bytes) (base : Nat) (x : BuildToolVersion) : Prop :=
  Says e f base (toolFields x)

/-- What an `n_type` byte stands for.  Of a debugging symbol's byte only the bits of mask `0xe0` are
looked at. -/
def NTypeSays (n : Nat) : NTypeField → Prop
  | .norm pext t ext => n = nTypeByte (.norm pext t ext)
  | .stab d => n / 32 * 32 = debugSymbolNum d

/-- An `nlist_64`. -/
structure NListAt (e : Endian) (f : Bytes) (base : Nat) (x : NList64) : Prop where
  type : ∃ n, numAt e f (base + 4) 1 = some n ∧ NTypeSays n x.nType
  fields : Says e f base ((nlistFields x).eraseIdx 1)

/-- A `relocation_info`, its values within their bit fields. -/
structure RelocAt (e : Endian) (f : Bytes) (base : Nat) (x : RelocationInfo) : Prop where
  symbol : x.rSymbolnum.toNat < 2 ^ 24
  type : x.rType.toNat < 2 ^ 4
  fields : Says e f base (relocFields e x)

/-- `f` starts with the load command `c`, which together with what belongs to it takes `n` bytes. -/
inductive CommandAt (bd : Build) (e : Endian) (f : Bytes) : LoadCommand → Nat → Prop where
  | segment (c : SegmentCommand64) (l : List Section64) (hc : SegmentAt bd e f 0 c)
      (hn : l.length = c.nsects.toNat)
      (hl : ∀ (i : Nat) (x : Section64), l[i]? = some x → SectionAt e f (72 + 80 * i) x) :
      CommandAt bd e f (.segment64 c l) (72 + 80 * l.length)
  | symtab (c : SymtabCommand) (hc : SymtabAt e f 0 c) : CommandAt bd e f (.symtab c) 24
  | dysymtab (c : DysymtabCommand) (hc : DysymtabAt e f 0 c) : CommandAt bd e f (.dysymtab c) 80
  | buildVersion (c : BuildVersionCommand) (l : List BuildToolVersion) (hc : BuildVersionAt bd e f 0 c)
      (hn : l.length = c.ntools.toNat)
      (hl : ∀ (i : Nat) (x : BuildToolVersion), l[i]? = some x → ToolAt e f (24 + 8 * i) x) :
      CommandAt bd e f (.buildVersion c l) (24 + 8 * l.length)

/-- A reading of `s` with result `r` returns exactly what the bytes stand for according to `At` (a
value, and the number of bytes it takes) and leaves the bytes after it; if they stand for nothing it
panics. -/
def Decodes {α : Type} (r : Res (α × Bytes)) (s : Bytes) (At : α → Nat → Prop) : Prop :=
  (∀ x s', r = .ok (x, s') ↔ ∃ n, At x n ∧ n ≤ s.length ∧ s' = s.drop n) ∧
  ((¬ ∃ x n, At x n) → r = .error .panic)

/-- The result is `x` exactly when `P x`, and a panic when no `x` satisfies `P`. -/
def Determined {α : Type} (r : Res α) (P : α → Prop) : Prop :=
  (∀ x, r = .ok x ↔ P x) ∧ ((¬ ∃ x, P x) → r = .error .panic)

end AT.MachO
