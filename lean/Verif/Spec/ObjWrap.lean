import Verif.Spec.ObjFile
/-!
# Specification: the file of an object of any size

`FileMod h o f` is `FileOf h o f` (`Spec/ObjFile.lean`) for objects that need not fit the format.  What
lies where in the file is stated with the true numbers; a number that is stored in the file is reduced
modulo `2 ^ 32`, or `2 ^ 64` for addresses, and the size of the segment in the file, stored in 64 bits,
modulo `2 ^ 32` too.  Names may contain NULs.
-/

namespace AT.ObjSpec
open AT.Obj AT.Mac AT.MachO

/-- The strings between the NULs of `n`. -/
def split0 : Str → List Str
  | [] => [[]]
  | c :: s => if c.toNat = 0 then [] :: split0 s else
      match split0 s with
      | [] => [[c]]
      | p :: ps => (c :: p) :: ps

/-- The strings a reader finds in the string table with these names. -/
def tableStrings (names : List Str) : List Str := names.flatMap split0

/-- The string table: an empty string, then the names. -/
def tableBytes (names : List Str) : Bytes := 0 :: names.flatMap (fun n => utf8 n ++ [0])

/-- The name that the symbol `n` has for a reader of the file: the string at the offset stored for it,
which is reduced modulo `2 ^ 32`. -/
def nameFound (names : List Str) (n : Str) : Bytes :=
  ((tableBytes names).drop (nameOff (tableStrings names) n % 2 ^ 32)).takeWhile (· ≠ 0)

/-- The number of the symbol that a relocation against `n` refers to: the first that has this name for
a reader. -/
def symNumber (o : Object) (n : Str) : Nat :=
  ((symNames o).map (nameFound (symNames o))).idxOf (utf8 n)

/-- The names are ASCII, every relocation is against a name that a reader finds for some symbol, and
has one of the four lengths. -/
structure Expressible (o : Object) : Prop where
  ascii : ∀ n ∈ symNames o, ∀ c ∈ n, c.toNat < 128
  defined : ∀ r ∈ allRelocs o, utf8 r.symbol ∈ (symNames o).map (nameFound (symNames o))
  lens : ∀ r ∈ allRelocs o, r.len.toNat ≤ 3

/-- The second word of an external relocation entry against symbol number `n`.  The number is not
confined to its 24 bits: little-endian, its upper bits fall on the other fields; big-endian, they are
lost. -/
def spillWord (h : Endian) (n : Nat) (pcrel : Bool) (len : Nat) : Nat :=
  match h with
  | .little => n % 2 ^ 32 ||| (pcrel.toNat * 0x1000000 + len * 0x2000000 + 0x8000000)
  | .big => n * 0x100 % 2 ^ 32 ||| (pcrel.toNat * 0x80 + len * 0x20 + 0x10)

/-- The bytes `f` begin as a file with the contents of `o` does: header, load commands, contents of the
sections and padding. -/
structure FileStart (h : Endian) (o : Object) (f : Bytes) : Prop where
  header : HasFields h f 0
    [ .num 0 4 0xfeedfacf,
      .num 4 4 0x01000007,
      .num 8 4 3,
      .num 12 4 1,
      .num 16 4 2,
      .num 20 4 (72 + 80 * (parts o).length + 24),
      .num 24 4 0,
      .num 28 4 0 ]
  segment : HasFields h f 32
    [ .num 0 4 0x19,
      .num 4 4 (72 + 80 * (parts o).length),
      .name 8 16 [],
      .num 24 8 0,
      .num 32 8 (vmLen (parts o) % 2 ^ 64),
      .num 40 8 (cmdsEnd (parts o)),
      .num 48 8 (roundUp8 (dataLen (parts o)) % 2 ^ 32),
      .num 56 4 7,
      .num 60 4 7,
      .num 64 4 (parts o).length,
      .num 68 4 0 ]
  sections : ∀ (i : Nat) (p : Part), (parts o)[i]? = some p → HasFields h f (104 + 80 * i)
    [ .name 0 16 p.sectname,
      .name 16 16 p.segname,
      .num 32 8 (addrOf (parts o) i % 2 ^ 64),
      .num 40 8 p.vmsize,
      .num 48 4 (if p.zerofill then 0 else (cmdsEnd (parts o) + dataLen ((parts o).take i)) % 2 ^ 32),
      .num 52 4 0,
      .num 56 4 (if p.zerofill then 0 else
        (relocStart (parts o) + 8 * relocCount ((parts o).take i)) % 2 ^ 32),
      .num 60 4 (p.relocs.length % 2 ^ 32),
      .num 64 4 (sectionWord p),
      .num 68 4 0,
      .num 72 4 0,
      .num 76 4 0 ]
  symtab : HasFields h f (104 + 80 * (parts o).length)
    [ .num 0 4 0x2,
      .num 4 4 24,
      .num 8 4 (symStart (parts o) % 2 ^ 32),
      .num 12 4 (symCount (parts o) % 2 ^ 32),
      .num 16 4 (strStart (parts o) % 2 ^ 32),
      .num 20 4 (strLen (parts o) % 2 ^ 32) ]
  contents : ∀ (i : Nat) (p : Part), (parts o)[i]? = some p →
    bytesAt f (cmdsEnd (parts o) + dataLen ((parts o).take i)) p.bytes.length = some p.bytes
  padding : ∀ k, dataLen (parts o) ≤ k → k < roundUp8 (dataLen (parts o)) →
    bytesAt f (cmdsEnd (parts o) + k) 1 = some [0]

/-- The bytes `f` are a file with the contents of `o` as above. -/
structure FileMod (h : Endian) (o : Object) (f : Bytes) : Prop extends FileStart h o f where
  length : f.length = fileLen (parts o)
  relocs : ∀ (k : Nat) (r : Reloc), (allRelocs o)[k]? = some r →
    HasFields h f (relocStart (parts o) + 8 * k)
      [ .num 0 4 (i32Num r.addr),
        .num 4 4 (spillWord h (symNumber o r.symbol) r.pcrel r.len.toNat) ]
  symbols : ∀ (k i : Nat) (s : Symbol), (placed (parts o))[k]? = some (i, s) →
    HasFields h f (symStart (parts o) + 16 * k)
      [ .num 0 4 (nameOff (tableStrings (symNames o)) s.name % 2 ^ 32),
        .num 4 1 (symbolWord (parts o) i s).1,
        .num 5 1 (symbolWord (parts o) i s).2.1,
        .num 6 2 0,
        .num 8 8 ((symbolWord (parts o) i s).2.2 % 2 ^ 64) ]
  nul : bytesAt f (strStart (parts o)) 1 = some [0]
  strings : ∀ (k : Nat) (n : Str), (symNames o)[k]? = some n →
    bytesAt f (strStart (parts o) + strOff (symNames o) k) (utf8Len n + 1) = some (utf8 n ++ [0])

end AT.ObjSpec
