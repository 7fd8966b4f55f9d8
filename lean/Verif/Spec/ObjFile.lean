import Verif.Spec.ObjSpec
/-!
# Specification: every byte of an object file

`FileOf h o f` lists, with literal offsets, widths and numbers of `loader.h`, `nlist.h` and `reloc.h`,
everything a Mach-O object file with the contents of `o` consists of.  No function of the writer and no
record of the model's Mach-O library occurs in it.
-/

namespace AT.ObjSpec
open AT.Obj AT.Mac AT.MachO

/-- `flags` of a section header: `S_ATTR_PURE_INSTRUCTIONS` and `S_ATTR_SOME_INSTRUCTIONS` for code,
`S_ATTR_EXT_RELOC` and `S_ATTR_LOC_RELOC` when there are relocations, `S_ZEROFILL` without contents. -/
def sectionWord (p : Part) : Nat :=
  (if p.sectname = str% "__text" then 0x80000400 else 0) + (if p.relocs = [] then 0 else 0x300) +
    (if p.zerofill then 1 else 0)

/-- Offset in the string table of the first string equal to `n`: after the leading NUL and the
strings before it, each with its NUL. -/
def nameOff (names : List Str) (n : Str) : Nat :=
  1 + ((names.takeWhile (· ≠ n)).map (fun s => utf8Len s + 1)).sum

/-- Offset in the string table of the `k`-th string. -/
def strOff (names : List Str) (k : Nat) : Nat :=
  1 + ((names.take k).map (fun s => utf8Len s + 1)).sum

/-- `n_type`, `n_sect` and `n_value` of a symbol of section `i`. -/
def symbolWord (ps : List Part) (i : Nat) : Symbol → Nat × Nat × Nat
  | .undef _ => (0x01, 0, 0)
  | .abs _ val ext => (0x02 + ext.toNat, i + 1, val.toNat)
  | .ref _ addr ext => (0x0e + ext.toNat, i + 1, addrOf ps i + addr.toNat)

/-- The second word of an external relocation entry against symbol number `n`. -/
def externWord (h : Endian) (n : Nat) (pcrel : Bool) (len : Nat) : Nat :=
  match h with
  | .little => n + pcrel.toNat * 0x1000000 + len * 0x2000000 + 0x8000000
  | .big => n * 0x100 + pcrel.toNat * 0x80 + len * 0x20 + 0x10

/-- The bytes `f` are a Mach-O object file, in byte order `h`, with the contents of `o`. -/
structure FileOf (h : Endian) (o : Object) (f : Bytes) : Prop where
  length : f.length = fileLen (parts o)
  header : HasFields h f 0
    [ .num 0 4 0xfeedfacf,
      .num 4 4 0x01000007,
      .num 8 4 3,
      .num 12 4 1,
      .num 16 4 2,
      .num 20 4 (72 + 80 * (parts o).length + 24),
      .num 24 4 0,
      .num 28 4 0 ]
  segment : HasFields h f 32
    [ .num 0 4 0x19,
      .num 4 4 (72 + 80 * (parts o).length),
      .name 8 16 [],
      .num 24 8 0,
      .num 32 8 (vmLen (parts o)),
      .num 40 8 (cmdsEnd (parts o)),
      .num 48 8 (roundUp8 (dataLen (parts o))),
      .num 56 4 7,
      .num 60 4 7,
      .num 64 4 (parts o).length,
      .num 68 4 0 ]
  sections : ∀ (i : Nat) (p : Part), (parts o)[i]? = some p → HasFields h f (104 + 80 * i)
    [ .name 0 16 p.sectname,
      .name 16 16 p.segname,
      .num 32 8 (addrOf (parts o) i),
      .num 40 8 p.vmsize,
      .num 48 4 (if p.zerofill then 0 else cmdsEnd (parts o) + dataLen ((parts o).take i)),
      .num 52 4 0,
      .num 56 4 (if p.zerofill then 0 else relocStart (parts o) + 8 * relocCount ((parts o).take i)),
      .num 60 4 p.relocs.length,
      .num 64 4 (sectionWord p),
      .num 68 4 0,
      .num 72 4 0,
      .num 76 4 0 ]
  symtab : HasFields h f (104 + 80 * (parts o).length)
    [ .num 0 4 0x2,
      .num 4 4 24,
      .num 8 4 (symStart (parts o)),
      .num 12 4 (symCount (parts o)),
      .num 16 4 (strStart (parts o)),
      .num 20 4 (strLen (parts o)) ]
  contents : ∀ (i : Nat) (p : Part), (parts o)[i]? = some p →
    bytesAt f (cmdsEnd (parts o) + dataLen ((parts o).take i)) p.bytes.length = some p.bytes
  padding : ∀ k, dataLen (parts o) ≤ k → k < roundUp8 (dataLen (parts o)) →
    bytesAt f (cmdsEnd (parts o) + k) 1 = some [0]
  relocs : ∀ (k : Nat) (r : Reloc), (allRelocs o)[k]? = some r →
    HasFields h f (relocStart (parts o) + 8 * k)
      [ .num 0 4 (i32Num r.addr),
        .num 4 4 (externWord h ((symNames o).idxOf r.symbol) r.pcrel r.len.toNat) ]
  symbols : ∀ (k i : Nat) (s : Symbol), (placed (parts o))[k]? = some (i, s) →
    HasFields h f (symStart (parts o) + 16 * k)
      [ .num 0 4 (nameOff (symNames o) s.name),
        .num 4 1 (symbolWord (parts o) i s).1,
        .num 5 1 (symbolWord (parts o) i s).2.1,
        .num 6 2 0,
        .num 8 8 (symbolWord (parts o) i s).2.2 ]
  nul : bytesAt f (strStart (parts o)) 1 = some [0]
  strings : ∀ (k : Nat) (n : Str), (symNames o)[k]? = some n →
    bytesAt f (strStart (parts o) + strOff (symNames o) k) (utf8Len n + 1) = some (utf8 n ++ [0])

end AT.ObjSpec
