import Verif.Spec.ObjRead
import Verif.Spec.X86
/-!
# Specification: linking several object files

A static linker in the small.  It is given the object files, in any number, and for every file the address
each of its sections is loaded at.  It reads the files with the at-mac readers, collects the external
symbols, and stores the address of its symbol at each place a relocation entry names.  It refuses
(`none`) external symbols defined twice, symbols defined nowhere, places outside of their section and
entries that are not of the plain absolute kind.

Below it, the same in terms of the objects the files were written from, with nothing of files.
-/

namespace AT.ObjSpec
open AT.Obj AT.Mac AT.MachO

/-! ## Files -/

/-- What the linker keeps of a file: section headers, symbol entries with their names, the relocation
entries of every section and its contents. -/
structure Raw where
  sections : List Section64
  syms : List (NList64 × Str)
  relocs : List (List RelocationInfo)
  data : List Bytes

/-- The relocation entries of a section. -/
def entriesOf (e : Endian) (f : Bytes) (s : Section64) : Res (List RelocationInfo) := do
  let (rs, _) ← readN (RelocationInfo.readFromIn e) s.nreloc.toNat (f.drop s.reloff.toNat)
  pure rs

/-- Read a file. -/
def readRaw (bd : Build) (h : Endian) (f : Bytes) : Res Raw := do
  let ((hdr, e), r) ← Header64.readFrom h f
  let (cs, _) ← readN (LoadCommand.readFromIn bd e) hdr.nCmds.toNat r
  match cs with
  | [.segment64 _ sects, .symtab st] => do
    let (es, _) ← readN (NList64.readFromIn e) st.nsyms.toNat (f.drop st.symoff.toNat)
    let names ← es.mapM fun t => nameAt f (st.stroff.toNat + t.nStrx.toNat)
    let relocs ← sects.mapM (entriesOf e f)
    let data ← sects.mapM (contentsAt f)
    pure ⟨sects, es.zip names, relocs, data⟩
  | _ => .error .panic

/-- The address of a symbol defined in the file whose section named `n` is loaded at `base n`. -/
def entryAddress (x : Raw) (base : Str → Nat) (t : NList64) : Option Nat :=
  match t.nType with
  | .norm false .sect _ =>
    if t.nSect = 0 then none
    else x.sections[t.nSect.toNat - 1]?.map fun s => base s.sectname + (t.nValue.toNat - s.addr.toNat)
  | .norm false .abs _ => some t.nValue.toNat
  | _ => none

/-- Visible to other files. -/
def entryExternal (t : NList64) : Bool :=
  match t.nType with
  | .norm false _ ext => ext
  | _ => false

/-- Defined elsewhere. -/
def entryUndefined (t : NList64) : Bool :=
  match t.nType with
  | .norm false .undf true => true
  | _ => false

/-- The external symbols defined in the files, with their addresses. -/
def fileExports (xs : List Raw) (base : Nat → Str → Nat) : List (Str × Nat) :=
  xs.zipIdx.flatMap fun x => x.1.syms.filterMap fun t =>
    if entryExternal t.1 then (entryAddress x.1 (base x.2) t.1).map (fun a => (t.2, a)) else none

/-- The address an entry of file `i` stands for. -/
def resolveEntry (xs : List Raw) (base : Nat → Str → Nat) (x : Raw × Nat) (t : NList64 × Str) : Option Nat :=
  if entryUndefined t.1 then (fileExports xs base).lookup t.2 else entryAddress x.1 (base x.2) t.1

/-- Add `v` to the `k`-byte little-endian number at `off`. -/
def addAt (bs : Bytes) (off k v : Nat) : Option Bytes :=
  (bytesAt bs off k).map fun old => bs.take off ++ leBytes k (X86.leNat old + v) ++ bs.drop (off + k)

/-- Apply a relocation entry. -/
def applyEntry (val : NList64 × Str → Option Nat) (syms : List (NList64 × Str)) (bs : Bytes)
    (e : RelocationInfo) : Option Bytes :=
  if e.rPcrel = false ∧ e.rExtern = true ∧ e.rType = 0 ∧ 0 ≤ e.rAddress.toInt then do
    let t ← syms[e.rSymbolnum.toNat]?
    let a ← val t
    addAt bs e.rAddress.toInt.toNat (2 ^ (lenByte e.rLength).toNat) a
  else none

/-- Link the files: the contents of every section of every file. -/
def linkFiles (xs : List Raw) (base : Nat → Str → Nat) : Option (List (List Bytes)) :=
  if ((fileExports xs base).map (·.1)).Nodup then
    xs.zipIdx.mapM fun x => (x.1.data.zip x.1.relocs).mapM fun d =>
      d.2.foldlM (applyEntry (resolveEntry xs base x) x.1.syms) d.1
  else none

/-! ## Objects -/

/-- The address of a symbol of section number `s.1` of an object. -/
def ownAddress (o : Object) (base : Str → Nat) (s : Nat × Symbol) : Option Nat :=
  match s.2 with
  | .ref _ a _ => (parts o)[s.1]?.map fun p => base p.sectname + a.toNat
  | .abs _ v _ => some v.toNat
  | .undef _ => none

/-- Defined and visible to other objects. -/
def isExternal : Symbol → Bool
  | .ref _ _ ext => ext
  | .abs _ _ ext => ext
  | .undef _ => false

/-- The external symbols defined in the objects, with their addresses. -/
def exports (os : List Object) (base : Nat → Str → Nat) : List (Str × Nat) :=
  os.zipIdx.flatMap fun o => (placed (parts o.1)).filterMap fun s =>
    if isExternal s.2 then (ownAddress o.1 (base o.2) s).map (fun a => (s.2.name, a)) else none

/-- What name `n` means in object `o.1`, the one with number `o.2`: its first symbol of that name, or the external
symbol of another object if the former is undefined. -/
def meaning (os : List Object) (base : Nat → Str → Nat) (o : Object × Nat) (n : Str) : Option Nat :=
  match (placed (parts o.1)).find? (·.2.name = n) with
  | some (_, .undef _) => (exports os base).lookup n
  | some s => ownAddress o.1 (base o.2) s
  | none => none

/-- Apply a relocation. -/
def applyOne (val : Str → Option Nat) (bs : Bytes) (r : Reloc) : Option Bytes :=
  if r.pcrel = false ∧ 0 ≤ r.addr.toInt then do
    let a ← val r.symbol
    addAt bs r.addr.toInt.toNat (2 ^ r.len.toNat) a
  else none

/-- Link the objects: the contents of every stored section of every object. -/
def linkObjects (os : List Object) (base : Nat → Str → Nat) : Option (List (List Bytes)) :=
  if ((exports os base).map (·.1)).Nodup then
    os.zipIdx.mapM fun o => (parts o.1).mapM fun p => p.relocs.foldlM (applyOne (meaning os base o)) p.bytes
  else none

end AT.ObjSpec
