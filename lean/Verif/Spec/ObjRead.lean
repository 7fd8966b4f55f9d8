import Verif.Spec.ObjSpec
import Verif.Model.MacHeader
import Verif.Model.MacLoadCommand
import Verif.Model.MacSymbols
/-!
# Specification: what an object file says about its object

A reader of whole object files, made of the at-mac readers of the single records and of nothing of the
writer.  It runs on a host of byte order `h`; the records after the header are read in the byte order
the header reader reports.
-/

namespace AT.ObjSpec
open AT.Obj AT.Mac AT.MachO

/-- The `r_length` code. -/
def lenByte : RelocLength → UInt8
  | .byte => 0
  | .word => 1
  | .long => 2
  | .quad => 3

/-- The name at a file offset. -/
def nameAt (f : Bytes) (off : Nat) : Res Str :=
  match cstrAt f off with
  | some b => runwrap (fromUtf8 b)
  | none => .error .panic

/-- The symbol an entry describes, if it is one of section number `ord` (from 1) with header `s`. -/
def symbolOf (s : Section64) (ord : Nat) (t : NList64 × Str) : Option Symbol :=
  if t.1.nSect.toNat = ord then
    match t.1.nType with
    | .norm false .sect ext => some (.ref t.2 (t.1.nValue - s.addr) ext)
    | .norm false .abs ext => some (.abs t.2 t.1.nValue ext)
    | _ => none
  else none

/-- The name of an undefined symbol. -/
def undefOf (t : NList64 × Str) : Option Str :=
  match t.1.nType with
  | .norm false .undf true => some t.2
  | _ => none

/-- The relocation an entry describes: the symbol number stands for the name of that symbol. -/
def relocOfEntry (syms : List (NList64 × Str)) (r : RelocationInfo) : Res Reloc := do
  let t ← runwrap syms[r.rSymbolnum.toNat]?
  pure ⟨r.rAddress, t.2, r.rPcrel, lenByte r.rLength⟩

/-- The contents of a section; a zero-fill section has none. -/
def contentsAt (f : Bytes) (s : Section64) : Res Bytes :=
  if s.type = .zerofill then pure [] else runwrap (bytesAt f s.offset.toNat s.size.toNat)

/-- Read one section: contents, symbols, relocations by symbol name. -/
def readPart (e : Endian) (f : Bytes) (syms : List (NList64 × Str)) (si : Section64 × Nat) : Res Part := do
  let (rs, _) ← readN (RelocationInfo.readFromIn e) si.1.nreloc.toNat (f.drop si.1.reloff.toNat)
  let relocs ← rs.mapM (relocOfEntry syms)
  let bytes ← contentsAt f si.1
  pure ⟨si.1.sectname, si.1.segname, bytes, si.1.size.toNat, si.1.type = .zerofill,
    syms.filterMap (symbolOf si.1 (si.2 + 1)), relocs⟩

/-- Read an object file: its sections with their symbols and relocations, and the names of the
undefined symbols (which belong to no section). -/
def readObject (bd : Build) (h : Endian) (f : Bytes) : Res (List Part × List Str) := do
  let ((hdr, e), r) ← Header64.readFrom h f
  let (cs, _) ← readN (LoadCommand.readFromIn bd e) hdr.nCmds.toNat r
  match cs with
  | [.segment64 _ sects, .symtab st] => do
    let (es, _) ← readN (NList64.readFromIn e) st.nsyms.toNat (f.drop st.symoff.toNat)
    let names ← es.mapM fun t => nameAt f (st.stroff.toNat + t.nStrx.toNat)
    let ps ← sects.zipIdx.mapM (readPart e f (es.zip names))
    pure (ps, (es.zip names).filterMap undefOf)
  | _ => .error .panic

/-- The symbol is defined. -/
def isDefined : Symbol → Bool
  | .undef _ => false
  | _ => true

/-- What the file of an object must say: its non-empty sections with their defined symbols, and the names of
the undefined ones. -/
def saidOf (o : Object) : List Part × List Str :=
  ((parts o).map (fun p => { p with symbols := p.symbols.filter isDefined }),
   ((parts o).flatMap (·.symbols)).filterMap fun
     | .undef n => some n
     | _ => none)

end AT.ObjSpec
