import Verif.Model.Calls
import Verif.Spec.Steps
/-!
# Specification: the system calls of a run
-/

namespace AT.AsmSpec
open AT.Asm AT.Obj

/-- What a call does to the files. -/
def carryOut (fs : FS) : Sys → FS
  | .openOut _ (some n) => fs.set n []
  | .write o pos b (.ok (n + 1)) => fs.pwrite o pos (b.take (n + 1))
  | _ => fs

/-- Reads of the file `i`, each going on where the one before it came to, from `pos` on; `src` is all
they deliver.  After a failure there is none. -/
inductive ReadsOf (i : Nat) : Nat → List Sys → Bytes → Prop
  | nil (pos : Nat) : ReadsOf i pos [] []
  | ok {pos : Nat} {b src : Bytes} {es : List Sys} (hr : ReadsOf i (pos + b.length) es src) :
      ReadsOf i pos (.read i pos (.ok b) :: es) (b ++ src)
  | interrupted {pos : Nat} {src : Bytes} {es : List Sys} (hr : ReadsOf i pos es src) :
      ReadsOf i pos (.read i pos .interrupted :: es) src
  | failed (pos : Nat) : ReadsOf i pos [.read i pos .failed] []

/-- Writes of these pieces to the file `o`, in order, from `pos` on.  Each call hands over what is left of
one piece, and of nothing else; after a failure there is none.  `left` is what has not been taken. -/
inductive WritesOf (o : Nat) : Nat → List Bytes → List Sys → List Bytes → Prop
  | nil (pos : Nat) (ps : List Bytes) : WritesOf o pos ps [] ps
  | all {pos : Nat} {b : Bytes} {ps left : List Bytes} {es : List Sys}
      (hw : WritesOf o (pos + b.length) ps es left) :
      WritesOf o pos (b :: ps) (.write o pos b (.ok b.length) :: es) left
  | part {pos n : Nat} {b : Bytes} {ps left : List Bytes} {es : List Sys} (h0 : 0 < n) (hn : n < b.length)
      (hw : WritesOf o (pos + n) (b.drop n :: ps) es left) :
      WritesOf o pos (b :: ps) (.write o pos b (.ok n) :: es) left
  | interrupted {pos : Nat} {b : Bytes} {ps left : List Bytes} {es : List Sys}
      (hw : WritesOf o pos (b :: ps) es left) :
      WritesOf o pos (b :: ps) (.write o pos b .interrupted :: es) left
  | none (pos : Nat) (b : Bytes) (ps : List Bytes) :
      WritesOf o pos (b :: ps) [.write o pos b (.ok 0)] (b :: ps)
  | failed (pos : Nat) (b : Bytes) (ps : List Bytes) :
      WritesOf o pos (b :: ps) [.write o pos b .failed] (b :: ps)

/-- The call was not interrupted. -/
def served : Sys → Bool
  | .read _ _ .interrupted => false
  | .write _ _ _ .interrupted => false
  | _ => true

/-- The call is a read that met the end of the file. -/
def atEnd : Sys → Bool
  | .read _ _ (.ok []) => true
  | _ => false

/-- The number of reads that meet the end of the file: one, or two if the last line has no line end (one
for that line, one that tells that there is no other line). -/
def endReads (src : Bytes) : Nat := if src = [] ∨ src.getLast? = some 10 then 1 else 2

/-- The call takes all that was handed over, or was interrupted. -/
def full : Sys → Prop
  | .write _ _ b (.ok n) => n = b.length
  | _ => True

instance : DecidablePred full := fun e => by
  unfold full; split <;> infer_instance

/-- The number of bytes a call hands over. -/
def handed : Sys → Nat
  | .write _ _ b _ => b.length
  | _ => 0

/-- The pieces in which an object is written: those handed to `write_all`, but for empty ones, for which
no call is made. -/
def pieces (bd : Build) (h : Mac.Endian) (o : Object) : List Bytes :=
  (Obj.writeInto bd h o).chunks.filter (· ≠ [])

/-- The system calls a run can make that is asked to assemble `inp` into `out`. -/
inductive Calls (bd : Build) (h : Mac.Endian) (inp out : Str) : List Sys → Prop
  | nil : Calls bd h inp out []
  | noIn : Calls bd h inp out [.openIn inp none]
  | opened (i : Nat) : Calls bd h inp out [.openIn inp (some i)]
  | noOut (i : Nat) : Calls bd h inp out [.openIn inp (some i), .openOut out none]
  | run (i o : Nat) (rs ws : List Sys) (src : Bytes) (ob : Object) (left : List Bytes)
      (hr : ReadsOf i 0 rs src) (hw : WritesOf o 0 (pieces bd h ob) ws left)
      (he : ws ≠ [] → rs.getLast? = some (.read i src.length (.ok []))) :
      Calls bd h inp out (.openIn inp (some i) :: .openOut out (some o) :: (rs ++ ws))

/-- The sizes of the pieces of an object file: the 8 fields of the header, the 11 of the segment command,
12 for each section, the 6 of the symbol table command, the data of each section and the padding (unless
empty), 2 fields for each relocation entry, 5 for each symbol, and the string table. -/
def pieceSizes (o : Object) : List Nat :=
  let ss := o.sections.iter
  let data := ss.map fun s => s.fileData.length
  [4, 4, 4, 4, 4, 4, 4, 4] ++ [4, 4, 16, 8, 8, 8, 8, 4, 4, 4, 4] ++
  ss.flatMap (fun _ => [16, 16, 8, 8, 4, 4, 4, 4, 4, 4, 4, 4]) ++ [4, 4, 4, 4, 4, 4] ++
  data.filter (· ≠ 0) ++ [(8 - data.sum % 8) % 8].filter (· ≠ 0) ++
  (ss.flatMap SectionRef.relocs).flatMap (fun _ => [4, 4]) ++
  (ss.flatMap SectionRef.symbols).flatMap (fun _ => [4, 1, 1, 2, 8]) ++
  [1 + ((ss.flatMap SectionRef.symbols).map fun s => utf8Len s.name + 1).sum]

end AT.AsmSpec
