import Verif.Spec.Whole
import Verif.Spec.LinkMany
/-!
# Specification: a program made of several sources

Each source is assembled by a run of its own, perhaps by another build on another host, and the object
files are linked together.
-/

namespace AT.AsmSpec
open AT.Asm AT.Mac

/-- A source of the program: the build and the host that assemble it, how its bytes arrive, its lines
as text, and what they say. -/
structure Piece where
  build : Build
  host : Endian
  chunks : List Bytes
  texts : List Str
  lines : List Line

/-- The source is an acceptable program. -/
structure Piece.Good (u : Piece) : Prop where
  chunks : ∀ c ∈ u.chunks, c ≠ []
  cut : Cut u.chunks.flatten (u.texts.map utf8)
  reads : ReadsAll u.build u.texts u.lines
  ok : Acceptable u.lines

/-- `f` is the file that is written for the source. -/
def Piece.Writes (u : Piece) (f : Bytes) : Prop :=
  ∃ a, Assembler.new.readFrom u.build u.chunks = .ok a ∧ (a.writeInto u.build u.host).res = .ok () ∧
    f = (a.writeInto u.build u.host).out

/-- The names a source defines and declares global, once per definition. -/
def Piece.globals (u : Piece) : List Str := ((table u.lines).map (·.name)).filter fun n => decide (Global u.lines n)

/-- The code in the linked sections of a source: that of the first one, if it is the code. -/
def Piece.code (u : Piece) (secs : List Bytes) : Bytes :=
  if (stored u.lines).head? = some .text then secs.headD [] else []

/-- Where the code of source number `i` begins if that of the first begins at `start` and they follow
one another. -/
def codeStart (us : List Piece) (start i : Nat) : Nat :=
  start + ((us.take i).map fun u => (content u.lines .text u.lines.length).length).sum

/-- The instructions that the sources ask for from line `j` of source `i` on: those of that source, then
those of the sources after it. -/
def AskedFrom (us : List Piece) (base : Nat → Str → Nat) (i j : Nat) (is : List X86.Inst) : Prop :=
  ∃ (u : Piece) (first : List X86.Inst) (rest : List (List X86.Inst)), us[i]? = some u ∧ is = first ++ rest.flatten ∧
    OneByOne (AsksFor u.build u.texts fun n => (addressOf u.lines (base i) n).getD 0) (codeLines u.lines j) first ∧
    (us.drop (i + 1)).length = rest.length ∧
    ∀ (k : Nat) u' js, us[i + 1 + k]? = some u' → rest[k]? = some js →
      OneByOne (AsksFor u'.build u'.texts fun n => (addressOf u'.lines (base (i + 1 + k)) n).getD 0)
        (codeLines u'.lines 0) js

end AT.AsmSpec
