import Verif.Model.Steps
import Verif.Spec.Process
/-!
# Specification: runs that go on at the same time
-/

namespace AT.AsmSpec
open AT.Asm

/-- The call does not fail (it may be interrupted). -/
def Fine (k : Call) : Prop := k = .interrupted ∨ ∃ n, 0 < n ∧ k = .size n

/-- The answers to the calls of process `i`, in order. -/
def own (i : Nat) (sched : List (Nat × Call)) : List Call :=
  (sched.filter (fun p => p.1 = i)).map Prod.snd

/-- Runs with the given arguments, none started yet. -/
def fresh (args : Nat → List Str) : Nat → At := fun i => .start ((args i).map utf8)

/-- The runs write different files and no run reads what another one writes. -/
def Separated (fs : FS) (args : Nat → List Str) : Prop :=
  ∀ i j, i ≠ j → ∀ inp out inp' out', Asks (args i) inp out → Asks (args j) inp' out' →
    fs.node out ≠ fs.node out' ∧ fs.node out ≠ fs.node inp'

/-- The first `n` entries of an endless schedule. -/
def upTo (σ : Nat → Nat × Call) (n : Nat) : List (Nat × Call) := (List.range n).map σ

/-! ## Other programs that change the files -/

/-- The reads of a run: the bytes that each delivered, `none` if it found the end of the file.  A read
delivers what is in the file at that moment, at the position `pos` to which the reads before it came. -/
def heard (bd : Build) (h : Mac.Endian) (pos : Nat) : List Move → FS × At → List (Option Bytes)
  | [], _ => []
  | .other f :: ms, x => heard bd h pos ms (f x.1, x.2)
  | .own k :: ms, x =>
    let next := step bd h k x.1 x.2
    match x.2, k with
    | .reading i _ _ buf _, .size n =>
      if (10 : UInt8) ∈ buf then heard bd h pos ms next
      else
        match (((x.1.content i).getD []).drop pos).take (n + 1) with
        | [] => none :: heard bd h pos ms next
        | b :: bs => some (b :: bs) :: heard bd h (pos + (b :: bs).length) ms next
    | _, _ => heard bd h pos ms next

/-- The source that these reads amount to: what they delivered, with a line end wherever the end of the
file was met within a line. -/
def pasted (acc : Bytes) : List (Option Bytes) → Bytes
  | [] => acc
  | some b :: es => pasted (acc ++ b) es
  | none :: es => pasted (if acc = [] ∨ acc.getLast? = some 10 then acc else acc ++ [10]) es

/-- What other programs do leaves the paths, the permissions and the file `o` alone, and does not remove
the file `i`.  They may change the contents of `i` and of all other files. -/
structure Meddles (i o : Nat) (f : FS → FS) : Prop where
  node : ∀ g, (f g).node = g.node
  canRead : ∀ g, (f g).canRead = g.canRead
  canWrite : ∀ g, (f g).canWrite = g.canWrite
  output : ∀ g, (f g).content o = g.content o
  input : ∀ g, (g.content i).isSome → ((f g).content i).isSome

/-- What other programs do leaves the paths, the permissions and the files in `T` alone. -/
structure Spares (T : Nat → Prop) (f : FS → FS) : Prop where
  node : ∀ g, (f g).node = g.node
  canRead : ∀ g, (f g).canRead = g.canRead
  canWrite : ∀ g, (f g).canWrite = g.canWrite
  content : ∀ g n, T n → (f g).content n = g.content n

/-! ## What a run does to the files, whatever others do -/

/-- From here on, all that the run does to the files is to write the bytes `b` one after the other into
file `o` from position `pos` on. -/
inductive Puts (bd : Build) (h : Mac.Endian) (o : Nat) : Nat → List Move → FS × At → Bytes → Prop
  | nil (pos : Nat) (x : FS × At) : Puts bd h o pos [] x []
  | other {pos : Nat} {f : FS → FS} {ms : List Move} {x : FS × At} {b : Bytes}
      (hp : Puts bd h o pos ms (f x.1, x.2) b) : Puts bd h o pos (.other f :: ms) x b
  | quiet {pos : Nat} {k : Call} {ms : List Move} {x : FS × At} {b : Bytes} (hq : (step bd h k x.1 x.2).1 = x.1)
      (hp : Puts bd h o pos ms (step bd h k x.1 x.2) b) : Puts bd h o pos (.own k :: ms) x b
  | put {pos : Nat} {k : Call} {ms : List Move} {x : FS × At} {c b : Bytes} (hne : c ≠ [])
      (hq : (step bd h k x.1 x.2).1 = x.1.pwrite o pos c)
      (hp : Puts bd h o (pos + c.length) ms (step bd h k x.1 x.2) b) : Puts bd h o pos (.own k :: ms) x (c ++ b)

/-- All that the run does to the files is to empty the file to which the path `out` leads at that moment,
and to write the bytes `b` one after the other into this file, from its start on. -/
inductive Produces (bd : Build) (h : Mac.Endian) (out : Str) : List Move → FS × At → Bytes → Prop
  | other {f : FS → FS} {ms : List Move} {x : FS × At} {b : Bytes}
      (hp : Produces bd h out ms (f x.1, x.2) b) : Produces bd h out (.other f :: ms) x b
  | quiet {k : Call} {ms : List Move} {x : FS × At} {b : Bytes} (hq : (step bd h k x.1 x.2).1 = x.1)
      (hp : Produces bd h out ms (step bd h k x.1 x.2) b) : Produces bd h out (.own k :: ms) x b
  | opens {k : Call} {ms : List Move} {x : FS × At} {b : Bytes} (hw : x.1.canWrite (x.1.node out) = true)
      (hq : (step bd h k x.1 x.2).1 = x.1.set (x.1.node out) [])
      (hp : Puts bd h (x.1.node out) 0 ms (step bd h k x.1 x.2) b) : Produces bd h out (.own k :: ms) x b

/-- At some moment the input cannot be opened for reading, or the output for writing. -/
def Shut (bd : Build) (h : Mac.Endian) (inp out : Str) (ms : List Move) (x : FS × At) : Prop :=
  ∃ n g, (among bd h (ms.take n) x).1 = g ∧
    (g.content (g.node inp) = none ∨ g.canRead (g.node inp) = false ∨ g.canWrite (g.node out) = false)

/-- The first `n` moves of an endless sequence. -/
def firstMoves (μ : Nat → Move) (n : Nat) : List Move := (List.range n).map μ

end AT.AsmSpec
