import Verif.Model.Steps
/-!
# The system calls of a run

`Model/Steps.lean` gives the steps of a run.  Here the calls that these steps make, with what they ask for
and what the operating system answers.
-/

namespace AT.Asm

/-- The answer to a call of `read` or `write`. -/
inductive Reply (α : Type) where
  | ok (a : α)
  | interrupted
  | failed
  deriving DecidableEq, Repr

/-- A system call and its answer; an open call is answered with the file, or refused. -/
inductive Sys where
  /-- `main.rs:7-10`: open for reading -/
  | openIn (path : Str) (r : Option Nat)
  /-- `main.rs:12-17`: open for writing; the file is emptied or created -/
  | openOut (path : Str) (r : Option Nat)
  /-- `BufReader::fill_buf` (std): what was delivered from the position on -/
  | read (file pos : Nat) (r : Reply Bytes)
  /-- `write_all` (std): the bytes handed over, and how many of them were taken -/
  | write (file pos : Nat) (b : Bytes) (r : Reply Nat)
  deriving DecidableEq, Repr

/-- The answer to a `read`, `rest` being the bytes from the position of the reader to the end of the file. -/
def readReply (k : Call) (rest : Bytes) : Reply Bytes :=
  match k with
  | .interrupted => .interrupted
  | .failed => .failed
  | .size n => .ok (rest.take (n + 1))

/-- The answer to a `write` of `b`. -/
def writeReply (k : Call) (b : Bytes) : Reply Nat :=
  match k with
  | .interrupted => .interrupted
  | .failed => .failed
  | .size n => .ok (min n b.length)

/-- The system call of the next step of a run (`main.rs:4-22`), if that step makes one. -/
def sysOf (k : Call) (fs : FS) : At → Option Sys
  | .start _ => none
  | .openIn cfg =>
    some (.openIn cfg.inputPath
      (if (fs.content (fs.node cfg.inputPath)).isSome && fs.canRead (fs.node cfg.inputPath)
        then some (fs.node cfg.inputPath) else none))
  | .openOut _ out => some (.openOut out (if fs.canWrite (fs.node out) then some (fs.node out) else none))
  | .reading i pos _ buf _ =>
    match cutNewline buf with
    | some _ => none
    | none => some (.read i pos (readReply k (((fs.content i).getD []).drop pos)))
  | .writing o pos ((b :: bs) :: _) _ => some (.write o pos (b :: bs) (writeReply k (b :: bs)))
  | .writing _ _ _ _ => none
  | .done _ => none

/-- The system calls of a run while other programs are at work. -/
def calls (bd : Build) (h : Mac.Endian) : List Move → FS × At → List Sys
  | [], _ => []
  | .own k :: ms, x => (sysOf k x.1 x.2).toList ++ calls bd h ms (step bd h k x.1 x.2)
  | .other f :: ms, x => calls bd h ms (f x.1, x.2)

end AT.Asm
