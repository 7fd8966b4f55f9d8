import Verif.Model.AsmIo
/-!
# Runs of at-asm, one system call at a time

`main` (`Model/Asm.lean`) and `mainIo` (`Model/AsmIo.lean`) are whole runs.  Here a run is a process whose
steps are the system calls of `main.rs:4-22`, so that several runs can go on at the same time.
-/

namespace AT.Asm
open AT.X64 AT.Obj

/-- How the operating system answers the next call: it moves up to `n` bytes, is interrupted, or
fails. -/
inductive Call where
  | size (n : Nat)
  | interrupted
  | failed
  deriving DecidableEq, Repr

/-- Where a run is. -/
inductive At where
  /-- nothing done yet -/
  | start (args : List Bytes)
  /-- `main.rs:7`: about to open the input -/
  | openIn (cfg : Config)
  /-- `main.rs:12`: about to open the output; the input file is open -/
  | openOut (inNode : Nat) (out : Str)
  /-- `main.rs:20`: reading; the next byte to read is `pos`, `buf` has been read but is not used yet -/
  | reading (inNode pos outNode : Nat) (buf : Bytes) (a : Assembler)
  /-- `main.rs:21`: writing; the next byte to write goes to `pos` -/
  | writing (outNode pos : Nat) (chunks : List Bytes) (res : Outcome)
  | done (r : Outcome)

/-- `write` at a position of an open file: what is there is replaced, a gap (left by another process that
emptied the file) is filled with zeros. -/
def FS.pwrite (fs : FS) (n pos : Nat) (b : Bytes) : FS :=
  let old := (fs.content n).getD []
  fs.set n (old.take pos ++ List.replicate (pos - old.length) 0 ++ b ++ old.drop (pos + b.length))

/-- A line given as bytes: `read_line` (`reader.rs:19`) panics unless it is text; then the body of the
loop of `read_from` (`assembler.rs:41-94`). -/
def Assembler.doBytes (bd : Build) (a : Assembler) (b : Bytes) : Res Assembler := do
  let s ← runwrap (fromUtf8 b)
  a.doLine bd s

/-- `Config::init` (`main.rs:30-74`). -/
def stepStart (args : List Bytes) : At :=
  match argsOf args with
  | .error e => .done (.error e)
  | .ok args =>
    match Config.init args with
    | .error e => .done (.error e)
    | .ok cfg => .openIn cfg

/-- One step of the loop of `read_from` (`assembler.rs:38-108`): a line that is complete in the buffer is
assembled; otherwise there is one call of `read`.  At the end of the file what is left in the buffer is
the last line; if nothing is left, writing begins.  Simplification: the buffer of `BufReader` has no
fixed size. -/
def stepRead (bd : Build) (h : Mac.Endian) (k : Call) (fs : FS) (i pos o : Nat) (buf : Bytes) (a : Assembler) :
    At :=
  match cutNewline buf with
  | some (l, r) =>
    match a.doBytes bd l with
    | .error e => .done (.error e)
    | .ok a' => .reading i pos o r a'
  | none =>
    match k with
    | .interrupted => .reading i pos o buf a
    | .failed => .done (.error .panic)
    | .size n =>
      match (((fs.content i).getD []).drop pos).take (n + 1) with
      | [] =>
        match buf with
        | [] => .writing o 0 (a.markExt.writeInto bd h).chunks (a.markExt.writeInto bd h).res
        | _ :: _ =>
          match a.doBytes bd buf with
          | .error e => .done (.error e)
          | .ok a' => .reading i pos o [] a'
      | b :: bs => .reading i (pos + (b :: bs).length) o (buf ++ b :: bs) a

/-- One step of the writing: `write_all` (std) makes one call of `write`. -/
def stepWrite (k : Call) (fs : FS) (o pos : Nat) (res : Outcome) : List Bytes → FS × At
  | [] => (fs, .done res)
  | [] :: cs => (fs, .writing o pos cs res)
  | (b :: bs) :: cs =>
    match k with
    | .interrupted => (fs, .writing o pos ((b :: bs) :: cs) res)
    | .failed => (fs, .done (.error .panic))
    | .size 0 => (fs, .done (.error .panic))
    | .size (n + 1) =>
      (fs.pwrite o pos ((b :: bs).take (n + 1)),
        .writing o (pos + ((b :: bs).take (n + 1)).length) ((b :: bs).drop (n + 1) :: cs) res)

/-- `main.rs:4-22` `main`: one step. -/
def step (bd : Build) (h : Mac.Endian) (k : Call) (fs : FS) : At → FS × At
  | .start args => (fs, stepStart args)
  | .openIn cfg =>
    match fs.content (fs.node cfg.inputPath) with
    | none => (fs, .done (.error .panic))
    | some _ =>
      if fs.canRead (fs.node cfg.inputPath) then (fs, .openOut (fs.node cfg.inputPath) cfg.outputPath)
      else (fs, .done (.error .panic))
  | .openOut i out =>
    if fs.canWrite (fs.node out) then (fs.set (fs.node out) [], .reading i 0 (fs.node out) [] Assembler.new)
    else (fs, .done (.error .panic))
  | .reading i pos o buf a => (fs, stepRead bd h k fs i pos o buf a)
  | .writing o pos chunks res => stepWrite k fs o pos res chunks
  | .done r => (fs, .done r)

/-- The steps of one process. -/
def steps (bd : Build) (h : Mac.Endian) : List Call → FS × At → FS × At
  | [], x => x
  | k :: ks, x => steps bd h ks (step bd h k x.1 x.2)

/-- Any number of processes: `(i, k)` in the schedule is a step of process `i`, answered by `k`. -/
def together (bd : Build) (h : Mac.Endian) : List (Nat × Call) → FS × (Nat → At) → FS × (Nat → At)
  | [], x => x
  | (i, k) :: ks, x =>
    let y := step bd h k x.1 (x.2 i)
    together bd h ks (y.1, fun j => if j = i then y.2 else x.2 j)

/-- What happens next while a run goes on: a step of the run, or other programs change the files. -/
inductive Move where
  | own (k : Call)
  | other (f : FS → FS)

/-- The steps of one process while other programs are at work. -/
def among (bd : Build) (h : Mac.Endian) : List Move → FS × At → FS × At
  | [], x => x
  | .own k :: ms, x => among bd h ms (step bd h k x.1 x.2)
  | .other f :: ms, x => among bd h ms (f x.1, x.2)

end AT.Asm
