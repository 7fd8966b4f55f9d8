import Verif.Model.AsmIo
/-!
# The program as a process

What the shell sees of a run of at-asm: the exit status and what arrives on standard error.  The
mapping is that of the Rust runtime (std): a `main` that returns is status 0, a panic in the main
thread is status 101, `std::process::exit(code)` is the low byte of `code` (Unix).
-/

namespace AT.Asm

/-- What is seen of a process that has ended: its status, what the program itself printed on standard
error, and whether the runtime added the message of a panic (whose text is not modelled). -/
structure Ended where
  status : Nat
  said : Bytes
  panicked : Bool
  deriving DecidableEq, Repr

/-- The status a parent process gets for `exit(code)`: the low 8 bits. -/
def exitStatus (code : Int32) : Nat := (code.toInt % 256).toNat

/-- `eprintln!` (`assembler.rs:47`, `159`, `main.rs:49`, `53`): `none` is a closed standard error, whose
`EBADF` std ignores; otherwise the calls of `write` return `ps`, and an error is a panic.
Simplification: the message is handed to `write_all` in one piece, not in the pieces of the format
string. -/
def eprint (msg : Str) : Option (List Put) → Bytes × Bool
  | none => ([], true)
  | some ps => ((writeAllIo (utf8 msg) ps).1, (writeAllIo (utf8 msg) ps).2.2)

/-- How the process ends, given how `main` ends.  (`main` never ends with a `ParseError`: `C97_ends`.) -/
def ended (errs : Option (List Put)) : Outcome → Ended
  | .ok () => ⟨0, [], false⟩
  | .error (.exit code msg) =>
    match eprint msg errs with
    | (b, true) => ⟨exitStatus code, b, false⟩
    | (b, false) => ⟨101, b, true⟩
  | .error _ => ⟨101, [], true⟩

/-- A run of the program: `mainIo`, with standard error answering `errs`. -/
def process (bd : Build) (h : Mac.Endian) (reads : Bytes → List Got) (writes : List Put)
    (errs : Option (List Put)) (fs : FS) (args : List Bytes) : FS × Ended :=
  ((mainIo bd h reads writes fs args).1, ended errs (mainIo bd h reads writes fs args).2)

end AT.Asm
