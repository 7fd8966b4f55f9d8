import Verif.Props.EndToEnd
/-!
# The programs of `/repo/at-asm/tests`, assembled, linked and run on the model

What `tests/run.sh` does: assemble with `at-asm`, link, run, compare exit code and output.  The
assembler is the model of `main`; linking is `linkSection` with fixed section addresses; the
processor is the one of `Spec/X86`; two system calls of macOS are simulated.
-/

namespace AT.Tests
open AT.X64 AT.Asm AT.Props AT.Mac

/-- What a run shows to the outside. -/
structure Shown where
  code : Nat
  stdout : Bytes
  deriving DecidableEq, Repr

/-- Where the caller of `_main` is. -/
def callerAddr : Nat := 0x10

def loadMany (mem : BitVec 64 → BitVec 8) (a : BitVec 64) : Nat → Bytes
  | 0 => []
  | n + 1 => ⟨mem a⟩ :: loadMany mem (a + 1) n

/-- The 15 bytes at the instruction pointer. -/
def fetch (s : X86.State) : Bytes := (List.range 15).map fun i => ⟨s.mem (s.rip + BitVec.ofNat 64 i)⟩

/-- Run with `fuel` steps: `write` (0x2000004) collects output, `exit` (0x2000001) ends with `rdi`, a
return to the caller ends with `rax`. -/
def runCpu : Nat → Bytes → X86.State → Option Shown
  | 0, _, _ => none
  | fuel + 1, out, s =>
    if s.rip = BitVec.ofNat 64 callerAddr then some ⟨(s.reg 0).toNat % 256, out⟩
    else match X86.decode (fetch s) with
      | none => none
      | some (.syscall, rest) =>
        if (s.reg 0).toNat = 0x2000004 then
          runCpu fuel (out ++ loadMany s.mem (s.reg 6) (s.reg 2).toNat)
            { s with rip := s.rip + BitVec.ofNat 64 (15 - rest.length) }
        else if (s.reg 0).toNat = 0x2000001 then some ⟨(s.reg 7).toNat % 256, out⟩
        else none
      | some (i, rest) =>
        match X86.exec i (15 - rest.length) s with
        | none => none
        | some s => runCpu fuel out s

/-- Section addresses chosen by the linker. -/
def baseOf (n : Str) : Nat := if n = str% "__text" then 0x1000 else 0x2000

/-- Contents of a linked section, if the file has it. -/
def linked (bd : Build) (h : Endian) (f : Bytes) (name : Str) : Bytes :=
  match view bd h f with
  | .ok (v, _) =>
    match v.sections.find? (fun s => s.sectname = name) with
    | some s => (linkSection h f v baseOf s).getD []
    | none => []
  | .error _ => []

/-- Memory with the two sections and the stack of a program that was called from `callerAddr`. -/
def memOf (text data : Bytes) (a : BitVec 64) : BitVec 8 :=
  let n := a.toNat
  if 0x1000 ≤ n ∧ n < 0x1000 + text.length then (text[n - 0x1000]?.getD 0).toBitVec
  else if 0x2000 ≤ n ∧ n < 0x2000 + data.length then (data[n - 0x2000]?.getD 0).toBitVec
  else if n = 0x8000 then BitVec.ofNat 8 callerAddr
  else 0

/-- The initial state: `_main` is at the start of `__text` in all the programs. -/
def startOf (text data : Bytes) : X86.State :=
  ⟨fun r => if r = 4 then 0x8000 else 0, memOf text data, 0x1000⟩

/-- The file `in.s`. -/
def fsOf (source : Bytes) : FS :=
  ⟨fun p => if p = str% "in.s" then 0 else if p = str% "out.o" then 1 else 2,
   fun n => if n = 0 then some source else none, fun _ => true, fun _ => true⟩

/-- `at-asm -o out.o in.s`, link, run. -/
def runTest (bd : Build) (source : Str) : Option Shown :=
  match main bd .little (fun b => [b]) (fsOf (utf8 source)) [str% "at-asm", str% "-o", str% "out.o", str% "in.s"] with
  | (fs, .ok ()) =>
    match fs.content 1 with
    | some f => runCpu 40 [] (startOf (linked bd .little f (str% "__text")) (linked bd .little f (str% "__data")))
    | none => none
  | _ => none

/-- `tests/minimum.s` -/
def minimum : Str :=
  str% ";; TEST: Exit Code \"24\"\n" ++
  str% "\n" ++
  str% "global _main\n" ++
  str% "_main:\n" ++
  str% "  mov ax, 24\n" ++
  str% "  ret\n"

/-- exit code 24, output "" -/
example (bd : Build) : runTest bd minimum = some ⟨24, utf8 (str% "")⟩ := by
  cases bd <;> decide +kernel

/-- `tests/many_mov.s` -/
def manyMov : Str :=
  str% ";; TEST: Exit Code \"42\"\n" ++
  str% "\n" ++
  str% "global _main\n" ++
  str% "_main:\n" ++
  str% "  mov edi, 42\n" ++
  str% "  mov r8d, edi\n" ++
  str% "  mov cx, r8w\n" ++
  str% "  mov rax, rcx\n" ++
  str% "  ret\n"

/-- exit code 42, output "" -/
example (bd : Build) : runTest bd manyMov = some ⟨42, utf8 (str% "")⟩ := by
  cases bd <;> decide +kernel

/-- `tests/simple_hello_world.s` -/
def simpleHelloWorld : Str :=
  str% ";; TEST: Exit Code \"0\"\n" ++
  str% ";; TEST: STDOUT \"Hello world!\"\n" ++
  str% "\n" ++
  str% "section .text\n" ++
  str% "global _main\n" ++
  str% "_main:\n" ++
  str% "  ; prepare data\n" ++
  str% "  push 0x21646c72  ; \"!dlr\"\n" ++
  str% "  mov rax, 0x6f77206f6c6c6548 ; \"ow olleH\"\n" ++
  str% "  push rax\n" ++
  str% "\n" ++
  str% "  ; write syscall\n" ++
  str% "  mov rsi, rsp\n" ++
  str% "  mov rdi, 1\n" ++
  str% "  mov rdx, 12\n" ++
  str% "  mov rax, 0x2000004\n" ++
  str% "  syscall\n" ++
  str% "\n" ++
  str% "  ; exit syscall\n" ++
  str% "  mov rax, 0x2000001\n" ++
  str% "  mov rdi, 0\n" ++
  str% "  syscall\n"

/-- exit code 0, output "Hello world!" -/
example (bd : Build) : runTest bd simpleHelloWorld = some ⟨0, utf8 (str% "Hello world!")⟩ := by
  cases bd <;> decide +kernel

/-- `tests/reloc_hello_world.s` -/
def relocHelloWorld : Str :=
  str% ";; TEST: Exit Code \"0\"\n" ++
  str% ";; TEST: STDOUT \"Hello, World!!\"\n" ++
  str% "\n" ++
  str% "section .text\n" ++
  str% "global _main\n" ++
  str% "_main:\n" ++
  str% "  mov rax, 0x2000000 + 4    ;sys_write\n" ++
  str% "  mov rdi, 1 ; stdout\n" ++
  str% "  mov rsi, msg ; lea rsi, [rel msg] でも可\n" ++
  str% "  mov rdx, 14\n" ++
  str% "  syscall\n" ++
  str% "\n" ++
  str% "  mov rax, 0x2000000 + 1    ;sys_exit\n" ++
  str% "  mov rdi, 0\n" ++
  str% "  syscall\n" ++
  str% "\n" ++
  str% "section .data\n" ++
  str% "  msg db  \"Hello, World!!\"\n"

/-- exit code 0, output "Hello, World!!" -/
example (bd : Build) : runTest bd relocHelloWorld = some ⟨0, utf8 (str% "Hello, World!!")⟩ := by
  cases bd <;> decide +kernel

end AT.Tests
