import Verif.Spec.X86
/-!
# Specification: running a program

A processor that fetches its instructions from memory (`Step`), and the execution of a list of
instructions that is not in memory at all (`Runs`), which is how a programmer reads a source text.
System calls are whatever `sys` says they do to registers and memory.
-/

namespace X86

/-- What a program computes with: registers and memory, but not the instruction pointer. -/
structure Data where
  reg : Nat → BitVec 64
  mem : BitVec 64 → BitVec 8

/-- The registers and the memory of a state. -/
def State.data (s : State) : Data := ⟨s.reg, s.mem⟩

/-- The bytes `bs` are in memory from address `a` on. -/
def Holds (mem : BitVec 64 → BitVec 8) (a : BitVec 64) (bs : List UInt8) : Prop :=
  ∀ (i : Nat) b, bs[i]? = some b → mem (a + BitVec.ofNat 64 i) = b.toBitVec

/-- The 15 bytes (the longest instruction) from address `a` on. -/
def window (mem : BitVec 64 → BitVec 8) (a : BitVec 64) : List UInt8 :=
  (List.range 15).map fun i => ⟨mem (a + BitVec.ofNat 64 i)⟩

/-- One step of the processor: fetch, decode, execute.  A system call does what `sys` allows and
continues with the following instruction. -/
inductive Step (sys : Data → Data → Prop) : State → State → Prop
  | exec {s s' : State} {i : Inst} {rest : List UInt8} : decode (window s.mem s.rip) = some (i, rest) →
      X86.exec i (15 - rest.length) s = some s' → Step sys s s'
  | sys {s : State} {d : Data} {rest : List UInt8} : decode (window s.mem s.rip) = some (.syscall, rest) →
      sys s.data d → Step sys s ⟨d.reg, d.mem, s.rip + BitVec.ofNat 64 (15 - rest.length)⟩

/-- Any number of steps; `keep` holds all the time. -/
inductive Steps (sys : Data → Data → Prop) (keep : Data → Prop) : State → State → Prop
  | refl {s : State} : keep s.data → Steps sys keep s s
  | step {s s' s'' : State} : keep s.data → Step sys s s' → Steps sys keep s' s'' → Steps sys keep s s''

/-- The effect of an instruction on registers and memory, which must not depend on where the
instruction is (and `ret` is not an instruction to be followed by the next one). -/
inductive Effect (sys : Data → Data → Prop) : Inst → Data → Data → Prop
  | exec {i : Inst} {d d' : Data} : i ≠ .ret → (∀ rip len, ∃ s', X86.exec i len ⟨d.reg, d.mem, rip⟩ = some s' ∧
      s'.data = d') → Effect sys i d d'
  | sys {d d' : Data} : sys d d' → Effect sys .syscall d d'

/-- `Runs sys keep is d js d'`: executing the instructions `is` one after the other, starting with
`d`, one gets to the remaining instructions `js` with `d'`; `keep` holds all the time. -/
inductive Runs (sys : Data → Data → Prop) (keep : Data → Prop) :
    List Inst → Data → List Inst → Data → Prop
  | refl {is : List Inst} {d : Data} : keep d → Runs sys keep is d is d
  | step {i : Inst} {is js : List Inst} {d d' d'' : Data} : keep d → Effect sys i d d' →
      Runs sys keep is d' js d'' → Runs sys keep (i :: is) d js d''

end X86
