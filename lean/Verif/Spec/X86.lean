/-!
# Specification: an x86-64 decoder and executor

Written from the Intel SDM (vol. 2, chapters 2 and 3-4), independently of the encoder model: it does
not import the model.  It covers 64-bit mode, the `66` prefix, REX, and the opcodes
`89 /r`, `8B /r`, `8D /r`, `B8+r`, `50+r`, `58+r`, `6A`, `68`, `C3` (not with `66`, on which
processors differ), `0F 05`.
Registers are their hardware numbers 0-15 (rax rcx rdx rbx rsp rbp rsi rdi r8 .. r15).
-/

namespace X86

/-- Operand size. -/
inductive Width where
  | w16 | w32 | w64
  deriving DecidableEq, Repr

/-- Number of bytes of an operand. -/
def Width.bytes : Width → Nat
  | .w16 => 2 | .w32 => 4 | .w64 => 8

/-- A decoded memory operand. -/
inductive MemRef where
  /-- `[rip + disp]` -/
  | rip (disp : Int)
  /-- `[base + index * 2^scale + disp]` -/
  | sib (base : Option Nat) (index : Option (Nat × Nat)) (disp : Int)
  deriving DecidableEq, Repr

/-- A decoded instruction. -/
inductive Inst where
  | movRegReg (w : Width) (dst src : Nat)
  | movRegImm (w : Width) (dst : Nat) (imm : Nat)
  | movMemReg (w : Width) (dst : MemRef) (src : Nat)
  | movRegMem (w : Width) (dst : Nat) (src : MemRef)
  | lea (w : Width) (dst : Nat) (src : MemRef)
  | pushReg (w : Width) (r : Nat)
  | popReg (w : Width) (r : Nat)
  /-- `val` is the immediate after sign extension -/
  | pushImm (w : Width) (val : Int)
  | ret
  | syscall
  deriving DecidableEq, Repr

/-- Value of a little-endian byte list. -/
def leNat : List UInt8 → Nat
  | [] => 0
  | b :: bs => b.toNat + 256 * leNat bs

/-- Two's complement reading of a `k`-bit number. -/
def signed (k n : Nat) : Int := if n < 2 ^ (k - 1) then n else (n : Int) - 2 ^ k

/-- Take exactly `k` bytes. -/
def take (k : Nat) (bs : List UInt8) : Option (List UInt8 × List UInt8) :=
  if k ≤ bs.length then some (bs.take k, bs.drop k) else none

/-- The REX bits. -/
structure Rex where
  w : Bool
  r : Bool
  x : Bool
  b : Bool
  deriving DecidableEq, Repr

/-- `true` adds 8 to a register number. -/
def ext (b : Bool) : Nat := if b then 8 else 0

/-- An optional operand-size prefix. -/
def take66 : List UInt8 → Bool × List UInt8
  | [] => (false, [])
  | b :: bs => if b.toNat = 0x66 then (true, bs) else (false, b :: bs)

/-- An optional REX prefix `0100WRXB`. -/
def takeRex : List UInt8 → Rex × List UInt8
  | [] => (⟨false, false, false, false⟩, [])
  | b :: bs =>
    let n := b.toNat
    if n / 16 = 4 then
      (⟨n / 8 % 2 = 1, n / 4 % 2 = 1, n / 2 % 2 = 1, n % 2 = 1⟩, bs)
    else (⟨false, false, false, false⟩, b :: bs)

/-- Displacement selected by `mod` (and by the no-base forms, which use 4 bytes). -/
def takeDisp (size : Nat) (bs : List UInt8) : Option (Int × List UInt8) :=
  match size with
  | 0 => some (0, bs)
  | size => do
    let (d, bs) ← take size bs
    some (signed (8 * size) (leNat d), bs)

/-- Bytes of displacement for `mod` 0, 1, 2. -/
def dispSize (md : Nat) : Nat := if md = 1 then 1 else if md = 2 then 4 else 0

/-- Memory operand following a ModRM byte with `mod ≠ 3` (SDM tables 2-2 and 2-3). -/
def takeMem (rex : Rex) (md rm : Nat) (bs : List UInt8) : Option (MemRef × List UInt8) :=
  if rm = 4 then
    match bs with
    | [] => none
    | s :: bs =>
      let scale := s.toNat / 64
      let index := s.toNat / 8 % 8 + ext rex.x
      let base := s.toNat % 8
      let idx := if index = 4 then none else some (index, scale)
      if base = 5 ∧ md = 0 then do
        let (d, bs) ← takeDisp 4 bs
        some (.sib none idx d, bs)
      else do
        let (d, bs) ← takeDisp (dispSize md) bs
        some (.sib (some (base + ext rex.b)) idx d, bs)
  else if rm = 5 ∧ md = 0 then do
    let (d, bs) ← takeDisp 4 bs
    some (.rip d, bs)
  else do
    let (d, bs) ← takeDisp (dispSize md) bs
    some (.sib (some (rm + ext rex.b)) none d, bs)

/-- Operand of a ModRM byte: the `reg` register and either a register or a memory operand. -/
def takeModRM (rex : Rex) (bs : List UInt8) :
    Option (Nat × (Nat ⊕ MemRef) × List UInt8) :=
  match bs with
  | [] => none
  | m :: bs =>
    let md := m.toNat / 64
    let reg := m.toNat / 8 % 8 + ext rex.r
    let rm := m.toNat % 8
    if md = 3 then some (reg, .inl (rm + ext rex.b), bs)
    else do
      let (mem, bs) ← takeMem rex md rm bs
      some (reg, .inr mem, bs)

/-- Operand size of most instructions. -/
def opSize (p66 : Bool) (rex : Rex) : Width := if rex.w then .w64 else if p66 then .w16 else .w32

/-- Operand size of push and pop in 64-bit mode. -/
def stackSize (p66 : Bool) (rex : Rex) : Width := if p66 && !rex.w then .w16 else .w64

/-- Decode after the prefixes. -/
def decodeOp (p66 : Bool) (rex : Rex) : List UInt8 → Option (Inst × List UInt8)
  | [] => none
  | op :: bs =>
    let n := op.toNat
    if n = 0x89 then do
      let (reg, rm, bs) ← takeModRM rex bs
      match rm with
      | .inl r => some (.movRegReg (opSize p66 rex) r reg, bs)
      | .inr m => some (.movMemReg (opSize p66 rex) m reg, bs)
    else if n = 0x8B then do
      let (reg, rm, bs) ← takeModRM rex bs
      match rm with
      | .inl r => some (.movRegReg (opSize p66 rex) reg r, bs)
      | .inr m => some (.movRegMem (opSize p66 rex) reg m, bs)
    else if n = 0x8D then do
      let (reg, rm, bs) ← takeModRM rex bs
      match rm with
      | .inl _ => none
      | .inr m => some (.lea (opSize p66 rex) reg m, bs)
    else if n / 8 = 0xB8 / 8 then do
      let w := opSize p66 rex
      let (imm, bs) ← take w.bytes bs
      some (.movRegImm w (n % 8 + ext rex.b) (leNat imm), bs)
    else if n / 8 = 0x50 / 8 then some (.pushReg (stackSize p66 rex) (n % 8 + ext rex.b), bs)
    else if n / 8 = 0x58 / 8 then some (.popReg (stackSize p66 rex) (n % 8 + ext rex.b), bs)
    else if n = 0x6A then do
      let (imm, bs) ← take 1 bs
      some (.pushImm (stackSize p66 rex) (signed 8 (leNat imm)), bs)
    else if n = 0x68 then do
      let k := if p66 && !rex.w then 2 else 4
      let (imm, bs) ← take k bs
      some (.pushImm (stackSize p66 rex) (signed (8 * k) (leNat imm)), bs)
    else if n = 0xC3 then if p66 then none else some (.ret, bs)
    else if n = 0x0F then
      match bs with
      | [] => none
      | op2 :: bs => if op2.toNat = 0x05 then some (.syscall, bs) else none
    else none

/-- Decode the first instruction; returns the bytes after it. -/
def decode (bs : List UInt8) : Option (Inst × List UInt8) :=
  let (p66, bs) := take66 bs
  let (rex, bs) := takeRex bs
  decodeOp p66 rex bs

/-- `Disasm bs is`: disassembling all of `bs` gives exactly the instructions `is`. -/
inductive Disasm : List UInt8 → List Inst → Prop
  | nil : Disasm [] []
  | cons {bs rest : List UInt8} {i : Inst} {is : List Inst} :
      decode bs = some (i, rest) → Disasm rest is → Disasm bs (i :: is)

/-! ## Execution -/

/-- Machine state: 16 registers, byte memory, instruction pointer. -/
structure State where
  reg : Nat → BitVec 64
  mem : BitVec 64 → BitVec 8
  rip : BitVec 64

/-- Effective address; `next` is the address of the following instruction. -/
def MemRef.addr (m : MemRef) (reg : Nat → BitVec 64) (next : BitVec 64) : BitVec 64 :=
  match m with
  | .rip d => next + BitVec.ofInt 64 d
  | .sib base index d =>
    (match base with | some b => reg b | none => 0) +
    (match index with | some (i, s) => reg i <<< s | none => 0) + BitVec.ofInt 64 d

/-- Write a register with the architectural merge/zero-extension rules. -/
def State.setReg (s : State) (w : Width) (r : Nat) (v : BitVec 64) : State :=
  let new : BitVec 64 := match w with
    | .w64 => v
    | .w32 => (v.truncate 32).zeroExtend 64
    | .w16 => (s.reg r &&& ~~~(0xFFFF : BitVec 64)) ||| ((v.truncate 16).zeroExtend 64)
  { s with reg := fun i => if i = r then new else s.reg i }

/-- Store the low `n` bytes of `v` at `a`, little-endian. -/
def storeBytes (mem : BitVec 64 → BitVec 8) (a : BitVec 64) : Nat → BitVec 64 → BitVec 64 → BitVec 8
  | 0, _ => mem
  | n + 1, v => fun x =>
    if x = a then v.truncate 8 else storeBytes mem (a + 1) n (v >>> 8) x

/-- Load `n` bytes at `a`, little-endian, zero-extended. -/
def loadBytes (mem : BitVec 64 → BitVec 8) (a : BitVec 64) : Nat → BitVec 64
  | 0 => 0
  | n + 1 => (mem a).zeroExtend 64 ||| (loadBytes mem (a + 1) n <<< 8)

/-- Number of the stack pointer. -/
def RSP : Nat := 4

/-- Push the low `w` bytes of `v`. -/
def State.push (s : State) (w : Width) (v : BitVec 64) : State :=
  let sp := s.reg RSP - BitVec.ofNat 64 w.bytes
  let s := s.setReg .w64 RSP sp
  { s with mem := storeBytes s.mem sp w.bytes v }

/-- Execute one instruction of encoded length `len`; `syscall` leaves the modelled world
(`none`). -/
def exec (i : Inst) (len : Nat) (s : State) : Option State :=
  let next := s.rip + BitVec.ofNat 64 len
  let s' := { s with rip := next }
  match i with
  | .movRegReg w d r => some (s'.setReg w d (s.reg r))
  | .movRegImm w d imm => some (s'.setReg w d (BitVec.ofNat 64 imm))
  | .movMemReg w m r => some { s' with mem := storeBytes s.mem (m.addr s.reg next) w.bytes (s.reg r) }
  | .movRegMem w d m => some (s'.setReg w d (loadBytes s.mem (m.addr s.reg next) w.bytes))
  | .lea w d m => some (s'.setReg w d (m.addr s.reg next))
  | .pushReg w r => some (s'.push w (s.reg r))
  | .pushImm w v => some (s'.push w (BitVec.ofInt 64 v))
  | .popReg w r =>
    let v := loadBytes s.mem (s.reg RSP) w.bytes
    let s'' := s'.setReg .w64 RSP (s.reg RSP + BitVec.ofNat 64 w.bytes)
    some (s''.setReg w r v)
  | .ret =>
    let v := loadBytes s.mem (s.reg RSP) 8
    let s'' := s'.setReg .w64 RSP (s.reg RSP + 8)
    some { s'' with rip := v }
  | .syscall => none

end X86
