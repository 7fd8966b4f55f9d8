import Verif.Proofs.X64InstDecode
import Verif.Proofs.X86Sem
/-!
# Properties of the instruction encoder (C01 - C09, C11)

`Inst.bytecode` is the modelled API (`Instruction::bytecode`), `X86.decode` / `X86.exec` the
specification of the processor, `X86.num64` etc. the hardware register numbers.
-/

namespace AT.Props
open AT.X64
open X86 (Width MemRef num64 num32 num16 State RSP MemOk DispFits OperandsOk MemFits PushFits meaning)

/-- `bytecode()` returns normally, with bytes `bs`. -/
def Encodes (i : Inst) (bs : Bytes) : Prop := ∃ b, i.bytecode = .ok b ∧ b.asRef = bs

/-- `bytecode()` returns normally, and whatever bytes follow, the processor reads exactly `ci`. -/
def EncodesAs (i : Inst) (ci : X86.Inst) : Prop :=
  ∃ bs, Encodes i bs ∧ ∀ rest, X86.decode (bs ++ rest) = some (ci, rest)

theorem encodesAs_of (i : Inst) (h : OperandsOk i) : EncodesAs i (cpuInst i) := by
  obtain ⟨bs, h1, _, _, _, h4⟩ := decodes_all i h
  exact ⟨bs, ⟨_, h1, asRef_buf15 bs⟩, h4⟩

theorem Encodes.unique {i : Inst} {a b : Bytes} (ha : Encodes i a) (hb : Encodes i b) : a = b := by
  obtain ⟨x, hx, rfl⟩ := ha
  obtain ⟨y, hy, rfl⟩ := hb
  rw [hx] at hy; cases hy; rfl

/-! ## C01 -/

/-- C01: `mov reg, reg` of each width encodes exactly that move. -/
theorem C01_mov_reg_reg :
    (∀ d s : Reg16, EncodesAs (.movReg16Reg16 d s) (.movRegReg .w16 (num16 d) (num16 s))) ∧
    (∀ d s : Reg32, EncodesAs (.movReg32Reg32 d s) (.movRegReg .w32 (num32 d) (num32 s))) ∧
    (∀ d s : Reg64, EncodesAs (.movReg64Reg64 d s) (.movRegReg .w64 (num64 d) (num64 s))) :=
  ⟨fun d s => encodesAs_of (.movReg16Reg16 d s) trivial,
   fun d s => encodesAs_of (.movReg32Reg32 d s) trivial,
   fun d s => encodesAs_of (.movReg64Reg64 d s) trivial⟩

/-- `mov r13, rax` is `49 89 C5`. -/
example : Encodes (.movReg64Reg64 .R13 .RAX) [0x49, 0x89, 0xC5] := ⟨_, rfl, rfl⟩

/-! ## C02 -/

/-- C02: `mov reg, imm` of each width encodes exactly that constant. -/
theorem C02_mov_reg_imm :
    (∀ (d : Reg16) (n : UInt16), EncodesAs (.movReg16Imm d n) (.movRegImm .w16 (num16 d) n.toNat)) ∧
    (∀ (d : Reg32) (n : UInt32), EncodesAs (.movReg32Imm d n) (.movRegImm .w32 (num32 d) n.toNat)) ∧
    (∀ (d : Reg64) (n : UInt64), EncodesAs (.movReg64Imm d n) (.movRegImm .w64 (num64 d) n.toNat)) :=
  ⟨fun d n => encodesAs_of (.movReg16Imm d n) trivial,
   fun d n => encodesAs_of (.movReg32Imm d n) trivial,
   fun d n => encodesAs_of (.movReg64Imm d n) trivial⟩

/-- `mov r9d, 0x12345678` is `41 B9 78 56 34 12`. -/
example : Encodes (.movReg32Imm .R9D 0x12345678) [0x41, 0xB9, 0x78, 0x56, 0x34, 0x12] := ⟨_, rfl, rfl⟩

/-! ## C03 -/

/-- C03: `push reg` / `pop reg` encode exactly that register and operand size. -/
theorem C03_push_pop_reg :
    (∀ r : Reg16, EncodesAs (.pushReg16 r) (.pushReg .w16 (num16 r))) ∧
    (∀ r : Reg64, EncodesAs (.pushReg64 r) (.pushReg .w64 (num64 r))) ∧
    (∀ r : Reg16, EncodesAs (.popReg16 r) (.popReg .w16 (num16 r))) ∧
    (∀ r : Reg64, EncodesAs (.popReg64 r) (.popReg .w64 (num64 r))) :=
  ⟨fun r => encodesAs_of (.pushReg16 r) trivial, fun r => encodesAs_of (.pushReg64 r) trivial,
   fun r => encodesAs_of (.popReg16 r) trivial, fun r => encodesAs_of (.popReg64 r) trivial⟩

/-- `push r12` is `41 54`, `pop bx` is `66 5B`. -/
example : Encodes (.pushReg64 .R12) [0x41, 0x54] ∧ Encodes (.popReg16 .BX) [0x66, 0x5B] :=
  ⟨⟨_, rfl, rfl⟩, ⟨_, rfl, rfl⟩⟩

/-! ## C04 -/

/-- Executing the encoding of `i` pushes the `w`-sized word `n`: the stack pointer goes down by the
word size, the word found there is `n`, no other register changes, and execution continues after
the instruction. -/
def Pushes (i : Inst) (w : Width) (n : Nat) : Prop :=
  ∃ bs ci, Encodes i bs ∧ X86.decode bs = some (ci, []) ∧ ∀ s : State, ∃ s',
    X86.exec ci bs.length s = some s' ∧
    s'.reg RSP = s.reg RSP - BitVec.ofNat 64 w.bytes ∧
    X86.loadBytes s'.mem (s'.reg RSP) w.bytes = BitVec.ofNat 64 n ∧
    (∀ r, r ≠ RSP → s'.reg r = s.reg r) ∧
    s'.rip = s.rip + BitVec.ofNat 64 bs.length

theorem pushes_iff (i : Inst) (w : Width) (v : Int) (n : Nat) (hi : OperandsOk i)
    (hc : cpuInst i = .pushImm w v) :
    Pushes i w n ↔
      ((BitVec.ofInt 64 v).truncate (8 * w.bytes)).zeroExtend 64 = BitVec.ofNat 64 n := by
  obtain ⟨bs, hb, hd⟩ := encodesAs_of i hi
  have hd0 := hd []
  rw [List.append_nil, hc] at hd0
  have hw : w.bytes < 2 ^ 64 := by cases w <;> decide
  constructor
  · rintro ⟨bs', ci, hb', hd', he⟩
    cases hb.unique hb'
    rw [hd0] at hd'
    cases hd'
    obtain ⟨s', h1, _, h3, _⟩ := he ⟨fun _ => 0, fun _ => 0, 0⟩
    simp only [X86.exec, State.push, Option.some.injEq] at h1
    subst h1
    simp only [State.setReg, if_true] at h3
    rw [X86.load_store _ _ hw] at h3
    exact h3
  · intro h
    refine ⟨bs, _, hb, hd0, fun s => ⟨_, rfl, ?_, ?_, ?_, ?_⟩⟩
    · simp only [State.push, State.setReg, if_true]
    · simp only [State.push, State.setReg, if_true]
      rw [X86.load_store _ _ hw]
      exact h
    · intro r hr
      simp only [State.push, State.setReg, if_neg hr]
    · rfl

theorem trunc64 (x : BitVec 64) : (x.truncate (8 * 8)).zeroExtend 64 = x := by
  apply BitVec.eq_of_toNat_eq; simp

/-- C04 for `u8`: the pushed 64-bit word is the requested number exactly when it is below 128. -/
theorem C04_push_u8_iff (n : UInt8) : Pushes (.pushU8 n) .w64 n.toNat ↔ n.toNat < 128 := by
  rw [pushes_iff (.pushU8 n) .w64 _ _ trivial rfl]
  simp only [Width.bytes, trunc64]
  exact X86.ofInt_signed_eq_iff (k := 8) (by omega) n.toNat_lt

/-- C04 for `u32`: the pushed 64-bit word is the requested number exactly when it is below 2^31. -/
theorem C04_push_u32_iff (n : UInt32) : Pushes (.pushU32 n) .w64 n.toNat ↔ n.toNat < 2 ^ 31 := by
  rw [pushes_iff (.pushU32 n) .w64 _ _ trivial rfl]
  simp only [Width.bytes, trunc64]
  exact X86.ofInt_signed_eq_iff (k := 32) (by omega) n.toNat_lt

/-- C04 for `u16`: the pushed 16-bit word is always the requested number. -/
theorem C04_push_u16 (n : UInt16) : Pushes (.pushU16 n) .w16 n.toNat := by
  rw [pushes_iff (.pushU16 n) .w16 _ _ trivial rfl]
  have hn : n.toNat < 65536 := n.toNat_lt
  apply BitVec.eq_of_toNat_eq
  simp only [Width.bytes, BitVec.truncate, BitVec.zeroExtend, BitVec.toNat_setWidth, BitVec.toNat_ofInt, BitVec.toNat_ofNat,
    X86.signed]
  split <;> simp only [Nat.reducePow, Nat.reduceMul, Nat.reduceSub, Int.reducePow] at * <;> omega

/-- C04 (full statement: every `n`). What holds: `u16` always; `u8` below 128; `u32` below 2^31.
Missing: the other values, where the statement is false (`C04_false`). -/
theorem C04_push_imm_partial :
    (∀ n : UInt16, Pushes (.pushU16 n) .w16 n.toNat) ∧
    (∀ n : UInt8, n.toNat < 128 → Pushes (.pushU8 n) .w64 n.toNat) ∧
    (∀ n : UInt32, n.toNat < 2 ^ 31 → Pushes (.pushU32 n) .w64 n.toNat) :=
  ⟨C04_push_u16, fun n => (C04_push_u8_iff n).2, fun n => (C04_push_u32_iff n).2⟩

/-- C04 is false of the code: `push 200` pushes 2^64 - 56. -/
theorem C04_false : ¬ Pushes (.pushU8 200) .w64 200 ∧ Pushes (.pushU8 200) .w64 (2 ^ 64 - 56) := by
  constructor
  · exact fun h => absurd ((C04_push_u8_iff 200).1 h) (by decide)
  · rw [pushes_iff (.pushU8 200) .w64 _ _ trivial rfl]; decide +kernel

/-- `push 5` is `6A 05`. -/
example : Encodes (.pushU8 5) [0x6A, 0x05] ∧ (5 : UInt8).toNat < 128 := ⟨⟨_, rfl, rfl⟩, by decide⟩

/-! ## C05 -/

/-- The decoded operand `m'` addresses what `m` documents, for every register file and every
address of the next instruction. -/
def SameAddress (m' : MemRef) (m : Mem64) : Prop :=
  ∀ (reg : Nat → BitVec 64) (next : BitVec 64), m'.addr reg next = X86.docAddr m reg next

/-- `lea` and the store of `m` encode the register operand and a memory operand addressing `m`. -/
def MemCorrect (m : Mem64) : Prop :=
  ∃ m', SameAddress m' m ∧
    (∀ r : Reg64, EncodesAs (.leaReg64Mem r m) (.lea .w64 (num64 r) m')) ∧
    (∀ r : Reg64, EncodesAs (.movMemReg64 m r) (.movMemReg .w64 m' (num64 r)))

theorem idx_addr (a : BitVec 64) (base : Option Nat) (index : Reg64) (scale : Nat) (d : Int)
    (reg : Nat → BitVec 64) (next : BitVec 64)
    (ha : (match base with | some b => reg b | none => 0) = a) :
    (MemRef.sib base (X86.idxOf index scale) d).addr reg next =
      a + (if index = .RSP then 0 else reg (num64 index) <<< scale) + BitVec.ofInt 64 d := by
  subst ha
  unfold X86.idxOf
  by_cases h : index = .RSP <;> cases base <;> simp [h, MemRef.addr]

/-- Displacement value actually used, per operand. -/
def usedDisp : Mem64 → Int
  | .regOffset _ d => cpuDisp d
  | .ripOffset d => X86.signed 32 d.toNat
  | .sib none d _ _ => X86.signed 32 d.toNat
  | .sib (some _) d _ _ => cpuDisp d

def askedDisp : Mem64 → Nat
  | .regOffset _ d => d.toNat
  | .ripOffset d => d.toNat
  | .sib _ d _ _ => d.toNat

theorem addr_cpuMem (m : Mem64) (reg : Nat → BitVec 64) (next : BitVec 64) :
    ∃ a : BitVec 64, (cpuMem m).addr reg next = a + BitVec.ofInt 64 (usedDisp m) ∧
      X86.docAddr m reg next = a + BitVec.ofNat 64 (askedDisp m) := by
  cases m with
  | regOffset r d =>
    exact ⟨reg (num64 r), by simp [cpuMem, MemRef.addr, usedDisp], rfl⟩
  | ripOffset d => exact ⟨next, rfl, rfl⟩
  | sib base d index scale =>
    cases base with
    | none =>
      refine ⟨0 + (if index = .RSP then 0 else reg (num64 index) <<< scale.toNat), ?_, rfl⟩
      exact idx_addr _ _ _ _ _ _ _ rfl
    | some b =>
      refine ⟨reg (num64 b) + (if index = .RSP then 0 else reg (num64 index) <<< scale.toNat), ?_, rfl⟩
      exact idx_addr _ _ _ _ _ _ _ rfl

theorem cpuDisp_iff (d : UInt32) :
    BitVec.ofInt 64 (cpuDisp d) = BitVec.ofNat 64 d.toNat ↔
      d.toNat < 128 ∨ 256 < d.toNat ∧ d.toNat < 2 ^ 31 := by
  unfold cpuDisp
  by_cases h : d.toNat ≤ 256
  · simp only [if_pos h]
    by_cases h2 : d.toNat = 256
    · rw [h2]; decide
    · rw [Nat.mod_eq_of_lt (by omega)]
      rw [X86.ofInt_signed_eq_iff (k := 8) (by omega) (by omega)]
      simp only [Nat.reduceSub, Nat.reducePow]
      omega
  · simp only [if_neg h]
    rw [X86.ofInt_signed_eq_iff (k := 32) (by omega) d.toNat_lt]
    simp only [Nat.reduceSub, Nat.reducePow]
    omega

theorem sameAddress_iff (m : Mem64) : SameAddress (cpuMem m) m ↔ DispFits m := by
  have key : SameAddress (cpuMem m) m ↔
      BitVec.ofInt 64 (usedDisp m) = BitVec.ofNat 64 (askedDisp m) := by
    constructor
    · intro h
      obtain ⟨a, h1, h2⟩ := addr_cpuMem m (fun _ => 0) 0
      have := h (fun _ => 0) 0
      rw [h1, h2] at this
      exact (BitVec.add_right_inj _).1 this
    · intro h reg next
      obtain ⟨a, h1, h2⟩ := addr_cpuMem m reg next
      rw [h1, h2, h]
  rw [key]
  cases m with
  | regOffset r d => exact cpuDisp_iff d
  | ripOffset d => exact X86.ofInt_signed_eq_iff (k := 32) (by omega) d.toNat_lt
  | sib base d index scale =>
    cases base with
    | none => exact X86.ofInt_signed_eq_iff (k := 32) (by omega) d.toNat_lt
    | some b => exact cpuDisp_iff d

theorem EncodesAs.unique {i : Inst} {a b : X86.Inst} (ha : EncodesAs i a) (hb : EncodesAs i b) :
    a = b := by
  obtain ⟨x, hx, hx'⟩ := ha
  obtain ⟨y, hy, hy'⟩ := hb
  cases hx.unique hy
  have := (hx' []).symm.trans (hy' [])
  simp at this
  exact this

/-- C05, exactly: a `Mem64` built by the constructors is addressed correctly by both instructions
iff its displacement is one the chosen encoding can represent (`X86.DispFits`). -/
theorem C05_mem_iff (m : Mem64) (h : MemOk m) : MemCorrect m ↔ DispFits m := by
  rw [← sameAddress_iff]
  constructor
  · rintro ⟨m', h1, h2, _⟩
    have := (h2 .RAX).unique (encodesAs_of (.leaReg64Mem .RAX m) h)
    cases this
    exact h1
  · intro hs
    exact ⟨cpuMem m, hs, fun r => encodesAs_of (.leaReg64Mem r m) h,
      fun r => encodesAs_of (.movMemReg64 m r) h⟩

/-- C05 (full statement: every displacement). What holds: every base, index, scale and register with
a displacement in `DispFits`. Missing: displacements 128..256 on a base register and >= 2^31, where
the statement is false (`C05_false`, `C05_mem_iff`). -/
theorem C05_mem_partial (m : Mem64) (h : MemOk m) (hd : DispFits m) : MemCorrect m :=
  (C05_mem_iff m h).2 hd

/-- C05 is false of the code: `[rax + 200]`, `[rbx + 256]`, `[rip + 2^31]`. -/
theorem C05_false : ¬ MemCorrect (.regOffset .RAX 200) ∧ ¬ MemCorrect (.regOffset .RBX 256) ∧
    ¬ MemCorrect (.ripOffset 0x80000000) := by
  refine ⟨?_, ?_, ?_⟩ <;> rw [C05_mem_iff _ (by trivial)] <;> simp [DispFits]

/-- `[r12 + r13*4 + 1000]` meets the hypotheses. -/
example : MemOk (.sib (some .R12) 1000 .R13 2) ∧ DispFits (.sib (some .R12) 1000 .R13 2) := by
  simp [MemOk, DispFits]

/-! ## C06 -/

/-- C06: every instruction with operands built by the constructors encodes to 1-15 bytes. -/
theorem C06_encodes (i : Inst) (h : OperandsOk i) :
    ∃ bs, Encodes i bs ∧ 1 ≤ bs.length ∧ bs.length ≤ 15 := by
  obtain ⟨bs, h1, h2, h3, _⟩ := decodes_all i h
  refine ⟨bs, ⟨_, h1, asRef_buf15 bs⟩, ?_, h3⟩
  cases bs with
  | nil => exact absurd rfl h2
  | cons a l => simp

/-- The public constructors of memory operands only build operands covered by C06; `sib` panics on
any other scale. -/
theorem C06_constructors (r : Reg64) (d : UInt32) (base : Option Reg64) (i : Reg64) (s : UInt8) :
    MemOk (.mkReg r) ∧ MemOk (.mkRegOffset r d) ∧ MemOk (.mkRipOffset d) ∧
    (∀ m, Mem64.mkSib base d i s = .ok m → MemOk m ∧ m = .sib base d i s) ∧
    (Mem64.mkSib base d i s = .error .panic ↔ 3 < s.toNat) := by
  refine ⟨trivial, trivial, trivial, ?_, ?_⟩
  · intro m h
    by_cases hs : s ≤ 3
    · simp [Mem64.mkSib, rassert, hs, bind, Except.bind, pure, Except.pure] at h
      subst h
      exact ⟨by rw [UInt8.le_iff_toNat_le] at hs; exact hs, rfl⟩
    · simp [Mem64.mkSib, rassert, hs, bind, Except.bind] at h
  · by_cases hs : s ≤ 3
    · simp [Mem64.mkSib, rassert, hs, bind, Except.bind, pure, Except.pure]
      rw [UInt8.le_iff_toNat_le] at hs; exact hs
    · simp [Mem64.mkSib, rassert, hs, bind, Except.bind]
      rw [UInt8.le_iff_toNat_le] at hs
      have : (3 : UInt8).toNat = 3 := rfl
      omega

/-- `lea` and the store of `m` encode the register operand and a memory operand with address `f`. -/
def Addresses (m : Mem64) (f : (Nat → BitVec 64) → BitVec 64 → BitVec 64) : Prop :=
  ∃ m' : MemRef, (∀ reg next, m'.addr reg next = f reg next) ∧
    (∀ r : Reg64, EncodesAs (.leaReg64Mem r m) (.lea .w64 (num64 r) m')) ∧
    (∀ r : Reg64, EncodesAs (.movMemReg64 m r) (.movMemReg .w64 m' (num64 r)))

/-- C05 for the public constructors (small displacements): the address each of them stands for. -/
theorem C05_constructors (b i : Reg64) (d : UInt32) (s : UInt8) (hd : d.toNat < 128) :
    Addresses (.mkReg b) (fun reg _ => reg (num64 b)) ∧
    Addresses (.mkRegOffset b d) (fun reg _ => reg (num64 b) + BitVec.ofNat 64 d.toNat) ∧
    Addresses (.mkRipOffset d) (fun _ next => next + BitVec.ofNat 64 d.toNat) ∧
    (∀ m, Mem64.mkSib (some b) d i s = .ok m → i ≠ .RSP → Addresses m (fun reg _ =>
      reg (num64 b) + reg (num64 i) * BitVec.ofNat 64 (2 ^ s.toNat) + BitVec.ofNat 64 d.toNat)) ∧
    (∀ m, Mem64.mkSib none d i s = .ok m → i ≠ .RSP → Addresses m (fun reg _ =>
      reg (num64 i) * BitVec.ofNat 64 (2 ^ s.toNat) + BitVec.ofNat 64 d.toNat)) := by
  have key : ∀ m, MemOk m → DispFits m → Addresses m (X86.docAddr m) := by
    intro m h1 h2
    obtain ⟨m', h3, h4⟩ := C05_mem_partial m h1 h2
    exact ⟨m', h3, h4⟩
  have to : ∀ {m f g}, Addresses m f → (∀ reg next, f reg next = g reg next) → Addresses m g := by
    rintro m f g ⟨m', h1, h2⟩ h
    exact ⟨m', fun reg next => (h1 reg next).trans (h reg next), h2⟩
  have shl : ∀ (x : BitVec 64) (n : Nat), x <<< n = x * BitVec.ofNat 64 (2 ^ n) := by
    intro x n
    rw [BitVec.shiftLeft_eq_mul_twoPow, BitVec.twoPow_eq]
    congr 1
    apply BitVec.eq_of_toNat_eq
    simp [Nat.one_shiftLeft]
  have hs : ∀ {base m}, Mem64.mkSib base d i s = .ok m → MemOk m ∧ m = .sib base d i s :=
    fun {base m} h => (C06_constructors b d base i s).2.2.2.1 m h
  refine ⟨to (key (.mkReg b) trivial (.inl (by decide))) ?_, to (key (.mkRegOffset b d) trivial (.inl hd)) ?_,
    to (key (.mkRipOffset d) trivial (show d.toNat < 2 ^ 31 by omega)) ?_, ?_, ?_⟩
  · intro reg next
    simp [X86.docAddr, Mem64.mkReg]
  · intro reg next
    rfl
  · intro reg next
    rfl
  · intro m hm hi
    obtain ⟨h1, rfl⟩ := hs hm
    refine to (key _ h1 (.inl hd)) fun reg next => ?_
    simp only [X86.docAddr, if_neg hi, shl]
  · intro m hm hi
    obtain ⟨h1, rfl⟩ := hs hm
    refine to (key _ h1 (show d.toNat < 2 ^ 31 by omega)) fun reg next => ?_
    simp only [X86.docAddr, if_neg hi, shl]
    simp

/-- The longest encoding: `lea r15, [r13 + r14*8 + 0x12345678]`, 8 bytes. -/
example : OperandsOk (.leaReg64Mem .R15 (.sib (some .R13) 0x12345678 .R14 3)) ∧
    Encodes (.leaReg64Mem .R15 (.sib (some .R13) 0x12345678 .R14 3))
      [0x4F, 0x8D, 0xBC, 0xF5, 0x78, 0x56, 0x34, 0x12] :=
  ⟨by simp [OperandsOk, MemOk], ⟨_, rfl, rfl⟩⟩

/-! ## C07 -/

/-- `bs` is the concatenation of the encodings of the list. -/
inductive EncodesList : List Inst → Bytes → Prop
  | nil : EncodesList [] []
  | cons {i : Inst} {is : List Inst} {a b : Bytes} :
      Encodes i a → EncodesList is b → EncodesList (i :: is) (a ++ b)

theorem disasm_unique {bs : Bytes} {x y : List X86.Inst} (hx : X86.Disasm bs x)
    (hy : X86.Disasm bs y) : x = y := by
  induction hx generalizing y with
  | nil =>
    cases hy with
    | nil => rfl
    | cons h _ => simp [X86.decode, X86.take66, X86.takeRex, X86.decodeOp] at h
  | cons h _ ih =>
    cases hy with
    | nil => simp [X86.decode, X86.take66, X86.takeRex, X86.decodeOp] at h
    | cons h' t' =>
      rw [h] at h'
      cases h'
      rw [ih t']

theorem disasm_cpu (l : List Inst) (h : ∀ i ∈ l, OperandsOk i) {bs : Bytes} (hb : EncodesList l bs) :
    X86.Disasm bs (l.map cpuInst) := by
  induction hb with
  | nil => exact .nil
  | @cons i is a b hi _ ih =>
    obtain ⟨a', ha', hd⟩ := encodesAs_of i (h i (by simp))
    cases hi.unique ha'
    exact .cons (hd b) (ih fun j hj => h j (by simp [hj]))

theorem signed_of_fits {k n : Nat} (h : n < 2 ^ (k - 1)) : X86.signed k n = n := X86.signed_of_lt h

theorem cpuDisp_of_fits {d : UInt32} (h : d.toNat < 128 ∨ 256 < d.toNat ∧ d.toNat < 2 ^ 31) :
    cpuDisp d = d.toNat := by
  unfold cpuDisp
  rcases h with h | ⟨h1, h2⟩
  · rw [if_pos (by omega), Nat.mod_eq_of_lt (by omega), X86.signed_of_lt (by simpa using h)]
  · rw [if_neg (by omega), X86.signed_of_lt (by simpa using h2)]

theorem cpuMem_of_fits {m : Mem64} (h : DispFits m) : cpuMem m = X86.memRef m := by
  cases m with
  | regOffset r d => simp only [cpuMem, X86.memRef, cpuDisp_of_fits h]
  | ripOffset d => simp only [cpuMem, X86.memRef]; rw [X86.signed_of_lt (by simpa [DispFits] using h)]
  | sib base d index scale =>
    cases base with
    | none =>
      simp only [cpuMem, X86.memRef, Option.map_none]
      rw [X86.signed_of_lt (by simpa [DispFits] using h)]
    | some b => simp only [cpuMem, X86.memRef, Option.map_some, cpuDisp_of_fits h]

theorem cpuInst_of_fits {i : Inst} (hm : MemFits i) (hp : PushFits i) : cpuInst i = meaning i := by
  cases i <;> simp only [cpuInst, meaning] <;> first
    | rw [cpuMem_of_fits hm]
    | rw [X86.signed_of_lt (by simpa [PushFits] using hp)]

/-- C07: concatenated encodings disassemble to exactly the requested instructions (those whose
displacement and push immediate are representable), and to nothing else. -/
theorem C07_streams (l : List Inst)
    (h : ∀ i ∈ l, OperandsOk i ∧ MemFits i ∧ PushFits i) :
    ∃ bs, EncodesList l bs ∧ X86.Disasm bs (l.map meaning) ∧
      ∀ other, X86.Disasm bs other → other = l.map meaning := by
  have hex : ∃ bs, EncodesList l bs := by
    induction l with
    | nil => exact ⟨[], .nil⟩
    | cons i is ih =>
      obtain ⟨b, hb⟩ := ih fun j hj => h j (by simp [hj])
      obtain ⟨a, ha, _⟩ := encodesAs_of i (h i (by simp)).1
      exact ⟨a ++ b, .cons ha hb⟩
  obtain ⟨bs, hb⟩ := hex
  have hd := disasm_cpu l (fun i hi => (h i hi).1) hb
  have e : l.map cpuInst = l.map meaning :=
    List.map_congr_left fun i hi => cpuInst_of_fits (h i hi).2.1 (h i hi).2.2
  rw [e] at hd
  exact ⟨bs, hb, hd, fun other ho => disasm_unique ho hd⟩

/-- C07, for all operands: instruction boundaries are always recovered; each element is what that
instruction alone decodes to, and there is no other reading. -/
theorem C07_boundaries (l : List Inst) (h : ∀ i ∈ l, OperandsOk i) {bs : Bytes}
    (hb : EncodesList l bs) : ∃ cis, X86.Disasm bs cis ∧ cis.length = l.length ∧
      (∀ k (hk : k < l.length) (hk' : k < cis.length), EncodesAs l[k] cis[k]) ∧
      ∀ other, X86.Disasm bs other → other = cis := by
  refine ⟨l.map cpuInst, disasm_cpu l h hb, by simp, ?_, fun other ho => disasm_unique ho (disasm_cpu l h hb)⟩
  intro k hk hk'
  simp only [List.getElem_map]
  exact encodesAs_of _ (h _ (List.getElem_mem hk))

/-- A stream with all kinds of operands meets the hypotheses. -/
example : ∀ i ∈ [Inst.movReg64Imm .RAX 0x2000004, .leaReg64Mem .R9 (.regOffset .RBP 300), .pushU8 5,
    .pushU16 0x1234, .popReg16 .R8W, .syscall, .ret], OperandsOk i ∧ MemFits i ∧ PushFits i := by
  simp [OperandsOk, MemFits, PushFits, MemOk, DispFits]

/-! ## C08 -/

theorem signed_inj {k a b : Nat} (ha : a < 2 ^ k) (hb : b < 2 ^ k) (h : X86.signed k a = X86.signed k b) :
    a = b := by
  unfold X86.signed at h
  have hc : ((2 ^ k : Nat) : Int) = 2 ^ k := by norm_cast
  have ha' : (a : Int) < 2 ^ k := by rw [← hc]; exact_mod_cast ha
  have hb' : (b : Int) < 2 ^ k := by rw [← hc]; exact_mod_cast hb
  generalize (2 : Int) ^ k = q at *
  split at h <;> split at h <;> omega

theorem num64_inj {a b : Reg64} (h : num64 a = num64 b) : a = b := by
  revert h; cases a <;> cases b <;> simp [num64]
theorem num32_inj {a b : Reg32} (h : num32 a = num32 b) : a = b := by
  revert h; cases a <;> cases b <;> simp [num32]
theorem num16_inj {a b : Reg16} (h : num16 a = num16 b) : a = b := by
  revert h; cases a <;> cases b <;> simp [num16]

theorem Encodes.pfx {i : Inst} {bs : Bytes} (h : Encodes i bs) (hi : OperandsOk i) :
    ∃ t, bs = optByte id (p66 (X86.prefixes i).p66) ++ (X86.rexByte (X86.prefixes i).w
      (X86.prefixes i).r (X86.prefixes i).x (X86.prefixes i).b ++ ((X86.prefixes i).opcode ++ t)) := by
  obtain ⟨bs', h1, _, _, h5, _⟩ := decodes_all i hi
  cases h.unique ⟨_, h1, asRef_buf15 bs'⟩
  exact h5

/-- Equal encodings: same decoded instruction, and for two pushes of an immediate the same type. -/
theorem same_cpu (i j : Inst) (hi : OperandsOk i) (hj : OperandsOk j) (bs : Bytes)
    (h1 : Encodes i bs) (h2 : Encodes j bs) :
    cpuInst i = cpuInst j ∧ ∀ m n, ¬ (i = .pushU8 m ∧ j = .pushU32 n) := by
  obtain ⟨a, ha, ha'⟩ := encodesAs_of i hi
  obtain ⟨b, hb, hb'⟩ := encodesAs_of j hj
  cases h1.unique ha
  cases h2.unique hb
  constructor
  · have := (ha' []).symm.trans (hb' [])
    simpa using this
  · rintro m n ⟨rfl, rfl⟩
    obtain ⟨t, ht⟩ := h1.pfx trivial
    obtain ⟨u, hu⟩ := h2.pfx trivial
    rw [ht] at hu
    simp [X86.prefixes, p66, optByte_none, X86.rexByte] at hu

/-- The instruction has no memory operand. -/
def NoMem : Inst → Prop
  | .movMemReg64 _ _ => False
  | .leaReg64Mem _ _ => False
  | _ => True

/-- C08 for instructions without memory operand: the encoding determines the instruction. -/
theorem C08_injective_reg_imm (i j : Inst) (hi : NoMem i) (hj : NoMem j)
    (bs : Bytes) (h1 : Encodes i bs) (h2 : Encodes j bs) : i = j := by
  have oi : OperandsOk i := by cases i <;> first | trivial | exact absurd hi id
  have oj : OperandsOk j := by cases j <;> first | trivial | exact absurd hj id
  obtain ⟨e, hne⟩ := same_cpu i j oi oj bs h1 h2
  have hne' := (same_cpu j i oj oi bs h2 h1).2
  cases i <;> cases j <;> simp only [cpuInst, reduceCtorEq, X86.Inst.movMemReg.injEq,
      X86.Inst.movRegReg.injEq, X86.Inst.movRegImm.injEq, X86.Inst.lea.injEq, X86.Inst.pushImm.injEq,
      X86.Inst.pushReg.injEq, X86.Inst.popReg.injEq, false_and, true_and] at e <;>
    first
    | rfl
    | exact absurd hi id
    | (rw [num64_inj e.1, num64_inj e.2])
    | (rw [num32_inj e.1, num32_inj e.2])
    | (rw [num16_inj e.1, num16_inj e.2])
    | (rw [num64_inj e.1, UInt64.toNat_inj.mp e.2])
    | (rw [num32_inj e.1, UInt32.toNat_inj.mp e.2])
    | (rw [num16_inj e.1, UInt16.toNat_inj.mp e.2])
    | (rw [num64_inj e])
    | (rw [num16_inj e])
    | (rw [UInt8.toNat_inj.mp (signed_inj (UInt8.toNat_lt _) (UInt8.toNat_lt _) e)])
    | (rw [UInt16.toNat_inj.mp (signed_inj (UInt16.toNat_lt _) (UInt16.toNat_lt _) e)])
    | (rw [UInt32.toNat_inj.mp (signed_inj (UInt32.toNat_lt _) (UInt32.toNat_lt _) e)])
    | exact absurd ⟨rfl, rfl⟩ (hne _ _)
    | exact absurd ⟨rfl, rfl⟩ (hne' _ _)

/-- C08: two instructions with equal encodings denote the same operation on the same operands. -/
theorem C08_injective (i j : Inst) (hi : OperandsOk i) (hj : OperandsOk j) (mi : MemFits i)
    (mj : MemFits j) (bs : Bytes) (h1 : Encodes i bs) (h2 : Encodes j bs) : meaning i = meaning j := by
  by_cases ni : NoMem i
  · by_cases nj : NoMem j
    · rw [C08_injective_reg_imm i j ni nj bs h1 h2]
    · have e := (same_cpu i j hi hj bs h1 h2).1
      cases j <;> simp only [NoMem, not_true, not_false_eq_true] at nj <;> cases i <;>
        first | exact absurd ni id | simp [cpuInst] at e
  · have e := (same_cpu i j hi hj bs h1 h2).1
    cases i <;> simp only [NoMem, not_true, not_false_eq_true] at ni <;> cases j <;>
      simp only [cpuInst, reduceCtorEq] at e
    · simp only [MemFits] at mi mj
      rw [cpuMem_of_fits mi, cpuMem_of_fits mj] at e
      exact e
    · simp only [MemFits] at mi mj
      rw [cpuMem_of_fits mi, cpuMem_of_fits mj] at e
      exact e

/-- Without the representability hypothesis C08 fails: `lea rax, [rbp + 256]` and
`lea rax, [rbp + 0]` have the same encoding. -/
theorem C08_aliasing : Encodes (.leaReg64Mem .RAX (.regOffset .RBP 256)) [0x48, 0x8D, 0x45, 0x00] ∧
    Encodes (.leaReg64Mem .RAX (.regOffset .RBP 0)) [0x48, 0x8D, 0x45, 0x00] :=
  ⟨⟨_, rfl, rfl⟩, ⟨_, rfl, rfl⟩⟩

/-- Two different values with one encoding (`[r12]` and `[r12 + no index]`): the hypotheses of
`C08_injective` hold and the meanings agree. -/
example : Encodes (.leaReg64Mem .RAX (.regOffset .R12 0)) [0x49, 0x8D, 0x04, 0x24] ∧
    Encodes (.leaReg64Mem .RAX (.sib (some .R12) 0 .RSP 0)) [0x49, 0x8D, 0x04, 0x24] :=
  ⟨⟨_, rfl, rfl⟩, ⟨_, rfl, rfl⟩⟩

/-! ## C09 -/

/-- Replace the bytes of `bs` from `off` on by the `k` little-endian bytes of `v`. -/
def patch (bs : Bytes) (off k v : Nat) : Bytes := bs.take off ++ leBytes k v ++ bs.drop (off + k)

theorem movReg64Imm_bytes (d : Reg64) (n : UInt64) : Encodes (.movReg64Imm d n)
    ((X86.rexByte true false false d.isExtended ++ [UInt8.ofNat 0xB8 + UInt8.ofNat (num64 d % 8)]) ++
      leBytes 8 n.toNat) := by
  obtain ⟨bs, h1, h2, h3, h5, h4⟩ := encode_plain false true d.isExtended
    (UInt8.ofNat 0xB8 + UInt8.ofNat (num64 d % 8)) ⟨leBytes 8 n.toNat ++ List.replicate (8 - 8) 0, 8⟩
    (full_le 8 _ (by omega)) (code_div _ _ (by omega) (by omega)) (code_ne _ _ (by omega) (by omega)) (by simp)
  refine ⟨buf15 bs, ?_, ?_⟩
  · show movReg64Imm d n = _
    simp only [movReg64Imm, new_eq, bind, Except.bind, Encoder.withRexW, Encoder.withRexB, withOpcode1,
      ofU64_8, reg64_code, Encoder.withImm]
    simpa [p66] using h1
  · rw [asRef_buf15, h5, asRef_le]
    simp [p66, optByte_none]

theorem movReg32Imm_bytes (d : Reg32) (n : UInt32) : Encodes (.movReg32Imm d n)
    ((X86.rexByte false false false d.isExtended ++ [UInt8.ofNat 0xB8 + UInt8.ofNat (num32 d % 8)]) ++
      leBytes 4 n.toNat) := by
  obtain ⟨bs, h1, h2, h3, h5, h4⟩ := encode_plain false false d.isExtended
    (UInt8.ofNat 0xB8 + UInt8.ofNat (num32 d % 8)) ⟨leBytes 4 n.toNat ++ List.replicate (8 - 4) 0, 4⟩
    (full_le 4 _ (by omega)) (code_div _ _ (by omega) (by omega)) (code_ne _ _ (by omega) (by omega)) (by simp)
  refine ⟨buf15 bs, ?_, ?_⟩
  · show movReg32Imm d n = _
    simp only [movReg32Imm, new_eq, bind, Except.bind, Encoder.withRexB, withOpcode1,
      ofU32_8, reg32_code, Encoder.withImm]
    simpa [p66] using h1
  · rw [asRef_buf15, h5, asRef_le]
    simp [p66, optByte_none]

theorem patch_eq (p : Bytes) (k off a v : Nat) (h : p.length = off) :
    patch (p ++ leBytes k a) off k v = p ++ leBytes k v := by
  subst h
  simp [patch, length_leBytes, List.drop_of_length_le]

/-- C09 for 64-bit moves: the bytes from `offset_to_imm_bytes()` on are exactly the little-endian
immediate, and replacing them by the bytes of `v` gives the encoding of the same move of `v`. -/
theorem C09_offset_64 (d : Reg64) (n v : UInt64) : ∃ bs, Encodes (.movReg64Imm d n) bs ∧
    bs.drop (movReg64ImmOffset d).toNat = leBytes 8 n.toNat ∧
    Encodes (.movReg64Imm d v) (patch bs (movReg64ImmOffset d).toNat 8 v.toNat) := by
  have hl : (X86.rexByte true false false d.isExtended ++
      [UInt8.ofNat 0xB8 + UInt8.ofNat (num64 d % 8)]).length = (movReg64ImmOffset d).toNat := by
    simp [X86.rexByte, movReg64ImmOffset]
  refine ⟨_, movReg64Imm_bytes d n, ?_, ?_⟩
  · rw [← hl, List.drop_left]
  · rw [patch_eq _ _ _ _ _ hl]; exact movReg64Imm_bytes d v

/-- C09 for 32-bit moves. -/
theorem C09_offset_32 (d : Reg32) (n v : UInt32) : ∃ bs, Encodes (.movReg32Imm d n) bs ∧
    bs.drop (movReg32ImmOffset d).toNat = leBytes 4 n.toNat ∧
    Encodes (.movReg32Imm d v) (patch bs (movReg32ImmOffset d).toNat 4 v.toNat) := by
  have hl : (X86.rexByte false false false d.isExtended ++
      [UInt8.ofNat 0xB8 + UInt8.ofNat (num32 d % 8)]).length = (movReg32ImmOffset d).toNat := by
    cases h : d.isExtended <;> simp [X86.rexByte, movReg32ImmOffset, h]
  refine ⟨_, movReg32Imm_bytes d n, ?_, ?_⟩
  · rw [← hl, List.drop_left]
  · rw [patch_eq _ _ _ _ _ hl]; exact movReg32Imm_bytes d v

/-- `mov r8d, 7`: the immediate is at offset 2. -/
example : Encodes (.movReg32Imm .R8D 7) [0x41, 0xB8, 7, 0, 0, 0] ∧ movReg32ImmOffset .R8D = 2 :=
  ⟨⟨_, rfl, rfl⟩, rfl⟩

/-! ## C11 -/

/-- C11: every encoding is: the `66` prefix iff 16-bit, then the REX byte `0100WRXB` iff one of its
bits is needed, then the opcode; the bits are those of `X86.prefixes`. -/
theorem C11_rex (i : Inst) (h : OperandsOk i) : ∃ tail, Encodes i
    ((if (X86.prefixes i).p66 then [0x66] else []) ++
      X86.rexByte (X86.prefixes i).w (X86.prefixes i).r (X86.prefixes i).x (X86.prefixes i).b ++
      (X86.prefixes i).opcode ++ tail) := by
  obtain ⟨bs, h1, _, _, ⟨t, ht⟩, _⟩ := decodes_all i h
  refine ⟨t, ⟨_, h1, ?_⟩⟩
  rw [asRef_buf15, ht]
  simp only [List.append_assoc]
  congr 1
  cases (X86.prefixes i).p66 <;> rfl

/-- `mov [r9 + rbx*2], r10`: REX is `4D` (W, R, B). -/
example : OperandsOk (.movMemReg64 (.sib (some .R9) 0 .RBX 1) .R10) ∧
    Encodes (.movMemReg64 (.sib (some .R9) 0 .RBX 1) .R10) [0x4D, 0x89, 0x14, 0x59] :=
  ⟨by simp [OperandsOk, MemOk], ⟨_, rfl, rfl⟩⟩

end AT.Props
