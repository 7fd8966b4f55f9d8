import Verif.Model.X64Bytes
import Verif.Model.X64Reg
/-!
# at-x64: memory operands and the encoder
(`/repo/at-x64/src/mem.rs`, `encoder/bytecode.rs`, `encoder/mod.rs`)
-/

namespace AT.X64

/-- `at-x64/src/mem.rs:3-26` `enum Mem64`. -/
inductive Mem64 where
  | regOffset (reg : Reg64) (disp : UInt32)
  | ripOffset (disp : UInt32)
  | sib (base : Option Reg64) (disp : UInt32) (index : Reg64) (scale : UInt8)
  deriving DecidableEq, Repr

/-- `at-x64/src/mem.rs:29-31` `Mem64::reg`. -/
def Mem64.mkReg (reg : Reg64) : Mem64 := .regOffset reg 0

/-- `at-x64/src/mem.rs:33-35` `Mem64::reg_offset`. -/
def Mem64.mkRegOffset (reg : Reg64) (offset : UInt32) : Mem64 := .regOffset reg offset

/-- `at-x64/src/mem.rs:37-39` `Mem64::rip_offset`. -/
def Mem64.mkRipOffset (offset : UInt32) : Mem64 := .ripOffset offset

/-- `at-x64/src/mem.rs:41-49` `Mem64::sib`: asserts `scale <= 3`. -/
def Mem64.mkSib (base : Option Reg64) (disp : UInt32) (index : Reg64) (scale : UInt8) :
    Res Mem64 := do
  rassert (scale ≤ 3)
  pure (.sib base disp index scale)

/-! ## `encoder/bytecode.rs` -/

/-- `at-x64/src/encoder/bytecode.rs:74` `struct Rex(u8)`. -/
structure Rex where
  byte : UInt8
  deriving DecidableEq, Repr

/-- `bytecode.rs:77-79` `Rex::new`. -/
def Rex.new : Rex := ⟨0b01000000⟩

/-- `bytecode.rs:85-91` `Rex::set_w`. -/
def Rex.setW (r : Rex) (flag : Bool) : Rex :=
  if flag then ⟨r.byte ||| 0b00001000⟩ else ⟨r.byte &&& 0b11110111⟩

/-- `bytecode.rs:93-99` `Rex::set_r`. -/
def Rex.setR (r : Rex) (flag : Bool) : Rex :=
  if flag then ⟨r.byte ||| 0b00000100⟩ else ⟨r.byte &&& 0b11111011⟩

/-- `bytecode.rs:101-107` `Rex::set_x`. -/
def Rex.setX (r : Rex) (flag : Bool) : Rex :=
  if flag then ⟨r.byte ||| 0b00000010⟩ else ⟨r.byte &&& 0b11111101⟩

/-- `bytecode.rs:109-115` `Rex::set_b`. -/
def Rex.setB (r : Rex) (flag : Bool) : Rex :=
  if flag then ⟨r.byte ||| 0b00000001⟩ else ⟨r.byte &&& 0b11111110⟩

/-- `bytecode.rs:118` `struct ModRM(u8)`. -/
structure ModRM where
  byte : UInt8
  deriving DecidableEq, Repr

/-- `bytecode.rs:121-123` `ModRM::new`. -/
def ModRM.new : ModRM := ⟨0⟩

/-- `bytecode.rs:130-133` `set_mode`.  The `u8` addition cannot overflow: the masked bits are
disjoint from `mode << 6` (`mode <= 3` is asserted). -/
def ModRM.setMode (m : ModRM) (mode : UInt8) : Res ModRM := do
  rassert (mode ≤ 0b11)
  pure ⟨(m.byte &&& (0b00111111 : UInt8)) + (mode <<< (6 : UInt8))⟩

/-- `bytecode.rs:136-139` `set_reg` (no overflow, as above). -/
def ModRM.setReg (m : ModRM) (reg : UInt8) : Res ModRM := do
  rassert (reg ≤ 0b111)
  pure ⟨(m.byte &&& (0b11000111 : UInt8)) + (reg <<< (3 : UInt8))⟩

/-- `bytecode.rs:142-145` `set_rm` (no overflow, as above). -/
def ModRM.setRm (m : ModRM) (rm : UInt8) : Res ModRM := do
  rassert (rm ≤ 0b111)
  pure ⟨(m.byte &&& 0b11111000) + rm⟩

/-- `bytecode.rs:148` `struct Sib(u8)`. -/
structure Sib where
  byte : UInt8
  deriving DecidableEq, Repr

/-- `bytecode.rs:151-157` `Sib::new`. -/
def Sib.new (scale index base : UInt8) : Res Sib := do
  rassert (scale ≤ 0b11)
  rassert (index ≤ 0b111)
  rassert (base ≤ 0b111)
  pure ⟨(scale <<< (6 : UInt8)) ||| (index <<< (3 : UInt8)) ||| base⟩

/-- `bytecode.rs:5-14` `struct ByteCode`. -/
structure ByteCode where
  pfx : Option UInt8
  rex : Option Rex
  opcode : BytesAtMost 3
  modRm : Option ModRM
  sib : Option Sib
  addrDisp : BytesAtMost 4
  imm : BytesAtMost 8

/-- `bool as usize` / `Option::is_some() as usize`. -/
def optLen {α : Type} (o : Option α) : Nat := if o.isSome then 1 else 0

/-- The bytes of an optional one-byte field. -/
def optByte {α : Type} (f : α → UInt8) : Option α → Bytes
  | some a => [f a]
  | none => []

/-- `bytecode.rs:29-65` `ByteCode::to_bytes`.  The `Cursor` writes, in order, exactly `len`
bytes into the `len`-byte slice `bytes.as_mut()`; they are collected into one `overwrite`. -/
def ByteCode.toBytes (b : ByteCode) : Res (BytesAtMost 15) := do
  let len := optLen b.pfx + optLen b.rex + b.opcode.len + optLen b.modRm + optLen b.sib +
    b.addrDisp.len + b.imm.len
  let bytes ← BytesAtMost.withLen 15 len
  bytes.overwrite
    (optByte id b.pfx ++ optByte Rex.byte b.rex ++ b.opcode.asRef ++ optByte ModRM.byte b.modRm ++
      optByte Sib.byte b.sib ++ b.addrDisp.asRef ++ b.imm.asRef)

/-! ## `encoder/mod.rs` -/

/-- `encoder/mod.rs:140-146` `trait RegLike`. -/
class RegLike (α : Type) where
  rexR : α → Bool
  reg : α → UInt8

/-- `encoder/mod.rs:148-166` `trait RegMemLike`. `sib` and `disp_bytes` may panic. -/
class RegMemLike (α : Type) where
  rexB : α → Bool
  rexX : α → Bool
  mode : α → UInt8
  rm : α → UInt8
  sib : α → Res (Option Sib)
  dispBytes : α → Res (BytesAtMost 4)

/-- `encoder/mod.rs:168-176`. -/
instance : RegLike Reg64 := ⟨Reg64.isExtended, Reg64.registerCode⟩
/-- `encoder/mod.rs:178-186`. -/
instance : RegLike Reg32 := ⟨Reg32.isExtended, Reg32.registerCode⟩
/-- `encoder/mod.rs:188-196`. -/
instance : RegLike Reg16 := ⟨Reg16.isExtended, Reg16.registerCode⟩
/-- `encoder/mod.rs:198-207` (opcode extension). -/
instance : RegLike UInt8 := ⟨fun _ => false, id⟩

/-- `encoder/mod.rs:209-233`. -/
instance : RegMemLike Reg64 where
  rexB := Reg64.isExtended
  rexX _ := false
  mode _ := 0b11
  rm := Reg64.registerCode
  sib _ := .ok none
  dispBytes _ := BytesAtMost.withLen 4 0

/-- `encoder/mod.rs:235-259`. -/
instance : RegMemLike Reg32 where
  rexB := Reg32.isExtended
  rexX _ := false
  mode _ := 0b11
  rm := Reg32.registerCode
  sib _ := .ok none
  dispBytes _ := BytesAtMost.withLen 4 0

/-- `encoder/mod.rs:261-285`. -/
instance : RegMemLike Reg16 where
  rexB := Reg16.isExtended
  rexX _ := false
  mode _ := 0b11
  rm := Reg16.registerCode
  sib _ := .ok none
  dispBytes _ := BytesAtMost.withLen 4 0

/-- The pattern `RBP | R13`. -/
def isBpLike (r : Reg64) : Bool := r == .RBP || r == .R13

/-- The pattern `RSP | R12`. -/
def isSpLike (r : Reg64) : Bool := r == .RSP || r == .R12

/-- `encoder/mod.rs:288-297` `Mem64::rex_b`. -/
def Mem64.rexB : Mem64 → Bool
  | .regOffset reg _ => reg.rexBBit
  | .ripOffset _ => false
  | .sib (some base) _ _ _ => base.rexBBit
  | .sib none _ _ _ => false

/-- `encoder/mod.rs:299-304` `Mem64::rex_x`. -/
def Mem64.rexX : Mem64 → Bool
  | .sib _ _ index _ => index.isExtended
  | _ => false

/-- `encoder/mod.rs:306-330` `Mem64::mode` (match arms in source order). -/
def Mem64.mode : Mem64 → UInt8
  | .regOffset r d =>
    if isBpLike r && d == 0 then 0b01
    else if d == 0 then 0b00
    else if 1 ≤ d ∧ d ≤ 256 then 0b01
    else 0b10
  | .ripOffset _ => 0b00
  | .sib none _ _ _ => 0b00
  | .sib (some b) d _ _ =>
    if isBpLike b && decide (d ≤ 256) then 0b01
    else if isBpLike b then 0b10
    else if d == 0 then 0b00
    else if 1 ≤ d ∧ d ≤ 256 then 0b01
    else 0b10

/-- `encoder/mod.rs:332-338` `Mem64::rm`. -/
def Mem64.rm : Mem64 → UInt8
  | .regOffset reg _ => RegMemLike.rm reg
  | .ripOffset _ => 0b101
  | .sib _ _ _ _ => 0b100

/-- `encoder/mod.rs:340-365` `Mem64::sib`. -/
def Mem64.sibByte : Mem64 → Res (Option Sib)
  | .regOffset r _ => if isSpLike r then some <$> Sib.new 0 0b100 0b100 else .ok none
  | .ripOffset _ => .ok none
  | .sib none _ index scale => some <$> Sib.new scale index.regBits 0b101
  | .sib (some base) _ index scale => some <$> Sib.new scale index.regBits base.regBits

/-- `encoder/mod.rs:367-391` `Mem64::disp_bytes` (match arms in source order; `as u8` truncates). -/
def Mem64.dispBytes : Mem64 → Res (BytesAtMost 4)
  | .regOffset r d =>
    if isBpLike r && d == 0 then BytesAtMost.ofU8 4 0
    else if d == 0 then BytesAtMost.withLen 4 0
    else if 1 ≤ d ∧ d ≤ 256 then BytesAtMost.ofU8 4 d.toUInt8
    else BytesAtMost.ofU32 4 d
  | .ripOffset d => BytesAtMost.ofU32 4 d
  | .sib none d _ _ => BytesAtMost.ofU32 4 d
  | .sib (some b) d _ _ =>
    if isBpLike b && d == 0 then BytesAtMost.ofU8 4 0
    else if d == 0 then BytesAtMost.withLen 4 0
    else if 1 ≤ d ∧ d ≤ 256 then BytesAtMost.ofU8 4 d.toUInt8
    else BytesAtMost.ofU32 4 d

/-- `encoder/mod.rs:287-392` `impl RegMemLike for Mem64`. -/
instance : RegMemLike Mem64 where
  rexB := Mem64.rexB
  rexX := Mem64.rexX
  mode := Mem64.mode
  rm := Mem64.rm
  sib := Mem64.sibByte
  dispBytes := Mem64.dispBytes

/-- `encoder/mod.rs:10-17` `struct Encoder<R, RM>`. -/
structure Encoder (R RM : Type) where
  pfx : Option UInt8
  rexW : Bool
  rexB : Bool
  opcode : BytesAtMost 3
  modRm : Option (R × RM)
  imm : BytesAtMost 8

namespace Encoder
variable {R RM : Type}

/-- `encoder/mod.rs:19-30` `Encoder::new`. -/
def new : Res (Encoder Reg64 Mem64) := do
  let opcode ← BytesAtMost.withLen 3 0
  let imm ← BytesAtMost.withLen 8 0
  pure ⟨none, false, false, opcode, none, imm⟩

/-- `encoder/mod.rs:33-36` `prefix`. -/
def withPrefix (e : Encoder R RM) (p : UInt8) : Encoder R RM := { e with pfx := some p }

/-- `encoder/mod.rs:38-41` `rex_w`. -/
def withRexW (e : Encoder R RM) (w : Bool) : Encoder R RM := { e with rexW := w }

/-- `encoder/mod.rs:53-56` `rex_b`. -/
def withRexB (e : Encoder R RM) (b : Bool) : Encoder R RM := { e with rexB := b }

/-- `encoder/mod.rs:58-64` `opcode` with a byte array (the only form used). -/
def withOpcode (e : Encoder R RM) (op : Bytes) : Res (Encoder R RM) := do
  let opcode ← BytesAtMost.ofArray 3 op
  pure { e with opcode := opcode }

/-- `encoder/mod.rs:66-75` `mod_rm`. -/
def withModRm {R2 RM2 : Type} (e : Encoder R RM) (reg : R2) (rm : RM2) : Encoder R2 RM2 :=
  ⟨e.pfx, e.rexW, e.rexB, e.opcode, some (reg, rm), e.imm⟩

/-- `encoder/mod.rs:77-83` `imm`; the conversion has already been applied. -/
def withImm (e : Encoder R RM) (imm : BytesAtMost 8) : Encoder R RM := { e with imm := imm }

/-- The ModRM part of `encode` (`encoder/mod.rs:105-128`), updating the byte code built so far.
`get_or_insert(Rex::new())` is `Option.getD Rex.new`. -/
def encodeModRm [RegLike R] [RegMemLike RM] (bc : ByteCode) : Option (R × RM) → Res ByteCode
  | none => pure bc
  | some (regLike, rmLike) => do
    let m ← ModRM.new.setReg (RegLike.reg regLike)
    let m ← m.setMode (RegMemLike.mode rmLike)
    let m ← m.setRm (RegMemLike.rm rmLike)
    let rex := bc.rex
    let rex := if RegLike.rexR regLike then some ((rex.getD Rex.new).setR true) else rex
    let rex := if RegMemLike.rexB rmLike then some ((rex.getD Rex.new).setB true) else rex
    let sib ← RegMemLike.sib rmLike
    let rex := if RegMemLike.rexX rmLike then some ((rex.getD Rex.new).setX true) else rex
    let disp ← RegMemLike.dispBytes rmLike
    pure { bc with rex := rex, modRm := some m, sib := sib, addrDisp := disp }

/-- `encoder/mod.rs:85-137` `encode`. -/
def encode [RegLike R] [RegMemLike RM] (e : Encoder R RM) : Res (BytesAtMost 15) := do
  let empty4 ← BytesAtMost.withLen 4 0
  let rex : Option Rex := none
  let rex := if e.rexW then some (Rex.new.setW true) else rex
  let rex := if e.rexB then some ((rex.getD Rex.new).setB true) else rex
  let bc : ByteCode := ⟨e.pfx, rex, e.opcode, none, none, empty4, e.imm⟩
  let bc ← encodeModRm bc e.modRm
  rassert (!(e.imm.len == 8 && e.rexW == false))
  bc.toBytes

end Encoder
end AT.X64
