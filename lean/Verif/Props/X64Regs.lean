import Verif.Model.X64Encoder
import Verif.Spec.X86Meaning
/-!
# C84: the bits of a register
-/

namespace AT.Props
open AT.X64 X86

/-- C84.  The bits a 64-bit register contributes to an instruction: the low three of its number go
into ModRM, the fourth into REX, and its addressing mode is the one of registers. -/
theorem C84_reg64 (r : Reg64) :
    r.registerCode.toNat = num64 r % 8 ∧ r.regBits.toNat = num64 r % 8 ∧ r.rmBits.toNat = num64 r % 8 ∧
    (r.isExtended = true ↔ 8 ≤ num64 r) ∧ (r.rexRBit = true ↔ 8 ≤ num64 r) ∧
    (r.rexBBit = true ↔ 8 ≤ num64 r) ∧ r.modeBits.toNat = 3 := by
  cases r <;> decide

/-- C84.  The same bits for the narrower registers, which are parts of the wider ones of the same
number. -/
theorem C84_narrow :
    (∀ r : Reg32, r.registerCode.toNat = num32 r % 8 ∧ (r.isExtended = true ↔ 8 ≤ num32 r) ∧
      num64 r.toReg64 = num32 r) ∧
    (∀ r : Reg16, r.registerCode.toNat = num16 r % 8 ∧ (r.isExtended = true ↔ 8 ≤ num16 r) ∧
      num32 r.toReg32 = num16 r) :=
  ⟨fun r => by cases r <;> decide, fun r => by cases r <;> decide⟩

/-- C84.  Code and extension bit together tell the registers of one width apart, and every pair of
them is a register. -/
theorem C84_distinct :
    (∀ r s : Reg64, r.registerCode = s.registerCode → r.isExtended = s.isExtended → r = s) ∧
    (∀ r s : Reg32, r.registerCode = s.registerCode → r.isExtended = s.isExtended → r = s) ∧
    (∀ r s : Reg16, r.registerCode = s.registerCode → r.isExtended = s.isExtended → r = s) ∧
    (∀ (c : UInt8) (e : Bool), c < 8 →
      (∃ r : Reg64, r.registerCode = c ∧ r.isExtended = e) ∧
      (∃ r : Reg32, r.registerCode = c ∧ r.isExtended = e) ∧
      (∃ r : Reg16, r.registerCode = c ∧ r.isExtended = e)) := by
  refine ⟨fun r s => by cases r <;> cases s <;> decide, fun r s => by cases r <;> cases s <;> decide,
    fun r s => by cases r <;> cases s <;> decide, fun c e hc => ?_⟩
  have hall : ∀ n : Nat, n < 8 → ∀ e : Bool,
      (∃ r ∈ [Reg64.RAX, .RDI, .RSI, .RDX, .RCX, .RBP, .RSP, .RBX, .R8, .R9, .R10, .R11, .R12, .R13, .R14,
        .R15], r.registerCode = UInt8.ofNat n ∧ r.isExtended = e) ∧
      (∃ r ∈ [Reg32.EAX, .EDI, .ESI, .EDX, .ECX, .EBP, .ESP, .EBX, .R8D, .R9D, .R10D, .R11D, .R12D, .R13D,
        .R14D, .R15D], r.registerCode = UInt8.ofNat n ∧ r.isExtended = e) ∧
      (∃ r ∈ [Reg16.AX, .DI, .SI, .DX, .CX, .BP, .SP, .BX, .R8W, .R9W, .R10W, .R11W, .R12W, .R13W,
        .R14W, .R15W], r.registerCode = UInt8.ofNat n ∧ r.isExtended = e) := by decide
  have := hall c.toNat (UInt8.lt_iff_toNat_lt.mp hc) e
  rw [UInt8.ofNat_toNat] at this
  obtain ⟨⟨r, _, h1⟩, ⟨s, _, h2⟩, ⟨t, _, h3⟩⟩ := this
  exact ⟨⟨r, h1⟩, ⟨s, h2⟩, ⟨t, h3⟩⟩

example : Reg64.R13.registerCode = 5 ∧ Reg64.RBP.registerCode = 5 ∧ Reg64.R13.isExtended = true ∧
    Reg64.RBP.isExtended = false ∧ Reg16.R13W.registerCode = 5 := by decide

end AT.Props
