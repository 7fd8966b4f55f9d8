import Verif.Props.Mac
/-!
# Numeric codes (C68)

The conversions between enumerations and the numbers stored in a file, against the numbers of the
system headers (`Spec/MachO`).
-/

namespace AT.Props
open AT.Mac AT.MachO

/-- `to` and `from?` implement the numbering `code`: `to` gives the code, and `from?` recognises
exactly the codes. -/
def Codes {α ν : Type} (val : ν → Nat) (code : α → Nat) (to : α → ν) (from? : ν → Option α) : Prop :=
  (∀ x, val (to x) = code x) ∧ ∀ n x, from? n = some x ↔ val n = code x

theorem codes_of {α ν : Type} {val : ν → Nat} {code : α → Nat} {to : α → ν} {from? : ν → Option α}
    (inj : ∀ a b, val a = val b → a = b) (h1 : ∀ x, val (to x) = code x)
    (h2 : ∀ x, from? (to x) = some x) (h3 : ∀ n x, from? n = some x → n = to x) :
    Codes val code to from? := by
  refine ⟨h1, fun n x => ⟨fun h => by rw [h3 n x h, h1], fun h => ?_⟩⟩
  rw [← h1 x] at h
  rw [inj _ _ h, h2]

theorem u32_inj (a b : UInt32) (h : a.toNat = b.toNat) : a = b := UInt32.toNat.inj h
theorem u8_inj (a b : UInt8) (h : a.toNat = b.toNat) : a = b := UInt8.toNat.inj h

theorem code_branch {α ν : Type} [BEq ν] [LawfulBEq ν] {n a : ν} {x y : α} {r : Option α}
    (h : (if n == a then some x else r) = some y) : n = a ∧ x = y ∨ r = some y := by
  by_cases hn : n = a
  · subst hn
    simp at h
    exact .inl ⟨rfl, h⟩
  · rw [if_neg (by simpa using hn)] at h
    exact .inr h

/-- Every branch of a chain of comparisons. -/
macro "branches" : tactic => `(tactic| (
  intro n x h
  repeat (obtain ⟨hn, hx⟩ | h := code_branch h; · subst hn hx; rfl)
  cases h))

/-- C68.  Every enumeration is stored as the number the system headers give it, and read back from
exactly that number. -/
theorem C68_codes :
    Codes UInt32.toNat magicNum Magic.toU32 Magic.fromU32? ∧
    Codes UInt32.toNat fileTypeNum FileType.toU32 FileType.fromU32? ∧
    Codes UInt32.toNat (fun f => 2 ^ flagBit f) Flag.toU32 Flag.fromU32? ∧
    Codes UInt32.toNat sectionTypeNum SectionType.toU32 SectionType.fromU32? ∧
    Codes UInt32.toNat (fun a => 2 ^ attrBit a) SectionAttr.toU32 SectionAttr.fromU32? ∧
    Codes UInt32.toNat platformNum Platform.toU32 Platform.fromU32? ∧
    Codes UInt32.toNat toolNum Tool.toU32 Tool.fromU32? ∧
    Codes UInt8.toNat nTypeNum NType.toU8 NType.fromU8? ∧
    Codes UInt8.toNat debugSymbolNum DebugSymbol.toU8 DebugSymbol.fromU8? ∧
    Codes UInt32.toNat relocLengthNum RelocLength.toU32 RelocLength.fromU32? ∧
    Codes UInt8.toNat x86RelocNum X86RelocType.toU8 X86RelocType.fromU8? ∧
    Codes UInt8.toNat x86_64RelocNum X86_64RelocType.toU8 X86_64RelocType.fromU8? := by
  refine ⟨codes_of u32_inj ?_ ?_ ?_, codes_of u32_inj ?_ ?_ ?_, codes_of u32_inj ?_ ?_ ?_,
    codes_of u32_inj ?_ ?_ ?_, codes_of u32_inj ?_ ?_ ?_, codes_of u32_inj ?_ ?_ ?_,
    codes_of u32_inj ?_ ?_ ?_, codes_of u8_inj ?_ ?_ ?_, codes_of u8_inj ?_ ?_ ?_,
    codes_of u32_inj ?_ ?_ ?_, codes_of u8_inj ?_ ?_ ?_, codes_of u8_inj ?_ ?_ ?_⟩
  all_goals first
    | (intro x; cases x <;> decide)
    | (unfold Magic.fromU32?; branches)
    | (unfold FileType.fromU32?; branches)
    | (unfold Flag.fromU32?; branches)
    | (unfold SectionType.fromU32?; branches)
    | (unfold SectionAttr.fromU32?; branches)
    | (unfold Platform.fromU32?; branches)
    | (unfold Tool.fromU32?; branches)
    | (unfold NType.fromU8?; branches)
    | (unfold DebugSymbol.fromU8?; branches)
    | (unfold RelocLength.fromU32?; branches)
    | (unfold X86RelocType.fromU8?; branches)
    | (unfold X86_64RelocType.fromU8?; branches)

/-- C68 for the processor type, which is stored as two numbers: the pair read is recognised exactly
when it is the pair of a processor type; anything else is a panic. -/
theorem C68_cpu :
    (∀ c : CpuType, c.toI32I32.1.toInt = cpuNum c ∧ c.toI32I32.2.toInt = 3) ∧
    (∀ (t s : Int32) (c : CpuType), CpuType.fromI32I32 t s = .ok c ↔ t.toInt = cpuNum c ∧ s.toInt = 3) ∧
    (∀ (t s : Int32), (∀ c, CpuType.fromI32I32 t s ≠ .ok c) → CpuType.fromI32I32 t s = .error .panic) := by
  refine ⟨fun c => ?_, fun t s c => ?_, fun t s h => ?_⟩
  · cases c with
    | x86 s => cases s; decide
    | x86_64 s => cases s; decide
  · have e1 : t.toInt = 7 ↔ t = cpuTypeX86 := ⟨fun h => Int32.toInt_inj.1 (h.trans (by decide)), fun h => by rw [h]; decide⟩
    have e2 : t.toInt = 16777223 ↔ t = cpuTypeX86_64 :=
      ⟨fun h => Int32.toInt_inj.1 (h.trans (by decide)), fun h => by rw [h]; decide⟩
    have e3 : s.toInt = 3 ↔ s = 3 := ⟨fun h => Int32.toInt_inj.1 (h.trans (by decide)), fun h => by rw [h]; decide⟩
    have ne : cpuTypeX86 ≠ cpuTypeX86_64 := by decide
    unfold CpuType.fromI32I32 CpuSubType.fromI32?
    by_cases h1 : t = cpuTypeX86 <;> by_cases h2 : t = cpuTypeX86_64 <;> by_cases h3 : s = 3 <;>
      cases c with
      | x86 u => cases u; simp_all [cpuNum, runwrap, Functor.map, Except.map]
      | x86_64 u => cases u; simp_all [cpuNum, runwrap, Functor.map, Except.map]
  · unfold CpuType.fromI32I32 CpuSubType.fromI32? at h ⊢
    by_cases h1 : t = cpuTypeX86 <;> by_cases h2 : t = cpuTypeX86_64 <;> by_cases h3 : s = 3 <;>
      simp_all [runwrap, Functor.map, Except.map]

/-- One number of each kind that is recognised, and one that is not. -/
example : Flag.fromU32? 0x2000 = some .subsectionsViaSymbols ∧ Flag.fromU32? 0x40 = none ∧
    X86_64RelocType.fromU8? 9 = some .tlv ∧ X86_64RelocType.fromU8? 10 = none ∧
    CpuType.fromI32I32 16777223 3 = .ok (.x86_64 .all) ∧ CpuType.fromI32I32 7 4 = .error .panic := by decide

end AT.Props
