import Verif.Model.MacHeader
import Verif.Model.MacLoadCommand
import Verif.Model.MacSymbols
/-!
# Bit fields: versions, relocation words, symbol type bytes
-/

namespace AT.Mac

theorem nType_roundtrip (x : NTypeField) : NTypeField.fromU8 x.toU8 = .ok x := by
  rcases x with ⟨p, t, x⟩ | s
  · cases p <;> cases t <;> cases x <;> decide
  · cases s; decide

theorem nType_err (n : UInt8) (e : Stop) (h : NTypeField.fromU8 n = .error e) : e = .panic := by
  unfold NTypeField.fromU8 at h
  split at h
  · cases hn : NType.fromU8? (n &&& nTypeMask) with
    | none => rw [hn] at h; simpa [runwrap, bind, Except.bind] using h.symm
    | some t => rw [hn] at h; simp [runwrap, bind, Except.bind, pure, Except.pure] at h
  · cases hn : DebugSymbol.fromU8? (n &&& nStabMask) with
    | none => rw [hn] at h; simpa [runwrap, Functor.map, Except.map] using h.symm
    | some t => rw [hn] at h; simp [runwrap, Functor.map, Except.map] at h

/-! ## Versions -/

theorem version_toNat (v : Version) :
    v.toU32.toNat = v.major.toNat * 65536 + v.minor.toNat * 256 + v.release.toNat := by
  have h1 := v.major.toNat_lt
  have h2 := v.minor.toNat_lt
  have h3 := v.release.toNat_lt
  unfold Version.toU32
  simp only [UInt32.toNat_or, UInt32.toNat_shiftLeft, UInt16.toNat_toUInt32, UInt8.toNat_toUInt32]
  have e1 : (16 : UInt32).toNat % 32 = 16 := rfl
  have e2 : (8 : UInt32).toNat % 32 = 8 := rfl
  rw [e1, e2, Nat.shiftLeft_eq, Nat.shiftLeft_eq, Nat.mod_eq_of_lt (by omega),
    Nat.mod_eq_of_lt (by omega)]
  rw [show v.major.toNat * 2 ^ 16 = 2 ^ 16 * v.major.toNat from by omega,
    show v.minor.toNat * 2 ^ 8 = 2 ^ 8 * v.minor.toNat from by omega, Nat.or_assoc,
    ← Nat.two_pow_add_eq_or_of_lt (i := 8) h3, ← Nat.two_pow_add_eq_or_of_lt (i := 16) (by omega)]
  omega

theorem version_fields (n : UInt32) : (Version.fromU32 n).major.toNat = n.toNat / 65536 ∧
    (Version.fromU32 n).minor.toNat = n.toNat / 256 % 256 ∧
    (Version.fromU32 n).release.toNat = n.toNat % 256 := by
  have h := n.toNat_lt
  unfold Version.fromU32
  simp only [UInt32.toNat_toUInt16, UInt32.toNat_toUInt8, UInt32.toNat_shiftRight, UInt32.toNat_and]
  have e1 : (16 : UInt32).toNat % 32 = 16 := rfl
  have e2 : (8 : UInt32).toNat % 32 = 8 := rfl
  rw [e1, e2, Nat.shiftRight_and_distrib, Nat.shiftRight_and_distrib]
  have m1 : (4294901760 : UInt32).toNat >>> 16 = 2 ^ 16 - 1 := by decide
  have m2 : (65280 : UInt32).toNat >>> 8 = 2 ^ 8 - 1 := by decide
  have m3 : (255 : UInt32).toNat = 2 ^ 8 - 1 := by decide
  rw [m1, m2, m3, Nat.and_two_pow_sub_one_eq_mod, Nat.and_two_pow_sub_one_eq_mod,
    Nat.and_two_pow_sub_one_eq_mod, Nat.shiftRight_eq_div_pow, Nat.shiftRight_eq_div_pow]
  refine ⟨?_, ?_, ?_⟩ <;> omega

theorem version_roundtrip (v : Version) : Version.fromU32 v.toU32 = v := by
  have h1 := v.major.toNat_lt
  have h2 := v.minor.toNat_lt
  have h3 := v.release.toNat_lt
  have hn := version_toNat v
  obtain ⟨ha, hb, hc⟩ := version_fields v.toU32
  rw [hn] at ha hb hc
  cases v with
  | mk a b c =>
    simp only at *
    rw [show Version.fromU32 _ = ⟨(Version.fromU32 _).major, (Version.fromU32 _).minor,
      (Version.fromU32 _).release⟩ from rfl]
    congr 1
    · apply UInt16.toNat.inj; rw [ha]; omega
    · apply UInt8.toNat.inj; rw [hb]; omega
    · apply UInt8.toNat.inj; rw [hc]; omega

theorem version_roundtrip' (n : UInt32) : (Version.fromU32 n).toU32 = n := by
  apply UInt32.toNat.inj
  rw [version_toNat]
  obtain ⟨ha, hb, hc⟩ := version_fields n
  rw [ha, hb, hc]
  omega

/-! ## Relocation words -/

/-- The constant part of a packed relocation word (little-endian host). -/
def packLo (p : Bool) (l : RelocLength) (x : Bool) (t : UInt8) : UInt32 :=
  (b2u32 p * (0x01000000 : UInt32)) ||| (l.toU32 <<< (25 : UInt32)) |||
      (b2u32 x * (0x08000000 : UInt32)) ||| (t.toUInt32 <<< (28 : UInt32))

/-- The constant part of a packed relocation word (big-endian host). -/
def packBig (p : Bool) (l : RelocLength) (x : Bool) (t : UInt8) : UInt32 :=
  (b2u32 p * (0x00000080 : UInt32)) ||| (l.toU32 <<< (5 : UInt32)) |||
      (b2u32 x * (0x00000010 : UInt32)) ||| t.toUInt32

theorem pack_little (x : RelocationInfo) :
    x.pack .little = x.rSymbolnum ||| packLo x.rPcrel x.rLength x.rExtern x.rType := by
  simp only [RelocationInfo.pack, packLo, UInt32.or_assoc, UInt32.zero_or]

theorem pack_big (x : RelocationInfo) :
    x.pack .big = (x.rSymbolnum <<< (8 : UInt32)) ||| packBig x.rPcrel x.rLength x.rExtern x.rType := by
  simp only [RelocationInfo.pack, packBig, UInt32.or_assoc, UInt32.zero_or]

theorem lo_tab : ∀ t < 16, ∀ p x : Bool, ∀ l : RelocLength,
    packLo p l x (UInt8.ofNat t) &&& 0x00FFFFFF = 0 ∧
    RelocLength.fromU32? ((packLo p l x (UInt8.ofNat t) &&& 0x06000000) >>> 25) = some l ∧
    decide (packLo p l x (UInt8.ofNat t) &&& 0x01000000 > 0) = p ∧
    decide (packLo p l x (UInt8.ofNat t) &&& 0x08000000 > 0) = x ∧
    ((packLo p l x (UInt8.ofNat t) &&& 0xF0000000) >>> 28).toUInt8 = UInt8.ofNat t := by
  intro t ht p x l
  revert p x
  cases l <;> (revert t; decide +kernel)

theorem big_tab : ∀ t < 16, ∀ p x : Bool, ∀ l : RelocLength,
    packBig p l x (UInt8.ofNat t) &&& 0xFFFFFF00 = 0 ∧
    RelocLength.fromU32? ((packBig p l x (UInt8.ofNat t) &&& 0x00000060) >>> 5) = some l ∧
    decide (packBig p l x (UInt8.ofNat t) &&& 0x00000080 > 0) = p ∧
    decide (packBig p l x (UInt8.ofNat t) &&& 0x00000010 > 0) = x ∧
    ((packBig p l x (UInt8.ofNat t) &&& 0x0000000F)).toUInt8 = UInt8.ofNat t := by
  intro t ht p x l
  revert p x
  cases l <;> (revert t; decide +kernel)

theorem u32_or_and (a b c : UInt32) : (a ||| b) &&& c = a &&& c ||| b &&& c := by
  apply UInt32.toNat.inj
  simp only [UInt32.toNat_and, UInt32.toNat_or]
  apply Nat.eq_of_testBit_eq
  intro i
  simp only [Nat.testBit_and, Nat.testBit_or]
  cases a.toNat.testBit i <;> cases b.toNat.testBit i <;> cases c.toNat.testBit i <;> rfl

theorem low_and_high (a m : UInt32) (ha : a.toNat < 2 ^ 24) (hm : m.toNat % 2 ^ 24 = 0) :
    a &&& m = 0 := by
  apply UInt32.toNat.inj
  rw [UInt32.toNat_and, UInt32.toNat_zero]
  have : m.toNat = 2 ^ 24 * (m.toNat / 2 ^ 24) := by omega
  rw [this]
  apply Nat.eq_of_testBit_eq
  intro i
  rw [Nat.testBit_and, Nat.testBit_two_pow_mul, Nat.zero_testBit]
  by_cases h : 24 ≤ i
  · rw [Nat.testBit_lt_two_pow (Nat.lt_of_lt_of_le ha (Nat.pow_le_pow_right (by omega) h))]
    simp
  · simp [h]

theorem shl8_and_low (a m : UInt32) (hm : m.toNat < 2 ^ 8) : (a <<< (8 : UInt32)) &&& m = 0 := by
  apply UInt32.toNat.inj
  rw [UInt32.toNat_and, UInt32.toNat_zero, UInt32.toNat_shiftLeft]
  have e2 : (8 : UInt32).toNat % 32 = 8 := rfl
  rw [e2]
  apply Nat.eq_of_testBit_eq
  intro i
  rw [Nat.testBit_and, Nat.testBit_mod_two_pow, Nat.testBit_shiftLeft, Nat.zero_testBit]
  by_cases h : 8 ≤ i
  · rw [Nat.testBit_lt_two_pow (Nat.lt_of_lt_of_le hm (Nat.pow_le_pow_right (by omega) h))]
    simp
  · simp [h]

theorem and_low24 (a : UInt32) (ha : a.toNat < 2 ^ 24) : a &&& 0x00FFFFFF = a := by
  apply UInt32.toNat.inj
  rw [UInt32.toNat_and]
  have : (0x00FFFFFF : UInt32).toNat = 2 ^ 24 - 1 := by decide
  rw [this, Nat.and_two_pow_sub_one_eq_mod, Nat.mod_eq_of_lt ha]

theorem shl8_back (a : UInt32) (ha : a.toNat < 2 ^ 24) :
    ((a <<< (8 : UInt32)) &&& 0xFFFFFF00) >>> (8 : UInt32) = a := by
  apply UInt32.toNat.inj
  have e2 : (8 : UInt32).toNat % 32 = 8 := rfl
  have m1 : (0xFFFFFF00 : UInt32).toNat >>> 8 = 2 ^ 24 - 1 := by decide
  rw [UInt32.toNat_shiftRight, UInt32.toNat_and, UInt32.toNat_shiftLeft, e2,
    Nat.shiftRight_and_distrib, m1, Nat.and_two_pow_sub_one_eq_mod, Nat.shiftLeft_eq,
    Nat.mod_eq_of_lt (a := a.toNat * 2 ^ 8) (by omega), Nat.shiftRight_eq_div_pow]
  omega

theorem reloc_unpack_pack (h : Endian) (x : RelocationInfo) (hs : x.rSymbolnum.toNat < 2 ^ 24)
    (ht : x.rType.toNat < 16) : RelocationInfo.unpack h x.rAddress (x.pack h) = .ok x := by
  obtain ⟨a, s, p, l, ex, t⟩ := x
  simp only at hs ht
  have et : t = UInt8.ofNat t.toNat := by simp
  cases h
  · rw [pack_little]
    obtain ⟨h1, h2, h3, h4, h5⟩ := lo_tab t.toNat ht p ex l
    rw [← et] at h1 h2 h3 h4 h5
    simp only [RelocationInfo.unpack, u32_or_and, h1, and_low24 s hs,
      low_and_high s 0x06000000 hs (by decide),
      low_and_high s 0x01000000 hs (by decide),
      low_and_high s 0x08000000 hs (by decide),
      low_and_high s 0xF0000000 hs (by decide), UInt32.zero_or, UInt32.or_zero, h2, h3,
      h4, h5]
    rfl
  · rw [pack_big]
    obtain ⟨h1, h2, h3, h4, h5⟩ := big_tab t.toNat ht p ex l
    rw [← et] at h1 h2 h3 h4 h5
    simp only [RelocationInfo.unpack, u32_or_and, h1, UInt32.or_zero,
      shl8_back s hs,
      shl8_and_low s 0x00000060 (by decide),
      shl8_and_low s 0x00000080 (by decide),
      shl8_and_low s 0x00000010 (by decide),
      shl8_and_low s 0x0000000F (by decide), UInt32.zero_or, h2, h3, h4, h5]
    rfl

/-- What the reader returns always fits the bit fields. -/
theorem reloc_unpack_fits {h : Endian} {a : Int32} {n : UInt32} {x : RelocationInfo}
    (hx : RelocationInfo.unpack h a n = .ok x) :
    x.rSymbolnum.toNat < 2 ^ 24 ∧ x.rType.toNat < 16 := by
  have hn := n.toNat_lt
  cases h
  · simp only [RelocationInfo.unpack] at hx
    cases hl : RelocLength.fromU32? ((n &&& 0x06000000) >>> 25) with
    | none => rw [hl] at hx; simp [runwrap, bind, Except.bind] at hx
    | some l =>
      rw [hl] at hx
      simp only [runwrap, bind, Except.bind, pure, Except.pure, Except.ok.injEq] at hx
      subst hx
      simp only [UInt32.toNat_and, UInt32.toNat_toUInt8, UInt32.toNat_shiftRight]
      have : (0x00FFFFFF : UInt32).toNat = 2 ^ 24 - 1 := by decide
      rw [this, Nat.and_two_pow_sub_one_eq_mod]
      have e2 : (28 : UInt32).toNat % 32 = 28 := rfl
      have m1 : (0xF0000000 : UInt32).toNat >>> 28 = 2 ^ 4 - 1 := by decide
      rw [e2, Nat.shiftRight_and_distrib, m1, Nat.and_two_pow_sub_one_eq_mod]
      omega
  · simp only [RelocationInfo.unpack] at hx
    cases hl : RelocLength.fromU32? ((n &&& 0x00000060) >>> 5) with
    | none => rw [hl] at hx; simp [runwrap, bind, Except.bind] at hx
    | some l =>
      rw [hl] at hx
      simp only [runwrap, bind, Except.bind, pure, Except.pure, Except.ok.injEq] at hx
      subst hx
      simp only [UInt32.toNat_and, UInt32.toNat_toUInt8, UInt32.toNat_shiftRight]
      have e2 : (8 : UInt32).toNat % 32 = 8 := rfl
      have m1 : (0xFFFFFF00 : UInt32).toNat >>> 8 = 2 ^ 24 - 1 := by decide
      have m2 : (0x0000000F : UInt32).toNat = 2 ^ 4 - 1 := by decide
      rw [e2, Nat.shiftRight_and_distrib, m1, m2, Nat.and_two_pow_sub_one_eq_mod,
        Nat.and_two_pow_sub_one_eq_mod]
      omega

theorem reloc_unpack_err (h : Endian) (a : Int32) (n : UInt32) (e : Stop)
    (hx : RelocationInfo.unpack h a n = .error e) : e = .panic := by
  cases h
  · simp only [RelocationInfo.unpack] at hx
    cases hl : RelocLength.fromU32? ((n &&& 0x06000000) >>> 25) with
    | none => rw [hl] at hx; simpa [runwrap, bind, Except.bind] using hx.symm
    | some l => rw [hl] at hx; simp [runwrap, bind, Except.bind, pure, Except.pure] at hx
  · simp only [RelocationInfo.unpack] at hx
    cases hl : RelocLength.fromU32? ((n &&& 0x00000060) >>> 5) with
    | none => rw [hl] at hx; simpa [runwrap, bind, Except.bind] using hx.symm
    | some l => rw [hl] at hx; simp [runwrap, bind, Except.bind, pure, Except.pure] at hx

end AT.Mac
