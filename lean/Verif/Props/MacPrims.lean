import Verif.Proofs.MacDecode
/-!
# Numbers and names one by one (C86), versions and symbol types (C87)

The primitives of `io.rs` and the two composite codes, each on its own.
-/

namespace AT.Props
open AT.Mac AT.MachO

theorem rd_as_bind {α : Type} (r : Rd α) (f : Bytes) : r f = (r >>= fun v => pure v) (f.drop 0) := by
  rw [rd_bind, List.drop_zero]
  cases r f with
  | error e => rfl
  | ok p => rfl

theorem rd_pair {α : Type} {v n : α} {s rest : Bytes} :
    (pure v : Rd α) s = .ok (n, rest) ↔ v = n ∧ rest = s := by
  rw [pure_ok]
  exact and_congr_right fun _ => eq_comm

/-- C86.  A number is read from exactly the bytes it occupies, in the byte order asked for, and the
rest of the input is left; `read_u8` has no byte order. -/
theorem C86_read_numbers (e : Endian) (f rest : Bytes) :
    (∀ n, readU8 f = .ok (n, rest) ↔ numAt e f 0 1 = some n.toNat ∧ rest = f.drop 1) ∧
    (∀ n, readU16 e f = .ok (n, rest) ↔ numAt e f 0 2 = some n.toNat ∧ rest = f.drop 2) ∧
    (∀ n, readU32 e f = .ok (n, rest) ↔ numAt e f 0 4 = some n.toNat ∧ rest = f.drop 4) ∧
    (∀ n, readI32 e f = .ok (n, rest) ↔
      numAt e f 0 4 = some (n.toInt % 2 ^ 32).toNat ∧ rest = f.drop 4) ∧
    (∀ n, readU64 e f = .ok (n, rest) ↔ numAt e f 0 8 = some n.toNat ∧ rest = f.drop 8) := by
  have one : ∀ {α : Type} {P : α → Prop} {n : α} {s : Bytes},
      (∃ v, P v ∧ (pure v : Rd α) s = .ok (n, rest)) ↔ P n ∧ rest = s := by
    intro α P n s
    constructor
    · rintro ⟨v, h, h2⟩
      obtain ⟨rfl, h3⟩ := rd_pair.1 h2
      exact ⟨h, h3⟩
    · rintro ⟨h, h2⟩
      exact ⟨n, h, rd_pair.2 ⟨rfl, h2⟩⟩
  refine ⟨fun n => ?_, fun n => ?_, fun n => ?_, fun n => ?_, fun n => ?_⟩
  · rw [rd_as_bind readU8, u8_bind e, one, Nat.zero_add]
  · rw [rd_as_bind (readU16 e), u16_bind, one, Nat.zero_add]
  · rw [rd_as_bind (readU32 e), u32_bind, one, Nat.zero_add]
  · rw [rd_as_bind (readI32 e), i32_bind, one, Nat.zero_add]
    rfl
  · rw [rd_as_bind (readU64 e), u64_bind, one, Nat.zero_add]

theorem read_or_panic {α : Type} {r : Rd α} {n : Nat} (h : Fixed r n) (f : Bytes)
    (hok : n ≤ f.length → ∃ v, r f = .ok (v, f.drop n)) :
    (r f = .error .panic ↔ f.length < n) ∧ (n ≤ f.length → ∃ v, r f = .ok (v, f.drop n)) := by
  refine ⟨⟨fun he => ?_, h.short f⟩, hok⟩
  by_cases hl : n ≤ f.length
  · obtain ⟨v, hv⟩ := hok hl
    rw [hv] at he
    cases he
  · omega

theorem num_read {α : Type} {n : Nat} (g : Bytes → α) (f : Bytes) (h : n ≤ f.length) :
    ∃ v, (do let b ← readExact n; pure (g b) : Rd α) f = .ok (v, f.drop n) :=
  ⟨g (f.take n), by rw [rd_bind]; simp [readExact, h]; rfl⟩

/-- C86.  Reading a number panics exactly if the input is too short for it, and succeeds otherwise. -/
theorem C86_read_total (e : Endian) (f : Bytes) :
    ((readU8 f = .error .panic ↔ f.length < 1) ∧ (1 ≤ f.length → ∃ n, readU8 f = .ok (n, f.drop 1))) ∧
    ((readU16 e f = .error .panic ↔ f.length < 2) ∧
      (2 ≤ f.length → ∃ n, readU16 e f = .ok (n, f.drop 2))) ∧
    ((readU32 e f = .error .panic ↔ f.length < 4) ∧
      (4 ≤ f.length → ∃ n, readU32 e f = .ok (n, f.drop 4))) ∧
    ((readI32 e f = .error .panic ↔ f.length < 4) ∧
      (4 ≤ f.length → ∃ n, readI32 e f = .ok (n, f.drop 4))) ∧
    ((readU64 e f = .error .panic ↔ f.length < 8) ∧
      (8 ≤ f.length → ∃ n, readU64 e f = .ok (n, f.drop 8))) :=
  ⟨read_or_panic fixed_u8 f (num_read _ f), read_or_panic (fixed_u16 e) f (num_read _ f),
    read_or_panic (fixed_u32 e) f (num_read _ f), read_or_panic (fixed_i32 e) f (num_read _ f),
    read_or_panic (fixed_u64 e) f (num_read _ f)⟩

/-- `w` returns normally having written `k` bytes that are the number `n` in byte order `h`. -/
def WritesNum (h : Endian) (w : Wr Unit) (k n : Nat) : Prop :=
  w.res = .ok () ∧ w.out.length = k ∧ numOf h w.out = n

theorem writesNum_of {h : Endian} {w : Wr Unit} {k n : Nat} (hw : Writes w (intBytes h k n))
    (hn : n < 256 ^ k) : WritesNum h w k n :=
  ⟨hw.res, by rw [hw.out, length_intBytes], by rw [hw.out, numOf_intBytes h k n hn]⟩

/-- C86.  A number is written as exactly its bytes, in the byte order of the host. -/
theorem C86_write_numbers (h : Endian) :
    (∀ n : UInt8, WritesNum h (writeU8 n) 1 n.toNat) ∧
    (∀ n : UInt16, WritesNum h (writeU16 h n) 2 n.toNat) ∧
    (∀ n : UInt32, WritesNum h (writeU32 h n) 4 n.toNat) ∧
    (∀ n : Int32, WritesNum h (writeI32 h n) 4 (n.toInt % 2 ^ 32).toNat) ∧
    (∀ n : UInt64, WritesNum h (writeU64 h n) 8 n.toNat) := by
  refine ⟨fun n => writesNum_of (k := 1) ?_ n.toNat_lt, fun n => writesNum_of (writes_u16 h n) n.toNat_lt,
    fun n => writesNum_of (writes_u32 h n) n.toNat_lt, fun n => ?_,
    fun n => writesNum_of (writes_u64 h n) n.toNat_lt⟩
  · rw [intBytes_one]
    exact writes_u8 n
  · have := writesNum_of (writes_i32 h n) n.toUInt32.toNat_lt
    rwa [← i32Num_eq] at this

/-- C86.  Reading gives back what was written, if the byte order asked for is the host's. -/
theorem C86_numbers_back (h : Endian) (rest : Bytes) :
    (∀ n, readU8 ((writeU8 n).out ++ rest) = .ok (n, rest)) ∧
    (∀ n, readU16 h ((writeU16 h n).out ++ rest) = .ok (n, rest)) ∧
    (∀ n, readU32 h ((writeU32 h n).out ++ rest) = .ok (n, rest)) ∧
    (∀ n, readI32 h ((writeI32 h n).out ++ rest) = .ok (n, rest)) ∧
    (∀ n, readU64 h ((writeU64 h n).out ++ rest) = .ok (n, rest)) := by
  refine ⟨fun n => ?_, fun n => ?_, fun n => ?_, fun n => ?_, fun n => ?_⟩
  · rw [(writes_u8 n).out]; exact (reads_u8 n).1 rest
  · rw [(writes_u16 h n).out]; exact (reads_u16 h n).1 rest
  · rw [(writes_u32 h n).out]; exact (reads_u32 h n).1 rest
  · rw [(writes_i32 h n).out]; exact (reads_i32 h n).1 rest
  · rw [(writes_u64 h n).out]; exact (reads_u64 h n).1 rest

/-- C86.  A name is read from exactly `size` bytes: it is the text, in UTF-8, of those before the first
NUL.  The reader panics exactly if the input is shorter or those bytes are not UTF-8. -/
theorem C86_read_name (size : Nat) (f : Bytes) :
    (∀ s rest, readFixedStr size f = .ok (s, rest) ↔
      size ≤ f.length ∧ utf8 s = (f.take size).takeWhile (· ≠ 0) ∧ rest = f.drop size) ∧
    (readFixedStr size f = .error .panic ↔
      f.length < size ∨ ∀ s, utf8 s ≠ (f.take size).takeWhile (· ≠ 0)) := by
  have e : ∀ b : Bytes, b.takeWhile (fun x => decide (x ≠ 0)) = b.takeWhile (· != 0) := by
    intro b
    congr 1
    funext x
    by_cases hx : x = 0 <;> simp [hx]
  have hiff : ∀ s rest, readFixedStr size f = .ok (s, rest) ↔
      size ≤ f.length ∧ utf8 s = (f.take size).takeWhile (· ≠ 0) ∧ rest = f.drop size := by
    intro s rest
    have h := @readExact_drop size 0 f
    simp only [List.drop_zero, Nat.zero_add] at h
    simp only [readFixedStr, bind_ok, lift_ok, runwrap_ok, fromUtf8_iff, e, h]
    constructor
    · rintro ⟨b, s', ⟨hl, rfl, rfl⟩, hs, rfl⟩
      exact ⟨by omega, hs, rfl⟩
    · rintro ⟨hl, hs, rfl⟩
      exact ⟨_, _, ⟨.inr hl, rfl, rfl⟩, hs, rfl⟩
  refine ⟨hiff, ?_⟩
  constructor
  · intro he
    by_cases hl : f.length < size
    · exact .inl hl
    · refine .inr fun s hs => ?_
      have := (hiff s (f.drop size)).2 ⟨by omega, hs, rfl⟩
      rw [he] at this
      cases this
  · intro hc
    cases hr : readFixedStr size f with
    | error x => rw [(fixed_str size).err f x hr]
    | ok p =>
      obtain ⟨s, rest⟩ := p
      obtain ⟨h1, h2, _⟩ := (hiff s rest).1 hr
      obtain hc | hc := hc
      · omega
      · exact absurd h2 (hc s)

/-- C86.  A name is written as its characters and zeros, `size` bytes in all.  The writer panics,
having written nothing, exactly if a character is not ASCII or there are too many. -/
theorem C86_write_name (s : Str) (size : Nat) :
    ((∀ c ∈ s, c.toNat < 128) ∧ s.length ≤ size →
      (writeFixedStr s size).res = .ok () ∧ (writeFixedStr s size).out.length = size ∧
      (writeFixedStr s size).out = nameField size s) ∧
    ((∃ c ∈ s, 128 ≤ c.toNat) ∨ size < s.length →
      (writeFixedStr s size).res = .error .panic ∧ (writeFixedStr s size).out = []) := by
  have ha : strIsAscii s = true ↔ ∀ c ∈ s, c.toNat < 128 := by
    simp [strIsAscii, charIsAscii]
  constructor
  · rintro ⟨h1, h2⟩
    have hw := writes_str (ha.2 h1) h2
    exact ⟨hw.res, by rw [hw.out, length_nameBytes _ _ h2], by rw [hw.out, nameField_eq]⟩
  · intro hc
    have hn : ¬ (strIsAscii s = true ∧ utf8Len s ≤ size) := by
      rintro ⟨h1, h2⟩
      obtain ⟨c, hm, h⟩ | h := hc
      · have := ha.1 h1 c hm
        omega
      · have := length_le_utf8Len s
        omega
    refine ⟨by rw [writeFixedStr_res, if_neg hn], ?_⟩
    unfold writeFixedStr
    by_cases h1 : strIsAscii s = true
    · by_cases h2 : utf8Len s ≤ size
      · exact absurd ⟨h1, h2⟩ hn
      · simp [h1, h2, rassert, Wr.lift, Bind.bind, Wr.out]
    · simp [h1, rassert, Wr.lift, Bind.bind, Wr.out]

theorem takeWhile_cut (s : Str) (m : Nat) (ha : strIsAscii s = true) :
    (s.map (fun c => c.toNat.toUInt8) ++ List.replicate m (0 : UInt8)).takeWhile (· ≠ 0)
      = (s.takeWhile (· ≠ Char.ofNat 0)).map (fun c => c.toNat.toUInt8) := by
  induction s with
  | nil => cases m <;> simp [List.replicate_succ]
  | cons c s ih =>
    simp only [strIsAscii, List.all_cons, Bool.and_eq_true] at ha
    have hz := ascii_byte_zero c ha.1
    simp only [List.map_cons, List.cons_append, List.takeWhile_cons]
    by_cases hc : c = Char.ofNat 0
    · rw [if_neg (by simpa using hz.2 hc), if_neg (by simpa using hc)]
      rfl
    · rw [if_pos (by simpa using fun h => hc (hz.1 h)), if_pos (by simpa using hc), ih ha.2]
      rfl

/-- C86.  A name that was written is read back up to its first NUL. -/
theorem C86_name_back (s : Str) (size : Nat) (rest : Bytes) (ha : ∀ c ∈ s, c.toNat < 128)
    (hl : s.length ≤ size) :
    readFixedStr size ((writeFixedStr s size).out ++ rest) =
      .ok (s.takeWhile (· ≠ Char.ofNat 0), rest) := by
  have ha' : strIsAscii s = true := by simpa [strIsAscii, charIsAscii] using ha
  obtain ⟨_, hlen, hout⟩ := (C86_write_name s size).1 ⟨ha, hl⟩
  rw [(C86_read_name size _).1]
  refine ⟨by simp; omega, ?_, ?_⟩
  · rw [List.take_left' hlen, hout, nameField_eq, nameBytes, takeWhile_cut s _ ha', utf8_ascii]
    rw [strIsAscii, List.all_eq_true] at ha' ⊢
    exact fun c hc => ha' c (List.takeWhile_subset _ hc)
  · rw [List.drop_left' hlen]

example : readU16 .big [1, 2, 3] = .ok (258, [3]) ∧ readU16 .little [1, 2, 3] = .ok (513, [3]) ∧
    readI32 .big [255, 255, 255, 254] = .ok (-2, []) ∧ readU32 .big [1, 2, 3] = .error .panic := by
  refine ⟨?_, ?_, ?_, ?_⟩
  · exact ((C86_read_numbers .big _ _).2.1 258).2 ⟨by decide, rfl⟩
  · exact ((C86_read_numbers .little _ _).2.1 513).2 ⟨by decide, rfl⟩
  · exact ((C86_read_numbers .big _ _).2.2.2.1 (-2)).2 ⟨by decide, rfl⟩
  · exact (C86_read_total .big _).2.2.1.1.2 (by decide)

example : (writeFixedStr (str% "ab") 4).out = [97, 98, 0, 0] ∧
    (writeFixedStr (str% "abc") 2).res = .error .panic ∧
    (writeFixedStr (str% "é") 4).res = .error .panic :=
  ⟨((C86_write_name (str% "ab") 4).1 (by decide)).2.2, ((C86_write_name (str% "abc") 2).2 (by decide)).1,
    ((C86_write_name (str% "é") 4).2 (by decide)).1⟩

/-- C87.  A version is one number, `major * 2^16 + minor * 2^8 + release`: every number is exactly one
version. -/
theorem C87_version :
    (∀ v : Version, v.toU32.toNat = v.major.toNat * 2 ^ 16 + v.minor.toNat * 2 ^ 8 + v.release.toNat) ∧
    (∀ (n : UInt32) (v : Version), Version.fromU32 n = v ↔
      n.toNat = v.major.toNat * 2 ^ 16 + v.minor.toNat * 2 ^ 8 + v.release.toNat) ∧
    (∀ v : Version, Version.fromU32 v.toU32 = v) ∧ ∀ n : UInt32, (Version.fromU32 n).toU32 = n :=
  ⟨version_toNat, fun _ _ => version_iff, version_roundtrip, version_roundtrip'⟩

/-- C87.  The type byte of a symbol: the type in the bits 1 to 3, private external in bit 4, external
in bit 0; a debugging symbol has a code in the bits 5 to 7, of which one is known. -/
theorem C87_symbol_type (n : UInt8) :
    (∀ p t x, NTypeField.fromU8 n = .ok (.norm p t x) ↔
      n.toNat = p.toNat * 16 + nTypeNum t + x.toNat) ∧
    (∀ d, NTypeField.fromU8 n = .ok (.stab d) ↔ n.toNat / 32 = 1) ∧
    (NTypeField.fromU8 n = .error .panic ↔
      64 ≤ n.toNat ∨ n.toNat < 32 ∧ ∀ t, n.toNat / 2 % 8 * 2 ≠ nTypeNum t) := by
  refine ⟨fun p t x => nType_iff, fun d => ?_, ?_⟩
  · rw [nType_iff]
    cases d
    simp only [NTypeSays, debugSymbolNum]
    omega
  · have hn : ∀ t, NTypeField.fromU8 n = .error t → t = .panic := by
      intro t h
      unfold NTypeField.fromU8 at h
      split at h
      · cases hr : runwrap (NType.fromU8? (n &&& nTypeMask)) with
        | error e =>
          rw [hr] at h
          have := runwrap_err _ _ hr
          cases h
          exact this
        | ok v => rw [hr] at h; cases h
      · cases hr : runwrap (DebugSymbol.fromU8? (n &&& nStabMask)) with
        | error e =>
          rw [hr] at h
          have := runwrap_err _ _ hr
          cases h
          exact this
        | ok v => rw [hr] at h; cases h
    constructor
    · intro h
      by_cases h1 : 64 ≤ n.toNat
      · exact .inl h1
      · by_cases h2 : n.toNat < 32
        · refine .inr ⟨h2, fun t ht => ?_⟩
          have : NTypeField.fromU8 n = .ok (.norm (decide (n.toNat / 16 = 1)) t (decide (n.toNat % 2 = 1))) := by
            rw [nType_iff]
            show n.toNat = (decide (n.toNat / 16 = 1)).toNat * 16 + nTypeNum t + (decide (n.toNat % 2 = 1)).toNat
            rw [← ht]
            by_cases h3 : n.toNat / 16 = 1 <;> by_cases h4 : n.toNat % 2 = 1 <;> simp [h3, h4] <;> omega
          rw [h] at this
          cases this
        · have : NTypeField.fromU8 n = .ok (.stab .gsym) := by
            rw [nType_iff]
            show n.toNat / 32 * 32 = 32
            omega
          rw [h] at this
          cases this
    · intro hc
      cases hr : NTypeField.fromU8 n with
      | error e => rw [hn e hr]
      | ok t =>
        exfalso
        have hs := nType_iff.1 hr
        cases t with
        | stab d =>
          have hs : n.toNat / 32 * 32 = 32 := by cases d; exact hs
          omega
        | norm p t x =>
          have hs : n.toNat = p.toNat * 16 + nTypeNum t + x.toNat := hs
          have hp : p.toNat ≤ 1 := by cases p <;> decide
          have hx : x.toNat ≤ 1 := by cases x <;> decide
          have ht : nTypeNum t < 16 ∧ nTypeNum t % 2 = 0 := by cases t <;> decide
          obtain hc | ⟨hl, hc⟩ := hc
          · omega
          · exact hc t (by omega)

/-- C87.  The byte written for a symbol type, and that it is read back. -/
theorem C87_symbol_type_back :
    (∀ p t x, (NTypeField.toU8 (.norm p t x)).toNat = p.toNat * 16 + nTypeNum t + x.toNat) ∧
    (∀ d, (NTypeField.toU8 (.stab d)).toNat = 32) ∧
    ∀ t, NTypeField.fromU8 t.toU8 = .ok t :=
  ⟨fun p t x => (nTypeByte_eq (.norm p t x)).symm, fun d => by cases d; rfl, nType_roundtrip⟩

example : NTypeField.fromU8 0x1f = .ok (.norm true .sect true) ∧
    NTypeField.fromU8 0x24 = .ok (.stab .gsym) ∧ NTypeField.fromU8 0x04 = .error .panic ∧
    NTypeField.fromU8 0x64 = .error .panic ∧ Version.fromU32 0x000a0e05 = ⟨10, 14, 5⟩ := by decide

/-- C87.  The section numbers of symbols: 0 is "no section", and every other byte is the number of a
section, 255 being the largest. -/
theorem C87_section_numbers :
    (∀ n : UInt8, n = NList64.NO_SECT ↔ n.toNat = 0) ∧
    (∀ n : UInt8, NList64.NO_SECT < n ↔ 1 ≤ n.toNat ∧ n.toNat ≤ 255) ∧
    (∀ n : UInt8, n ≤ NList64.MAX_SECT) ∧ NList64.MAX_SECT.toNat = 255 := by
  refine ⟨fun n => ?_, fun n => ?_, fun n => ?_, rfl⟩
  · rw [← UInt8.toNat_inj]; rfl
  · have := n.toNat_lt
    have h : NList64.NO_SECT.toNat = 0 := rfl
    rw [UInt8.lt_iff_toNat_lt, h]; omega
  · have := n.toNat_lt
    have h : NList64.MAX_SECT.toNat = 255 := rfl
    rw [UInt8.le_iff_toNat_le, h]; omega

example : (3 : UInt8) ≠ NList64.NO_SECT ∧ (3 : UInt8) ≤ NList64.MAX_SECT := by decide

end AT.Props
