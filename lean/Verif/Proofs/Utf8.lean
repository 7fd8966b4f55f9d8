import Verif.Model.Rust
/-!
# UTF-8 lemmas
-/

namespace AT

theorem utf8_nil : utf8 [] = [] := rfl

theorem utf8_cons (c : Char) (s : Str) : utf8 (c :: s) = String.utf8EncodeChar c ++ utf8 s := by
  simp [utf8]

theorem utf8_append (s t : Str) : utf8 (s ++ t) = utf8 s ++ utf8 t := by
  simp [utf8]

theorem toByteArray_utf8 (s : Str) : (⟨(utf8 s).toArray⟩ : ByteArray) = s.utf8Encode := by
  rw [List.utf8Encode]
  apply ByteArray.ext
  simp [utf8]

theorem fromUtf8_utf8 (s : Str) : fromUtf8 (utf8 s) = some s := by
  simp [fromUtf8, toByteArray_utf8, List.utf8Decode?_utf8Encode]

theorem utf8_of_fromUtf8 {b : Bytes} {s : Str} (h : fromUtf8 b = some s) : utf8 s = b := by
  unfold fromUtf8 at h
  rw [Option.map_eq_some_iff] at h
  obtain ⟨a, ha, rfl⟩ := h
  have hs : (ByteArray.utf8Decode? ⟨b.toArray⟩).isSome := by simp [ha]
  have := @ByteArray.utf8Encode_get_utf8Decode? ⟨b.toArray⟩ hs
  simp only [ha, Option.get_some] at this
  rw [← toByteArray_utf8] at this
  simpa using congrArg (fun x => x.data.toList) this

theorem utf8_injective {s t : Str} (h : utf8 s = utf8 t) : s = t := by
  have := fromUtf8_utf8 s
  rw [h, fromUtf8_utf8] at this
  exact (Option.some.inj this).symm

theorem utf8EncodeChar_ascii (c : Char) (h : charIsAscii c = true) :
    String.utf8EncodeChar c = [c.toNat.toUInt8] := by
  have h' : c.toNat < 128 := by simpa [charIsAscii] using h
  have hs : c.utf8Size = 1 := by
    rw [Char.utf8Size_eq_one_iff]
    have : c.val.toNat < 128 := h'
    rw [UInt32.le_iff_toNat_le]; simp; omega
  rw [String.utf8EncodeChar_eq_singleton hs]
  congr 1

theorem utf8_ascii (s : Str) (h : strIsAscii s = true) :
    utf8 s = s.map (fun c => c.toNat.toUInt8) := by
  induction s with
  | nil => rfl
  | cons c s ih =>
    simp only [strIsAscii, List.all_cons, Bool.and_eq_true] at h
    rw [utf8_cons, utf8EncodeChar_ascii c h.1, ih h.2]; rfl

theorem fromUtf8_ascii (s : Str) (h : strIsAscii s = true) :
    fromUtf8 (s.map (fun c => c.toNat.toUInt8)) = some s := by
  rw [← utf8_ascii s h, fromUtf8_utf8]

theorem utf8Len_ascii (s : Str) (h : strIsAscii s = true) : utf8Len s = s.length := by
  simp [utf8Len, utf8_ascii s h]

theorem length_le_utf8Len (s : Str) : s.length ≤ utf8Len s := by
  induction s with
  | nil => simp [utf8Len, utf8]
  | cons c s ih =>
    have := c.utf8Size_pos
    simp only [utf8Len, utf8_cons, List.length_append, String.length_utf8EncodeChar,
      List.length_cons] at *
    omega

theorem ascii_byte_zero (c : Char) (h : charIsAscii c = true) :
    (c.toNat.toUInt8 = 0) ↔ c = Char.ofNat 0 := by
  have h' : c.toNat < 128 := by simpa [charIsAscii] using h
  constructor
  · intro h0
    have : c.toNat = 0 := by
      have := congrArg UInt8.toNat h0
      simp at this; omega
    apply Char.ext
    apply UInt32.toNat.inj
    simpa using this
  · rintro rfl; rfl

end AT
