import Verif.Props.X64Encoder
import Verif.Spec.X64Bytes
/-!
# C91: buffers of bytes are equal exactly if they hold the same bytes
-/

namespace AT.Props
open AT.X64

theorem wf_ext {M : Nat} {b c : BytesAtMost M} (hb : b.WF) (hc : c.WF) (h : b.asRef = c.asRef) : b = c := by
  obtain ⟨b1, b2, b3⟩ := hb
  obtain ⟨c1, c2, c3⟩ := hc
  have hl : b.len = c.len := by
    have := congrArg List.length h
    rwa [BytesAtMost.length_asRef ⟨b1, b2⟩, BytesAtMost.length_asRef ⟨c1, c2⟩] at this
  have hbuf : b.buf = c.buf := by
    rw [← List.take_append_drop b.len b.buf, ← List.take_append_drop c.len c.buf, b3, c3, hl]
    unfold BytesAtMost.asRef at h
    rw [hl] at h
    rw [h]
  cases b; cases c; simp_all

theorem wf_withLen {M n : Nat} {b : BytesAtMost M} (h : BytesAtMost.withLen M n = .ok b) : b.WF := by
  rw [withLen_eq] at h
  split at h
  · cases h
    exact ⟨by simp, by assumption, by simp⟩
  · cases h

theorem wf_asMut {M : Nat} {b : BytesAtMost M} {f : Bytes → Bytes} (hf : KeepsLength f) (h : b.WF) :
    (b.asMut f).WF := by
  obtain ⟨h1, h2, h3⟩ := h
  have hl : (f (b.buf.take b.len)).length = b.len := by rw [hf, List.length_take, h1, Nat.min_eq_left h2]
  refine ⟨?_, h2, ?_⟩
  · simp only [BytesAtMost.asMut, List.length_append, hl, List.length_drop, h1]; omega
  · show (f (b.buf.take b.len) ++ b.buf.drop b.len).drop b.len = _
    rw [List.drop_append, List.drop_of_length_le (by omega), hl, Nat.sub_self, List.drop_zero, h3]
    rfl

theorem wf_overwrite {M : Nat} {b c : BytesAtMost M} {src : Bytes} (hb : b.WF) (h : b.overwrite src = .ok c) :
    c.WF := by
  obtain ⟨h1, h2, h3⟩ := hb
  rw [overwrite_eq] at h
  split at h
  · rename_i hs
    cases h
    refine ⟨by simp [h1]; omega, h2, ?_⟩
    show (src ++ b.buf.drop src.length).drop b.len = _
    rw [List.drop_append, List.drop_of_length_le hs, List.nil_append, List.drop_drop,
      Nat.add_sub_cancel' hs, h3]
  · cases h

theorem wf_bind {M n : Nat} {src : Bytes} {c : BytesAtMost M}
    (h : ((BytesAtMost.withLen M n).bind fun b => b.overwrite src) = .ok c) : c.WF := by
  cases hw : BytesAtMost.withLen M n with
  | error e => rw [hw] at h; cases h
  | ok b => rw [hw] at h; exact wf_overwrite (wf_withLen hw) h

theorem rassert_bind {α : Type} {p : Bool} {k : Unit → Res α} {c : α} (h : (rassert p).bind k = .ok c) :
    k () = .ok c := by
  cases p with
  | true => exact h
  | false => cases h

theorem wf_ofArray {M : Nat} {a : Bytes} {c : BytesAtMost M} (h : BytesAtMost.ofArray M a = .ok c) : c.WF :=
  wf_bind (rassert_bind h)

/-- The unused part of the array is always zero. -/
theorem built_wf {M : Nat} {b : BytesAtMost M} (h : Built b) : b.WF := by
  induction h with
  | withLen h => exact wf_withLen h
  | array h => exact wf_ofArray h
  | u8 h => exact wf_ofArray (rassert_bind h)
  | u16 h => exact wf_bind (rassert_bind h)
  | u32 h => exact wf_bind (rassert_bind h)
  | u64 h => exact wf_bind (rassert_bind h)
  | edit _ hf ih => exact wf_asMut hf ih

/-- C91: two buffers, however they came about, are equal (derived `==`, which compares the whole arrays)
exactly if they hold the same bytes. -/
theorem C91_equal (M : Nat) (b c : BytesAtMost M) (hb : Built b) (hc : Built c) :
    b = c ↔ b.asRef = c.asRef :=
  ⟨fun h => h ▸ rfl, wf_ext (built_wf hb) (built_wf hc)⟩

/-- C91, changing in place: the bytes become what they were changed to, their number stays, and it never
exceeds `M`. -/
theorem C91_edit (M : Nat) (b : BytesAtMost M) (hb : Built b) (f : Bytes → Bytes) (hf : KeepsLength f) :
    (b.asMut f).asRef = f b.asRef ∧ (b.asMut f).len = b.len ∧ b.asRef.length = b.len ∧ b.len ≤ M := by
  obtain ⟨h1, h2, h3⟩ := built_wf hb
  have hl : (f (b.buf.take b.len)).length = b.len := by rw [hf, List.length_take, h1, Nat.min_eq_left h2]
  refine ⟨?_, rfl, BytesAtMost.length_asRef ⟨h1, h2⟩, h2⟩
  show (f (b.buf.take b.len) ++ b.buf.drop b.len).take b.len = _
  rw [List.take_append_of_le_length (by omega), List.take_of_length_le (by omega)]
  rfl

/-- C91, the conversions agree: each is the array of the little-endian bytes of the number, and `with_len` is
the array of zeros. -/
theorem C91_from (M : Nat) :
    (∀ n : UInt8, BytesAtMost.ofU8 M n = BytesAtMost.ofArray M [n]) ∧
    (∀ n : UInt16, BytesAtMost.ofU16 M n = BytesAtMost.ofArray M (leBytes 2 n.toNat)) ∧
    (∀ n : UInt32, BytesAtMost.ofU32 M n = BytesAtMost.ofArray M (leBytes 4 n.toNat)) ∧
    (∀ n : UInt64, BytesAtMost.ofU64 M n = BytesAtMost.ofArray M (leBytes 8 n.toNat)) ∧
    (∀ n : Nat, BytesAtMost.withLen M n = BytesAtMost.ofArray M (List.replicate n 0)) := by
  refine ⟨fun n => ?_, fun n => ?_, fun n => ?_, fun n => ?_, fun n => ?_⟩
  · by_cases h : 1 ≤ M
    · simp [BytesAtMost.ofU8, rassert, h, bind, Except.bind]
    · simp [BytesAtMost.ofU8, ofArray_eq, rassert, h, bind, Except.bind]
  · by_cases h : 2 ≤ M
    · simp [BytesAtMost.ofU16, ofArray_eq, withLen_eq, overwrite_eq, rassert, h, bind, Except.bind,
        length_leBytes, show 1 ≤ M by omega]
    · by_cases h1 : 1 ≤ M <;>
        simp [BytesAtMost.ofU16, ofArray_eq, withLen_eq, rassert, h, h1, bind, Except.bind, length_leBytes]
  · by_cases h : 4 ≤ M <;>
      simp [BytesAtMost.ofU32, ofArray_eq, withLen_eq, overwrite_eq, rassert, h, bind, Except.bind, length_leBytes]
  · by_cases h : 8 ≤ M <;>
      simp [BytesAtMost.ofU64, ofArray_eq, withLen_eq, overwrite_eq, rassert, h, bind, Except.bind, length_leBytes]
  · rw [ofArray_eq, withLen_eq, List.length_replicate, List.replicate_append_replicate]
    by_cases h : n ≤ M
    · simp [h]
    · simp [h]

/-- A buffer built from a number and one built from an array and changed in place: equal. -/
example : ∃ b c : BytesAtMost 8, Built b ∧ Built c ∧ b = c ∧ b.asRef = [0x34, 0x12] ∧
    BytesAtMost.ofU16 8 0x1234 = .ok b := by
  refine ⟨⟨[0x34, 0x12, 0, 0, 0, 0, 0, 0], 2⟩,
    (⟨[0xff, 0xff, 0, 0, 0, 0, 0, 0], 2⟩ : BytesAtMost 8).asMut (fun l => [0x34, 0x12].take l.length ++ l.drop 2),
    ?_, ?_, ?_, ?_, ?_⟩
  · exact .u16 (n := 0x1234) (by decide)
  · refine .edit (.array (a := [0xff, 0xff]) (by decide)) (fun l => ?_)
    simp; omega
  · decide
  · decide
  · decide

end AT.Props
