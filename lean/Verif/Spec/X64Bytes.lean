import Verif.Model.X64Bytes
/-!
# Specification: the values of `BytesAtMost` a program can get hold of

The fields of `BytesAtMost` are private; a value comes from `with_len`, from one of the `From`
conversions, or from another value by a change through `as_mut`.
-/

namespace AT.X64

/-- A change of a slice of bytes in place: it keeps the number of bytes. -/
def KeepsLength (f : Bytes → Bytes) : Prop := ∀ l, (f l).length = l.length

/-- The values that can be built with the public functions. -/
inductive Built {M : Nat} : BytesAtMost M → Prop where
  | withLen {n : Nat} {b : BytesAtMost M} : BytesAtMost.withLen M n = .ok b → Built b
  | array {a : Bytes} {b : BytesAtMost M} : BytesAtMost.ofArray M a = .ok b → Built b
  | u8 {n : UInt8} {b : BytesAtMost M} : BytesAtMost.ofU8 M n = .ok b → Built b
  | u16 {n : UInt16} {b : BytesAtMost M} : BytesAtMost.ofU16 M n = .ok b → Built b
  | u32 {n : UInt32} {b : BytesAtMost M} : BytesAtMost.ofU32 M n = .ok b → Built b
  | u64 {n : UInt64} {b : BytesAtMost M} : BytesAtMost.ofU64 M n = .ok b → Built b
  | edit {b : BytesAtMost M} {f : Bytes → Bytes} : Built b → KeepsLength f → Built (b.asMut f)

end AT.X64
