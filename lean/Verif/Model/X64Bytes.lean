import Verif.Model.Rust
/-!
# at-x64: `BytesAtMost` (`/repo/at-x64/src/bytes.rs`)
-/

namespace AT.X64

/-- `at-x64/src/bytes.rs:3-7` `struct BytesAtMost<const MAX: usize>`.
`buf` is the fixed array `[u8; MAX]` (its length is `MAX` in every reachable value, see
`BytesAtMost.WF`), `len` the number of bytes in use. -/
structure BytesAtMost (MAX : Nat) where
  buf : Bytes
  len : Nat
  deriving DecidableEq, Repr

namespace BytesAtMost

/-- The representation invariant of reachable values: array length `MAX`, `len ≤ MAX`, and the
unused tail still zero (so derived equality is equality of contents). -/
def WF {MAX : Nat} (b : BytesAtMost MAX) : Prop :=
  b.buf.length = MAX ∧ b.len ≤ MAX ∧ b.buf.drop b.len = List.replicate (MAX - b.len) 0

/-- `at-x64/src/bytes.rs:10-17` `with_len`: panics when `len > MAX`. -/
def withLen (MAX : Nat) (len : Nat) : Res (BytesAtMost MAX) := do
  rassert (len ≤ MAX)
  pure ⟨List.replicate MAX 0, len⟩

/-- `at-x64/src/bytes.rs:23-25` `is_empty`. -/
def isEmpty {MAX : Nat} (b : BytesAtMost MAX) : Bool := b.len == 0

/-- `at-x64/src/bytes.rs:28-32` `as_ref`: `&bytes[0..len]`. -/
def asRef {MAX : Nat} (b : BytesAtMost MAX) : Bytes := b.buf.take b.len

/-- `at-x64/src/bytes.rs:34-38` `as_mut`: `&mut bytes[0..len]`, lent to code that turns the slice into
`f` of it.  A `&mut [u8]` cannot change its length, so `f` keeps lengths wherever this is used. -/
def asMut {MAX : Nat} (b : BytesAtMost MAX) (f : Bytes → Bytes) : BytesAtMost MAX :=
  { b with buf := f (b.buf.take b.len) ++ b.buf.drop b.len }

/-- Overwriting the first `src.length ≤ len` bytes through `as_mut()`
(`at-x64/src/bytes.rs:34-38`, used by `copy_from_slice`, `write_uN` and `Cursor`).
Writing past `len` would be an error in Rust (`unwrap`ped: panic). -/
def overwrite {MAX : Nat} (b : BytesAtMost MAX) (src : Bytes) : Res (BytesAtMost MAX) := do
  rassert (src.length ≤ b.len)
  pure { b with buf := src ++ b.buf.drop src.length }

/-- `at-x64/src/bytes.rs:40-48` `From<[u8; N]>`; `N` is `array.length`. -/
def ofArray (MAX : Nat) (array : Bytes) : Res (BytesAtMost MAX) := do
  rassert (array.length ≤ MAX)
  let bytes ← withLen MAX array.length
  bytes.overwrite array

/-- `at-x64/src/bytes.rs:50-56` `From<u8>`. -/
def ofU8 (MAX : Nat) (n : UInt8) : Res (BytesAtMost MAX) := do
  rassert (1 ≤ MAX)
  ofArray MAX [n]

/-- `at-x64/src/bytes.rs:58-66` `From<u16>` (its assert really says `MAX >= 1`). -/
def ofU16 (MAX : Nat) (n : UInt16) : Res (BytesAtMost MAX) := do
  rassert (1 ≤ MAX)
  let bytes ← withLen MAX 2
  bytes.overwrite (leBytes 2 n.toNat)

/-- `at-x64/src/bytes.rs:68-76` `From<u32>`. -/
def ofU32 (MAX : Nat) (n : UInt32) : Res (BytesAtMost MAX) := do
  rassert (4 ≤ MAX)
  let bytes ← withLen MAX 4
  bytes.overwrite (leBytes 4 n.toNat)

/-- `at-x64/src/bytes.rs:78-86` `From<u64>`. -/
def ofU64 (MAX : Nat) (n : UInt64) : Res (BytesAtMost MAX) := do
  rassert (8 ≤ MAX)
  let bytes ← withLen MAX 8
  bytes.overwrite (leBytes 8 n.toNat)

end BytesAtMost
end AT.X64
