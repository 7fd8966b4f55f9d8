import Verif.Model.Rust
/-!
# at-mac: byte order and fixed-size strings (`/repo/at-mac/src/io.rs`)

`h : Endian` is the byte order of the host the code was compiled for
(`Endian::NATIVE`, `io.rs:10-20`); every `*_native` function takes it as a parameter.
-/

namespace AT.Mac

/-- `at-mac/src/io.rs:4-8` `enum Endian`. -/
inductive Endian where
  | little
  | big
  deriving DecidableEq, Repr

/-- `at-mac/src/io.rs:10-20` `Endian::REVERSE` on a host whose `NATIVE` is `h`. -/
def Endian.reverse : Endian → Endian
  | .little => .big
  | .big => .little

/-- byteorder: the `k` bytes of `n` in byte order `e`. -/
def intBytes (e : Endian) (k n : Nat) : Bytes :=
  match e with
  | .little => leBytes k n
  | .big => (leBytes k n).reverse

/-- byteorder: the number whose bytes in order `e` are `b`. -/
def intVal (e : Endian) (b : Bytes) : Nat :=
  match e with
  | .little => leVal b
  | .big => leVal b.reverse

/-! ## `ReadExt` (`io.rs:31-60`) -/

/-- `io.rs:32-34` `read_u8`. -/
def readU8 : Rd UInt8 := do
  let b ← readExact 1
  pure (UInt8.ofNat (leVal b))

/-- `io.rs:36-38` `read_u16_in`. -/
def readU16 (e : Endian) : Rd UInt16 := do
  let b ← readExact 2
  pure (UInt16.ofNat (intVal e b))

/-- `io.rs:40-42` `read_i32_in`. -/
def readI32 (e : Endian) : Rd Int32 := do
  let b ← readExact 4
  pure (UInt32.ofNat (intVal e b)).toInt32

/-- `io.rs:44-46` `read_u32_in`. -/
def readU32 (e : Endian) : Rd UInt32 := do
  let b ← readExact 4
  pure (UInt32.ofNat (intVal e b))

/-- `io.rs:48-50` `read_u64_in`. -/
def readU64 (e : Endian) : Rd UInt64 := do
  let b ← readExact 8
  pure (UInt64.ofNat (intVal e b))

/-- `io.rs:52-59` `read_fixed_size_string`: the bytes before the first NUL, as UTF-8. -/
def readFixedStr (size : Nat) : Rd Str := do
  let buf ← readExact size
  Rd.lift (runwrap (fromUtf8 (buf.takeWhile (· != 0))))

/-! ## `WriteExt` (`io.rs:64-97`) -/

/-- `io.rs:65-67` `write_u8`. -/
def writeU8 (n : UInt8) : Wr Unit := emit [n]

/-- `io.rs:69-71` `write_u16_native`. -/
def writeU16 (h : Endian) (n : UInt16) : Wr Unit := emit (intBytes h 2 n.toNat)

/-- `io.rs:73-75` `write_i32_native`. -/
def writeI32 (h : Endian) (n : Int32) : Wr Unit := emit (intBytes h 4 n.toUInt32.toNat)

/-- `io.rs:77-79` `write_u32_native`. -/
def writeU32 (h : Endian) (n : UInt32) : Wr Unit := emit (intBytes h 4 n.toNat)

/-- `io.rs:81-83` `write_u64_native`. -/
def writeU64 (h : Endian) (n : UInt64) : Wr Unit := emit (intBytes h 8 n.toNat)

/-- `io.rs:85-96` `write_fixed_size_string`. The loop stores `c as u8` at index `i`; after the
two asserts every char is ASCII and fits, so the buffer is the chars followed by zeros. -/
def writeFixedStr (s : Str) (size : Nat) : Wr Unit := do
  Wr.lift (rassert (strIsAscii s))
  Wr.lift (rassert (utf8Len s ≤ size))
  emit (s.map (fun c => c.toNat.toUInt8) ++ List.replicate (size - s.length) 0)

end AT.Mac
