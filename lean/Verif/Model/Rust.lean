/-!
# Rust runtime and std fragments used by the repository

Nothing here is repository code: these are the std / byteorder / language facilities the
repository calls, modelled from their documentation.  They are part of the trusted base.
-/

namespace AT

/-- A byte string (`Vec<u8>`, `&[u8]`). -/
abbrev Bytes := List UInt8

/-- A Rust `str`/`String`, as its list of Unicode scalar values. -/
abbrev Str := List Char

/-- `str% "abc"` is the literal `['a','b','c'] : Str`. -/
syntax "str% " str : term
macro_rules
  | `(str% $s:str) => do
    let cs := s.getString.toList
    let lits := cs.map (fun c => Lean.Syntax.mkCharLit c)
    `(([$(lits.toArray),*] : List Char))

/-- Cargo profile: decides what integer overflow does (`debug`: panic, `release`: wrap). -/
inductive Build where
  | debug
  | release
  deriving DecidableEq, Repr

/-- The ways a computation of the repository can stop without a value.
`parseErr msg` is a Rust `Err(ParseError { msg })` being propagated by `?`;
`panic` is an unwinding panic; `exit code msg` is `eprintln!(msg); exit(code)`. -/
inductive Stop where
  | parseErr (msg : Str)
  | panic
  | exit (code : Int32) (stderr : Str)
  deriving DecidableEq, Repr

/-- Result of a computation that may stop. -/
abbrev Res := Except Stop

deriving instance DecidableEq for Except

/-- `assert!(c)` / `assert_eq!`. -/
def rassert (c : Bool) : Res Unit := if c then .ok () else .error .panic

/-- `Option::unwrap`. -/
def runwrap {α : Type} : Option α → Res α
  | some a => .ok a
  | none => .error .panic

/-! ## Integer arithmetic with build-dependent overflow -/

/-- `a + b` on `u32`. -/
def addU32 (bd : Build) (a b : UInt32) : Res UInt32 :=
  if a.toNat + b.toNat < 2 ^ 32 ∨ bd = .release then .ok (a + b) else .error .panic

/-- `a * b` on `u32`. -/
def mulU32 (bd : Build) (a b : UInt32) : Res UInt32 :=
  if a.toNat * b.toNat < 2 ^ 32 ∨ bd = .release then .ok (a * b) else .error .panic

/-- `a - b` on `u32`. -/
def subU32 (bd : Build) (a b : UInt32) : Res UInt32 :=
  if b.toNat ≤ a.toNat ∨ bd = .release then .ok (a - b) else .error .panic

/-- `a + b` on `u64`. -/
def addU64 (bd : Build) (a b : UInt64) : Res UInt64 :=
  if a.toNat + b.toNat < 2 ^ 64 ∨ bd = .release then .ok (a + b) else .error .panic

/-- `a * b` on `u64`. -/
def mulU64 (bd : Build) (a b : UInt64) : Res UInt64 :=
  if a.toNat * b.toNat < 2 ^ 64 ∨ bd = .release then .ok (a * b) else .error .panic

/-- `a - b` on `u64`. -/
def subU64 (bd : Build) (a b : UInt64) : Res UInt64 :=
  if b.toNat ≤ a.toNat ∨ bd = .release then .ok (a - b) else .error .panic

/-- `a + b` on `i32`. -/
def addI32 (bd : Build) (a b : Int32) : Res Int32 :=
  if (-(2 ^ 31) ≤ a.toInt + b.toInt ∧ a.toInt + b.toInt < 2 ^ 31) ∨ bd = .release then
    .ok (a + b) else .error .panic

/-- `a + b` on `i64`. -/
def addI64 (bd : Build) (a b : Int64) : Res Int64 :=
  if (-(2 ^ 63) ≤ a.toInt + b.toInt ∧ a.toInt + b.toInt < 2 ^ 63) ∨ bd = .release then
    .ok (a + b) else .error .panic

/-- `a * b` on `i64`. -/
def mulI64 (bd : Build) (a b : Int64) : Res Int64 :=
  if (-(2 ^ 63) ≤ a.toInt * b.toInt ∧ a.toInt * b.toInt < 2 ^ 63) ∨ bd = .release then
    .ok (a * b) else .error .panic

/-- `Iterator::sum::<u32>` (left to right, starting from 0). -/
def sumU32 (bd : Build) (l : List UInt32) : Res UInt32 := l.foldlM (addU32 bd) 0

/-- `Iterator::sum::<u64>`. -/
def sumU64 (bd : Build) (l : List UInt64) : Res UInt64 := l.foldlM (addU64 bd) 0

/-! ## Byte order (byteorder crate) -/

/-- `k` little-endian bytes of `n`. -/
def leBytes : Nat → Nat → Bytes
  | 0, _ => []
  | k + 1, n => UInt8.ofNat (n % 256) :: leBytes k (n / 256)

/-- Value of a little-endian byte string. -/
def leVal : Bytes → Nat
  | [] => 0
  | b :: bs => b.toNat + 256 * leVal bs

/-! ## UTF-8 -/

/-- `s.as_bytes()`. -/
def utf8 (s : Str) : Bytes := s.flatMap String.utf8EncodeChar

/-- `s.len()`: number of UTF-8 bytes. -/
def utf8Len (s : Str) : Nat := (utf8 s).length

/-- `std::str::from_utf8` / `String::from_utf8`; `none` is `Err`. -/
def fromUtf8 (b : Bytes) : Option Str := (ByteArray.utf8Decode? ⟨b.toArray⟩).map Array.toList

/-- `char::is_ascii`. -/
def charIsAscii (c : Char) : Bool := c.toNat < 128

/-- `str::is_ascii`. -/
def strIsAscii (s : Str) : Bool := s.all charIsAscii

/-! ## String searching and splitting -/

/-- `char::is_whitespace`: the Unicode `White_Space` property. -/
def isWs (c : Char) : Bool :=
  let n := c.toNat
  (9 ≤ n && n ≤ 13) || n == 0x20 || n == 0x85 || n == 0xA0 || n == 0x1680 ||
  (0x2000 ≤ n && n ≤ 0x200A) || n == 0x2028 || n == 0x2029 || n == 0x202F || n == 0x205F ||
  n == 0x3000

/-- `str::split_once` with a single-`char` pattern or char predicate: cut at the first match. -/
def splitOnce (p : Char → Bool) : Str → Option (Str × Str)
  | [] => none
  | c :: cs => if p c then some ([], cs) else
      match splitOnce p cs with
      | some (a, b) => some (c :: a, b)
      | none => none

/-- `str::trim_start_matches` with a char predicate. -/
def trimStartBy (p : Char → Bool) (s : Str) : Str := s.dropWhile p

/-- `str::trim_end_matches` with a char predicate (or a one-char string pattern). -/
def trimEndBy (p : Char → Bool) (s : Str) : Str := (s.reverse.dropWhile p).reverse

/-- `str::trim_start`. -/
def trimStart (s : Str) : Str := trimStartBy isWs s

/-- `str::trim_end`. -/
def trimEnd (s : Str) : Str := trimEndBy isWs s

/-- `str::trim`. -/
def trim (s : Str) : Str := trimEnd (trimStart s)

/-- Worker of `splitWs`: `cur` is the token being collected, reversed. -/
def splitWsGo (cur : Str) : Str → List Str
  | [] => if cur.isEmpty then [] else [cur.reverse]
  | c :: cs =>
    if isWs c then
      (if cur.isEmpty then splitWsGo [] cs else cur.reverse :: splitWsGo [] cs)
    else splitWsGo (c :: cur) cs

/-- `str::split_whitespace().collect()`. -/
def splitWs (s : Str) : List Str := splitWsGo [] s

/-- `s.ends_with(c)` for a one-char pattern. -/
def endsWithChar (c : Char) (s : Str) : Bool := s.getLast? == some c

/-- `s.trim_start_matches("0x")`: removes the prefix as often as it occurs. -/
def trimStart0x : Str → Str
  | '0' :: 'x' :: rest => trimStart0x rest
  | s => s

/-- `char::to_digit` on an ASCII byte, for radix 10 and 16 (as used by `from_str_radix`). -/
def toDigit (radix : Nat) (c : Char) : Option Nat :=
  let n := c.toNat
  let v := if 48 ≤ n ∧ n ≤ 57 then some (n - 48)
           else if 97 ≤ n ∧ n ≤ 122 then some (n - 97 + 10)
           else if 65 ≤ n ∧ n ≤ 90 then some (n - 65 + 10)
           else none
  v.bind fun d => if d < radix then some d else none

/-- The digit loop of `from_str_radix` for an unsigned type with values below `bound`:
`checked_mul` then `checked_add`, any failure is an error. -/
def digitLoop (radix bound : Nat) : Nat → Str → Option Nat
  | acc, [] => some acc
  | acc, c :: cs =>
    if acc * radix < bound then
      match toDigit radix c with
      | none => none
      | some d => if acc * radix + d < bound then digitLoop radix bound (acc * radix + d) cs else none
    else none

/-- `uN::from_str_radix(s, radix).ok()` with `bound = 2^N`.  Empty input, a lone sign, and `-`
are errors; one leading `+` is accepted. -/
def fromStrRadix (bound radix : Nat) (s : Str) : Option Nat :=
  match s with
  | [] => none
  | ['+'] => none
  | ['-'] => none
  | '+' :: rest => digitLoop radix bound 0 rest
  | s => digitLoop radix bound 0 s

/-! ## `Read` -/

/-- A reading computation over the remaining input bytes of a `Read`. -/
abbrev Rd (α : Type) := StateT Bytes Res α

/-- `read_exact` into a `k`-byte buffer, `unwrap`ped: fewer bytes left is a panic. -/
def readExact (k : Nat) : Rd Bytes := fun s =>
  if k ≤ s.length then .ok (s.take k, s.drop k) else .error .panic

/-- A computation that may stop, inside a reader. -/
def Rd.lift {α : Type} (r : Res α) : Rd α := fun s => r.map (fun a => (a, s))

/-! ## `Write` -/

/-- A writing computation: the `write_all` calls made so far, in order, and how it ended. -/
structure Wr (α : Type) where
  chunks : List Bytes
  res : Res α

/-- Everything handed to the sink. -/
def Wr.out {α : Type} (w : Wr α) : Bytes := w.chunks.flatten

instance : Monad Wr where
  pure a := ⟨[], .ok a⟩
  bind w f := match w.res with
    | .ok a => ⟨w.chunks ++ (f a).chunks, (f a).res⟩
    | .error e => ⟨w.chunks, .error e⟩

/-- `write.write_all(b).unwrap()` on a sink that does not fail. -/
def emit (b : Bytes) : Wr Unit := ⟨[b], .ok ()⟩

/-- A computation that may stop, inside a writer. -/
def Wr.lift {α : Type} (r : Res α) : Wr α := ⟨[], r⟩

/-- `for x in l { f(x) }` for a writing body. -/
def forWr {α : Type} (f : α → Wr Unit) : List α → Wr Unit
  | [] => pure ()
  | x :: xs => do f x; forWr f xs

/-- One `write_all(chunk).unwrap()` against a sink that accepts `room` more bytes and then fails:
returns the bytes accepted, the remaining room, and whether the call succeeded. -/
def sinkWrite (room : Nat) (chunk : Bytes) : Bytes × Nat × Bool :=
  if chunk.length ≤ room then (chunk, room - chunk.length, true)
  else (chunk.take room, 0, false)

/-- Run the recorded `write_all` calls against a sink with `room` bytes of space; the first
failing call panics (`unwrap`) and nothing more is written.  Returns the sink contents. -/
def runSinkGo {α : Type} (room : Nat) (res : Res α) : List Bytes → Bytes × Res α
  | [] => ([], res)
  | c :: cs =>
    match sinkWrite room c with
    | (b, room', true) =>
      let r := runSinkGo room' res cs
      (b ++ r.1, r.2)
    | (b, _, false) => (b, .error .panic)

/-- A writing computation against a sink with `room` bytes of space. -/
def Wr.runSink {α : Type} (room : Nat) (w : Wr α) : Bytes × Res α := runSinkGo room w.res w.chunks

end AT
