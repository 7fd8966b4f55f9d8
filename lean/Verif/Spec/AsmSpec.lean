import Verif.Model.Asm
import Verif.Spec.X86Meaning
/-!
# Specification: the source language

Stated over the text of a line; of the model it uses the data types, `isWs` (Unicode white space,
`Model/Rust.lean`) and nothing of the parsers.
-/

namespace AT.AsmSpec
open AT.X64

/-- A string of blanks. -/
def Blank (s : Str) : Prop := ∀ c ∈ s, isWs c = true

/-- A string without blanks. -/
def Solid (s : Str) : Prop := ∀ c ∈ s, isWs c = false

/-- `s` does not start with a blank. -/
def StartsSolid (s : Str) : Prop := ∀ c r, s = c :: r → isWs c = false

/-- `s` does not end with a blank. -/
def EndsSolid (s : Str) : Prop := ∀ c r, s = r ++ [c] → isWs c = false

/-- `s` is empty or starts with a blank. -/
def Broken (s : Str) : Prop := ∀ c r, s = c :: r → isWs c = true

/-- `Tokens s ts`: `ts` are the maximal blank-free pieces of `s`, in order. -/
inductive Tokens : Str → List Str → Prop
  | nil (w : Str) : Blank w → Tokens w []
  | cons (w t rest : Str) (ts : List Str) : Blank w → t ≠ [] → Solid t → Broken rest →
      Tokens rest ts → Tokens (w ++ t ++ rest) (t :: ts)

/-- `Code s c`: `c` is the part of the line `s` before the first `;`. -/
def Code (s c : Str) : Prop := ';' ∉ c ∧ (s = c ∨ ∃ r, s = c ++ ';' :: r)

/-- The name of a section. -/
def sectName : Asm.Section → Str
  | .text => str% ".text"
  | .data => str% ".data"
  | .bss => str% ".bss"

/-! ## Numbers -/

/-- Value of a decimal digit. -/
def decDigit (c : Char) : Option Nat :=
  if '0' ≤ c ∧ c ≤ '9' then some (c.toNat - '0'.toNat) else none

/-- Value of a hexadecimal digit. -/
def hexDigit (c : Char) : Option Nat :=
  if '0' ≤ c ∧ c ≤ '9' then some (c.toNat - '0'.toNat)
  else if 'a' ≤ c ∧ c ≤ 'f' then some (10 + (c.toNat - 'a'.toNat))
  else if 'A' ≤ c ∧ c ≤ 'F' then some (10 + (c.toNat - 'A'.toNat))
  else none

/-- `Digits d base s n`: `s` is a non-empty string of digits with value `n`, most significant
digit first. -/
inductive Digits (d : Char → Option Nat) (base : Nat) : Str → Nat → Prop
  | one (c : Char) (v : Nat) : d c = some v → Digits d base [c] v
  | snoc (s : Str) (n : Nat) (c : Char) (v : Nat) : Digits d base s n → d c = some v →
      Digits d base (s ++ [c]) (n * base + v)

/-- `Decimal n s`: `s` is `n` in decimal, without leading zeros. -/
def Decimal (n : Nat) (s : Str) : Prop :=
  Digits decDigit 10 s n ∧ (s.head? = some '0' → s = ['0'])

/-- A plain literal: decimal, or `0x` and hexadecimal digits. -/
inductive Literal : Str → Nat → Prop
  | dec (s : Str) (n : Nat) : Digits decDigit 10 s n → Literal s n
  | hex (s : Str) (n : Nat) : Digits hexDigit 16 s n → Literal ('0' :: 'x' :: s) n

/-- `k` copies of `0x`. -/
def zeroXs : Nat → Str
  | 0 => []
  | k + 1 => '0' :: 'x' :: zeroXs k

/-- What the code accepts beyond plain literals: a `+` before the digits, and `0x` repeated. -/
inductive OddLiteral : Str → Nat → Prop
  | plusDec (s : Str) (n : Nat) : Digits decDigit 10 s n → OddLiteral ('+' :: s) n
  | plusHex (k : Nat) (s : Str) (n : Nat) : Digits hexDigit 16 s n →
      OddLiteral (zeroXs (k + 1) ++ '+' :: s) n
  | again (k : Nat) (s : Str) (n : Nat) : Digits hexDigit 16 s n →
      OddLiteral (zeroXs (k + 2) ++ s) n

/-- A number as the code reads it. -/
def Number (s : Str) (n : Nat) : Prop := Literal s n ∨ OddLiteral s n

/-! ## Operand expressions -/

/-- `Operand ts n`: the tokens `ts` spell a constant with mathematical value `n`. -/
inductive Operand : List Str → Int → Prop
  | num (a : Str) (x : Nat) : Number a x → x < 2 ^ 64 → Operand [a] x
  | add (a b : Str) (x y : Nat) : Number a x → x < 2 ^ 64 → Number b y → y < 2 ^ 64 →
      Operand [a, ['+'], b] (x + y)
  | sub (a b : Str) (x y : Nat) : Number a x → x < 2 ^ 64 → Number b y → y < 2 ^ 64 →
      Operand [a, ['-'], b] (x - y)

/-- The value of the 64-bit word `x` read as a two's complement number. -/
def asI64 (x : Nat) : Int := if x < 2 ^ 63 then x else x - 2 ^ 64

/-- `n` fits a signed 64-bit word. -/
def FitsI64 (n : Int) : Prop := -2 ^ 63 ≤ n ∧ n < 2 ^ 63

instance (n : Int) : Decidable (FitsI64 n) := inferInstanceAs (Decidable (_ ∧ _))

/-- `Overflow ts`: computing the constant spelled by `ts` in signed 64-bit arithmetic overflows.
(A difference is computed as `a + (-1) * b`.) -/
inductive Overflow : List Str → Prop
  | add (a b : Str) (x y : Nat) : Number a x → x < 2 ^ 64 → Number b y → y < 2 ^ 64 →
      ¬ FitsI64 (asI64 x + asI64 y) → Overflow [a, ['+'], b]
  | sub (a b : Str) (x y : Nat) : Number a x → x < 2 ^ 64 → Number b y → y < 2 ^ 64 →
      ¬ (FitsI64 (- asI64 y) ∧ FitsI64 (asI64 x - asI64 y)) → Overflow [a, ['-'], b]

/-- `Spells s ts`: the tokens of `s` are `ts`, or `ts` are the first three of them (the code
ignores what follows a complete sum or difference, see C56). -/
def Spells (s : Str) (ts : List Str) : Prop :=
  Tokens s ts ∨ ∃ a op b c extra, ts = [a, op, b] ∧ Tokens s (a :: op :: b :: c :: extra)

/-! ## Data directives -/

/-- An item of a data directive. -/
inductive Item where
  | num (n : Nat)
  | str (s : Str)
  deriving DecidableEq, Repr

/-- A separator between items. -/
def Delim (c : Char) : Prop := isWs c = true ∨ c = ','

/-- `Items s its`: the text `s` lists the items `its`.  After a number comes one separator, then
blanks; after a string any separators, or none. -/
inductive Items : Str → List Item → Prop
  | nil : Items [] []
  | last (a : Str) (n : Nat) : Number a n → n < 2 ^ 64 → Items a [.num n]
  | num (a : Str) (n : Nat) (c : Char) (w rest : Str) (its : List Item) : Number a n → n < 2 ^ 64 →
      Delim c → Blank w → Items rest its → Items (a ++ c :: (w ++ rest)) (.num n :: its)
  | str (body w rest : Str) (its : List Item) : '"' ∉ body → (∀ c ∈ w, Delim c) →
      Items rest its → Items ('"' :: (body ++ '"' :: (w ++ rest))) (.str body :: its)

/-- `ItemBytes w it bs`: the item `it` is stored as `bs` with element size `w`: a number in `w`
bytes, least significant first; a string as its UTF-8 bytes and the fewest zeros that complete the
last element. -/
def ItemBytes (w : Nat) : Item → Bytes → Prop
  | .num n, bs => bs.length = w ∧ leVal bs = n
  | .str s, bs => ∃ p, bs = utf8 s ++ List.replicate p 0 ∧ p < w ∧ bs.length % w = 0

/-- The items are stored one after the other. -/
inductive Stored (w : Nat) : List Item → Bytes → Prop
  | nil : Stored w [] []
  | cons (it : Item) (its : List Item) (b bs : Bytes) : ItemBytes w it b → Stored w its bs →
      Stored w (it :: its) (b ++ bs)

/-- The directives and their element sizes. -/
def directives : List (Str × Nat) := [(str% "db", 1), (str% "dw", 2), (str% "dd", 4), (str% "dq", 8)]

/-- A name that can be the label of a data line: one token that is not a directive, not `section`
or `global`, and does not end with a colon. -/
def DataLabel (l : Str) : Prop :=
  l ≠ [] ∧ Solid l ∧ (∀ w, (l, w) ∉ directives) ∧ l ≠ str% "section" ∧ l ≠ str% "global" ∧
    ∀ r, l ≠ r ++ [':']

/-- `DataLine c label w txt`: `c` is a data line, `txt` the text listing its items. -/
inductive DataLine : Str → Option Str → Nat → Str → Prop
  | plain (w0 dir w1 txt w2 : Str) (w : Nat) : (dir, w) ∈ directives → Blank w0 → w1 ≠ [] → Blank w1 →
      txt ≠ [] → StartsSolid txt → EndsSolid txt → Blank w2 →
      DataLine (w0 ++ dir ++ w1 ++ txt ++ w2) none w txt
  | labelled (w0 l w1 dir w2 txt w3 : Str) (w : Nat) : DataLabel l → (dir, w) ∈ directives → Blank w0 →
      w1 ≠ [] → Blank w1 → w2 ≠ [] → Blank w2 → txt ≠ [] → StartsSolid txt → EndsSolid txt → Blank w3 →
      DataLine (w0 ++ l ++ w1 ++ dir ++ w2 ++ txt ++ w3) (some l) w txt

/-! ## Instructions -/

/-- `MovLine c dst src`: `c` is `mov dst, src` with blanks anywhere around the operands (after the
mnemonic a space comes first). -/
def MovLine (c dst src : Str) : Prop :=
  ∃ w0 a b d e, Blank w0 ∧ Blank a ∧ Blank b ∧ Blank d ∧ Blank e ∧ ',' ∉ dst ∧ StartsSolid dst ∧
    EndsSolid dst ∧ StartsSolid src ∧ EndsSolid src ∧
    c = w0 ++ str% "mov" ++ ' ' :: (a ++ dst ++ b ++ ',' :: (d ++ src ++ e))

/-- `Const bd s n`: the text `s` is a constant with 64-bit value `n` that can be computed in the
build `bd`. -/
def Const (bd : Build) (s : Str) (n : UInt64) : Prop :=
  ∃ ts v, Spells s ts ∧ Operand ts v ∧ (n.toNat : Int) = v % 2 ^ 64 ∧ (bd = .release ∨ ¬ Overflow ts)

/-- The text `s` is not the beginning of a constant: it has no token, or its first token is neither
a sign nor a number below 2^64. -/
def NotConst (s : Str) : Prop :=
  ∀ a rest, Tokens s (a :: rest) → a ≠ ['+'] ∧ a ≠ ['-'] ∧ ∀ n, Number a n → 2 ^ 64 ≤ n

/-- An instruction of the source language: a machine instruction, or a move of the address of a
symbol into a register. -/
inductive SrcInst where
  | plain (i : Inst)
  | sym64 (d : Reg64) (name : Str)
  | sym32 (d : Reg32) (name : Str)

/-- `InstLine bd c x`: the line `c` spells the instruction `x`. -/
inductive InstLine (bd : Build) (c : Str) : SrcInst → Prop
  | mov64Reg (d r : Reg64) : MovLine c d.asmName r.asmName → InstLine bd c (.plain (.movReg64Reg64 d r))
  | mov32Reg (d r : Reg32) : MovLine c d.asmName r.asmName → InstLine bd c (.plain (.movReg32Reg32 d r))
  | mov16Reg (d r : Reg16) : MovLine c d.asmName r.asmName → InstLine bd c (.plain (.movReg16Reg16 d r))
  | mov64Const (d : Reg64) (src : Str) (n : UInt64) : MovLine c d.asmName src → Const bd src n →
      InstLine bd c (.plain (.movReg64Imm d n))
  | mov32Const (d : Reg32) (src : Str) (n : UInt64) (m : UInt32) : MovLine c d.asmName src →
      Const bd src n → m.toNat = n.toNat → InstLine bd c (.plain (.movReg32Imm d m))
  | mov16Const (d : Reg16) (src : Str) (n : UInt64) (m : UInt16) : MovLine c d.asmName src →
      Const bd src n → m.toNat = n.toNat → InstLine bd c (.plain (.movReg16Imm d m))
  | mov64Sym (d : Reg64) (name : Str) : MovLine c d.asmName name → NotConst name →
      (∀ r : Reg64, name ≠ r.asmName) → InstLine bd c (.sym64 d name)
  | mov32Sym (d : Reg32) (name : Str) : MovLine c d.asmName name → NotConst name →
      (∀ r : Reg32, name ≠ r.asmName) → InstLine bd c (.sym32 d name)
  | pushReg (r : Reg64) (extra : List Str) : Tokens c (str% "push" :: r.asmName :: extra) →
      InstLine bd c (.plain (.pushReg64 r))
  | pushU8 (op : Str) (n : UInt8) (extra : List Str) : Tokens c (str% "push" :: op :: extra) →
      Number op n.toNat → InstLine bd c (.plain (.pushU8 n))
  | pushU32 (op : Str) (n : UInt32) (extra : List Str) : Tokens c (str% "push" :: op :: extra) →
      Number op n.toNat → 256 ≤ n.toNat → InstLine bd c (.plain (.pushU32 n))
  | ret (extra : List Str) : Tokens c (str% "ret" :: extra) → InstLine bd c (.plain .ret)
  | syscall (extra : List Str) : Tokens c (str% "syscall" :: extra) → InstLine bd c (.plain .syscall)

end AT.AsmSpec
