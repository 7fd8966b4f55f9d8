import Verif.Spec.AsmSpec
/-!
# Specification: which lines are rejected, and with which message

Stated over the text of a line, like `Spec/AsmSpec.lean`.
-/

namespace AT.AsmSpec
open AT.X64

/-- `a` is a number the code can read: its value is below 2^64. -/
def Readable (a : Str) : Prop := ∃ n, Number a n ∧ n < 2 ^ 64

/-- `s` without the blanks around it is `m`. -/
def Trimmed (s m : Str) : Prop :=
  ∃ w0 w1, Blank w0 ∧ Blank w1 ∧ s = w0 ++ m ++ w1 ∧ StartsSolid m ∧ EndsSolid m

/-- No data line has the text `c`. -/
def NotDataLine (c : Str) : Prop := ∀ lab w txt, ¬ DataLine c lab w txt

/-! ## Items of a data directive -/

/-- `FirstItem s a rest`: the text `s` starts with the unquoted item `a` (possibly empty: `s` starts
with a separator); `rest` is what follows the separator and the blanks after it, or nothing. -/
inductive FirstItem : Str → Str → Str → Prop
  | last (a : Str) : a ≠ [] → (∀ c ∈ a, ¬ Delim c) → a.head? ≠ some '"' → FirstItem a a []
  | more (a : Str) (c : Char) (w rest : Str) : (∀ c ∈ a, ¬ Delim c) → a.head? ≠ some '"' → Delim c →
      Blank w → StartsSolid rest → FirstItem (a ++ c :: (w ++ rest)) a rest

/-- `BadItems w s msg`: with elements of `w` bytes, the first item of the list `s` that cannot be
read or stored is reported by `msg`. -/
inductive BadItems (w : Nat) : Str → Str → Prop
  | notNumber (s a rest : Str) : FirstItem s a rest → ¬ Readable a →
      BadItems w s (a ++ str% " is invalid u64")
  | tooLarge (s a rest : Str) (n : Nat) (num bits : Str) : FirstItem s a rest → Number a n → n < 2 ^ 64 →
      256 ^ w ≤ n → Decimal n num → Decimal (8 * w) bits →
      BadItems w s (num ++ str% " is not a " ++ bits ++ str% " bit number")
  | unclosed (body : Str) : '"' ∉ body → BadItems w ('"' :: body) (str% "unclosed \" found")
  | afterNumber (s a rest : Str) (n : Nat) (msg : Str) : FirstItem s a rest → Number a n → n < 2 ^ 64 →
      n < 256 ^ w → BadItems w rest msg → BadItems w s msg
  | afterString (body sep rest msg : Str) : '"' ∉ body → (∀ c ∈ sep, Delim c) →
      (∀ c, rest.head? = some c → ¬ Delim c) → BadItems w rest msg →
      BadItems w ('"' :: (body ++ '"' :: (sep ++ rest))) msg

/-! ## Operands -/

/-- `BadConst s msg`: the text `s` begins like a constant but is none. -/
inductive BadConst (s : Str) : Str → Prop
  | unary (a : Str) (rest : List Str) : Tokens s (a :: rest) → a = ['+'] ∨ a = ['-'] →
      BadConst s (str% "unary op is not supported")
  | operator (a op : Str) (rest : List Str) : Tokens s (a :: op :: rest) → Readable a →
      op ≠ ['+'] → op ≠ ['-'] → BadConst s (str% "expected + or -")
  | noRhs (a op : Str) : Tokens s [a, op] → Readable a → op = ['+'] ∨ op = ['-'] →
      BadConst s (str% "rhs not found")
  | badRhs (a op b : Str) (rest : List Str) : Tokens s (a :: op :: b :: rest) → Readable a →
      op = ['+'] ∨ op = ['-'] → ¬ Readable b → BadConst s (str% "invalid rhs")

/-- `s` names a register of 64, 32 or 16 bits. -/
def IsReg (s : Str) : Prop :=
  (∃ r : Reg64, s = r.asmName) ∨ (∃ r : Reg32, s = r.asmName) ∨ ∃ r : Reg16, s = r.asmName

/-- `BadMov bd c msg`: the line `c`, whose first token is `mov`, is no instruction. -/
inductive BadMov (bd : Build) (c : Str) : Str → Prop
  | noSpace (m : Str) : Trimmed c m → ' ' ∉ m → BadMov bd c (str% "invalid mov instruction format")
  | glued (op r : Str) : Trimmed c (op ++ ' ' :: r) → ' ' ∉ op → op ≠ str% "mov" →
      BadMov bd c (str% "not mov opcode")
  | noComma (r : Str) : Trimmed c (str% "mov" ++ ' ' :: r) → ',' ∉ r →
      BadMov bd c (str% "invalid mov instruction format")
  | badDst (dst src : Str) : MovLine c dst src → ¬ IsReg dst → BadMov bd c (str% "invalid first operand")
  | badConst (dst src msg : Str) : MovLine c dst src → IsReg dst → BadConst src msg → BadMov bd c msg
  | large32 (d : Reg32) (src : Str) (n : UInt64) (num : Str) : MovLine c d.asmName src → Const bd src n →
      2 ^ 32 ≤ n.toNat → Decimal n.toNat num → BadMov bd c (num ++ str% " is not 32bit")
  | large16 (d : Reg16) (src : Str) (n : UInt64) (num : Str) : MovLine c d.asmName src → Const bd src n →
      2 ^ 16 ≤ n.toNat → Decimal n.toNat num → BadMov bd c (num ++ str% " is not 16bit")
  | badSrc (d : Reg16) (src : Str) : MovLine c d.asmName src → NotConst src →
      (∀ r : Reg16, src ≠ r.asmName) → BadMov bd c (str% "invalid second operand")

/-! ## Lines -/

/-- `Wrong bd c msg`: the text `c` of a line, without comment, is rejected with `msg`. -/
inductive Wrong (bd : Build) (c : Str) : Str → Prop
  | noSection : Tokens c [str% "section"] → Wrong bd c (str% "section name is expected")
  | badSection (name : Str) (more : List Str) : Tokens c (str% "section" :: name :: more) →
      (∀ x, name ≠ sectName x) → Wrong bd c (str% "unrecognized section " ++ name)
  | afterSection (x : Asm.Section) (t : Str) (more : List Str) :
      Tokens c (str% "section" :: sectName x :: t :: more) →
      Wrong bd c (str% "expected end of line after section declaration")
  | noGlobal : Tokens c [str% "global"] → Wrong bd c (str% "symbol name is expected")
  | afterGlobal (name t : Str) (more : List Str) : Tokens c (str% "global" :: name :: t :: more) →
      Wrong bd c (str% "expected end of line after global symbol definition")
  | afterLabel (l t : Str) (more : List Str) : Tokens c ((l ++ [':']) :: t :: more) →
      Wrong bd c (str% "error: expected end of line.")
  | data (lab : Option Str) (w : Nat) (txt msg : Str) : DataLine c lab w txt → BadItems w txt msg →
      Wrong bd c msg
  | mov (more : List Str) (msg : Str) : Tokens c (str% "mov" :: more) → NotDataLine c → BadMov bd c msg →
      Wrong bd c msg
  | noOperand : Tokens c [str% "push"] →
      Wrong bd c (str% "error: operand is expected after push opcode")
  | badOperand (op : Str) (more : List Str) : Tokens c (str% "push" :: op :: more) → NotDataLine c →
      (∀ r : Reg64, op ≠ r.asmName) → (∀ n, Number op n → 2 ^ 32 ≤ n) →
      Wrong bd c (str% "error: invalid push operand : " ++ op)
  | unrecognized (t : Str) (more : List Str) : Tokens c (t :: more) → NotDataLine c →
      t ≠ str% "section" → t ≠ str% "global" → (∀ l, t ≠ l ++ [':']) → t ≠ str% "mov" →
      t ≠ str% "push" → t ≠ str% "ret" → t ≠ str% "syscall" → Wrong bd c (str% "unrecognized line")

end AT.AsmSpec
