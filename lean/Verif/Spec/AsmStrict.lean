import Verif.Spec.AsmErrors
/-!
# Specification: single constructs of the source language, parsed on their own
-/

namespace AT.AsmSpec

/-- `DataForm c label w txt`: `c` is `[label] directive txt`, where the label is any token that is no
directive. -/
inductive DataForm : Str → Option Str → Nat → Str → Prop
  | plain (w0 dir w1 txt w2 : Str) (w : Nat) : (dir, w) ∈ directives → Blank w0 → w1 ≠ [] → Blank w1 →
      txt ≠ [] → StartsSolid txt → EndsSolid txt → Blank w2 →
      DataForm (w0 ++ dir ++ w1 ++ txt ++ w2) none w txt
  | labelled (w0 l w1 dir w2 txt w3 : Str) (w : Nat) : l ≠ [] → Solid l → (∀ v, (l, v) ∉ directives) →
      (dir, w) ∈ directives → Blank w0 → w1 ≠ [] → Blank w1 → w2 ≠ [] → Blank w2 → txt ≠ [] →
      StartsSolid txt → EndsSolid txt → Blank w3 →
      DataForm (w0 ++ l ++ w1 ++ dir ++ w2 ++ txt ++ w3) (some l) w txt

/-- `BadSection s msg`: `s` is no section declaration. -/
inductive BadSection (s : Str) : Str → Prop
  | other : (∀ ts, ¬ Tokens s (str% "section" :: ts)) → BadSection s (str% "invalid section declaration")
  | noName : Tokens s [str% "section"] → BadSection s (str% "section name is expected")
  | badName (name : Str) (more : List Str) : Tokens s (str% "section" :: name :: more) →
      (∀ x, name ≠ sectName x) → BadSection s (str% "unrecognized section " ++ name)
  | extra (x : Asm.Section) (t : Str) (more : List Str) :
      Tokens s (str% "section" :: sectName x :: t :: more) →
      BadSection s (str% "expected end of line after section declaration")

/-- `BadGlobal s msg`: `s` is no global declaration. -/
inductive BadGlobal (s : Str) : Str → Prop
  | other : (∀ ts, ¬ Tokens s (str% "global" :: ts)) →
      BadGlobal s (str% "invalid global symbol definition")
  | noName : Tokens s [str% "global"] → BadGlobal s (str% "symbol name is expected")
  | extra (name t : Str) (more : List Str) : Tokens s (str% "global" :: name :: t :: more) →
      BadGlobal s (str% "expected end of line after global symbol definition")

/-- `BadData s msg`: `s` is no data definition. -/
inductive BadData (s : Str) : Str → Prop
  | other : (∀ lab w txt, ¬ DataForm s lab w txt) → BadData s (str% "invalid data format")
  | items (lab : Option Str) (w : Nat) (txt msg : Str) : DataForm s lab w txt → BadItems w txt msg →
      BadData s msg

/-- `BadInst bd s msg`: `s` is no instruction. -/
inductive BadInst (bd : Build) (s : Str) : Str → Prop
  | mov (more : List Str) (msg : Str) : Tokens s (str% "mov" :: more) → BadMov bd s msg → BadInst bd s msg
  | noOperand : Tokens s [str% "push"] →
      BadInst bd s (str% "error: operand is expected after push opcode")
  | badOperand (op : Str) (more : List Str) : Tokens s (str% "push" :: op :: more) →
      (∀ r : X64.Reg64, op ≠ r.asmName) → (∀ n, Number op n → 2 ^ 32 ≤ n) →
      BadInst bd s (str% "error: invalid push operand : " ++ op)
  | other : (∀ t more, Tokens s (t :: more) → t ∉ [str% "mov", str% "push", str% "ret", str% "syscall"]) →
      BadInst bd s (str% "unrecognized opcode")

end AT.AsmSpec
