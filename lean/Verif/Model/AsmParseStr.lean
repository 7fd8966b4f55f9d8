import Verif.Model.AsmParse
/-!
# at-asm: the strict parsers `ParseStr::parse_str` (`/repo/at-asm/src/parsers/*.rs`)

`parse_str` is `try_parse_str` with `Ok(None)` turned into an error.  (`u64::parse_str` and
`Line::parse_str` are in `Model/AsmParse.lean`.)  `Token::parse_str` (`expr.rs:92-94`) is
`unimplemented!()`.
-/

namespace AT.Asm
open AT.X64

/-- `section.rs:39-45` `Section::parse_str`. -/
def parseSectionStr (s : Str) : Res Section :=
  match tryParseSection s with
  | .ok (some x) => .ok x
  | .ok none => perr (str% "invalid section declaration")
  | .error e => .error e

/-- `global_symbol.rs:30-35` `GlobalSymbol::parse_str`. -/
def parseGlobalStr (s : Str) : Res Str := do
  match ← tryParseGlobal s with
  | some t => pure t
  | none => perr (str% "invalid global symbol definition")

/-- `expr.rs:62-67` `Expr::parse_str`. -/
def parseExprStr (bd : Build) (s : Str) : Res UInt64 := do
  match ← tryParseExpr bd s with
  | some t => pure t
  | none => perr (str% "invalid expr format")

/-- `expr.rs:92-94` `Token::parse_str`. -/
def parseTokenStr (_ : Str) : Res Token := .error .panic

/-- `data.rs:30-35` `Data::parse_str`. -/
def parseDataStr (s : Str) : Res Data := do
  match ← tryParseData s with
  | some d => pure d
  | none => perr (str% "invalid data format")

/-- `reg.rs:31-39` `Reg64::parse_str`. -/
def parseReg64Str (s : Str) : Res Reg64 :=
  match parseReg64 s with
  | some r => pure r
  | none => perr (str% "error: invalid 64bit register : " ++ s)

/-- `reg.rs:69-77` `Reg32::parse_str`. -/
def parseReg32Str (s : Str) : Res Reg32 :=
  match parseReg32 s with
  | some r => pure r
  | none => perr (str% "error: invalid 32bit register : " ++ s)

/-- `reg.rs:107-115` `Reg16::parse_str`. -/
def parseReg16Str (s : Str) : Res Reg16 :=
  match parseReg16 s with
  | some r => pure r
  | none => perr (str% "error: invalid 16bit register : " ++ s)

/-- `num.rs:18-23` `u32::parse_str`. -/
def parseU32Str (s : Str) : Res UInt32 :=
  match tryParseU32 s with
  | some n => pure n
  | none => perr (s ++ str% " is invalid u32")

/-- `num.rs:18-23` `u16::parse_str`. -/
def parseU16Str (s : Str) : Res UInt16 :=
  match tryParseU16 s with
  | some n => pure n
  | none => perr (s ++ str% " is invalid u16")

/-- `num.rs:18-23` `u8::parse_str`. -/
def parseU8Str (s : Str) : Res UInt8 :=
  match tryParseU8 s with
  | some n => pure n
  | none => perr (s ++ str% " is invalid u8")

/-- `instruction/mod.rs:52-57` `Instruction::parse_str`. -/
def parseInstructionStr (bd : Build) (s : Str) : Res Instruction := do
  match ← tryParseInstruction bd s with
  | some t => pure t
  | none => perr (str% "unrecognized opcode")

/-- `line.rs:65-67` `Line::try_parse_str`. -/
def tryParseLine (bd : Build) (s : Str) : Res (Option Line) := do
  let l ← parseLine bd s
  pure (some l)

end AT.Asm
