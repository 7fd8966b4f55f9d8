import Verif.Model.AsmReg
import Verif.Model.X64Inst
/-!
# at-asm: parsers (`/repo/at-asm/src/parsers/*.rs`)

`Result<Option<T>, ParseError>` is `Res (Option T)`; a `ParseError` is `Stop.parseErr msg`.
Only expression evaluation depends on the cargo profile `bd`.
-/

namespace AT.Asm
open AT.X64

/-- `Err(ParseError::new(msg))` (`parsers/mod.rs:28-35`). -/
def perr {α : Type} (msg : Str) : Res α := .error (.parseErr msg)

/-! ## `num.rs` -/

/-- `str::starts_with("0x")`. -/
def startsWith0x : Str → Bool
  | '0' :: 'x' :: _ => true
  | _ => false

/-- `parsers/num.rs:9-16` `try_parse_str` for the unsigned type with values below `bound`. -/
def tryParseNum (bound : Nat) (s : Str) : Option Nat :=
  if startsWith0x s then fromStrRadix bound 16 (trimStart0x s)
  else fromStrRadix bound 10 s

/-- `num.rs:18-23` `u64::parse_str`. -/
def parseU64 (s : Str) : Res UInt64 :=
  match tryParseNum (2 ^ 64) s with
  | some n => pure (UInt64.ofNat n)
  | none => perr (s ++ str% " is invalid u64")

/-- `u8::try_parse_str`. -/
def tryParseU8 (s : Str) : Option UInt8 := (tryParseNum (2 ^ 8) s).map UInt8.ofNat
/-- `u16::try_parse_str`. -/
def tryParseU16 (s : Str) : Option UInt16 := (tryParseNum (2 ^ 16) s).map UInt16.ofNat
/-- `u32::try_parse_str`. -/
def tryParseU32 (s : Str) : Option UInt32 := (tryParseNum (2 ^ 32) s).map UInt32.ofNat
/-- `u64::try_parse_str`. -/
def tryParseU64 (s : Str) : Option UInt64 := (tryParseNum (2 ^ 64) s).map UInt64.ofNat

/-- Decimal rendering by `format!("{}", n)`. -/
def showNat (n : Nat) : Str := Nat.toDigits 10 n

/-! ## `expr.rs` -/

/-- `expr.rs:74-78` `enum Token`. -/
inductive Token where
  | num (n : UInt64)
  | plus
  | minus
  deriving DecidableEq, Repr

/-- `expr.rs:80-90` `Token::try_parse_str` (never `Err`). -/
def Token.tryParse (s : Str) : Option Token :=
  if s = ['+'] then some .plus
  else if s = ['-'] then some .minus
  else (tryParseU64 s).map .num

/-- `expr.rs:70-72` `sign_to_u64`. -/
def signToI64 (sign : Bool) : Int64 := if sign then 1 else -1

/-- `expr.rs:22-60` `Expr::try_parse_str`; the result is the field of `Expr`. -/
def tryParseExpr (bd : Build) (s : Str) : Res (Option UInt64) :=
  match splitWs s with
  | [] => pure none
  | token1 :: rest =>
    match Token.tryParse token1 with
    | none => pure none
    | some .plus => perr (str% "unary op is not supported")
    | some .minus => perr (str% "unary op is not supported")
    | some (.num lhs) =>
      match rest with
      | [] => pure (some lhs)
      | token2 :: rest =>
        let cont (sign : Bool) : Res (Option UInt64) :=
          match rest with
          | [] => perr (str% "rhs not found")
          | token3 :: _ =>
            match Token.tryParse token3 with
            | some (.num rhs) => do
              let m ← mulI64 bd (signToI64 sign) rhs.toInt64
              let r ← addI64 bd lhs.toInt64 m
              pure (some r.toUInt64)
            | _ => perr (str% "invalid rhs")
        match Token.tryParse token2 with
        | some .plus => cont true
        | some .minus => cont false
        | _ => perr (str% "expected + or -")

/-- `expr.rs:12-14` `Expr::as_u32`. -/
def exprAsU32 (e : UInt64) : Option UInt32 :=
  if e.toNat < 2 ^ 32 then some (UInt32.ofNat e.toNat) else none

/-- `expr.rs:16-18` `Expr::as_u16`. -/
def exprAsU16 (e : UInt64) : Option UInt16 :=
  if e.toNat < 2 ^ 16 then some (UInt16.ofNat e.toNat) else none

/-! ## `section.rs`, `global_symbol.rs` -/

/-- `section.rs:3-8` `enum Section`. -/
inductive Section where
  | text
  | data
  | bss
  deriving DecidableEq, Repr

/-- `section.rs:11-37` `Section::try_parse_str`. -/
def tryParseSection (s : Str) : Res (Option Section) :=
  match splitWs s with
  | [] => pure none
  | t :: rest =>
    if t ≠ str% "section" then pure none
    else match rest with
      | [] => perr (str% "section name is expected")
      | name :: rest => do
        let sect ←
          if name = str% ".text" then pure Section.text
          else if name = str% ".data" then pure Section.data
          else if name = str% ".bss" then pure Section.bss
          else perr (str% "unrecognized section " ++ name)
        if rest.isEmpty then pure (some sect)
        else perr (str% "expected end of line after section declaration")

/-- `global_symbol.rs:7-28` `GlobalSymbol::try_parse_str`. -/
def tryParseGlobal (s : Str) : Res (Option Str) :=
  match splitWs s with
  | [] => pure none
  | t :: rest =>
    if t ≠ str% "global" then pure none
    else match rest with
      | [] => perr (str% "symbol name is expected")
      | [label] => pure (some label)
      | _ :: _ :: _ => perr (str% "expected end of line after global symbol definition")

/-! ## `data.rs` -/

/-- `data.rs:38-44` `enum Align`. -/
inductive Align where
  | db
  | dw
  | dd
  | dq
  deriving DecidableEq, Repr

/-- The directive names of `split_parts`. -/
def alignOf (s : Str) : Option Align :=
  if s = str% "db" then some .db
  else if s = str% "dw" then some .dw
  else if s = str% "dd" then some .dd
  else if s = str% "dq" then some .dq
  else none

/-- `data.rs:73-78` `split_whitespace_once`. -/
def splitWhitespaceOnce (s : Str) : Option (Str × Str) :=
  match splitOnce isWs s with
  | some (s1, s2) => some (trim s1, trim s2)
  | none => none

/-- `data.rs:47-71` `split_parts`. -/
def splitParts (s : Str) : Option (Option Str × Align × Str) :=
  match splitWhitespaceOnce (trim (trim s)) with
  | none => none
  | some (t1, rmn) =>
    match alignOf t1 with
    | some a => some (none, a, rmn)
    | none =>
      match splitWhitespaceOnce rmn with
      | none => none
      | some (t2, rmn) =>
        match alignOf t2 with
        | some a => some (some t1, a, rmn)
        | none => none

/-- `data.rs:95-128` `write_num`, as the bytes appended. -/
def writeNum (n : UInt64) : Align → Res Bytes
  | .db => if n.toNat < 2 ^ 8 then pure (leBytes 1 n.toNat)
           else perr (showNat n.toNat ++ str% " is not a 8 bit number")
  | .dw => if n.toNat < 2 ^ 16 then pure (leBytes 2 n.toNat)
           else perr (showNat n.toNat ++ str% " is not a 16 bit number")
  | .dd => if n.toNat < 2 ^ 32 then pure (leBytes 4 n.toNat)
           else perr (showNat n.toNat ++ str% " is not a 32 bit number")
  | .dq => pure (leBytes 8 n.toNat)

/-- The `pad` of `write_str` (`data.rs:135-140`). -/
def strPad (len : Nat) : Align → Nat
  | .db => 0
  | .dw => len % 2
  | .dd => (4 - len % 4) % 4
  | .dq => (8 - len % 8) % 8

/-- `data.rs:130-147` `write_str`, as the bytes appended. -/
def writeStr (s : Str) (a : Align) : Bytes := utf8 s ++ List.replicate (strPad (utf8Len s) a) 0

/-- The delimiter predicate of `data.rs:164` and `data.rs:179`. -/
def isDelim (c : Char) : Bool := isWs c || c == ','

/-- `data.rs:163-168` `split_delim_once`. -/
def splitDelimOnce (s : Str) : Str × Str :=
  match splitOnce isDelim s with
  | some (s1, s2) => (s1, trimStart s2)
  | none => (s, [])

/-- `data.rs:80-83` `enum DataDef`. -/
inductive DataDef where
  | num (n : UInt64)
  | str (s : Str)
  deriving DecidableEq, Repr

/-- `data.rs:162-193` `DataDefIter::next`: `none` at the end, otherwise the item (or error) and
the remaining text. -/
def dataNext (s : Str) : Option (Res (DataDef × Str)) :=
  match s with
  | [] => none
  | '"' :: s' =>
    match splitOnce (· == '"') s' with
    | none => some (perr (str% "unclosed \" found"))
    | some (d, rmn) => some (.ok (.str d, trimStartBy isDelim rmn))
  | s =>
    match splitDelimOnce s with
    | (s1, s2) =>
      match parseU64 s1 with
      | .ok n => some (.ok (.num n, s2))
      | .error e => some (.error e)

/-- `data.rs:87-92` `DataDef::write_to`, as the bytes appended. -/
def DataDef.write (d : DataDef) (a : Align) : Res Bytes :=
  match d with
  | .num n => writeNum n a
  | .str s => pure (writeStr s a)

/-- The `for` loop of `Data::try_parse_str` (`data.rs:21-23`), with a bound on the number of
iterations: every iteration consumes at least one char (`dataNext_lt`), so `s.length` suffices. -/
def dataLoop (a : Align) : Nat → Str → Res Bytes
  | 0, _ => pure []
  | fuel + 1, s =>
    match dataNext s with
    | none => pure []
    | some (.error e) => .error e
    | some (.ok (d, s')) => do
      let b ← d.write a
      let bs ← dataLoop a fuel s'
      pure (b ++ bs)

/-- `data.rs:5-9` `struct Data`. -/
structure Data where
  label : Option Str
  bytes : Bytes
  deriving DecidableEq, Repr

/-- `data.rs:12-28` `Data::try_parse_str`. -/
def tryParseData (s : Str) : Res (Option Data) :=
  match splitParts s with
  | none => pure none
  | some (label, a, dataStr) => do
    let bytes ← dataLoop a dataStr.length dataStr
    pure (some ⟨label, bytes⟩)

/-! ## `instruction/*.rs` -/

/-- `instruction/mod.rs:15-22` `struct LocalReloc`. -/
structure LocalReloc where
  offset : UInt8
  symbol : Str
  pcrel : Bool
  len : UInt8
  deriving DecidableEq, Repr

/-- `instruction/mod.rs:10-13` `struct Instruction`. -/
structure Instruction where
  bytes : BytesAtMost 15
  reloc : Option LocalReloc
  deriving DecidableEq, Repr

/-- `instruction/mod.rs:25-33` `Instruction::new`. -/
def Instruction.new (i : Inst) : Res Instruction := do
  let b ← i.bytecode
  pure ⟨b, none⟩

/-- `instruction/mod.rs:35-38` `with_reloc`. -/
def Instruction.withReloc (i : Instruction) (r : LocalReloc) : Instruction := { i with reloc := some r }

/-- `instruction/mov.rs:24-48`: first operand is a `Reg64`. -/
def parseMov64 (bd : Build) (dst : Reg64) (op2 : Str) : Res Instruction := do
  match ← tryParseExpr bd op2 with
  | some e => Instruction.new (.movReg64Imm dst e)
  | none =>
    match parseReg64 op2 with
    | some src => Instruction.new (.movReg64Reg64 dst src)
    | none => do
      let i ← Instruction.new (.movReg64Imm dst 0)
      pure (i.withReloc ⟨movReg64ImmOffset dst, op2, false, 3⟩)

/-- `instruction/mov.rs:51-79`: first operand is a `Reg32`. -/
def parseMov32 (bd : Build) (dst : Reg32) (op2 : Str) : Res Instruction := do
  match ← tryParseExpr bd op2 with
  | some e =>
    match exprAsU32 e with
    | some imm => Instruction.new (.movReg32Imm dst imm)
    | none => perr (showNat e.toNat ++ str% " is not 32bit")
  | none =>
    match parseReg32 op2 with
    | some src => Instruction.new (.movReg32Reg32 dst src)
    | none => do
      let i ← Instruction.new (.movReg32Imm dst 0)
      pure (i.withReloc ⟨movReg32ImmOffset dst, op2, false, 2⟩)

/-- `instruction/mov.rs:82-101`: first operand is a `Reg16`. -/
def parseMov16 (bd : Build) (dst : Reg16) (op2 : Str) : Res Instruction := do
  match ← tryParseExpr bd op2 with
  | some e =>
    match exprAsU16 e with
    | some imm => Instruction.new (.movReg16Imm dst imm)
    | none => perr (showNat e.toNat ++ str% " is not 16bit")
  | none =>
    match parseReg16 op2 with
    | some src => Instruction.new (.movReg16Reg16 dst src)
    | none => perr (str% "invalid second operand")

/-- `instruction/mov.rs:10-105` `parse_str`. -/
def parseMov (bd : Build) (s : Str) : Res Instruction :=
  match splitOnce (· == ' ') (trim s) with
  | none => perr (str% "invalid mov instruction format")
  | some (opcode, remain) =>
    if opcode ≠ str% "mov" then perr (str% "not mov opcode")
    else match splitOnce (· == ',') remain with
      | none => perr (str% "invalid mov instruction format")
      | some (s1, s2) =>
        let op1 := trim s1
        let op2 := trim s2
        match parseReg64 op1 with
        | some dst => parseMov64 bd dst op2
        | none =>
          match parseReg32 op1 with
          | some dst => parseMov32 bd dst op2
          | none =>
            match parseReg16 op1 with
            | some dst => parseMov16 bd dst op2
            | none => perr (str% "invalid first operand")

/-- `instruction/push.rs:7-46` `parse_str`. -/
def parsePush (s : Str) : Res Instruction :=
  match splitWs s with
  | [] => perr (str% "error: invalid push instruction format")
  | t :: rest =>
    if t ≠ str% "push" then perr (str% "error: invalid push instruction format")
    else match rest with
      | [] => perr (str% "error: operand is expected after push opcode")
      | op :: _ =>
        match parseReg64 op with
        | some r => Instruction.new (.pushReg64 r)
        | none =>
          match tryParseU8 op with
          | some n => Instruction.new (.pushU8 n)
          | none =>
            match tryParseU32 op with
            | some n => Instruction.new (.pushU32 n)
            | none => perr (str% "error: invalid push operand : " ++ op)

/-- `instruction/mod.rs:42-50` `Instruction::try_parse_str`. -/
def tryParseInstruction (bd : Build) (s : Str) : Res (Option Instruction) :=
  match splitWs s with
  | [] => pure none
  | t :: _ =>
    if t = str% "mov" then some <$> parseMov bd s
    else if t = str% "push" then some <$> parsePush s
    else if t = str% "ret" then some <$> Instruction.new .ret
    else if t = str% "syscall" then some <$> Instruction.new .syscall
    else pure none

/-! ## `line.rs` -/

/-- `line.rs:6-13` `enum Line`. -/
inductive Line where
  | empty
  | sect (s : Section)
  | symbol (name : Str)
  | globalSymbol (name : Str)
  | data (d : Data)
  | instruction (i : Instruction)
  deriving DecidableEq, Repr

/-- `line.rs:18-21`: drop everything from the first `;`. -/
def stripComment (s : Str) : Str :=
  match splitOnce (· == ';') s with
  | some (s, _) => s
  | none => s

/-- `line.rs:16-63` `Line::parse_str`. -/
def parseLine (bd : Build) (s : Str) : Res Line :=
  let s := stripComment s
  match splitWs s with
  | [] => pure .empty
  | token :: rest => do
    match ← tryParseSection s with
    | some sect => pure (.sect sect)
    | none =>
      match ← tryParseGlobal s with
      | some name => pure (.globalSymbol name)
      | none =>
        if endsWithChar ':' token then
          if rest.isEmpty then pure (.symbol (trimEndBy (· == ':') token))
          else perr (str% "error: expected end of line.")
        else
          match ← tryParseData s with
          | some d => pure (.data d)
          | none =>
            match ← tryParseInstruction bd s with
            | some i => pure (.instruction i)
            | none => perr (str% "unrecognized line")

end AT.Asm
