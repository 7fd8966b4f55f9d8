import Verif.Model.MacSymbols
import Verif.Model.MacHeader
import Verif.Model.MacSegment
/-!
# Model of the `Debug` output of at-mac (`string_table.rs`, `header.rs`, `segment64.rs`)

`alt` is `true` for `{:#?}` and `false` for `{:?}`.  `std::fmt::builders` is modelled as the loop it
is; `char`'s `Debug` is modelled for ASCII, the only characters a string table contains.  The derived
`Debug` of the other types is in `Model/Debug.lean`.
-/

namespace AT.Mac

/-- `PadAdapter` (std): four spaces at the beginning of every line; `nl` is its `on_newline`. -/
def padAdapter : Bool → Str → Str
  | _, [] => []
  | nl, c :: cs => (if nl then str% "    " else []) ++ c :: padAdapter (c == '\n') cs

/-- `DebugInner::entry` (std): the output so far, whether it has entries, and one more entry. -/
def debugEntry (alt : Bool) (st : Str × Bool) (e : Str) : Str × Bool :=
  if alt then
    (st.1 ++ (if st.2 then [] else str% "\n") ++ padAdapter true (e ++ str% ",\n"), true)
  else (st.1 ++ (if st.2 then str% ", " else []) ++ e, true)

/-- `debug_list().entries(..).finish()` (std). -/
def debugList (alt : Bool) (es : List Str) : Str :=
  (es.foldl (debugEntry alt) (str% "[", false)).1 ++ str% "]"

/-- `debug_set().entries(..).finish()` (std). -/
def debugSet (alt : Bool) (es : List Str) : Str :=
  (es.foldl (debugEntry alt) (str% "{", false)).1 ++ str% "}"

/-- A lower-case hexadecimal digit. -/
def lowerHexDigit (n : Nat) : Char :=
  if n < 10 then Char.ofNat (48 + n) else Char.ofNat (87 + n)

/-- `char::escape_unicode` (std) of an ASCII character: no leading zeros. -/
def escapeUnicode (n : Nat) : Str :=
  str% "\\u{" ++ (if n < 16 then [] else [lowerHexDigit (n / 16)]) ++ [lowerHexDigit (n % 16)] ++ str% "}"

/-- `Debug` of `char::from(n)` (std), for `n < 128`. -/
def debugChar (n : UInt8) : Str :=
  let esc :=
    if n = 0 then str% "\\0"
    else if n = 9 then str% "\\t"
    else if n = 13 then str% "\\r"
    else if n = 10 then str% "\\n"
    else if n = 39 then str% "\\'"
    else if n = 92 then str% "\\\\"
    else if n < 32 ∨ n = 127 then escapeUnicode n.toNat
    else [Char.ofNat n.toNat]
  str% "'" ++ esc ++ str% "'"

/-- `string_table.rs:60-67`: what is shown for one byte. -/
def StringTable.debugByte (n : UInt8) : Str :=
  if n = 0 then str% "\"\"" else debugChar n

/-- `string_table.rs:55-72` `Debug` of `StringTable`. -/
def StringTable.debug (alt : Bool) (t : StringTable) : Str :=
  debugList alt (t.data.map StringTable.debugByte)

/-- `string_table.rs:39-43` `as_ref`. -/
def StringTable.asRef (t : StringTable) : Bytes := t.data

/-- `header.rs:179` derived `Debug` of `Flag`. -/
def Flag.debug : Flag → Str
  | .noUndefs => str% "NoUndefs"
  | .incrLink => str% "IncrLink"
  | .dyldLink => str% "DyldLink"
  | .bindAtLoad => str% "BindAtLoad"
  | .preBound => str% "PreBound"
  | .splitSegs => str% "SplitSegs"
  | .twoLevel => str% "TwoLevel"
  | .forceFlat => str% "ForceFlat"
  | .noMultiDefs => str% "NoMultiDefs"
  | .noFixPreBinding => str% "NoFixPreBinding"
  | .preBindable => str% "PreBindable"
  | .allModsBound => str% "AllModsBound"
  | .subsectionsViaSymbols => str% "SubsectionsViaSymbols"
  | .canonical => str% "Canonical"
  | .pie => str% "Pie"
  | .hasTlvDescriptors => str% "HasTlvDescriptors"

/-- `header.rs:216-218` `Flags::new`. -/
def Flags.new : Flags := []

/-- `header.rs:220-222` `Flags::push`. -/
def Flags.push (fs : Flags) (f : Flag) : Flags := fs ++ [f]

/-- `header.rs:248-252` `Debug` of `Flags`. -/
def Flags.debug (alt : Bool) (fs : Flags) : Str := debugSet alt (fs.map Flag.debug)

/-- `segment64.rs:196` derived `Debug` of `SectionAttr`. -/
def SectionAttr.debugName : SectionAttr → Str
  | .pureInstructions => str% "PureInstructions"
  | .noToc => str% "NoToc"
  | .stripStaticSyms => str% "StripStaticSyms"
  | .liveSupport => str% "LiveSupport"
  | .debug => str% "Debug"
  | .someInstructions => str% "SomeInstructions"
  | .extReloc => str% "ExtReloc"
  | .locReloc => str% "LocReloc"

/-- `segment64.rs:243-245` `SectionAttrs::new`. -/
def SectionAttrs.new : SectionAttrs := []

/-- `segment64.rs:247-249` `SectionAttrs::push`. -/
def SectionAttrs.push (l : SectionAttrs) (a : SectionAttr) : SectionAttrs := l ++ [a]

/-- `segment64.rs:271-275` `Debug` of `SectionAttrs`. -/
def SectionAttrs.debug (alt : Bool) (l : SectionAttrs) : Str :=
  debugSet alt (l.map SectionAttr.debugName)

end AT.Mac
