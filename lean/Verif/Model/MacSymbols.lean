import Verif.Model.MacIo
/-!
# at-mac: symbol table entries, relocation entries, string table
(`/repo/at-mac/src/{nlist,reloc,string_table}.rs`)
-/

namespace AT.Mac

/-- `at-mac/src/nlist.rs:110-127` `enum NType`. -/
inductive NType where
  | undf
  | abs
  | sect
  | pbud
  | indr
  deriving DecidableEq, Repr

/-- `at-mac/src/nlist.rs:134-136` `to_u8`. -/
def NType.toU8 : NType → UInt8
  | .undf => 0x0
  | .abs => 0x2
  | .sect => 0xe
  | .pbud => 0xc
  | .indr => 0xa

/-- `at-mac/src/nlist.rs:130-132` `from_u8`; `none` is the panic of the `unwrap`. -/
def NType.fromU8? (n : UInt8) : Option NType :=
  if n == 0x0 then some .undf
  else if n == 0x2 then some .abs
  else if n == 0xe then some .sect
  else if n == 0xc then some .pbud
  else if n == 0xa then some .indr
  else none

/-- `at-mac/src/nlist.rs:140-144` `enum DebugSymbol`. -/
inductive DebugSymbol where
  | gsym
  deriving DecidableEq, Repr

/-- `at-mac/src/nlist.rs:151-153` `to_u8`. -/
def DebugSymbol.toU8 : DebugSymbol → UInt8
  | .gsym => 0x20

/-- `at-mac/src/nlist.rs:147-149` `from_u8`; `none` is the panic of the `unwrap`. -/
def DebugSymbol.fromU8? (n : UInt8) : Option DebugSymbol :=
  if n == 0x20 then some .gsym
  else none

/-- `nlist.rs:63-74` `enum NTypeField`. -/
inductive NTypeField where
  | norm (nPext : Bool) (nType : NType) (nExt : Bool)
  | stab (s : DebugSymbol)
  deriving DecidableEq, Repr

/-- `nlist.rs:77` -/
def nStabMask : UInt8 := 0xe0
/-- `nlist.rs:78` -/
def nPextMask : UInt8 := 0x10
/-- `nlist.rs:79` -/
def nTypeMask : UInt8 := 0x0e
/-- `nlist.rs:80` -/
def nExtMask : UInt8 := 0x01

/-- `bool as u8`. -/
def b2u8 (b : Bool) : UInt8 := if b then 1 else 0

/-- `nlist.rs:82-96` `NTypeField::from_u8`. -/
def NTypeField.fromU8 (n : UInt8) : Res NTypeField :=
  if n &&& nStabMask == 0 then do
    let nType ← runwrap (NType.fromU8? (n &&& nTypeMask))
    pure (.norm (n &&& nPextMask == nPextMask) nType (n &&& nExtMask == nExtMask))
  else .stab <$> runwrap (DebugSymbol.fromU8? (n &&& nStabMask))

/-- `nlist.rs:98-107` `NTypeField::to_u8`. -/
def NTypeField.toU8 : NTypeField → UInt8
  | .norm p t x => (b2u8 p * nPextMask) ||| t.toU8 ||| (b2u8 x * nExtMask)
  | .stab s => s.toU8

/-- `nlist.rs:6-29` `struct NList64`. -/
structure NList64 where
  nStrx : UInt32
  nType : NTypeField
  nSect : UInt8
  nDesc : UInt16
  nValue : UInt64
  deriving DecidableEq, Repr

/-- `nlist.rs:32` -/
def NList64.SIZE : UInt32 := 0x10
/-- `nlist.rs:34` -/
def NList64.NO_SECT : UInt8 := 0
/-- `nlist.rs:35` -/
def NList64.MAX_SECT : UInt8 := 255

/-- `nlist.rs:37-52` `NList64::read_from_in`. -/
def NList64.readFromIn (e : Endian) : Rd NList64 := do
  let nStrx ← readU32 e
  let nTypeN ← readU8
  let nType ← Rd.lift (NTypeField.fromU8 nTypeN)
  let nSect ← readU8
  let nDesc ← readU16 e
  let nValue ← readU64 e
  pure ⟨nStrx, nType, nSect, nDesc, nValue⟩

/-- `nlist.rs:54-60` `NList64::write_into`. -/
def NList64.writeInto (h : Endian) (x : NList64) : Wr Unit := do
  writeU32 h x.nStrx
  writeU8 x.nType.toU8
  writeU8 x.nSect
  writeU16 h x.nDesc
  writeU64 h x.nValue

/-- `at-mac/src/reloc.rs:116-126` `enum RelocLength`. -/
inductive RelocLength where
  | byte
  | word
  | long
  | quad
  deriving DecidableEq, Repr

/-- `at-mac/src/reloc.rs:129-131` `to_u32`. -/
def RelocLength.toU32 : RelocLength → UInt32
  | .byte => 0
  | .word => 1
  | .long => 2
  | .quad => 3

/-- `at-mac/src/reloc.rs:133-135` `from_u32`; `none` is the panic of the `unwrap`. -/
def RelocLength.fromU32? (n : UInt32) : Option RelocLength :=
  if n == 0 then some .byte
  else if n == 1 then some .word
  else if n == 2 then some .long
  else if n == 3 then some .quad
  else none

/-- `at-mac/src/reloc.rs:138-146` `enum X86RelocType`. -/
inductive X86RelocType where
  | vanilla
  | pair
  | sectdiff
  | pbLaPtr
  | localSectdiff
  | tlv
  deriving DecidableEq, Repr

/-- `at-mac/src/reloc.rs:149-151` `to_u8`. -/
def X86RelocType.toU8 : X86RelocType → UInt8
  | .vanilla => 0
  | .pair => 1
  | .sectdiff => 2
  | .pbLaPtr => 3
  | .localSectdiff => 4
  | .tlv => 5

/-- `at-mac/src/reloc.rs:153-163` `from_u8`; `none` is the panic of the `unwrap`. -/
def X86RelocType.fromU8? (n : UInt8) : Option X86RelocType :=
  if n == 0 then some .vanilla
  else if n == 1 then some .pair
  else if n == 2 then some .sectdiff
  else if n == 3 then some .pbLaPtr
  else if n == 4 then some .localSectdiff
  else if n == 5 then some .tlv
  else none

/-- `at-mac/src/reloc.rs:166-188` `enum X86_64RelocType`. -/
inductive X86_64RelocType where
  | unsigned
  | signed
  | branch
  | gotLoad
  | got
  | subtractor
  | signed1
  | signed2
  | signed4
  | tlv
  deriving DecidableEq, Repr

/-- `at-mac/src/reloc.rs:191-193` `to_u8`. -/
def X86_64RelocType.toU8 : X86_64RelocType → UInt8
  | .unsigned => 0
  | .signed => 1
  | .branch => 2
  | .gotLoad => 3
  | .got => 4
  | .subtractor => 5
  | .signed1 => 6
  | .signed2 => 7
  | .signed4 => 8
  | .tlv => 9

/-- `at-mac/src/reloc.rs:195-209` `from_u8`; `none` is the panic of the `unwrap`. -/
def X86_64RelocType.fromU8? (n : UInt8) : Option X86_64RelocType :=
  if n == 0 then some .unsigned
  else if n == 1 then some .signed
  else if n == 2 then some .branch
  else if n == 3 then some .gotLoad
  else if n == 4 then some .got
  else if n == 5 then some .subtractor
  else if n == 6 then some .signed1
  else if n == 7 then some .signed2
  else if n == 8 then some .signed4
  else if n == 9 then some .tlv
  else none

/-- `reloc.rs:6-28` `struct RelocationInfo`. -/
structure RelocationInfo where
  rAddress : Int32
  rSymbolnum : UInt32
  rPcrel : Bool
  rLength : RelocLength
  rExtern : Bool
  rType : UInt8
  deriving DecidableEq, Repr

/-- `reloc.rs:32` -/
def RelocationInfo.SIZE : UInt32 := 8

/-- `bool as u32`. -/
def b2u32 (b : Bool) : UInt32 := if b then 1 else 0

/-- `reloc.rs:43-69`: the bit fields of the second word, per byte order. -/
def RelocationInfo.unpack (e : Endian) (rAddress : Int32) (infos : UInt32) :
    Res RelocationInfo :=
  match e with
  | .little => do
    let len ← runwrap (RelocLength.fromU32? ((infos &&& 0x06000000) >>> 25))
    pure ⟨rAddress, infos &&& 0x00FFFFFF, decide (infos &&& 0x01000000 > 0), len,
      decide (infos &&& 0x08000000 > 0), ((infos &&& 0xF0000000) >>> 28).toUInt8⟩
  | .big => do
    let len ← runwrap (RelocLength.fromU32? ((infos &&& 0x00000060) >>> 5))
    pure ⟨rAddress, (infos &&& 0xFFFFFF00) >>> 8, decide (infos &&& 0x00000080 > 0), len,
      decide (infos &&& 0x00000010 > 0), (infos &&& 0x0000000F).toUInt8⟩

/-- `reloc.rs:34-79` `RelocationInfo::read_from_in`. -/
def RelocationInfo.readFromIn (e : Endian) : Rd RelocationInfo := do
  let rAddress ← readI32 e
  let infos ← readU32 e
  Rd.lift (RelocationInfo.unpack e rAddress infos)

/-- `reloc.rs:89-94` (little-endian host) and `reloc.rs:106-111` (big-endian host). -/
def RelocationInfo.pack (h : Endian) (x : RelocationInfo) : UInt32 :=
  match h with
  | .little =>
    (0 : UInt32) ||| x.rSymbolnum ||| (b2u32 x.rPcrel * (0x01000000 : UInt32)) ||| (x.rLength.toU32 <<< (25 : UInt32)) |||
      (b2u32 x.rExtern * (0x08000000 : UInt32)) ||| (x.rType.toUInt32 <<< (28 : UInt32))
  | .big =>
    (0 : UInt32) ||| (x.rSymbolnum <<< (8 : UInt32)) ||| (b2u32 x.rPcrel * (0x00000080 : UInt32)) ||| (x.rLength.toU32 <<< (5 : UInt32)) |||
      (b2u32 x.rExtern * (0x00000010 : UInt32)) ||| x.rType.toUInt32

/-- `reloc.rs:85-113` `RelocationInfo::write_into`. -/
def RelocationInfo.writeInto (h : Endian) (x : RelocationInfo) : Wr Unit := do
  writeI32 h x.rAddress
  writeU32 h (x.pack h)

/-! ## `string_table.rs` -/

/-- `string_table.rs:3-5` `struct StringTable`. -/
structure StringTable where
  data : Bytes
  deriving DecidableEq, Repr

namespace StringTable

/-- `string_table.rs:8-10` `with_null`. -/
def withNull : StringTable := ⟨[0]⟩

/-- `string_table.rs:12-15` `get`: slicing past the end panics; the text up to the next NUL. -/
def get (t : StringTable) (idx : Nat) : Res Str := do
  rassert (idx ≤ t.data.length)
  runwrap (fromUtf8 ((t.data.drop idx).takeWhile (· != 0)))

/-- `string_table.rs:17-25` `push_with_null`.  A panic abandons the table (the caller unwinds),
so the partial push before a non-ASCII char is not observable. -/
def pushWithNull (t : StringTable) (s : Str) : Res StringTable := do
  rassert (s.all charIsAscii)
  pure ⟨t.data ++ s.map (fun c => c.toNat.toUInt8) ++ [0]⟩

/-- `string_table.rs:27-29` `len`. -/
def len (t : StringTable) : Nat := t.data.length

/-- `slice::split(|b| *b == 0)` (std). -/
def split0 : Bytes → List Bytes
  | [] => [[]]
  | b :: bs =>
    if b == 0 then [] :: split0 bs
    else match split0 bs with
      | [] => [[b]]
      | p :: ps => (b :: p) :: ps

/-- `string_table.rs:31-36` `iter`, before the lazy `from_utf8(..).unwrap()`. -/
def rawIter (t : StringTable) : List Bytes := (split0 t.data).drop 1

/-- `string_table.rs:31-36` `iter`, collected. -/
def iter (t : StringTable) : Res (List Str) := t.rawIter.mapM (fun b => runwrap (fromUtf8 b))

/-- `string_table.rs:45-53` `From<Vec<u8>>`. -/
def ofVec (data : Bytes) : Res StringTable := do
  rassert (data.head? == some 0)
  rassert (data.getLast? == some 0)
  rassert (data.all (fun n => n == 0 || n < 128))
  pure ⟨data⟩

end StringTable
end AT.Mac
