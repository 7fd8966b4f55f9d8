import Verif.Model.MacHeader
import Verif.Model.MacLoadCommand
import Verif.Model.MacSymbols
/-!
# The unit tests of at-mac, run on the model

Each `example` is one test function of the repository with its values, for both byte orders of the
host.
-/

namespace AT.Tests
open AT.Mac

/-- `write_into`, `assert_eq!(buf.len(), SIZE)`, read back, `assert_eq!`: nothing may be left. -/
def survives {α : Type} [DecidableEq α] (w : Wr Unit) (size : UInt32) (r : Rd α) (x : α) : Bool :=
  match w.res with
  | .ok () =>
    w.out.length == size.toNat &&
      match r w.out with
      | .ok (y, rest) => decide (y = x) && rest.isEmpty
      | .error _ => false
  | .error _ => false

/-- `table.get(i)` is `s`. -/
def getIs (t : Res StringTable) (i : Nat) (s : Str) : Bool :=
  match t with
  | .ok t => match t.get i with
    | .ok r => r == s
    | .error _ => false
  | .error _ => false

/-! ## `string_table.rs` -/

/-- The bytes used by the tests. -/
def mainTable : Bytes := [0x00, 0x5f, 0x6d, 0x61, 0x69, 0x6e, 0x00]

/-- `get_index_0_always_return_empty_string` -/
example : getIs (StringTable.ofVec mainTable) 0 [] ∧ getIs (StringTable.withNull.pushWithNull (str% "hoge")) 0 [] := by
  decide +kernel

/-- `get_string_from_vec` -/
example : getIs (StringTable.ofVec mainTable) 1 (str% "_main") ∧ getIs (StringTable.ofVec mainTable) 2 (str% "main") := by
  decide +kernel

/-- `get_string` -/
example : getIs (StringTable.withNull.pushWithNull (str% "hoge")) 1 (str% "hoge") := by decide +kernel

/-! ## Structures -/

/-- `write_and_read_header64` -/
example (h : Endian) :
    let x : Header64 := ⟨.magic64, .x86_64 .all, .object, 2, 42, [], 0⟩
    survives (x.writeInto h) Header64.SIZE (Header64.readFrom h) (x, h) := by
  cases h <;> decide +kernel

/-- `write_and_read_segment64_command` -/
example (bd : Build) (h : Endian) :
    let x : SegmentCommand64 := ⟨SegmentCommand64.TYPE, SegmentCommand64.SIZE + Section64.SIZE, [], 0, 42,
      100, 42, 7, 7, 1, 0⟩
    survives (x.writeInto h) SegmentCommand64.SIZE (SegmentCommand64.readFromIn bd h) x := by
  cases bd <;> cases h <;> decide +kernel

/-- `write_and_read_section64` -/
example (h : Endian) :
    let x : Section64 := ⟨str% "__TEXT,__text", [], 0, 42, 100, 0, 53, 1, [], .regular, 0, 0, 0⟩
    survives (x.writeInto h) Section64.SIZE (Section64.readFromIn h) x := by
  cases h <;> decide +kernel

/-- `write_and_read_symtab_command` -/
example (h : Endian) :
    let x : SymtabCommand := ⟨SymtabCommand.TYPE, SymtabCommand.SIZE, 42, 1, 100, 7⟩
    survives (x.writeInto h) SymtabCommand.SIZE (SymtabCommand.readFromIn h) x := by
  cases h <;> decide +kernel

/-- `write_and_read_dysymtab_command` -/
example (h : Endian) :
    let x : DysymtabCommand := ⟨DysymtabCommand.TYPE, DysymtabCommand.SIZE, 0, 2, 3, 4, 5, 9, 8, 5, 8, 5,
      0, 2, 3, 6, 8, 9, 0, 2⟩
    survives (x.writeInto h) DysymtabCommand.SIZE (DysymtabCommand.readFromIn h) x := by
  cases h <;> decide +kernel

/-- `write_and_read_build_version_command` -/
example (bd : Build) (h : Endian) :
    let x : BuildVersionCommand := ⟨BuildVersionCommand.TYPE, BuildVersionCommand.SIZE, .macOS,
      ⟨3, 10, 42⟩, ⟨1, 11, 13⟩, 0⟩
    survives (x.writeInto h) BuildVersionCommand.SIZE (BuildVersionCommand.readFromIn bd h) x := by
  cases bd <;> cases h <;> decide +kernel

/-- `write_and_read_build_tool_version` -/
example (h : Endian) :
    let x : BuildToolVersion := ⟨.clang, 42⟩
    survives (x.writeInto h) BuildToolVersion.SIZE (BuildToolVersion.readFromIn h) x := by
  cases h <;> decide +kernel

/-- `write_and_read_relocation_info` -/
example (h : Endian) :
    let x : RelocationInfo := ⟨42, 0x00323100, true, .byte, false, X86_64RelocType.unsigned.toU8⟩
    survives (x.writeInto h) RelocationInfo.SIZE (RelocationInfo.readFromIn h) x := by
  cases h <;> decide +kernel

/-- `write_and_read_nlist` -/
example (h : Endian) :
    let x : NList64 := ⟨42, .norm false .sect true, 2, 0, 42⟩
    survives (x.writeInto h) NList64.SIZE (NList64.readFromIn h) x := by
  cases h <;> decide +kernel

end AT.Tests
