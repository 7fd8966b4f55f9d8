import Verif.Spec.AsmRender
/-!
# Specification: which objects a source can give

Said of the object alone: its contents, symbols and relocations.  Nothing here mentions sources, lines or
the assembler; only the rules for names come from `Spec/AsmRender.lean`.
-/

namespace AT.AsmSpec
open AT.X64

/-- A name that a label can have.  (It may be empty.) -/
def LabelName (n : Str) : Prop := Solid n ∧ ';' ∉ n ∧ ∀ r, n ≠ r ++ [':']

/-- An instruction that loads the address of a symbol: the offsets where it starts and ends, and its
relocation. -/
structure Load where
  start : Nat
  stop : Nat
  entry : Obj.Reloc

/-- The bytes at that place are such an instruction: REX.W, `B8`-`BF` and eight zeros, the relocation at
the zeros; or `B8`-`BF` and four zeros.  (A prefix `41` before the latter is not counted.)  The address of
the relocation is the offset, reduced to 32 bits with sign. -/
inductive Load.At (bytes : Bytes) : Load → Prop
  | wide (k : Nat) (rex op : UInt8) (name : Str) : rex = 0x48 ∨ rex = 0x49 → 0xb8 ≤ op → op ≤ 0xbf →
      (bytes.drop k).take 10 = rex :: op :: List.replicate 8 0 → SymName name → (∀ r : Reg64, name ≠ r.asmName) →
      At bytes ⟨k, k + 10, ⟨Int32.ofNat (k + 2), name, false, 3⟩⟩
  | narrow (k : Nat) (op : UInt8) (name : Str) : 0xb8 ≤ op → op ≤ 0xbf →
      (bytes.drop k).take 5 = op :: List.replicate 4 0 → SymName name → (∀ r : Reg32, name ≠ r.asmName) →
      At bytes ⟨k, k + 5, ⟨Int32.ofNat (k + 1), name, false, 2⟩⟩

/-- A section that a source can give, `ext` saying which names are external: the relocations are those of
some loads, one after the other; the symbols are labels, in the order of their offsets, none of them
beyond the end or inside of a load. -/
def ObtainedSection (ext : Str → Bool) (bytes : Bytes) (symbols : List Obj.Symbol) (relocs : List Obj.Reloc) : Prop :=
  ∃ (loads : List Load) (labels : List (Str × Nat)),
    relocs = loads.map (·.entry) ∧ (∀ l ∈ loads, l.At bytes) ∧ loads.Pairwise (fun a b => a.stop ≤ b.start) ∧
    symbols = labels.map (fun p => .ref p.1 (UInt64.ofNat p.2) (ext p.1)) ∧
    labels.Pairwise (fun a b => a.2 ≤ b.2) ∧
    ∀ p ∈ labels, LabelName p.1 ∧ p.2 ≤ bytes.length ∧ ∀ l ∈ loads, p.2 ≤ l.start ∨ l.stop ≤ p.2

/-- An object that a source can give.  A name is external in all sections or in none; the empty name
cannot be external; there is nothing in `.bss` but symbols. -/
def Obtained (o : Obj.Object) : Prop :=
  ∃ ext : Str → Bool, ext [] = false ∧
    ObtainedSection ext o.sections.text.bytes o.sections.text.symbols o.sections.text.relocs ∧
    ObtainedSection ext o.sections.data.bytes o.sections.data.symbols o.sections.data.relocs ∧
    o.sections.bss.size = 0 ∧ ObtainedSection ext [] o.sections.bss.symbols []

end AT.AsmSpec
