import Verif.Model.Obj
/-!
# C90: the symbols of an object, listed and changed in place
-/

namespace AT.Props

open AT.Obj

/-- C90, listing: the symbols of an object are those of its code section, followed by those of the data
section, followed by those of the bss section; none is left out, added or moved.  A new object has none. -/
theorem C90_symbols (o : Object) :
    (∀ i : Nat, o.symbols[i]? =
      if i < o.sections.text.symbols.length then o.sections.text.symbols[i]?
      else if i < o.sections.text.symbols.length + o.sections.data.symbols.length then
        o.sections.data.symbols[i - o.sections.text.symbols.length]?
      else o.sections.bss.symbols[i - (o.sections.text.symbols.length + o.sections.data.symbols.length)]?) ∧
    o.symbols.length =
      o.sections.text.symbols.length + o.sections.data.symbols.length + o.sections.bss.symbols.length ∧
    Object.symbols {} = [] := by
  refine ⟨fun i => ?_, by simp [Object.symbols, Nat.add_assoc], rfl⟩
  unfold Object.symbols
  rw [List.append_assoc]
  split
  · rename_i h; rw [List.getElem?_append_left h]
  · rename_i h
    rw [List.getElem?_append_right (Nat.le_of_not_lt h)]
    split
    · rw [List.getElem?_append_left (by omega)]
    · rw [List.getElem?_append_right (by omega)]
      congr 1; omega

/-- C90, changing: replacing each symbol by a function of it replaces, in the listing, the symbol at each
position by its image; it stays in its section; the contents, sizes and relocations of the sections are as
before.  Hence doing nothing to each symbol changes nothing, and two passes are one. -/
theorem C90_symbols_mut (o : Object) (f : Symbol → Symbol) :
    (∀ i : Nat, (o.symbolsMut f).symbols[i]? = (o.symbols[i]?).map f) ∧
    (∀ i : Nat, (o.symbolsMut f).sections.text.symbols[i]? = (o.sections.text.symbols[i]?).map f) ∧
    (∀ i : Nat, (o.symbolsMut f).sections.data.symbols[i]? = (o.sections.data.symbols[i]?).map f) ∧
    (∀ i : Nat, (o.symbolsMut f).sections.bss.symbols[i]? = (o.sections.bss.symbols[i]?).map f) ∧
    (o.symbolsMut f).sections.text.bytes = o.sections.text.bytes ∧
    (o.symbolsMut f).sections.text.relocs = o.sections.text.relocs ∧
    (o.symbolsMut f).sections.data.bytes = o.sections.data.bytes ∧
    (o.symbolsMut f).sections.data.relocs = o.sections.data.relocs ∧
    (o.symbolsMut f).sections.bss.size = o.sections.bss.size ∧
    o.symbolsMut id = o ∧
    (∀ g, (o.symbolsMut f).symbolsMut g = o.symbolsMut fun s => g (f s)) := by
  refine ⟨fun i => ?_, fun i => ?_, fun i => ?_, fun i => ?_, rfl, rfl, rfl, rfl, rfl, ?_, fun g => ?_⟩
  · unfold Object.symbols Object.symbolsMut
    rw [← List.getElem?_map]; simp only [List.map_append]
  · unfold Object.symbolsMut; rw [List.getElem?_map]
  · unfold Object.symbolsMut; rw [List.getElem?_map]
  · unfold Object.symbolsMut; rw [List.getElem?_map]
  · unfold Object.symbolsMut; simp only [List.map_id]
  · unfold Object.symbolsMut; simp only [List.map_map, Function.comp_def]

/-- An object with symbols in each of its sections. -/
def viewEx : Object :=
  { sections := {
      text := { bytes := [0xc3], symbols := [.ref ['f'] 0 true, .undef ['g']] }
      data := { bytes := [1, 2], symbols := [.ref ['x'] 1 false] }
      bss := { size := 8, symbols := [.ref ['b'] 0 false] } } }

example : viewEx.symbols = [.ref ['f'] 0 true, .undef ['g'], .ref ['x'] 1 false, .ref ['b'] 0 false] ∧
    (viewEx.symbolsMut fun s => .undef s.name).symbols =
      [.undef ['f'], .undef ['g'], .undef ['x'], .undef ['b']] ∧
    viewEx.symbolsMut (fun s => .undef s.name) ≠ viewEx := by decide +kernel

end AT.Props
