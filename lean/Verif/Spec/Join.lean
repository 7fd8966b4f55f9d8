import Verif.Spec.AsmProg
/-!
# Specification: joining the objects of two sources

Of the model this uses only the data types of objects.
-/

namespace AT.AsmSpec
open AT.Asm

/-- A symbol moved by `d` bytes, and external also if `gs` declares it global. -/
def moveSymbol (gs : List Line) (d : Nat) : Obj.Symbol → Obj.Symbol
  | .undef n => .undef n
  | .abs n v ext => .abs n v (ext || decide (Global gs n))
  | .ref n addr ext => .ref n (addr + UInt64.ofNat d) (ext || decide (Global gs n))

/-- A relocation moved by `d` bytes. -/
def moveReloc (d : Nat) (r : Obj.Reloc) : Obj.Reloc := { r with addr := r.addr + Int32.ofNat d }

/-- `Joins ls ms a b c`: `c` is `a` followed by `b`, section by section: the contents of `b` come after
those of `a`, and the symbols and relocations of `b` are moved accordingly; a name declared global in
one of the sources `ls`, `ms` of `a`, `b` is external in both parts. -/
structure Joins (ls ms : List Line) (a b c : Obj.Object) : Prop where
  bytes : ∀ x, bytesOf c x = bytesOf a x ++ bytesOf b x
  symbols : ∀ x, symbolsOf c x = (symbolsOf a x).map (moveSymbol ms 0) ++
    (symbolsOf b x).map (moveSymbol ls (bytesOf a x).length)
  relocs : ∀ x, relocsOf c x = relocsOf a x ++ (relocsOf b x).map (moveReloc (bytesOf a x).length)
  bss : c.sections.bss.size = a.sections.bss.size + b.sections.bss.size

/-- `Later k e e'`: the program stops with `e'` where it stopped with `e`, `k` lines later: the line
number in the message (modulo `2 ^ 32`), if there is one, is `k` larger. -/
inductive Later (k : Nat) : Stop → Stop → Prop
  | same (e : Stop) : Later k e e
  | line (n : Nat) (num num' msg : Str) : Decimal (n % 2 ^ 32) num → Decimal ((k + n) % 2 ^ 32) num' →
      Later k (.exit 1 (str% "error at line " ++ num ++ str% ": " ++ msg ++ str% "\n"))
        (.exit 1 (str% "error at line " ++ num' ++ str% ": " ++ msg ++ str% "\n"))

end AT.AsmSpec
