import Verif.Model.Rust
/-!
# Specification: file names and extensions
-/

namespace AT.AsmSpec

/-- The path `p` ends in the file name `name`, after the directory part `dir`.  Slashes and components
`.` after the name do not count; `.` and `..` are no file names. -/
def HasName (p dir name : Str) : Prop :=
  (dir = [] ∨ dir.getLast? = some '/') ∧ name ≠ [] ∧ '/' ∉ name ∧ name ≠ str% "." ∧ name ≠ str% ".." ∧
  ∃ l : List Str, (∀ x ∈ l, x = str% "/" ∨ x = str% "/.") ∧ p = dir ++ name ++ l.flatten

/-- `q` is the path `p` with its extension replaced by `o`.  The extension is what follows the last dot
of the file name, unless that dot is its first character.  A path that has no file name stays as it
is. -/
inductive Renamed : Str → Str → Prop
  /-- `dir/stem.ext` -/
  | ext {p dir stem e : Str} : HasName p dir (stem ++ '.' :: e) → stem ≠ [] → '.' ∉ e →
      Renamed p (dir ++ stem ++ str% ".o")
  /-- `dir/name`, or `dir/.name`, without extension -/
  | none {p dir name : Str} : HasName p dir name → '.' ∉ name.tail → Renamed p (dir ++ name ++ str% ".o")
  /-- `/`, `.`, `dir/..` and the like -/
  | same {p : Str} : (∀ dir name, ¬ HasName p dir name) → Renamed p p

end AT.AsmSpec
