import Verif.Model.Rust
/-!
# at-obj: object model and integer alignment (`/repo/at-obj/src/{object,num}.rs`)
-/

namespace AT.Obj

/-- `at-obj/src/object.rs:178-186` `struct Reloc`. -/
structure Reloc where
  addr : Int32
  symbol : Str
  pcrel : Bool
  len : UInt8
  deriving DecidableEq, Repr

/-- `object.rs:188-193` `enum Symbol`. -/
inductive Symbol where
  | undef (name : Str)
  | abs (name : Str) (val : UInt64) (ext : Bool)
  | ref (name : Str) (addr : UInt64) (ext : Bool)
  deriving DecidableEq, Repr

/-- `object.rs:196-202` `Symbol::name`. -/
def Symbol.name : Symbol → Str
  | .undef name => name
  | .abs name _ _ => name
  | .ref name _ _ => name

/-- `object.rs:132-146` `struct TextSection`, `new`. -/
structure TextSection where
  bytes : Bytes := []
  symbols : List Symbol := []
  relocs : List Reloc := []
  deriving DecidableEq, Repr

/-- `object.rs:148-162` `struct DataSection`, `new`. -/
structure DataSection where
  bytes : Bytes := []
  symbols : List Symbol := []
  relocs : List Reloc := []
  deriving DecidableEq, Repr

/-- `object.rs:164-176` `struct BssSection`, `new`. -/
structure BssSection where
  size : UInt64 := 0
  symbols : List Symbol := []
  deriving DecidableEq, Repr

/-- `object.rs:39-43` `struct Sections`. -/
structure Sections where
  text : TextSection := {}
  data : DataSection := {}
  bss : BssSection := {}
  deriving DecidableEq, Repr

/-- `object.rs:1-14` `struct Object`, `new`. -/
structure Object where
  sections : Sections := {}
  deriving DecidableEq, Repr

/-- `object.rs:20-27` `Object::symbols`. -/
def Object.symbols (o : Object) : List Symbol :=
  o.sections.text.symbols ++ o.sections.data.symbols ++ o.sections.bss.symbols

/-- `object.rs:29-36` `Object::symbols_mut`, driven to its end by a loop that replaces each symbol `s` it is
handed by `f s`.  Simplification: the Rust iterator lends `&mut Symbol`; a loop body that carries state from
one symbol to the next is not covered by a function `f`. -/
def Object.symbolsMut (o : Object) (f : Symbol → Symbol) : Object :=
  { o with
    sections.text.symbols := o.sections.text.symbols.map f
    sections.data.symbols := o.sections.data.symbols.map f
    sections.bss.symbols := o.sections.bss.symbols.map f }

/-- `object.rs:61-65` `enum SectionRef`. -/
inductive SectionRef where
  | text (t : TextSection)
  | data (d : DataSection)
  | bss (b : BssSection)
  deriving DecidableEq, Repr

namespace SectionRef

/-- `object.rs:68-76` `vm_size`. -/
def vmSize : SectionRef → UInt64
  | text t => UInt64.ofNat t.bytes.length
  | data d => UInt64.ofNat d.bytes.length
  | bss b => b.size

/-- `object.rs:78-80` `is_empty`. -/
def isEmpty (s : SectionRef) : Bool := s.vmSize == 0

/-- `object.rs:82-92` `file_data`. -/
def fileData : SectionRef → Bytes
  | text t => t.bytes
  | data d => d.bytes
  | bss _ => []

/-- `object.rs:94-96` `file_size`: `len() as u32`. -/
def fileSize (s : SectionRef) : UInt32 := UInt32.ofNat s.fileData.length

/-- `object.rs:98-106` `symbols`. -/
def symbols : SectionRef → List Symbol
  | text t => t.symbols
  | data d => d.symbols
  | bss b => b.symbols

/-- `object.rs:108-118` `relocs`. -/
def relocs : SectionRef → List Reloc
  | text t => t.relocs
  | data d => d.relocs
  | bss _ => []

end SectionRef

/-- `object.rs:47-54` `Sections::iter`. -/
def Sections.iter (s : Sections) : List SectionRef :=
  [SectionRef.text s.text, SectionRef.data s.data, SectionRef.bss s.bss].filter (fun r => !r.isEmpty)

/-- `object.rs:56-58` `Sections::len`. -/
def Sections.len (s : Sections) : UInt32 := UInt32.ofNat s.iter.length

/-! ## `num.rs` -/

/-- `num.rs:14-16` `u32::aligned`; `/` and `%` by zero panic. -/
def alignedU32 (bd : Build) (n align : UInt32) : Res UInt32 := do
  rassert (align != 0)
  let q ← addU32 bd (n / align) (if n % align > 0 then 1 else 0)
  mulU32 bd q align

/-- `num.rs:18-20` `u32::padding`. -/
def paddingU32 (bd : Build) (n align : UInt32) : Res UInt32 := do
  let a ← alignedU32 bd n align
  subU32 bd a n

/-- `num.rs:14-16` `u64::aligned` (and `usize`). -/
def alignedU64 (bd : Build) (n align : UInt64) : Res UInt64 := do
  rassert (align != 0)
  let q ← addU64 bd (n / align) (if n % align > 0 then 1 else 0)
  mulU64 bd q align

/-- `num.rs:18-20` `u64::padding` (and `usize`). -/
def paddingU64 (bd : Build) (n align : UInt64) : Res UInt64 := do
  let a ← alignedU64 bd n align
  subU64 bd a n

end AT.Obj
