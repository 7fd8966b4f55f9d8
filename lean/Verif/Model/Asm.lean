import Verif.Model.AsmParse
import Verif.Model.ObjMacho
/-!
# at-asm: reader, assembler, command line
(`/repo/at-asm/src/{reader,assembler,main}.rs`)
-/

namespace AT.Asm
open AT.X64 AT.Obj

/-! ## `reader.rs` -/

/-- `reader.rs:3-6` `struct Reader<R>` around `BufReader<R>`: `buf` are the bytes delivered by the
underlying `Read` and not yet consumed, `rest` what its next calls to `read` will deliver (an empty
chunk, or the end of the list, is a `read` returning 0). Read errors are not modelled. -/
structure Reader where
  buf : Bytes
  rest : List Bytes
  deriving DecidableEq, Repr

/-- `reader.rs:9-14` `Reader::new`. -/
def Reader.new (chunks : List Bytes) : Reader := ⟨[], chunks⟩

/-- `BufReader::fill_buf`: refill from the next `read` when everything was consumed. -/
def Reader.fill (r : Reader) : Reader :=
  match r.buf, r.rest with
  | [], c :: cs => ⟨c, cs⟩
  | _, _ => r

/-- Cut after the first newline: `(line including '\n', remainder)`; `none` without newline
(the `memchr` of `read_until`). -/
def cutNewline : Bytes → Option (Bytes × Bytes)
  | [] => none
  | b :: bs => if b == 10 then some ([b], bs) else
      match cutNewline bs with
      | some (l, r) => some (b :: l, r)
      | none => none

/-- The loop of `BufRead::read_until(b'\n')` once the internal buffer is used up: take whole chunks
until one contains a newline; an empty chunk ends the read. -/
def readUntilGo (acc : Bytes) : List Bytes → Bytes × Reader
  | [] => (acc, ⟨[], []⟩)
  | c :: cs =>
    match c with
    | [] => (acc, ⟨[], cs⟩)
    | _ :: _ =>
      match cutNewline c with
      | some (l, r) => (acc ++ l, ⟨r, cs⟩)
      | none => readUntilGo (acc ++ c) cs

/-- `BufRead::read_until(b'\n')` as used by `read_line`: the bytes read and the new state. -/
def readUntil (r : Reader) : Bytes × Reader :=
  match cutNewline r.buf with
  | some (l, b) => (l, ⟨b, r.rest⟩)
  | none => readUntilGo r.buf r.rest

/-- `reader.rs:16-24` `next_line`: `none` at end of input; a line that is not UTF-8 panics
(`read_line(..).unwrap()`). -/
def Reader.nextLine (r : Reader) : Res (Option Str × Reader) :=
  match readUntil r with
  | ([], r') => pure (none, r')
  | (b :: bs, r') => do
    let s ← runwrap (fromUtf8 (b :: bs))
    pure (some s, r')

/-! ## `assembler.rs` -/

/-- `assembler.rs:9-14` `struct Assembler`, `new` (`17-24`). -/
structure Assembler where
  curSect : Section := .text
  curLine : UInt32 := 0
  obj : Object := {}
  extSymbols : List Str := []
  deriving DecidableEq, Repr

/-- `assembler.rs:17-24` `Assembler::new`. -/
def Assembler.new : Assembler := {}

/-- `assembler.rs:34-36` `set_cur_sect`. -/
def Assembler.setCurSect (a : Assembler) (s : Section) : Assembler := { a with curSect := s }

/-- `assembler.rs:122-130` `SectionMut::size` of the current section. -/
def Assembler.curSize (a : Assembler) : UInt64 :=
  match a.curSect with
  | .text => UInt64.ofNat a.obj.sections.text.bytes.length
  | .data => UInt64.ofNat a.obj.sections.data.bytes.length
  | .bss => a.obj.sections.bss.size

/-- `assembler.rs:132-140` `push_symbol` on the current section. -/
def Assembler.pushSymbol (a : Assembler) (s : Symbol) : Assembler :=
  match a.curSect with
  | .text => { a with obj.sections.text.symbols := a.obj.sections.text.symbols ++ [s] }
  | .data => { a with obj.sections.data.symbols := a.obj.sections.data.symbols ++ [s] }
  | .bss => { a with obj.sections.bss.symbols := a.obj.sections.bss.symbols ++ [s] }

/-- `assembler.rs:142-150` `push_reloc` on the current section. -/
def Assembler.pushReloc (a : Assembler) (r : Reloc) : Res Assembler :=
  match a.curSect with
  | .text => pure { a with obj.sections.text.relocs := a.obj.sections.text.relocs ++ [r] }
  | .data => pure { a with obj.sections.data.relocs := a.obj.sections.data.relocs ++ [r] }
  | .bss => .error .panic

/-- `assembler.rs:152-163` `write_bytes` on the current section. -/
def Assembler.writeBytes (a : Assembler) (b : Bytes) : Res Assembler :=
  match a.curSect with
  | .text => pure { a with obj.sections.text.bytes := a.obj.sections.text.bytes ++ b }
  | .data => pure { a with obj.sections.data.bytes := a.obj.sections.data.bytes ++ b }
  | .bss => .error (.exit 1 (str% "error: can't write data to .bss section\n"))

/-- The `match parsed_line` of `read_from` (`assembler.rs:52-93`). -/
def Assembler.step (bd : Build) (a : Assembler) : Line → Res Assembler
  | .empty => pure a
  | .sect s => pure (a.setCurSect s)
  | .globalSymbol name => pure { a with extSymbols := a.extSymbols ++ [name] }
  | .symbol name => pure (a.pushSymbol (.ref name a.curSize false))
  | .data d =>
    let a := match d.label with
      | some l => a.pushSymbol (.ref l a.curSize false)
      | none => a
    a.writeBytes d.bytes
  | .instruction i => do
    let a ← match i.reloc with
      | some lr => do
        let addr ← addI32 bd a.curSize.toUInt32.toInt32 lr.offset.toUInt32.toInt32
        a.pushReloc ⟨addr, lr.symbol, lr.pcrel, lr.len⟩
      | none => pure a
    a.writeBytes i.bytes.asRef

/-- A `ParseError` stops the program with `error at line N: msg` (`assembler.rs:44-50`); everything
else is unchanged. -/
def reportAt (line : UInt32) : Stop → Stop
  | .parseErr msg =>
    .exit 1 (str% "error at line " ++ showNat line.toNat ++ str% ": " ++ msg ++ str% "\n")
  | e => e

/-- `Line::parse_str(line)` with its error arm (`assembler.rs:44-50`). -/
def parseOrExit (bd : Build) (line : UInt32) (s : Str) : Res Line :=
  match parseLine bd s with
  | .ok l => .ok l
  | .error e => .error (reportAt line e)

/-- The body of the `while let` loop of `read_from` for one line (`assembler.rs:42-93`). -/
def Assembler.doLine (bd : Build) (a : Assembler) (s : Str) : Res Assembler := do
  let n ← addU32 bd a.curLine 1
  let l ← parseOrExit bd n s
  ({ a with curLine := n }).step bd l

/-- Measure for the `while let` loop: bytes and chunks still to come. -/
def Reader.measure (r : Reader) : Nat := r.buf.length + (r.rest.map (·.length + 1)).sum

theorem cutNewline_append {b l r : Bytes} (h : cutNewline b = some (l, r)) : l ++ r = b := by
  induction b generalizing l r with
  | nil => simp [cutNewline] at h
  | cons x xs ih =>
    simp only [cutNewline] at h
    split at h
    · rename_i hx
      simp only [Option.some.injEq, Prod.mk.injEq] at h
      obtain ⟨rfl, rfl⟩ := h
      simp
    · split at h
      · rename_i l' r' h'
        simp only [Option.some.injEq, Prod.mk.injEq] at h
        obtain ⟨rfl, rfl⟩ := h
        simp [ih h']
      · simp at h

theorem cutNewline_pos {b l r : Bytes} (h : cutNewline b = some (l, r)) : 0 < l.length := by
  cases b with
  | nil => simp [cutNewline] at h
  | cons x xs =>
    simp only [cutNewline] at h
    split at h
    · simp at h; simp [← h.1]
    · split at h
      · simp at h; simp [← h.1]
      · simp at h

theorem readUntilGo_measure (acc : Bytes) (cs : List Bytes) :
    (readUntilGo acc cs).2.measure + (readUntilGo acc cs).1.length ≤
      acc.length + (cs.map (·.length + 1)).sum := by
  induction cs generalizing acc with
  | nil => simp [readUntilGo, Reader.measure]
  | cons c cs ih =>
    cases c with
    | nil => simp [readUntilGo, Reader.measure]; omega
    | cons x xs =>
      simp only [readUntilGo]
      split
      · rename_i l r h
        have := congrArg List.length (cutNewline_append h)
        simp only [List.length_append] at this
        simp [Reader.measure] at *
        omega
      · have := ih (acc ++ x :: xs)
        simp at *
        omega

theorem readUntil_measure (r : Reader) :
    (readUntil r).2.measure + (readUntil r).1.length ≤ r.measure := by
  unfold readUntil
  split
  · rename_i l b h
    have := congrArg List.length (cutNewline_append h)
    simp [Reader.measure] at *
    omega
  · have := readUntilGo_measure r.buf r.rest
    simpa [Reader.measure] using this

theorem nextLine_measure {r r' : Reader} {s : Str} (h : r.nextLine = .ok (some s, r')) :
    r'.measure < r.measure := by
  have hm := readUntil_measure r
  unfold Reader.nextLine at h
  split at h
  · simp [pure, Except.pure] at h
  · rename_i b bs r'' heq
    rw [heq] at hm
    cases hu : fromUtf8 (b :: bs) with
    | none => rw [hu] at h; simp [runwrap, bind, Except.bind] at h
    | some s' =>
      rw [hu] at h
      simp [runwrap, bind, Except.bind, pure, Except.pure] at h
      simp at hm
      obtain ⟨_, rfl⟩ := h
      omega

/-- The `while let` loop of `read_from` (`assembler.rs:41-94`). -/
def Assembler.readLoop (bd : Build) (a : Assembler) (r : Reader) : Res Assembler :=
  match _h : r.nextLine with
  | .error e => .error e
  | .ok (none, _) => .ok a
  | .ok (some s, r') =>
    match a.doLine bd s with
    | .error e => .error e
    | .ok a' => Assembler.readLoop bd a' r'
termination_by r.measure
decreasing_by exact nextLine_measure _h

/-- `assembler.rs:101-105`: set the `ext` flag of a symbol. -/
def setExt : Symbol → Symbol
  | .undef n => .undef n
  | .abs n v _ => .abs n v true
  | .ref n v _ => .ref n v true

/-- `assembler.rs:99-105` on one symbol. -/
def markSym (ext : List Str) (s : Symbol) : Symbol :=
  if ext.any (· == s.name) then setExt s else s

/-- `assembler.rs:96-105`: mark the symbols named by `global` lines. -/
def Assembler.markExt (a : Assembler) : Assembler :=
  { a with obj := a.obj.symbolsMut (markSym a.extSymbols) }

/-- `assembler.rs:38-108` `read_from`; `chunks` is what the `Read` delivers. -/
def Assembler.readFrom (bd : Build) (a : Assembler) (chunks : List Bytes) : Res Assembler := do
  let a ← a.readLoop bd (Reader.new chunks)
  pure a.markExt

/-- `assembler.rs:110-112` `write_into`. -/
def Assembler.writeInto (bd : Build) (h : Mac.Endian) (a : Assembler) : Wr Unit :=
  Obj.writeInto bd h a.obj

/-! ## `main.rs` -/

/-- `main.rs:24-27` `struct Config`. -/
structure Config where
  outputPath : Str
  inputPath : Str
  deriving DecidableEq, Repr

/-- `Path::file_name`'s view of a Unix path: the path up to and including the last normal component,
split there: `(everything before it, the component)`. Trailing `/` and `/.` are ignored by `Path`;
`none` when the last component is `..`, `/` or missing. Input is the reversed path. -/
def lastCompRev : Str → Option (Str × Str)
  | [] => none
  | '/' :: rest => lastCompRev rest
  | '.' :: '/' :: rest => lastCompRev ('/' :: rest)
  | ['.'] => none
  | s =>
    let comp := s.takeWhile (· != '/')
    if comp = ['.', '.'] then none
    else some ((s.dropWhile (· != '/')).reverse, comp.reverse)

/-- `Path::file_stem` of a file name: everything before the last `.`, or the whole name if there is
none or it is only the leading char. -/
def fileStem (name : Str) : Str :=
  let r := name.reverse
  let afterDot := r.takeWhile (· != '.')
  let before := (r.dropWhile (· != '.')).drop 1
  if afterDot.length = r.length then name
  else if before.isEmpty then name
  else before.reverse

/-- `Path::with_extension("o")` on Unix (std): the stem of the file name followed by `.o`; a path
without file name is returned unchanged. -/
def withExtensionO (p : Str) : Str :=
  match lastCompRev p.reverse with
  | none => p
  | some (dir, name) => dir ++ fileStem name ++ str% ".o"

/-- `main.rs:48-58`: the input path from the arguments left after removing `-o`. -/
def inputArg (args : List Str) : Res Str :=
  if args.length < 2 then .error (.exit 1 (str% "error: input file is not specified\n"))
  else if args.length > 2 then .error (.exit 1 (str% "error: invalid command format\n"))
  else runwrap args[1]?

/-- `main.rs:30-74` `Config::init` on the argument vector (program name first).
`Vec::remove` past the end panics. -/
def Config.init (args : List Str) : Res Config := do
  let (out, args) ← match args.findIdx? (· == str% "-o") with
    | some i =>
      let args := args.eraseIdx i
      match args[i]? with
      | some p => pure (some p, args.eraseIdx i)
      | none => .error .panic
    | none => pure (none, args)
  let input ← inputArg args
  pure ⟨out.getD (withExtensionO input), input⟩

/-- A file system as `main` sees it: `node` resolves a path to a file identity (so that links and
different spellings of one file are covered), `content` is what is stored (`none`: no such file),
`canRead`/`canWrite` whether opening succeeds. -/
structure FS where
  node : Str → Nat
  content : Nat → Option Bytes
  canRead : Nat → Bool
  canWrite : Nat → Bool

/-- Replace the contents of one file. -/
def FS.set (fs : FS) (n : Nat) (b : Bytes) : FS :=
  { fs with content := fun m => if m = n then some b else fs.content m }

/-- How `main` ends: `ok ()` is exit status 0. -/
abbrev Outcome := Res Unit

/-- `main.rs:4-22` `main`: final file system and outcome.  The output file is truncated on open
(`main.rs:12-17`), before the input is read; the input is then read from the resulting file system
(the two paths may name one file).  `chunking` is how the kernel splits the input into reads. -/
def main (bd : Build) (h : Mac.Endian) (chunking : Bytes → List Bytes) (fs : FS) (args : List Str) :
    FS × Outcome :=
  match Config.init args with
  | .error e => (fs, .error e)
  | .ok cfg =>
    let inNode := fs.node cfg.inputPath
    let outNode := fs.node cfg.outputPath
    match fs.content inNode with
    | none => (fs, .error .panic)
    | some _ =>
      if !fs.canRead inNode then (fs, .error .panic)
      else if !fs.canWrite outNode then (fs, .error .panic)
      else
        let fs := fs.set outNode []
        match Assembler.new.readFrom bd (chunking ((fs.content inNode).getD [])) with
        | .error e => (fs, .error e)
        | .ok a =>
          let w := a.writeInto bd h
          (fs.set outNode w.out, w.res)

end AT.Asm
