import Verif.Model.Asm
/-!
# at-asm with I/O that can fail

`Model/Asm.lean` models `/repo/at-asm/src/{reader,assembler,main}.rs` over reads and writes that
succeed.  Here the same functions run over a `Read` and a `Write` whose every call may deliver or accept
less than asked, be interrupted, or fail.
-/

namespace AT.Asm
open AT.X64 AT.Obj

/-! ## Reading -/

/-- What one call of `Read::read` returns: bytes (none at the end of the file),
`ErrorKind::Interrupted`, or any other error. -/
inductive Got where
  | bytes (b : Bytes)
  | interrupted
  | failed
  deriving DecidableEq, Repr

/-- `reader.rs:3-6` `struct Reader<R>`: the bytes in the `BufReader` and what the next calls of `read`
return (the end of the list is the end of the file). -/
structure ReaderIo where
  buf : Bytes
  rest : List Got
  deriving DecidableEq, Repr

/-- The loop of `BufRead::read_until(b'\n')` once the internal buffer is used up: an interrupted
`fill_buf` is retried, any other error is returned, and `next_line` unwraps it (`reader.rs:19`). -/
def readUntilIoGo (acc : Bytes) : List Got → Res (Bytes × ReaderIo)
  | [] => .ok (acc, ⟨[], []⟩)
  | .interrupted :: gs => readUntilIoGo acc gs
  | .failed :: _ => .error .panic
  | .bytes c :: gs =>
    match c with
    | [] => .ok (acc, ⟨[], gs⟩)
    | _ :: _ =>
      match cutNewline c with
      | some (l, r) => .ok (acc ++ l, ⟨r, gs⟩)
      | none => readUntilIoGo (acc ++ c) gs

/-- `BufRead::read_until(b'\n')`. -/
def readUntilIo (r : ReaderIo) : Res (Bytes × ReaderIo) :=
  match cutNewline r.buf with
  | some (l, b) => .ok (l, ⟨b, r.rest⟩)
  | none => readUntilIoGo r.buf r.rest

/-- `reader.rs:16-24` `next_line`: an error of `read_line`, as well as a line that is not UTF-8,
panics. -/
def ReaderIo.nextLine (r : ReaderIo) : Res (Option Str × ReaderIo) :=
  match readUntilIo r with
  | .error e => .error e
  | .ok ([], r') => pure (none, r')
  | .ok (b :: bs, r') => do
    let s ← runwrap (fromUtf8 (b :: bs))
    pure (some s, r')

/-- Number of bytes one call of `read` delivers. -/
def Got.size : Got → Nat
  | .bytes b => b.length
  | _ => 0

/-- Bound on the work left (for termination). -/
def ReaderIo.measure (r : ReaderIo) : Nat := r.buf.length + (r.rest.map (·.size + 1)).sum

theorem readUntilIoGo_measure {acc l : Bytes} {gs : List Got} {r : ReaderIo}
    (h : readUntilIoGo acc gs = .ok (l, r)) :
    l.length + r.measure ≤ acc.length + (gs.map (·.size + 1)).sum := by
  fun_induction readUntilIoGo acc gs with
  | case1 => cases h; simp [ReaderIo.measure]
  | case2 acc gs ih => have := ih h; simp; omega
  | case3 => cases h
  | case4 acc gs => cases h; simp [ReaderIo.measure]
  | case5 acc gs b bs l' r' hc =>
    rw [hc] at h
    cases h
    have := congrArg List.length (cutNewline_append hc)
    simp [ReaderIo.measure, Got.size] at *; omega
  | case6 acc gs b bs hc ih => rw [hc] at h; have := ih h; simp [Got.size] at *; omega

theorem nextLineIo_measure {r r' : ReaderIo} {s : Str} (h : r.nextLine = .ok (some s, r')) :
    r'.measure < r.measure := by
  unfold ReaderIo.nextLine at h
  split at h
  · cases h
  · simp [pure, Except.pure] at h
  · rename_i b bs r'' heq
    have hr : r'' = r' := by
      cases hu : fromUtf8 (b :: bs) with
      | none => rw [hu] at h; simp [runwrap, bind, Except.bind] at h
      | some s' =>
        rw [hu] at h
        simp [runwrap, bind, Except.bind, pure, Except.pure] at h
        exact h.2
    subst hr
    unfold readUntilIo at heq
    split at heq
    · rename_i l c hc
      cases heq
      have h1 := congrArg List.length (cutNewline_append hc)
      simp [ReaderIo.measure] at *; omega
    · have h1 := readUntilIoGo_measure heq
      simp [ReaderIo.measure] at *; omega

/-- The `while let` loop of `read_from` (`assembler.rs:41-94`). -/
def Assembler.readLoopIo (bd : Build) (a : Assembler) (r : ReaderIo) : Res Assembler :=
  match _h : r.nextLine with
  | .error e => .error e
  | .ok (none, _) => .ok a
  | .ok (some s, r') =>
    match a.doLine bd s with
    | .error e => .error e
    | .ok a' => Assembler.readLoopIo bd a' r'
termination_by r.measure
decreasing_by exact nextLineIo_measure _h

/-- `assembler.rs:38-108` `read_from`; `gs` is what the calls of `Read::read` return. -/
def Assembler.readFromIo (bd : Build) (a : Assembler) (gs : List Got) : Res Assembler := do
  let a ← a.readLoopIo bd ⟨[], gs⟩
  pure a.markExt

/-! ## Writing -/

/-- What one call of `Write::write` returns: how many bytes were accepted (at most as many as were
given), `ErrorKind::Interrupted`, or any other error. -/
inductive Put where
  | accept (n : Nat)
  | interrupted
  | failed
  deriving DecidableEq, Repr

/-- `Write::write_all` (std) against a `Write` whose calls return `ps`, and after that accept
everything: the bytes accepted, the answers left, and whether `write_all` returned `Ok`.  No call is
made for an empty buffer; accepting 0 bytes is `ErrorKind::WriteZero`; `Interrupted` is retried. -/
def writeAllIo (chunk : Bytes) : List Put → Bytes × List Put × Bool
  | [] => (chunk, [], true)
  | p :: ps =>
    if chunk = [] then ([], p :: ps, true) else
    match p with
    | .interrupted => writeAllIo chunk ps
    | .failed => ([], ps, false)
    | .accept 0 => ([], ps, false)
    | .accept (n + 1) =>
      let r := writeAllIo (chunk.drop (n + 1)) ps
      (chunk.take (n + 1) ++ r.1, r.2)

/-- Run the `write_all` calls of a writer; the first that fails panics (`unwrap`).  Returns what the
sink has accepted. -/
def runIoGo {α : Type} (res : Res α) : List Bytes → List Put → Bytes × Res α
  | [], _ => ([], res)
  | c :: cs, ps =>
    match writeAllIo c ps with
    | (b, ps', true) =>
      let r := runIoGo res cs ps'
      (b ++ r.1, r.2)
    | (b, _, false) => (b, .error .panic)

/-- A writing computation against a `Write` whose calls return `ps`. -/
def _root_.AT.Wr.runIo {α : Type} (ps : List Put) (w : Wr α) : Bytes × Res α := runIoGo w.res w.chunks ps

/-! ## `main.rs` -/

/-- `std::env::args().collect()` (`main.rs:31`): panics on an argument that is not UTF-8. -/
def argsOf : List Bytes → Res (List Str)
  | [] => .ok []
  | b :: bs => do
    let s ← runwrap (fromUtf8 b)
    let ss ← argsOf bs
    pure (s :: ss)

/-- `main.rs:4-22` `main`, on the raw arguments: `reads b` is what the calls of `read` on an input file
with contents `b` return, `writes` what the calls of `write` on the output file return. -/
def mainIo (bd : Build) (h : Mac.Endian) (reads : Bytes → List Got) (writes : List Put) (fs : FS)
    (args : List Bytes) : FS × Outcome :=
  match argsOf args with
  | .error e => (fs, .error e)
  | .ok args =>
  match Config.init args with
  | .error e => (fs, .error e)
  | .ok cfg =>
    let inNode := fs.node cfg.inputPath
    let outNode := fs.node cfg.outputPath
    match fs.content inNode with
    | none => (fs, .error .panic)
    | some _ =>
      if !fs.canRead inNode then (fs, .error .panic)
      else if !fs.canWrite outNode then (fs, .error .panic)
      else
        let fs := fs.set outNode []
        match Assembler.new.readFromIo bd (reads ((fs.content inNode).getD [])) with
        | .error e => (fs, .error e)
        | .ok a =>
          let w := (a.writeInto bd h).runIo writes
          (fs.set outNode w.1, w.2)

end AT.Asm
