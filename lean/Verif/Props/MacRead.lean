import Verif.Proofs.MacRead
import Verif.Props.Mac
/-!
# C77: the readers do not depend on how the bytes arrive
-/

namespace AT.Props
open AT.Mac AT.MachO AT.AsmSpec
open AT.Asm (Got)

/-- C77.  Every reader, over any `Read`, does what it does over the bytes which that `Read` delivers
before it first fails or ends. -/
theorem C77_readers (bd : Build) (e : Endian) (gs : List Got) :
    SameAs (Header64.readFrom e (arrives gs)) ((Header64.readFromIo e ⟨[], gs⟩).map fun p => (p.1, p.2.gs)) ∧
    SameAs (SegmentCommand64.readFromIn bd e (arrives gs))
      ((SegmentCommand64.readFromInIo bd e ⟨[], gs⟩).map fun p => (p.1, p.2.gs)) ∧
    SameAs (Section64.readFromIn e (arrives gs))
      ((Section64.readFromInIo e ⟨[], gs⟩).map fun p => (p.1, p.2.gs)) ∧
    SameAs (SymtabCommand.readFromIn e (arrives gs))
      ((SymtabCommand.readFromInIo e ⟨[], gs⟩).map fun p => (p.1, p.2.gs)) ∧
    SameAs (DysymtabCommand.readFromIn e (arrives gs))
      ((DysymtabCommand.readFromInIo e ⟨[], gs⟩).map fun p => (p.1, p.2.gs)) ∧
    SameAs (BuildVersionCommand.readFromIn bd e (arrives gs))
      ((BuildVersionCommand.readFromInIo bd e ⟨[], gs⟩).map fun p => (p.1, p.2.gs)) ∧
    SameAs (BuildToolVersion.readFromIn e (arrives gs))
      ((BuildToolVersion.readFromInIo e ⟨[], gs⟩).map fun p => (p.1, p.2.gs)) ∧
    SameAs (NList64.readFromIn e (arrives gs))
      ((NList64.readFromInIo e ⟨[], gs⟩).map fun p => (p.1, p.2.gs)) ∧
    SameAs (RelocationInfo.readFromIn e (arrives gs))
      ((RelocationInfo.readFromInIo e ⟨[], gs⟩).map fun p => (p.1, p.2.gs)) ∧
    SameAs (LoadCommand.readFromIn bd e (arrives gs)) (LoadCommand.readFromInIo bd e gs) :=
  ⟨(agrees_header e).same gs, (agrees_segment bd e).same gs, (agrees_section e).same gs,
   (agrees_symtab e).same gs, (agrees_dysymtab e).same gs, (agrees_build bd e).same gs,
   (agrees_tool e).same gs, (agrees_nlist e).same gs, (agrees_reloc e).same gs, load_same bd e gs⟩

/-- C77.  What arrives from a file with contents `src` is a beginning of `src`, and all of it if no read
fails. -/
theorem C77_arrives {src : Bytes} {gs : List Got} (h : Answers src gs) :
    arrives gs <+: src ∧ (Got.failed ∉ gs → arrives gs = src) := by
  induction h with
  | eof => exact ⟨List.prefix_rfl, fun _ => rfl⟩
  | bytes c rest gs hc _ ih =>
    rw [arrives_bytes c hc]
    refine ⟨(List.prefix_append_right_inj c).2 ih.1, fun hf => ?_⟩
    rw [ih.2 (by simpa using hf)]
  | interrupted _ _ _ ih => exact ⟨ih.1, fun hf => ih.2 (by simpa using hf)⟩
  | failed => exact ⟨List.nil_prefix, fun hf => by simp at hf⟩

theorem same_ok {α : Type} {r : Res (α × Bytes)} {io : Res (α × List Got)} {a : α} {rest : Bytes}
    (h : SameAs r io) (hr : r = .ok (a, rest)) : ∃ gs', io = .ok (a, gs') ∧ arrives gs' = rest := by
  subst hr; exact h

theorem same_error {α : Type} {r : Res (α × Bytes)} {io : Res (α × List Got)} {e : Stop}
    (h : SameAs r io) (hr : r = .error e) : io = .error e := by
  subst hr; exact h

/-- C77.  Load commands written one after another are read back from every `Read` that delivers them,
however it cuts them into pieces. -/
theorem C77_load_commands (bd : Build) (h : Endian) (l : List LoadCommand) (hl : ∀ c ∈ l, WellFormed c)
    (rest : Bytes) (gs : List Got) (hg : arrives gs = (l.map fun c => (c.writeInto h).out).flatten ++ rest) :
    ∃ gs', readCommands bd h l.length gs = .ok (l.map withOrderedAttrs, gs') ∧ arrives gs' = rest := by
  induction l generalizing gs with
  | nil => exact ⟨gs, rfl, by simpa using hg⟩
  | cons c l ih =>
    simp only [List.map_cons, List.flatten_cons, List.append_assoc] at hg
    have h1 := load_same bd h gs
    rw [hg] at h1
    obtain ⟨g1, h2, h3⟩ := same_ok h1 (C17_load_command_roundtrip bd h c (hl c (by simp)) _).2
    obtain ⟨g2, h4, h5⟩ := ih (fun c hc => hl c (by simp [hc])) g1 h3
    refine ⟨g2, ?_, h5⟩
    simp only [List.length_cons, readCommands, h2, bind, Except.bind, h4]
    rfl

/-- C77.  The same for a header, a symbol entry and a relocation entry that fits its bit fields. -/
theorem C77_structures (hw hr : Endian) (rest : Bytes) (gs : List Got) :
    (∀ x : Header64, x.magic = .magic64 ∨ x.magic = .magic → arrives gs = (x.writeInto hw).out ++ rest →
      ∃ s, Header64.readFromIo hr ⟨[], gs⟩ =
        .ok (({ x with magic := magicSeen hw hr x.magic, flags := sortFlags x.flags }, hw), s) ∧
        s.pre = [] ∧ arrives s.gs = rest) ∧
    (∀ x : NList64, arrives gs = (x.writeInto hw).out ++ rest →
      ∃ s, NList64.readFromInIo hw ⟨[], gs⟩ = .ok (x, s) ∧ s.pre = [] ∧ arrives s.gs = rest) ∧
    (∀ x : RelocationInfo, x.rSymbolnum.toNat < 2 ^ 24 → x.rType.toNat < 16 →
      arrives gs = (x.writeInto hw).out ++ rest →
      ∃ s, RelocationInfo.readFromInIo hw ⟨[], gs⟩ = .ok (x, s) ∧ s.pre = [] ∧ arrives s.gs = rest) := by
  have key : ∀ {α : Type} {r : Rd α} {r' : RdIo α} {a : α}, Agrees r r' →
      r (arrives gs) = .ok (a, rest) → ∃ s, r' ⟨[], gs⟩ = .ok (a, s) ∧ s.pre = [] ∧ arrives s.gs = rest := by
    intro α r r' a hag hok
    have hs := hag ⟨[], gs⟩
    cases hr : r' ⟨[], gs⟩ with
    | error e =>
      rw [hr] at hs
      have hs : r (arrives gs) = .error e := hs
      rw [hs] at hok; cases hok
    | ok p =>
      rw [hr] at hs
      obtain ⟨h1, h2⟩ := hs
      have h1 : r (arrives gs) = .ok (p.1, p.2.ahead) := h1
      rw [hok] at h1
      obtain ⟨pa, ps⟩ := p
      simp only [Except.ok.injEq, Prod.mk.injEq] at h1
      have h3 : ps.pre = [] := h2 rfl
      refine ⟨ps, by rw [h1.1], h3, ?_⟩
      rw [h1.2, Src.ahead, h3]; rfl
  refine ⟨fun x hm hg => key (agrees_header hr) ?_, fun x hg => key (agrees_nlist hw) ?_,
    fun x h1 h2 hg => key (agrees_reloc hw) ?_⟩
  · rw [hg]; exact (C13_header_roundtrip hw hr x hm rest).2
  · rw [hg]; exact (C18_nlist_roundtrip hw x rest).2.2
  · rw [hg]; exact (C19_reloc_roundtrip_partial hw x rest).2.2 ⟨h1, h2⟩

/-- C77.  When reading fails or the file ends before a structure is complete, its reader panics. -/
theorem C77_cut_short (bd : Build) (e : Endian) (gs : List Got) :
    ((arrives gs).length < 32 → Header64.readFromIo e ⟨[], gs⟩ = .error .panic) ∧
    ((arrives gs).length < 72 → SegmentCommand64.readFromInIo bd e ⟨[], gs⟩ = .error .panic) ∧
    ((arrives gs).length < 80 → Section64.readFromInIo e ⟨[], gs⟩ = .error .panic) ∧
    ((arrives gs).length < 24 → SymtabCommand.readFromInIo e ⟨[], gs⟩ = .error .panic) ∧
    ((arrives gs).length < 80 → DysymtabCommand.readFromInIo e ⟨[], gs⟩ = .error .panic) ∧
    ((arrives gs).length < 24 → BuildVersionCommand.readFromInIo bd e ⟨[], gs⟩ = .error .panic) ∧
    ((arrives gs).length < 8 → BuildToolVersion.readFromInIo e ⟨[], gs⟩ = .error .panic) ∧
    ((arrives gs).length < 16 → NList64.readFromInIo e ⟨[], gs⟩ = .error .panic) ∧
    ((arrives gs).length < 8 → RelocationInfo.readFromInIo e ⟨[], gs⟩ = .error .panic) := by
  obtain ⟨a1, a2, a3, a4, a5, a6, a7, a8, a9⟩ := C21_short_input_panics bd e (arrives gs)
  have key : ∀ {α : Type} {r : Rd α} {r' : RdIo α}, Agrees r r' → r (arrives gs) = .error .panic →
      r' ⟨[], gs⟩ = .error .panic := by
    intro α r r' hag he
    have hs := hag ⟨[], gs⟩
    cases hr : r' ⟨[], gs⟩ with
    | error x =>
      rw [hr] at hs
      have hs : r (arrives gs) = .error x := hs
      rw [he] at hs; cases hs; rfl
    | ok p =>
      rw [hr] at hs
      have hs : r (arrives gs) = .ok (p.1, p.2.ahead) := hs.1
      rw [he] at hs; cases hs
  exact ⟨fun h => key (agrees_header e) (a1 h), fun h => key (agrees_segment bd e) (a2 h),
    fun h => key (agrees_section e) (a3 h), fun h => key (agrees_symtab e) (a4 h),
    fun h => key (agrees_dysymtab e) (a5 h), fun h => key (agrees_build bd e) (a6 h),
    fun h => key (agrees_tool e) (a7 h), fun h => key (agrees_nlist e) (a8 h),
    fun h => key (agrees_reloc e) (a9 h)⟩

/-- C77.  The same for a load command of which only a beginning arrives. -/
theorem C77_cut_load_command (bd : Build) (h : Endian) (c : LoadCommand) (hc : WellFormed c)
    (gs : List Got) (hp : arrives gs <+: (c.writeInto h).out) (hne : arrives gs ≠ (c.writeInto h).out) :
    LoadCommand.readFromInIo bd h gs = .error .panic := by
  refine same_error (load_same bd h gs) ?_
  rw [List.prefix_iff_eq_take.1 hp]
  refine C21_truncated_load_command_panics bd h c hc _ ?_
  have := hp.length_le
  rcases Nat.lt_or_eq_of_le this with h1 | h1
  · exact h1
  · exact absurd (hp.eq_of_length h1) hne

/-! ## Concrete cases -/

/-- A relocation entry arriving one byte, then six, then one, with interruptions; more follows. -/
example : ∃ s, RelocationInfo.readFromInIo .little
      ⟨[], [.bytes [0x10], .interrupted, .bytes [0, 0, 0, 2, 0, 0], .interrupted, .bytes [0x2d, 0xaa], .failed]⟩
      = .ok (⟨0x10, 2, true, .long, true, 2⟩, s) ∧ s.pre = [] ∧ arrives s.gs = [0xaa] :=
  (C77_structures .little .little [0xaa] _).2.2 _ (by decide) (by decide) (by decide)

/-- A failure after seven of its eight bytes. -/
example : RelocationInfo.readFromInIo .little
    ⟨[], [.bytes [0x10, 0, 0, 0, 2, 0, 0], .failed, .bytes [0x2d]]⟩ = .error .panic :=
  (C77_cut_short .debug .little _).2.2.2.2.2.2.2.2 (by decide)

/-- A symbol table command arriving in two pieces, the number of the command cut in two. -/
example : ∃ gs', LoadCommand.readFromInIo .release .little
      [.bytes [2, 0], .bytes [0, 0, 24, 0, 0, 0, 1, 0, 0, 0, 2, 0, 0, 0, 3, 0, 0, 0, 4, 0, 0, 0]]
      = .ok (.symtab ⟨2, 24, 1, 2, 3, 4⟩, gs') ∧ arrives gs' = [] := by
  have h := C77_load_commands .release .little [.symtab ⟨2, 24, 1, 2, 3, 4⟩]
    (by simp [WellFormed]) [] [.bytes [2, 0],
      .bytes [0, 0, 24, 0, 0, 0, 1, 0, 0, 0, 2, 0, 0, 0, 3, 0, 0, 0, 4, 0, 0, 0]] (by decide)
  obtain ⟨g, h1, h2⟩ := h
  refine ⟨g, ?_, h2⟩
  simp only [List.length_cons, List.length_nil, readCommands] at h1
  cases hr : LoadCommand.readFromInIo .release .little
      [.bytes [2, 0], .bytes [0, 0, 24, 0, 0, 0, 1, 0, 0, 0, 2, 0, 0, 0, 3, 0, 0, 0, 4, 0, 0, 0]] with
  | error e => simp [hr, bind, Except.bind] at h1
  | ok p =>
    simp [hr, bind, Except.bind, pure, Except.pure, withOrderedAttrs] at h1
    rw [← h1.1, ← h1.2]

end AT.Props
