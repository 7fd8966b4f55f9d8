import Verif.Proofs.MacCanon
import Verif.Proofs.MacStr
/-!
# Properties of the Mach-O crate (C13-C24, C58, C59)

`x.writeInto h` is `write_into` on a host of byte order `h`; `.res` is how it ended and `.out` the
bytes it wrote.  `X.readFromIn e s` is `read_from_in` with byte order `e` on input `s`, returning
the value and the unread input.
-/

namespace AT.Props
open AT.Mac AT.MachO

/-! ## Names: from the specification's terms to the proofs' terms -/

theorem strIsAscii_iff (s : Str) : strIsAscii s = true ↔ ∀ c ∈ s, c.toNat < 128 := by
  simp [strIsAscii, charIsAscii]

theorem NameOk.of {n : Nat} {s : Str} (h : NameFits n s) : NameOk n s where
  ascii := (strIsAscii_iff s).2 h.ascii
  nul := fun hm => h.nul _ hm (by decide)
  len := h.len

theorem writeStr_ok (s : Str) (n : Nat) :
    (writeFixedStr s n).res = .ok () ↔ (∀ c ∈ s, c.toNat < 128) ∧ s.length ≤ n := by
  rw [writeFixedStr_res, ← strIsAscii_iff]
  by_cases ha : strIsAscii s = true
  · rw [utf8Len_ascii s ha]
    by_cases hl : s.length ≤ n <;> simp [ha, hl]
  · simp [ha]

/-- A writer never stops other than by panicking. -/
def OnlyPanics (w : Wr Unit) : Prop := w.res = .ok () ∨ w.res = .error .panic

theorem OnlyPanics.bind {w w' : Wr Unit} (h : OnlyPanics w) (h' : OnlyPanics w') :
    OnlyPanics (w >>= fun _ => w') := by
  obtain ⟨c, r⟩ := w
  cases r with
  | ok a => exact h'
  | error e =>
    rcases h with h | h
    · simp at h
    · right; simpa [Bind.bind] using h

theorem OnlyPanics.emit (b : Bytes) : OnlyPanics (emit b) := .inl rfl

theorem OnlyPanics.str (s : Str) (n : Nat) : OnlyPanics (writeFixedStr s n) := by
  unfold OnlyPanics
  rw [writeFixedStr_res]
  split
  · exact .inl rfl
  · exact .inr rfl

/-! ## C13 -/

/-- The magic number a reader of the given byte order sees. -/
def magicSeen (hw hr : Endian) : Magic → Magic
  | .magic64 => if hw = hr then .magic64 else .cigam64
  | .magic => if hw = hr then .magic else .cigam
  | m => m

theorem seen_eq (hw hr : Endian) (m : Magic) (hm : m = .magic64 ∨ m = .magic) :
    m.seen hw hr = magicSeen hw hr m := by
  rcases hm with rfl | rfl <;> cases hw <;> cases hr <;> decide

/-- C13.  Written on a host of byte order `hw` and read on a host of byte order `hr`, a header with
a native magic comes back: same fields, flags as a set, the magic as that host sees it, the
writer's byte order reported, the rest of the input untouched. -/
theorem C13_header_roundtrip (hw hr : Endian) (x : Header64)
    (hm : x.magic = .magic64 ∨ x.magic = .magic) (rest : Bytes) :
    (x.writeInto hw).res = .ok () ∧
    Header64.readFrom hr ((x.writeInto hw).out ++ rest) =
      .ok (({ x with magic := magicSeen hw hr x.magic, flags := sortFlags x.flags }, hw), rest) := by
  refine ⟨(header_writes hw x).res, ?_⟩
  rw [(header_writes hw x).out, (header_reads hw hr x hm).ok rest, seen_eq hw hr _ hm]

theorem swapped_cpu : ∀ hw : Endian, ∀ c : CpuType,
    CpuType.fromI32I32 (UInt32.ofNat (intVal hw.reverse (intBytes hw 4 c.toI32I32.1.toUInt32.toNat))).toInt32
      (UInt32.ofNat (intVal hw.reverse (intBytes hw 4 c.toI32I32.2.toUInt32.toNat))).toInt32
      = .error .panic := by
  intro hw c
  rcases c with ⟨⟨⟩⟩ | ⟨⟨⟩⟩ <;> cases hw <;> decide

theorem reads_i32_raw (hr : Endian) (b : Bytes) (hb : b.length = 4) :
    Reads (readI32 hr) b (UInt32.ofNat (intVal hr b)).toInt32 :=
  reads_pure_bytes (fun b => (UInt32.ofNat (intVal hr b)).toInt32) hb

/-- C13, the other magics: a header written with a byte-swapped or fat magic cannot be read back on
any host (the reader panics). -/
theorem C13_other_magic_panics (hw hr : Endian) (x : Header64)
    (hm : x.magic ≠ .magic64 ∧ x.magic ≠ .magic) (rest : Bytes) :
    Header64.readFrom hr ((x.writeInto hw).out ++ rest) = .error .panic := by
  rw [(header_writes hw x).out]
  unfold Header64.readFrom headerBytes
  simp only [List.append_assoc]
  rw [rd_bind, (magic_seen hw hr x.magic).ok]
  simp only [magic_dec, runwrap]
  rw [rd_bind]
  simp only [Rd.lift, Except.map]
  rw [rd_bind]
  have he : (x.magic.seen hw hr).endian hr = .error .panic ∨
      (x.magic.seen hw hr).endian hr = .ok hw.reverse := by
    revert hm
    generalize x.magic = m
    intro hm
    cases m <;> first
      | exact absurd rfl hm.1
      | exact absurd rfl hm.2
      | (cases hw <;> cases hr <;> decide)
  rcases he with he | he
  · rw [he]
    simp [Rd.lift, Except.map]
  · rw [he]
    simp only [Rd.lift, Except.map]
    rw [rd_bind, (reads_i32_raw _ _ (length_intBytes _ _ _)).ok]
    simp only
    rw [rd_bind, (reads_i32_raw _ _ (length_intBytes _ _ _)).ok]
    simp only
    rw [rd_bind, swapped_cpu]
    simp [Rd.lift, Except.map]

/-- Non-trivial case of C13: an object header with two flags in non-canonical order, written on a
big-endian and read on a little-endian host. -/
example : ∃ b, (Header64.writeInto .big ⟨.magic64, .x86_64 .all, .object, 2, 96,
      [.subsectionsViaSymbols, .noUndefs], 0⟩).out = b ∧ b.length = 32 ∧
    Header64.readFrom .little b = .ok ((⟨.cigam64, .x86_64 .all, .object, 2, 96,
      [.noUndefs, .subsectionsViaSymbols], 0⟩, .big), []) := ⟨_, rfl, by decide, by decide +kernel⟩

/-! ## C14 -/

/-- C14.  A consistent segment command with a NUL-free name is read back exactly. -/
theorem C14_segment_roundtrip (bd : Build) (h : Endian) (x : SegmentCommand64)
    (hc : x.cmd.toNat = 0x19)
    (hs : x.cmdsize.toNat = 72 + 80 * x.nsects.toNat) (hn : NameFits 16 x.segname) (rest : Bytes) :
    (x.writeInto h).res = .ok () ∧
    SegmentCommand64.readFromIn bd h ((x.writeInto h).out ++ rest) = .ok (x, rest) := by
  have hw := segment_writes h x (NameOk.of hn).ascii hn.len
  refine ⟨hw.res, ?_⟩
  rw [hw.out]
  exact (segment_reads bd h x (UInt32.toNat.inj hc) hs (NameOk.of hn)).ok rest

/-- C14.  The write succeeds exactly for ASCII names of at most 16 bytes and panics otherwise. -/
theorem C14_segment_write_ok_iff (h : Endian) (x : SegmentCommand64) :
    ((x.writeInto h).res = .ok () ↔ (∀ c ∈ x.segname, c.toNat < 128) ∧ x.segname.length ≤ 16) ∧
    ((x.writeInto h).res ≠ .ok () → (x.writeInto h).res = .error .panic) := by
  constructor
  · unfold SegmentCommand64.writeInto
    simp only [res_bind_ok, writeStr_ok, writeU32, writeU64, writeI32]
    simp [AT.emit]
  · intro hne
    have : OnlyPanics (x.writeInto h) := by
      unfold SegmentCommand64.writeInto
      simp only [writeU32, writeU64, writeI32]
      repeat first
        | exact OnlyPanics.emit _
        | refine OnlyPanics.bind (OnlyPanics.emit _) ?_
        | refine OnlyPanics.bind (OnlyPanics.str _ _) ?_
    exact this.resolve_left hne

example : (SegmentCommand64.writeInto .little ⟨0x19, 232, str% "__TEXT", 0, 64, 368, 64, 7, 5, 2, 0⟩).res
    = .ok () ∧ NameFits 16 (str% "__TEXT") ∧ (232 : UInt32).toNat = 72 + 80 * (2 : UInt32).toNat :=
  ⟨by decide, ⟨by decide, by decide, by decide⟩, by decide⟩

example : (SegmentCommand64.writeInto .little
    ⟨0x19, 72, str% "seventeen_letters", 0, 0, 0, 0, 0, 0, 0, 0⟩).res = .error .panic := by decide

/-! ## C15 -/

/-- C15.  A section header is read back with its attributes as an ordered set. -/
theorem C15_section_roundtrip (h : Endian) (x : Section64) (hn : NameFits 16 x.sectname)
    (hn' : NameFits 16 x.segname) (rest : Bytes) :
    (x.writeInto h).res = .ok () ∧
    Section64.readFromIn h ((x.writeInto h).out ++ rest) =
      .ok ({ x with attrs := sortAttrs x.attrs }, rest) := by
  have hw := section_writes h x (NameOk.of hn).ascii hn.len (NameOk.of hn').ascii hn'.len
  refine ⟨hw.res, ?_⟩
  rw [hw.out]
  exact (section_reads h x (NameOk.of hn) (NameOk.of hn')).ok rest

/-- C15.  The write succeeds exactly when both names are ASCII of at most 16 bytes and panics
otherwise. -/
theorem C15_section_write_ok_iff (h : Endian) (x : Section64) :
    ((x.writeInto h).res = .ok () ↔
      ((∀ c ∈ x.sectname, c.toNat < 128) ∧ x.sectname.length ≤ 16) ∧
      (∀ c ∈ x.segname, c.toNat < 128) ∧ x.segname.length ≤ 16) ∧
    ((x.writeInto h).res ≠ .ok () → (x.writeInto h).res = .error .panic) := by
  constructor
  · unfold Section64.writeInto
    simp only [res_bind_ok, writeStr_ok, writeU32, writeU64]
    simp [AT.emit]
  · intro hne
    have : OnlyPanics (x.writeInto h) := by
      unfold Section64.writeInto
      simp only [writeU32, writeU64]
      repeat first
        | exact OnlyPanics.emit _
        | refine OnlyPanics.bind (OnlyPanics.emit _) ?_
        | refine OnlyPanics.bind (OnlyPanics.str _ _) ?_
    exact this.resolve_left hne

/-- The set of attributes read back is the set written. -/
theorem C15_attrs_same_set (l : SectionAttrs) : (∀ a, a ∈ sortAttrs l ↔ a ∈ l) ∧ (sortAttrs l).Nodup := by
  refine ⟨fun a => by simp [sortAttrs, mem_allAttrs], ?_⟩
  exact List.Pairwise.filter _ (by decide)

/-- Names containing NUL do not survive: the rest of the name is lost. -/
theorem C15_nul_name_counterexample : ∃ x y : Section64, x ≠ y ∧
    (x.writeInto .little).res = .ok () ∧
    Section64.readFromIn .little (x.writeInto .little).out = .ok (y, []) ∧
    x.sectname ≠ y.sectname :=
  ⟨⟨['a', Char.ofNat 0, 'b'], str% "__TEXT", 0, 0, 0, 0, 0, 0, [], .regular, 0, 0, 0⟩,
   ⟨['a'], str% "__TEXT", 0, 0, 0, 0, 0, 0, [], .regular, 0, 0, 0⟩, by decide, by decide,
   by decide +kernel, by decide⟩

example : Section64.readFromIn .little (Section64.writeInto .little
    ⟨str% "__text", str% "__TEXT", 0, 16, 368, 0, 384, 1,
      [.someInstructions, .pureInstructions, .extReloc, .extReloc], .regular, 0, 0, 0⟩).out =
    .ok (⟨str% "__text", str% "__TEXT", 0, 16, 368, 0, 384, 1,
      [.extReloc, .someInstructions, .pureInstructions], .regular, 0, 0, 0⟩, []) := by
  decide +kernel

/-! ## C16 -/

/-- C16, symtab. -/
theorem C16_symtab_roundtrip (h : Endian) (x : SymtabCommand) (hc : x.cmd.toNat = 0x2)
    (hs : x.cmdsize.toNat = 24) (rest : Bytes) :
    (x.writeInto h).res = .ok () ∧
    SymtabCommand.readFromIn h ((x.writeInto h).out ++ rest) = .ok (x, rest) := by
  refine ⟨(symtab_writes h x).res, ?_⟩
  rw [(symtab_writes h x).out]
  exact (symtab_reads h x (UInt32.toNat.inj hc) (UInt32.toNat.inj hs)).ok rest

/-- C16, dysymtab. -/
theorem C16_dysymtab_roundtrip (h : Endian) (x : DysymtabCommand)
    (hc : x.cmd.toNat = 0xB) (hs : x.cmdsize.toNat = 80) (rest : Bytes) :
    (x.writeInto h).res = .ok () ∧
    DysymtabCommand.readFromIn h ((x.writeInto h).out ++ rest) = .ok (x, rest) := by
  refine ⟨(dysymtab_writes h x).res, ?_⟩
  rw [(dysymtab_writes h x).out]
  exact (dysymtab_reads h x (UInt32.toNat.inj hc) (UInt32.toNat.inj hs)).ok rest

/-- C16, build version. -/
theorem C16_build_version_roundtrip (bd : Build) (h : Endian) (x : BuildVersionCommand)
    (hc : x.cmd.toNat = 0x32) (hs : x.cmdsize.toNat = 24 + 8 * x.ntools.toNat)
    (rest : Bytes) :
    (x.writeInto h).res = .ok () ∧
    BuildVersionCommand.readFromIn bd h ((x.writeInto h).out ++ rest) = .ok (x, rest) := by
  refine ⟨(buildVersion_writes h x).res, ?_⟩
  rw [(buildVersion_writes h x).out]
  exact (buildVersion_reads bd h x (UInt32.toNat.inj hc) hs).ok rest

/-- C16, build tool version. -/
theorem C16_build_tool_roundtrip (h : Endian) (x : BuildToolVersion) (rest : Bytes) :
    (x.writeInto h).res = .ok () ∧
    BuildToolVersion.readFromIn h ((x.writeInto h).out ++ rest) = .ok (x, rest) := by
  refine ⟨(tool_writes h x).res, ?_⟩
  rw [(tool_writes h x).out]
  exact (tool_reads h x).ok rest

example : BuildVersionCommand.readFromIn .debug .big (BuildVersionCommand.writeInto .big
    ⟨0x32, 40, .macOS, ⟨10, 15, 4⟩, ⟨0xffff, 0xff, 0⟩, 2⟩).out =
    .ok (⟨0x32, 40, .macOS, ⟨10, 15, 4⟩, ⟨0xffff, 0xff, 0⟩, 2⟩, []) := by decide +kernel

/-! ## C17 -/

/-- A load command the format allows: type (`LC_*` of loader.h) and size fields agree with the contents, names fit. -/
def WellFormed : LoadCommand → Prop
  | .segment64 c sections => c.cmd.toNat = 0x19 ∧
      c.cmdsize.toNat = 72 + 80 * sections.length ∧ c.nsects.toNat = sections.length ∧
      NameFits 16 c.segname ∧ ∀ s ∈ sections, NameFits 16 s.sectname ∧ NameFits 16 s.segname
  | .symtab c => c.cmd.toNat = 0x2 ∧ c.cmdsize.toNat = 24
  | .dysymtab c => c.cmd.toNat = 0xB ∧ c.cmdsize.toNat = 80
  | .buildVersion c tools => c.cmd.toNat = 0x32 ∧
      c.cmdsize.toNat = 24 + 8 * tools.length ∧ c.ntools.toNat = tools.length

/-- The same load command with each section's attributes as an ordered set. -/
def withOrderedAttrs : LoadCommand → LoadCommand
  | .segment64 c sections =>
    .segment64 c (sections.map (fun s => { s with attrs := sortAttrs s.attrs }))
  | c => c

theorem LoadOk.of {c : LoadCommand} (h : WellFormed c) : LoadOk c := by
  cases c with
  | segment64 c s =>
    obtain ⟨h1, h2, h3, h4, h5⟩ := h
    exact ⟨UInt32.toNat.inj h1, by rw [h2, h3], NameOk.of h4, h3, fun x hx => ⟨NameOk.of (h5 x hx).1, NameOk.of (h5 x hx).2⟩⟩
  | symtab c => exact ⟨UInt32.toNat.inj h.1, UInt32.toNat.inj h.2⟩
  | dysymtab c => exact ⟨UInt32.toNat.inj h.1, UInt32.toNat.inj h.2⟩
  | buildVersion c t => exact ⟨UInt32.toNat.inj h.1, by rw [h.2.1, h.2.2], h.2.2⟩

theorem normLoad_eq (c : LoadCommand) : normLoad c = withOrderedAttrs c := by cases c <;> rfl

/-- C17.  Any well-formed load command, with any number of sections or tools, is read back by the
dispatching reader. -/
theorem C17_load_command_roundtrip (bd : Build) (h : Endian) (c : LoadCommand) (hc : WellFormed c)
    (rest : Bytes) :
    (c.writeInto h).res = .ok () ∧
    LoadCommand.readFromIn bd h ((c.writeInto h).out ++ rest) = .ok (withOrderedAttrs c, rest) := by
  have hw := load_writes h c (LoadOk.of hc)
  refine ⟨hw.res, ?_⟩
  rw [hw.out, (load_reads bd h c (LoadOk.of hc)).ok rest, normLoad_eq]

/-- C17.  Load commands written one after another are read back as that list. -/
theorem C17_load_commands_roundtrip (bd : Build) (h : Endian) (l : List LoadCommand)
    (hl : ∀ c ∈ l, WellFormed c) (rest : Bytes) :
    (forWr (LoadCommand.writeInto h) l).res = .ok () ∧
    readN (LoadCommand.readFromIn bd h) l.length ((forWr (LoadCommand.writeInto h) l).out ++ rest) =
      .ok (l.map withOrderedAttrs, rest) := by
  have hw := Writes.seq l (fun c hc => load_writes h c (LoadOk.of (hl c hc)))
  refine ⟨hw.res, ?_⟩
  rw [hw.out, (Reads.seq l (fun c hc => load_reads bd h c (LoadOk.of (hl c hc)))).ok rest]
  have : l.map normLoad = l.map withOrderedAttrs := List.map_congr_left (fun c _ => normLoad_eq c)
  rw [this]

example : WellFormed (.segment64 ⟨0x19, 232, [], 0, 64, 368, 64, 7, 7, 2, 0⟩
    [⟨str% "__text", str% "__TEXT", 0, 16, 368, 0, 384, 1, [.someInstructions], .regular, 0, 0, 0⟩,
     ⟨str% "__data", str% "__DATA", 16, 48, 384, 0, 0, 0, [], .regular, 0, 0, 0⟩]) := by
  refine ⟨by decide, by decide, by decide, ⟨by decide, by decide, by decide⟩, ?_⟩
  intro s hs
  simp only [List.mem_cons, List.not_mem_nil, or_false] at hs
  rcases hs with rfl | rfl <;> exact ⟨⟨by decide, by decide, by decide⟩, ⟨by decide, by decide, by decide⟩⟩

/-! ## C18 -/

/-- C18. -/
theorem C18_nlist_roundtrip (h : Endian) (x : NList64) (rest : Bytes) :
    (x.writeInto h).res = .ok () ∧ (x.writeInto h).out.length = 16 ∧
    NList64.readFromIn h ((x.writeInto h).out ++ rest) = .ok (x, rest) := by
  refine ⟨(nlist_writes h x).res, ?_, ?_⟩
  · rw [(nlist_writes h x).out, length_nlistBytes]
  · rw [(nlist_writes h x).out]
    exact (nlist_reads h x).ok rest

example : (NList64.writeInto .big ⟨1, .norm true .sect true, 1, 0x0102, 0x10⟩).out =
    [0, 0, 0, 1, 0x1f, 1, 1, 2, 0, 0, 0, 0, 0, 0, 0, 0x10] := by decide

/-! ## C19 -/

/-- C19 as stated ("for every relocation entry") is false; what holds: the round trip is exact for
exactly the entries whose symbol number fits 24 bits and whose type fits 4 bits. -/
theorem C19_reloc_roundtrip_partial (h : Endian) (x : RelocationInfo) (rest : Bytes) :
    (x.writeInto h).res = .ok () ∧
    (RelocationInfo.readFromIn h ((x.writeInto h).out ++ rest) = .ok (x, rest) ↔
      x.rSymbolnum.toNat < 2 ^ 24 ∧ x.rType.toNat < 16) := by
  refine ⟨(reloc_writes h x).res, ?_⟩
  rw [(reloc_writes h x).out]
  constructor
  · intro hr
    unfold RelocationInfo.readFromIn relocBytes at hr
    rw [rd_bind, List.append_assoc, (reads_i32 h x.rAddress).ok] at hr
    simp only at hr
    rw [rd_bind, (reads_u32 h _).ok] at hr
    simp only at hr
    cases hu : RelocationInfo.unpack h x.rAddress (x.pack h) with
    | error e => rw [hu] at hr; simp [Rd.lift, Except.map] at hr
    | ok y =>
      rw [hu] at hr
      simp only [Rd.lift, Except.map, Except.ok.injEq, Prod.mk.injEq, and_true] at hr
      subst hr
      exact reloc_unpack_fits hu
  · intro ⟨hs, ht⟩
    exact (reloc_reads h x hs ht).ok rest

/-- C19 is false: a symbol number of 2^24 comes back as 0 with the pc-relative bit set. -/
theorem C19_counterexample : ∃ x y : RelocationInfo, x ≠ y ∧
    (x.writeInto .little).res = .ok () ∧
    RelocationInfo.readFromIn .little (x.writeInto .little).out = .ok (y, []) :=
  ⟨⟨0, 2 ^ 24, false, .quad, true, 0⟩, ⟨0, 0, true, .quad, true, 0⟩, by decide, by decide,
    by decide +kernel⟩

example : RelocationInfo.readFromIn .big (RelocationInfo.writeInto .big
    ⟨-5, 0xabcdef, true, .long, true, 9⟩).out = .ok (⟨-5, 0xabcdef, true, .long, true, 9⟩, []) := by
  decide +kernel

/-! ## C20 -/

theorem forWr_ok {α : Type} (w : α → Wr Unit) (l : List α) (h : (forWr w l).res = .ok ()) :
    ∀ x ∈ l, (w x).res = .ok () := by
  induction l with
  | nil => simp
  | cons x l ih =>
    rw [forWr, res_bind_ok] at h
    intro y hy
    rcases List.mem_cons.1 hy with rfl | hy
    · exact h.1
    · exact ih h.2 y hy

theorem flatMap_length_const {α : Type} (f : α → Bytes) (l : List α) (n : Nat)
    (h : ∀ x ∈ l, (f x).length = n) : (l.flatMap f).length = n * l.length := by
  induction l with
  | nil => simp
  | cons x l ih =>
    rw [List.flatMap_cons, List.length_append, h x (by simp), ih (fun y hy => h y (by simp [hy])),
      List.length_cons, Nat.mul_succ]
    omega

theorem segment_size (h : Endian) (x : SegmentCommand64) (hr : (x.writeInto h).res = .ok ()) :
    (x.writeInto h).out.length = 72 := by
  obtain ⟨ha, hl⟩ := (C14_segment_write_ok_iff h x).1.1 hr
  rw [(segment_writes h x ((strIsAscii_iff _).2 ha) hl).out, length_segmentBytes h x hl]

theorem section_size (h : Endian) (x : Section64) (hr : (x.writeInto h).res = .ok ()) :
    (x.writeInto h).out.length = 80 := by
  obtain ⟨⟨ha, hl⟩, ha', hl'⟩ := (C15_section_write_ok_iff h x).1.1 hr
  rw [(section_writes h x ((strIsAscii_iff _).2 ha) hl ((strIsAscii_iff _).2 ha') hl').out,
    length_sectionBytes h x hl hl']

/-- C20, single structures: whatever is written without panicking has the declared size. -/
theorem C20_sizes (h : Endian) :
    (∀ x : Header64, (x.writeInto h).res = .ok () →
      (x.writeInto h).out.length = Header64.SIZE.toNat) ∧
    (∀ x : SegmentCommand64, (x.writeInto h).res = .ok () →
      (x.writeInto h).out.length = SegmentCommand64.SIZE.toNat) ∧
    (∀ x : Section64, (x.writeInto h).res = .ok () →
      (x.writeInto h).out.length = Section64.SIZE.toNat) ∧
    (∀ x : SymtabCommand, (x.writeInto h).res = .ok () →
      (x.writeInto h).out.length = SymtabCommand.SIZE.toNat) ∧
    (∀ x : DysymtabCommand, (x.writeInto h).res = .ok () →
      (x.writeInto h).out.length = DysymtabCommand.SIZE.toNat) ∧
    (∀ x : BuildVersionCommand, (x.writeInto h).res = .ok () →
      (x.writeInto h).out.length = BuildVersionCommand.SIZE.toNat) ∧
    (∀ x : BuildToolVersion, (x.writeInto h).res = .ok () →
      (x.writeInto h).out.length = BuildToolVersion.SIZE.toNat) ∧
    (∀ x : NList64, (x.writeInto h).res = .ok () →
      (x.writeInto h).out.length = NList64.SIZE.toNat) ∧
    (∀ x : RelocationInfo, (x.writeInto h).res = .ok () →
      (x.writeInto h).out.length = RelocationInfo.SIZE.toNat) := by
  refine ⟨fun x _ => ?_, fun x hx => segment_size h x hx, fun x hx => section_size h x hx,
    fun x _ => ?_, fun x _ => ?_, fun x _ => ?_, fun x _ => ?_, fun x _ => ?_, fun x _ => ?_⟩
  · rw [(header_writes h x).out, length_headerBytes]; rfl
  · rw [(symtab_writes h x).out, length_symtabBytes]; rfl
  · rw [(dysymtab_writes h x).out, length_dysymtabBytes]; rfl
  · rw [(buildVersion_writes h x).out, length_buildVersionBytes]; rfl
  · rw [(tool_writes h x).out, length_toolBytes]; rfl
  · rw [(nlist_writes h x).out, length_nlistBytes]; rfl
  · rw [(reloc_writes h x).out, length_relocBytes]; rfl

/-- Number of bytes of a load command with its sections or tools. -/
def loadSize : LoadCommand → Nat
  | .segment64 _ sections => 72 + 80 * sections.length
  | .symtab _ => 24
  | .dysymtab _ => 80
  | .buildVersion _ tools => 24 + 8 * tools.length

theorem writes_self {w : Wr Unit} (h : w.res = .ok ()) : Writes w w.out := ⟨h, rfl⟩

/-- C20, load commands (well-formed or not): the fixed part plus 80 bytes per section or 8 per
tool. -/
theorem C20_load_command_size (h : Endian) (c : LoadCommand) (hr : (c.writeInto h).res = .ok ()) :
    (c.writeInto h).out.length = loadSize c := by
  cases c with
  | segment64 c s =>
    rw [LoadCommand.writeInto, res_bind_ok] at hr
    have h2 := forWr_ok _ _ hr.2
    have hw := Writes.bind (writes_self hr.1) (Writes.seq s (fun x hx => writes_self (h2 x hx)))
    rw [LoadCommand.writeInto, hw.out, List.length_append, segment_size h c hr.1,
      flatMap_length_const _ _ 80 (fun x hx => section_size h x (h2 x hx)), loadSize]
  | symtab c => exact (C20_sizes h).2.2.2.1 c hr
  | dysymtab c => exact (C20_sizes h).2.2.2.2.1 c hr
  | buildVersion c t =>
    rw [LoadCommand.writeInto, res_bind_ok] at hr
    have h2 := forWr_ok _ _ hr.2
    have hw := Writes.bind (writes_self hr.1) (Writes.seq t (fun x hx => writes_self (h2 x hx)))
    rw [LoadCommand.writeInto, hw.out, List.length_append, (C20_sizes h).2.2.2.2.2.1 c hr.1,
      flatMap_length_const _ _ 8 (fun x hx => (C20_sizes h).2.2.2.2.2.2.1 x (h2 x hx)), loadSize]
    rfl

/-! ## C21 -/

/-- C21, single structures: from fewer bytes than its size a structure is never read; the reader
panics. -/
theorem C21_short_input_panics (bd : Build) (e : Endian) (s : Bytes) :
    (s.length < 32 → Header64.readFrom e s = .error .panic) ∧
    (s.length < 72 → SegmentCommand64.readFromIn bd e s = .error .panic) ∧
    (s.length < 80 → Section64.readFromIn e s = .error .panic) ∧
    (s.length < 24 → SymtabCommand.readFromIn e s = .error .panic) ∧
    (s.length < 80 → DysymtabCommand.readFromIn e s = .error .panic) ∧
    (s.length < 24 → BuildVersionCommand.readFromIn bd e s = .error .panic) ∧
    (s.length < 8 → BuildToolVersion.readFromIn e s = .error .panic) ∧
    (s.length < 16 → NList64.readFromIn e s = .error .panic) ∧
    (s.length < 8 → RelocationInfo.readFromIn e s = .error .panic) :=
  ⟨(header_fixed e).short s, (segment_fixed bd e).short s, (section_fixed e).short s,
   (symtab_fixed e).short s, (dysymtab_fixed e).short s, (buildVersion_fixed bd e).short s,
   (tool_fixed e).short s, (nlist_fixed e).short s, (reloc_fixed e).short s⟩

/-- C21, load commands: every strict prefix of the bytes of a well-formed load command makes the
dispatching reader panic. -/
theorem C21_truncated_load_command_panics (bd : Build) (h : Endian) (c : LoadCommand)
    (hc : WellFormed c) (k : Nat) (hk : k < (c.writeInto h).out.length) :
    LoadCommand.readFromIn bd h ((c.writeInto h).out.take k) = .error .panic := by
  have hw := load_writes h c (LoadOk.of hc)
  rw [hw.out] at hk ⊢
  exact (load_reads bd h c (LoadOk.of hc)).short k hk

theorem Fixed.readN {α : Type} {r : Rd α} {k : Nat} (h : Fixed r k) (n : Nat) :
    Fixed (readN r n) (k * n) := by
  induction n with
  | zero => exact Fixed.pure _
  | succ n ih =>
    refine Fixed.cast (Fixed.bind h fun x => Fixed.bind ih fun xs => Fixed.pure _) ?_
    rw [Nat.mul_succ]; omega

theorem dispatch_consumes (bd : Build) (e : Endian) (cmd : UInt32) (s s' : Bytes) (c : LoadCommand)
    (h : dispatch bd e cmd s = .ok (c, s')) : loadSize c ≤ s.length ∧ s' = s.drop (loadSize c) := by
  unfold dispatch at h
  split at h
  · rw [rd_bind] at h
    cases hs : SegmentCommand64.readFromIn bd e s with
    | error x => rw [hs] at h; simp at h
    | ok p =>
      rw [hs] at h
      simp only at h
      rw [rd_bind] at h
      cases hn : readN (Section64.readFromIn e) p.1.nsects.toNat p.2 with
      | error x => rw [hn] at h; simp at h
      | ok q =>
        rw [hn] at h
        cases h
        have h1 := (segment_fixed bd e).ok s p.1 p.2 hs
        have h2 := (Fixed.readN (section_fixed e) _).ok _ q.1 q.2 hn
        have h3 := readN_length _ _ _ _ _ hn
        rw [h1.2, List.length_drop, List.drop_drop] at h2
        simp only [loadSize]
        rw [h3]
        exact ⟨by omega, by rw [h2.2]⟩
  · split at h
    · rw [rd_bind] at h
      cases hs : SymtabCommand.readFromIn e s with
      | error x => rw [hs] at h; simp at h
      | ok p =>
        rw [hs] at h
        cases h
        exact (symtab_fixed e).ok s p.1 p.2 hs
    · split at h
      · rw [rd_bind] at h
        cases hs : DysymtabCommand.readFromIn e s with
        | error x => rw [hs] at h; simp at h
        | ok p =>
          rw [hs] at h
          cases h
          exact (dysymtab_fixed e).ok s p.1 p.2 hs
      · split at h
        · rw [rd_bind] at h
          cases hs : BuildVersionCommand.readFromIn bd e s with
          | error x => rw [hs] at h; simp at h
          | ok p =>
            rw [hs] at h
            simp only at h
            rw [rd_bind] at h
            cases hn : readN (BuildToolVersion.readFromIn e) p.1.ntools.toNat p.2 with
            | error x => rw [hn] at h; simp at h
            | ok q =>
              rw [hn] at h
              cases h
              have h1 := (buildVersion_fixed bd e).ok s p.1 p.2 hs
              have h2 := (Fixed.readN (tool_fixed e) _).ok _ q.1 q.2 hn
              have h3 := readN_length _ _ _ _ _ hn
              rw [h1.2, List.length_drop, List.drop_drop] at h2
              simp only [loadSize]
              rw [h3]
              exact ⟨by omega, by rw [h2.2]⟩
        · simp [Rd.lift, Except.map] at h

/-- C21, any input: a load command that is returned was completely present in the input, and
exactly its bytes were consumed. -/
theorem C21_load_command_consumes (bd : Build) (e : Endian) (s s' : Bytes) (c : LoadCommand)
    (h : LoadCommand.readFromIn bd e s = .ok (c, s')) :
    loadSize c ≤ s.length ∧ s' = s.drop (loadSize c) := by
  rw [load_readFromIn, rd_bind] at h
  have hk : Wp (readU32 e) s (fun n s1 => s = intBytes e 4 n.toNat ++ s1) := by
    have : Wp (readU32 e >>= pure) s (fun n s1 => s = intBytes e 4 n.toNat ++ s1) :=
      Wp.u32 fun n s1 h1 => Wp.pure h1
    rwa [bind_pure] at this
  cases hu : readU32 e s with
  | error x => rw [hu] at h; simp at h
  | ok p =>
    have hp := hk p.1 p.2 hu
    rw [hu] at h
    simp only at h
    rw [rd_bind] at h
    simp only [unread] at h
    rw [← hp] at h
    exact dispatch_consumes bd e _ _ _ _ h

example : LoadCommand.readFromIn .release .little ((LoadCommand.writeInto .little
    (.symtab ⟨2, 24, 400, 3, 448, 17⟩)).out.take 23) = .error .panic := by decide +kernel

/-! ## C22 -/

/-- All strings pushed, in order, onto a fresh table. -/
def pushAll (l : List Str) : Res StringTable :=
  l.foldlM (fun t s => t.pushWithNull s) StringTable.withNull

/-- Offset at which the string after the ones in `l` is pushed. -/
def nextOffset (l : List Str) : Nat := 1 + (l.map (fun s => s.length + 1)).sum

/-- ASCII without NUL. -/
def Plain (s : Str) : Prop := ∀ c ∈ s, c.toNat < 128 ∧ c.toNat ≠ 0

theorem Plain.spec {s : Str} (h : Plain s) : strIsAscii s = true ∧ Char.ofNat 0 ∉ s :=
  ⟨(strIsAscii_iff s).2 fun c hc => (h c hc).1, fun hm => (h _ hm).2 (by decide)⟩

/-- C22.  After any pushes of plain strings onto `with_null()`: the length is `1 + Σ (len + 1)`,
`get(0)` is empty, `get` at the offset of each push is the pushed string, and `iter` lists the
pushed strings followed by one empty string. -/
theorem C22_string_table (l : List Str) (hl : ∀ s ∈ l, Plain s) :
    ∃ t, pushAll l = .ok t ∧ t.len = nextOffset l ∧ t.get 0 = .ok [] ∧
      (∀ before s after, l = before ++ s :: after → t.get (nextOffset before) = .ok s) ∧
      t.iter = .ok (l ++ [[]]) := by
  refine ⟨⟨0 :: cstrs l⟩, ?_, ?_, ?_, ?_, ?_⟩
  · rw [pushAll, pushAll_ok l _ (fun s hs => (hl s hs).spec.1)]
    rfl
  · simp only [StringTable.len, nextOffset, List.length_cons, length_cstrs]
    omega
  · exact get_at [] (cstrs l) [] rfl (by simp)
  · intro b s a h
    subst h
    have hs := (hl s (by simp)).spec
    have := get_at (0 :: cstrs b) (cstrs a) s hs.1 hs.2
    rw [List.length_cons, length_cstrs] at this
    rw [nextOffset, Nat.add_comm, cstrs_append, cstrs_cons]
    simpa using this
  · exact iter_cstrs l (fun s hs => (hl s hs).spec)

/-- C22.  Pushing any string with a non-ASCII char panics. -/
theorem C22_non_ascii_panics (l : List Str) (s : Str) (hs : s ∈ l) (c : Char) (hc : c ∈ s)
    (h : 128 ≤ c.toNat) : pushAll l = .error .panic := by
  apply pushAll_panic
  intro hall
  have := (strIsAscii_iff s).1 (hall s hs) c hc
  omega

example : ∃ t, pushAll [str% "_main", [], str% "x"] = .ok t ∧ t.get 1 = .ok (str% "_main") ∧
    t.get 7 = .ok [] ∧ t.get 8 = .ok (str% "x") ∧ t.len = 10 :=
  ⟨⟨[0, 95, 109, 97, 105, 110, 0, 0, 120, 0]⟩, by decide +kernel, by decide +kernel,
    by decide +kernel, by decide +kernel, by decide⟩

/-! ## C23 -/

/-- C23, header flags: exactly the words made of known bits are accepted, others panic. -/
theorem C23_flags_accepted (n : UInt32) :
    ((∃ l, Flags.fromU32 n = .ok l) ↔ ∀ i, n.toNat.testBit i = true → ∃ f, flagBit f = i) ∧
    ((∀ l, Flags.fromU32 n ≠ .ok l) → Flags.fromU32 n = .error .panic) := by
  have hbit : ∀ i, n.toNat.testBit i = true → i < 32 := by
    intro i hi
    by_cases h : i < 32
    · exact h
    · rw [Nat.testBit_lt_two_pow (Nat.lt_of_lt_of_le n.toNat_lt (Nat.pow_le_pow_right (by omega) (by omega)))] at hi
      simp at hi
  rw [flags_fromU32]
  constructor
  · constructor
    · intro ⟨l, hl⟩ i hi
      split at hl
      · rename_i hk; exact hk i (hbit i hi) hi
      · simp at hl
    · intro hk
      exact ⟨_, if_pos (fun i _ hi => hk i hi)⟩
  · intro hne
    by_cases hk : ∀ i < 32, n.toBitVec.getLsbD i = true → ∃ f, flagBit f = i
    · exact absurd (if_pos hk) (hne _)
    · exact if_neg hk

/-- C23, section attributes: only bits 8-31 matter; exactly the words whose bits there are known
are accepted, others panic. -/
theorem C23_attrs_accepted (n : UInt32) :
    ((∃ l, SectionAttrs.fromU32 n = .ok l) ↔
      ∀ i, 8 ≤ i → n.toNat.testBit i = true → ∃ a, attrBit a = i) ∧
    ((∀ l, SectionAttrs.fromU32 n ≠ .ok l) → SectionAttrs.fromU32 n = .error .panic) := by
  have hbit : ∀ i, n.toNat.testBit i = true → i < 32 := by
    intro i hi
    by_cases h : i < 32
    · exact h
    · rw [Nat.testBit_lt_two_pow (Nat.lt_of_lt_of_le n.toNat_lt (Nat.pow_le_pow_right (by omega) (by omega)))] at hi
      simp at hi
  rw [attrs_fromU32]
  constructor
  · constructor
    · intro ⟨l, hl⟩ i h8 hi
      split at hl
      · rename_i hk; exact hk i h8 (hbit i hi) hi
      · simp at hl
    · intro hk
      exact ⟨_, if_pos (fun i h8 _ hi => hk i h8 hi)⟩
  · intro hne
    by_cases hk : ∀ i, 8 ≤ i → i < 32 → n.toBitVec.getLsbD i = true → ∃ f, attrBit f = i
    · exact absurd (if_pos hk) (hne _)
    · exact if_neg hk

/-- C23.  Words survive: an accepted flag word is reproduced; of an accepted section word the
attribute bits 8-31 are reproduced. -/
theorem C23_words_survive (n : UInt32) :
    (∀ l, Flags.fromU32 n = .ok l → l.toU32 = n) ∧
    (∀ l, SectionAttrs.fromU32 n = .ok l → l.toU32.toNat = n.toNat - n.toNat % 256) := by
  refine ⟨fun l hl => flags_toU32_fromU32 hl, fun l hl => ?_⟩
  rw [attrs_toU32_fromU32 hl]
  have h1 := shr_and n 0xFFFFFF00 8 24 (by omega) (by decide)
  apply Nat.eq_of_testBit_eq
  intro i
  have e : n.toNat - n.toNat % 256 = 2 ^ 8 * (n.toNat / 2 ^ 8) := by omega
  rw [e, UInt32.toNat_and, Nat.testBit_and, Nat.testBit_two_pow_mul, Nat.testBit_div_two_pow]
  by_cases h8 : 8 ≤ i
  · have e2 : i - 8 + 8 = i := by omega
    rw [e2, decide_eq_true h8]
    by_cases h32 : i < 32
    · rw [(by decide : ∀ i < 32, 8 ≤ i → SectionAttrs.BIT_MASK.toNat.testBit i = true) i h32 h8]
      simp
    · rw [Nat.testBit_lt_two_pow (Nat.lt_of_lt_of_le n.toNat_lt (Nat.pow_le_pow_right (by omega) (by omega)))]
      simp
  · rw [(by decide : ∀ i < 8, SectionAttrs.BIT_MASK.toNat.testBit i = false) i (by omega)]
    simp [h8]

/-- C23.  Lists survive as sets: `from_u32(to_u32(l))` has exactly the members of `l`, once each,
in increasing bit order. -/
theorem C23_sets_survive :
    (∀ l : Flags, ∃ m, Flags.fromU32 l.toU32 = .ok m ∧ (∀ f, f ∈ m ↔ f ∈ l) ∧
      m.Pairwise (fun f g => flagBit f < flagBit g)) ∧
    (∀ l : SectionAttrs, ∃ m, SectionAttrs.fromU32 l.toU32 = .ok m ∧ (∀ a, a ∈ m ↔ a ∈ l) ∧
      m.Pairwise (fun a b => attrBit a < attrBit b)) := by
  refine ⟨fun l => ⟨_, flags_fromU32_toU32 l, fun f => by simp [sortFlags, mem_allFlags], ?_⟩,
    fun l => ⟨_, attrs_fromU32_toU32 l, fun f => by simp [sortAttrs, mem_allAttrs], ?_⟩⟩
  · exact List.Pairwise.filter _ (by decide)
  · exact List.Pairwise.filter _ (by decide)

example : Flags.fromU32 0x2001 = .ok [.noUndefs, .subsectionsViaSymbols] ∧
    Flags.fromU32 0x40 = .error .panic ∧ SectionAttrs.fromU32 0x80000400 =
      .ok [.someInstructions, .pureInstructions] := by decide +kernel

/-! ## C24 -/

/-- C24.  Whatever is read, the type and size fields of a returned command are consistent (in a
release build the size check is modulo 2^32). -/
theorem C24_readers_reject_inconsistent (bd : Build) (e : Endian) (s s' : Bytes) :
    (∀ c, SegmentCommand64.readFromIn bd e s = .ok (c, s') →
      c.cmd.toNat = 0x19 ∧ c.cmdsize.toNat = (72 + 80 * c.nsects.toNat) % 2 ^ 32 ∧
      (bd = .debug → c.cmdsize.toNat = 72 + 80 * c.nsects.toNat)) ∧
    (∀ c, SymtabCommand.readFromIn e s = .ok (c, s') → c.cmd.toNat = 2 ∧ c.cmdsize.toNat = 24) ∧
    (∀ c, DysymtabCommand.readFromIn e s = .ok (c, s') → c.cmd.toNat = 0xB ∧ c.cmdsize.toNat = 80) ∧
    (∀ c, BuildVersionCommand.readFromIn bd e s = .ok (c, s') →
      c.cmd.toNat = 0x32 ∧ c.cmdsize.toNat = (24 + 8 * c.ntools.toNat) % 2 ^ 32 ∧
      (bd = .debug → c.cmdsize.toNat = 24 + 8 * c.ntools.toNat)) := by
  refine ⟨fun c h => ?_, fun c h => ?_, fun c h => ?_, fun c h => ?_⟩
  · obtain ⟨h1, h2, h3⟩ := segment_post bd e s c s' h
    refine ⟨by rw [h1]; rfl, ?_, h3⟩
    rw [← h2, Nat.mod_eq_of_lt c.cmdsize.toNat_lt]
  · obtain ⟨h1, h2⟩ := symtab_post e s c s' h
    exact ⟨by rw [h1]; rfl, by rw [h2]; rfl⟩
  · obtain ⟨h1, h2⟩ := dysymtab_post e s c s' h
    exact ⟨by rw [h1]; rfl, by rw [h2]; rfl⟩
  · obtain ⟨h1, h2, h3⟩ := buildVersion_post bd e s c s' h
    refine ⟨by rw [h1]; rfl, ?_, h3⟩
    rw [← h2, Nat.mod_eq_of_lt c.cmdsize.toNat_lt]

/-- In a release build the size check really is only modulo 2^32: a command claiming 2^28 sections
in 72 bytes is accepted. -/
theorem C24_release_wraps : ∃ s c, SegmentCommand64.readFromIn .release .little s = .ok (c, []) ∧
    c.cmdsize.toNat = 72 ∧ c.nsects.toNat = 2 ^ 28 :=
  ⟨(SegmentCommand64.writeInto .little ⟨0x19, 72, [], 0, 0, 0, 0, 0, 0, 0x10000000, 0⟩).out,
   ⟨0x19, 72, [], 0, 0, 0, 0, 0, 0, 0x10000000, 0⟩, by decide +kernel, by decide, by decide⟩

example : SegmentCommand64.readFromIn .debug .little
    (SegmentCommand64.writeInto .little ⟨0x19, 73, [], 0, 0, 0, 0, 0, 0, 0, 0⟩).out
      = .error .panic := by decide +kernel

/-! ## C58 -/

/-- C58.  Every structure is laid out as the Mach-O headers document: wherever its bytes are placed
in a file, each field is found at its documented offset, in the host's byte order, with the
documented numeric code. -/
theorem C58_layout (h : Endian) (before after : Bytes) :
    (∀ x : Header64, HasFields h (before ++ ((x.writeInto h).out ++ after)) before.length
      (headerFields x)) ∧
    (∀ x : SegmentCommand64, (x.writeInto h).res = .ok () →
      HasFields h (before ++ ((x.writeInto h).out ++ after)) before.length (segmentFields x)) ∧
    (∀ x : Section64, (x.writeInto h).res = .ok () →
      HasFields h (before ++ ((x.writeInto h).out ++ after)) before.length (sectionFields x)) ∧
    (∀ x : SymtabCommand, HasFields h (before ++ ((x.writeInto h).out ++ after)) before.length
      (symtabFields x)) ∧
    (∀ x : DysymtabCommand, HasFields h (before ++ ((x.writeInto h).out ++ after)) before.length
      (dysymtabFields x)) ∧
    (∀ x : BuildVersionCommand, HasFields h (before ++ ((x.writeInto h).out ++ after)) before.length
      (buildVersionFields x)) ∧
    (∀ x : BuildToolVersion, HasFields h (before ++ ((x.writeInto h).out ++ after)) before.length
      (toolFields x)) ∧
    (∀ x : NList64, HasFields h (before ++ ((x.writeInto h).out ++ after)) before.length
      (nlistFields x)) ∧
    (∀ x : RelocationInfo, x.rSymbolnum.toNat < 2 ^ 24 → x.rType.toNat < 16 →
      HasFields h (before ++ ((x.writeInto h).out ++ after)) before.length (relocFields h x)) := by
  refine ⟨fun x => ?_, fun x hx => ?_, fun x hx => ?_, fun x => ?_, fun x => ?_, fun x => ?_,
    fun x => ?_, fun x => ?_, fun x hs ht => ?_⟩
  · rw [(header_writes h x).out]
    exact hasFields_image (header_image h x).1 (header_image h x).2 _ _
  · obtain ⟨ha, hl⟩ := (C14_segment_write_ok_iff h x).1.1 hx
    rw [(segment_writes h x ((strIsAscii_iff _).2 ha) hl).out]
    exact hasFields_image (segment_image h x hl).1 (segment_image h x hl).2 _ _
  · obtain ⟨⟨ha, hl⟩, ha', hl'⟩ := (C15_section_write_ok_iff h x).1.1 hx
    rw [(section_writes h x ((strIsAscii_iff _).2 ha) hl ((strIsAscii_iff _).2 ha') hl').out]
    exact hasFields_image (section_image h x hl hl').1 (section_image h x hl hl').2 _ _
  · rw [(symtab_writes h x).out]
    exact hasFields_image (symtab_image h x).1 (symtab_image h x).2 _ _
  · rw [(dysymtab_writes h x).out]
    exact hasFields_image (dysymtab_image h x).1 (dysymtab_image h x).2 _ _
  · rw [(buildVersion_writes h x).out]
    exact hasFields_image (buildVersion_image h x).1 (buildVersion_image h x).2 _ _
  · rw [(tool_writes h x).out]
    exact hasFields_image (tool_image h x).1 (tool_image h x).2 _ _
  · rw [(nlist_writes h x).out]
    exact hasFields_image (nlist_image h x).1 (nlist_image h x).2 _ _
  · rw [(reloc_writes h x).out]
    exact hasFields_image (reloc_image h x hs ht).1 (reloc_image h x hs ht).2 _ _

/-- A concrete relocation entry, byte for byte (x86-64 `ld` would read address 2, symbol 1,
external, 8 bytes, `X86_64_RELOC_UNSIGNED`). -/
example : (RelocationInfo.writeInto .little ⟨2, 1, false, .quad, true, 0⟩).out =
    [2, 0, 0, 0, 1, 0, 0, 0x0e] := by decide

/-- C17.  `cmd()` and `cmd_size()` of a well-formed load command are the two numbers at the start of
its bytes, and `cmd_size()` is the number of bytes written. -/
theorem C17_load_command_fields (h : Endian) (c : LoadCommand) (hc : WellFormed c) :
    numAt h (c.writeInto h).out 0 4 = some c.cmd.toNat ∧
    numAt h (c.writeInto h).out 4 4 = some c.cmdSize.toNat ∧
    (c.writeInto h).out.length = c.cmdSize.toNat := by
  have hr := (C17_load_command_roundtrip .debug h c hc []).1
  have hl := C20_load_command_size h c hr
  have take0 : ∀ {f : Bytes} {l : List Field}, HasFields h ([] ++ (f ++ [])) 0 l → HasFields h f 0 l := by
    intro f l hf
    simpa using hf
  have first : ∀ {f : Bytes} {a b : Nat} {l : List Field},
      HasFields h f 0 (.num 0 4 a :: .num 4 4 b :: l) → numAt h f 0 4 = some a ∧ numAt h f 4 4 = some b := by
    intro f a b l hf
    exact ⟨by simpa [Field.holds] using hf _ (List.mem_cons_self ..),
      by simpa [Field.holds] using hf _ (List.mem_cons_of_mem _ (List.mem_cons_self ..))⟩
  obtain ⟨_, l1, _, l3, l4, l5, _⟩ := C58_layout h [] []
  cases c with
  | segment64 x ss =>
    rw [LoadCommand.writeInto, res_bind_ok] at hr
    have hw := Writes.bind (writes_self hr.1) (writes_self hr.2)
    obtain ⟨_, k1, _⟩ := C58_layout h [] (forWr (Section64.writeInto h) ss).out
    have := k1 x hr.1
    rw [List.nil_append] at this
    have := first this
    refine ⟨?_, ?_, ?_⟩
    · rw [LoadCommand.writeInto, hw.out]; exact this.1
    · rw [LoadCommand.writeInto, hw.out]; exact this.2
    · rw [hl]; exact hc.2.1.symm
  | symtab x => exact ⟨(first (take0 (l3 x))).1, (first (take0 (l3 x))).2, hl.trans hc.2.symm⟩
  | dysymtab x => exact ⟨(first (take0 (l4 x))).1, (first (take0 (l4 x))).2, hl.trans hc.2.symm⟩
  | buildVersion x ts =>
    rw [LoadCommand.writeInto, res_bind_ok] at hr
    have hw := Writes.bind (writes_self hr.1) (writes_self hr.2)
    obtain ⟨_, _, _, _, _, k1, _⟩ := C58_layout h [] (forWr (BuildToolVersion.writeInto h) ts).out
    have := k1 x
    rw [List.nil_append] at this
    have := first this
    refine ⟨?_, ?_, ?_⟩
    · rw [LoadCommand.writeInto, hw.out]; exact this.1
    · rw [LoadCommand.writeInto, hw.out]; exact this.2
    · rw [hl]; exact hc.2.1.symm

/-! ## C59 -/

/-- C59.  Reading a structure and writing it back reproduces the bytes that were read: header (same
byte order as the host), symtab, dysymtab, build version and tool, relocation entry, and symbol
entry other than a debugging entry. -/
theorem C59_rewrite_exact (bd : Build) (h : Endian) (s s' : Bytes) :
    (∀ x, Header64.readFrom h s = .ok ((x, h), s') → (x.writeInto h).out ++ s' = s) ∧
    (∀ x, SymtabCommand.readFromIn h s = .ok (x, s') → (x.writeInto h).out ++ s' = s) ∧
    (∀ x, DysymtabCommand.readFromIn h s = .ok (x, s') → (x.writeInto h).out ++ s' = s) ∧
    (∀ x, BuildVersionCommand.readFromIn bd h s = .ok (x, s') → (x.writeInto h).out ++ s' = s) ∧
    (∀ x, BuildToolVersion.readFromIn h s = .ok (x, s') → (x.writeInto h).out ++ s' = s) ∧
    (∀ x, RelocationInfo.readFromIn h s = .ok (x, s') → (x.writeInto h).out ++ s' = s) ∧
    (∀ x, NList64.readFromIn h s = .ok (x, s') → (∀ d, x.nType ≠ .stab d) →
      (x.writeInto h).out ++ s' = s) := by
  refine ⟨fun x hx => ?_, fun x hx => ?_, fun x hx => ?_, fun x hx => ?_, fun x hx => ?_,
    fun x hx => ?_, fun x hx hd => ?_⟩
  · rw [(header_writes h x).out]; exact header_canon h s _ _ hx rfl
  · rw [(symtab_writes h x).out]; exact symtab_canon h s _ _ hx
  · rw [(dysymtab_writes h x).out]; exact dysymtab_canon h s _ _ hx
  · rw [(buildVersion_writes h x).out]; exact buildVersion_canon bd h s _ _ hx
  · rw [(tool_writes h x).out]; exact tool_canon h s _ _ hx
  · rw [(reloc_writes h x).out]; exact reloc_canon h s _ _ hx
  · rw [(nlist_writes h x).out]; exact nlist_canon h s _ _ hx hd

theorem bytesAt_eq {s b : Bytes} {o n : Nat} (h : bytesAt s o n = some b) :
    (s.drop o).take n = b := by
  unfold bytesAt at h
  split at h
  · exact Option.some.inj h
  · simp at h

/-- C59, segment and section headers: exact when the name fields hold NUL-padded ASCII names. -/
theorem C59_rewrite_exact_named (bd : Build) (h : Endian) (s s' : Bytes) (a b : Str)
    (ha : NameFits 16 a) (hb : NameFits 16 b) :
    (∀ x, bytesAt s 8 16 = some (nameField 16 a) →
      SegmentCommand64.readFromIn bd h s = .ok (x, s') →
      (x.writeInto h).res = .ok () ∧ (x.writeInto h).out ++ s' = s) ∧
    (∀ x, bytesAt s 0 16 = some (nameField 16 a) → bytesAt s 16 16 = some (nameField 16 b) →
      Section64.readFromIn h s = .ok (x, s') →
      (x.writeInto h).res = .ok () ∧ (x.writeInto h).out ++ s' = s) := by
  constructor
  · intro x h1 hx
    obtain ⟨hn, hc⟩ := segment_canon bd h s a (NameOk.of ha) (bytesAt_eq h1) _ _ hx
    have hw := segment_writes h x (hn ▸ (NameOk.of ha).ascii) (hn ▸ ha.len)
    exact ⟨hw.res, by rw [hw.out, hc]⟩
  · intro x h1 h2 hx
    have h1' := bytesAt_eq h1
    rw [List.drop_zero] at h1'
    obtain ⟨hn, hn', hc⟩ := section_canon h s a b (NameOk.of ha) (NameOk.of hb) h1'
      (bytesAt_eq h2) _ _ hx
    have hw := section_writes h x (hn ▸ (NameOk.of ha).ascii) (hn ▸ ha.len)
      (hn' ▸ (NameOk.of hb).ascii) (hn' ▸ hb.len)
    exact ⟨hw.res, by rw [hw.out, hc]⟩

/-- A debugging entry is not reproduced: only the stab bits of its type byte are kept. -/
theorem C59_stab_counterexample : ∃ (s : Bytes) (x : NList64),
    NList64.readFromIn .little s = .ok (x, []) ∧ (x.writeInto .little).out ≠ s :=
  ⟨[1, 0, 0, 0, 0x24, 1, 0, 0, 0, 0, 0, 0, 0, 0, 0, 0], ⟨1, .stab .gsym, 1, 0, 0⟩,
    by decide +kernel, by decide⟩

example : ∃ x, NList64.readFromIn .little
    [1, 0, 0, 0, 0x0f, 1, 0, 0, 0x10, 0, 0, 0, 0, 0, 0, 0] = .ok (x, []) ∧
    x.nType = .norm false .sect true := ⟨⟨1, .norm false .sect true, 1, 0, 0x10⟩, by decide +kernel, rfl⟩

end AT.Props
