import Verif.Proofs.MacStructs
import Verif.Proofs.MacFlags
import Verif.Proofs.MacBits
/-!
# What the at-mac readers do on the byte images, and on arbitrary input
-/

namespace AT.Mac
open AT.MachO

theorem fileType_dec (t : FileType) : FileType.fromU32? t.toU32 = some t := by
  cases t <;> decide
theorem platform_dec (t : Platform) : Platform.fromU32? t.toU32 = some t := by
  cases t <;> decide
theorem tool_dec (t : Tool) : Tool.fromU32? t.toU32 = some t := by cases t <;> decide
theorem cpu_dec (c : CpuType) : CpuType.fromI32I32 c.toI32I32.1 c.toI32I32.2 = .ok c := by
  rcases c with ⟨⟨⟩⟩ | ⟨⟨⟩⟩ <;> decide

theorem runwrap_some {α : Type} {o : Option α} {x : α} (h : o = some x) : runwrap o = .ok x := by
  subst h; rfl

/-- The magic number a reader sees when its byte order differs from the writer's. -/
def Magic.swap : Magic → Magic
  | .magic64 => .cigam64
  | .cigam64 => .magic64
  | .magic => .cigam
  | .cigam => .magic
  | .fatMagic => .fatCigam
  | .fatCigam => .fatMagic

/-- The magic number of a file written on host `hw`, seen on host `hr`. -/
def Magic.seen (hw hr : Endian) (m : Magic) : Magic := if hw = hr then m else m.swap

theorem reads_u32_raw (hr : Endian) (b : Bytes) (hb : b.length = 4) :
    Reads (readU32 hr) b (UInt32.ofNat (intVal hr b)) :=
  reads_pure_bytes (fun b => UInt32.ofNat (intVal hr b)) hb

theorem magic_seen (hw hr : Endian) (m : Magic) :
    Reads (readU32 hr) (intBytes hw 4 m.toU32.toNat) (m.seen hw hr).toU32 := by
  have h := reads_u32_raw hr (intBytes hw 4 m.toU32.toNat) (length_intBytes _ _ _)
  have e : UInt32.ofNat (intVal hr (intBytes hw 4 m.toU32.toNat)) = (m.seen hw hr).toU32 := by
    cases hw <;> cases hr <;> cases m <;> decide
  rwa [e] at h

theorem magic_dec (m : Magic) : Magic.fromU32? m.toU32 = some m := by cases m <;> decide

theorem magic_endian (hw hr : Endian) (m : Magic) (hm : m = .magic64 ∨ m = .magic) :
    (m.seen hw hr).endian hr = .ok hw := by
  rcases hm with rfl | rfl <;> cases hw <;> cases hr <;> rfl

theorem header_reads (hw hr : Endian) (x : Header64) (hm : x.magic = .magic64 ∨ x.magic = .magic) :
    Reads (Header64.readFrom hr) (headerBytes hw x)
      ({ x with magic := x.magic.seen hw hr, flags := sortFlags x.flags }, hw) := by
  unfold Header64.readFrom headerBytes
  refine Reads.bind (magic_seen hw hr x.magic) ?_
  refine Reads.lift_bind (runwrap_some (magic_dec _)) ?_
  refine Reads.lift_bind (magic_endian hw hr x.magic hm) ?_
  refine Reads.bind (reads_i32 _ _) ?_
  refine Reads.bind (reads_i32 _ _) ?_
  refine Reads.lift_bind (cpu_dec _) ?_
  refine Reads.bind (reads_u32 _ _) ?_
  refine Reads.lift_bind (runwrap_some (fileType_dec _)) ?_
  refine Reads.bind (reads_u32 _ _) ?_
  refine Reads.bind (reads_u32 _ _) ?_
  refine Reads.bind (reads_u32 _ _) ?_
  refine Reads.lift_bind (flags_fromU32_toU32 _) ?_
  refine Reads.bind_last (reads_u32 _ _) ?_
  exact Reads.pure _

theorem addU32_ok (bd : Build) {a b : UInt32} (h : a.toNat + b.toNat < 2 ^ 32) :
    addU32 bd a b = .ok (a + b) := by simp [addU32, h]
theorem mulU32_ok (bd : Build) {a b : UInt32} (h : a.toNat * b.toNat < 2 ^ 32) :
    mulU32 bd a b = .ok (a * b) := by simp [mulU32, h]
theorem addU32_err (bd : Build) (a b : UInt32) (e : Stop) (h : addU32 bd a b = .error e) :
    e = .panic := by
  unfold addU32 at h; split at h <;> simp at h; exact h.symm
theorem mulU32_err (bd : Build) (a b : UInt32) (e : Stop) (h : mulU32 bd a b = .error e) :
    e = .panic := by
  unfold mulU32 at h; split at h <;> simp at h; exact h.symm

theorem segment_reads (bd : Build) (h : Endian) (x : SegmentCommand64) (hc : x.cmd = 0x19)
    (hs : x.cmdsize.toNat = 72 + 80 * x.nsects.toNat) (hn : NameOk 16 x.segname) :
    Reads (SegmentCommand64.readFromIn bd h) (segmentBytes h x) x := by
  have hlt := x.cmdsize.toNat_lt
  unfold SegmentCommand64.readFromIn segmentBytes
  refine Reads.bind (reads_u32 _ _) ?_
  refine Reads.lift_bind (rassert_true (by rw [hc]; decide)) ?_
  refine Reads.bind (reads_u32 _ _) ?_
  refine Reads.bind (reads_str hn) ?_
  refine Reads.bind (reads_u64 _ _) ?_
  refine Reads.bind (reads_u64 _ _) ?_
  refine Reads.bind (reads_u64 _ _) ?_
  refine Reads.bind (reads_u64 _ _) ?_
  refine Reads.bind (reads_i32 _ _) ?_
  refine Reads.bind (reads_i32 _ _) ?_
  refine Reads.bind (reads_u32 _ _) ?_
  refine Reads.bind_last (reads_u32 _ _) ?_
  have e80 : Section64.SIZE.toNat = 80 := rfl
  have e72 : SegmentCommand64.SIZE.toNat = 72 := rfl
  have hm : x.nsects.toNat * Section64.SIZE.toNat < 2 ^ 32 := by rw [e80]; omega
  have em : (x.nsects * Section64.SIZE).toNat = x.nsects.toNat * 80 := by
    rw [UInt32.toNat_mul, e80, Nat.mod_eq_of_lt (by omega)]
  refine Reads.lift_bind (mulU32_ok bd hm) ?_
  have ha : SegmentCommand64.SIZE.toNat + (x.nsects * Section64.SIZE).toNat < 2 ^ 32 := by
    rw [e72, em]; omega
  refine Reads.lift_bind (addU32_ok bd ha) ?_
  refine Reads.lift_bind (rassert_true ?_) (Reads.pure _)
  rw [beq_iff_eq]
  apply UInt32.toNat.inj
  rw [UInt32.toNat_add, Nat.mod_eq_of_lt ha, e72, em]
  omega

theorem section_reads (h : Endian) (x : Section64) (hn : NameOk 16 x.sectname)
    (hn' : NameOk 16 x.segname) :
    Reads (Section64.readFromIn h) (sectionBytes h x) { x with attrs := sortAttrs x.attrs } := by
  unfold Section64.readFromIn sectionBytes
  refine Reads.bind (reads_str hn) ?_
  refine Reads.bind (reads_str hn') ?_
  refine Reads.bind (reads_u64 _ _) ?_
  refine Reads.bind (reads_u64 _ _) ?_
  refine Reads.bind (reads_u32 _ _) ?_
  refine Reads.bind (reads_u32 _ _) ?_
  refine Reads.bind (reads_u32 _ _) ?_
  refine Reads.bind (reads_u32 _ _) ?_
  refine Reads.bind (reads_u32 _ _) ?_
  refine Reads.lift_bind (runwrap_some (x := x.type) (by rw [sectionWord_type, type_dec])) ?_
  refine Reads.lift_bind (x := sortAttrs x.attrs)
    (by rw [sectionWord_attrs, attrs_fromU32_toU32]) ?_
  refine Reads.bind (reads_u32 _ _) ?_
  refine Reads.bind (reads_u32 _ _) ?_
  refine Reads.bind_last (reads_u32 _ _) ?_
  exact Reads.pure _

theorem symtab_reads (h : Endian) (x : SymtabCommand) (hc : x.cmd = 2) (hs : x.cmdsize = 24) :
    Reads (SymtabCommand.readFromIn h) (symtabBytes h x) x := by
  unfold SymtabCommand.readFromIn symtabBytes
  refine Reads.bind (reads_u32 _ _) ?_
  refine Reads.lift_bind (rassert_true (by rw [hc]; decide)) ?_
  refine Reads.bind (reads_u32 _ _) ?_
  refine Reads.lift_bind (rassert_true (by rw [hs]; decide)) ?_
  repeat (first | refine Reads.bind (reads_u32 _ _) ?_ | refine Reads.bind_last (reads_u32 _ _) ?_)
  exact Reads.pure _

theorem dysymtab_reads (h : Endian) (x : DysymtabCommand) (hc : x.cmd = 0xB)
    (hs : x.cmdsize = 80) : Reads (DysymtabCommand.readFromIn h) (dysymtabBytes h x) x := by
  unfold DysymtabCommand.readFromIn dysymtabBytes
  refine Reads.bind (reads_u32 _ _) ?_
  refine Reads.lift_bind (rassert_true (by rw [hc]; decide)) ?_
  refine Reads.bind (reads_u32 _ _) ?_
  refine Reads.lift_bind (rassert_true (by rw [hs]; decide)) ?_
  repeat (first | refine Reads.bind (reads_u32 _ _) ?_ | refine Reads.bind_last (reads_u32 _ _) ?_)
  exact Reads.pure _

theorem tool_reads (h : Endian) (x : BuildToolVersion) :
    Reads (BuildToolVersion.readFromIn h) (toolBytes h x) x := by
  unfold BuildToolVersion.readFromIn toolBytes
  refine Reads.bind (reads_u32 _ _) ?_
  refine Reads.lift_bind (runwrap_some (tool_dec _)) ?_
  refine Reads.bind_last (reads_u32 _ _) ?_
  exact Reads.pure _

theorem buildVersion_reads (bd : Build) (h : Endian) (x : BuildVersionCommand) (hc : x.cmd = 0x32)
    (hs : x.cmdsize.toNat = 24 + 8 * x.ntools.toNat) :
    Reads (BuildVersionCommand.readFromIn bd h) (buildVersionBytes h x) x := by
  have hlt := x.cmdsize.toNat_lt
  unfold BuildVersionCommand.readFromIn buildVersionBytes
  refine Reads.bind (reads_u32 _ _) ?_
  refine Reads.lift_bind (rassert_true (by rw [hc]; decide)) ?_
  refine Reads.bind (reads_u32 _ _) ?_
  refine Reads.bind (reads_u32 _ _) ?_
  refine Reads.lift_bind (runwrap_some (platform_dec _)) ?_
  refine Reads.bind (reads_u32 _ _) ?_
  refine Reads.bind (reads_u32 _ _) ?_
  refine Reads.bind_last (reads_u32 _ _) ?_
  have e8 : BuildToolVersion.SIZE.toNat = 8 := rfl
  have e24 : BuildVersionCommand.SIZE.toNat = 24 := rfl
  have hm : BuildToolVersion.SIZE.toNat * x.ntools.toNat < 2 ^ 32 := by rw [e8]; omega
  have em : (BuildToolVersion.SIZE * x.ntools).toNat = 8 * x.ntools.toNat := by
    rw [UInt32.toNat_mul, e8, Nat.mod_eq_of_lt (by omega)]
  refine Reads.lift_bind (mulU32_ok bd hm) ?_
  have ha : BuildVersionCommand.SIZE.toNat + (BuildToolVersion.SIZE * x.ntools).toNat < 2 ^ 32 := by
    rw [e24, em]; omega
  refine Reads.lift_bind (addU32_ok bd ha) ?_
  refine Reads.lift_bind (rassert_true ?_) ?_
  · rw [beq_iff_eq]
    apply UInt32.toNat.inj
    rw [UInt32.toNat_add, Nat.mod_eq_of_lt ha, e24, em]
    omega
  · rw [version_roundtrip, version_roundtrip]
    exact Reads.pure _

theorem nlist_reads (h : Endian) (x : NList64) :
    Reads (NList64.readFromIn h) (nlistBytes h x) x := by
  unfold NList64.readFromIn nlistBytes
  refine Reads.bind (reads_u32 _ _) ?_
  refine Reads.bind (reads_u8 _) ?_
  refine Reads.lift_bind (nType_roundtrip _) ?_
  refine Reads.bind (reads_u8 _) ?_
  refine Reads.bind (reads_u16 _ _) ?_
  refine Reads.bind_last (reads_u64 _ _) ?_
  exact Reads.pure _

theorem reloc_reads (h : Endian) (x : RelocationInfo) (hs : x.rSymbolnum.toNat < 2 ^ 24)
    (ht : x.rType.toNat < 16) : Reads (RelocationInfo.readFromIn h) (relocBytes h x) x := by
  unfold RelocationInfo.readFromIn relocBytes
  refine Reads.bind (reads_i32 _ _) ?_
  refine Reads.bind_last (reads_u32 _ _) ?_
  exact Reads.lift (reloc_unpack_pack h x hs ht)

/-! ## Sequences and the dispatcher -/

theorem Reads.peek {α : Type} {h : Endian} {n : UInt32} {b : Bytes} {f : UInt32 → Rd α} {y : α}
    (hf : Reads (f n) (intBytes h 4 n.toNat ++ b) y) :
    Reads (do let c ← readU32 h; unread (intBytes h 4 c.toNat); f c)
      (intBytes h 4 n.toNat ++ b) y := by
  have step : ∀ s, (do let c ← readU32 h; unread (intBytes h 4 c.toNat); f c : Rd α)
      (intBytes h 4 n.toNat ++ s) = f n (intBytes h 4 n.toNat ++ s) := by
    intro s
    rw [rd_bind, (reads_u32 h n).ok]
    rfl
  constructor
  · intro rest
    rw [List.append_assoc, step, ← List.append_assoc]
    exact hf.ok rest
  · intro k hk
    by_cases h4 : k < 4
    · rw [rd_bind, (fixed_u32 h).short _ (by simp; omega)]
    · have : (intBytes h 4 n.toNat ++ b).take k = intBytes h 4 n.toNat ++ b.take (k - 4) := by
        rw [List.take_append, length_intBytes, List.take_of_length_le]
        rw [length_intBytes]; omega
      rw [this, step, ← this]
      exact hf.short k hk

theorem Reads.seq {α β : Type} {r : Rd β} {enc : α → Bytes} {norm : α → β} (l : List α)
    (h : ∀ x ∈ l, Reads r (enc x) (norm x)) :
    Reads (readN r l.length) (l.flatMap enc) (l.map norm) := by
  induction l with
  | nil => exact Reads.pure _
  | cons x l ih =>
    simp only [List.length_cons, readN, List.flatMap_cons, List.map_cons]
    refine Reads.bind (h x (by simp)) ?_
    refine Reads.bind_last (ih (fun y hy => h y (by simp [hy]))) ?_
    exact Reads.pure _

theorem Writes.seq {α : Type} {w : α → Wr Unit} {enc : α → Bytes} (l : List α)
    (h : ∀ x ∈ l, Writes (w x) (enc x)) : Writes (forWr w l) (l.flatMap enc) := by
  induction l with
  | nil => exact Writes.pure
  | cons x l ih =>
    simp only [forWr, List.flatMap_cons]
    exact Writes.bind (h x (by simp)) (ih (fun y hy => h y (by simp [hy])))

/-- The byte image of a load command. -/
def loadBytes (h : Endian) : LoadCommand → Bytes
  | .segment64 c sections => segmentBytes h c ++ sections.flatMap (sectionBytes h)
  | .symtab c => symtabBytes h c
  | .dysymtab c => dysymtabBytes h c
  | .buildVersion c tools => buildVersionBytes h c ++ tools.flatMap (toolBytes h)

/-- Names of a section are storable. -/
def SectionOk (s : Section64) : Prop := NameOk 16 s.sectname ∧ NameOk 16 s.segname

/-- A load command that says the truth about itself. -/
def LoadOk : LoadCommand → Prop
  | .segment64 c sections => c.cmd = 0x19 ∧ c.cmdsize.toNat = 72 + 80 * c.nsects.toNat ∧
      NameOk 16 c.segname ∧ c.nsects.toNat = sections.length ∧ ∀ s ∈ sections, SectionOk s
  | .symtab c => c.cmd = 2 ∧ c.cmdsize = 24
  | .dysymtab c => c.cmd = 0xB ∧ c.cmdsize = 80
  | .buildVersion c tools => c.cmd = 0x32 ∧ c.cmdsize.toNat = 24 + 8 * c.ntools.toNat ∧
      c.ntools.toNat = tools.length

/-- Section attribute lists in bit order. -/
def normLoad : LoadCommand → LoadCommand
  | .segment64 c sections =>
    .segment64 c (sections.map (fun s => { s with attrs := sortAttrs s.attrs }))
  | c => c

theorem load_writes (h : Endian) (c : LoadCommand) (hc : LoadOk c) :
    Writes (c.writeInto h) (loadBytes h c) := by
  cases c with
  | segment64 c s =>
    obtain ⟨_, _, hn, _, hs⟩ := hc
    exact Writes.bind (segment_writes h c hn.ascii hn.len) (Writes.seq s (fun x hx =>
      section_writes h x (hs x hx).1.ascii (hs x hx).1.len (hs x hx).2.ascii (hs x hx).2.len))
  | symtab c => exact symtab_writes h c
  | dysymtab c => exact dysymtab_writes h c
  | buildVersion c t =>
    exact Writes.bind (buildVersion_writes h c) (Writes.seq t (fun x _ => tool_writes h x))

/-- What `LoadCommand::read_from_in` does after peeking the command number. -/
def dispatch (bd : Build) (e : Endian) (cmd : UInt32) : Rd LoadCommand :=
  if cmd == SegmentCommand64.TYPE then do
    let c ← SegmentCommand64.readFromIn bd e
    let sections ← readN (Section64.readFromIn e) c.nsects.toNat
    pure (.segment64 c sections)
  else if cmd == SymtabCommand.TYPE then do
    let c ← SymtabCommand.readFromIn e
    pure (.symtab c)
  else if cmd == DysymtabCommand.TYPE then do
    let c ← DysymtabCommand.readFromIn e
    pure (.dysymtab c)
  else if cmd == BuildVersionCommand.TYPE then do
    let c ← BuildVersionCommand.readFromIn bd e
    let tools ← readN (BuildToolVersion.readFromIn e) c.ntools.toNat
    pure (.buildVersion c tools)
  else Rd.lift (.error .panic)

theorem load_readFromIn (bd : Build) (e : Endian) : LoadCommand.readFromIn bd e =
    (do let c ← readU32 e; unread (intBytes e 4 c.toNat); dispatch bd e c) := rfl

theorem load_reads (bd : Build) (h : Endian) (c : LoadCommand) (hc : LoadOk c) :
    Reads (LoadCommand.readFromIn bd h) (loadBytes h c) (normLoad c) := by
  rw [load_readFromIn]
  cases c with
  | segment64 c s =>
    obtain ⟨h1, h2, hn, hl, hs⟩ := hc
    have hd : dispatch bd h c.cmd = (do
        let c ← SegmentCommand64.readFromIn bd h
        let sections ← readN (Section64.readFromIn h) c.nsects.toNat
        pure (.segment64 c sections)) := by rw [h1]; rfl
    have := (segment_reads bd h c h1 h2 hn).bind (f := fun c => do
        let sections ← readN (Section64.readFromIn h) c.nsects.toNat
        pure (LoadCommand.segment64 c sections)) (b' := s.flatMap (sectionBytes h))
        (y := normLoad (.segment64 c s)) (by
          rw [hl]
          exact Reads.bind_last (Reads.seq s (fun x hx =>
            section_reads h x (hs x hx).1 (hs x hx).2)) (Reads.pure _))
    rw [← hd] at this
    simp only [loadBytes, segmentBytes, List.append_assoc] at *
    exact Reads.peek this
  | symtab c =>
    have hd : dispatch bd h c.cmd = (do
        let c ← SymtabCommand.readFromIn h
        pure (.symtab c)) := by rw [hc.1]; rfl
    have : Reads (dispatch bd h c.cmd) (symtabBytes h c) (.symtab c) := by
      rw [hd]
      exact Reads.bind_last (symtab_reads h c hc.1 hc.2) (Reads.pure _)
    exact Reads.peek this
  | dysymtab c =>
    have hd : dispatch bd h c.cmd = (do
        let c ← DysymtabCommand.readFromIn h
        pure (.dysymtab c)) := by rw [hc.1]; rfl
    have : Reads (dispatch bd h c.cmd) (dysymtabBytes h c) (.dysymtab c) := by
      rw [hd]
      exact Reads.bind_last (dysymtab_reads h c hc.1 hc.2) (Reads.pure _)
    exact Reads.peek this
  | buildVersion c t =>
    obtain ⟨h1, h2, hl⟩ := hc
    have hd : dispatch bd h c.cmd = (do
        let c ← BuildVersionCommand.readFromIn bd h
        let tools ← readN (BuildToolVersion.readFromIn h) c.ntools.toNat
        pure (.buildVersion c tools)) := by rw [h1]; rfl
    have := (buildVersion_reads bd h c h1 h2).bind (f := fun c => do
        let tools ← readN (BuildToolVersion.readFromIn h) c.ntools.toNat
        pure (LoadCommand.buildVersion c tools)) (b' := t.flatMap (toolBytes h))
        (y := normLoad (.buildVersion c t)) (by
          rw [hl]
          have := Reads.seq (norm := id) t (fun x _ => tool_reads h x)
          rw [List.map_id] at this
          exact Reads.bind_last this (Reads.pure _))
    rw [← hd] at this
    simp only [loadBytes, buildVersionBytes, List.append_assoc] at *
    exact Reads.peek this

/-! ## Fixed consumption -/

theorem cpu_err (a b : Int32) (e : Stop) (h : CpuType.fromI32I32 a b = .error e) : e = .panic := by
  unfold CpuType.fromI32I32 at h
  split at h
  · cases hs : CpuSubType.fromI32? b with
    | none => rw [hs] at h; simpa [runwrap, Functor.map, Except.map] using h.symm
    | some t => rw [hs] at h; simp [runwrap, Functor.map, Except.map] at h
  · split at h
    · cases hs : CpuSubType.fromI32? b with
      | none => rw [hs] at h; simpa [runwrap, Functor.map, Except.map] using h.symm
      | some t => rw [hs] at h; simp [runwrap, Functor.map, Except.map] at h
    · simpa using h.symm

theorem endian_err (h : Endian) (m : Magic) (e : Stop) (hm : m.endian h = .error e) :
    e = .panic := by
  cases m <;> simp [Magic.endian] at hm <;> exact hm.symm

macro "fixed_steps" : tactic => `(tactic|
  repeat (first
    | exact Fixed.pure _
    | exact Fixed.lift (reloc_unpack_err _ _ _)
    | refine Fixed.bind (fixed_u32 _) (fun _ => ?_)
    | refine Fixed.bind (fixed_i32 _) (fun _ => ?_)
    | refine Fixed.bind (fixed_u64 _) (fun _ => ?_)
    | refine Fixed.bind (fixed_u16 _) (fun _ => ?_)
    | refine Fixed.bind fixed_u8 (fun _ => ?_)
    | refine Fixed.bind (fixed_str _) (fun _ => ?_)
    | refine Fixed.bind (Fixed.lift (runwrap_err _)) (fun _ => ?_)
    | refine Fixed.bind (Fixed.lift (rassert_err _)) (fun _ => ?_)
    | refine Fixed.bind (Fixed.lift (addU32_err _ _ _)) (fun _ => ?_)
    | refine Fixed.bind (Fixed.lift (mulU32_err _ _ _)) (fun _ => ?_)
    | refine Fixed.bind (Fixed.lift (flags_err _)) (fun _ => ?_)
    | refine Fixed.bind (Fixed.lift (attrs_err _)) (fun _ => ?_)
    | refine Fixed.bind (Fixed.lift (nType_err _)) (fun _ => ?_)
    | refine Fixed.bind (Fixed.lift (cpu_err _ _)) (fun _ => ?_)
    | refine Fixed.bind (Fixed.lift (endian_err _ _)) (fun _ => ?_)))

theorem Fixed.cast {α : Type} {r : Rd α} {n m : Nat} (h : Fixed r n) (e : n = m) : Fixed r m :=
  e ▸ h

theorem header_fixed (h : Endian) : Fixed (Header64.readFrom h) 32 := by
  unfold Header64.readFrom
  refine Fixed.cast (n := 4 + (0 + (0 + (4 + (4 + (0 + (4 + (0 + (4 + (4 + (4 + (0 + (4 + 0)))))))))))))
    ?_ (by rfl)
  fixed_steps

theorem segment_fixed (bd : Build) (h : Endian) : Fixed (SegmentCommand64.readFromIn bd h) 72 := by
  unfold SegmentCommand64.readFromIn
  refine Fixed.cast (n := 4 + (0 + (4 + (16 + (8 + (8 + (8 + (8 + (4 + (4 + (4 + (4 +
    (0 + (0 + (0 + 0))))))))))))))) ?_ (by rfl)
  fixed_steps

theorem section_fixed (h : Endian) : Fixed (Section64.readFromIn h) 80 := by
  unfold Section64.readFromIn
  refine Fixed.cast (n := 16 + (16 + (8 + (8 + (4 + (4 + (4 + (4 + (4 + (0 + (0 + (4 +
    (4 + (4 + 0)))))))))))))) ?_ (by rfl)
  fixed_steps

theorem symtab_fixed (h : Endian) : Fixed (SymtabCommand.readFromIn h) 24 := by
  unfold SymtabCommand.readFromIn
  refine Fixed.cast (n := 4 + (0 + (4 + (0 + (4 + (4 + (4 + (4 + 0)))))))) ?_ (by rfl)
  fixed_steps

theorem dysymtab_fixed (h : Endian) : Fixed (DysymtabCommand.readFromIn h) 80 := by
  unfold DysymtabCommand.readFromIn
  refine Fixed.cast (n := 4 + (0 + (4 + (0 + (4 + (4 + (4 + (4 + (4 + (4 + (4 + (4 + (4 + (4 +
    (4 + (4 + (4 + (4 + (4 + (4 + (4 + (4 + 0)))))))))))))))))))))) ?_ (by rfl)
  fixed_steps

theorem tool_fixed (h : Endian) : Fixed (BuildToolVersion.readFromIn h) 8 := by
  unfold BuildToolVersion.readFromIn
  refine Fixed.cast (n := 4 + (0 + (4 + 0))) ?_ (by rfl)
  fixed_steps

theorem buildVersion_fixed (bd : Build) (h : Endian) :
    Fixed (BuildVersionCommand.readFromIn bd h) 24 := by
  unfold BuildVersionCommand.readFromIn
  refine Fixed.cast (n := 4 + (0 + (4 + (4 + (0 + (4 + (4 + (4 + (0 + (0 + (0 + 0))))))))))) ?_
    (by rfl)
  fixed_steps

theorem nlist_fixed (h : Endian) : Fixed (NList64.readFromIn h) 16 := by
  unfold NList64.readFromIn
  refine Fixed.cast (n := 4 + (1 + (0 + (1 + (2 + (8 + 0)))))) ?_ (by rfl)
  fixed_steps

theorem reloc_fixed (h : Endian) : Fixed (RelocationInfo.readFromIn h) 8 := by
  unfold RelocationInfo.readFromIn
  refine Fixed.cast (n := 4 + (4 + 0)) ?_ (by rfl)
  fixed_steps

end AT.Mac
