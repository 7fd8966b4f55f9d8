import Verif.Spec.Outcome
import Verif.Props.Success
import Verif.Props.AsmErrors
import Verif.Props.ObjWrap
/-!
# What happens for every input, and what is written (C79)
-/

namespace AT.Props
open AT.Asm AT.AsmSpec AT.X64 AT.Obj AT.Mac AT.MachO AT.ObjSpec

/-! ## The object -/

theorem objOf_objectOf (ls : List Line) (hb : NoBssContent ls) : ObjOf ls (objectOf ls) where
  bytes x := by
    cases x
    · rfl
    · rfl
    · rw [content_bss ls hb]; rfl
  symbols x := by cases x <;> rfl
  relocs x := by
    cases x
    · rfl
    · rfl
    · have : relocations ls .bss = [] := by
        apply List.eq_nil_iff_forall_not_mem.2
        intro p hp
        unfold relocations at hp
        rw [List.mem_filterMap] at hp
        obtain ⟨k, _, hk⟩ := hp
        obtain ⟨i, hi, hrel, hs, _⟩ := relocAt_some (off := p.1) (lr := p.2) hk
        exact hb k _ hi hs trivial
      unfold relsOf
      rw [this]
      rfl
  bss := rfl

theorem ObjOf.unique {ls : List Line} {o o' : Object} (h : ObjOf ls o) (h' : ObjOf ls o') : o = o' := by
  obtain ⟨⟨⟨tb, ts, tr⟩, ⟨db, ds, dr⟩, ⟨z, bs⟩⟩⟩ := o
  obtain ⟨⟨⟨tb', ts', tr'⟩, ⟨db', ds', dr'⟩, ⟨z', bs'⟩⟩⟩ := o'
  have b1 := (h.bytes .text).trans (h'.bytes .text).symm
  have b2 := (h.bytes .data).trans (h'.bytes .data).symm
  have s1 := (h.symbols .text).trans (h'.symbols .text).symm
  have s2 := (h.symbols .data).trans (h'.symbols .data).symm
  have s3 := (h.symbols .bss).trans (h'.symbols .bss).symm
  have r1 := (h.relocs .text).trans (h'.relocs .text).symm
  have r2 := (h.relocs .data).trans (h'.relocs .data).symm
  have z1 := h.bss.trans h'.bss.symm
  simp only [bytesOf, symbolsOf, relocsOf] at b1 b2 s1 s2 s3 r1 r2 z1
  subst b1 b2 s1 s2 s3 r1 r2 z1
  rfl

theorem obj_eq {bd : Build} {chunks : List Bytes} {a : Assembler} {ls : List Line} (hne : ∀ c ∈ chunks, c ≠ [])
    (hp : Program bd chunks.flatten ls) (h : Assembler.new.readFrom bd chunks = .ok a) :
    a.obj = objectOf ls ∧ NoBssContent ls := by
  obtain ⟨ss, ms, hc, hm, h3, h4, h5, h6, h7⟩ := readFrom_new hne h
  cases Program.det hp ⟨ss, hc, hm⟩
  exact ⟨ObjOf.unique ⟨h4, h5, h6, h7⟩ (objOf_objectOf ls h3), h3⟩

/-! ## Lines that stop the assembler -/

theorem stopsAt_of_fails {bd : Build} {ls : List Line} {b : Bytes} {e : Stop} (hn : Numbered bd ls)
    (h : Fails bd ls b e) : StopsAt bd ls b e := by
  cases h with
  | notText h => exact .notText h
  | count h1 h2 => have := hn h1; omega
  | parse s msg hb hp =>
    obtain ⟨c, hc, hw⟩ := (C66_messages bd s msg).1 hp
    rw [UInt32.toNat_ofNat']
    exact .wrong s c msg _ hb hn hc hw (showNat_decimal _)
  | parsePanic s _ hb hp he =>
    rcases C61_never_exits bd s with ⟨l, h⟩ | ⟨m, h⟩ | ⟨h1, h⟩
    · rw [h] at hp; cases hp
    · rw [h] at hp; cases hp; exact absurd rfl (he m)
    · rw [h] at hp; cases hp; exact .overflow s hb h1 ((C61_panics bd s).1 h).2
  | bss s l hb hp hs hst hr => exact .bss s l hb hn ((reads_iff bd s l).1 hp) hs hst hr
  | bssReloc s l hb hp hs hr => exact .bssReloc s l hb ((reads_iff bd s l).1 hp) hs hr
  | address s l r hb hp hr hbd hc => exact .address s l r hb hbd ((reads_iff bd s l).1 hp) hr hc

theorem not_numbered {bd : Build} {ls : List Line} (hw : Within bd ls) (hn : ¬ Numbered bd ls) :
    bd = .debug ∧ ls.length + 1 = 2 ^ 32 := by
  unfold Numbered at hn
  simp only [Classical.not_imp] at hn
  exact ⟨hn.1, by have := hw.lines hn.1; omega⟩

theorem doLine_not_numbered {bd : Build} {ls : List Line} {a : Assembler} {s : Str} (h : State ls a)
    (hw : Within bd ls) (hn : ¬ Numbered bd ls) : a.doLine bd s = .error .panic := by
  obtain ⟨rfl, hl⟩ := not_numbered hw hn
  unfold Assembler.doLine
  rw [h.line]
  have : addU32 .debug (UInt32.ofNat ls.length) 1 = .error .panic := by
    unfold addU32
    rw [UInt32.toNat_ofNat', Nat.mod_eq_of_lt (by omega)]
    rw [if_neg]
    rintro (h | h)
    · change ls.length + 1 < _ at h; omega
    · cases h
  rw [this]
  rfl

theorem doLine_stopsAt {bd : Build} {ls : List Line} {a : Assembler} {s : Str} {e : Stop} (h : State ls a)
    (hw : Within bd ls) (hd : a.doLine bd s = .error e) : StopsAt bd ls (utf8 s) e := by
  by_cases hn : Numbered bd ls
  · exact stopsAt_of_fails hn (doLine_err h hd)
  · rw [doLine_not_numbered h hw hn] at hd
    cases hd
    exact .lineNumber s rfl hn

/-- A line that stops the assembler is not assembled. -/
theorem stopsAt_not_ok {bd : Build} {ls : List Line} {a a' : Assembler} {s : Str} {e : Stop} (h : State ls a)
    (hw : Within bd ls) (hs : StopsAt bd ls (utf8 s) e) (hd : a.doLine bd s = .ok a') : False := by
  obtain ⟨l, hl⟩ := doLine_parses hd
  have hb := (noBss_snoc ls l).1 (state_doLine h hl hd).noBss
  have hwi := doLine_within h hl hd hw
  cases hs with
  | notText h => exact h s rfl
  | lineNumber s' hs' hn => rw [doLine_not_numbered h hw hn] at hd; cases hd
  | wrong s' c msg num hs' _ hc hwr _ =>
    cases utf8_injective hs'
    rw [(C66_messages bd s msg).2 ⟨c, hc, hwr⟩] at hl
    cases hl
  | overflow s' hs' hbd ho =>
    cases utf8_injective hs'
    rw [(C61_panics bd s).2 ⟨hbd, ho⟩] at hl
    cases hl
  | bss s' l' hs' _ hp hsect hst _ =>
    cases utf8_injective hs'
    replace hp := (reads_iff bd s l').2 hp
    rw [hl] at hp; cases hp
    exact hb.2 hsect hst
  | bssReloc s' l' hs' hp hsect hr =>
    cases utf8_injective hs'
    replace hp := (reads_iff bd s l').2 hp
    rw [hl] at hp; cases hp
    exact hb.2 hsect (Classical.byContradiction fun hn => hr (relocates_of_not_stores hn))
  | address s' l' r hs' hbd hp hr hc =>
    cases utf8_injective hs'
    replace hp := (reads_iff bd s l').2 hp
    rw [hl] at hp; cases hp
    refine hwi.relocs hbd (sectAt ls ls.length) _ ?_ hc
    rw [relocations_snoc, if_pos rfl, hr]
    simp

theorem wrong_det {bd : Build} {ls : List Line} {s c msg num : Str} {e : Stop} (hn : Numbered bd ls)
    (hc : Code s c) (hw : Wrong bd c msg) (hd : Decimal ((ls.length + 1) % 2 ^ 32) num)
    (h : StopsAt bd ls (utf8 s) e) :
    e = .exit 1 (str% "error at line " ++ num ++ str% ": " ++ msg ++ str% "\n") := by
  have hp := (C66_messages bd s msg).2 ⟨c, hc, hw⟩
  cases h with
  | notText h => exact absurd rfl (h s)
  | lineNumber _ _ h => exact absurd hn h
  | wrong s' c' msg' num' hs' _ hc' hw' hd' =>
    cases utf8_injective hs'
    rw [(C66_messages bd s msg').2 ⟨c', hc', hw'⟩] at hp
    cases hp
    rw [decimal_iff.1 hd, decimal_iff.1 hd']
  | overflow s' hs' hbd ho =>
    cases utf8_injective hs'
    rw [(C61_panics bd s).2 ⟨hbd, ho⟩] at hp
    cases hp
  | bss s' l hs' _ hp' =>
    cases utf8_injective hs'
    rw [(reads_iff bd s _).2 hp'] at hp; cases hp
  | bssReloc s' l hs' hp' =>
    cases utf8_injective hs'
    rw [(reads_iff bd s _).2 hp'] at hp; cases hp
  | address s' l r hs' _ hp' =>
    cases utf8_injective hs'
    rw [(reads_iff bd s _).2 hp'] at hp; cases hp

theorem bss_det {bd : Build} {ls : List Line} {s : Str} {l : Line} {e : Stop} (hn : Numbered bd ls)
    (hp : parseLine bd s = .ok l) (hr : relocates l = none) (h : StopsAt bd ls (utf8 s) e) :
    e = .exit 1 (str% "error: can't write data to .bss section\n") := by
  cases h with
  | notText h => exact absurd rfl (h s)
  | lineNumber _ _ h => exact absurd hn h
  | wrong s' c' msg' num' hs' _ hc' hw' hd' =>
    cases utf8_injective hs'
    rw [(C66_messages bd s msg').2 ⟨c', hc', hw'⟩] at hp
    cases hp
  | overflow s' hs' hbd ho =>
    cases utf8_injective hs'
    rw [(C61_panics bd s).2 ⟨hbd, ho⟩] at hp
    cases hp
  | bss => rfl
  | bssReloc s' l hs' hp' _ hr' =>
    cases utf8_injective hs'
    rw [(reads_iff bd s _).2 hp'] at hp; cases hp
    exact absurd hr hr'
  | address s' l r hs' _ hp' hr' =>
    cases utf8_injective hs'
    rw [(reads_iff bd s _).2 hp'] at hp; cases hp
    rw [hr] at hr'; cases hr'

theorem stopsAt_kind {bd : Build} {ls : List Line} {b : Bytes} {e : Stop} (h : StopsAt bd ls b e) :
    e = .panic ∨ ∀ e', StopsAt bd ls b e' → e' = e := by
  cases h with
  | wrong s c msg num hb hn hc hw hd => subst hb; exact .inr fun e' h' => wrong_det hn hc hw hd h'
  | bss s l hb hn hp _ _ hr => subst hb; exact .inr fun e' h' => bss_det hn ((reads_iff bd s l).2 hp) hr h'
  | _ => exact .inl rfl

/-- A line stops the assembler in one way only. -/
theorem stopsAt_det {bd : Build} {ls : List Line} {b : Bytes} {e e' : Stop}
    (h : StopsAt bd ls b e) (h' : StopsAt bd ls b e') : e = e' := by
  rcases stopsAt_kind h with h1 | h1
  · rcases stopsAt_kind h' with h2 | h2
    · rw [h1, h2]
    · exact h2 _ h
  · exact (h1 _ h').symm

/-! ## C79 -/

/-- C79, the assembler: for every input, either the input is a program that stores nothing in `.bss`
and passes the overflow checks, and the result is its object; or a line stops the assembler, and the
result is that.  This determines the result of every input. -/
theorem C79_assemble (bd : Build) (chunks : List Bytes) (hne : ∀ c ∈ chunks, c ≠ []) :
    (∀ o, (∃ a, Assembler.new.readFrom bd chunks = .ok a ∧ a.obj = o) ↔
      ∃ ls, Program bd chunks.flatten ls ∧ NoBssContent ls ∧ Within bd ls ∧ o = objectOf ls) ∧
    (∀ e, Assembler.new.readFrom bd chunks = .error e ↔ Stops bd chunks.flatten e) := by
  refine ⟨fun o => ⟨?_, ?_⟩, fun e => ⟨?_, ?_⟩⟩
  · rintro ⟨a, ha, rfl⟩
    obtain ⟨ls, hp, hb, hw⟩ := (C74_exact bd chunks hne).1 ⟨a, ha⟩
    exact ⟨ls, hp, hb, hw, (obj_eq hne hp ha).1⟩
  · rintro ⟨ls, hp, hb, hw, rfl⟩
    obtain ⟨a, ha⟩ := (C74_exact bd chunks hne).2 ⟨ls, hp, hb, hw⟩
    exact ⟨a, ha, (obj_eq hne hp ha).1⟩
  · intro h
    obtain ⟨bs, hbs⟩ := Cut.exists chunks.flatten
    rw [readFrom_eq bd _ chunks bs hne hbs] at h
    cases hr : runLines bd Assembler.new bs with
    | ok a => rw [hr] at h; simp [bind, Except.bind, pure, Except.pure] at h
    | error e' =>
      rw [hr] at h
      simp only [bind, Except.bind, Except.error.injEq] at h
      subst h
      obtain ⟨ss, ls, b, rest, h1, h2, h3, h4, h5⟩ := runLines_err state_new hr
      rw [List.nil_append] at h3 h4 h5
      have hw : Within bd ls := h5 ⟨fun _ => by simp, fun _ x p hx => by cases hx⟩
      refine ⟨ss, ls, b, rest, by rw [← h1]; exact hbs, readsAll_iff.2 h2, h3, hw, ?_⟩
      by_cases hn : Numbered bd ls
      · exact stopsAt_of_fails hn h4
      obtain ⟨a, ha, hrun⟩ := runLines_append (ls := []) (b :: rest) state_new h2 (by simpa using hw)
        (by simpa using h3)
      rw [h1, hrun, runLines] at hr
      cases hu : fromUtf8 b with
      | none =>
        rw [hu] at hr
        cases hr
        refine .notText ?_
        rintro s rfl
        rw [fromUtf8_utf8] at hu; cases hu
      | some s =>
        have hb := utf8_of_fromUtf8 hu
        subst hb
        rw [hu] at hr
        simp only at hr
        rw [List.nil_append] at ha
        rw [doLine_not_numbered ha hw hn] at hr
        cases hr
        exact .lineNumber s rfl hn
  · rintro ⟨ss, ls, b, rest, hc, hp, hb, hw, hst⟩
    obtain ⟨a, ha, he⟩ := after_prefix hne hc hp hw hb
    rw [he, runLines]
    cases hu : fromUtf8 b with
    | none =>
      cases stopsAt_kind hst with
      | inl h => rw [h]; rfl
      | inr h =>
        rw [← h .panic (.notText (by rintro s rfl; rw [fromUtf8_utf8] at hu; cases hu))]
        rfl
    | some s =>
      have hb' := utf8_of_fromUtf8 hu
      subst hb'
      simp only
      cases hd : a.doLine bd s with
      | ok a' => exact (stopsAt_not_ok ha hw hst hd).elim
      | error e' =>
        simp only [bind, Except.bind]
        rw [stopsAt_det (doLine_stopsAt ha hw hd) hst]

/-- C79: the two kinds of input exclude each other, and there is no third kind; a line that stops the
assembler does so in one way. -/
theorem C79_kinds (bd : Build) (input : Bytes) :
    ((∃ ls, Program bd input ls ∧ NoBssContent ls ∧ Within bd ls) ∨ ∃ e, Stops bd input e) ∧
    (∀ ls e, Program bd input ls → NoBssContent ls → Within bd ls → ¬ Stops bd input e) ∧
    (∀ e e', Stops bd input e → Stops bd input e' → e = e') := by
  obtain ⟨chunks, hne, rfl⟩ : ∃ chunks : List Bytes, (∀ c ∈ chunks, c ≠ []) ∧ chunks.flatten = input := by
    by_cases h : input = []
    · exact ⟨[], by simp, by simp [h]⟩
    · exact ⟨[input], by simpa using h, by simp⟩
  obtain ⟨h1, h2⟩ := C79_assemble bd chunks hne
  refine ⟨?_, fun ls e hp hb hw hs => ?_, fun e e' he he' => ?_⟩
  · cases hr : Assembler.new.readFrom bd chunks with
    | ok a =>
      obtain ⟨ls, hp, hb, hw, _⟩ := (h1 a.obj).1 ⟨a, hr, rfl⟩
      exact .inl ⟨ls, hp, hb, hw⟩
    | error e => exact .inr ⟨e, (h2 e).1 hr⟩
  · obtain ⟨a, ha, _⟩ := (h1 (objectOf ls)).2 ⟨ls, hp, hb, hw, rfl⟩
    rw [(h2 e).2 hs] at ha
    cases ha
  · have := (h2 e).2 he
    rw [(h2 e').2 he'] at this
    cases this
    rfl

theorem strLen_table {ls : List Line} {o : Object} (h : ObjOf ls o) :
    strLen (ObjSpec.parts o) = 1 + ((table ls).map (fun e => utf8Len e.name + 1)).sum := by
  unfold strLen table
  rw [h.partsEq, List.map_map]
  rcases stored_cases ls with e | e | e | e <;> rw [e] <;>
    simp [partOf, finalSyms, Function.comp_def, Symbol.name]

/-- The object of a program meets the conditions of C78. -/
theorem wrap_conditions {bd : Build} {input : Bytes} {ls : List Line} (hp : Program bd input ls)
    (hsize : input.length < 2 ^ 60) :
    (objectOf ls).sections.text.bytes.length < 2 ^ 64 ∧ (objectOf ls).sections.data.bytes.length < 2 ^ 64 := by
  obtain ⟨ss, hc, hm⟩ := hp
  have hz := (sizes hc hm).content
  constructor
  · show (content ls .text ls.length).length < _; omega
  · show (content ls .data ls.length).length < _; omega

/-- C79, the program (input and output being different files that can be opened): if a line stops the
assembler, the run ends that way and leaves an empty file.  If the run succeeds, the names and
relocations of the object can be expressed, and the output is, byte for byte, the file of the object.
If they cannot be expressed (unless the debug build fails its overflow checks first) the output is the
beginning of that file, up to the relocations. -/
theorem C79_run (bd : Build) (h : Endian) (chunking : Bytes → List Bytes) (fs : FS) (args : List Str)
    (out inp : Str) (src : Bytes) (hcfg : Config.init args = .ok ⟨out, inp⟩)
    (hd : fs.node inp ≠ fs.node out) (hs : fs.content (fs.node inp) = some src)
    (hrd : fs.canRead (fs.node inp) = true) (hwr : fs.canWrite (fs.node out) = true)
    (hch : (chunking src).flatten = src ∧ ∀ c ∈ chunking src, c ≠ []) (hsize : src.length < 2 ^ 60) :
    (∀ e, Stops bd src e → (main bd h chunking fs args).2 = .error e ∧
      (main bd h chunking fs args).1.content (fs.node out) = some []) ∧
    (∀ ls, Program bd src ls → NoBssContent ls → Within bd ls →
      ((main bd h chunking fs args).2 = .ok () → Expressible (objectOf ls)) ∧
      ((main bd h chunking fs args).2 = .ok () →
        ∀ f, (main bd h chunking fs args).1.content (fs.node out) = some f ↔ FileMod h (objectOf ls) f) ∧
      ((main bd h chunking fs args).2 ≠ .ok () → (main bd h chunking fs args).2 = .error .panic) ∧
      (bd = .release ∨ FileFits ls → Expressible (objectOf ls) → (main bd h chunking fs args).2 = .ok ()) ∧
      (bd = .release ∨ FileFits ls → ¬ Expressible (objectOf ls) → ∀ f,
        (main bd h chunking fs args).1.content (fs.node out) = some f ↔
          f.length = relocStart (ObjSpec.parts (objectOf ls)) ∧ FileStart h (objectOf ls) f)) := by
  obtain ⟨r1, r2⟩ := C52_result bd h chunking fs args out inp src hcfg hd hs hrd hwr
  obtain ⟨h1, h2⟩ := C79_assemble bd (chunking src) hch.2
  rw [hch.1] at h1 h2
  refine ⟨fun e he => r1 e ((h2 e).2 he), fun ls hp hb hw => ?_⟩
  obtain ⟨a, ha, hobj⟩ := (h1 (objectOf ls)).2 ⟨ls, hp, hb, hw, rfl⟩
  obtain ⟨e1, e2⟩ := r2 a ha
  have ho := objOf_objectOf ls hb
  have hro : RelocsOk ls := by obtain ⟨ss, hc, hm⟩ := hp; exact relocsOk_of hm
  obtain ⟨c1, c2⟩ := wrap_conditions hp hsize
  have hwo : a.writeInto bd h = writeInto bd h (objectOf ls) := by unfold Assembler.writeInto; rw [hobj]
  rw [e1, e2, hwo]
  refine ⟨fun hok => (C78_written bd h _ c1 c2 hok).1, fun hok f => ?_, fun hne => ?_, fun hfit hcomp => ?_,
    fun hfit hcomp f => ?_⟩
  · rw [(C78_written bd h _ c1 c2 hok).2 f, Option.some.injEq]
    exact eq_comm
  · obtain ⟨k1, k2, _⟩ := C78_release h _ c1 c2
    have hrel : (writeInto .release h (objectOf ls)).res ≠ .ok () → (writeInto .release h (objectOf ls)).res = .error .panic :=
      fun hn => k2.2 fun hw => hn (k1.2 hw)
    cases bd with
    | release => exact hrel hne
    | debug =>
      rcases agree_writeInto h (objectOf ls) with ⟨g, _⟩ | g
      · exact g
      · rw [← g] at hne ⊢; exact hrel hne
  · rcases hfit with rfl | hfit
    · exact (C78_release h _ c1 c2).1.2 hcomp
    · have hf := (ho.fits_iff hro).2 hfit
      exact (C34_write_ok_iff bd h _ hf).1.2 ((C78_names _ hf.strs).1.1 hcomp)
  · have hf : bd = .release ∨ Fits (objectOf ls) := hfit.imp_right (ho.fits_iff hro).2
    rw [(C78_panics bd h _ c1 c2 hf hcomp).2 f, Option.some.injEq]
    exact eq_comm

/-- C79: if the names of the labels take less than `2 ^ 32 - 1` bytes, the object can be expressed
exactly for complete programs. -/
theorem C79_complete (bd : Build) (src : Bytes) (ls : List Line) (hp : Program bd src ls)
    (hb : NoBssContent ls) (hnames : ((table ls).map (fun e => utf8Len e.name + 1)).sum < 2 ^ 32 - 1) :
    Expressible (objectOf ls) ↔ Complete ls := by
  have ho := objOf_objectOf ls hb
  have hro : RelocsOk ls := by obtain ⟨ss, hc, hm⟩ := hp; exact relocsOk_of hm
  rw [(C78_names _ (by rw [strLen_table ho]; omega)).1]
  exact ho.writable_iff hro hb

/-! ## Examples -/

/-- The sample meets the conditions of C79, in both builds; its object has all its parts. -/
example (bd : Build) : Program bd (utf8 sampleSource) sampleLines ∧ NoBssContent sampleLines ∧
    Within bd sampleLines ∧ Complete sampleLines ∧
    ((table sampleLines).map (fun e => utf8Len e.name + 1)).sum < 2 ^ 32 - 1 ∧
    objectOf sampleLines = { sections := {
      text := {
        bytes := [0x48, 0xB8, 1, 0, 0, 0, 0, 0, 0, 0, 0x48, 0xBE, 0, 0, 0, 0, 0, 0, 0, 0, 0x0F, 0x05]
        symbols := [.ref (str% "start") 10 true]
        relocs := [⟨12, str% "msg", false, 3⟩] }
      data := { bytes := [1, 2, 104, 105, 33, 0], symbols := [.ref (str% "x") 0 false, .ref (str% "msg") 2 false] }
      bss := { symbols := [.ref (str% "end") 0 false] } } } := by
  refine ⟨sample_program bd, sample_noBss, sample_small.within bd, ⟨sample_noBss,
    fun e he c hc => (sample_acceptable.ascii e he c hc).2, fun x p hp => ?_⟩, by decide +kernel,
    by decide +kernel⟩
  obtain ⟨e, he, hs⟩ := sample_acceptable.defined x p hp
  refine ⟨e, he, ?_⟩
  rw [seen_plain (fun c hc => by have := (sample_acceptable.ascii e he c hc).1; omega)]
  exact hs

/-- A program that is not complete meets the other conditions; 224 bytes are left, all but the tables. -/
example (bd : Build) : let ls : List Line :=
      [.instruction ⟨⟨[0x48, 0xB8, 0, 0, 0, 0, 0, 0, 0, 0, 0, 0, 0, 0, 0], 10⟩, some ⟨2, str% "foo", false, 3⟩⟩]
    Program bd (utf8 (str% "mov rax, foo")) ls ∧ NoBssContent ls ∧ FileFits ls ∧ ¬ Complete ls ∧
    relocStart (ObjSpec.parts (objectOf ls)) = 224 ∧ fileLen (ObjSpec.parts (objectOf ls)) = 233 := by
  refine ⟨⟨[str% "mov rax, foo"], ⟨by decide +kernel, by decide +kernel, by decide +kernel, by decide +kernel⟩,
    by cases bd <;> decide +kernel⟩, fun k l hk hs => ?_, ⟨by decide +kernel, by decide +kernel⟩,
    fun h => ?_, by decide +kernel, by decide +kernel⟩
  · cases k with
    | zero => cases hs
    | succ k => cases hk
  obtain ⟨e, he, _⟩ := h.defined .text (2, ⟨2, str% "foo", false, 3⟩) (by decide +kernel)
  revert he; rw [show table _ = [] by decide +kernel]; exact List.not_mem_nil

/-- An input of each kind that stops the assembler. -/
example : Stops .debug [0xFF, 10] .panic ∧
    Stops .debug (utf8 (str% "mov rax, 0x7fffffffffffffff + 1")) .panic ∧
    Stops .release (utf8 (str% "section .bss\nret\n")) (.exit 1 (str% "error: can't write data to .bss section\n")) ∧
    Stops .release (utf8 (str% "section .bss\nmov rax, x\n")) .panic ∧
    Stops .debug (utf8 (str% "ret\nfoo\n")) (.exit 1 (str% "error at line 2: unrecognized line\n")) := by
  have key : ∀ bd (b : Bytes) e, b ≠ [] → Assembler.new.readFrom bd [b] = .error e → Stops bd b e := by
    intro bd b e hb h
    have := ((C79_assemble bd [b] (by simpa using hb)).2 e).1 h
    simpa using this
  refine ⟨key _ _ _ (by decide) (by decide +kernel), key _ _ _ (by decide +kernel) (by decide +kernel),
    key _ _ _ (by decide +kernel) (by decide +kernel), key _ _ _ (by decide +kernel) (by decide +kernel),
    key _ _ _ (by decide +kernel) (by decide +kernel)⟩

end AT.Props
