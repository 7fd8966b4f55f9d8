import Verif.Props.AsmIo
import Verif.Props.Outcome
import Verif.Model.Process
import Verif.Spec.Process
import Verif.Proofs.Panics
/-!
# The exit status and standard error tell how the run ended (C97)
-/

namespace AT.Props
open AT AT.Asm AT.AsmSpec AT.Mac AT.ObjSpec

/-! ## Arguments -/

theorem left_cases (args : List Str) : (∃ o rest, Left args o rest) ∨
    (∃ pre, args = pre ++ [str% "-o"] ∧ str% "-o" ∉ pre) := by
  rcases C51_cases args with h | h | ⟨pre, out, post, h, hp⟩
  · exact .inl ⟨_, _, .without h⟩
  · exact .inr h
  · exact .inl ⟨_, _, .withOut pre out post h hp⟩

/-- What `Config.init` makes of arguments from which the output has been taken. -/
theorem left_init {args : List Str} {o : Option Str} {rest : List Str} (h : Left args o rest) :
    (∀ prog inp, rest = [prog, inp] → ∃ out, Config.init args = .ok ⟨out, inp⟩ ∧
      (∀ q, o = some q → q = out) ∧ (o = none → Renamed inp out)) ∧
    (rest.length < 2 → Config.init args = .error (.exit 1 (str% "error: input file is not specified\n"))) ∧
    (2 < rest.length → Config.init args = .error (.exit 1 (str% "error: invalid command format\n"))) := by
  obtain ⟨c1, -, c3⟩ := C51_config args
  cases h with
  | without h =>
    obtain ⟨d1, d2, d3⟩ := c1 h
    refine ⟨fun prog inp hr => ?_, d2, d3⟩
    obtain ⟨out, ho, hq⟩ := d1 prog inp hr
    exact ⟨out, ho, fun q hq' => (by cases hq'), fun _ => (hq out).2 rfl⟩
  | withOut pre out post h hp =>
    obtain ⟨d1, d2, d3⟩ := c3 pre out post h hp
    exact ⟨fun prog inp hr => ⟨out, d1 prog inp hr, fun q hq => (by cases hq; rfl), fun hn => (by cases hn)⟩, d2, d3⟩

theorem asks_iff (args : List Str) (inp out : Str) : Asks args inp out ↔ Config.init args = .ok ⟨out, inp⟩ := by
  constructor
  · rintro (⟨prog, h⟩ | ⟨⟨prog, h⟩, hr⟩)
    · obtain ⟨q, hq, e, -⟩ := (left_init h).1 prog inp rfl
      rw [hq, e out rfl]
    · obtain ⟨q, hq, -, e⟩ := (left_init h).1 prog inp rfl
      rw [hq, (renamed_iff inp q).1 (e rfl), (renamed_iff inp out).1 hr]
  · intro hc
    rcases left_cases args with ⟨o, rest, h⟩ | ⟨pre, h, hp⟩
    · obtain ⟨d1, d2, d3⟩ := left_init h
      match rest, h, d1, d2, d3 with
      | [], h, d1, d2, d3 => rw [d2 (by decide)] at hc; cases hc
      | [_], h, d1, d2, d3 => rw [d2 (by simp)] at hc; cases hc
      | [prog, x], h, d1, d2, d3 =>
        obtain ⟨q, hq, e1, e2⟩ := d1 prog x rfl
        rw [hq] at hc
        cases hc
        cases o with
        | none => exact .inr ⟨⟨prog, h⟩, e2 rfl⟩
        | some q' => rw [e1 q' rfl] at h; exact .inl ⟨prog, h⟩
      | _ :: _ :: _ :: _, h, d1, d2, d3 => rw [d3 (by simp)] at hc; cases hc
    · rw [(C51_config args).2.1 pre h hp] at hc
      cases hc

/-- Arguments that are refused. -/
theorem init_error {args : List Str} {e : Stop} (h : Config.init args = .error e) :
    e = .panic ∨ ∃ m, e = .exit 1 m ∧ ∀ bd fs, Complains bd fs args m := by
  rcases left_cases args with ⟨o, rest, hl⟩ | ⟨pre, ha, hp⟩
  · obtain ⟨d1, d2, d3⟩ := left_init hl
    match rest, hl, d1, d2, d3 with
    | [], hl, d1, d2, d3 =>
      rw [d2 (by decide)] at h; cases h; exact .inr ⟨_, rfl, fun _ _ => .noInput o _ hl (by decide)⟩
    | [_], hl, d1, d2, d3 =>
      rw [d2 (by simp)] at h; cases h; exact .inr ⟨_, rfl, fun _ _ => .noInput o _ hl (by simp)⟩
    | [prog, x], hl, d1, d2, d3 => obtain ⟨q, hq, -⟩ := d1 prog x rfl; rw [hq] at h; cases h
    | _ :: _ :: _ :: _, hl, d1, d2, d3 =>
      rw [d3 (by simp)] at h; cases h; exact .inr ⟨_, rfl, fun _ _ => .tooMany o _ hl (by simp)⟩
  · rw [(C51_config args).2.1 pre ha hp] at h
    cases h
    exact .inl rfl

/-! ## How `main` ends -/

theorem source_iff (fs : FS) (inp out : Str) (src : Bytes) : Source fs inp out src ↔
    fs.canRead (fs.node inp) = true ∧ fs.canWrite (fs.node out) = true ∧
    ∃ b, fs.content (fs.node inp) = some b ∧ src = if fs.node inp = fs.node out then [] else b := by
  unfold Source
  by_cases hn : fs.node inp = fs.node out <;> simp [hn]

/-- Without a `Source` nothing happens; with one, `written` tells what does. -/
theorem main_source (bd : Build) (h : Endian) (c : Bytes → List Bytes) (fs : FS) (args : List Str)
    {out inp : Str} (hcfg : Config.init args = .ok ⟨out, inp⟩) :
    (∃ src, Source fs inp out src ∧
      main bd h c fs args = (fs.set (fs.node out) (written bd h (c src)).1, (written bd h (c src)).2)) ∨
    (∀ src, ¬ Source fs inp out src) ∧ main bd h c fs args = (fs, .error .panic) := by
  rw [main_written bd h c fs args out inp hcfg]
  cases hs : fs.content (fs.node inp) with
  | none =>
    refine .inr ⟨fun src hsrc => ?_, rfl⟩
    obtain ⟨-, -, b, hb, -⟩ := hsrc
    rw [hs] at hb
    cases hb
  | some b =>
    simp only
    by_cases hrw : fs.canRead (fs.node inp) = true ∧ fs.canWrite (fs.node out) = true
    · rw [if_pos hrw]
      exact .inl ⟨_, (source_iff ..).2 ⟨hrw.1, hrw.2, b, hs, rfl⟩, rfl⟩
    · rw [if_neg hrw]
      exact .inr ⟨fun src hsrc => hrw ⟨hsrc.1, hsrc.2.1⟩, rfl⟩

theorem source_unique {fs : FS} {inp out : Str} {src src' : Bytes} (h : Source fs inp out src)
    (h' : Source fs inp out src') : src = src' := by
  obtain ⟨-, -, b, hb, e⟩ := (source_iff ..).1 h
  obtain ⟨-, -, b', hb', e'⟩ := (source_iff ..).1 h'
  rw [hb] at hb'
  cases hb'
  rw [e, e']

theorem stops_kinds {bd : Build} {src : Bytes} {e : Stop} (h : Stops bd src e) :
    e = .panic ∨ ∃ m, e = .exit 1 m := by
  obtain ⟨_, _, _, _, -, -, -, -, h⟩ := h
  cases h with
  | notText | lineNumber | overflow | bssReloc | address => exact .inl rfl
  | wrong | bss => exact .inr ⟨_, rfl⟩

theorem written_kinds (bd : Build) (h : Endian) (c : Bytes → List Bytes) (hc : Splits c) (src : Bytes) :
    (∃ e, Stops bd src e ∧ written bd h (c src) = ([], .error e)) ∨
    (∃ ls, Program bd src ls ∧ NoBssContent ls ∧ Within bd ls ∧
      written bd h (c src) = ((Obj.writeInto bd h (objectOf ls)).out, (Obj.writeInto bd h (objectOf ls)).res)) := by
  obtain ⟨h1, h2⟩ := C79_assemble bd (c src) (hc src).2
  rw [(hc src).1] at h1 h2
  unfold written
  cases hr : Assembler.new.readFrom bd (c src) with
  | error e => exact .inl ⟨e, (h2 e).1 hr, rfl⟩
  | ok a =>
    obtain ⟨ls, hp, hb, hw, ho⟩ := (h1 a.obj).1 ⟨a, hr, rfl⟩
    refine .inr ⟨ls, hp, hb, hw, ?_⟩
    simp only
    unfold Assembler.writeInto
    rw [ho]

theorem written_program (bd : Build) (h : Endian) (c : Bytes → List Bytes) (hc : Splits c) {src : Bytes}
    {ls : List Line} (hp : Program bd src ls) (hb : NoBssContent ls) (hw : Within bd ls) :
    written bd h (c src) = ((Obj.writeInto bd h (objectOf ls)).out, (Obj.writeInto bd h (objectOf ls)).res) := by
  obtain ⟨h1, -⟩ := C79_assemble bd (c src) (hc src).2
  rw [(hc src).1] at h1
  obtain ⟨a, ha, ho⟩ := (h1 (objectOf ls)).2 ⟨ls, hp, hb, hw, rfl⟩
  unfold written
  rw [ha]
  simp only
  unfold Assembler.writeInto
  rw [ho]

/-- `main` with ideal I/O: it succeeds, panics, or complains. -/
theorem main_kinds (bd : Build) (h : Endian) (c : Bytes → List Bytes) (hc : Splits c) (fs : FS) (args : List Str) :
    (main bd h c fs args).2 = .ok () ∨ (main bd h c fs args).2 = .error .panic ∨
    ∃ m, (main bd h c fs args).2 = .error (.exit 1 m) ∧ Complains bd fs args m := by
  cases hcfg : Config.init args with
  | error e =>
    have hm : main bd h c fs args = (fs, .error e) := by unfold main; rw [hcfg]
    rw [hm]
    rcases init_error hcfg with rfl | ⟨m, rfl, hcm⟩
    · exact .inr (.inl rfl)
    · exact .inr (.inr ⟨m, rfl, hcm bd fs⟩)
  | ok cfg =>
    obtain ⟨out, inp⟩ := cfg
    rcases main_source bd h c fs args hcfg with ⟨src, hs, hm⟩ | ⟨-, hm⟩
    · rw [hm]
      rcases written_kinds bd h c hc src with ⟨e, he, hw⟩ | ⟨ls, -, -, -, hw⟩
      · rw [hw]
        rcases stops_kinds he with rfl | ⟨m, rfl⟩
        · exact .inr (.inl rfl)
        · exact .inr (.inr ⟨m, rfl, .line inp out src m ((asks_iff ..).2 hcfg) hs he⟩)
      · rw [hw]
        rcases writeInto_ends bd h (objectOf ls) with hq | hq
        · exact .inl hq
        · exact .inr (.inl hq)
    · rw [hm]
      exact .inr (.inl rfl)

/-- A complaint is what `main` ends with. -/
theorem main_complains (bd : Build) (h : Endian) (c : Bytes → List Bytes) (hc : Splits c) (fs : FS)
    (args : List Str) {m : Str} (hm : Complains bd fs args m) :
    (main bd h c fs args).2 = .error (.exit 1 m) := by
  have herr : ∀ {e}, Config.init args = .error e → (main bd h c fs args).2 = .error e := by
    intro e he
    unfold main
    rw [he]
  cases hm with
  | noInput o rest hl hlen => exact herr ((left_init hl).2.1 hlen)
  | tooMany o rest hl hlen => exact herr ((left_init hl).2.2 hlen)
  | line inp out src m ha hs hst =>
    rcases main_source bd h c fs args ((asks_iff ..).1 ha) with ⟨src', hs', hmm⟩ | ⟨hn, -⟩
    · rw [← source_unique hs hs'] at hmm
      rw [hmm]
      rcases written_kinds bd h c hc src with ⟨e, he, hw⟩ | ⟨ls, hp, hb, hwi, -⟩
      · rw [hw, (C79_kinds bd src).2.2 _ _ he hst]
      · exact absurd hst ((C79_kinds bd src).2.1 ls _ hp hb hwi)
    · exact absurd hs (hn src)

/-! ## C97 -/

/-- C97: there is at most one complaint about a run. -/
theorem C97_one_complaint (bd : Build) (fs : FS) (args : List Str) (m m' : Str)
    (h : Complains bd fs args m) (h' : Complains bd fs args m') : m = m' := by
  have hc : Splits (fun b => if b = [] then [] else [b]) := fun b => by by_cases hb : b = [] <;> simp [hb]
  have e := main_complains bd .little _ hc fs args h
  rw [main_complains bd .little _ hc fs args h'] at e
  cases e
  rfl

theorem eprint_cases (m : Str) (errs : Option (List Put)) :
    (eprint m errs = (utf8 m, true)) ∨ (errs = none ∧ eprint m errs = ([], true)) ∨
    (errs ≠ none ∧ ∃ k, k < (utf8 m).length ∧ eprint m errs = ((utf8 m).take k, false)) := by
  cases errs with
  | none => exact .inr (.inl ⟨rfl, rfl⟩)
  | some ps =>
    obtain ⟨h1, h2⟩ := writeAllIo_stored (utf8 m) ps
    unfold eprint
    cases hb : (writeAllIo (utf8 m) ps).2.2 with
    | true => left; simp only [h1 hb, hb]
    | false => obtain ⟨k, hk, hq⟩ := h2 hb; exact .inr (.inr ⟨by simp, k, hk, by simp only [hq, hb]⟩)

/-- C97: whatever the files and standard error do, the status is 0, 1 or 101, and tells what happened.
0: nothing was said, and the files are those of a run with ideal I/O that succeeds.  1: the files are
those of a run with ideal I/O, whose complaint was said in full (unless standard error was closed).
101: the runtime reported a panic; nothing was said before, or the beginning of the complaint, as
standard error failed. -/
theorem C97_status (bd : Build) (h : Endian) (c : Bytes → List Bytes) (hc : Splits c)
    (reads : Bytes → List Got) (hr : ∀ b, Answers b (reads b)) (writes : List Put)
    (errs : Option (List Put)) (fs fs' : FS) (args : List Str) (e : Ended)
    (hp : process bd h reads writes errs fs (args.map utf8) = (fs', e)) :
    (e.status = 0 ∧ e.panicked = false ∧ e.said = [] ∧ main bd h c fs args = (fs', .ok ())) ∨
    (e.status = 1 ∧ e.panicked = false ∧ ∃ m, Complains bd fs args m ∧
      main bd h c fs args = (fs', .error (.exit 1 m)) ∧ (e.said = utf8 m ∨ errs = none ∧ e.said = [])) ∨
    (e.status = 101 ∧ e.panicked = true ∧
      (e.said = [] ∨ ∃ m k, Complains bd fs args m ∧ errs ≠ none ∧ fs' = (main bd h c fs args).1 ∧
        k < (utf8 m).length ∧ e.said = (utf8 m).take k)) := by
  unfold process at hp
  cases hp
  rcases C75_main bd h c hc reads hr writes fs args with hm | ⟨hm, -⟩
  · rw [hm]
    rcases main_kinds bd h c hc fs args with hk | hk | ⟨m, hk, hcm⟩
    · refine .inl ⟨?_, ?_, ?_, Prod.ext rfl hk⟩ <;> rw [hk] <;> rfl
    · refine .inr (.inr ⟨?_, ?_, .inl ?_⟩) <;> rw [hk] <;> rfl
    · rcases eprint_cases m errs with he | ⟨hn, he⟩ | ⟨hn, k, hlt, he⟩
      · refine .inr (.inl ⟨?_, ?_, m, hcm, Prod.ext rfl hk, .inl ?_⟩) <;> rw [hk] <;> simp only [ended, he] <;> rfl
      · refine .inr (.inl ⟨?_, ?_, m, hcm, Prod.ext rfl hk, .inr ⟨hn, ?_⟩⟩) <;> rw [hk] <;>
          simp only [ended, he] <;> rfl
      · refine .inr (.inr ⟨?_, ?_, .inr ⟨m, k, hcm, hn, rfl, hlt, ?_⟩⟩) <;> rw [hk] <;> simp only [ended, he]
  · rw [hm]
    exact .inr (.inr ⟨rfl, rfl, .inl rfl⟩)

/-- C97: if reading, writing and standard error never fail, the status is 1 exactly if there is a
complaint, which is then what is said, 0 exactly if the run with ideal I/O succeeds, and otherwise
101; and the files are those of the run with ideal I/O. -/
theorem C97_no_failure (bd : Build) (h : Endian) (c : Bytes → List Bytes) (hc : Splits c)
    (reads : Bytes → List Got) (hr : ∀ b, Answers b (reads b)) (hf : ∀ b, Got.failed ∉ reads b)
    (writes : List Put) (hw : ∀ p ∈ writes, Progress p) (errs : List Put) (he : ∀ p ∈ errs, Progress p)
    (fs fs' : FS) (args : List Str) (e : Ended)
    (hp : process bd h reads writes (some errs) fs (args.map utf8) = (fs', e)) :
    fs' = (main bd h c fs args).1 ∧
    (∀ m, Complains bd fs args m ↔ e = ⟨1, utf8 m, false⟩) ∧
    (main bd h c fs args = (fs', .ok ()) ↔ e = ⟨0, [], false⟩) ∧
    (e.status = 0 ∨ (∃ m, e = ⟨1, utf8 m, false⟩) ∨ e = ⟨101, [], true⟩) := by
  unfold process at hp
  rw [C75_no_failure bd h c hc reads hr hf writes hw fs args] at hp
  cases hp
  refine ⟨rfl, fun m => ⟨fun hm => ?_, fun hm => ?_⟩, ⟨fun hm => ?_, fun hm => ?_⟩, ?_⟩
  · rw [main_complains bd h c hc fs args hm]
    simp only [ended, eprint, (writeAllIo_progress (utf8 m) errs he).1,
      (writeAllIo_stored (utf8 m) errs).1 (writeAllIo_progress (utf8 m) errs he).1]
    rfl
  · rcases main_kinds bd h c hc fs args with hk | hk | ⟨m', hk, hcm⟩
    · rw [hk] at hm; cases hm
    · rw [hk] at hm; cases hm
    · rw [hk] at hm
      simp only [ended, eprint, (writeAllIo_progress (utf8 m') errs he).1,
        (writeAllIo_stored (utf8 m') errs).1 (writeAllIo_progress (utf8 m') errs he).1] at hm
      have hu : utf8 m' = utf8 m := congrArg Ended.said hm
      rw [← utf8_injective hu]
      exact hcm
  · rw [hm]; rfl
  · rcases main_kinds bd h c hc fs args with hk | hk | ⟨m', hk, hcm⟩
    · exact Prod.ext rfl hk
    · rw [hk] at hm; cases hm
    · rw [hk] at hm
      simp only [ended, eprint, (writeAllIo_progress (utf8 m') errs he).1] at hm
      have : exitStatus 1 = 0 := congrArg Ended.status hm
      exact absurd this (by decide)
  · rcases main_kinds bd h c hc fs args with hk | hk | ⟨m, hk, hcm⟩
    · rw [hk]; exact .inl rfl
    · rw [hk]; exact .inr (.inr rfl)
    · refine .inr (.inl ⟨m, ?_⟩)
      rw [hk]
      simp only [ended, eprint, (writeAllIo_progress (utf8 m) errs he).1,
        (writeAllIo_stored (utf8 m) errs).1 (writeAllIo_progress (utf8 m) errs he).1]
      rfl

/-- C97: status 0 means that the arguments name a program whose object the output file now holds, and no
other file has changed; and a program whose object can be expressed gives status 0, if no 32-bit
computation overflows or the build does not check. -/
theorem C97_success (bd : Build) (h : Endian) (reads : Bytes → List Got) (hr : ∀ b, Answers b (reads b))
    (writes : List Put) (errs : Option (List Put)) (fs fs' : FS) (args : List Str) (e : Ended)
    (hp : process bd h reads writes errs fs (args.map utf8) = (fs', e))
    (hsize : ∀ n b, fs.content n = some b → b.length < 2 ^ 60) :
    (e.status = 0 → ∃ out src ls, Assembles bd fs args out src ls ∧ Expressible (objectOf ls) ∧
      (∀ f, fs'.content (fs.node out) = some f ↔ FileMod h (objectOf ls) f) ∧
      ∀ n, n ≠ fs.node out → fs'.content n = fs.content n) ∧
    (∀ out src ls, Assembles bd fs args out src ls → Expressible (objectOf ls) →
      bd = .release ∨ FileFits ls → (∀ b, Got.failed ∉ reads b) → (∀ p ∈ writes, Progress p) →
      e = ⟨0, [], false⟩) := by
  have hc : Splits (fun b => if b = [] then [] else [b]) := fun b => by by_cases hb : b = [] <;> simp [hb]
  have hlen : ∀ {inp out src}, Source fs inp out src → src.length < 2 ^ 60 := by
    rintro inp out src ⟨-, -, b, hb, ⟨-, rfl⟩ | ⟨-, rfl⟩⟩
    · decide
    · exact hsize _ _ hb
  refine ⟨fun h0 => ?_, fun out src ls ha hx hfit hf hw => ?_⟩
  · have hm : main bd h (fun b => if b = [] then [] else [b]) fs args = (fs', .ok ()) := by
      rcases C97_status bd h _ hc reads hr writes errs fs fs' args e hp with ⟨-, -, -, hm⟩ | ⟨h1, -⟩ | ⟨h1, -⟩
      · exact hm
      · rw [h1] at h0; cases h0
      · rw [h1] at h0; cases h0
    cases hcfg : Config.init args with
    | error e => unfold main at hm; rw [hcfg] at hm; cases hm
    | ok cfg =>
      obtain ⟨out, inp⟩ := cfg
      rcases main_source bd h _ fs args hcfg with ⟨src, hs, hm'⟩ | ⟨-, hm'⟩
      · rw [hm] at hm'
        rcases written_kinds bd h _ hc src with ⟨e, he, hw⟩ | ⟨ls, hpr, hb, hwi, hw⟩
        · rw [hw] at hm'; cases congrArg Prod.snd hm'
        · rw [hw] at hm'
          obtain ⟨c1, c2⟩ := wrap_conditions hpr (hlen hs)
          have hok : (Obj.writeInto bd h (objectOf ls)).res = .ok () := (congrArg Prod.snd hm').symm
          refine ⟨out, src, ls, ⟨inp, (asks_iff ..).2 hcfg, hs, hpr, hb, hwi⟩, (C78_written bd h _ c1 c2 hok).1,
            fun f => ?_, fun n hn => ?_⟩
          · rw [show fs' = _ from congrArg Prod.fst hm', (C78_written bd h _ c1 c2 hok).2 f]
            simp only [FS.set, if_true, Option.some.injEq]
            exact eq_comm
          · rw [show fs' = _ from congrArg Prod.fst hm']
            simp only [FS.set, if_neg hn]
      · rw [hm] at hm'; cases congrArg Prod.snd hm'
  · obtain ⟨inp, hask, hs, hpr, hb, hwi⟩ := ha
    have hm : (main bd h (fun b => if b = [] then [] else [b]) fs args).2 = .ok () := by
      rcases main_source bd h _ fs args ((asks_iff ..).1 hask) with ⟨src', hs', hm'⟩ | ⟨hn, -⟩
      · rw [← source_unique hs hs'] at hm'
        rw [hm']
        rw [written_program bd h _ hc hpr hb hwi]
        obtain ⟨c1, c2⟩ := wrap_conditions hpr (hlen hs)
        have hro : RelocsOk ls := by obtain ⟨ss, hc, hm⟩ := hpr; exact relocsOk_of hm
        rcases hfit with rfl | hfit
        · exact (C78_release h _ c1 c2).1.2 hx
        · have hf := ((objOf_objectOf ls hb).fits_iff hro).2 hfit
          exact (C34_write_ok_iff bd h _ hf).1.2 ((C78_names _ hf.strs).1.1 hx)
      · exact absurd hs (hn src)
    unfold process at hp
    rw [C75_no_failure bd h _ hc reads hr hf writes hw fs args] at hp
    cases hp
    rw [hm]
    rfl

/-- C97: an argument that is not text panics before anything is touched. -/
theorem C97_bad_argument (bd : Build) (h : Endian) (reads : Bytes → List Got) (writes : List Put)
    (errs : Option (List Put)) (fs : FS) (args : List Bytes) (hb : ∃ b ∈ args, ∀ s, b ≠ utf8 s) :
    process bd h reads writes errs fs args = (fs, ⟨101, [], true⟩) := by
  unfold process
  rw [C75_bad_argument bd h reads writes fs args hb]
  rfl

/-- C97: standard error never changes what happens to the files.  It only matters if the program has a
complaint: then part of the complaint arrives, and the status is 1 or, if standard error failed, 101. -/
theorem C97_stderr (bd : Build) (h : Endian) (reads : Bytes → List Got) (hr : ∀ b, Answers b (reads b))
    (writes : List Put) (errs errs' : Option (List Put)) (fs f f' : FS) (args : List Bytes) (e e' : Ended)
    (hp : process bd h reads writes errs fs args = (f, e))
    (hp' : process bd h reads writes errs' fs args = (f', e')) :
    f = f' ∧ (e = e' ∨ ∃ ss m, args = ss.map utf8 ∧ Complains bd fs ss m ∧
      (e.said <+: utf8 m ∧ (e.status = 1 ∨ e.status = 101)) ∧
      (e'.said <+: utf8 m ∧ (e'.status = 1 ∨ e'.status = 101))) := by
  refine ⟨(congrArg Prod.fst hp).symm.trans (congrArg Prod.fst hp'), ?_⟩
  by_cases hb : ∃ b ∈ args, ∀ s, b ≠ utf8 s
  · rw [C97_bad_argument bd h reads writes errs fs args hb] at hp
    rw [C97_bad_argument bd h reads writes errs' fs args hb] at hp'
    cases hp
    cases hp'
    exact .inl rfl
  · obtain ⟨ss, rfl⟩ : ∃ ss : List Str, args = ss.map utf8 := by
      clear hp hp'
      induction args with
      | nil => exact ⟨[], rfl⟩
      | cons b bs ih =>
        obtain ⟨ss, rfl⟩ := ih fun ⟨x, hx, hn⟩ => hb ⟨x, List.mem_cons_of_mem _ hx, hn⟩
        cases hu : fromUtf8 b with
        | none => exact absurd ⟨b, List.mem_cons_self, fun s hs => by rw [hs, fromUtf8_utf8] at hu; cases hu⟩ hb
        | some s => exact ⟨s :: ss, by rw [List.map_cons, utf8_of_fromUtf8 hu]⟩
    have hc : Splits (fun b => if b = [] then [] else [b]) := fun b => by by_cases hb : b = [] <;> simp [hb]
    have key : ∀ errs m, Complains bd fs ss m → (ended errs (.error (.exit 1 m))).said <+: utf8 m ∧
        ((ended errs (.error (.exit 1 m))).status = 1 ∨ (ended errs (.error (.exit 1 m))).status = 101) := by
      intro errs m _
      rcases eprint_cases m errs with he | ⟨-, he⟩ | ⟨-, k, -, he⟩ <;> simp only [ended, he]
      · exact ⟨List.prefix_rfl, .inl rfl⟩
      · exact ⟨List.nil_prefix, .inl rfl⟩
      · exact ⟨List.take_prefix _ _, .inr trivial⟩
    unfold process at hp hp'
    cases hp
    cases hp'
    rcases C75_main bd h _ hc reads hr writes fs ss with hm | ⟨hm, -⟩
    · rw [hm]
      rcases main_kinds bd h _ hc fs ss with hk | hk | ⟨m, hk, hcm⟩
      · rw [hk]; exact .inl rfl
      · rw [hk]; exact .inl rfl
      · rw [hk]; exact .inr ⟨ss, m, rfl, hcm, key errs m hcm, key errs' m hcm⟩
    · rw [hm]; exact .inl rfl

/-! ## Examples -/

/-- Reads in one piece. -/
theorem answers_whole (b : Bytes) : Answers b (if b = [] then [] else [.bytes b]) := by
  by_cases h : b = []
  · subst h; exact .eof
  · rw [if_neg h]; simpa using Answers.bytes b [] [] h .eof

theorem twoFiles_small (n : Nat) (b : Bytes) : twoFiles.content n = some b → b.length < 2 ^ 60 := by
  unfold twoFiles
  simp only
  repeat' split
  all_goals (intro h; cases h)
  all_goals decide

/-- With the files of C69: `a.s` is assembled, `b.s` gets a complaint, which is lost if standard error is
closed and cut short if it fails, a missing argument and a superfluous one get theirs, and a file that
does not exist panics. -/
example :
    (let run := fun errs (args : List Str) =>
      (process .debug .little (fun b => if b = [] then [] else [.bytes b]) [.accept 1, .interrupted] errs twoFiles
        (args.map utf8)).2
    run (some []) [str% "as", str% "a.s"] = ⟨0, [], false⟩ ∧
    run (some [.accept 3, .interrupted]) [str% "as", str% "b.s"] =
      ⟨1, utf8 (str% "error at line 1: unrecognized line\n"), false⟩ ∧
    run none [str% "as", str% "b.s"] = ⟨1, [], false⟩ ∧
    run (some [.accept 5, .failed]) [str% "as", str% "b.s"] = ⟨101, utf8 (str% "error"), true⟩ ∧
    run (some []) [str% "as"] = ⟨1, utf8 (str% "error: input file is not specified\n"), false⟩ ∧
    run (some []) [str% "as", str% "a.s", str% "b.s"] = ⟨1, utf8 (str% "error: invalid command format\n"), false⟩ ∧
    run (some []) [str% "as", str% "c.s"] = ⟨101, [], true⟩) := by
  decide +kernel

/-- `a.s` is a program in the sense of `C97_success`. -/
example : ∃ out src ls, Assembles .debug twoFiles [str% "as", str% "a.s"] out src ls ∧ Expressible (objectOf ls) := by
  obtain ⟨out, src, ls, ha, hx, -⟩ := (C97_success .debug .little _ answers_whole [] none twoFiles _
    [str% "as", str% "a.s"] _ rfl twoFiles_small).1 (by decide +kernel)
  exact ⟨out, src, ls, ha, hx⟩

/-- There is a complaint about `b.s`. -/
example : Complains .debug twoFiles [str% "as", str% "b.s"] (str% "error at line 1: unrecognized line\n") :=
  ((C97_no_failure .debug .little (fun b => if b = [] then [] else [b])
    (fun b => by by_cases hb : b = [] <;> simp [hb]) _ answers_whole
    (fun b => by by_cases hb : b = [] <;> simp [hb]) [] (by simp) [] (by simp) twoFiles _ _ _ rfl).2.1 _).2
    (by decide +kernel)

/-- The status of other codes: only the low byte counts. -/
example : exitStatus 1 = 1 ∧ exitStatus 256 = 0 ∧ exitStatus (-1) = 255 := by decide

end AT.Props
