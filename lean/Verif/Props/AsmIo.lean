import Verif.Spec.AsmIo
import Verif.Props.Reruns
/-!
# C75: I/O that is slow, interrupted or failing
-/

namespace AT.Props
open AT.Asm AT.AsmSpec AT.Mac

/-! ## Reading -/

theorem delivered_prefix {src : Bytes} {gs : List Got} (h : Answers src gs) : delivered gs <+: src := by
  induction h with
  | eof => exact List.prefix_rfl
  | bytes c rest gs _ _ ih => exact (List.prefix_append_right_inj c).2 ih
  | interrupted _ _ _ ih => exact ih
  | failed => exact List.nil_prefix

theorem delivered_all {src : Bytes} {gs : List Got} (h : Answers src gs) (hf : Got.failed ∉ gs) :
    delivered gs = src := by
  induction h with
  | eof => rfl
  | bytes c rest gs _ _ ih => simp only [delivered]; rw [ih (by simpa using hf)]
  | interrupted _ _ _ ih => exact ih (by simpa using hf)
  | failed => simp at hf

/-- What a reader still has to deliver. -/
def ahead (r : ReaderIo) : Bytes := r.buf ++ delivered r.rest

/-- No read that delivers nothing comes before the first failure. -/
inductive Live : List Got → Prop where
  | nil : Live []
  | bytes (c : Bytes) (gs : List Got) : c ≠ [] → Live gs → Live (.bytes c :: gs)
  | interrupted (gs : List Got) : Live gs → Live (.interrupted :: gs)
  | failed (gs : List Got) : Live (.failed :: gs)

theorem Live.of {src : Bytes} {gs : List Got} (h : Answers src gs) : Live gs := by
  induction h with
  | eof => exact .nil
  | bytes c _ _ hc _ ih => exact .bytes _ _ hc ih
  | interrupted _ _ _ ih => exact .interrupted _ ih
  | failed => exact .failed _

theorem newline_unique {p x u v : Bytes} (hp : (10 : UInt8) ∉ p) (hx : (10 : UInt8) ∉ x)
    (h : p ++ 10 :: u = x ++ 10 :: v) : p = x ∧ u = v := by
  induction p generalizing x with
  | nil =>
    cases x with
    | nil => exact ⟨rfl, by simpa using h⟩
    | cons b x => simp only [List.nil_append, List.cons_append, List.cons.injEq] at h; exact absurd (by simp [← h.1]) hx
  | cons a p ih =>
    cases x with
    | nil => simp only [List.nil_append, List.cons_append, List.cons.injEq] at h; exact absurd (by simp [h.1]) hp
    | cons b x =>
      simp only [List.cons_append, List.cons.injEq] at h
      simp only [List.mem_cons, not_or] at hp hx
      obtain ⟨h1, h2⟩ := ih hp.2 hx.2 h.2
      exact ⟨by rw [h.1, h1], h2⟩

theorem readUntilIoGo_line {gs : List Got} (hl : Live gs) (acc x y : Bytes) (hacc : (10 : UInt8) ∉ acc)
    (hx : (10 : UInt8) ∉ x) (h : acc ++ delivered gs = x ++ 10 :: y) :
    ∃ r, readUntilIoGo acc gs = .ok (x ++ [10], r) ∧ ahead r = y ∧ Live r.rest ∧
      (Got.failed ∈ r.rest ↔ Got.failed ∈ gs) := by
  have nope : ∀ {acc : Bytes}, (10 : UInt8) ∉ acc → acc ++ [] = x ++ 10 :: y → False := fun ha h => by
    rw [List.append_nil] at h; exact ha (by rw [h]; simp)
  induction hl generalizing acc with
  | nil => exact (nope hacc h).elim
  | failed => exact (nope hacc h).elim
  | interrupted gs _ ih =>
    obtain ⟨r, h1, h2, h3, h4⟩ := ih acc hacc h
    exact ⟨r, h1, h2, h3, by simp [h4]⟩
  | bytes c gs hc hl ih =>
    obtain ⟨b, bs, rfl⟩ : ∃ b bs, c = b :: bs := by cases c <;> simp at hc ⊢
    simp only [readUntilIoGo]
    cases hn : cutNewline (b :: bs) with
    | none =>
      have h10 := cutNewline_none.1 hn
      obtain ⟨r, h1, h2, h3, h4⟩ := ih (acc ++ b :: bs) (by simp only [List.mem_append, not_or]; exact ⟨hacc, h10⟩)
        (by simpa [delivered] using h)
      exact ⟨r, h1, h2, h3, by simp [h4]⟩
    | some lr =>
      obtain ⟨l, r⟩ := lr
      obtain ⟨p, hp, rfl, hb⟩ := cutNewline_some.1 hn
      have := newline_unique (p := acc ++ p) (u := r ++ delivered gs)
        (by simp only [List.mem_append, not_or]; exact ⟨hacc, hp⟩) hx (by rw [← h, delivered, hb]; simp)
      exact ⟨⟨r, gs⟩, by simp only; rw [← this.1]; simp, this.2, hl, by simp⟩

theorem readUntilIoGo_rest {gs : List Got} (hl : Live gs) (acc : Bytes) (h : (10 : UInt8) ∉ acc ++ delivered gs) :
    readUntilIoGo acc gs = if Got.failed ∈ gs then .error .panic else .ok (acc ++ delivered gs, ⟨[], []⟩) := by
  induction hl generalizing acc with
  | nil => simp [readUntilIoGo, delivered]
  | failed => simp [readUntilIoGo]
  | interrupted gs _ ih => simp only [readUntilIoGo]; rw [ih acc h]; simp [delivered]
  | bytes c gs hc hl ih =>
    obtain ⟨b, bs, rfl⟩ : ∃ b bs, c = b :: bs := by cases c <;> simp at hc ⊢
    simp only [delivered] at h
    have hn : cutNewline (b :: bs) = none := cutNewline_none.2 fun hm => h (by simp only [List.mem_append]; exact .inr (.inl hm))
    simp only [readUntilIoGo, hn]
    rw [ih (acc ++ b :: bs) (by rwa [List.append_assoc])]
    simp [delivered]

theorem readUntilIo_line {r : ReaderIo} (hl : Live r.rest) {x y : Bytes} (hx : (10 : UInt8) ∉ x)
    (h : ahead r = x ++ 10 :: y) :
    ∃ r', readUntilIo r = .ok (x ++ [10], r') ∧ ahead r' = y ∧ Live r'.rest ∧
      (Got.failed ∈ r'.rest ↔ Got.failed ∈ r.rest) := by
  unfold readUntilIo
  cases hn : cutNewline r.buf with
  | none => exact readUntilIoGo_line hl r.buf x y (cutNewline_none.1 hn) hx h
  | some lb =>
    obtain ⟨l, b⟩ := lb
    obtain ⟨p, hp, rfl, hb⟩ := cutNewline_some.1 hn
    have := newline_unique (p := p) (u := b ++ delivered r.rest) hp hx (by rw [← h, ahead, hb]; simp)
    exact ⟨⟨b, r.rest⟩, by simp only; rw [this.1], this.2, hl, Iff.rfl⟩

theorem readUntilIo_rest {r : ReaderIo} (hl : Live r.rest) (h : (10 : UInt8) ∉ ahead r) :
    readUntilIo r = if Got.failed ∈ r.rest then .error .panic else .ok (ahead r, ⟨[], []⟩) := by
  unfold readUntilIo
  have hn : cutNewline r.buf = none := cutNewline_none.2 fun hm => h (by simp only [ahead, List.mem_append]; exact .inl hm)
  simp only [hn]
  exact readUntilIoGo_rest hl r.buf h

theorem nextLineIo_line {r : ReaderIo} (hl : Live r.rest) {x y : Bytes} (hx : (10 : UInt8) ∉ x)
    (h : ahead r = x ++ 10 :: y) :
    ∃ r', r.nextLine = (runwrap (fromUtf8 (x ++ [10])) >>= fun s => pure (some s, r')) ∧ ahead r' = y ∧
      Live r'.rest ∧ (Got.failed ∈ r'.rest ↔ Got.failed ∈ r.rest) := by
  obtain ⟨r', h1, h2⟩ := readUntilIo_line hl hx h
  refine ⟨r', ?_, h2⟩
  unfold ReaderIo.nextLine
  rw [h1]
  cases x <;> rfl

/-- The loop up to the end of the last complete line. -/
theorem readLoopIo_lines (bd : Build) (ls : List Bytes) (hls : ∀ l ∈ ls, ∃ x, (10 : UInt8) ∉ x ∧ l = x ++ [10]) :
    ∀ (a : Assembler) (r : ReaderIo) (t : Bytes), Live r.rest → ahead r = ls.flatten ++ t →
    ∃ r', ahead r' = t ∧ Live r'.rest ∧ (Got.failed ∈ r'.rest ↔ Got.failed ∈ r.rest) ∧
      a.readLoopIo bd r = (runLines bd a ls >>= fun a' => a'.readLoopIo bd r') := by
  induction ls with
  | nil => exact fun a r t hl h => ⟨r, h, hl, Iff.rfl, rfl⟩
  | cons l ls ih =>
    intro a r t hl h
    obtain ⟨x, hx, rfl⟩ := hls l (by simp)
    obtain ⟨r1, h1, h2, h3, h4⟩ := nextLineIo_line hl (y := ls.flatten ++ t) hx (by rw [h]; simp)
    have key : a.readLoopIo bd r = match fromUtf8 (x ++ [10]) with
        | none => .error .panic
        | some s => match a.doLine bd s with
          | .error e => .error e
          | .ok a' => a'.readLoopIo bd r1 := by
      rw [Assembler.readLoopIo]
      cases hu : fromUtf8 (x ++ [10]) with
      | none => rw [hu] at h1; split <;> simp_all [runwrap, bind, Except.bind]
      | some s =>
        rw [hu] at h1
        simp only [runwrap, bind, Except.bind, pure, Except.pure] at h1
        split
        · rename_i heq; rw [h1] at heq; cases heq
        · rename_i heq; rw [h1] at heq; cases heq
        · rename_i heq; rw [h1] at heq; cases heq; rfl
    rw [key]
    simp only [runLines]
    cases hu : fromUtf8 (x ++ [10]) with
    | none => exact (ih (fun l hl => hls l (by simp [hl])) a r1 t h3 h2).imp fun r' h => ⟨h.1, h.2.1, h.2.2.1.trans h4, rfl⟩
    | some s =>
      cases hd : a.doLine bd s with
      | error e =>
        simp only
        rw [hd]
        exact (ih (fun l hl => hls l (by simp [hl])) a r1 t h3 h2).imp fun r' h => ⟨h.1, h.2.1, h.2.2.1.trans h4, rfl⟩
      | ok a' =>
        simp only
        rw [hd]
        exact (ih (fun l hl => hls l (by simp [hl])) a' r1 t h3 h2).imp fun r' h => ⟨h.1, h.2.1, h.2.2.1.trans h4, h.2.2.2⟩

theorem complete_lines {b : Bytes} {ls : List Bytes} (h : Cut b ls) (he : b = [] ∨ b.getLast? = some 10) :
    ∀ l ∈ ls, ∃ x, (10 : UInt8) ∉ x ∧ l = x ++ [10] := by
  intro l hl
  have hne := h.nonempty l hl
  refine ⟨l.dropLast, h.inner l hl, ?_⟩
  have hlast : l.getLast? = some 10 := by
    by_cases hd : l ∈ ls.dropLast
    · exact h.ends l hd
    · rcases List.eq_nil_or_concat ls with rfl | ⟨ms, m, rfl⟩
      · simp at hl
      · simp only [List.concat_eq_append, List.dropLast_concat] at hd hl
        have : l = m := by simpa [hd] using hl
        subst this
        have hb := h.all
        simp only [List.concat_eq_append, List.flatten_append, List.flatten_cons, List.flatten_nil, List.append_nil] at hb
        rcases he with he | he
        · rw [he] at hb; simp [hne] at hb
        · rw [← hb, List.getLast?_append] at he
          cases hg : l.getLast? with
          | none => simp [List.getLast?_eq_none_iff] at hg; exact absurd hg hne
          | some z => rw [hg] at he; simpa using he
  rw [List.getLast?_eq_some_iff] at hlast
  obtain ⟨ys, rfl⟩ := hlast
  simp

/-- The whole of `read_from` in terms of complete lines. -/
theorem readFromIo_eq (bd : Build) (a : Assembler) {src : Bytes} {gs : List Got} (h : Answers src gs)
    {ls : List Bytes} (hls : ∀ l ∈ ls, ∃ x, (10 : UInt8) ∉ x ∧ l = x ++ [10]) {t : Bytes}
    (hd : delivered gs = ls.flatten ++ t) (ht : (10 : UInt8) ∉ t) :
    a.readFromIo bd gs = (runLines bd a ls >>= fun a' =>
      if Got.failed ∈ gs then .error .panic
      else runLines bd a' (if t = [] then [] else [t]) >>= fun a'' => pure a''.markExt) := by
  unfold Assembler.readFromIo
  obtain ⟨r, h1, h2, h3, h4⟩ := readLoopIo_lines bd ls hls a ⟨[], gs⟩ t (Live.of h) (by simpa [ahead] using hd)
  rw [h4]
  simp only at h3
  cases runLines bd a ls with
  | error e => rfl
  | ok a' =>
    have hr := readUntilIo_rest h2 (by rwa [h1])
    show (a'.readLoopIo bd r >>= fun a => pure a.markExt) = _
    simp only [h3, h1] at hr
    show _ = if Got.failed ∈ gs then _ else _
    by_cases hf : Got.failed ∈ gs
    · rw [if_pos hf] at hr ⊢
      have hn : r.nextLine = .error .panic := by unfold ReaderIo.nextLine; rw [hr]
      rw [Assembler.readLoopIo]
      split
      · rename_i heq; rw [hn] at heq; cases heq; rfl
      · rename_i heq; rw [hn] at heq; cases heq
      · rename_i heq; rw [hn] at heq; cases heq
    · rw [if_neg hf] at hr ⊢
      by_cases he : t = []
      · subst he
        have hn : r.nextLine = .ok (none, ⟨[], []⟩) := by unfold ReaderIo.nextLine; rw [hr]; rfl
        rw [Assembler.readLoopIo]
        split
        · rename_i heq; rw [hn] at heq; cases heq
        · rfl
        · rename_i heq; rw [hn] at heq; cases heq
      · rw [if_neg he]
        have hn : r.nextLine = (runwrap (fromUtf8 t) >>= fun s => pure (some s, ⟨[], []⟩)) := by
          unfold ReaderIo.nextLine; rw [hr]
          cases t with
          | nil => exact absurd rfl he
          | cons b t => rfl
        have hz : ∀ a : Assembler, a.readLoopIo bd ⟨[], []⟩ = .ok a := fun a => by
          rw [Assembler.readLoopIo]
          split
          · rename_i heq; cases heq
          · rfl
          · rename_i heq; cases heq
        rw [Assembler.readLoopIo]
        simp only [runLines]
        cases hu : fromUtf8 t with
        | none =>
          rw [hu] at hn
          split
          · rename_i heq; rw [hn] at heq; cases heq; rfl
          · rename_i heq; rw [hn] at heq; cases heq
          · rename_i heq; rw [hn] at heq; cases heq
        | some s =>
          rw [hu] at hn
          split
          · rename_i heq; rw [hn] at heq; cases heq
          · rename_i heq; rw [hn] at heq; cases heq
          · rename_i heq; rw [hn] at heq; cases heq
            simp only [hz]
            cases a'.doLine bd s <;> rfl

theorem runLines_append (bd : Build) (ls ms : List Bytes) (a : Assembler) :
    runLines bd a (ls ++ ms) = (runLines bd a ls >>= fun a' => runLines bd a' ms) := by
  induction ls generalizing a with
  | nil => rfl
  | cons l ls ih =>
    simp only [List.cons_append, runLines]
    cases fromUtf8 l with
    | none => rfl
    | some s =>
      simp only
      cases a.doLine bd s with
      | error e => rfl
      | ok a' => exact ih a'

theorem cut_rest {t : Bytes} (ht : (10 : UInt8) ∉ t) : Cut t (if t = [] then [] else [t]) := by
  by_cases h : t = []
  · subst h; exact ⟨rfl, by simp, by simp, by simp⟩
  · rw [if_neg h]
    exact ⟨by simp, by simpa using h, by simpa using fun hm => ht (List.dropLast_subset _ hm), by simp⟩

theorem split_lines (d : Bytes) : ∃ whole t, d = whole ++ t ∧ (whole = [] ∨ whole.getLast? = some 10) ∧ (10 : UInt8) ∉ t := by
  induction d with
  | nil => exact ⟨[], [], rfl, .inl rfl, by simp⟩
  | cons b d ih =>
    obtain ⟨w, t, rfl, hw, ht⟩ := ih
    rcases hw with rfl | hw
    · by_cases hb : b = 10
      · exact ⟨[b], t, rfl, .inr (by rw [hb]; rfl), ht⟩
      · exact ⟨[], b :: t, rfl, .inl rfl, by simp only [List.mem_cons, not_or]; exact ⟨Ne.symm hb, ht⟩⟩
    · refine ⟨b :: w, t, rfl, .inr ?_, ht⟩
      rw [List.getLast?_cons, hw]; rfl

/-- C75, reading.  If no read fails, neither short reads nor interruptions matter. -/
theorem C75_read_ok (bd : Build) (a : Assembler) (src : Bytes) (gs : List Got) (h : Answers src gs)
    (hf : Got.failed ∉ gs) (chunks : List Bytes) (hne : ∀ c ∈ chunks, c ≠ []) (hc : chunks.flatten = src) :
    a.readFromIo bd gs = a.readFrom bd chunks := by
  obtain ⟨w, t, hd, hw, ht⟩ := split_lines src
  obtain ⟨ls, hls⟩ := Cut.exists w
  rw [readFromIo_eq bd a h (complete_lines hls hw) (by rw [delivered_all h hf, hd, hls.all]) ht,
    readFrom_eq bd a chunks _ hne (by rw [hc, hd]; exact Cut.append hls (cut_rest ht) hw), runLines_append]
  simp only [if_neg hf]
  cases runLines bd a ls <;> rfl

/-- C75, reading.  If a read fails, the complete lines before the failure are processed as usual, so an
error in them is reported as usual; otherwise the failure is a panic.  What follows the last newline
delivered, and whatever could be read after the failure, has no effect. -/
theorem C75_read_failed (bd : Build) (a : Assembler) (src : Bytes) (gs : List Got) (h : Answers src gs)
    (hf : Got.failed ∈ gs) (whole tail : Bytes) (hd : delivered gs = whole ++ tail)
    (hw : whole = [] ∨ whole.getLast? = some 10) (ht : (10 : UInt8) ∉ tail)
    (chunks : List Bytes) (hne : ∀ c ∈ chunks, c ≠ []) (hc : chunks.flatten = whole) :
    whole <+: src ∧
    (∀ e, a.readFrom bd chunks = .error e → a.readFromIo bd gs = .error e) ∧
    (∀ a', a.readFrom bd chunks = .ok a' → a.readFromIo bd gs = .error .panic) := by
  obtain ⟨ls, hls⟩ := Cut.exists whole
  rw [readFromIo_eq bd a h (complete_lines hls hw) (by rw [hd, hls.all]) ht,
    readFrom_eq bd a chunks _ hne (by rw [hc]; exact hls)]
  refine ⟨List.IsPrefix.trans ⟨tail, hd.symm⟩ (delivered_prefix h), fun e he => ?_, fun a' he => ?_⟩
  · cases hr : runLines bd a ls with
    | error e' => rw [hr] at he; cases he; rfl
    | ok a' => rw [hr] at he; cases he
  · cases hr : runLines bd a ls with
    | error e' => rw [hr] at he; cases he
    | ok a' => simp only [if_pos hf]; rfl

/-- Reads that deliver two lines in pieces, one call interrupted, and then fail in the third line. -/
def flakyReads : List Got :=
  [.bytes (utf8 (str% "ret\nsy")), .interrupted, .bytes (utf8 (str% "scall\nfo")), .failed, .bytes (utf8 (str% "o\n"))]

theorem flaky_answers : Answers (utf8 (str% "ret\nsyscall\nfoo\nret\n")) flakyReads :=
  .bytes (utf8 (str% "ret\nsy")) (utf8 (str% "scall\nfoo\nret\n")) _ (by decide)
    (.interrupted _ _ (.bytes (utf8 (str% "scall\nfo")) (utf8 (str% "o\nret\n")) _ (by decide) (.failed _ _)))

/-- C75 on `flakyReads`: the two complete lines are fine, so the failure is a panic, although the third
line of the file is wrong. -/
example : delivered flakyReads = utf8 (str% "ret\nsyscall\n") ++ utf8 (str% "fo") ∧
    Assembler.new.readFromIo .debug flakyReads = .error .panic ∧
    Assembler.new.readFrom .debug [utf8 (str% "ret\nsyscall\nfoo\nret\n")] =
      .error (.exit 1 (str% "error at line 3: unrecognized line\n")) := by
  refine ⟨by decide +kernel, ?_, by decide +kernel⟩
  have h : Assembler.new.readFrom .debug [utf8 (str% "ret\nsyscall\n")] =
    .ok { Assembler.new with curLine := 2, obj.sections.text.bytes := [0xc3, 0x0f, 0x05] } := by decide +kernel
  exact (C75_read_failed .debug Assembler.new _ flakyReads flaky_answers (by decide)
    (utf8 (str% "ret\nsyscall\n")) (utf8 (str% "fo")) (by decide +kernel) (.inr (by decide +kernel)) (by decide +kernel)
    [utf8 (str% "ret\nsyscall\n")] (by decide +kernel) (by decide +kernel)).2.2 _ h

/-! ## Writing -/

theorem writeAllIo_stored (c : Bytes) (ps : List Put) :
    ((writeAllIo c ps).2.2 = true → (writeAllIo c ps).1 = c) ∧
    ((writeAllIo c ps).2.2 = false → ∃ k, k < c.length ∧ (writeAllIo c ps).1 = c.take k) := by
  induction ps generalizing c with
  | nil => simp [writeAllIo]
  | cons p ps ih =>
    rw [writeAllIo.eq_def]
    simp only
    by_cases hc : c = []
    · simp [hc]
    · have hpos : 0 < c.length := List.length_pos_iff.2 hc
      rw [if_neg hc]
      match p with
      | .interrupted => exact ih c
      | .failed => exact ⟨by simp, fun _ => ⟨0, hpos, by simp⟩⟩
      | .accept 0 => exact ⟨by simp, fun _ => ⟨0, hpos, by simp⟩⟩
      | .accept (n + 1) =>
        simp only
        obtain ⟨h1, h2⟩ := ih (c.drop (n + 1))
        refine ⟨fun h => by rw [h1 h]; simp, fun h => ?_⟩
        obtain ⟨k, hk, he⟩ := h2 h
        rw [List.length_drop] at hk
        refine ⟨n + 1 + k, by omega, ?_⟩
        rw [he, List.take_add (i := n + 1)]

theorem writeAllIo_progress (c : Bytes) (ps : List Put) (h : ∀ p ∈ ps, Progress p) :
    (writeAllIo c ps).2.2 = true ∧ ∀ p ∈ (writeAllIo c ps).2.1, Progress p := by
  induction ps generalizing c with
  | nil => simp [writeAllIo]
  | cons p ps ih =>
    have hp := h p (by simp)
    have hps : ∀ p ∈ ps, Progress p := fun p hp => h p (by simp [hp])
    rw [writeAllIo.eq_def]
    simp only
    by_cases hc : c = []
    · rw [if_pos hc]; exact ⟨rfl, h⟩
    · rw [if_neg hc]
      match p with
      | .interrupted => exact ih c hps
      | .failed => rcases hp with hp | ⟨n, -, hp⟩ <;> cases hp
      | .accept 0 => rcases hp with hp | ⟨n, hn, hp⟩ <;> cases hp; omega
      | .accept (n + 1) => exact ih _ hps

theorem runIoGo_stored {α : Type} (res : Res α) (cs : List Bytes) (ps : List Put) :
    runIoGo res cs ps = (cs.flatten, res) ∨
    (runIoGo res cs ps).2 = .error .panic ∧
      ∃ k, k < cs.flatten.length ∧ (runIoGo res cs ps).1 = cs.flatten.take k := by
  induction cs generalizing ps with
  | nil => exact .inl rfl
  | cons c cs ih =>
    obtain ⟨h1, h2⟩ := writeAllIo_stored c ps
    rw [runIoGo]
    obtain ⟨b, ps', ok, he⟩ : ∃ b ps' ok, writeAllIo c ps = (b, ps', ok) := ⟨_, _, _, rfl⟩
    rw [he] at h1 h2 ⊢
    cases ok with
    | true =>
      have hb : b = c := h1 rfl
      subst hb
      simp only [List.flatten_cons]
      rcases ih ps' with ih | ⟨ih1, k, hk, ih2⟩
      · left; rw [ih]
      · right
        refine ⟨ih1, b.length + k, by rw [List.length_append]; omega, ?_⟩
        rw [ih2, List.take_append, List.take_of_length_le (l := b) (by omega), Nat.add_sub_cancel_left]
    | false =>
      right
      obtain ⟨k, hk, hb⟩ := h2 rfl
      refine ⟨rfl, k, by rw [List.flatten_cons, List.length_append]; omega, ?_⟩
      simp only at hb ⊢
      rw [hb, List.flatten_cons, List.take_append_of_le_length (by omega)]

theorem runIoGo_progress {α : Type} (res : Res α) (cs : List Bytes) (ps : List Put) (h : ∀ p ∈ ps, Progress p) :
    runIoGo res cs ps = (cs.flatten, res) := by
  induction cs generalizing ps with
  | nil => rfl
  | cons c cs ih =>
    obtain ⟨h1, -⟩ := writeAllIo_stored c ps
    obtain ⟨h2, h3⟩ := writeAllIo_progress c ps h
    rw [runIoGo]
    obtain ⟨b, ps', ok, he⟩ : ∃ b ps' ok, writeAllIo c ps = (b, ps', ok) := ⟨_, _, _, rfl⟩
    rw [he] at h1 h2 h3 ⊢
    simp only at h2 h3
    subst h2
    have hb : b = c := h1 rfl
    subst hb
    simp only [List.flatten_cons]
    rw [ih ps' h3]

/-- C75, writing.  Short and interrupted writes do not matter; if a write fails, a proper prefix of the
file is stored and the writer panics. -/
theorem C75_write (bd : Build) (h : Endian) (o : Obj.Object) (ps : List Put) :
    ((∀ p ∈ ps, Progress p) → (Obj.writeInto bd h o).runIo ps = ((Obj.writeInto bd h o).out, (Obj.writeInto bd h o).res)) ∧
    ((Obj.writeInto bd h o).runIo ps = ((Obj.writeInto bd h o).out, (Obj.writeInto bd h o).res) ∨
      ((Obj.writeInto bd h o).runIo ps).2 = .error .panic ∧
        ∃ k, k < (Obj.writeInto bd h o).out.length ∧
          ((Obj.writeInto bd h o).runIo ps).1 = (Obj.writeInto bd h o).out.take k) :=
  ⟨runIoGo_progress _ _ _, runIoGo_stored _ _ _⟩

/-- C75: a disk that takes the file of the empty object in small pieces, and one that becomes full. -/
example : (Obj.writeInto .debug .little {}).runIo [.accept 1, .interrupted, .accept 2, .accept 1] =
      ((Obj.writeInto .debug .little {}).out, .ok ()) ∧
    ((Obj.writeInto .debug .little {}).runIo [.accept 1, .interrupted, .accept 2, .failed]).1 = [0xcf, 0xfa, 0xed] ∧
    ((Obj.writeInto .debug .little {}).runIo [.accept 1, .interrupted, .accept 2, .accept 0]).2 = .error .panic := by
  decide +kernel

/-! ## Whole runs -/

theorem argsOf_utf8 (ss : List Str) : argsOf (ss.map utf8) = .ok ss := by
  induction ss with
  | nil => rfl
  | cons s ss ih => simp only [List.map_cons, argsOf, fromUtf8_utf8, ih]; rfl

theorem argsOf_bad {bs : List Bytes} (h : ∃ b ∈ bs, ∀ s, b ≠ utf8 s) : argsOf bs = .error .panic := by
  induction bs with
  | nil => simp at h
  | cons b bs ih =>
    simp only [argsOf]
    cases hu : fromUtf8 b with
    | none => rfl
    | some s =>
      obtain ⟨b', hb', hs⟩ := h
      rcases List.mem_cons.1 hb' with rfl | hb'
      · exact absurd (utf8_of_fromUtf8 hu).symm (hs s)
      · rw [ih ⟨b', hb', hs⟩]; rfl

/-- C75: an argument that is not UTF-8 stops the program before it touches any file. -/
theorem C75_bad_argument (bd : Build) (h : Endian) (reads : Bytes → List Got) (writes : List Put) (fs : FS)
    (args : List Bytes) (hb : ∃ b ∈ args, ∀ s, b ≠ utf8 s) :
    mainIo bd h reads writes fs args = (fs, .error .panic) := by
  unfold mainIo
  rw [argsOf_bad hb]

/-- C75: with input and output that never fail, a run does what it does with ideal I/O. -/
theorem C75_no_failure (bd : Build) (h : Endian) (c : Bytes → List Bytes) (hc : Splits c)
    (reads : Bytes → List Got) (hr : ∀ b, Answers b (reads b)) (hf : ∀ b, Got.failed ∉ reads b)
    (writes : List Put) (hw : ∀ p ∈ writes, Progress p) (fs : FS) (args : List Str) :
    mainIo bd h reads writes fs (args.map utf8) = main bd h c fs args := by
  unfold mainIo main
  rw [argsOf_utf8]
  simp only
  cases Config.init args with
  | error e => rfl
  | ok cfg =>
    simp only
    cases fs.content (fs.node cfg.inputPath) with
    | none => rfl
    | some _ =>
      simp only
      by_cases h1 : (!fs.canRead (fs.node cfg.inputPath)) = true
      · rw [if_pos h1, if_pos h1]
      by_cases h2 : (!fs.canWrite (fs.node cfg.outputPath)) = true
      · rw [if_neg h1, if_neg h1, if_pos h2, if_pos h2]
      rw [if_neg h1, if_neg h1, if_neg h2, if_neg h2,
        C75_read_ok bd _ _ _ (hr _) (hf _) _ (hc _).2 (hc _).1]
      cases Assembler.new.readFrom bd (c (((fs.set (fs.node cfg.outputPath) []).content (fs.node cfg.inputPath)).getD [])) with
      | error e => rfl
      | ok a =>
        simp only
        rw [show a.writeInto bd h = Obj.writeInto bd h a.obj from rfl, (C75_write bd h a.obj writes).1 hw]

/-- C75: whatever the reads and writes do, a run either does what it does with ideal I/O, or panics and
leaves everything but the output file as it was and in the output file the beginning of what would have
been there.  In particular exit status 0 means that the complete file was written, and an error message
is the one the source deserves. -/
theorem C75_main (bd : Build) (h : Endian) (c : Bytes → List Bytes) (hc : Splits c)
    (reads : Bytes → List Got) (hr : ∀ b, Answers b (reads b))
    (writes : List Put) (fs : FS) (args : List Str) :
    mainIo bd h reads writes fs (args.map utf8) = main bd h c fs args ∨
    (mainIo bd h reads writes fs (args.map utf8)).2 = .error .panic ∧
      ∃ out inp b b', Config.init args = .ok ⟨out, inp⟩ ∧ b <+: b' ∧
        (main bd h c fs args).1.content (fs.node out) = some b' ∧
        (mainIo bd h reads writes fs (args.map utf8)).1 = fs.set (fs.node out) b := by
  unfold mainIo main
  rw [argsOf_utf8]
  simp only
  cases hcfg : Config.init args with
  | error e => exact .inl rfl
  | ok cfg =>
    obtain ⟨out, inp⟩ := cfg
    simp only
    cases fs.content (fs.node inp) with
    | none => exact .inl rfl
    | some _ =>
      simp only
      by_cases h1 : (!fs.canRead (fs.node inp)) = true
      · rw [if_pos h1, if_pos h1]; exact .inl rfl
      by_cases h2 : (!fs.canWrite (fs.node out)) = true
      · rw [if_neg h1, if_neg h1, if_pos h2, if_pos h2]; exact .inl rfl
      rw [if_neg h1, if_neg h1, if_neg h2, if_neg h2]
      generalize hsrc : (((fs.set (fs.node out) []).content (fs.node inp)).getD []) = src
      obtain ⟨w, t, hd, hw, ht⟩ := split_lines (delivered (reads src))
      obtain ⟨ls, hls⟩ := Cut.exists w
      obtain ⟨rest, hrest⟩ := delivered_prefix (hr src)
      obtain ⟨ms, hms⟩ := Cut.exists (t ++ rest)
      have e1 := readFromIo_eq bd Assembler.new (hr src) (complete_lines hls hw) (by rw [hd, hls.all]) ht
      have e2 := readFrom_eq bd Assembler.new (c src) (ls ++ ms) (hc src).2
        (by rw [(hc src).1, ← hrest, hd, List.append_assoc]; exact Cut.append hls hms hw)
      by_cases hf : Got.failed ∈ reads src
      · rw [runLines_append] at e2
        simp only [if_pos hf] at e1
        cases hrun : runLines bd Assembler.new ls with
        | error e =>
          rw [hrun] at e1 e2
          rw [show Assembler.new.readFromIo bd (reads src) = .error e from e1,
            show Assembler.new.readFrom bd (c src) = .error e from e2]
          exact .inl rfl
        | ok a =>
          rw [hrun] at e1
          rw [show Assembler.new.readFromIo bd (reads src) = .error .panic from e1]
          refine .inr ⟨rfl, out, inp, [], ?_⟩
          cases Assembler.new.readFrom bd (c src) with
          | error e => exact ⟨[], rfl, List.prefix_rfl, by simp [FS.set], rfl⟩
          | ok a => exact ⟨(a.writeInto bd h).out, rfl, List.nil_prefix, by simp [FS.set], rfl⟩
      · rw [C75_read_ok bd _ _ _ (hr _) hf _ (hc _).2 (hc _).1]
        cases Assembler.new.readFrom bd (c src) with
        | error e => exact .inl rfl
        | ok a =>
          simp only
          rcases (C75_write bd h a.obj writes).2 with hq | ⟨hp, k, -, hq⟩
          · left
            rw [show a.writeInto bd h = Obj.writeInto bd h a.obj from rfl, hq]
          · refine .inr ⟨hp, out, inp, _, (a.writeInto bd h).out, rfl, ?_, by simp [FS.set], set_set _ _ _ _⟩
            rw [show a.writeInto bd h = Obj.writeInto bd h a.obj from rfl, hq]
            exact List.take_prefix _ _

/-- The reads of C75 exist for every file: in one piece after an interruption, or failing at once. -/
example : (∀ b, Answers b (if b = [] then [.interrupted] else [.interrupted, .bytes b])) ∧
    ∀ b : Bytes, Answers b [.failed] :=
  ⟨fun b => by
    by_cases h : b = []
    · subst h; exact .interrupted _ _ .eof
    · rw [if_neg h]; simpa using Answers.interrupted _ _ (.bytes b [] [] h .eof), fun b => .failed b []⟩

end AT.Props
