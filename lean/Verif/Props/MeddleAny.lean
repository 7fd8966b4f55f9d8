import Verif.Props.Meddle
/-!
# Other programs that do anything to the files during a run (C101)
-/

namespace AT.Props
open AT AT.Asm AT.AsmSpec AT.Mac

theorem any_done (bd : Build) (h : Endian) (r r' : Outcome) (F : FS) (ms : List Move) :
    ∀ fs, among bd h ms (fs, .done r) = (F, .done r') →
    r' = r ∧ ∀ o pos, Puts bd h o pos ms (fs, .done r) [] := by
  induction ms with
  | nil => intro fs hs; cases hs; exact ⟨rfl, fun o pos => .nil pos _⟩
  | cons m ms ih =>
    intro fs hs
    cases m with
    | own k =>
      obtain ⟨h1, h2⟩ := ih fs hs
      exact ⟨h1, fun o pos => .quiet rfl (h2 o pos)⟩
    | other f =>
      obtain ⟨h1, h2⟩ := ih _ hs
      exact ⟨h1, fun o pos => .other (h2 o pos)⟩

theorem any_writing (bd : Build) (h : Endian) (o : Nat) (res r : Outcome) (F : FS) (ms : List Move) :
    ∀ (fs : FS) (pos : Nat) (chunks : List Bytes),
    among bd h ms (fs, .writing o pos chunks res) = (F, .done r) →
    ∃ ps, Puts bd h o pos ms (fs, .writing o pos chunks res) (runIoGo res chunks ps).1 ∧
      r = (runIoGo res chunks ps).2 ∧ ((∀ k, Move.own k ∈ ms → Fine k) → ∀ p ∈ ps, Progress p) := by
  induction ms with
  | nil => intro fs pos chunks hs; cases congrArg Prod.snd hs
  | cons m ms ih =>
    intro fs pos chunks hs
    cases m with
    | other f =>
      obtain ⟨ps, e1, e2, e3⟩ := ih (f fs) pos chunks hs
      exact ⟨ps, .other e1, e2, fun hf => e3 fun k hk => hf k (List.mem_cons_of_mem _ hk)⟩
    | own k =>
      have tl : (∀ k', Move.own k' ∈ Move.own k :: ms → Fine k') → ∀ k', Move.own k' ∈ ms → Fine k' :=
        fun hf k' hk' => hf k' (List.mem_cons_of_mem _ hk')
      match chunks, hs with
      | [], hs =>
        obtain ⟨rfl, h1⟩ := any_done bd h res r F ms fs hs
        exact ⟨[], .quiet rfl (h1 o pos), rfl, by simp⟩
      | [] :: cs, hs =>
        obtain ⟨ps, e1, e2, e3⟩ := ih fs pos cs hs
        exact ⟨ps, .quiet rfl (by rw [runIoGo_nil]; exact e1), by rw [runIoGo_nil]; exact e2, fun hf => e3 (tl hf)⟩
      | (b :: bs) :: cs, hs =>
        match k, hs, tl with
        | .interrupted, hs, tl =>
          obtain ⟨ps, e1, e2, e3⟩ := ih fs pos _ hs
          refine ⟨.interrupted :: ps, .quiet rfl ?_, ?_, fun hf p hp => ?_⟩
          · rw [runIoGo_interrupted res _ (by simp)]; exact e1
          · rw [runIoGo_interrupted res _ (by simp)]; exact e2
          · rcases List.mem_cons.1 hp with rfl | hp
            · exact .inl rfl
            · exact e3 (tl hf) p hp
        | .failed, hs, _ =>
          obtain ⟨rfl, h1⟩ := any_done bd h _ r F ms fs hs
          refine ⟨[.failed], .quiet rfl (by rw [runIoGo_failed res _ (by simp)]; exact h1 o pos),
            by rw [runIoGo_failed res _ (by simp)], fun hf => ?_⟩
          rcases hf .failed List.mem_cons_self with h | ⟨n, _, h⟩ <;> cases h
        | .size 0, hs, _ =>
          obtain ⟨rfl, h1⟩ := any_done bd h _ r F ms fs hs
          refine ⟨[.failed], .quiet rfl (by rw [runIoGo_failed res _ (by simp)]; exact h1 o pos),
            by rw [runIoGo_failed res _ (by simp)], fun hf => ?_⟩
          rcases hf (.size 0) List.mem_cons_self with h | ⟨n, hn, h⟩
          · cases h
          · cases h; cases hn
        | .size (n + 1), hs, tl =>
          obtain ⟨ps, e1, e2, e3⟩ := ih _ _ _ hs
          refine ⟨.accept (n + 1) :: ps, ?_, ?_, fun hf p hp => ?_⟩
          · rw [runIoGo_accept res _ (by simp)]
            exact .put (by simp) rfl e1
          · rw [runIoGo_accept res _ (by simp), e2]
          · rcases List.mem_cons.1 hp with rfl | hp
            · exact .inr ⟨n + 1, by omega, rfl⟩
            · exact e3 (tl hf) p hp

/-- How a run ends, and what it writes, that has read what `x` is the result of. -/
def ClosesAs (bd : Build) (h : Endian) (ps : List Put) (x : Res Assembler) (b : Bytes) (r : Outcome) : Prop :=
  match x with
  | .error e => b = [] ∧ r = .error e
  | .ok a => b = ((a.markExt.writeInto bd h).runIo ps).1 ∧ r = ((a.markExt.writeInto bd h).runIo ps).2

/-- A run ends as on the source `x` was read from, or a call failed. -/
def Closed (bd : Build) (h : Endian) (ms : List Move) (x : Res Assembler) (b : Bytes) (r : Outcome) : Prop :=
  (∃ ps, ClosesAs bd h ps x b r ∧ ((∀ k, Move.own k ∈ ms → Fine k) → ∀ p ∈ ps, Progress p)) ∨
  ((∃ k, Move.own k ∈ ms ∧ ¬ Fine k) ∧ r = .error .panic ∧ b = [])

theorem Closed.cons {bd : Build} {h : Endian} {ms : List Move} {x : Res Assembler} {b : Bytes}
    {r : Outcome} (m : Move) (he : Closed bd h ms x b r) : Closed bd h (m :: ms) x b r := by
  rcases he with ⟨ps, h1, h2⟩ | ⟨⟨k, h1, h2⟩, h3⟩
  · exact .inl ⟨ps, h1, fun hf => h2 fun k hk => hf k (List.mem_cons_of_mem _ hk)⟩
  · exact .inr ⟨⟨k, List.mem_cons_of_mem _ h1, h2⟩, h3⟩

theorem any_reading (bd : Build) (h : Endian) (i o : Nat) (r : Outcome) (F : FS) (ms : List Move) :
    ∀ (fs : FS) (pos : Nat) (buf : Bytes) (a : Assembler),
    among bd h ms (fs, .reading i pos o buf a) = (F, .done r) →
    ∃ b, Puts bd h o 0 ms (fs, .reading i pos o buf a) b ∧
      Closed bd h ms (a.readLoopIo bd ⟨pasted buf (heard bd h pos ms (fs, .reading i pos o buf a)), []⟩) b r := by
  induction ms with
  | nil => intro fs pos buf a hs; cases congrArg Prod.snd hs
  | cons m ms ih =>
    intro fs pos buf a hs
    cases m with
    | other f =>
      obtain ⟨b, h1, h2⟩ := ih (f fs) pos buf a hs
      exact ⟨b, .other h1, h2.cons _⟩
    | own k =>
      have quiet : ∀ {b : Bytes}, Puts bd h o 0 ms (fs, stepRead bd h k fs i pos o buf a) b →
          Puts bd h o 0 (.own k :: ms) (fs, .reading i pos o buf a) b := fun hp => .quiet rfl hp
      simp only [among, step] at hs
      by_cases hn : (10 : UInt8) ∈ buf
      · -- a line is complete
        obtain ⟨⟨l, rest⟩, hcut⟩ : ∃ p, cutNewline buf = some p := by
          cases hc : cutNewline buf with
          | some p => exact ⟨p, rfl⟩
          | none => exact absurd hn (cutNewline_none.1 hc)
        obtain ⟨q, hq, rfl, rfl⟩ := cutNewline_some.1 hcut
        have hh : heard bd h pos (.own k :: ms) (fs, .reading i pos o (q ++ [10] ++ rest) a) =
            heard bd h pos ms (fs, stepRead bd h k fs i pos o (q ++ [10] ++ rest) a) := by
          cases k <;> simp only [heard, step]
          rw [if_pos hn]
        rw [hh, pasted_append (by simp), readLoopIo_cut bd a hq]
        simp only [stepRead, hcut] at hs quiet ⊢
        cases hd : a.doBytes bd (q ++ [10]) with
        | error e =>
          rw [hd] at hs quiet
          obtain ⟨rfl, h1⟩ := any_done bd h _ r F ms fs hs
          exact ⟨[], quiet (h1 o 0), .inl ⟨[], ⟨rfl, rfl⟩, by simp⟩⟩
        | ok a' =>
          rw [hd] at hs quiet
          obtain ⟨b, h1, h2⟩ := ih fs pos rest a' hs
          exact ⟨b, quiet h1, h2.cons _⟩
      · have hcut : cutNewline buf = none := cutNewline_none.2 hn
        simp only [stepRead, hcut] at hs quiet
        cases k with
        | interrupted =>
          have hh : heard bd h pos (.own .interrupted :: ms) (fs, .reading i pos o buf a) =
              heard bd h pos ms (fs, .reading i pos o buf a) := by
            simp only [heard, step, stepRead, hcut]
          rw [hh]
          obtain ⟨b, h1, h2⟩ := ih fs pos buf a hs
          exact ⟨b, quiet h1, h2.cons _⟩
        | failed =>
          obtain ⟨rfl, h1⟩ := any_done bd h _ r F ms fs hs
          refine ⟨[], quiet (h1 o 0), .inr ⟨⟨.failed, List.mem_cons_self, ?_⟩, rfl, rfl⟩⟩
          rintro (h | ⟨n, _, h⟩) <;> cases h
        | size n =>
          simp only at hs quiet
          have hh : heard bd h pos (.own (.size n) :: ms) (fs, .reading i pos o buf a) =
              match (((fs.content i).getD []).drop pos).take (n + 1) with
              | [] => none :: heard bd h pos ms (fs, stepRead bd h (.size n) fs i pos o buf a)
              | b :: bs => some (b :: bs) ::
                  heard bd h (pos + (b :: bs).length) ms (fs, stepRead bd h (.size n) fs i pos o buf a) := by
            simp only [heard, step]
            rw [if_neg hn]
            cases (((fs.content i).getD []).drop pos).take (n + 1) <;> rfl
          rw [hh]
          simp only [stepRead, hcut]
          cases hg : (((fs.content i).getD []).drop pos).take (n + 1) with
          | nil =>
            rw [hg] at hs quiet
            simp only at hs quiet ⊢
            cases buf with
            | nil =>
              obtain ⟨ps, e1, e2, e3⟩ := any_writing bd h o _ r F ms fs 0 _ hs
              refine ⟨_, quiet e1, .inl ⟨ps, ?_, fun hf => e3 fun k hk => hf k (List.mem_cons_of_mem _ hk)⟩⟩
              rw [heard_writing]
              simp only [pasted, true_or, if_true]
              rw [readLoopIo_end]
              exact ⟨rfl, e2⟩
            | cons b bs =>
              have hlast : ¬ ((b :: bs) = [] ∨ (b :: bs).getLast? = some 10) := by
                rintro (he | he)
                · cases he
                · exact hn (List.mem_of_getLast? he)
              simp only [pasted, if_neg hlast] at hs quiet ⊢
              rw [← List.append_nil ((b :: bs) ++ [10]), pasted_append List.getLast?_concat, readLoopIo_cut bd a hn,
                doBytes_newline]
              cases hd : a.doBytes bd (b :: bs) with
              | error e =>
                rw [hd] at hs quiet
                obtain ⟨rfl, h1⟩ := any_done bd h _ r F ms fs hs
                exact ⟨[], quiet (h1 o 0), .inl ⟨[], ⟨rfl, rfl⟩, by simp⟩⟩
              | ok a' =>
                rw [hd] at hs quiet
                obtain ⟨b, h1, h2⟩ := ih fs pos [] a' hs
                exact ⟨b, quiet h1, h2.cons _⟩
          | cons b bs =>
            rw [hg] at hs quiet
            simp only [pasted] at hs quiet ⊢
            obtain ⟨w, h1, h2⟩ := ih fs _ _ a hs
            exact ⟨w, quiet h1, h2.cons _⟩

/-- Either an open failed, or the run goes on. -/
def Went (bd : Build) (h : Endian) (inp out : Str) (ms : List Move) (x : FS × At) (r : Outcome) : Prop :=
  (r = .error .panic ∧ (∀ o pos, Puts bd h o pos ms x []) ∧ Shut bd h inp out ms x) ∨
  ∃ b, Produces bd h out ms x b ∧ Closed bd h ms (Assembler.new.readLoopIo bd ⟨pasted [] (heard bd h 0 ms x), []⟩) b r

theorem Went.other {bd : Build} {h : Endian} {inp out : Str} {ms : List Move} {f : FS → FS} {x : FS × At} {r : Outcome}
    (hw : Went bd h inp out ms (f x.1, x.2) r) : Went bd h inp out (.other f :: ms) x r := by
  rcases hw with ⟨h1, h2, n, h3⟩ | ⟨b, h1, h2⟩
  · exact .inl ⟨h1, fun o pos => .other (h2 o pos), n + 1, h3⟩
  · exact .inr ⟨b, .other h1, h2.cons _⟩

theorem Went.quiet {bd : Build} {h : Endian} {inp out : Str} {ms : List Move} {k : Call} {x : FS × At} {r : Outcome}
    (hq : (step bd h k x.1 x.2).1 = x.1) (hh : heard bd h 0 (.own k :: ms) x = heard bd h 0 ms (step bd h k x.1 x.2))
    (hw : Went bd h inp out ms (step bd h k x.1 x.2) r) : Went bd h inp out (.own k :: ms) x r := by
  rcases hw with ⟨h1, h2, n, h3⟩ | ⟨b, h1, h2⟩
  · exact .inl ⟨h1, fun o pos => .quiet hq (h2 o pos), n + 1, h3⟩
  · exact .inr ⟨b, .quiet hq h1, hh ▸ h2.cons _⟩

theorem any_openOut (bd : Build) (h : Endian) (i : Nat) (inp out : Str) (F : FS) (r : Outcome) (ms : List Move) :
    ∀ fs : FS, among bd h ms (fs, .openOut i out) = (F, .done r) → Went bd h inp out ms (fs, .openOut i out) r := by
  induction ms with
  | nil => intro fs hs; cases congrArg Prod.snd hs
  | cons m ms ih =>
    intro fs hs
    cases m with
    | other f => exact .other (ih (f fs) hs)
    | own k =>
      simp only [among] at hs
      by_cases hw : fs.canWrite (fs.node out) = true
      · have hst : step bd h k fs (.openOut i out) =
            (fs.set (fs.node out) [], .reading i 0 (fs.node out) [] Assembler.new) := by
          simp only [step, hw, if_true]
        rw [hst] at hs
        obtain ⟨b, h1, h2⟩ := any_reading bd h i (fs.node out) r F ms _ 0 [] Assembler.new hs
        have hh : heard bd h 0 (.own k :: ms) (fs, .openOut i out) =
            heard bd h 0 ms (step bd h k fs (.openOut i out)) := by cases k <;> rfl
        exact .inr ⟨b, .opens hw (congrArg Prod.fst hst) (by rw [← hst] at h1; exact h1), by rw [hh, hst]; exact h2.cons _⟩
      · have hst : step bd h k fs (.openOut i out) = (fs, .done (.error .panic)) := by
          simp only [step, hw, if_false, Bool.false_eq_true]
        rw [hst] at hs
        obtain ⟨rfl, h1⟩ := any_done bd h _ r F ms fs hs
        exact .inl ⟨rfl, fun o pos => .quiet (show (step bd h k fs _).1 = fs by rw [hst]) (by rw [← hst] at h1; exact h1 o pos), 0, fs, rfl,
          .inr (.inr (by simpa using hw))⟩

theorem any_openIn (bd : Build) (h : Endian) (inp out : Str) (F : FS) (r : Outcome) (ms : List Move) :
    ∀ fs : FS, among bd h ms (fs, .openIn ⟨out, inp⟩) = (F, .done r) →
    Went bd h inp out ms (fs, .openIn ⟨out, inp⟩) r := by
  induction ms with
  | nil => intro fs hs; cases congrArg Prod.snd hs
  | cons m ms ih =>
    intro fs hs
    cases m with
    | other f => exact .other (ih (f fs) hs)
    | own k =>
      have hh : heard bd h 0 (.own k :: ms) (fs, .openIn ⟨out, inp⟩) =
          heard bd h 0 ms (step bd h k fs (.openIn ⟨out, inp⟩)) := by cases k <;> rfl
      simp only [among] at hs
      by_cases ho : (fs.content (fs.node inp)).isSome ∧ fs.canRead (fs.node inp) = true
      · obtain ⟨b, hb⟩ := Option.isSome_iff_exists.1 ho.1
        have hst : step bd h k fs (.openIn ⟨out, inp⟩) = (fs, .openOut (fs.node inp) out) := by
          simp only [step, hb, ho.2, if_true]
        refine .quiet (show (step bd h k fs _).1 = fs by rw [hst]) hh ?_
        rw [hst] at hs
        show Went bd h inp out ms (step bd h k fs (.openIn ⟨out, inp⟩)) r
        rw [hst]
        exact any_openOut bd h _ inp out F r ms fs hs
      · have hst : step bd h k fs (.openIn ⟨out, inp⟩) = (fs, .done (.error .panic)) := by
          cases hc : fs.content (fs.node inp) with
          | none => simp only [step, hc]
          | some b =>
            rw [hc] at ho
            simp only [step, hc]
            rw [if_neg (by simpa using ho)]
        rw [hst] at hs
        obtain ⟨rfl, h1⟩ := any_done bd h _ r F ms fs hs
        refine .inl ⟨rfl, fun o pos => .quiet (show (step bd h k fs _).1 = fs by rw [hst]) (by rw [← hst] at h1; exact h1 o pos), 0, fs, rfl, ?_⟩
        cases hc : fs.content (fs.node inp) with
        | none => exact .inl rfl
        | some b =>
          rw [hc] at ho
          exact .inr (.inl (by simpa using ho))

theorem any_start (bd : Build) (h : Endian) (args : List Str) (inp out : Str) (hcfg : Config.init args = .ok ⟨out, inp⟩)
    (F : FS) (r : Outcome) (ms : List Move) :
    ∀ fs : FS, among bd h ms (fs, .start (args.map utf8)) = (F, .done r) →
    Went bd h inp out ms (fs, .start (args.map utf8)) r := by
  induction ms with
  | nil => intro fs hs; cases congrArg Prod.snd hs
  | cons m ms ih =>
    intro fs hs
    cases m with
    | other f => exact .other (ih (f fs) hs)
    | own k =>
      have hst : stepStart (args.map utf8) = .openIn ⟨out, inp⟩ := by
        unfold stepStart
        rw [argsOf_utf8]
        simp only
        rw [hcfg]
      have hh : heard bd h 0 (.own k :: ms) (fs, .start (args.map utf8)) =
          heard bd h 0 ms (step bd h k fs (.start (args.map utf8))) := by cases k <;> rfl
      refine .quiet rfl hh ?_
      simp only [among, step] at hs ⊢
      rw [hst] at hs ⊢
      exact any_openIn bd h inp out F r ms fs hs

/-- C101: while a run goes on, other programs do anything to the files.  Either the run panicked and has
not touched a file, and at some moment its input could not be opened for reading or its output for
writing; or it has done no more than to make the output file, and it has ended, and written, as
it does alone with ideal I/O on the source that its reads amount to; or one of its own calls failed, it
panicked, and has written a beginning of that. -/
theorem C101_any (bd : Build) (h : Endian) (c : Bytes → List Bytes) (hc : Splits c) (fs F : FS) (args : List Str)
    (inp out : Str) (ha : Asks args inp out) (ms : List Move) (r : Outcome)
    (hs : among bd h ms (fs, .start (args.map utf8)) = (F, .done r)) :
    let x := (fs, At.start (args.map utf8))
    (r = .error .panic ∧ (∀ o pos, Puts bd h o pos ms x []) ∧ Shut bd h inp out ms x) ∨
    ∃ b, Produces bd h out ms x b ∧ ∀ fs₀ : FS, fs₀.node inp ≠ fs₀.node out →
      fs₀.content (fs₀.node inp) = some (pasted [] (heard bd h 0 ms x)) →
      fs₀.canRead (fs₀.node inp) = true → fs₀.canWrite (fs₀.node out) = true →
      let ideal := main bd h c fs₀ args
      (r = ideal.2 ∧ ideal.1.content (fs₀.node out) = some b) ∨
      ((∃ k, Move.own k ∈ ms ∧ ¬ Fine k) ∧ r = .error .panic ∧
        ∃ b', b <+: b' ∧ ideal.1.content (fs₀.node out) = some b') := by
  intro x
  have hcfg := (asks_iff ..).1 ha
  rcases any_start bd h args inp out hcfg F r ms fs hs with hp | ⟨b, hb, hcl⟩
  · exact .inl hp
  refine .inr ⟨b, hb, ?_⟩
  intro fs₀ hd hsrc hr hw ideal
  generalize hx : pasted [] (heard bd h 0 ms x) = src at hsrc
  change Closed bd h ms (Assembler.new.readLoopIo bd ⟨pasted [] (heard bd h 0 ms x), []⟩) b r at hcl
  rw [hx] at hcl
  obtain ⟨q1, q2⟩ := C52_result bd h c fs₀ args out inp src hcfg hd hsrc hr hw
  have hrd : Assembler.new.readFrom bd (c src) =
      (Assembler.new.readLoopIo bd ⟨src, []⟩).bind fun a => .ok a.markExt := readFrom_loop bd c hc src
  rcases hcl with ⟨ps, he, hf⟩ | ⟨hbad, rfl, rfl⟩
  · cases hx : Assembler.new.readLoopIo bd ⟨src, []⟩ with
    | error e =>
      rw [hx] at he hrd
      obtain ⟨e1, e2⟩ := q1 e hrd
      obtain ⟨rfl, rfl⟩ := he
      exact .inl ⟨e1.symm, e2⟩
    | ok a =>
      rw [hx] at he hrd
      obtain ⟨e1, e2⟩ := q2 a.markExt hrd
      obtain ⟨w1, w2⟩ := C75_write bd h a.markExt.obj ps
      have fine : (a.markExt.writeInto bd h).runIo ps = ((a.markExt.writeInto bd h).out, (a.markExt.writeInto bd h).res) →
          r = ideal.2 ∧ ideal.1.content (fs₀.node out) = some b := by
        intro hw
        obtain ⟨he1, he2⟩ := he
        rw [hw] at he1 he2
        exact ⟨he2.trans e1.symm, by rw [he1]; exact e2⟩
      by_cases hall : ∀ k, Move.own k ∈ ms → Fine k
      · exact .inl (fine (w1 (hf hall)))
      · rcases w2 with w2 | ⟨w2, k, -, w3⟩
        · exact .inl (fine w2)
        · refine .inr ⟨?_, he.2.trans w2, _, ?_, e2⟩
          · apply Classical.byContradiction
            intro hno
            apply hall
            intro k hk
            apply Classical.byContradiction
            exact fun hn => hno ⟨k, hk, hn⟩
          · have w3' : ((a.markExt.writeInto bd h).runIo ps).1 = (a.markExt.writeInto bd h).out.take k := w3
            rw [he.1, w3']
            exact List.take_prefix _ _
  · refine .inr ⟨hbad, rfl, ?_⟩
    cases hx : Assembler.new.readFrom bd (c src) with
    | error e => exact ⟨[], List.nil_prefix, (q1 e hx).2⟩
    | ok a => exact ⟨_, List.nil_prefix, (q2 a hx).2⟩

/-- C101: a run that is not asked for anything says so and has not touched a file, whatever others do. -/
theorem C101_usage (bd : Build) (h : Endian) (c : Bytes → List Bytes) (fs F fs₀ : FS) (args : List Str)
    (ha : ∀ inp out, ¬ Asks args inp out) (ms : List Move) (r : Outcome)
    (hs : among bd h ms (fs, .start (args.map utf8)) = (F, .done r)) :
    r = (main bd h c fs₀ args).2 ∧ ∀ o pos, Puts bd h o pos ms (fs, .start (args.map utf8)) [] := by
  induction ms generalizing fs with
  | nil => cases congrArg Prod.snd hs
  | cons m ms ih =>
    cases m with
    | other f =>
      obtain ⟨h1, h2⟩ := ih (f fs) hs
      exact ⟨h1, fun o pos => .other (h2 o pos)⟩
    | own k =>
      have hcfg : ∃ e, Config.init args = .error e := by
        cases hc : Config.init args with
        | error e => exact ⟨e, rfl⟩
        | ok cfg => exact absurd ((asks_iff ..).2 hc) (ha cfg.inputPath cfg.outputPath)
      obtain ⟨e, hcfg⟩ := hcfg
      have hst : stepStart (args.map utf8) = .done (.error e) := by
        unfold stepStart
        rw [argsOf_utf8]
        simp only
        rw [hcfg]
      simp only [among, step] at hs
      rw [hst] at hs
      obtain ⟨rfl, h1⟩ := any_done bd h _ r F ms fs hs
      refine ⟨?_, fun o pos => .quiet rfl ?_⟩
      · unfold main
        rw [hcfg]
      · show Puts bd h o pos ms (fs, stepStart (args.map utf8)) []
        rw [hst]
        exact h1 o pos

/-- Others take all permissions away and let all paths lead to another file. -/
def seize (g : FS) : FS := ⟨fun _ => 7, g.content, fun _ => false, fun _ => false⟩

/-- If they do so when the files are open, the run succeeds and the file is where it was to be; if they do
so before, it panics. -/
example :
    (let x := among .release .little
        (List.replicate 3 (.own (.size 1000)) ++ .other seize :: List.replicate 300 (.own (.size 1000)))
        (growing, .start ([str% "as", str% "a.s"].map utf8))
     let y := among .release .little
        (List.replicate 2 (.own (.size 1000)) ++ .other seize :: List.replicate 300 (.own (.size 1000)))
        (growing, .start ([str% "as", str% "a.s"].map utf8))
     ending x.2 = some (.ok ()) ∧ ending y.2 = some (.error .panic) ∧
     x.1.content 1 = (main .release .little (fun b => if b = [] then [] else [b]) growing [str% "as", str% "a.s"]).1.content 1 ∧
     y.1.content 1 = none) := by
  decide +kernel

/-! ## The output emptied by another program -/

theorem among_append (bd : Build) (h : Endian) (ms ms' : List Move) :
    ∀ x, among bd h (ms ++ ms') x = among bd h ms' (among bd h ms x) := by
  induction ms with
  | nil => intro x; rfl
  | cons m ms ih => intro x; cases m <;> exact ih _

theorem puts_append {bd : Build} {h : Endian} {o : Nat} (ms ms' : List Move) :
    ∀ {pos : Nat} {x : FS × At} {b : Bytes}, Puts bd h o pos (ms ++ ms') x b →
    ∃ b₁ b₂, b = b₁ ++ b₂ ∧ Puts bd h o pos ms x b₁ ∧ Puts bd h o (pos + b₁.length) ms' (among bd h ms x) b₂ := by
  induction ms with
  | nil => intro pos x b hp; exact ⟨[], b, rfl, .nil pos x, hp⟩
  | cons m ms ih =>
    intro pos x b hp
    cases hp with
    | other hp =>
      obtain ⟨b₁, b₂, e, h1, h2⟩ := ih hp
      exact ⟨b₁, b₂, e, .other h1, h2⟩
    | quiet hq hp =>
      obtain ⟨b₁, b₂, e, h1, h2⟩ := ih hp
      exact ⟨b₁, b₂, e, .quiet hq h1, h2⟩
    | put hne hq hp =>
      obtain ⟨b₁, b₂, e, h1, h2⟩ := ih hp
      refine ⟨_ ++ b₁, b₂, by rw [e, List.append_assoc], .put hne hq h1, ?_⟩
      rw [List.length_append, ← Nat.add_assoc]
      exact h2

theorem pwrite_content (fs : FS) (o pos : Nat) (b w : Bytes) (hw : fs.content o = some w) (n : Nat) :
    (fs.pwrite o pos b).content n = if n = o then
      some (w.take pos ++ List.replicate (pos - w.length) 0 ++ b ++ w.drop (pos + b.length)) else fs.content n := by
  unfold FS.pwrite
  rw [hw]
  by_cases hn : n = o <;> simp [FS.set, hn]

/-- Writing on where one has stopped is writing at once. -/
theorem patch_patch (w c b : Bytes) (pos : Nat) :
    let w' := w.take pos ++ List.replicate (pos - w.length) 0 ++ c ++ w.drop (pos + c.length)
    w'.take (pos + c.length) ++ List.replicate (pos + c.length - w'.length) 0 ++ b ++ w'.drop (pos + c.length + b.length) =
    w.take pos ++ List.replicate (pos - w.length) 0 ++ (c ++ b) ++ w.drop (pos + (c ++ b).length) := by
  intro w'
  have hp : (w.take pos ++ List.replicate (pos - w.length) (0 : UInt8)).length = pos := by
    rw [List.length_append, List.length_take, List.length_replicate]; omega
  have hq : (w.take pos ++ List.replicate (pos - w.length) (0 : UInt8) ++ c).length = pos + c.length := by
    rw [List.length_append, hp]
  have h1 : w'.take (pos + c.length) = w.take pos ++ List.replicate (pos - w.length) 0 ++ c := List.take_left' hq
  have h2 : pos + c.length - w'.length = 0 := by
    have : w'.length = pos + c.length + (w.drop (pos + c.length)).length := by
      rw [show w' = (w.take pos ++ List.replicate (pos - w.length) 0 ++ c) ++ w.drop (pos + c.length) from rfl,
        List.length_append, hq]
    omega
  have h3 : w'.drop (pos + c.length + b.length) = w.drop (pos + (c ++ b).length) := by
    rw [← List.drop_drop, show w'.drop (pos + c.length) = w.drop (pos + c.length) from List.drop_left' hq, List.drop_drop,
      List.length_append, Nat.add_assoc]
  rw [h1, h2, h3]
  simp

/-- What is in the file into which a run writes, if others leave it alone. -/
theorem puts_content {bd : Build} {h : Endian} {o : Nat} {ms : List Move}
    (hk : ∀ f, Move.other f ∈ ms → ∀ g : FS, (f g).content o = g.content o) {pos : Nat} {x : FS × At} {b : Bytes}
    (hp : Puts bd h o pos ms x b) : ∀ w, x.1.content o = some w →
    (among bd h ms x).1.content o = some (if b = [] then w else
      w.take pos ++ List.replicate (pos - w.length) 0 ++ b ++ w.drop (pos + b.length)) := by
  induction hp with
  | nil pos x => intro w hw; exact hw
  | @other pos f ms x b hp ih =>
    intro w hw
    exact ih (fun f' hf => hk f' (List.mem_cons_of_mem _ hf)) w ((hk f List.mem_cons_self x.1).trans hw)
  | @quiet pos k ms x b hq hp ih =>
    intro w hw
    exact ih (fun f' hf => hk f' (List.mem_cons_of_mem _ hf)) w (by rw [hq]; exact hw)
  | @put pos k ms x c b hne hq hp ih =>
    intro w hw
    have := ih (fun f' hf => hk f' (List.mem_cons_of_mem _ hf))
      (w.take pos ++ List.replicate (pos - w.length) 0 ++ c ++ w.drop (pos + c.length))
      (by rw [hq, pwrite_content x.1 o pos c w hw, if_pos rfl])
    refine Eq.trans this ?_
    have hcb : ¬ c ++ b = [] := fun he => hne (List.append_eq_nil_iff.1 he).1
    rw [if_neg hcb]
    by_cases hb : b = []
    · rw [if_pos hb, hb, List.append_nil]
    · rw [if_neg hb, patch_patch]

theorem puts_nil {bd : Build} {h : Endian} {o o' : Nat} {ms : List Move}
    (hk : ∀ f, Move.other f ∈ ms → ∀ g : FS, (f g).content o = g.content o) {pos : Nat} {x : FS × At} {b : Bytes}
    (hp : Puts bd h o' pos ms x b) (hb : b = []) : (among bd h ms x).1.content o = x.1.content o := by
  induction hp with
  | nil pos x => rfl
  | @other pos f ms x b hp ih =>
    exact (ih (fun f' hf => hk f' (List.mem_cons_of_mem _ hf)) hb).trans (hk f List.mem_cons_self x.1)
  | @quiet pos k ms x b hq hp ih =>
    exact (ih (fun f' hf => hk f' (List.mem_cons_of_mem _ hf)) hb).trans (by rw [hq])
  | @put pos k ms x c b hne hq hp ih => simp [hne] at hb

/-- What is in the output file after a part of the run in which it appeared. -/
theorem produces_append {bd : Build} {h : Endian} {out : Str} {o : Nat} (ms ms' : List Move)
    (hn : ∀ f, Move.other f ∈ ms → ∀ g : FS, (f g).node out = g.node out)
    (hk : ∀ f, Move.other f ∈ ms → ∀ g : FS, (f g).content o = g.content o) :
    ∀ {x : FS × At} {b : Bytes}, x.1.node out = o → x.1.content o = none →
    (among bd h ms x).1.content o ≠ none → Produces bd h out (ms ++ ms') x b →
    ∃ b₁ b₂, b = b₁ ++ b₂ ∧ (among bd h ms x).1.content o = some b₁ ∧
      Puts bd h o b₁.length ms' (among bd h ms x) b₂ := by
  induction ms with
  | nil => intro x b _ h0 h1 _; exact absurd h0 h1
  | cons m ms ih =>
    intro x b hx h0 h1 hp
    have hn' : ∀ f, Move.other f ∈ ms → ∀ g : FS, (f g).node out = g.node out :=
      fun f hf => hn f (List.mem_cons_of_mem _ hf)
    have hk' : ∀ f, Move.other f ∈ ms → ∀ g : FS, (f g).content o = g.content o :=
      fun f hf => hk f (List.mem_cons_of_mem _ hf)
    cases hp with
    | @other f _ _ _ hp =>
      exact ih hn' hk' ((hn f List.mem_cons_self x.1).trans hx) ((hk f List.mem_cons_self x.1).trans h0) h1 hp
    | @quiet k _ _ _ hq hp => exact ih hn' hk' (by rw [hq]; exact hx) (by rw [hq]; exact h0) h1 hp
    | @opens k _ _ _ hw hq hp =>
      rw [hx] at hq hp
      obtain ⟨b₁, b₂, e, p1, p2⟩ := puts_append ms ms' hp
      refine ⟨b₁, b₂, e, ?_, by rw [Nat.zero_add] at p2; exact p2⟩
      refine (puts_content hk' p1 [] (by rw [hq]; simp [FS.set])).trans ?_
      by_cases hb : b₁ = [] <;> simp [hb]

/-- C101: while a run writes its output, another program empties the output file.  What the run writes
after that goes where it would have gone, with zeros before it; what it has written before is lost.
Nobody is told: the run ends as if nothing had happened.  (If the run writes nothing any more, the
file stays empty.) -/
theorem C101_emptied (bd : Build) (h : Endian) (c : Bytes → List Bytes) (hc : Splits c) (fs G F : FS) (args : List Str)
    (inp out : Str) (ha : Asks args inp out) (ms ms' : List Move) (s : At) (f : FS → FS) (w : Bytes) (r : Outcome)
    (hn : ∀ f, Move.other f ∈ ms → ∀ g : FS, (f g).node out = g.node out)
    (hk : ∀ f, Move.other f ∈ ms ++ ms' → ∀ g : FS, (f g).content (fs.node out) = g.content (fs.node out))
    (h0 : fs.content (fs.node out) = none)
    (h1 : among bd h ms (fs, .start (args.map utf8)) = (G, s)) (hw : G.content (fs.node out) = some w)
    (hf : (f G).content (fs.node out) = some [])
    (h2 : among bd h ms' (f G, s) = (F, .done r)) (hfine : ∀ k, Move.own k ∈ ms ++ .other f :: ms' → Fine k) :
    ∃ rest, F.content (fs.node out) = some (if rest = [] then [] else List.replicate w.length 0 ++ rest) ∧
      ∀ fs₀ : FS, fs₀.node inp ≠ fs₀.node out →
      fs₀.content (fs₀.node inp) =
        some (pasted [] (heard bd h 0 (ms ++ .other f :: ms') (fs, .start (args.map utf8)))) →
      fs₀.canRead (fs₀.node inp) = true → fs₀.canWrite (fs₀.node out) = true →
      let ideal := main bd h c fs₀ args
      r = ideal.2 ∧ ideal.1.content (fs₀.node out) = some (w ++ rest) := by
  have hs : among bd h (ms ++ .other f :: ms') (fs, .start (args.map utf8)) = (F, .done r) := by
    rw [among_append, h1]; exact h2
  have hG : (among bd h ms (fs, .start (args.map utf8))).1.content (fs.node out) = some w := by rw [h1]; exact hw
  rcases C101_any bd h c hc fs F args inp out ha _ r hs with ⟨-, hp, -⟩ | ⟨b, hb, hall⟩
  · exfalso
    obtain ⟨b₁, b₂, e, p1, p2⟩ := puts_append ms _ (hp 0 0)
    have := puts_nil (o := fs.node out) (fun f hf => hk f (List.mem_append_left _ hf)) p1 (List.append_eq_nil_iff.1 e.symm).1
    rw [hG] at this
    rw [h0] at this
    cases this
  · obtain ⟨b₁, b₂, rfl, e1, p2⟩ := produces_append (o := fs.node out) ms _ hn
      (fun f hf => hk f (List.mem_append_left _ hf)) (x := (fs, .start (args.map utf8))) rfl h0 (by rw [hG]; simp) hb
    rw [hG] at e1
    cases e1
    rw [h1] at p2
    refine ⟨b₂, ?_, ?_⟩
    · cases p2 with
      | other p2 =>
        have := puts_content (fun f hf => hk f (List.mem_append_right _ hf)) p2 [] hf
        rw [h2] at this
        refine this.trans ?_
        by_cases hb : b₂ = [] <;> simp [hb]
    · intro fs₀ a1 a2 a3 a4
      rcases hall fs₀ a1 a2 a3 a4 with hr | ⟨⟨k, hk, hbad⟩, -⟩
      · exact hr
      · exact absurd (hfine k hk) hbad

/-- Another program empties the output. -/
def empty (g : FS) : FS := g.set 1 []

/-- The file of a run of which 20 bytes had been written when another program emptied it. -/
example :
    (let ms := List.replicate 15 (.own (.size 1000))
     let x := among .release .little ms (growing, .start ([str% "as", str% "a.s"].map utf8))
     let y := among .release .little (ms ++ .other empty :: List.replicate 300 (.own (.size 1000)))
        (growing, .start ([str% "as", str% "a.s"].map utf8))
     let whole := (main .release .little (fun b => if b = [] then [] else [b]) growing [str% "as", str% "a.s"]).1.content 1
     growing.content 1 = none ∧ x.1.content 1 = whole.map (·.take 20) ∧ (empty x.1).content 1 = some [] ∧
     ending y.2 = some (.ok ()) ∧ y.1.content 1 = whole.map fun b => List.replicate 20 0 ++ b.drop 20) := by
  decide +kernel

end AT.Props
