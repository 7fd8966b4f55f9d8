import Verif.Props.Together
import Verif.Props.AsmRender
/-!
# Other programs that change the files during a run (C100)
-/

namespace AT.Props
open AT AT.Asm AT.AsmSpec AT.Mac

/-! ## A line end more or less -/

theorem fromUtf8_newline (b : Bytes) : fromUtf8 (b ++ [10]) = (fromUtf8 b).map (· ++ ['\n']) := by
  cases hb : fromUtf8 b with
  | some s =>
    rw [← utf8_of_fromUtf8 hb, ← utf8_newline, fromUtf8_utf8]
    rfl
  | none =>
    cases hs : fromUtf8 (b ++ [10]) with
    | none => rfl
    | some s =>
      exfalso
      have hu := utf8_of_fromUtf8 hs
      rcases List.eq_nil_or_concat s with rfl | ⟨t, c, rfl⟩
      · simp [utf8_nil] at hu
      · rw [List.concat_eq_append, utf8_append] at hu
        have h10 : (10 : UInt8) ∈ utf8 [c] := by
          have hl := congrArg List.getLast? hu
          rw [List.getLast?_append, List.getLast?_append] at hl
          have hne : utf8 [c] ≠ [] := by
            intro he
            exact absurd (utf8_injective (t := []) he) (by simp)
          cases hg : (utf8 [c]).getLast? with
          | none => rw [List.getLast?_eq_none_iff] at hg; exact absurd hg hne
          | some x =>
            rw [hg] at hl
            simp at hl
            subst hl
            exact List.mem_of_getLast? hg
        rw [newline_mem_utf8, List.mem_singleton] at h10
        subst h10
        have : utf8 t = b := (List.append_left_inj [10]).1 hu
        rw [← this, fromUtf8_utf8] at hb
        cases hb

theorem doLine_newline (bd : Build) (a : Assembler) (s : Str) : a.doLine bd (s ++ ['\n']) = a.doLine bd s := by
  have h : parseLine bd (s ++ ['\n']) = parseLine bd s := C40_blanks bd [] s ['\n'] (by intro c hc; cases hc) blank_newline
  unfold Assembler.doLine parseOrExit
  rw [h]

theorem doBytes_newline (bd : Build) (a : Assembler) (b : Bytes) : a.doBytes bd (b ++ [10]) = a.doBytes bd b := by
  unfold Assembler.doBytes
  rw [fromUtf8_newline]
  cases fromUtf8 b with
  | none => rfl
  | some s => exact doLine_newline bd a s

theorem pasted_append {l : Bytes} (hl : l.getLast? = some 10) (es : List (Option Bytes)) :
    ∀ r, pasted (l ++ r) es = l ++ pasted r es := by
  induction es with
  | nil => intro r; rfl
  | cons e es ih =>
    intro r
    cases e with
    | some b => rw [pasted, pasted, List.append_assoc, ih]
    | none =>
      rw [pasted, pasted, ← ih]
      congr 1
      rcases List.eq_nil_or_concat r with rfl | ⟨t, x, rfl⟩
      · simp [hl]
      · rw [List.concat_eq_append, ← List.append_assoc]
        by_cases hx : x = 10 <;> simp [hx]

theorem readLoopIo_cut (bd : Build) (a : Assembler) {q : Bytes} (hq : (10 : UInt8) ∉ q) (r : Bytes) :
    a.readLoopIo bd ⟨q ++ [10] ++ r, []⟩ = (a.doBytes bd (q ++ [10])).bind fun a' => a'.readLoopIo bd ⟨r, []⟩ := by
  apply readLoopIo_line bd a (by simp)
  unfold readUntilIo
  rw [cutNewline_some.2 ⟨q, hq, rfl, rfl⟩]

/-! ## Nothing more is heard -/

theorem heard_done (bd : Build) (h : Endian) (r : Outcome) (ms : List Move) :
    ∀ (p : Nat) (fs : FS), heard bd h p ms (fs, .done r) = [] := by
  induction ms with
  | nil => intro p fs; rfl
  | cons m ms ih =>
    intro p fs
    cases m with
    | own k => exact ih p fs
    | other f => exact ih p (f fs)

theorem heard_writing (bd : Build) (h : Endian) (o : Nat) (res : Outcome) (ms : List Move) :
    ∀ (p pos : Nat) (fs : FS) (chunks : List Bytes), heard bd h p ms (fs, .writing o pos chunks res) = [] := by
  induction ms with
  | nil => intro p pos fs chunks; rfl
  | cons m ms ih =>
    intro p pos fs chunks
    cases m with
    | other f => exact ih p pos (f fs) chunks
    | own k =>
      show heard bd h p ms (stepWrite k fs o pos res chunks) = []
      fun_cases stepWrite k fs o pos res chunks
      all_goals first
        | exact heard_done bd h _ ms p _
        | exact ih p _ _ _

/-! ## A run among other programs -/

/-- The answers to the calls of the run. -/
def ownOf (ms : List Move) : List Call := ms.filterMap fun m => match m with | .own k => some k | .other _ => none

theorem among_done (bd : Build) (h : Endian) (r r' : Outcome) (o : Nat) (F : FS) (ms : List Move)
    (hk : ∀ f, Move.other f ∈ ms → ∀ g : FS, (f g).content o = g.content o) :
    ∀ fs, among bd h ms (fs, .done r) = (F, .done r') → F.content o = fs.content o ∧ r' = r := by
  induction ms with
  | nil => intro fs hs; cases hs; exact ⟨rfl, rfl⟩
  | cons m ms ih =>
    intro fs hs
    have ih := ih fun f hf => hk f (List.mem_cons_of_mem _ hf)
    cases m with
    | own k => exact ih fs hs
    | other f =>
      obtain ⟨h1, h2⟩ := ih _ hs
      exact ⟨h1.trans (hk f List.mem_cons_self fs), h2⟩

theorem among_writing (bd : Build) (h : Endian) (o : Nat) (res r : Outcome) (F : FS) (ms : List Move)
    (hk : ∀ f, Move.other f ∈ ms → ∀ g : FS, (f g).content o = g.content o) :
    ∀ (fs : FS) (w : Bytes) (chunks : List Bytes), fs.content o = some w →
    among bd h ms (fs, .writing o w.length chunks res) = (F, .done r) →
    ∃ ps, F.content o = some (w ++ (runIoGo res chunks ps).1) ∧ r = (runIoGo res chunks ps).2 ∧
      ((∀ k, Move.own k ∈ ms → Fine k) → ∀ p ∈ ps, Progress p) := by
  induction ms with
  | nil => intro fs w chunks _ hs; cases congrArg Prod.snd hs
  | cons m ms ih =>
    intro fs w chunks hw hs
    have hk' : ∀ f, Move.other f ∈ ms → ∀ g : FS, (f g).content o = g.content o :=
      fun f hf => hk f (List.mem_cons_of_mem _ hf)
    have ih := ih hk'
    cases m with
    | other f =>
      obtain ⟨ps, e1, e2, e3⟩ := ih (f fs) w chunks ((hk f List.mem_cons_self fs).trans hw) hs
      exact ⟨ps, e1, e2, fun hf => e3 fun k hk => hf k (List.mem_cons_of_mem _ hk)⟩
    | own k =>
      have tl : (∀ k', Move.own k' ∈ Move.own k :: ms → Fine k') → ∀ k', Move.own k' ∈ ms → Fine k' :=
        fun hf k' hk' => hf k' (List.mem_cons_of_mem _ hk')
      match chunks, hs with
      | [], hs =>
        obtain ⟨h1, rfl⟩ := among_done bd h res r o F ms hk' fs hs
        exact ⟨[], by rw [h1, hw]; simp [runIoGo], rfl, by simp⟩
      | [] :: cs, hs =>
        obtain ⟨ps, e1, e2, e3⟩ := ih fs w cs hw hs
        exact ⟨ps, by rw [runIoGo_nil]; exact e1, by rw [runIoGo_nil]; exact e2, fun hf => e3 (tl hf)⟩
      | (b :: bs) :: cs, hs =>
        match k, hs, tl with
        | .interrupted, hs, tl =>
          obtain ⟨ps, e1, e2, e3⟩ := ih fs w _ hw hs
          refine ⟨.interrupted :: ps, ?_, ?_, fun hf p hp => ?_⟩
          · rw [runIoGo_interrupted res _ (by simp)]; exact e1
          · rw [runIoGo_interrupted res _ (by simp)]; exact e2
          · rcases List.mem_cons.1 hp with rfl | hp
            · exact .inl rfl
            · exact e3 (tl hf) p hp
        | .failed, hs, _ =>
          obtain ⟨h1, rfl⟩ := among_done bd h _ r o F ms hk' fs hs
          refine ⟨[.failed], by rw [runIoGo_failed res _ (by simp), h1, hw]; simp,
            by rw [runIoGo_failed res _ (by simp)], fun hf => ?_⟩
          rcases hf .failed List.mem_cons_self with h | ⟨n, _, h⟩ <;> cases h
        | .size 0, hs, _ =>
          obtain ⟨h1, rfl⟩ := among_done bd h _ r o F ms hk' fs hs
          refine ⟨[.failed], by rw [runIoGo_failed res _ (by simp), h1, hw]; simp,
            by rw [runIoGo_failed res _ (by simp)], fun hf => ?_⟩
          rcases hf (.size 0) List.mem_cons_self with h | ⟨n, hn, h⟩
          · cases h
          · cases h; cases hn
        | .size (n + 1), hs, tl =>
          simp only [among, step, stepWrite] at hs
          rw [pwrite_end fs o w _ hw, ← List.length_append] at hs
          obtain ⟨ps, e1, e2, e3⟩ := ih (fs.set o (w ++ (b :: bs).take (n + 1))) _ _ (by simp [FS.set]) hs
          refine ⟨.accept (n + 1) :: ps, ?_, ?_, fun hf p hp => ?_⟩
          · rw [runIoGo_accept res _ (by simp), e1, List.append_assoc]
          · rw [runIoGo_accept res _ (by simp), e2]
          · rcases List.mem_cons.1 hp with rfl | hp
            · exact .inr ⟨n + 1, by omega, rfl⟩
            · exact e3 (tl hf) p hp

/-- How a run ends that has read what `x` is the result of. -/
def EndsAs (bd : Build) (h : Endian) (o : Nat) (ps : List Put) (x : Res Assembler) (F : FS) (r : Outcome) : Prop :=
  match x with
  | .error e => F.content o = some [] ∧ r = .error e
  | .ok a => F.content o = some ((a.markExt.writeInto bd h).runIo ps).1 ∧ r = ((a.markExt.writeInto bd h).runIo ps).2

theorem among_reading (bd : Build) (h : Endian) (i o : Nat) (r : Outcome) (F : FS) (ms : List Move)
    (hk : ∀ f, Move.other f ∈ ms → ∀ g : FS, (f g).content o = g.content o) :
    ∀ (fs : FS) (pos : Nat) (buf : Bytes) (a : Assembler), fs.content o = some [] →
    among bd h ms (fs, .reading i pos o buf a) = (F, .done r) →
    (∃ ps, EndsAs bd h o ps
        (a.readLoopIo bd ⟨pasted buf (heard bd h pos ms (fs, .reading i pos o buf a)), []⟩) F r ∧
      ((∀ k, Move.own k ∈ ms → Fine k) → ∀ p ∈ ps, Progress p)) ∨
    ((∃ k, Move.own k ∈ ms ∧ ¬ Fine k) ∧ r = .error .panic ∧ F.content o = some []) := by
  induction ms with
  | nil => intro fs pos buf a _ hs; cases congrArg Prod.snd hs
  | cons m ms ih =>
    intro fs pos buf a ho hs
    have hk' : ∀ f, Move.other f ∈ ms → ∀ g : FS, (f g).content o = g.content o :=
      fun f hf => hk f (List.mem_cons_of_mem _ hf)
    have ih := ih hk'
    have lift : ∀ {X : Prop} {P : List Put → Prop},
        ((∃ ps, P ps ∧ ((∀ k, Move.own k ∈ ms → Fine k) → ∀ p ∈ ps, Progress p)) ∨
          ((∃ k, Move.own k ∈ ms ∧ ¬ Fine k) ∧ X)) →
        ((∃ ps, P ps ∧ ((∀ k, Move.own k ∈ m :: ms → Fine k) → ∀ p ∈ ps, Progress p)) ∨
          ((∃ k, Move.own k ∈ m :: ms ∧ ¬ Fine k) ∧ X)) := by
      rintro X P (⟨ps, h1, h2⟩ | ⟨⟨k, h1, h2⟩, h3⟩)
      · exact .inl ⟨ps, h1, fun hf => h2 fun k hk => hf k (List.mem_cons_of_mem _ hk)⟩
      · exact .inr ⟨⟨k, List.mem_cons_of_mem _ h1, h2⟩, h3⟩
    cases m with
    | other f => exact lift (ih (f fs) pos buf a ((hk f List.mem_cons_self fs).trans ho) hs)
    | own k =>
      simp only [among, step] at hs
      by_cases hn : (10 : UInt8) ∈ buf
      · -- a line is complete
        obtain ⟨⟨l, rest⟩, hcut⟩ : ∃ p, cutNewline buf = some p := by
          cases hc : cutNewline buf with
          | some p => exact ⟨p, rfl⟩
          | none => exact absurd hn (cutNewline_none.1 hc)
        obtain ⟨q, hq, rfl, rfl⟩ := cutNewline_some.1 hcut
        have hh : heard bd h pos (.own k :: ms) (fs, .reading i pos o (q ++ [10] ++ rest) a) =
            heard bd h pos ms (fs, stepRead bd h k fs i pos o (q ++ [10] ++ rest) a) := by
          cases k <;> simp only [heard, step]
          rw [if_pos hn]
        rw [hh, pasted_append (by simp), readLoopIo_cut bd a hq]
        simp only [stepRead, hcut] at hs ⊢
        cases hd : a.doBytes bd (q ++ [10]) with
        | error e =>
          rw [hd] at hs
          obtain ⟨h1, rfl⟩ := among_done bd h _ r o F ms hk' fs hs
          exact .inl ⟨[], ⟨h1.trans ho, rfl⟩, by simp⟩
        | ok a' =>
          rw [hd] at hs
          exact lift (ih fs pos rest a' ho hs)
      · have hcut : cutNewline buf = none := cutNewline_none.2 hn
        simp only [stepRead, hcut] at hs
        cases k with
        | interrupted =>
          have hh : heard bd h pos (.own .interrupted :: ms) (fs, .reading i pos o buf a) =
              heard bd h pos ms (fs, .reading i pos o buf a) := by
            simp only [heard, step, stepRead, hcut]
          rw [hh]
          exact lift (ih fs pos buf a ho hs)
        | failed =>
          obtain ⟨h1, rfl⟩ := among_done bd h _ r o F ms hk' fs hs
          refine .inr ⟨⟨.failed, List.mem_cons_self, ?_⟩, rfl, h1.trans ho⟩
          rintro (h | ⟨n, _, h⟩) <;> cases h
        | size n =>
          simp only at hs
          have hh : heard bd h pos (.own (.size n) :: ms) (fs, .reading i pos o buf a) =
              match (((fs.content i).getD []).drop pos).take (n + 1) with
              | [] => none :: heard bd h pos ms (fs, stepRead bd h (.size n) fs i pos o buf a)
              | b :: bs => some (b :: bs) ::
                  heard bd h (pos + (b :: bs).length) ms (fs, stepRead bd h (.size n) fs i pos o buf a) := by
            simp only [heard, step]
            rw [if_neg hn]
            cases (((fs.content i).getD []).drop pos).take (n + 1) <;> rfl
          rw [hh]
          simp only [stepRead, hcut]
          cases hg : (((fs.content i).getD []).drop pos).take (n + 1) with
          | nil =>
            rw [hg] at hs
            simp only at hs ⊢
            cases buf with
            | nil =>
              obtain ⟨ps, e1, e2, e3⟩ := among_writing bd h o _ r F ms hk' fs [] _ ho hs
              refine .inl ⟨ps, ?_, fun hf => e3 fun k hk => hf k (List.mem_cons_of_mem _ hk)⟩
              rw [heard_writing]
              simp only [pasted, true_or, if_true]
              rw [readLoopIo_end]
              exact ⟨by simpa [Wr.runIo] using e1, e2⟩
            | cons b bs =>
              have hlast : ¬ ((b :: bs) = [] ∨ (b :: bs).getLast? = some 10) := by
                rintro (he | he)
                · cases he
                · exact hn (List.mem_of_getLast? he)
              simp only [pasted, if_neg hlast] at hs ⊢
              rw [← List.append_nil ((b :: bs) ++ [10]), pasted_append List.getLast?_concat, readLoopIo_cut bd a hn,
                doBytes_newline]
              cases hd : a.doBytes bd (b :: bs) with
              | error e =>
                rw [hd] at hs
                obtain ⟨h1, rfl⟩ := among_done bd h _ r o F ms hk' fs hs
                exact .inl ⟨[], ⟨h1.trans ho, rfl⟩, by simp⟩
              | ok a' =>
                rw [hd] at hs
                exact lift (ih fs pos [] a' ho hs)
          | cons b bs =>
            rw [hg] at hs
            simp only [pasted] at hs ⊢
            exact lift (ih fs _ _ a ho hs)

/-- A run ends as on the source that the reads `es` amount to, or a call failed. -/
def Ended (bd : Build) (h : Endian) (o : Nat) (ms : List Move) (es : List (Option Bytes)) (F : FS) (r : Outcome) :
    Prop :=
  (∃ ps, EndsAs bd h o ps (Assembler.new.readLoopIo bd ⟨pasted [] es, []⟩) F r ∧
    ((∀ k, Move.own k ∈ ms → Fine k) → ∀ p ∈ ps, Progress p)) ∨
  ((∃ k, Move.own k ∈ ms ∧ ¬ Fine k) ∧ r = .error .panic ∧ F.content o = some [])

theorem Ended.cons {bd : Build} {h : Endian} {o : Nat} {ms : List Move} {es : List (Option Bytes)} {F : FS}
    {r : Outcome} (m : Move) (he : Ended bd h o ms es F r) : Ended bd h o (m :: ms) es F r := by
  rcases he with ⟨ps, h1, h2⟩ | ⟨⟨k, h1, h2⟩, h3⟩
  · exact .inl ⟨ps, h1, fun hf => h2 fun k hk => hf k (List.mem_cons_of_mem _ hk)⟩
  · exact .inr ⟨⟨k, List.mem_cons_of_mem _ h1, h2⟩, h3⟩

theorem among_openOut (bd : Build) (h : Endian) (i : Nat) (out : Str) (fs F : FS) (r : Outcome) (ms : List Move)
    (hm : ∀ f, Move.other f ∈ ms → Meddles i (fs.node out) f) :
    ∀ g : FS, SameNodes fs g → g.content (fs.node out) = fs.content (fs.node out) →
    among bd h ms (g, .openOut i out) = (F, .done r) →
    (fs.canWrite (fs.node out) = false → r = .error .panic ∧ F.content (fs.node out) = fs.content (fs.node out)) ∧
    (fs.canWrite (fs.node out) = true → Ended bd h (fs.node out) ms (heard bd h 0 ms (g, .openOut i out)) F r) := by
  induction ms with
  | nil => intro g _ _ hs; cases congrArg Prod.snd hs
  | cons m ms ih =>
    intro g hg ho hs
    have hm' : ∀ f, Move.other f ∈ ms → Meddles i (fs.node out) f := fun f hf => hm f (List.mem_cons_of_mem _ hf)
    have hk : ∀ f, Move.other f ∈ ms → ∀ g : FS, (f g).content (fs.node out) = g.content (fs.node out) :=
      fun f hf => (hm' f hf).output
    cases m with
    | other f =>
      have hf := hm f List.mem_cons_self
      obtain ⟨h1, h2⟩ := ih hm' (f g) ⟨(hf.node g).trans hg.1, (hf.canRead g).trans hg.2.1, (hf.canWrite g).trans hg.2.2⟩
        ((hf.output g).trans ho) hs
      exact ⟨h1, fun hw => (h2 hw).cons _⟩
    | own k =>
      have hh : heard bd h 0 (.own k :: ms) (g, .openOut i out) =
          heard bd h 0 ms (step bd h k g (.openOut i out)) := by cases k <;> rfl
      rw [hh]
      simp only [among, step] at hs ⊢
      rw [hg.1, hg.2.2] at hs ⊢
      constructor
      · intro hw
        rw [hw, if_neg (by simp)] at hs
        obtain ⟨h1, h2⟩ := among_done bd h _ r (fs.node out) F ms hk g hs
        exact ⟨h2, h1.trans ho⟩
      · intro hw
        rw [hw, if_pos rfl] at hs ⊢
        exact Ended.cons _ (among_reading bd h i (fs.node out) r F ms hk _ 0 [] Assembler.new (by simp [FS.set]) hs)

theorem among_openIn (bd : Build) (h : Endian) (inp out : Str) (fs F : FS) (r : Outcome) (ms : List Move)
    (hm : ∀ f, Move.other f ∈ ms → Meddles (fs.node inp) (fs.node out) f) :
    ∀ g : FS, SameNodes fs g → g.content (fs.node out) = fs.content (fs.node out) →
    (g.content (fs.node inp)).isSome →
    among bd h ms (g, .openIn ⟨out, inp⟩) = (F, .done r) →
    ((fs.canRead (fs.node inp) = false ∨ fs.canWrite (fs.node out) = false) →
      r = .error .panic ∧ F.content (fs.node out) = fs.content (fs.node out)) ∧
    (fs.canRead (fs.node inp) = true → fs.canWrite (fs.node out) = true →
      Ended bd h (fs.node out) ms (heard bd h 0 ms (g, .openIn ⟨out, inp⟩)) F r) := by
  induction ms with
  | nil => intro g _ _ _ hs; cases congrArg Prod.snd hs
  | cons m ms ih =>
    intro g hg ho hi hs
    have hm' : ∀ f, Move.other f ∈ ms → Meddles (fs.node inp) (fs.node out) f :=
      fun f hf => hm f (List.mem_cons_of_mem _ hf)
    have hk : ∀ f, Move.other f ∈ ms → ∀ g : FS, (f g).content (fs.node out) = g.content (fs.node out) :=
      fun f hf => (hm' f hf).output
    cases m with
    | other f =>
      have hf := hm f List.mem_cons_self
      obtain ⟨h1, h2⟩ := ih hm' (f g) ⟨(hf.node g).trans hg.1, (hf.canRead g).trans hg.2.1, (hf.canWrite g).trans hg.2.2⟩
        ((hf.output g).trans ho) (hf.input g hi) hs
      exact ⟨h1, fun hr hw => (h2 hr hw).cons _⟩
    | own k =>
      have hh : heard bd h 0 (.own k :: ms) (g, .openIn ⟨out, inp⟩) =
          heard bd h 0 ms (step bd h k g (.openIn ⟨out, inp⟩)) := by cases k <;> rfl
      rw [hh]
      obtain ⟨b, hb⟩ := Option.isSome_iff_exists.1 hi
      simp only [among, step] at hs ⊢
      rw [hg.1, hg.2.1, hb] at hs ⊢
      simp only at hs ⊢
      by_cases hr : fs.canRead (fs.node inp) = true
      · rw [if_pos hr] at hs ⊢
        obtain ⟨h1, h2⟩ := among_openOut bd h (fs.node inp) out fs F r ms hm' g hg ho hs
        refine ⟨?_, fun _ hw => (h2 hw).cons _⟩
        rintro (hx | hw)
        · rw [hr] at hx; cases hx
        · exact h1 hw
      · rw [if_neg hr] at hs
        obtain ⟨h1, h2⟩ := among_done bd h _ r (fs.node out) F ms hk g hs
        exact ⟨fun _ => ⟨h2, h1.trans ho⟩, fun hx => absurd hx hr⟩

theorem among_start (bd : Build) (h : Endian) (args : List Str) (inp out : Str) (hcfg : Config.init args = .ok ⟨out, inp⟩)
    (fs F : FS) (r : Outcome) (ms : List Move)
    (hm : ∀ f, Move.other f ∈ ms → Meddles (fs.node inp) (fs.node out) f) :
    ∀ g : FS, SameNodes fs g → g.content (fs.node out) = fs.content (fs.node out) →
    (g.content (fs.node inp)).isSome →
    among bd h ms (g, .start (args.map utf8)) = (F, .done r) →
    ((fs.canRead (fs.node inp) = false ∨ fs.canWrite (fs.node out) = false) →
      r = .error .panic ∧ F.content (fs.node out) = fs.content (fs.node out)) ∧
    (fs.canRead (fs.node inp) = true → fs.canWrite (fs.node out) = true →
      Ended bd h (fs.node out) ms (heard bd h 0 ms (g, .start (args.map utf8))) F r) := by
  induction ms with
  | nil => intro g _ _ _ hs; cases congrArg Prod.snd hs
  | cons m ms ih =>
    intro g hg ho hi hs
    have hm' : ∀ f, Move.other f ∈ ms → Meddles (fs.node inp) (fs.node out) f :=
      fun f hf => hm f (List.mem_cons_of_mem _ hf)
    cases m with
    | other f =>
      have hf := hm f List.mem_cons_self
      obtain ⟨h1, h2⟩ := ih hm' (f g) ⟨(hf.node g).trans hg.1, (hf.canRead g).trans hg.2.1, (hf.canWrite g).trans hg.2.2⟩
        ((hf.output g).trans ho) (hf.input g hi) hs
      exact ⟨h1, fun hr hw => (h2 hr hw).cons _⟩
    | own k =>
      have hst : stepStart (args.map utf8) = .openIn ⟨out, inp⟩ := by
        unfold stepStart
        rw [argsOf_utf8]
        simp only
        rw [hcfg]
      have hh : heard bd h 0 (.own k :: ms) (g, .start (args.map utf8)) =
          heard bd h 0 ms (g, stepStart (args.map utf8)) := by cases k <;> rfl
      rw [hh]
      simp only [among, step] at hs
      rw [hst] at hs ⊢
      obtain ⟨h1, h2⟩ := among_openIn bd h inp out fs F r ms hm' g hg ho hi hs
      exact ⟨h1, fun hr hw => (h2 hr hw).cons _⟩

theorem readFrom_loop (bd : Build) (c : Bytes → List Bytes) (hc : Splits c) (src : Bytes) :
    Assembler.new.readFrom bd (c src) = (Assembler.new.readLoopIo bd ⟨src, []⟩).bind fun a => .ok a.markExt := by
  by_cases hn : src = []
  · rw [← C75_read_ok bd Assembler.new src [] (hn ▸ .eof) (by simp) (c src) (hc src).2 (hc src).1, hn]
    rfl
  · rw [← C75_read_ok bd Assembler.new src [.bytes src] (by simpa using Answers.bytes src [] [] hn .eof) (by simp)
      (c src) (hc src).2 (hc src).1, ← List.nil_append src,
      ← readLoopIo_congr bd Assembler.new (readUntilIo_bytes (buf := []) rfl hn [])]
    rfl

/-- C100: while a run goes on, other programs change the contents of the input and of all files but the
output as they like, between any two of its system calls.  The run ends as it does alone with ideal I/O
on a fixed input, namely the source that its reads amount to, and leaves the same in the output file;
or, if one of its own calls failed, it panicked and has left the beginning of that. -/
theorem C100_as_if (bd : Build) (h : Endian) (c : Bytes → List Bytes) (hc : Splits c) (fs F : FS) (args : List Str)
    (inp out : Str) (ha : Asks args inp out) (hd : fs.node inp ≠ fs.node out)
    (hin : (fs.content (fs.node inp)).isSome) (ms : List Move)
    (hm : ∀ f, Move.other f ∈ ms → Meddles (fs.node inp) (fs.node out) f) (r : Outcome)
    (hs : among bd h ms (fs, .start (args.map utf8)) = (F, .done r)) :
    let src := pasted [] (heard bd h 0 ms (fs, .start (args.map utf8)))
    let ideal := main bd h c (fs.set (fs.node inp) src) args
    (r = ideal.2 ∧ F.content (fs.node out) = ideal.1.content (fs.node out)) ∨
    ((∃ k, Move.own k ∈ ms ∧ ¬ Fine k) ∧ r = .error .panic ∧
      ∃ b b', F.content (fs.node out) = some b ∧ b <+: b' ∧ ideal.1.content (fs.node out) = some b') := by
  intro src ideal
  have hcfg := (asks_iff ..).1 ha
  obtain ⟨h1, h2⟩ := among_start bd h args inp out hcfg fs F r ms hm fs ⟨rfl, rfl, rfl⟩ rfl hin hs
  have hset : (fs.set (fs.node inp) src).content (fs.node inp) = some src := by simp [FS.set]
  have hout : (fs.set (fs.node inp) src).content (fs.node out) = fs.content (fs.node out) := by
    simp [FS.set, Ne.symm hd]
  by_cases hopen : fs.canRead (fs.node inp) = true ∧ fs.canWrite (fs.node out) = true
  · obtain ⟨q1, q2⟩ := C52_result bd h c (fs.set (fs.node inp) src) args out inp src hcfg hd hset hopen.1 hopen.2
    have hrd : Assembler.new.readFrom bd (c src) =
        (Assembler.new.readLoopIo bd ⟨src, []⟩).bind fun a => .ok a.markExt := readFrom_loop bd c hc src
    rcases h2 hopen.1 hopen.2 with ⟨ps, he, hf⟩ | ⟨hbad, hr, hF⟩
    · change EndsAs bd h (fs.node out) ps (Assembler.new.readLoopIo bd ⟨src, []⟩) F r at he
      cases hx : Assembler.new.readLoopIo bd ⟨src, []⟩ with
      | error e =>
        rw [hx] at he hrd
        obtain ⟨e1, e2⟩ := q1 e hrd
        exact .inl ⟨he.2.trans e1.symm, he.1.trans e2.symm⟩
      | ok a =>
        rw [hx] at he hrd
        obtain ⟨e1, e2⟩ := q2 a.markExt hrd
        obtain ⟨w1, w2⟩ := C75_write bd h a.markExt.obj ps
        have fine : (a.markExt.writeInto bd h).runIo ps = ((a.markExt.writeInto bd h).out, (a.markExt.writeInto bd h).res) →
            r = ideal.2 ∧ F.content (fs.node out) = ideal.1.content (fs.node out) := by
          intro hw
          obtain ⟨he1, he2⟩ := he
          rw [hw] at he1 he2
          exact ⟨he2.trans e1.symm, he1.trans e2.symm⟩
        by_cases hall : ∀ k, Move.own k ∈ ms → Fine k
        · exact .inl (fine (w1 (hf hall)))
        · rcases w2 with w2 | ⟨w2, k, -, w3⟩
          · exact .inl (fine w2)
          · refine .inr ⟨?_, he.2.trans w2, _, _, he.1, ?_, e2⟩
            · apply Classical.byContradiction
              intro hno
              apply hall
              intro k hk
              apply Classical.byContradiction
              exact fun hn => hno ⟨k, hk, hn⟩
            · have w3' : ((a.markExt.writeInto bd h).runIo ps).1 = (a.markExt.writeInto bd h).out.take k := w3
              rw [w3']
              exact List.take_prefix _ _
    · refine .inr ⟨hbad, hr, [], ?_⟩
      cases hx : Assembler.new.readFrom bd (c src) with
      | error e => exact ⟨[], hF, List.nil_prefix, (q1 e hx).2⟩
      | ok a => exact ⟨_, hF, List.nil_prefix, (q2 a hx).2⟩
  · have hcl : fs.canRead (fs.node inp) = false ∨ fs.canWrite (fs.node out) = false := by
      cases hr : fs.canRead (fs.node inp) <;> cases hw : fs.canWrite (fs.node out) <;> simp [hr, hw] at hopen ⊢
    obtain ⟨e1, e2⟩ := h1 hcl
    have hmain : ideal = (fs.set (fs.node inp) src, .error .panic) :=
      ((C52_only_output_changes_partial bd h c (fs.set (fs.node inp) src) args).2 out inp hcfg).2.2 (.inr hcl)
    exact .inl ⟨by rw [hmain, e1], by rw [hmain, e2, hout]⟩

/-! ## Others that leave the files of the run alone -/

theorem among_local (bd : Build) (h : Endian) (T : Nat → Prop) (ms : List Move)
    (hm : ∀ f, Move.other f ∈ ms → Spares T f) :
    ∀ (fs g : FS) (s : At), SameNodes fs g → (∀ n, T n → g.content n = fs.content n) →
    (∀ n, Touches fs.node s n → T n) →
    (among bd h ms (g, s)).2 = (steps bd h (ownOf ms) (fs, s)).2 ∧
    ∀ n, T n → (among bd h ms (g, s)).1.content n = (steps bd h (ownOf ms) (fs, s)).1.content n := by
  induction ms with
  | nil => intro fs g s _ hc _; exact ⟨rfl, hc⟩
  | cons m ms ih =>
    intro fs g s hn hc ht
    have ih := ih fun f hf => hm f (List.mem_cons_of_mem _ hf)
    cases m with
    | other f =>
      have hf := hm f List.mem_cons_self
      exact ih fs (f g) s ⟨(hf.node g).trans hn.1, (hf.canRead g).trans hn.2.1, (hf.canWrite g).trans hn.2.2⟩
        (fun n hT => (hf.content g n hT).trans (hc n hT)) ht
    | own k =>
      obtain ⟨a1, a2⟩ := step_frame bd h k fs s
      obtain ⟨b1, b2⟩ := step_frame bd h k g s
      obtain ⟨l1, l2⟩ := step_local bd h k fs g s hn fun n hT => hc n (ht n hT)
      have hnode : (step bd h k fs s).1.node = fs.node := a1.1
      show (among bd h ms (step bd h k g s)).2 = (steps bd h (ownOf ms) (step bd h k fs s)).2 ∧
        ∀ n, T n → (among bd h ms (step bd h k g s)).1.content n = (steps bd h (ownOf ms) (step bd h k fs s)).1.content n
      rw [pair_eq (step bd h k g s), l1, pair_eq (step bd h k fs s)]
      apply ih
      · exact ⟨b1.1.trans (hn.1.trans a1.1.symm), b1.2.1.trans (hn.2.1.trans a1.2.1.symm),
          b1.2.2.trans (hn.2.2.trans a1.2.2.symm)⟩
      · intro n hT
        by_cases hx : Touches fs.node s n
        · exact l2 n hx
        · rw [a2 n fun hw => hx (writes_touches hw), b2 n fun hw => hx (by rw [hn.1] at hw; exact writes_touches hw)]
          exact hc n hT
      · intro n hx
        rw [hnode] at hx
        exact ht n ((step_touches bd h k fs s n).2 hx)

/-- C100: while a run goes on, other programs change all files but its input and output as they like.
The run ends as it does alone with ideal I/O; or, if one of its own calls failed, it panicked and has
left the beginning of that. -/
theorem C100_undisturbed (bd : Build) (h : Endian) (c : Bytes → List Bytes) (hc : Splits c) (fs F : FS)
    (args : List Str) (ms : List Move)
    (hm : ∀ f, Move.other f ∈ ms →
      Spares (fun n => ∃ inp out, Asks args inp out ∧ (n = fs.node inp ∨ n = fs.node out)) f)
    (r : Outcome) (hs : among bd h ms (fs, .start (args.map utf8)) = (F, .done r)) :
    let ideal := main bd h c fs args
    (r = ideal.2 ∧ ∀ inp out, Asks args inp out → F.content (fs.node out) = ideal.1.content (fs.node out)) ∨
    ((∃ k, Move.own k ∈ ms ∧ ¬ Fine k) ∧ r = .error .panic ∧
      ∀ inp out, Asks args inp out → ∃ b b', F.content (fs.node out) = some b ∧ b <+: b' ∧
        ideal.1.content (fs.node out) = some b') := by
  intro ideal
  obtain ⟨q1, q2⟩ := among_local bd h _ ms hm fs fs (.start (args.map utf8)) ⟨rfl, rfl, rfl⟩ (fun _ _ => rfl)
    (fun n hn => touches_start.1 hn)
  rw [hs] at q1 q2
  simp only at q1 q2
  obtain ⟨reads, writes, a1, a2, a3⟩ := steps_alone bd h fs (steps bd h (ownOf ms) (fs, .start (args.map utf8))).1
    (args.map utf8) (ownOf ms) r (Prod.ext rfl q1.symm)
  have hout : ∀ inp out, Asks args inp out → F.content (fs.node out) =
      (steps bd h (ownOf ms) (fs, .start (args.map utf8))).1.content (fs.node out) :=
    fun inp out ha => q2 _ ⟨inp, out, ha, .inr rfl⟩
  have hown : ∀ k, k ∈ ownOf ms → Move.own k ∈ ms := by
    intro k hk
    obtain ⟨m, hmem, he⟩ := List.mem_filterMap.1 hk
    cases m with
    | own k' => cases he; exact hmem
    | other f => cases he
  by_cases hf : ∀ k ∈ ownOf ms, Fine k
  · have hm := C75_no_failure bd h c hc reads a1 (a3 hf).1 writes (a3 hf).2 fs args
    rw [a2] at hm
    refine .inl ⟨congrArg Prod.snd hm, fun inp out ha => ?_⟩
    rw [hout inp out ha]
    show _ = (main bd h c fs args).1.content (fs.node out)
    rw [← hm]
  · have hbad : ∃ k, Move.own k ∈ ms ∧ ¬ Fine k := by
      apply Classical.byContradiction
      intro hno
      apply hf
      intro k hk
      apply Classical.byContradiction
      exact fun hn => hno ⟨k, hown k hk, hn⟩
    rcases C75_main bd h c hc reads a1 writes fs args with hm | ⟨hm, out, inp, b, b', hcfg, hb, hi, hx⟩
    · rw [a2] at hm
      refine .inl ⟨congrArg Prod.snd hm, fun inp out ha => ?_⟩
      rw [hout inp out ha]
      show _ = (main bd h c fs args).1.content (fs.node out)
      rw [← hm]
    · rw [a2] at hm hx
      refine .inr ⟨hbad, hm, fun inp' out' ha => ?_⟩
      have he := (asks_iff ..).1 ha
      rw [hcfg] at he
      cases he
      refine ⟨b, b', ?_, hb, hi⟩
      rw [hout _ _ ha, show (steps bd h (ownOf ms) (fs, .start (args.map utf8))).1 = fs.set (fs.node out) b from hx]
      simp [FS.set]

/-! ## A file that grows -/

/-- A source whose last line has no line end yet. -/
def growing : FS :=
  ⟨fun p => if p = str% "a.s" then 0 else 1, fun n => if n = 0 then some (utf8 (str% "ret")) else none,
   fun _ => true, fun _ => true⟩

/-- Another program appends the rest. -/
def grow (g : FS) : FS := g.set 0 ((g.content 0).getD [] ++ utf8 (str% " ret\n"))

/-- The other program appends just after the run has met the end of the file. -/
def growMoves : List Move :=
  List.replicate 5 (.own (.size 1000)) ++ .other grow :: List.replicate 300 (.own (.size 1000))

theorem grow_meddles : Meddles 0 1 grow where
  node _ := rfl
  canRead _ := rfl
  canWrite _ := rfl
  output _ := rfl
  input _ _ := rfl

theorem pasted_growing : pasted [] (heard .release .little 0 growMoves (growing, .start ([str% "as", str% "a.s"].map utf8))) =
    utf8 (str% "ret\n ret\n") := by decide +kernel

theorem ending_done {s : At} {r : Outcome} (he : ending s = some r) : s = .done r := by
  cases s <;> simp [ending] at he
  rw [he]

/-- C100: the source that the reads amount to need not be the input at any moment.  A program appends to
the input while a run goes on; all calls succeed, the input before and the input after are fine and
give the same file, and the run succeeds but leaves another file. -/
theorem C100_torn : ∃ (fs F : FS) (args : List Str) (ms : List Move) (f : FS → FS),
    among .release .little ms (fs, .start (args.map utf8)) = (F, .done (.ok ())) ∧
    (∀ k, Move.own k ∈ ms → Fine k) ∧ (∀ f', Move.other f' ∈ ms → f' = f) ∧
    Asks args (str% "a.s") (str% "a.o") ∧ Meddles (fs.node (str% "a.s")) (fs.node (str% "a.o")) f ∧
    (∀ g, g = fs ∨ g = f fs →
      let alone := main .release .little (fun b => if b = [] then [] else [b]) g args
      alone.2 = .ok () ∧ F.content (fs.node (str% "a.o")) ≠ alone.1.content (fs.node (str% "a.o"))) := by
  refine ⟨growing, (among .release .little growMoves (growing, .start ([str% "as", str% "a.s"].map utf8))).1,
    [str% "as", str% "a.s"], growMoves, grow, ?_, ?_, ?_, (asks_iff ..).2 (by decide +kernel), grow_meddles, ?_⟩
  · have he : ending (among .release .little growMoves (growing, .start ([str% "as", str% "a.s"].map utf8))).2 =
        some (.ok ()) := by decide +kernel
    exact (pair_eq _).trans (congrArg (Prod.mk _) (ending_done he))
  · intro k hk
    simp only [growMoves, List.mem_append, List.mem_cons, List.mem_replicate, reduceCtorEq, false_or, ne_eq] at hk
    rcases hk with ⟨-, h⟩ | ⟨-, h⟩ <;> cases h <;> exact .inr ⟨1000, by omega, rfl⟩
  · intro f' hf
    simp only [growMoves, List.mem_append, List.mem_cons, List.mem_replicate, reduceCtorEq, and_false, or_false,
      false_or, Move.other.injEq] at hf
    exact hf
  · rintro g (rfl | rfl)
    · exact ⟨by decide +kernel, by decide +kernel⟩
    · exact ⟨by decide +kernel, by decide +kernel⟩

end AT.Props
