import Verif.Props.AsmIo
import Verif.Spec.Steps
/-!
# A run alone, step by step, is a run of `mainIo`
-/

namespace AT
open AT.Asm AT.AsmSpec AT.Props

/-! ## Writing -/

theorem runIoGo_nil {α : Type} (res : Res α) (cs : List Bytes) (ps : List Put) :
    runIoGo res ([] :: cs) ps = runIoGo res cs ps := by
  have hw : writeAllIo [] ps = ([], ps, true) := by cases ps <;> simp [writeAllIo]
  simp [runIoGo, hw]

theorem runIoGo_interrupted {α : Type} (res : Res α) (c : Bytes) (hc : c ≠ []) (cs : List Bytes) (ps : List Put) :
    runIoGo res (c :: cs) (.interrupted :: ps) = runIoGo res (c :: cs) ps := by
  simp [runIoGo, writeAllIo, hc]

theorem runIoGo_accept {α : Type} (res : Res α) (c : Bytes) (hc : c ≠ []) (cs : List Bytes) (n : Nat)
    (ps : List Put) : runIoGo res (c :: cs) (.accept (n + 1) :: ps) =
      (c.take (n + 1) ++ (runIoGo res (c.drop (n + 1) :: cs) ps).1, (runIoGo res (c.drop (n + 1) :: cs) ps).2) := by
  simp only [runIoGo, writeAllIo, hc, if_false]
  rcases writeAllIo (c.drop (n + 1)) ps with ⟨b, ps', ok⟩
  cases ok <;> simp

theorem runIoGo_failed {α : Type} (res : Res α) (c : Bytes) (hc : c ≠ []) (cs : List Bytes) :
    runIoGo res (c :: cs) [.failed] = ([], .error .panic) := by
  simp [runIoGo, writeAllIo, hc]

theorem pwrite_end (fs : FS) (o : Nat) (w b : Bytes) (h : fs.content o = some w) :
    fs.pwrite o w.length b = fs.set o (w ++ b) := by
  unfold FS.pwrite
  rw [h]
  have hd : w.drop (w.length + b.length) = [] := List.drop_of_length_le (by omega)
  simp [hd]

theorem set_same {fs : FS} {o : Nat} {w : Bytes} (h : fs.content o = some w) : fs.set o w = fs := by
  unfold FS.set
  cases fs with
  | mk nd ct cr cw =>
    simp only at h ⊢
    congr 1
    funext m
    by_cases hm : m = o
    · subst hm; simp [h]
    · simp [hm]

theorem steps_done (bd : Build) (h : Mac.Endian) (ks : List Call) (fs : FS) (r : Outcome) :
    steps bd h ks (fs, .done r) = (fs, .done r) := by
  induction ks with
  | nil => rfl
  | cons k ks ih => exact ih

/-- The writing of a run alone. -/
theorem steps_writing (bd : Build) (h : Mac.Endian) (o : Nat) (res r : Outcome) (F : FS) (ks : List Call) :
    ∀ (fs : FS) (w : Bytes) (chunks : List Bytes), fs.content o = some w →
    steps bd h ks (fs, .writing o w.length chunks res) = (F, .done r) →
    ∃ ps, F = fs.set o (w ++ (runIoGo res chunks ps).1) ∧ r = (runIoGo res chunks ps).2 ∧
      ((∀ k ∈ ks, Fine k) → ∀ p ∈ ps, Progress p) := by
  induction ks with
  | nil => intro fs w chunks _ hs; cases congrArg Prod.snd hs
  | cons k ks ih =>
    intro fs w chunks hw hs
    match chunks, hs with
    | [], hs =>
      have hd := steps_done bd h ks fs res
      simp only [steps, step, stepWrite] at hs
      rw [hd] at hs
      cases hs
      exact ⟨[], by simp [runIoGo, set_same hw], rfl, by simp⟩
    | [] :: cs, hs =>
      obtain ⟨ps, e1, e2, e3⟩ := ih fs w cs hw hs
      exact ⟨ps, by rw [runIoGo_nil]; exact e1, by rw [runIoGo_nil]; exact e2,
        fun hk => e3 fun k hk' => hk k (List.mem_cons_of_mem _ hk')⟩
    | (b :: bs) :: cs, hs =>
      match k, hs with
      | .interrupted, hs =>
        obtain ⟨ps, e1, e2, e3⟩ := ih fs w _ hw hs
        refine ⟨.interrupted :: ps, ?_, ?_, fun hk p hp => ?_⟩
        · rw [runIoGo_interrupted res _ (by simp)]; exact e1
        · rw [runIoGo_interrupted res _ (by simp)]; exact e2
        · rcases List.mem_cons.1 hp with rfl | hp
          · exact .inl rfl
          · exact e3 (fun k hk' => hk k (List.mem_cons_of_mem _ hk')) p hp
      | .failed, hs =>
        simp only [steps, step, stepWrite] at hs
        rw [steps_done] at hs
        cases hs
        refine ⟨[.failed], by rw [runIoGo_failed res _ (by simp)]; simp [set_same hw],
          by rw [runIoGo_failed res _ (by simp)], fun hk => ?_⟩
        rcases hk .failed List.mem_cons_self with h | ⟨n, _, h⟩ <;> cases h
      | .size 0, hs =>
        simp only [steps, step, stepWrite] at hs
        rw [steps_done] at hs
        cases hs
        refine ⟨[.failed], by rw [runIoGo_failed res _ (by simp)]; simp [set_same hw],
          by rw [runIoGo_failed res _ (by simp)], fun hk => ?_⟩
        rcases hk (.size 0) List.mem_cons_self with h | ⟨n, hn, h⟩
        · cases h
        · cases h; cases hn
      | .size (n + 1), hs =>
        simp only [steps, step, stepWrite] at hs
        rw [pwrite_end fs o w _ hw, ← List.length_append] at hs
        obtain ⟨ps, e1, e2, e3⟩ := ih (fs.set o (w ++ (b :: bs).take (n + 1))) _ _ (by simp [FS.set]) hs
        refine ⟨.accept (n + 1) :: ps, ?_, ?_, fun hk p hp => ?_⟩
        · rw [runIoGo_accept res _ (by simp), e1, set_set, List.append_assoc]
        · rw [runIoGo_accept res _ (by simp), e2]
        · rcases List.mem_cons.1 hp with rfl | hp
          · exact .inr ⟨n + 1, by omega, rfl⟩
          · exact e3 (fun k hk' => hk k (List.mem_cons_of_mem _ hk')) p hp

/-! ## Reading -/

theorem readLoopIo_eq (bd : Build) (a : Assembler) (r : ReaderIo) : a.readLoopIo bd r =
    match r.nextLine with
    | .error e => .error e
    | .ok (none, _) => .ok a
    | .ok (some s, r') => (a.doLine bd s).bind fun a' => a'.readLoopIo bd r' := by
  rw [Assembler.readLoopIo]
  split <;> rename_i hn <;> rw [hn]
  simp only
  cases a.doLine bd _ <;> rfl

theorem readLoopIo_congr (bd : Build) (a : Assembler) {r r' : ReaderIo} (h : readUntilIo r = readUntilIo r') :
    a.readLoopIo bd r = a.readLoopIo bd r' := by
  rw [readLoopIo_eq, readLoopIo_eq bd a r']
  unfold ReaderIo.nextLine
  rw [h]

/-- A line that was read. -/
theorem readLoopIo_line (bd : Build) (a : Assembler) {r r' : ReaderIo} {l : Bytes} (hl : l ≠ [])
    (h : readUntilIo r = .ok (l, r')) :
    a.readLoopIo bd r = (a.doBytes bd l).bind fun a' => a'.readLoopIo bd r' := by
  rw [readLoopIo_eq]
  unfold ReaderIo.nextLine Assembler.doBytes
  rw [h]
  cases l with
  | nil => exact absurd rfl hl
  | cons b bs =>
    simp only
    cases fromUtf8 (b :: bs) <;> rfl

theorem cutNewline_append_none {b c : Bytes} (hb : cutNewline b = none) :
    cutNewline (b ++ c) = (cutNewline c).map fun p => (b ++ p.1, p.2) := by
  cases hc : cutNewline c with
  | none =>
    rw [cutNewline_none] at hb hc
    simp only [Option.map_none]
    rw [cutNewline_none]
    simp [hb, hc]
  | some p =>
    obtain ⟨l, r⟩ := p
    obtain ⟨q, hq, rfl, rfl⟩ := cutNewline_some.1 hc
    rw [cutNewline_none] at hb
    exact cutNewline_some.2 ⟨b ++ q, by simp [hb, hq], by simp, by simp⟩

theorem readUntilIo_bytes {buf c : Bytes} (hb : cutNewline buf = none) (hc : c ≠ []) (gs : List Got) :
    readUntilIo ⟨buf, .bytes c :: gs⟩ = readUntilIo ⟨buf ++ c, gs⟩ := by
  unfold readUntilIo
  simp only [hb]
  rw [cutNewline_append_none hb]
  cases c with
  | nil => exact absurd rfl hc
  | cons x xs =>
    simp only [readUntilIoGo]
    cases cutNewline (x :: xs) with
    | none => rfl
    | some p => rfl

theorem readUntilIo_interrupted {buf : Bytes} (hb : cutNewline buf = none) (gs : List Got) :
    readUntilIo ⟨buf, .interrupted :: gs⟩ = readUntilIo ⟨buf, gs⟩ := by
  unfold readUntilIo
  simp only [hb, readUntilIoGo]

theorem readUntilIo_failed {buf : Bytes} (hb : cutNewline buf = none) :
    readUntilIo ⟨buf, [.failed]⟩ = .error .panic := by
  unfold readUntilIo
  simp only [hb, readUntilIoGo]

theorem readUntilIo_eof {buf : Bytes} (hb : cutNewline buf = none) :
    readUntilIo ⟨buf, []⟩ = .ok (buf, ⟨[], []⟩) := by
  unfold readUntilIo
  simp only [hb, readUntilIoGo]

theorem readLoopIo_failed {bd : Build} (a : Assembler) {buf : Bytes} (hb : cutNewline buf = none) :
    a.readLoopIo bd ⟨buf, [.failed]⟩ = .error .panic := by
  rw [readLoopIo_eq]
  unfold ReaderIo.nextLine
  rw [readUntilIo_failed hb]

theorem readLoopIo_end {bd : Build} (a : Assembler) : a.readLoopIo bd ⟨[], []⟩ = .ok a := by
  rw [readLoopIo_eq]
  rfl

/-- At the end of the file, nothing left: the loop ends or a read fails. -/
theorem answers_nil {src : Bytes} {gs : List Got} (h : Answers src gs) (hs : src = []) (bd : Build) (a : Assembler) :
    (Got.failed ∉ gs → a.readLoopIo bd ⟨[], gs⟩ = .ok a) ∧
    (a.readLoopIo bd ⟨[], gs⟩ = .ok a ∨ a.readLoopIo bd ⟨[], gs⟩ = .error .panic) := by
  induction h with
  | eof => exact ⟨fun _ => readLoopIo_end a, .inl (readLoopIo_end a)⟩
  | bytes c rest gs hc _ _ =>
    cases c with
    | nil => exact absurd rfl hc
    | cons b bs => cases hs
  | interrupted src gs _ ih =>
    rw [readLoopIo_congr bd a (readUntilIo_interrupted rfl gs)]
    exact ⟨fun hf => (ih hs).1 fun hg => hf (List.mem_cons_of_mem _ hg), (ih hs).2⟩
  | failed src gs =>
    refine ⟨fun hf => absurd List.mem_cons_self hf, .inr ?_⟩
    rw [readLoopIo_eq]
    rfl

/-- What follows the reading. -/
def Finishes (bd : Build) (h : Mac.Endian) (fs : FS) (o : Nat) (ps : List Put) (x : Res Assembler) (F : FS)
    (r : Outcome) : Prop :=
  match x with
  | .error e => F = fs ∧ r = .error e
  | .ok a => F = fs.set o ((a.markExt.writeInto bd h).runIo ps).1 ∧ r = ((a.markExt.writeInto bd h).runIo ps).2

/-- The reading and writing of a run alone. -/
theorem steps_reading (bd : Build) (h : Mac.Endian) (i o : Nat) (fs F : FS) (r : Outcome)
    (ho : fs.content o = some []) (ks : List Call) :
    ∀ (pos : Nat) (buf : Bytes) (a : Assembler),
    steps bd h ks (fs, .reading i pos o buf a) = (F, .done r) →
    ∃ gs ps, Answers (((fs.content i).getD []).drop pos) gs ∧
      Finishes bd h fs o ps (a.readLoopIo bd ⟨buf, gs⟩) F r ∧
      ((∀ k ∈ ks, Fine k) → Got.failed ∉ gs ∧ ∀ p ∈ ps, Progress p) := by
  induction ks with
  | nil => intro pos buf a hs; cases congrArg Prod.snd hs
  | cons k ks ih =>
    intro pos buf a hs
    have tl : (∀ k' ∈ k :: ks, Fine k') → ∀ k' ∈ ks, Fine k' := fun hk k' hk' => hk k' (List.mem_cons_of_mem _ hk')
    obtain ⟨good, hgood, hnf⟩ : ∃ gs, Answers (((fs.content i).getD []).drop pos) gs ∧ Got.failed ∉ gs := by
      generalize ((fs.content i).getD []).drop pos = src
      by_cases hn : src = []
      · subst hn; exact ⟨[], .eof, by simp⟩
      · exact ⟨[.bytes src], by simpa using Answers.bytes src [] [] hn .eof, by simp⟩
    simp only [steps, step, stepRead] at hs
    cases hcut : cutNewline buf with
    | some p =>
      obtain ⟨l, rest⟩ := p
      have hl : l ≠ [] := by obtain ⟨q, -, rfl, -⟩ := cutNewline_some.1 hcut; simp
      have hru : ∀ gs, readUntilIo ⟨buf, gs⟩ = .ok (l, ⟨rest, gs⟩) := by
        intro gs; unfold readUntilIo; rw [hcut]
      rw [hcut] at hs
      simp only at hs
      cases hd : a.doBytes bd l with
      | error e =>
        rw [hd] at hs
        simp only [steps_done] at hs
        cases hs
        refine ⟨good, [], hgood, ?_, fun _ => ⟨hnf, by simp⟩⟩
        rw [readLoopIo_line bd a hl (hru good), hd]
        exact ⟨rfl, rfl⟩
      | ok a' =>
        rw [hd] at hs
        obtain ⟨gs, ps, h1, h2, h3⟩ := ih pos rest a' hs
        refine ⟨gs, ps, h1, ?_, fun hk => h3 (tl hk)⟩
        rw [readLoopIo_line bd a hl (hru gs), hd]
        exact h2
    | none =>
      rw [hcut] at hs
      cases k with
      | interrupted =>
        obtain ⟨gs, ps, h1, h2, h3⟩ := ih pos buf a hs
        refine ⟨.interrupted :: gs, ps, .interrupted _ _ h1, ?_, fun hk => ⟨?_, (h3 (tl hk)).2⟩⟩
        · rw [readLoopIo_congr bd a (readUntilIo_interrupted hcut gs)]
          exact h2
        · simpa using (h3 (tl hk)).1
      | failed =>
        simp only [steps_done] at hs
        cases hs
        refine ⟨[.failed], [], .failed _ _, ?_, fun hk => ?_⟩
        · rw [readLoopIo_failed a hcut]; exact ⟨rfl, rfl⟩
        · rcases hk .failed List.mem_cons_self with h | ⟨n, _, h⟩ <;> cases h
      | size n =>
        simp only at hs
        cases hg : (((fs.content i).getD []).drop pos).take (n + 1) with
        | nil =>
          have hsrc : ((fs.content i).getD []).drop pos = [] := by
            cases hx : ((fs.content i).getD []).drop pos with
            | nil => rfl
            | cons x xs => rw [hx] at hg; cases hg
          rw [hg] at hs
          rw [hsrc] at hgood ⊢
          cases buf with
          | nil =>
            obtain ⟨ps, e1, e2, e3⟩ := steps_writing bd h o _ r F ks fs [] _ ho hs
            refine ⟨[], ps, .eof, ?_, fun hk => ⟨by simp, e3 (tl hk)⟩⟩
            rw [readLoopIo_end]
            exact ⟨by simpa [Wr.runIo] using e1, e2⟩
          | cons b bs =>
            simp only at hs
            have hln := readLoopIo_line bd a (List.cons_ne_nil b bs) (readUntilIo_eof hcut)
            cases hd : a.doBytes bd (b :: bs) with
            | error e =>
              rw [hd] at hs
              simp only [steps_done] at hs
              cases hs
              refine ⟨[], [], .eof, ?_, fun _ => ⟨by simp, by simp⟩⟩
              rw [hln, hd]
              exact ⟨rfl, rfl⟩
            | ok a' =>
              rw [hd] at hs
              obtain ⟨gs, ps, h1, h2, h3⟩ := ih pos [] a' hs
              rw [hsrc] at h1
              obtain ⟨q1, q2⟩ := answers_nil h1 rfl bd a'
              by_cases hok : a'.readLoopIo bd ⟨[], gs⟩ = .ok a'
              · refine ⟨[], ps, .eof, ?_, fun hk => ⟨by simp, (h3 (tl hk)).2⟩⟩
                rw [hln, hd]
                show Finishes bd h fs o ps (a'.readLoopIo bd ⟨[], []⟩) F r
                rw [readLoopIo_end, ← hok]
                exact h2
              · refine ⟨[.failed], ps, .failed _ _, ?_, fun hk => absurd (q1 (h3 (tl hk)).1) hok⟩
                rw [readLoopIo_failed a hcut]
                rw [q2.resolve_left hok] at h2
                exact h2
        | cons b bs =>
          rw [hg] at hs
          simp only at hs
          obtain ⟨gs, ps, h1, h2, h3⟩ := ih _ _ a hs
          have hsplit : ((fs.content i).getD []).drop pos =
              (b :: bs) ++ ((fs.content i).getD []).drop (pos + (b :: bs).length) := by
            have hlen : (b :: bs).length = min (n + 1) (((fs.content i).getD []).drop pos).length := by
              rw [← hg, List.length_take]
            rw [← List.drop_drop]
            conv => lhs; rw [← List.take_append_drop (n + 1) (((fs.content i).getD []).drop pos), hg]
            congr 1
            rw [hlen]
            rcases Nat.le_total (n + 1) (((fs.content i).getD []).drop pos).length with hle | hle
            · rw [Nat.min_eq_left hle]
            · rw [Nat.min_eq_right hle, List.drop_of_length_le hle, List.drop_of_length_le (Nat.le_refl _)]
          refine ⟨.bytes (b :: bs) :: gs, ps, ?_, ?_, fun hk => ⟨?_, (h3 (tl hk)).2⟩⟩
          · rw [hsplit]; exact .bytes _ _ _ (by simp) h1
          · rw [readLoopIo_congr bd a (readUntilIo_bytes hcut (by simp) gs)]
            exact h2
          · simpa using (h3 (tl hk)).1

/-- A run alone is a run of `mainIo`. -/
theorem steps_alone (bd : Build) (h : Mac.Endian) (fs F : FS) (args : List Bytes) (ks : List Call) (r : Outcome)
    (hs : steps bd h ks (fs, .start args) = (F, .done r)) :
    ∃ reads writes, (∀ b, Answers b (reads b)) ∧ mainIo bd h reads writes fs args = (F, r) ∧
      ((∀ k ∈ ks, Fine k) → (∀ b, Got.failed ∉ reads b) ∧ ∀ p ∈ writes, Progress p) := by
  let dflt : Bytes → List Got := fun b => if b = [] then [] else [.bytes b]
  have hdflt : ∀ b, Answers b (dflt b) := by
    intro b
    by_cases hn : b = []
    · subst hn; exact .eof
    · simp only [dflt, if_neg hn]; simpa using Answers.bytes b [] [] hn .eof
  have hdf : ∀ b, Got.failed ∉ dflt b := by
    intro b; by_cases hn : b = [] <;> simp [dflt, hn]
  match ks, hs with
  | [], hs => cases congrArg Prod.snd hs
  | k₁ :: ks, hs =>
    simp only [steps, step, stepStart] at hs
    unfold mainIo
    cases ha : argsOf args with
    | error e =>
      rw [ha] at hs
      simp only [steps_done] at hs
      cases hs
      exact ⟨dflt, [], hdflt, rfl, fun _ => ⟨hdf, by simp⟩⟩
    | ok ss =>
      rw [ha] at hs
      simp only at hs ⊢
      cases hcfg : Config.init ss with
      | error e =>
        rw [hcfg] at hs
        simp only [steps_done] at hs
        cases hs
        exact ⟨dflt, [], hdflt, rfl, fun _ => ⟨hdf, by simp⟩⟩
      | ok cfg =>
        rw [hcfg] at hs
        match ks, hs with
        | [], hs => cases congrArg Prod.snd hs
        | k₂ :: ks, hs =>
          simp only [steps, step] at hs ⊢
          cases hc : fs.content (fs.node cfg.inputPath) with
          | none =>
            rw [hc] at hs
            simp only [steps_done] at hs
            cases hs
            exact ⟨dflt, [], hdflt, rfl, fun _ => ⟨hdf, by simp⟩⟩
          | some b =>
            rw [hc] at hs
            simp only at hs ⊢
            by_cases hr : fs.canRead (fs.node cfg.inputPath) = true
            · simp only [hr, Bool.not_true, Bool.false_eq_true, if_false, if_true] at hs ⊢
              match ks, hs with
              | [], hs => cases congrArg Prod.snd hs
              | k₃ :: ks, hs =>
                simp only [steps, step] at hs
                by_cases hw : fs.canWrite (fs.node cfg.outputPath) = true
                · simp only [hw, Bool.not_true, Bool.false_eq_true, if_false, if_true] at hs ⊢
                  obtain ⟨gs, ps, h1, h2, h3⟩ := steps_reading bd h _ _ _ F r (by simp [FS.set]) ks 0 [] _ hs
                  rw [List.drop_zero] at h1
                  generalize hsrc : ((fs.set (fs.node cfg.outputPath) []).content (fs.node cfg.inputPath)).getD [] = src at h1 ⊢
                  refine ⟨fun b => if b = src then gs else dflt b, ps, fun b => ?_, ?_, fun hk => ⟨fun b => ?_, ?_⟩⟩
                  · simp only
                    split
                    · rename_i he; rw [he]; exact h1
                    · exact hdflt b
                  · simp only [if_true, Assembler.readFromIo]
                    cases hl : Assembler.new.readLoopIo bd ⟨[], gs⟩ with
                    | error e => rw [hl] at h2; obtain ⟨rfl, rfl⟩ := h2; rfl
                    | ok a => rw [hl] at h2; obtain ⟨rfl, rfl⟩ := h2; rfl
                  · simp only
                    split
                    · exact (h3 fun k hk' => hk k (by simp [hk'])).1
                    · exact hdf b
                  · exact (h3 fun k hk' => hk k (by simp [hk'])).2
                · simp only [hw, Bool.not_false, Bool.false_eq_true, if_true, if_false, steps_done] at hs ⊢
                  cases hs
                  exact ⟨dflt, [], hdflt, rfl, fun _ => ⟨hdf, by simp⟩⟩
            · simp only [hr, Bool.not_false, Bool.false_eq_true, if_true, if_false, steps_done] at hs ⊢
              cases hs
              exact ⟨dflt, [], hdflt, rfl, fun _ => ⟨hdf, by simp⟩⟩

end AT
