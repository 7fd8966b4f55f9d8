import Verif.Props.Calls
import Verif.Spec.Prompt
/-!
# C107: a run ends at the first bad line

Whatever follows a bad line, even for ever, the run does not read it.
-/

namespace AT.Props
open AT AT.Asm AT.AsmSpec AT.Mac AT.Obj

/-- The first line of a text that ends with a line end. -/
theorem first_line {t y q w : Bytes} (ht : t.getLast? = some 10) (hq : (10 : UInt8) ∉ q)
    (he : t ++ y = q ++ [10] ++ w) : ∃ u, t = q ++ [10] ++ u ∧ u ++ y = w := by
  rcases List.append_eq_append_iff.1 he with ⟨u, h1, h2⟩ | ⟨u, h1, h2⟩
  · rcases List.eq_nil_or_concat u with rfl | ⟨v, x, rfl⟩
    · exact ⟨[], by simpa using h1.symm, by simpa using h2⟩
    · exfalso
      rw [List.concat_eq_append, ← List.append_assoc] at h1
      have hv := (List.append_inj' h1 rfl).1
      exact hq (hv ▸ List.mem_append_left _ (List.mem_of_getLast? ht))
  · exact ⟨u, h1, h2.symm⟩

/-- While `t` is ahead, which ends with a line end and in which there is a bad line. -/
structure Ahead (bd : Build) (p : Bytes) (e : Stop) (pos : Nat) (buf : Bytes) (a : Assembler) (t y : Bytes) : Prop where
  last : t.getLast? = some 10
  bad : a.readLoopIo bd ⟨t, []⟩ = .error e
  at_ : t ++ y = buf ++ p.drop pos
  rest : pos < p.length → y = []

theorem ahead_line {bd : Build} {p : Bytes} {e : Stop} {pos : Nat} {buf : Bytes} {a : Assembler} {t y : Bytes}
    (ha : Ahead bd p e pos buf a t y) {l r : Bytes} (hcut : cutNewline buf = some (l, r)) :
    a.doBytes bd l = .error e ∨ ∃ a' u, a.doBytes bd l = .ok a' ∧ u.length < t.length ∧ Ahead bd p e pos r a' u y := by
  obtain ⟨q, hq, rfl, rfl⟩ := cutNewline_some.1 hcut
  obtain ⟨u, rfl, hu⟩ := first_line ha.last hq (by rw [ha.at_, List.append_assoc])
  have hb := ha.bad
  rw [readLoopIo_cut bd a hq] at hb
  cases hd : a.doBytes bd (q ++ [10]) with
  | error e' => rw [hd] at hb; exact .inl hb
  | ok a' =>
    rw [hd] at hb
    have hb' : a'.readLoopIo bd ⟨u, []⟩ = .error e := hb
    refine .inr ⟨a', u, rfl, by simp only [List.length_append, List.length_singleton]; omega, ?_, hb', hu, ha.rest⟩
    have hl := ha.last
    cases u with
    | nil => rw [readLoopIo_end] at hb'; cases hb'
    | cons x xs =>
      rw [List.getLast?_append] at hl
      cases hx : (x :: xs).getLast? with
      | none => simp at hx
      | some z => rw [hx] at hl; exact hl

theorem ahead_read {bd : Build} {p : Bytes} {e : Stop} {pos : Nat} {buf : Bytes} {a : Assembler} {t y : Bytes}
    (ha : Ahead bd p e pos buf a t y) (hcut : cutNewline buf = none) :
    pos < p.length ∧ ∀ (z b : Bytes) (n : Nat), ((p ++ z).drop pos).take (n + 1) = b →
      b ≠ [] ∧ ∃ y', Ahead bd p e (pos + b.length) (buf ++ b) a t y' := by
  have hpos : pos < p.length := by
    apply Nat.lt_of_not_le
    intro hle
    have := ha.at_
    rw [List.drop_of_length_le hle, List.append_nil] at this
    exact cutNewline_none.1 hcut (this ▸ List.mem_append_left _ (List.mem_of_getLast? ha.last))
  refine ⟨hpos, fun z b n hb => ?_⟩
  have hsplit := drop_take hb
  rw [List.drop_append_of_le_length (by omega)] at hsplit
  have hne : b ≠ [] := by
    rintro rfl
    rw [List.take_eq_nil_iff, List.drop_eq_nil_iff] at hb
    simp only [List.length_append] at hb
    omega
  refine ⟨hne, ?_⟩
  have h0 := ha.at_
  rw [ha.rest hpos, List.append_nil] at h0
  by_cases hlt : pos + b.length < p.length
  · refine ⟨[], ha.last, ha.bad, ?_, fun _ => rfl⟩
    rw [List.drop_append_of_le_length (by omega), ← List.append_assoc] at hsplit
    rw [List.append_nil, h0, List.append_cancel_right hsplit, List.append_assoc]
  · refine ⟨b.drop (p.length - pos), ha.last, ha.bad, ?_, fun hl => absurd hl hlt⟩
    have hp : p.drop (pos + b.length) = [] := List.drop_of_length_le (by omega)
    rw [hp, List.append_nil, h0, List.append_assoc]
    congr 1
    have h1 := congrArg (List.take (p.length - pos)) hsplit
    rw [List.take_append_of_le_length (by rw [List.length_drop]; omega),
      List.take_append_of_le_length (by omega), List.take_of_length_le (by rw [List.length_drop]; omega)] at h1
    rw [h1, List.take_append_drop]

/-- From the moment on when both files are open. -/
theorem prompt_reading (bd : Build) (h : Endian) (p : Bytes) (e : Stop) (i o : Nat) (ms : List Move)
    (hm : ∀ f, .other f ∈ ms → KeepsStart p i f) :
    ∀ (fs : FS) (pos : Nat) (buf : Bytes) (a : Assembler) (t y z : Bytes), fs.content i = some (p ++ z) →
    Ahead bd p e pos buf a t y →
    (∀ s ∈ calls bd h ms (fs, .reading i pos o buf a), ReadsAmong i p.length s) ∧
    (calls bd h ms (fs, .reading i pos o buf a)).countP served ≤ p.length - pos ∧
    (∀ r, (among bd h ms (fs, .reading i pos o buf a)).2 = .done r →
      r = .error e ∨ r = .error .panic ∧ .own .failed ∈ ms) ∧
    (.own .failed ∉ ms → t.length + (p.length - pos) ≤ ms.countP getsOn →
      (among bd h ms (fs, .reading i pos o buf a)).2 = .done (.error e)) := by
  induction ms with
  | nil =>
    intro fs pos buf a t y z hz ha
    refine ⟨by simp [calls], by simp [calls], fun r hr => (by cases hr), fun _ hc => ?_⟩
    have := List.length_pos_of_mem (List.mem_of_getLast? ha.last)
    simp only [List.countP_nil] at hc
    omega
  | cons m ms ih =>
    have ih := ih fun f hf => hm f (List.mem_cons_of_mem _ hf)
    intro fs pos buf a t y z hz ha
    cases m with
    | other f =>
      obtain ⟨z', hz'⟩ := (hm f List.mem_cons_self).begins fs z hz
      obtain ⟨h1, h2, h3, h4⟩ := ih (f fs) pos buf a t y z' hz' ha
      refine ⟨h1, h2, fun r hr => (h3 r hr).imp_right fun q => ⟨q.1, List.mem_cons_of_mem _ q.2⟩, fun hf hc => ?_⟩
      exact h4 (fun hf' => hf (List.mem_cons_of_mem _ hf')) (by rwa [List.countP_cons_of_neg (by simp [getsOn])] at hc)
    | own k =>
      have hge : (Move.own k :: ms).countP getsOn ≤ ms.countP getsOn + 1 := by
        rw [List.countP_cons]; split <;> omega
      cases hcut : cutNewline buf with
      | some lr =>
        obtain ⟨l, r⟩ := lr
        simp only [calls, among, sysOf, step, stepRead, hcut, Option.toList, List.nil_append]
        rcases ahead_line ha hcut with hd | ⟨a', u, hd, hlen, ha'⟩
        · rw [hd]
          simp only [calls_done, amid_done]
          exact ⟨by simp, by simp, fun r hr => .inl (by cases hr; rfl), fun _ _ => trivial⟩
        · rw [hd]
          simp only
          obtain ⟨h1, h2, h3, h4⟩ := ih fs pos r a' u y z hz ha'
          refine ⟨h1, h2, fun r hr => (h3 r hr).imp_right fun q => ⟨q.1, List.mem_cons_of_mem _ q.2⟩, fun hf hc => ?_⟩
          exact h4 (fun hf' => hf (List.mem_cons_of_mem _ hf')) (by omega)
      | none =>
        obtain ⟨hpos, hread⟩ := ahead_read ha hcut
        simp only [calls, among, sysOf, step, stepRead, hcut, Option.toList, List.singleton_append]
        match k with
        | .interrupted =>
          obtain ⟨h1, h2, h3, h4⟩ := ih fs pos buf a t y z hz ha
          refine ⟨?_, ?_, fun r hr => (h3 r hr).imp_right fun q => ⟨q.1, List.mem_cons_of_mem _ q.2⟩, fun hf hc => ?_⟩
          · intro s hs
            rcases List.mem_cons.1 hs with rfl | hs
            · exact ⟨rfl, hpos⟩
            · exact h1 s hs
          · rw [List.countP_cons_of_neg (by simp [served, readReply])]
            exact h2
          · exact h4 (fun hf' => hf (List.mem_cons_of_mem _ hf'))
              (by rwa [List.countP_cons_of_neg (by simp [getsOn])] at hc)
        | .failed =>
          simp only [calls_done, amid_done]
          refine ⟨?_, ?_, fun r hr => .inr ⟨by cases hr; rfl, List.mem_cons_self⟩, fun hf => absurd List.mem_cons_self hf⟩
          · intro s hs
            rw [List.mem_singleton] at hs
            rw [hs]
            exact ⟨rfl, hpos⟩
          · rw [List.countP_cons_of_pos rfl]
            simp only [List.countP_nil]
            omega
        | .size n =>
          simp only [hz, Option.getD_some, readReply]
          obtain ⟨hne, y', ha'⟩ := hread z _ n rfl
          cases hg : ((p ++ z).drop pos).take (n + 1) with
          | nil => exact absurd hg hne
          | cons b bs =>
            rw [hg] at ha'
            simp only
            obtain ⟨h1, h2, h3, h4⟩ := ih fs _ _ a t y' z hz ha'
            simp only [List.length_cons] at h1 h2 h3 h4 ⊢
            refine ⟨?_, ?_, fun r hr => (h3 r hr).imp_right fun q => ⟨q.1, List.mem_cons_of_mem _ q.2⟩, fun hf hc => ?_⟩
            · intro s hs
              rcases List.mem_cons.1 hs with rfl | hs
              · exact ⟨rfl, hpos⟩
              · exact h1 s hs
            · rw [List.countP_cons_of_pos rfl]
              omega
            · exact h4 (fun hf' => hf (List.mem_cons_of_mem _ hf')) (by omega)

/-- The state of the files that matters, before the output is opened. -/
structure Waits (fs : FS) (p : Bytes) (inp : Str) (g : FS) : Prop where
  node : g.node = fs.node
  canRead : g.canRead = fs.canRead
  canWrite : g.canWrite = fs.canWrite
  begins : ∃ z, g.content (fs.node inp) = some (p ++ z)

theorem Waits.other {fs : FS} {p : Bytes} {inp : Str} {g : FS} {f : FS → FS} (hw : Waits fs p inp g)
    (hf : KeepsStart p (fs.node inp) f) : Waits fs p inp (f g) := by
  obtain ⟨h1, h2, h3, z, h4⟩ := hw
  exact ⟨(hf.node g).trans h1, (hf.canRead g).trans h2, (hf.canWrite g).trans h3, hf.begins g z h4⟩

/-- What C107 says of the steps from a state on, `n` of them and `m` calls at most. -/
def PromptFrom (bd : Build) (h : Endian) (fs : FS) (inp out : Str) (p : Bytes) (e : Stop) (n m : Nat) (ms : List Move)
    (x : FS × At) : Prop :=
  ((∀ s ∈ calls bd h ms x, (∃ r, s = .openIn inp r) ∨ (∃ r, s = .openOut out r) ∨ ReadsAmong (fs.node inp) p.length s) ∧
    (calls bd h ms x).countP served ≤ p.length + m) ∧
  (∀ r, (among bd h ms x).2 = .done r → r = .error e ∨ r = .error .panic ∧
    (fs.canRead (fs.node inp) = false ∨ fs.canWrite (fs.node out) = false ∨ .own .failed ∈ ms)) ∧
  (fs.canRead (fs.node inp) = true → fs.canWrite (fs.node out) = true → .own .failed ∉ ms →
    2 * p.length + n ≤ ms.countP getsOn → (among bd h ms x).2 = .done (.error e))

theorem PromptFrom.cons {bd : Build} {h : Endian} {fs : FS} {inp out : Str} {p : Bytes} {e : Stop} {n m n' m' : Nat}
    {ms : List Move} {x x' : FS × At} {mv : Move} (hp : PromptFrom bd h fs inp out p e n m ms x)
    (ha : among bd h (mv :: ms) x' = among bd h ms x)
    (hc : ∃ es, calls bd h (mv :: ms) x' = es ++ calls bd h ms x ∧ es.length + m ≤ m' ∧
      ∀ s ∈ es, (∃ r, s = .openIn inp r) ∨ ∃ r, s = .openOut out r)
    (hn : n + [mv].countP getsOn ≤ n') : PromptFrom bd h fs inp out p e n' m' (mv :: ms) x' := by
  obtain ⟨⟨h1, h2⟩, h3, h4⟩ := hp
  obtain ⟨es, h5, h6, h7⟩ := hc
  refine ⟨⟨?_, ?_⟩, ?_, ?_⟩
  · intro s hs
    rw [h5] at hs
    rcases List.mem_append.1 hs with hs | hs
    · exact (h7 s hs).imp_right .inl
    · exact h1 s hs
  · rw [h5, List.countP_append]
    have := es.countP_le_length (p := served)
    omega
  · intro r hr
    rw [ha] at hr
    exact (h3 r hr).imp_right fun q => ⟨q.1, q.2.imp_right fun q => q.imp_right (List.mem_cons_of_mem _)⟩
  · intro hr hw hf hc
    rw [ha]
    rw [← List.singleton_append, List.countP_append] at hc
    exact h4 hr hw (fun hf' => hf (List.mem_cons_of_mem _ hf')) (by omega)

theorem getsOn_one (m : Move) : [m].countP getsOn ≤ 1 := List.countP_le_length

theorem prompt_opens (bd : Build) (h : Endian) (fs : FS) (args : List Str)
    (inp out : Str) (hcfg : Config.init args = .ok ⟨out, inp⟩) (hd : fs.node inp ≠ fs.node out) (p : Bytes)
    (hp : p.getLast? = some 10) (e : Stop) (he : Assembler.new.readLoopIo bd ⟨p, []⟩ = .error e) (ms : List Move)
    (hm : ∀ f, .other f ∈ ms → KeepsStart p (fs.node inp) f) :
    ∀ g, Waits fs p inp g →
      PromptFrom bd h fs inp out p e 3 2 ms (g, .start (args.map utf8)) ∧
      PromptFrom bd h fs inp out p e 2 2 ms (g, .openIn ⟨out, inp⟩) ∧
      PromptFrom bd h fs inp out p e 1 1 ms (g, .openOut (fs.node inp) out) := by
  induction ms with
  | nil =>
    intro g hg
    refine ⟨⟨⟨by simp [calls], by simp [calls]⟩, fun r hr => (by cases hr), fun _ _ _ hc => ?_⟩,
      ⟨⟨by simp [calls], by simp [calls]⟩, fun r hr => (by cases hr), fun _ _ _ hc => ?_⟩,
      ⟨⟨by simp [calls], by simp [calls]⟩, fun r hr => (by cases hr), fun _ _ _ hc => ?_⟩⟩
    all_goals
      simp only [List.countP_nil] at hc
      omega
  | cons m ms ih =>
    have ih := ih fun f hf => hm f (List.mem_cons_of_mem _ hf)
    intro g hg
    cases m with
    | other f =>
      obtain ⟨h1, h2, h3⟩ := ih (f g) (hg.other (hm f List.mem_cons_self))
      exact ⟨h1.cons rfl ⟨[], rfl, by simp, by simp⟩ (by simp [getsOn]),
        h2.cons rfl ⟨[], rfl, by simp, by simp⟩ (by simp [getsOn]),
        h3.cons rfl ⟨[], rfl, by simp, by simp⟩ (by simp [getsOn])⟩
    | own k =>
      obtain ⟨h1, h2, h3⟩ := ih g hg
      obtain ⟨hg1, hg2, hg3, z, hg4⟩ := hg
      have hk := getsOn_one (.own k)
      refine ⟨?_, ?_, ?_⟩
      · refine h2.cons (mv := .own k) ?_ ⟨[], ?_, by simp, by simp⟩ (by omega)
        · simp only [among, step, stepStart, argsOf_utf8, hcfg]
        · simp only [calls, sysOf, step, stepStart, argsOf_utf8, hcfg, Option.toList]
      · by_cases hr : fs.canRead (fs.node inp) = true
        · refine h3.cons (mv := .own k) ?_ ⟨[.openIn inp (some (fs.node inp))], ?_, by simp, by simp⟩ (by omega)
          · simp only [among, step, hg1, hg2, hg4, hr, if_true]
          · simp only [calls, sysOf, step, hg1, hg2, hg4, hr, if_true, Option.toList, Option.isSome_some, Bool.and_true]
        · have hr : fs.canRead (fs.node inp) = false := by simpa using hr
          have hs : step bd h k g (.openIn ⟨out, inp⟩) = (g, .done (.error .panic)) := by
            simp only [step, hg1, hg2, hg4, hr, Bool.false_eq_true, if_false]
          refine ⟨?_, fun r hr' => .inr ⟨?_, .inl hr⟩, fun hr' => absurd hr' (by simp [hr])⟩
          · simp only [calls, sysOf, Option.toList, hs, calls_done]
            exact ⟨fun s hs => .inl ⟨_, List.mem_singleton.1 hs⟩, Nat.le_trans List.countP_le_length (show 1 ≤ _ by omega)⟩
          · rw [among, hs, amid_done] at hr'
            cases hr'
            rfl
      · by_cases hw : fs.canWrite (fs.node out) = true
        · have hs : step bd h k g (.openOut (fs.node inp) out) =
              (g.set (fs.node out) [], .reading (fs.node inp) 0 (fs.node out) [] Assembler.new) := by
            simp only [step, hg1, hg3, hw, if_true]
          obtain ⟨q1, q2, q3, q4⟩ := prompt_reading bd h p e (fs.node inp) (fs.node out) ms
            (fun f hf => hm f (List.mem_cons_of_mem _ hf)) (g.set (fs.node out) []) 0 [] Assembler.new p [] z
            (by simp [FS.set, hd, hg4]) ⟨hp, he, by simp, fun _ => rfl⟩
          have : PromptFrom bd h fs inp out p e 0 0 ms
              (g.set (fs.node out) [], .reading (fs.node inp) 0 (fs.node out) [] Assembler.new) :=
            ⟨⟨fun s hs => .inr (.inr (q1 s hs)), q2⟩, fun r hr => (q3 r hr).imp_right fun q => ⟨q.1, .inr (.inr q.2)⟩,
              fun _ _ hf hc => q4 hf (by omega)⟩
          refine this.cons (mv := .own k) ?_ ⟨[.openOut out (some (fs.node out))], ?_, by simp, by simp⟩ (by omega)
          · simp only [among, hs]
          · simp only [calls, sysOf, Option.toList, hs, hg1, hg3, hw, if_true]
        · have hw : fs.canWrite (fs.node out) = false := by simpa using hw
          have hs : step bd h k g (.openOut (fs.node inp) out) = (g, .done (.error .panic)) := by
            simp only [step, hg1, hg3, hw, Bool.false_eq_true, if_false]
          refine ⟨?_, fun r hr' => .inr ⟨?_, .inr (.inl hw)⟩, fun _ hw' => absurd hw' (by simp [hw])⟩
          · simp only [calls, sysOf, Option.toList, hs, calls_done]
            exact ⟨fun s hs => .inr (.inl ⟨_, List.mem_singleton.1 hs⟩), Nat.le_trans List.countP_le_length (show 1 ≤ _ by omega)⟩
          · rw [among, hs, amid_done] at hr'
            cases hr'
            rfl

theorem prompt_run (bd : Build) (h : Endian) (c : Bytes → List Bytes) (hc : Splits c) (fs : FS) (args : List Str)
    (inp out : Str) (ha : Asks args inp out) (hd : fs.node inp ≠ fs.node out) (p z : Bytes)
    (hz : fs.content (fs.node inp) = some (p ++ z)) (hp : p.getLast? = some 10) (e : Stop)
    (he : Assembler.new.readFrom bd (c p) = .error e) (ms : List Move)
    (hm : ∀ f, .other f ∈ ms → KeepsStart p (fs.node inp) f) :
    PromptFrom bd h fs inp out p e 3 2 ms (fs, .start (args.map utf8)) := by
  rw [readFrom_loop bd c hc p] at he
  have he' : Assembler.new.readLoopIo bd ⟨p, []⟩ = .error e := by
    cases hl : Assembler.new.readLoopIo bd ⟨p, []⟩ with
    | error e' => rw [hl] at he; exact he
    | ok a => rw [hl] at he; cases he
  exact (prompt_opens bd h fs args inp out ((asks_iff ..).1 ha) hd p hp e he' ms hm fs ⟨rfl, rfl, rfl, z, hz⟩).1

/-- C107: the input begins with `p`, whole lines among which there is a bad one.  Then, whatever follows and
whatever other programs do to the rest of the input and to the other files, a run reads only from places
within `p`, never writes, and makes at most as many calls as `p` has bytes, and two more, not counting those
that are interrupted. -/
theorem C107_calls (bd : Build) (h : Endian) (c : Bytes → List Bytes) (hc : Splits c) (fs : FS) (args : List Str)
    (inp out : Str) (ha : Asks args inp out) (hd : fs.node inp ≠ fs.node out) (p z : Bytes)
    (hz : fs.content (fs.node inp) = some (p ++ z)) (hp : p.getLast? = some 10) (e : Stop)
    (he : Assembler.new.readFrom bd (c p) = .error e) (ms : List Move)
    (hm : ∀ f, .other f ∈ ms → KeepsStart p (fs.node inp) f) :
    let es := calls bd h ms (fs, .start (args.map utf8))
    (∀ s ∈ es, (∃ r, s = .openIn inp r) ∨ (∃ r, s = .openOut out r) ∨ ReadsAmong (fs.node inp) p.length s) ∧
    es.countP served ≤ p.length + 2 :=
  (prompt_run bd h c hc fs args inp out ha hd p z hz hp e he ms hm).1

/-- C107: it ends as on `p` alone: with the number of the bad line and what is wrong with it.  Only a call
that is refused or fails can make it end in another way. -/
theorem C107_outcome (bd : Build) (h : Endian) (c : Bytes → List Bytes) (hc : Splits c) (fs : FS) (args : List Str)
    (inp out : Str) (ha : Asks args inp out) (hd : fs.node inp ≠ fs.node out) (p z : Bytes)
    (hz : fs.content (fs.node inp) = some (p ++ z)) (hp : p.getLast? = some 10) (e : Stop)
    (he : Assembler.new.readFrom bd (c p) = .error e) (ms : List Move)
    (hm : ∀ f, .other f ∈ ms → KeepsStart p (fs.node inp) f) (r : Outcome)
    (hr : (among bd h ms (fs, .start (args.map utf8))).2 = .done r) :
    r = .error e ∨ r = .error .panic ∧
      (fs.canRead (fs.node inp) = false ∨ fs.canWrite (fs.node out) = false ∨ .own .failed ∈ ms) :=
  (prompt_run bd h c hc fs args inp out ha hd p z hz hp e he ms hm).2.1 r hr

/-- C107: it ends, also if other programs make its input grow for ever (compare `C103_endless`): after at
most twice as many steps as `p` has bytes, and three more, not counting those that are interrupted. -/
theorem C107_ends (bd : Build) (h : Endian) (c : Bytes → List Bytes) (hc : Splits c) (fs : FS) (args : List Str)
    (inp out : Str) (ha : Asks args inp out) (hd : fs.node inp ≠ fs.node out) (p z : Bytes)
    (hz : fs.content (fs.node inp) = some (p ++ z)) (hp : p.getLast? = some 10) (e : Stop)
    (he : Assembler.new.readFrom bd (c p) = .error e) (ms : List Move)
    (hm : ∀ f, .other f ∈ ms → KeepsStart p (fs.node inp) f)
    (hr : fs.canRead (fs.node inp) = true) (hw : fs.canWrite (fs.node out) = true)
    (hf : .own .failed ∉ ms) (hn : 2 * p.length + 3 ≤ ms.countP getsOn) :
    (among bd h ms (fs, .start (args.map utf8))).2 = .done (.error e) :=
  (prompt_run bd h c hc fs args inp out ha hd p z hz hp e he ms hm).2.2 hr hw hf hn

/-- Another program that makes the file 0 longer. -/
def grows (g : FS) : FS := { g with content := fun n => if n = 0 then (g.content 0).map (· ++ [10]) else g.content n }

/-- A source of which the second line is bad. -/
def badStart : Bytes := utf8 (str% "ret\nbad\n")

/-- A file that begins with it. -/
def badFile : FS := ⟨fun p => if p = str% "a.s" then 0 else 1,
  fun n => if n = 0 then some (badStart ++ utf8 (str% "ret\n")) else none, fun _ => true, fun _ => true⟩

/-- C107 applies to a run on it while its input grows before every step: the second line is reported although
the input never ends. -/
example :
    Asks [str% "as", str% "a.s"] (str% "a.s") (str% "a.o") ∧
    badFile.node (str% "a.s") ≠ badFile.node (str% "a.o") ∧ badStart.getLast? = some 10 ∧
    KeepsStart badStart (badFile.node (str% "a.s")) grows ∧
    Assembler.new.readFrom .release [badStart] = .error (.exit 1 (str% "error at line 2: unrecognized line\n")) ∧
    (let ms := (List.replicate (2 * badStart.length + 3) [Move.other grows, .own (.size 1)]).flatten
     2 * badStart.length + 3 ≤ ms.countP getsOn ∧
     calls .release .little ms (badFile, .start ([str% "as", str% "a.s"].map utf8)) =
       [.openIn (str% "a.s") (some 0), .openOut (str% "a.o") (some 1), .read 0 0 (.ok [114, 101]),
        .read 0 2 (.ok [116, 10]), .read 0 4 (.ok [98, 97]), .read 0 6 (.ok [100, 10])]) :=
  ⟨(asks_iff ..).2 (by decide +kernel), by decide, by decide +kernel,
    ⟨fun _ => rfl, fun _ => rfl, fun _ => rfl, fun g z hz => ⟨z ++ [10], by
      have hn : badFile.node (str% "a.s") = 0 := by decide
      rw [hn] at hz ⊢
      simp [grows, hz]⟩⟩,
    by decide +kernel, by decide +kernel⟩

end AT.Props
