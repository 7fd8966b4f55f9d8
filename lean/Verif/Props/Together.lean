import Verif.Proofs.Steps
import Verif.Props.Process
/-!
# Runs that go on at the same time (C98)
-/

namespace AT.Props
open AT AT.Asm AT.AsmSpec AT.Mac

/-! ## What a process touches -/

/-- The files a process may still change. -/
def Writes (nd : Str → Nat) : At → Nat → Prop
  | .start args, n => ∃ ss cfg, argsOf args = .ok ss ∧ Config.init ss = .ok cfg ∧ n = nd cfg.outputPath
  | .openIn cfg, n => n = nd cfg.outputPath
  | .openOut _ out, n => n = nd out
  | .reading _ _ o _ _, n => n = o
  | .writing o _ _ _, n => n = o
  | .done _, _ => False

/-- The files a process may still look at or change. -/
def Touches (nd : Str → Nat) : At → Nat → Prop
  | .start args, n => ∃ ss cfg, argsOf args = .ok ss ∧ Config.init ss = .ok cfg ∧
      (n = nd cfg.inputPath ∨ n = nd cfg.outputPath)
  | .openIn cfg, n => n = nd cfg.inputPath ∨ n = nd cfg.outputPath
  | .openOut i out, n => n = i ∨ n = nd out
  | .reading i _ o _ _, n => n = i ∨ n = o
  | .writing o _ _ _, n => n = o
  | .done _, _ => False

/-- `fs'` is `fs` with other contents. -/
def SameNodes (fs fs' : FS) : Prop := fs'.node = fs.node ∧ fs'.canRead = fs.canRead ∧ fs'.canWrite = fs.canWrite

theorem SameNodes.set (fs : FS) (n : Nat) (b : Bytes) : SameNodes fs (fs.set n b) := ⟨rfl, rfl, rfl⟩

/-- A step changes only the file the process writes. -/
theorem step_frame (bd : Build) (h : Endian) (k : Call) (fs : FS) (s : At) :
    SameNodes fs (step bd h k fs s).1 ∧
    ∀ n, ¬ Writes fs.node s n → (step bd h k fs s).1.content n = fs.content n := by
  cases s with
  | start args => exact ⟨⟨rfl, rfl, rfl⟩, fun _ _ => rfl⟩
  | openIn cfg =>
    unfold step
    simp only
    repeat' split
    all_goals exact ⟨⟨rfl, rfl, rfl⟩, fun _ _ => rfl⟩
  | openOut i out =>
    unfold step
    simp only
    split
    · exact ⟨⟨rfl, rfl, rfl⟩, fun n hn => if_neg hn⟩
    · exact ⟨⟨rfl, rfl, rfl⟩, fun _ _ => rfl⟩
  | reading i pos o buf a => exact ⟨⟨rfl, rfl, rfl⟩, fun _ _ => rfl⟩
  | writing o pos chunks res =>
    simp only [step]
    fun_cases stepWrite k fs o pos res chunks
    all_goals first
      | exact ⟨⟨rfl, rfl, rfl⟩, fun _ _ => rfl⟩
      | exact ⟨⟨rfl, rfl, rfl⟩, fun n hn => if_neg hn⟩
  | done r => exact ⟨⟨rfl, rfl, rfl⟩, fun _ _ => rfl⟩

/-- After a step there are no new files to touch. -/
theorem step_touches (bd : Build) (h : Endian) (k : Call) (fs : FS) (s : At) (n : Nat) :
    (Writes fs.node (step bd h k fs s).2 n → Writes fs.node s n) ∧
    (Touches fs.node (step bd h k fs s).2 n → Touches fs.node s n) := by
  cases s with
  | start args =>
    simp only [step, stepStart]
    cases ha : argsOf args with
    | error e => exact ⟨False.elim, False.elim⟩
    | ok ss =>
      simp only
      cases hc : Config.init ss with
      | error e => exact ⟨False.elim, False.elim⟩
      | ok cfg => exact ⟨fun hw => ⟨ss, cfg, ha, hc, hw⟩, fun hw => ⟨ss, cfg, ha, hc, hw⟩⟩
  | openIn cfg =>
    unfold step
    simp only
    repeat' split
    all_goals first
      | exact ⟨False.elim, False.elim⟩
      | exact ⟨id, id⟩
  | openOut i out =>
    unfold step
    simp only
    split
    · exact ⟨id, id⟩
    · exact ⟨False.elim, False.elim⟩
  | reading i pos o buf a =>
    simp only [step]
    fun_cases stepRead bd h k fs i pos o buf a
    all_goals first
      | exact ⟨id, id⟩
      | exact ⟨False.elim, False.elim⟩
      | exact ⟨id, .inr⟩
      | (split <;> first | exact ⟨id, id⟩ | exact ⟨False.elim, False.elim⟩)
  | writing o pos chunks res =>
    simp only [step]
    fun_cases stepWrite k fs o pos res chunks
    all_goals first
      | exact ⟨id, id⟩
      | exact ⟨False.elim, False.elim⟩
  | done r => exact ⟨id, id⟩

theorem writes_touches {nd : Str → Nat} {s : At} {n : Nat} (h : Writes nd s n) : Touches nd s n := by
  cases s with
  | start args => obtain ⟨ss, cfg, h1, h2, h3⟩ := h; exact ⟨ss, cfg, h1, h2, .inr h3⟩
  | openIn cfg => exact .inr h
  | openOut i out => exact .inr h
  | reading i pos o buf a => exact .inr h
  | writing o pos chunks res => exact h
  | done r => exact h

/-- A step depends on nothing but the files the process touches. -/
theorem step_local (bd : Build) (h : Endian) (k : Call) (fs fs' : FS) (s : At) (hn : SameNodes fs fs')
    (hc : ∀ n, Touches fs.node s n → fs'.content n = fs.content n) :
    (step bd h k fs' s).2 = (step bd h k fs s).2 ∧
    ∀ n, Touches fs.node s n → (step bd h k fs' s).1.content n = (step bd h k fs s).1.content n := by
  obtain ⟨h1, h2, h3⟩ := hn
  cases s with
  | start args => exact ⟨rfl, hc⟩
  | openIn cfg =>
    simp only [step]
    rw [h1, h2, hc _ (.inl rfl)]
    cases fs.content (fs.node cfg.inputPath) with
    | none => exact ⟨rfl, hc⟩
    | some b =>
      simp only
      split
      · exact ⟨rfl, hc⟩
      · exact ⟨rfl, hc⟩
  | openOut i out =>
    simp only [step]
    rw [h1, h3]
    split
    · refine ⟨rfl, fun n hn => ?_⟩
      simp only [FS.set]
      split
      · rfl
      · exact hc n hn
    · exact ⟨rfl, hc⟩
  | reading i pos o buf a =>
    simp only [step]
    refine ⟨?_, hc⟩
    unfold stepRead
    rw [hc i (.inl rfl)]
  | writing o pos chunks res =>
    simp only [step]
    match chunks with
    | [] => exact ⟨rfl, hc⟩
    | [] :: cs => exact ⟨rfl, hc⟩
    | (b :: bs) :: cs =>
      match k with
      | .interrupted => exact ⟨rfl, hc⟩
      | .failed => exact ⟨rfl, hc⟩
      | .size 0 => exact ⟨rfl, hc⟩
      | .size (n + 1) =>
        refine ⟨rfl, fun m hm => ?_⟩
        simp only [stepWrite, FS.pwrite, FS.set]
        rw [hc o rfl]
        split
        · rfl
        · exact hc m hm
  | done r => exact ⟨rfl, hc⟩

theorem steps_frame (bd : Build) (h : Endian) (ks : List Call) : ∀ (fs : FS) (s : At) (n : Nat),
    ¬ Touches fs.node s n → (steps bd h ks (fs, s)).1.content n = fs.content n := by
  induction ks with
  | nil => exact fun _ _ _ _ => rfl
  | cons k ks ih =>
    intro fs s n hs
    obtain ⟨f1, f2⟩ := step_frame bd h k fs s
    show (steps bd h ks ((step bd h k fs s).1, (step bd h k fs s).2)).1.content n = _
    rw [ih _ _ n (by rw [f1.1]; exact fun hx => hs ((step_touches bd h k fs s n).2 hx))]
    exact f2 n fun hx => hs (writes_touches hx)

/-- The same for all the steps of a process. -/
theorem steps_local (bd : Build) (h : Endian) (ks : List Call) : ∀ (fs fs' : FS) (s : At), SameNodes fs fs' →
    (∀ n, Touches fs.node s n → fs'.content n = fs.content n) →
    (steps bd h ks (fs', s)).2 = (steps bd h ks (fs, s)).2 ∧
    ∀ n, Touches fs.node s n → (steps bd h ks (fs', s)).1.content n = (steps bd h ks (fs, s)).1.content n := by
  induction ks with
  | nil => exact fun fs fs' s _ hc => ⟨rfl, hc⟩
  | cons k ks ih =>
    intro fs fs' s hn hc
    obtain ⟨l1, l2⟩ := step_local bd h k fs fs' s hn hc
    obtain ⟨f1, f2⟩ := step_frame bd h k fs s
    obtain ⟨g1, g2⟩ := step_frame bd h k fs' s
    have he : step bd h k fs' s = ((step bd h k fs' s).1, (step bd h k fs s).2) := Prod.ext rfl l1
    simp only [steps]
    rw [he]
    have hn' : SameNodes (step bd h k fs s).1 (step bd h k fs' s).1 :=
      ⟨g1.1.trans (hn.1.trans f1.1.symm), g1.2.1.trans (hn.2.1.trans f1.2.1.symm),
        g1.2.2.trans (hn.2.2.trans f1.2.2.symm)⟩
    obtain ⟨i1, i2⟩ := ih _ _ (step bd h k fs s).2 hn' fun n ht => by
      rw [f1.1] at ht
      exact l2 n ((step_touches bd h k fs s n).2 ht)
    refine ⟨i1, fun n ht => ?_⟩
    by_cases ht' : Touches fs.node (step bd h k fs s).2 n
    · exact i2 n (by rw [f1.1]; exact ht')
    · rw [steps_frame bd h ks _ _ n (by rw [g1.1, hn.1]; exact ht'), steps_frame bd h ks _ _ n (by rw [f1.1]; exact ht')]
      exact l2 n ht

/-! ## Processes that stay out of each other's way -/

/-- No process writes what another one touches. -/
def Apart (nd : Str → Nat) (ps : Nat → At) : Prop :=
  ∀ i j, i ≠ j → ∀ n, Writes nd (ps i) n → ¬ Touches nd (ps j) n

/-- Processes that are apart do what they do alone. -/
theorem together_apart (bd : Build) (h : Endian) (sched : List (Nat × Call)) :
    ∀ (fs : FS) (ps : Nat → At), Apart fs.node ps →
    SameNodes fs (together bd h sched (fs, ps)).1 ∧
    (∀ i, (together bd h sched (fs, ps)).2 i = (steps bd h (own i sched) (fs, ps i)).2 ∧
      ∀ n, Touches fs.node (ps i) n →
        (together bd h sched (fs, ps)).1.content n = (steps bd h (own i sched) (fs, ps i)).1.content n) ∧
    (∀ n, (∀ i, ¬ Writes fs.node (ps i) n) → (together bd h sched (fs, ps)).1.content n = fs.content n) := by
  induction sched with
  | nil => exact fun fs ps _ => ⟨⟨rfl, rfl, rfl⟩, fun i => ⟨rfl, fun _ _ => rfl⟩, fun _ _ => rfl⟩
  | cons p sched ih =>
    intro fs ps hap
    obtain ⟨j, k⟩ := p
    obtain ⟨f1, f2⟩ := step_frame bd h k fs (ps j)
    have ht := step_touches bd h k fs (ps j)
    have hw' : ∀ i n, Writes fs.node (if i = j then (step bd h k fs (ps j)).2 else ps i) n → Writes fs.node (ps i) n := by
      intro i n hx
      by_cases hi : i = j
      · subst hi; rw [if_pos rfl] at hx; exact (ht n).1 hx
      · rwa [if_neg hi] at hx
    have ht' : ∀ i n, Touches fs.node (if i = j then (step bd h k fs (ps j)).2 else ps i) n → Touches fs.node (ps i) n := by
      intro i n hx
      by_cases hi : i = j
      · subst hi; rw [if_pos rfl] at hx; exact (ht n).2 hx
      · rwa [if_neg hi] at hx
    obtain ⟨g1, g2, g3⟩ := ih (step bd h k fs (ps j)).1 (fun i => if i = j then (step bd h k fs (ps j)).2 else ps i)
      (by
        rw [f1.1]
        exact fun a b hab n hx hy => hap a b hab n (hw' a n hx) (ht' b n hy))
    rw [f1.1] at g2 g3
    simp only [together]
    refine ⟨⟨g1.1.trans f1.1, g1.2.1.trans f1.2.1, g1.2.2.trans f1.2.2⟩, fun i => ?_, fun n hn => ?_⟩
    · obtain ⟨q1, q2⟩ := g2 i
      by_cases hi : i = j
      · subst hi
        have ho : own i ((i, k) :: sched) = k :: own i sched := by simp [own]
        rw [ho]
        simp only [if_true] at q1 q2
        refine ⟨q1, fun n hx => ?_⟩
        by_cases hx' : Touches fs.node (step bd h k fs (ps i)).2 n
        · exact q2 n hx'
        · -- the process is through with this file, and nobody else writes it
          simp only [steps]
          rw [steps_frame bd h _ _ _ n (by rw [f1.1]; exact hx')]
          refine g3 n fun a ha => ?_
          by_cases hai : a = i
          · subst hai; rw [if_pos rfl] at ha; exact hx' (writes_touches ha)
          · exact hap a i hai n (hw' a n ha) hx
      · have ho : own i ((j, k) :: sched) = own i sched := by simp [own, Ne.symm hi]
        rw [ho]
        simp only [if_neg hi] at q1 q2
        obtain ⟨l1, l2⟩ := steps_local bd h (own i sched) fs (step bd h k fs (ps j)).1 (ps i) f1
          fun n hx => f2 n fun hy => hap j i (Ne.symm hi) n hy hx
        exact ⟨q1.trans l1, fun n hx => (q2 n hx).trans (l2 n hx)⟩
    · rw [g3 n fun i hx => hn i (hw' i n hx)]
      exact f2 n (hn j)

/-! ## C98 -/

theorem writes_start {nd : Str → Nat} {ss : List Str} {n : Nat} (h : Writes nd (.start (ss.map utf8)) n) :
    ∃ inp out, Asks ss inp out ∧ n = nd out := by
  obtain ⟨ss', cfg, h1, h2, h3⟩ := h
  rw [argsOf_utf8] at h1
  cases h1
  exact ⟨cfg.inputPath, cfg.outputPath, (asks_iff ..).2 h2, h3⟩

theorem touches_start {nd : Str → Nat} {ss : List Str} {n : Nat} : Touches nd (.start (ss.map utf8)) n ↔
    ∃ inp out, Asks ss inp out ∧ (n = nd inp ∨ n = nd out) := by
  constructor
  · rintro ⟨ss', cfg, h1, h2, h3⟩
    rw [argsOf_utf8] at h1
    cases h1
    exact ⟨cfg.inputPath, cfg.outputPath, (asks_iff ..).2 h2, h3⟩
  · rintro ⟨inp, out, h1, h2⟩
    exact ⟨ss, ⟨out, inp⟩, argsOf_utf8 ss, (asks_iff ..).1 h1, h2⟩

theorem separated_apart {fs : FS} {args : Nat → List Str} (hd : Separated fs args) : Apart fs.node (fresh args) := by
  intro i j hij n hw ht
  obtain ⟨inp, out, ha, rfl⟩ := writes_start hw
  obtain ⟨inp', out', hb, h | h⟩ := touches_start.1 ht
  · exact (hd i j hij inp out inp' out' ha hb).2 h
  · exact (hd i j hij inp out inp' out' ha hb).1 h

/-- C98: any number of runs go on at the same time, in any order of their system calls, writing different
files and not reading what others write.  A run that is done has then ended as it does alone with ideal
I/O and has left that in its output file; or, if one of its own calls failed, it panicked and has left the
beginning of that.  At any moment a file that is nobody's output is as it
was. -/
theorem C98_together (bd : Build) (h : Endian) (c : Bytes → List Bytes) (hc : Splits c) (fs F : FS)
    (args : Nat → List Str) (hd : Separated fs args) (sched : List (Nat × Call)) (S : Nat → At)
    (hrun : together bd h sched (fs, fresh args) = (F, S)) :
    (∀ i r, S i = .done r →
      let ideal := main bd h c fs (args i)
      (r = ideal.2 ∧ ∀ inp out, Asks (args i) inp out → F.content (fs.node out) = ideal.1.content (fs.node out)) ∨
      ((∃ k, (i, k) ∈ sched ∧ ¬ Fine k) ∧ r = .error .panic ∧
        ∀ inp out, Asks (args i) inp out → ∃ b b', F.content (fs.node out) = some b ∧ b <+: b' ∧
          ideal.1.content (fs.node out) = some b')) ∧
    (∀ n, (∀ i inp out, Asks (args i) inp out → n ≠ fs.node out) → F.content n = fs.content n) := by
  obtain ⟨-, g2, g3⟩ := together_apart bd h sched fs (fresh args) (separated_apart hd)
  rw [hrun] at g2 g3
  refine ⟨fun i r hr => ?_, fun n hn => g3 n fun i hw => ?_⟩
  · obtain ⟨q1, q2⟩ := g2 i
    simp only at q1 q2
    rw [hr] at q1
    obtain ⟨reads, writes, a1, a2, a3⟩ := steps_alone bd h fs (steps bd h (own i sched) (fs, fresh args i)).1
      ((args i).map utf8) (own i sched) r (Prod.ext rfl q1.symm)
    have hout : ∀ inp out, Asks (args i) inp out → F.content (fs.node out) =
        (steps bd h (own i sched) (fs, fresh args i)).1.content (fs.node out) :=
      fun inp out ha => q2 _ (touches_start.2 ⟨inp, out, ha, .inr rfl⟩)
    by_cases hf : ∀ k ∈ own i sched, Fine k
    · have hm := C75_no_failure bd h c hc reads a1 (a3 hf).1 writes (a3 hf).2 fs (args i)
      rw [a2] at hm
      refine .inl ⟨congrArg Prod.snd hm, fun inp out ha => ?_⟩
      rw [hout inp out ha, ← hm]
    · have hbad : ∃ k, (i, k) ∈ sched ∧ ¬ Fine k := by
        apply Classical.byContradiction
        intro hno
        apply hf
        intro k hk
        simp only [own, List.mem_map, List.mem_filter] at hk
        obtain ⟨⟨j, k'⟩, ⟨hm, hj⟩, rfl⟩ := hk
        simp only [decide_eq_true_eq] at hj
        subst hj
        apply Classical.byContradiction
        exact fun hn => hno ⟨k', hm, hn⟩
      rcases C75_main bd h c hc reads a1 writes fs (args i) with hm | ⟨hm, out, inp, b, b', hcfg, hb, hi, hx⟩
      · rw [a2] at hm
        refine .inl ⟨congrArg Prod.snd hm, fun inp out ha => ?_⟩
        rw [hout inp out ha, ← hm]
      · rw [a2] at hm hx
        refine .inr ⟨hbad, hm, fun inp' out' ha => ?_⟩
        have he := (asks_iff ..).1 ha
        rw [hcfg] at he
        cases he
        refine ⟨b, b', ?_, hb, hi⟩
        rw [hout _ _ ha, show (steps bd h (own i sched) (fs, fresh args i)).1 = fs.set (fs.node out) b from hx]
        simp [FS.set]
  · obtain ⟨inp, out, ha, he⟩ := writes_start hw
    exact hn i inp out ha he

/-! ## Every run ends -/

/-- Work left: the phase, then what is left to read or to write. -/
def work (fs : FS) : At → Nat × Nat
  | .start _ => (4, 0)
  | .openIn _ => (3, 0)
  | .openOut _ _ => (2, 0)
  | .reading i pos _ buf _ => (1, 2 * (((fs.content i).getD []).length - pos) + buf.length)
  | .writing _ _ chunks _ => (0, (chunks.map (fun c => c.length + 1)).sum + 1)
  | .done _ => (0, 0)

/-- A step leaves less work, unless the process is done or the call was interrupted. -/
theorem step_work (bd : Build) (h : Endian) (k : Call) (fs : FS) (s : At) :
    Prod.Lex (· < ·) (· < ·) (work (step bd h k fs s).1 (step bd h k fs s).2) (work fs s) ∨
    step bd h k fs s = (fs, s) ∧ (k = .interrupted ∨ ∃ r, s = .done r) := by
  cases s with
  | start args =>
    left
    simp only [step, stepStart]
    repeat' split
    all_goals exact .left _ _ (by decide)
  | openIn cfg =>
    left
    simp only [step]
    repeat' split
    all_goals exact .left _ _ (by decide)
  | openOut i out =>
    left
    simp only [step]
    split
    all_goals exact .left _ _ (by decide)
  | reading i pos o buf a =>
    simp only [step]
    unfold stepRead
    cases hcut : cutNewline buf with
    | some p =>
      obtain ⟨l, r⟩ := p
      left
      have hlen : r.length < buf.length := by obtain ⟨q, -, rfl, rfl⟩ := cutNewline_some.1 hcut; simp; omega
      simp only
      split
      · exact .left _ _ (by decide)
      · exact .right _ (by omega)
    | none =>
      simp only
      cases k with
      | interrupted => exact .inr ⟨rfl, .inl rfl⟩
      | failed => exact .inl (.left _ _ (by decide))
      | size n =>
        left
        simp only
        cases hg : (((fs.content i).getD []).drop pos).take (n + 1) with
        | nil =>
          cases buf with
          | nil => exact .left _ _ (by decide)
          | cons b bs =>
            simp only
            split
            · exact .left _ _ (by decide)
            · exact .right _ (by simp only [List.length_nil, List.length_cons]; omega)
        | cons b bs =>
          have hlen := congrArg List.length hg
          simp only [List.length_take, List.length_drop, List.length_cons] at hlen
          exact .right _ (by simp only [List.length_append, List.length_cons]; omega)
  | writing o pos chunks res =>
    simp only [step]
    match chunks with
    | [] => exact .inl (.right _ (by simp))
    | [] :: cs => exact .inl (.right _ (by simp))
    | (b :: bs) :: cs =>
      match k with
      | .interrupted => exact .inr ⟨rfl, .inl rfl⟩
      | .failed => exact .inl (.right _ (by simp))
      | .size 0 => exact .inl (.right _ (by simp))
      | .size (n + 1) => exact .inl (.right _ (by simp; omega))
  | done r => exact .inr ⟨rfl, .inr ⟨r, rfl⟩⟩

theorem together_snoc (bd : Build) (h : Endian) (sched : List (Nat × Call)) (i : Nat) (k : Call) :
    ∀ x : FS × (Nat → At), together bd h (sched ++ [(i, k)]) x =
      ((step bd h k (together bd h sched x).1 ((together bd h sched x).2 i)).1,
        fun j => if j = i then (step bd h k (together bd h sched x).1 ((together bd h sched x).2 i)).2
          else (together bd h sched x).2 j) := by
  induction sched with
  | nil => exact fun x => rfl
  | cons p sched ih => obtain ⟨j, k'⟩ := p; exact fun x => ih _

/-- Processes that are apart stay apart. -/
theorem apart_step {fs : FS} {ps : Nat → At} (hap : Apart fs.node ps) (bd : Build) (h : Endian) (k : Call) (j : Nat) :
    Apart (step bd h k fs (ps j)).1.node (fun i => if i = j then (step bd h k fs (ps j)).2 else ps i) := by
  rw [(step_frame bd h k fs (ps j)).1.1]
  have ht := step_touches bd h k fs (ps j)
  intro a b hab n hx hy
  refine hap a b hab n ?_ ?_
  · by_cases ha : a = j
    · subst ha; simp only [if_true] at hx; exact (ht n).1 hx
    · simpa only [if_neg ha] using hx
  · by_cases hb : b = j
    · subst hb; simp only [if_true] at hy; exact (ht n).2 hy
    · simpa only [if_neg hb] using hy

/-- C98: in an endless schedule, a run that gets on again and again (its calls are not interrupted for
ever) comes to an end, whatever the other runs do and however its calls are answered. -/
theorem C98_ends (bd : Build) (h : Endian) (fs : FS) (args : Nat → List Str) (hd : Separated fs args)
    (σ : Nat → Nat × Call) (i : Nat) (hfair : ∀ n, ∃ m, n ≤ m ∧ (σ m).1 = i ∧ (σ m).2 ≠ .interrupted) :
    ∃ n r, ∀ m, n ≤ m → (together bd h (upTo σ m) (fs, fresh args)).2 i = .done r := by
  let X : Nat → FS × (Nat → At) := fun n => together bd h (upTo σ n) (fs, fresh args)
  have hX : ∀ n, X (n + 1) = ((step bd h (σ n).2 (X n).1 ((X n).2 (σ n).1)).1,
      fun j => if j = (σ n).1 then (step bd h (σ n).2 (X n).1 ((X n).2 (σ n).1)).2 else (X n).2 j) := by
    intro n
    show together bd h (upTo σ (n + 1)) _ = _
    have : upTo σ (n + 1) = upTo σ n ++ [((σ n).1, (σ n).2)] := by simp [upTo, List.range_succ]
    rw [this, together_snoc]
  have hap : ∀ n, Apart (X n).1.node (X n).2 := by
    intro n
    induction n with
    | zero => exact (separated_apart hd)
    | succ n ih => rw [hX]; exact apart_step ih bd h (σ n).2 (σ n).1
  let w : Nat → Nat × Nat := fun n => work (X n).1 ((X n).2 i)
  -- other processes leave the work as it is
  have hother : ∀ n, (σ n).1 ≠ i → (X (n + 1)).2 i = (X n).2 i ∧ w (n + 1) = w n := by
    intro n hn
    have e : (X (n + 1)).2 i = (X n).2 i := by rw [hX]; simp only; rw [if_neg (Ne.symm hn)]
    refine ⟨e, ?_⟩
    show work (X (n + 1)).1 ((X (n + 1)).2 i) = work (X n).1 ((X n).2 i)
    rw [e]
    have hc : ∀ m, Touches (X n).1.node ((X n).2 i) m → (X (n + 1)).1.content m = (X n).1.content m := by
      intro m hm
      rw [hX]
      exact (step_frame bd h (σ n).2 (X n).1 ((X n).2 (σ n).1)).2 m fun hw => hap n _ i hn m hw hm
    generalize (X n).2 i = s at hc
    cases s with
    | reading a pos o buf as => simp only [work]; rw [hc a (.inl rfl)]
    | _ => rfl
  have hself : ∀ n, (σ n).1 = i → Prod.Lex (· < ·) (· < ·) (w (n + 1)) (w n) ∨
      ((X (n + 1)).2 i = (X n).2 i ∧ w (n + 1) = w n ∧ ((σ n).2 = .interrupted ∨ ∃ r, (X n).2 i = .done r)) := by
    intro n hn
    have e : (X (n + 1)).1 = (step bd h (σ n).2 (X n).1 ((X n).2 i)).1 ∧
        (X (n + 1)).2 i = (step bd h (σ n).2 (X n).1 ((X n).2 i)).2 := by
      rw [hX, hn]; simp
    show Prod.Lex _ _ (work (X (n + 1)).1 ((X (n + 1)).2 i)) _ ∨ _ ∧ work (X (n + 1)).1 ((X (n + 1)).2 i) = _ ∧ _
    rw [e.1, e.2]
    rcases step_work bd h (σ n).2 (X n).1 ((X n).2 i) with hl | ⟨he, hk⟩
    · exact .inl hl
    · exact .inr ⟨by rw [he], by rw [he], hk⟩
  have hdone : ∀ r n, (X n).2 i = .done r → ∀ m, n ≤ m → (X m).2 i = .done r := by
    intro r n hn m hm
    induction hm with
    | refl => exact hn
    | @step m _ ih =>
      by_cases hi : (σ m).1 = i
      · rw [hX, hi]; simp only [if_true]; rw [ih]; rfl
      · rw [(hother m hi).1]; exact ih
  have wf : WellFounded (Prod.Lex (· < · : Nat → Nat → Prop) (· < · : Nat → Nat → Prop)) :=
    (Prod.lex Nat.lt_wfRel Nat.lt_wfRel).wf
  have main : ∀ v, ∀ n, w n = v → ∃ m r, (X m).2 i = .done r := by
    intro v
    induction v using wf.induction with
    | _ v ih =>
      intro n hn
      obtain ⟨m, hm, hi, hk⟩ := hfair n
      -- until then the work does not grow
      have hle : ∀ q, n ≤ q → w q = v ∨ Prod.Lex (· < ·) (· < ·) (w q) v ∨ ∃ q' r, (X q').2 i = .done r := by
        intro q hq
        induction hq with
        | refl => exact .inl hn
        | @step q _ ih' =>
          rcases ih' with hq' | hq' | hq'
          · by_cases hi' : (σ q).1 = i
            · rcases hself q hi' with hl | ⟨-, he, -⟩
              · rw [hq'] at hl; exact .inr (.inl hl)
              · exact .inl (he.trans hq')
            · exact .inl ((hother q hi').2.trans hq')
          · exact .inr (.inr (ih _ hq' q rfl))
          · exact .inr (.inr hq')
      rcases hle m hm with hv | hv | hv
      · rcases hself m hi with hl | ⟨-, -, hk' | ⟨r, hr⟩⟩
        · rw [hv] at hl; exact ih _ hl (m + 1) rfl
        · exact absurd hk' hk
        · exact ⟨m, r, hr⟩
      · exact ih _ hv m rfl
      · exact hv
  obtain ⟨n, r, hr⟩ := main _ 0 rfl
  exact ⟨n, r, hdone r n hr⟩

/-! ## Runs with the same output -/

/-- Two sources, one of them empty. -/
def raceFiles : FS :=
  ⟨fun p => if p = str% "a.s" then 0 else if p = str% "b.s" then 1 else 2,
   fun n => if n = 0 then some (utf8 (str% "f:\nret\n")) else if n = 1 then some [] else none,
   fun _ => true, fun _ => true⟩

/-- Two runs that write the same file. -/
def raceArgs : Nat → List Str
  | 0 => [str% "as", str% "a.s", str% "-o", str% "c.o"]
  | 1 => [str% "as", str% "b.s", str% "-o", str% "c.o"]
  | _ => []

/-- Both open their files; then the first run does the rest, then the second. -/
def raceSched : List (Nat × Call) :=
  List.replicate 3 (0, .size 1000) ++ List.replicate 3 (1, .size 1000) ++ List.replicate 300 (0, .size 1000) ++
    List.replicate 300 (1, .size 1000)

/-- How a process has ended, if it has. -/
def ending : At → Option Outcome
  | .done r => some r
  | _ => none

theorem pair_eq {α β : Type} (x : α × β) : x = (x.1, x.2) := rfl

/-- C98: the condition that the outputs differ is needed.  Two runs with the same output, all of whose
calls succeed, can both end with success and leave a file that neither of them leaves alone. -/
theorem C98_same_output : ∃ (fs F : FS) (args : Nat → List Str) (sched : List (Nat × Call)) (S : Nat → At),
    together .release .little sched (fs, fresh args) = (F, S) ∧ (∀ p ∈ sched, Fine p.2) ∧
    (∀ i, i < 2 → ending (S i) = some (.ok ()) ∧
      Asks (args i) (if i = 0 then str% "a.s" else str% "b.s") (str% "c.o") ∧
      (main .release .little (fun b => if b = [] then [] else [b]) fs (args i)).2 = .ok () ∧
      F.content (fs.node (str% "c.o")) ≠
        (main .release .little (fun b => if b = [] then [] else [b]) fs (args i)).1.content (fs.node (str% "c.o"))) := by
  refine ⟨raceFiles, (together .release .little raceSched (raceFiles, fresh raceArgs)).1, raceArgs, raceSched,
    (together .release .little raceSched (raceFiles, fresh raceArgs)).2, pair_eq _, fun p hp => ?_, fun i hi => ?_⟩
  · simp only [raceSched, List.mem_append, List.mem_replicate] at hp
    rcases hp with ((⟨-, rfl⟩ | ⟨-, rfl⟩) | ⟨-, rfl⟩) | ⟨-, rfl⟩ <;> exact .inr ⟨1000, by omega, rfl⟩
  · obtain rfl | rfl : i = 0 ∨ i = 1 := by omega
    · exact ⟨by decide +kernel, (asks_iff ..).2 (by decide +kernel), by decide +kernel, by decide +kernel⟩
    · exact ⟨by decide +kernel, (asks_iff ..).2 (by decide +kernel), by decide +kernel, by decide +kernel⟩

/-! ## Examples -/

/-- The runs of C69, and no others. -/
def twoArgs : Nat → List Str
  | 0 => [str% "as", str% "a.s"]
  | 1 => [str% "as", str% "b.s"]
  | _ => []

theorem twoArgs_asks {i : Nat} {inp out : Str} (h : Asks (twoArgs i) inp out) :
    i = 0 ∧ inp = str% "a.s" ∧ out = str% "a.o" ∨ i = 1 ∧ inp = str% "b.s" ∧ out = str% "b.o" := by
  rw [asks_iff] at h
  match i, h with
  | 0, h => rw [show Config.init (twoArgs 0) = .ok ⟨str% "a.o", str% "a.s"⟩ by decide +kernel] at h; cases h; simp
  | 1, h => rw [show Config.init (twoArgs 1) = .ok ⟨str% "b.o", str% "b.s"⟩ by decide +kernel] at h; cases h; simp
  | _ + 2, h => cases h

/-- These runs are separated. -/
theorem twoArgs_separated : Separated twoFiles twoArgs := by
  intro i j hij inp out inp' out' h1 h2
  rcases twoArgs_asks h1 with ⟨rfl, rfl, rfl⟩ | ⟨rfl, rfl, rfl⟩ <;>
    rcases twoArgs_asks h2 with ⟨rfl, rfl, rfl⟩ | ⟨rfl, rfl, rfl⟩
  · exact absurd rfl hij
  · exact ⟨by decide, by decide⟩
  · exact ⟨by decide, by decide⟩
  · exact absurd rfl hij

/-- Taking turns, with short and interrupted calls, the first succeeds and the second complains; if a
`write` of the first fails, it panics. -/
example :
    (let turns := (List.replicate 700 [((0 : Nat), Call.size 3), (1, .size 2), (0, .interrupted)]).flatten
     let S := (together .debug .little turns (twoFiles, fresh twoArgs)).2
     let S' := (together .debug .little (turns.take 100 ++ (0, .failed) :: (0, .failed) :: turns) (twoFiles, fresh twoArgs)).2
     ending (S 0) = some (.ok ()) ∧
     ending (S 1) = some (.error (.exit 1 (str% "error at line 1: unrecognized line\n"))) ∧
     ending (S' 0) = some (.error .panic)) := by
  decide +kernel

/-- A fair endless schedule. -/
example : ∀ i, i < 2 → ∀ n, ∃ m, n ≤ m ∧ ((fun m => (m % 2, Call.size 1)) m).1 = i ∧
    ((fun m : Nat => (m % 2, Call.size 1)) m).2 ≠ .interrupted :=
  fun i hi n => ⟨2 * n + i, by omega, by simp only; omega, by simp⟩

end AT.Props
