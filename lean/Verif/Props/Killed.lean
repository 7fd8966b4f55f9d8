import Verif.Props.Meddle
import Verif.Props.Linear
import Verif.Props.Together
/-!
# Runs that are killed (C105)
-/

namespace AT.Props
open AT AT.Asm AT.AsmSpec AT.Mac

theorem steps_append (bd : Build) (h : Endian) (ks ks' : List Call) :
    ∀ x, steps bd h (ks ++ ks') x = steps bd h ks' (steps bd h ks x) := by
  induction ks with
  | nil => exact fun _ => rfl
  | cons k ks ih => exact fun _ => ih _

/-- Every run can go on to its end. -/
theorem can_end (bd : Build) (h : Endian) (x : FS × At) : ∃ ks r, (steps bd h ks x).2 = .done r := by
  have wf : WellFounded (Prod.Lex (· < ·) (· < ·) : Nat × Nat → Nat × Nat → Prop) :=
    (Prod.lex ⟨_, Nat.lt_wfRel.wf⟩ ⟨_, Nat.lt_wfRel.wf⟩).wf
  generalize hw : work x.1 x.2 = w
  induction w using wf.induction generalizing x with
  | _ w ih =>
    rcases step_work bd h (.size 1) x.1 x.2 with hl | ⟨-, hk | ⟨r, hr⟩⟩
    · rw [hw] at hl
      obtain ⟨ks, r, hr⟩ := ih _ hl (step bd h (.size 1) x.1 x.2) rfl
      exact ⟨.size 1 :: ks, r, hr⟩
    · cases hk
    · exact ⟨[], r, hr⟩

/-- The run has emptied the file `o` and has written as many bytes to it as it thinks. -/
def Owns (o : Nat) (F : FS) : At → Prop
  | .reading _ _ o' _ _ => o' = o ∧ F.content o = some []
  | .writing o' pos _ _ => o' = o ∧ ∃ w, F.content o = some w ∧ w.length = pos
  | .done _ => ∃ w, F.content o = some w
  | _ => False

theorem owns_some {o : Nat} {F : FS} {s : At} (ho : Owns o F s) : ∃ w, F.content o = some w := by
  cases s with
  | reading => exact ⟨[], ho.2⟩
  | writing => obtain ⟨-, w, hw, -⟩ := ho; exact ⟨w, hw⟩
  | done => exact ho
  | _ => exact ho.elim

/-- Then a step adds to the end of the file. -/
theorem owns_step {o : Nat} {F : FS} {s : At} (bd : Build) (h : Endian) (k : Call) (ho : Owns o F s) :
    Owns o (step bd h k F s).1 (step bd h k F s).2 ∧
    ∀ w, F.content o = some w → ∃ w', (step bd h k F s).1.content o = some w' ∧ w <+: w' := by
  cases s with
  | start | openIn | openOut => exact ho.elim
  | done r => exact ⟨ho, fun w hw => ⟨w, hw, List.prefix_rfl⟩⟩
  | reading i pos o' buf a =>
    obtain ⟨rfl, hc⟩ := ho
    simp only [step]
    refine ⟨?_, fun w hw => ⟨w, hw, List.prefix_rfl⟩⟩
    fun_cases stepRead bd h k F i pos o' buf a
    all_goals first
      | exact ⟨rfl, hc⟩
      | exact ⟨_, hc⟩
      | exact ⟨rfl, [], hc, rfl⟩
      | (split <;> first | exact ⟨rfl, hc⟩ | exact ⟨_, hc⟩)
  | writing o' pos chunks res =>
    obtain ⟨rfl, v, hv, hl⟩ := ho
    simp only [step]
    match chunks with
    | [] => exact ⟨⟨v, hv⟩, fun w hw => ⟨w, hw, List.prefix_rfl⟩⟩
    | [] :: cs => exact ⟨⟨rfl, v, hv, hl⟩, fun w hw => ⟨w, hw, List.prefix_rfl⟩⟩
    | (b :: bs) :: cs =>
      match k with
      | .interrupted => exact ⟨⟨rfl, v, hv, hl⟩, fun w hw => ⟨w, hw, List.prefix_rfl⟩⟩
      | .failed => exact ⟨⟨v, hv⟩, fun w hw => ⟨w, hw, List.prefix_rfl⟩⟩
      | .size 0 => exact ⟨⟨v, hv⟩, fun w hw => ⟨w, hw, List.prefix_rfl⟩⟩
      | .size (n + 1) =>
        have he : (F.pwrite o' pos ((b :: bs).take (n + 1))).content o' = some (v ++ (b :: bs).take (n + 1)) := by
          simp only [FS.pwrite, FS.set, if_true, hv, Option.getD_some]
          rw [List.take_of_length_le (by omega), List.drop_of_length_le (by omega), show pos - v.length = 0 by omega]
          simp
        refine ⟨⟨rfl, _, he, by rw [List.length_append, hl]⟩, fun w hw => ?_⟩
        rw [hv] at hw
        cases hw
        exact ⟨_, he, List.prefix_append _ _⟩

theorem owns_steps {o : Nat} (bd : Build) (h : Endian) (ks : List Call) : ∀ {F : FS} {s : At}, Owns o F s →
    Owns o (steps bd h ks (F, s)).1 (steps bd h ks (F, s)).2 ∧
    ∀ w, F.content o = some w → ∃ w', (steps bd h ks (F, s)).1.content o = some w' ∧ w <+: w' := by
  induction ks with
  | nil => exact fun ho => ⟨ho, fun w hw => ⟨w, hw, List.prefix_rfl⟩⟩
  | cons k ks ih =>
    intro F s ho
    obtain ⟨h1, h2⟩ := owns_step bd h k ho
    obtain ⟨h3, h4⟩ := ih h1
    refine ⟨h3, fun w hw => ?_⟩
    obtain ⟨w', hw', hp⟩ := h2 w hw
    obtain ⟨w'', hw'', hp'⟩ := h4 w' hw'
    exact ⟨w'', hw'', hp.trans hp'⟩

/-- The run has not changed anything yet. -/
def Untouched (fs : FS) (args : List Str) (out inp : Str) (x : FS × At) : Prop :=
  x.1 = fs ∧ (x.2 = .start (args.map utf8) ∨ x.2 = .openIn ⟨out, inp⟩ ∨ (∃ i, x.2 = .openOut i out) ∨ ∃ r, x.2 = .done r)

theorem untouched_step {fs : FS} {args : List Str} {out inp : Str} (hcfg : Config.init args = .ok ⟨out, inp⟩)
    (bd : Build) (h : Endian) (k : Call) {x : FS × At} (hu : Untouched fs args out inp x) :
    Untouched fs args out inp (step bd h k x.1 x.2) ∨
      Owns (fs.node out) (step bd h k x.1 x.2).1 (step bd h k x.1 x.2).2 := by
  obtain ⟨F, s⟩ := x
  obtain ⟨rfl, hs⟩ := hu
  simp only at hs ⊢
  rcases hs with rfl | rfl | ⟨i, rfl⟩ | ⟨r, rfl⟩
  · left
    simp only [step, stepStart, argsOf_utf8, hcfg]
    exact ⟨rfl, .inr (.inl rfl)⟩
  · left
    simp only [step]
    split
    · exact ⟨rfl, .inr (.inr (.inr ⟨_, rfl⟩))⟩
    · split
      · exact ⟨rfl, .inr (.inr (.inl ⟨_, rfl⟩))⟩
      · exact ⟨rfl, .inr (.inr (.inr ⟨_, rfl⟩))⟩
  · simp only [step]
    split
    · exact .inr ⟨rfl, by simp [FS.set]⟩
    · exact .inl ⟨rfl, .inr (.inr (.inr ⟨_, rfl⟩))⟩
  · exact .inl ⟨rfl, .inr (.inr (.inr ⟨_, rfl⟩))⟩

theorem moments {fs : FS} {args : List Str} {out inp : Str} (hcfg : Config.init args = .ok ⟨out, inp⟩)
    (bd : Build) (h : Endian) (ks : List Call) : ∀ {x : FS × At}, Untouched fs args out inp x →
    (steps bd h ks x).1 = fs ∨ Owns (fs.node out) (steps bd h ks x).1 (steps bd h ks x).2 := by
  induction ks with
  | nil => exact fun hu => .inl hu.1
  | cons k ks ih =>
    intro x hu
    rcases untouched_step hcfg bd h k hu with hu' | ho
    · exact ih hu'
    · exact .inr (owns_steps bd h ks ho).1

theorem among_own (bd : Build) (h : Endian) (ks : List Call) :
    ∀ x, among bd h (ks.map .own) x = steps bd h ks x := by
  induction ks with
  | nil => exact fun _ => rfl
  | cons k ks ih => exact fun _ => ih _

/-- One run, at any moment. -/
theorem moment_alone (bd : Build) (h : Endian) (c : Bytes → List Bytes) (hc : Splits c) (fs : FS) (args : List Str)
    (inp out : Str) (ha : Asks args inp out) (ks : List Call) :
    let F := (steps bd h ks (fs, .start (args.map utf8))).1
    F.content (fs.node out) = fs.content (fs.node out) ∨
    ∃ b b', F.content (fs.node out) = some b ∧ b <+: b' ∧ (main bd h c fs args).1.content (fs.node out) = some b' := by
  intro F
  rcases moments ((asks_iff ..).1 ha) bd h ks (x := (fs, .start (args.map utf8))) ⟨rfl, .inl rfl⟩ with he | ho
  · exact .inl (congrArg (fun g : FS => g.content (fs.node out)) he)
  right
  obtain ⟨ks', r, hr⟩ := can_end bd h (steps bd h ks (fs, .start (args.map utf8)))
  obtain ⟨b, hb⟩ := owns_some ho
  obtain ⟨w, hw, hp⟩ := (owns_steps bd h ks' ho).2 b hb
  have hend : among bd h ((ks ++ ks').map .own) (fs, .start (args.map utf8)) =
      ((steps bd h ks' (steps bd h ks (fs, .start (args.map utf8)))).1, .done r) := by
    rw [among_own, steps_append]
    exact Prod.ext rfl hr
  have hno : ∀ f, Move.other f ∈ (ks ++ ks').map Move.own →
      Spares (fun n => ∃ inp out, Asks args inp out ∧ (n = fs.node inp ∨ n = fs.node out)) f := by
    intro f hf
    obtain ⟨k, -, hk⟩ := List.mem_map.1 hf
    cases hk
  rcases C100_undisturbed bd h c hc fs _ args _ hno r hend with ⟨-, h1⟩ | ⟨-, -, h1⟩
  · exact ⟨b, w, hb, hp, (h1 inp out ha).symm.trans hw⟩
  · obtain ⟨b₁, b₂, h2, h3, h4⟩ := h1 inp out ha
    cases h2.symm.trans hw
    exact ⟨b, b₂, hb, hp.trans h3, h4⟩

/-- C105: any number of runs go on at the same time, writing different files and not reading what others
write, and all of them are killed at any moment.  The output file of each run is then as it was
before, or it holds a beginning of what the run leaves alone with ideal I/O. -/
theorem C105_killed (bd : Build) (h : Endian) (c : Bytes → List Bytes) (hc : Splits c) (fs F : FS)
    (args : Nat → List Str) (hd : Separated fs args) (sched : List (Nat × Call)) (S : Nat → At)
    (hrun : together bd h sched (fs, fresh args) = (F, S)) (i : Nat) (inp out : Str) (ha : Asks (args i) inp out) :
    F.content (fs.node out) = fs.content (fs.node out) ∨
    ∃ b b', F.content (fs.node out) = some b ∧ b <+: b' ∧
      (main bd h c fs (args i)).1.content (fs.node out) = some b' := by
  obtain ⟨-, g2, -⟩ := together_apart bd h sched fs (fresh args) (separated_apart hd)
  have hf := (g2 i).2 (fs.node out) (touches_start.2 ⟨inp, out, ha, .inr rfl⟩)
  rw [hrun] at hf
  simp only at hf
  rw [hf]
  exact moment_alone bd h c hc fs (args i) inp out ha (own i sched)

/-- C105: a run that was killed can be repeated.  If its files can be opened and the input is not the
output, a run with the same arguments ends as it would have ended in the beginning, and leaves the same
output. -/
theorem C105_again (bd : Build) (h : Endian) (c : Bytes → List Bytes) (fs F : FS)
    (args : Nat → List Str) (hd : Separated fs args) (sched : List (Nat × Call)) (S : Nat → At)
    (hrun : together bd h sched (fs, fresh args) = (F, S)) (i : Nat) (inp out : Str) (src : Bytes)
    (ha : Asks (args i) inp out) (hs : Source fs inp out src) (hne : fs.node inp ≠ fs.node out) :
    Source F inp out src ∧ (main bd h c F (args i)).2 = (main bd h c fs (args i)).2 ∧
    (main bd h c F (args i)).1.content (fs.node out) = (main bd h c fs (args i)).1.content (fs.node out) := by
  obtain ⟨g1, -, g3⟩ := together_apart bd h sched fs (fresh args) (separated_apart hd)
  rw [hrun] at g1 g3
  obtain ⟨n1, n2, n3⟩ := g1
  simp only at n1 n2 n3 g3
  have hin : F.content (fs.node inp) = fs.content (fs.node inp) := by
    refine g3 _ fun j hw => ?_
    obtain ⟨inp', out', hb, he⟩ := writes_start hw
    by_cases hij : j = i
    · subst hij
      have h1 := (asks_iff ..).1 ha
      rw [(asks_iff ..).1 hb] at h1
      cases h1
      exact hne he
    · exact (hd j i hij inp' out' inp out hb ha).2 he.symm
  have hF : Source F inp out src := by
    obtain ⟨s1, s2, b, s3, s4⟩ := hs
    refine ⟨by rw [n1, n2]; exact s1, by rw [n1, n3]; exact s2, b, by rw [n1, hin]; exact s3, ?_⟩
    rw [n1]
    exact s4
  have run : ∀ g : FS, Source g inp out src → main bd h c g (args i) =
      (g.set (g.node out) (written bd h (c src)).1, (written bd h (c src)).2) := by
    intro g hg
    rcases main_source bd h c g (args i) ((asks_iff ..).1 ha) with ⟨src', hs', hm⟩ | ⟨hno, -⟩
    · rw [source_unique hs' hg] at hm
      exact hm
    · exact absurd hg (hno _)
  refine ⟨hF, ?_⟩
  rw [run F hF, run fs hs, n1]
  exact ⟨rfl, by simp [FS.set]⟩

/-- C105: the old output is lost before the new one is there.  A run of which all calls succeed can be
killed when its output is neither what it was nor what it was to be. -/
theorem C105_between : ∃ (fs F : FS) (args : List Str) (ks : List Call) (s : At),
    steps .release .little ks (fs, .start (args.map utf8)) = (F, s) ∧ (∀ k ∈ ks, Fine k) ∧
    Asks args (str% "a.s") (str% "a.o") ∧
    (main .release .little (fun b => if b = [] then [] else [b]) fs args).2 = .ok () ∧
    ∃ old b new, fs.content (fs.node (str% "a.o")) = some old ∧ F.content (fs.node (str% "a.o")) = some b ∧
      (main .release .little (fun b => if b = [] then [] else [b]) fs args).1.content (fs.node (str% "a.o")) = some new ∧
      b ≠ [] ∧ b ≠ old ∧ b ≠ new := by
  let fs : FS := ⟨fun p => if p = str% "a.s" then 0 else 1,
    fun n => if n = 0 then some (colons 3) else some [1, 2, 3], fun _ => true, fun _ => true⟩
  let ks : List Call := List.replicate 10 (.size 100)
  have e1 : (steps .release .little ks (fs, .start ([str% "as", str% "a.s"].map utf8))).1.content 1 =
      some [207, 250, 237, 254] := by decide +kernel
  have e2 : ∃ new, (main .release .little (fun b => if b = [] then [] else [b]) fs [str% "as", str% "a.s"]).1.content 1 =
      some new ∧ new.length = 268 := by
    have : ((main .release .little (fun b => if b = [] then [] else [b]) fs [str% "as", str% "a.s"]).1.content 1).map
      List.length = some 268 := by decide +kernel
    exact Option.map_eq_some_iff.1 this
  obtain ⟨new, e2, e3⟩ := e2
  refine ⟨fs, _, [str% "as", str% "a.s"], ks, _, rfl, ?_, (asks_iff ..).2 (by decide +kernel), by decide +kernel,
    [1, 2, 3], _, new, rfl, e1, e2, by decide, by decide, ?_⟩
  · intro k hk
    rw [List.eq_of_mem_replicate hk]
    exact .inr ⟨100, by omega, rfl⟩
  · intro he
    rw [← he] at e3
    cases e3

/-- C105 applies to the two runs of C98, killed after 18 system calls: the first has written some of its
output, and its files can be opened. -/
example :
    (let turns := (List.replicate 6 [((0 : Nat), Call.size 3), (1, .size 2), (0, .interrupted)]).flatten
     Separated twoFiles twoArgs ∧ Asks (twoArgs 0) (str% "a.s") (str% "a.o") ∧
     (∃ src, Source twoFiles (str% "a.s") (str% "a.o") src) ∧ twoFiles.node (str% "a.s") ≠ twoFiles.node (str% "a.o") ∧
     ending ((together .debug .little turns (twoFiles, fresh twoArgs)).2 0) = none ∧
     (together .debug .little turns (twoFiles, fresh twoArgs)).1.content (twoFiles.node (str% "a.o")) =
       some [207, 250, 237]) :=
  ⟨twoArgs_separated, (asks_iff ..).2 (by decide +kernel),
    ⟨_, rfl, rfl, _, rfl, .inr ⟨by decide, rfl⟩⟩, by decide, by decide +kernel, by decide +kernel⟩

end AT.Props
