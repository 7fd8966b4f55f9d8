import Verif.Props.MeddleAny
/-!
# A run ends whatever other programs do, unless they make its input grow for ever (C103)
-/

namespace AT.Props
open AT AT.Asm AT.AsmSpec AT.Mac

/-- Work left if no file that is read has more than `L` bytes: the phase, then what may be left to read
or to write. -/
def workAtMost (L : Nat) : At → Nat × Nat
  | .start _ => (4, 0)
  | .openIn _ => (3, 0)
  | .openOut _ _ => (2, 0)
  | .reading _ pos _ buf _ => (1, 2 * (L - pos) + buf.length)
  | .writing _ _ chunks _ => (0, (chunks.map (fun c => c.length + 1)).sum + 1)
  | .done _ => (0, 0)

/-- The file that is being read has at most `L` bytes. -/
def ReadsShort (L : Nat) (fs : FS) : At → Prop
  | .reading i _ _ _ _ => ((fs.content i).getD []).length ≤ L
  | _ => True

theorem step_workAtMost (bd : Build) (h : Endian) (k : Call) (fs : FS) (L : Nat) (s : At) (hs : ReadsShort L fs s) :
    Prod.Lex (· < ·) (· < ·) (workAtMost L (step bd h k fs s).2) (workAtMost L s) ∨
    step bd h k fs s = (fs, s) ∧ (k = .interrupted ∨ ∃ r, s = .done r) := by
  cases s with
  | start args =>
    left
    simp only [step, stepStart]
    repeat' split
    all_goals exact .left _ _ (by decide)
  | openIn cfg =>
    left
    simp only [step]
    repeat' split
    all_goals exact .left _ _ (by decide)
  | openOut i out =>
    left
    simp only [step]
    split
    all_goals exact .left _ _ (by decide)
  | reading i pos o buf a =>
    simp only [step]
    unfold stepRead
    cases hcut : cutNewline buf with
    | some p =>
      obtain ⟨l, r⟩ := p
      left
      have hlen : r.length < buf.length := by obtain ⟨q, -, rfl, rfl⟩ := cutNewline_some.1 hcut; simp; omega
      simp only
      split
      · exact .left _ _ (by decide)
      · exact .right _ (by omega)
    | none =>
      simp only
      cases k with
      | interrupted => exact .inr ⟨rfl, .inl rfl⟩
      | failed => exact .inl (.left _ _ (by decide))
      | size n =>
        left
        simp only
        cases hg : (((fs.content i).getD []).drop pos).take (n + 1) with
        | nil =>
          cases buf with
          | nil => exact .left _ _ (by decide)
          | cons b bs =>
            simp only
            split
            · exact .left _ _ (by decide)
            · exact .right _ (by simp only [List.length_nil, List.length_cons]; omega)
        | cons b bs =>
          have hlen := congrArg List.length hg
          have hs' : ((fs.content i).getD []).length ≤ L := hs
          simp only [List.length_take, List.length_drop, List.length_cons] at hlen
          exact .right _ (by simp only [List.length_append, List.length_cons]; omega)
  | writing o pos chunks res =>
    simp only [step]
    match chunks with
    | [] => exact .inl (.right _ (by simp))
    | [] :: cs => exact .inl (.right _ (by simp))
    | (b :: bs) :: cs =>
      match k with
      | .interrupted => exact .inr ⟨rfl, .inl rfl⟩
      | .failed => exact .inl (.right _ (by simp))
      | .size 0 => exact .inl (.right _ (by simp))
      | .size (n + 1) => exact .inl (.right _ (by simp; omega))
  | done r => exact .inr ⟨rfl, .inr ⟨r, rfl⟩⟩

theorem firstMoves_succ (bd : Build) (h : Endian) (μ : Nat → Move) (n : Nat) (x : FS × At) :
    among bd h (firstMoves μ (n + 1)) x = among bd h [μ n] (among bd h (firstMoves μ n) x) := by
  unfold firstMoves
  rw [List.range_succ, List.map_append, among_append]
  rfl

/-- Where a run with arguments `args` can be; `led` tells to which files a path has led. -/
def Underway (args : List Str) (led : Str → Nat → Prop) : At → Prop
  | .start bs => bs = args.map utf8
  | .openIn cfg => Asks args cfg.inputPath cfg.outputPath
  | .openOut i _ => ∃ inp out, Asks args inp out ∧ led inp i
  | .reading i _ _ _ _ => ∃ inp out, Asks args inp out ∧ led inp i
  | _ => True

theorem step_underway (bd : Build) (h : Endian) (k : Call) (fs : FS) (s : At) (args : List Str) (led : Str → Nat → Prop)
    (hled : ∀ p, led p (fs.node p)) (hs : Underway args led s) : Underway args led (step bd h k fs s).2 := by
  cases s with
  | start bs =>
    cases hs
    simp only [step, stepStart]
    rw [argsOf_utf8]
    simp only
    cases hc : Config.init args with
    | error e => trivial
    | ok cfg => exact (asks_iff ..).2 hc
  | openIn cfg =>
    simp only [step]
    split
    · trivial
    · split
      · exact ⟨_, _, hs, hled _⟩
      · trivial
  | openOut i out =>
    simp only [step]
    split
    · exact hs
    · trivial
  | reading i pos o buf a =>
    simp only [step]
    unfold stepRead
    repeat' split
    all_goals first | trivial | exact hs
  | writing o pos chunks res =>
    simp only [step]
    match chunks with
    | [] => trivial
    | [] :: cs => trivial
    | (b :: bs) :: cs =>
      match k with
      | .interrupted => trivial
      | .failed => trivial
      | .size 0 => trivial
      | .size (n + 1) => trivial
  | done r => trivial

/-- C103: other programs do what they like, for ever.  A run that gets on again and again (its calls are
not interrupted for ever) comes to an end if there is a limit to the lengths of the files to which the
path of its input ever leads. -/
theorem C103_ends (bd : Build) (h : Endian) (fs : FS) (args : List Str) (μ : Nat → Move) (L : Nat)
    (hfair : ∀ n, ∃ m k, n ≤ m ∧ μ m = .own k ∧ k ≠ .interrupted)
    (hL : ∀ inp out, Asks args inp out → ∀ n m b,
      let g := (among bd h (firstMoves μ n) (fs, .start (args.map utf8))).1
      let g' := (among bd h (firstMoves μ m) (fs, .start (args.map utf8))).1
      g.content (g'.node inp) = some b → b.length ≤ L) :
    ∃ n r, ∀ m, n ≤ m → (among bd h (firstMoves μ m) (fs, .start (args.map utf8))).2 = .done r := by
  let X : Nat → FS × At := fun n => among bd h (firstMoves μ n) (fs, .start (args.map utf8))
  have hX : ∀ n, X (n + 1) = among bd h [μ n] (X n) := fun n => firstMoves_succ ..
  let led : Str → Nat → Prop := fun p i => ∃ m, i = (X m).1.node p
  have hund : ∀ n, Underway args led (X n).2 := by
    intro n
    induction n with
    | zero => exact rfl
    | succ n ih =>
      rw [hX]
      cases hm : μ n with
      | own k => exact step_underway bd h k (X n).1 (X n).2 args led (fun p => ⟨n, rfl⟩) ih
      | other f => exact ih
  have hshort : ∀ n, ReadsShort L (X n).1 (X n).2 := by
    intro n
    have hu := hund n
    cases hs : (X n).2 with
    | reading i pos o buf a =>
      rw [hs] at hu
      obtain ⟨inp, out, ha, m, rfl⟩ := hu
      show (((X n).1.content _).getD []).length ≤ L
      cases hc : (X n).1.content ((X m).1.node inp) with
      | none => simp
      | some b => exact hL inp out ha n m b hc
    | _ => trivial
  let w : Nat → Nat × Nat := fun n => workAtMost L (X n).2
  have hother : ∀ n f, μ n = .other f → (X (n + 1)).2 = (X n).2 := by
    intro n f hf
    rw [hX, hf]
    rfl
  have hself : ∀ n k, μ n = .own k → Prod.Lex (· < ·) (· < ·) (w (n + 1)) (w n) ∨
      ((X (n + 1)).2 = (X n).2 ∧ (k = .interrupted ∨ ∃ r, (X n).2 = .done r)) := by
    intro n k hk
    have e : X (n + 1) = step bd h k (X n).1 (X n).2 := by rw [hX, hk]; rfl
    show Prod.Lex _ _ (workAtMost L (X (n + 1)).2) _ ∨ _
    rw [e]
    rcases step_workAtMost bd h k (X n).1 L (X n).2 (hshort n) with hl | ⟨he, hk⟩
    · exact .inl hl
    · exact .inr ⟨by rw [he], hk⟩
  have hdone : ∀ r n, (X n).2 = .done r → ∀ m, n ≤ m → (X m).2 = .done r := by
    intro r n hn m hm
    induction hm with
    | refl => exact hn
    | @step m _ ih =>
      cases hm : μ m with
      | own k =>
        rw [hX, hm]
        show (step bd h k (X m).1 (X m).2).2 = _
        rw [ih]
        rfl
      | other f => rw [hother m f hm]; exact ih
  have wf : WellFounded (Prod.Lex (· < · : Nat → Nat → Prop) (· < · : Nat → Nat → Prop)) :=
    (Prod.lex Nat.lt_wfRel Nat.lt_wfRel).wf
  have main : ∀ v, ∀ n, w n = v → ∃ m r, (X m).2 = .done r := by
    intro v
    induction v using wf.induction with
    | _ v ih =>
      intro n hn
      obtain ⟨m, k, hm, hi, hk⟩ := hfair n
      have hle : ∀ q, n ≤ q → w q = v ∨ ∃ q' r, (X q').2 = .done r := by
        intro q hq
        induction hq with
        | refl => exact .inl hn
        | @step q _ ih' =>
          rcases ih' with hq' | hq'
          · cases hμ : μ q with
            | own k' =>
              rcases hself q k' hμ with hl | ⟨he, -⟩
              · rw [hq'] at hl; exact .inr (ih _ hl (q + 1) rfl)
              · exact .inl ((congrArg (workAtMost L) he).trans hq')
            | other f => exact .inl ((congrArg (workAtMost L) (hother q f hμ)).trans hq')
          · exact .inr hq'
      rcases hle m hm with hv | hv
      · rcases hself m k hi with hl | ⟨-, hk' | ⟨r, hr⟩⟩
        · rw [hv] at hl; exact ih _ hl (m + 1) rfl
        · exact absurd hk' hk
        · exact ⟨m, r, hr⟩
      · exact hv
  obtain ⟨n, r, hr⟩ := main _ 0 rfl
  exact ⟨n, r, fun m hm => hdone r n hr m hm⟩

/-- C103 in terms of what the others do: they leave the paths alone, and the input, which is not the
output, with at most `L` bytes whenever they change it. -/
theorem C103_ends_if (bd : Build) (h : Endian) (fs : FS) (args : List Str) (inp out : Str) (ha : Asks args inp out)
    (hd : fs.node inp ≠ fs.node out) (μ : Nat → Move) (L : Nat)
    (hfair : ∀ n, ∃ m k, n ≤ m ∧ μ m = .own k ∧ k ≠ .interrupted)
    (hn : ∀ n f, μ n = .other f → ∀ g, (f g).node = g.node)
    (hL : ∀ n f, μ n = .other f → ∀ g, (f g).content (fs.node inp) = g.content (fs.node inp) ∨
      ∀ b, (f g).content (fs.node inp) = some b → b.length ≤ L) :
    ∃ n r, ∀ m, n ≤ m → (among bd h (firstMoves μ m) (fs, .start (args.map utf8))).2 = .done r := by
  let L' := max L ((fs.content (fs.node inp)).getD []).length
  have key : ∀ n, let x := among bd h (firstMoves μ n) (fs, .start (args.map utf8))
      x.1.node = fs.node ∧ (∀ b, x.1.content (fs.node inp) = some b → b.length ≤ L') ∧
      ∀ j, Writes fs.node x.2 j → j = fs.node out := by
    intro n
    induction n with
    | zero =>
      refine ⟨rfl, fun b hb => ?_, fun j hj => ?_⟩
      · have hb' : fs.content (fs.node inp) = some b := hb
        show b.length ≤ max L ((fs.content (fs.node inp)).getD []).length
        rw [hb']
        exact Nat.le_max_right ..
      · obtain ⟨inp', out', ha', rfl⟩ := writes_start hj
        have e := (asks_iff ..).1 ha
        rw [(asks_iff ..).1 ha'] at e
        cases e
        rfl
    | succ n ih =>
      rw [firstMoves_succ]
      generalize among bd h (firstMoves μ n) (fs, .start (args.map utf8)) = x at ih
      obtain ⟨g, s⟩ := x
      obtain ⟨i1, i2, i3⟩ := ih
      simp only at i1 i2 i3
      cases hm : μ n with
      | own k =>
        obtain ⟨f1, f2⟩ := step_frame bd h k g s
        have f3 := step_touches bd h k g s
        simp only [among]
        rw [i1] at f2 f3
        refine ⟨f1.1.trans i1, fun b hb => i2 b ?_, fun j hj => i3 j ((f3 j).1 hj)⟩
        rw [← f2 (fs.node inp) fun hw => hd (i3 _ hw)]
        exact hb
      | other f =>
        simp only [among]
        refine ⟨(hn n f hm g).trans i1, fun b hb => ?_, i3⟩
        rcases hL n f hm g with he | hl
        · exact i2 b (by rw [← he]; exact hb)
        · exact Nat.le_trans (hl b hb) (Nat.le_max_left ..)
  refine C103_ends bd h fs args μ L' hfair fun inp' out' ha' n m b hb => ?_
  have e := (asks_iff ..).1 ha
  rw [(asks_iff ..).1 ha'] at e
  cases e
  refine (key n).2.1 b ?_
  rw [← congrFun (key m).1 inp]
  exact hb

/-- Another program that rewrites the input after every step of the run, for ever. -/
def rewrites (n : Nat) : Move := if n % 2 = 1 then .other (fun g => g.set 0 (utf8 (str% "ret\n"))) else .own (.size 1)

/-- The run ends. -/
example : ∃ n r, ∀ m, n ≤ m → (among .release .little (firstMoves rewrites m)
    (growing, .start ([str% "as", str% "a.s"].map utf8))).2 = .done r := by
  refine C103_ends_if .release .little growing _ (str% "a.s") (str% "a.o") ((asks_iff ..).2 (by decide +kernel))
    (by decide) rewrites 4 (fun n => ⟨2 * n, .size 1, by omega, if_neg (by omega), by simp⟩) ?_ ?_
  all_goals
    intro n f hf g
    unfold rewrites at hf
    split at hf
    all_goals cases hf
  · rfl
  · right
    intro b hb
    cases hb
    decide

/-! ## An input that grows for ever -/

/-- An empty source. -/
def blankFs : FS :=
  ⟨fun p => if p = str% "a.s" then 0 else 1, fun n => if n = 0 then some [] else none, fun _ => true, fun _ => true⟩

/-- Another program appends a blank to it. -/
def addBlank (g : FS) : FS := g.set 0 ((g.content 0).getD [] ++ [32])

/-- The run opens the files; then, in turn, the other program appends a blank and the run makes a step. -/
def blankMoves (n : Nat) : Move := if 3 ≤ n ∧ n % 2 = 1 then .other addBlank else .own (.size 1)

theorem blank_states (bd : Build) (h : Endian) (k : Nat) :
    let x := among bd h (firstMoves blankMoves (3 + 2 * k)) (blankFs, .start ([str% "as", str% "a.s"].map utf8))
    x.2 = .reading 0 k 1 (List.replicate k 32) Assembler.new ∧ x.1.content 0 = some (List.replicate k 32) := by
  induction k with
  | zero => exact ⟨rfl, rfl⟩
  | succ k ih =>
    obtain ⟨h1, h2⟩ := ih
    have e1 : blankMoves (3 + 2 * k) = .other addBlank := if_pos (by omega)
    have e2 : blankMoves (3 + 2 * k + 1) = .own (.size 1) := if_neg (by omega)
    rw [show 3 + 2 * (k + 1) = 3 + 2 * k + 1 + 1 by omega, firstMoves_succ, firstMoves_succ, e1, e2]
    generalize among bd h (firstMoves blankMoves (3 + 2 * k)) (blankFs, .start ([str% "as", str% "a.s"].map utf8)) = x
      at h1 h2
    obtain ⟨g, s⟩ := x
    simp only at h1 h2
    subst h1
    have hc : cutNewline (List.replicate k 32) = none := by
      rw [cutNewline_none]
      intro hm
      exact absurd (List.eq_of_mem_replicate hm) (by decide)
    have hg : (addBlank g).content 0 = some (List.replicate (k + 1) 32) := by
      simp [addBlank, FS.set, h2, List.replicate_succ']
    simp only [among, step, stepRead, hc, hg, Option.getD_some]
    have hd : (List.replicate (k + 1) (32 : UInt8)).drop k = [32] := by
      rw [List.drop_replicate, show k + 1 - k = 1 by omega]; rfl
    rw [hd]
    simp [List.replicate_succ']

/-- C103, the limit is needed: if another program makes the input grow for ever, a run may never end,
although it gets on again and again and none of its calls fails or is interrupted. -/
theorem C103_endless (bd : Build) (h : Endian) : ∃ (fs : FS) (args : List Str) (μ : Nat → Move),
    (∀ n, ∃ m k, n ≤ m ∧ μ m = .own k ∧ k ≠ .interrupted) ∧ (∀ n k, μ n = .own k → Fine k) ∧
    Asks args (str% "a.s") (str% "a.o") ∧
    ∀ n r, (among bd h (firstMoves μ n) (fs, .start (args.map utf8))).2 ≠ .done r := by
  refine ⟨blankFs, [str% "as", str% "a.s"], blankMoves, fun n => ⟨2 * n, .size 1, by omega, if_neg (by omega), by simp⟩,
    fun n k hk => ?_, (asks_iff ..).2 (by decide +kernel), fun n r hr => ?_⟩
  · unfold blankMoves at hk
    split at hk
    · cases hk
    · cases hk; exact .inr ⟨1, by omega, rfl⟩
  · by_cases h3 : n < 3
    · obtain rfl | rfl | rfl : n = 0 ∨ n = 1 ∨ n = 2 := by omega
      all_goals cases hr
    · obtain ⟨k, hk⟩ : ∃ k, n = 3 + 2 * k ∨ n = 3 + 2 * k + 1 := ⟨(n - 3) / 2, by omega⟩
      have hs := (blank_states bd h k).1
      rcases hk with rfl | rfl
      · rw [hs] at hr; cases hr
      · rw [firstMoves_succ, show blankMoves (3 + 2 * k) = .other addBlank from if_pos (by omega)] at hr
        rw [show ∀ x : FS × At, (among bd h [.other addBlank] x).2 = x.2 from fun _ => rfl, hs] at hr
        cases hr

end AT.Props
