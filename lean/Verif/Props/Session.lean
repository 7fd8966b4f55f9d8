import Verif.Spec.Session
import Verif.Props.Join
/-!
# Calls on an assembler (C95)
-/

namespace AT.Props
open AT.Asm AT.AsmSpec AT.X64 AT.Obj AT.Mac

/-- The assembler `k` lines later. -/
def bump (k : Nat) (a : Assembler) : Assembler := { a with curLine := a.curLine + UInt32.ofNat k }

/-- The same end, `k` lines later. -/
def EndLater (k : Nat) : Res Assembler → Res Assembler → Prop
  | .ok a, .ok b => b = bump k a
  | .error e, .error f => Later k e f
  | _, _ => False

theorem step_bump (bd : Build) (k : Nat) (a : Assembler) (l : Line) :
    (bump k a).step bd l = (a.step bd l).map (bump k) := by
  obtain ⟨cs, cl, o, e⟩ := a
  cases l with
  | empty => rfl
  | sect s => rfl
  | globalSymbol n => rfl
  | symbol n => cases cs <;> rfl
  | data d => obtain ⟨lab, bytes⟩ := d; cases lab <;> cases cs <;> rfl
  | instruction i =>
    obtain ⟨bytes, rel⟩ := i
    cases rel with
    | none => cases cs <;> rfl
    | some lr =>
      unfold Assembler.step
      simp only
      rw [show (bump k ⟨cs, cl, o, e⟩).curSize = (Assembler.mk cs cl o e).curSize by cases cs <;> rfl]
      cases addI32 bd (Assembler.mk cs cl o e).curSize.toUInt32.toInt32 lr.offset.toUInt32.toInt32 with
      | error e => rfl
      | ok addr => cases cs <;> rfl

theorem step_line (bd : Build) {a a' : Assembler} {l : Line} (h : a.step bd l = .ok a') :
    a'.curLine = a.curLine := by
  obtain ⟨cs, cl, o, e⟩ := a
  cases l with
  | empty => cases h; rfl
  | sect s => cases h; rfl
  | globalSymbol n => cases h; rfl
  | symbol n => cases cs <;> cases h <;> rfl
  | data d => obtain ⟨lab, bytes⟩ := d; cases lab <;> cases cs <;> cases h <;> rfl
  | instruction i =>
    obtain ⟨bytes, rel⟩ := i
    cases rel with
    | none => cases cs <;> cases h <;> rfl
    | some lr =>
      unfold Assembler.step at h
      simp only at h
      cases ha : addI32 bd (Assembler.mk cs cl o e).curSize.toUInt32.toInt32 lr.offset.toUInt32.toInt32 with
      | error e => rw [ha] at h; cases h
      | ok addr => rw [ha] at h; cases cs <;> cases h <;> rfl

theorem doLine_line {bd : Build} {a a' : Assembler} {s : Str} (h : a.doLine bd s = .ok a') :
    a'.curLine = a.curLine + 1 := by
  unfold Assembler.doLine at h
  unfold addU32 at h
  split at h
  · simp only [bind, Except.bind] at h
    cases hp : parseOrExit bd (a.curLine + 1) s with
    | error e => rw [hp] at h; cases h
    | ok l => rw [hp] at h; exact step_line bd h
  · cases h

theorem runLines_line {bd : Build} {ls : List Bytes} {a a' : Assembler} (h : runLines bd a ls = .ok a') :
    a'.curLine = a.curLine + UInt32.ofNat ls.length := by
  induction ls generalizing a with
  | nil => cases h; simp
  | cons b ls ih =>
    unfold runLines at h
    cases hs : fromUtf8 b with
    | none => rw [hs] at h; cases h
    | some s =>
      rw [hs] at h
      simp only at h
      cases hd : a.doLine bd s with
      | error e => rw [hd] at h; cases h
      | ok a1 =>
        rw [hd] at h
        rw [ih h, doLine_line hd, List.length_cons, UInt32.ofNat_add, UInt32.add_assoc, UInt32.add_comm 1]
        rfl

/-- The line numbers fit. -/
def Room (bd : Build) (a : Assembler) (n : Nat) : Prop := bd = .release ∨ a.curLine.toNat + n < 2 ^ 32

theorem add_line {c : UInt32} {k : Nat} (h : c.toNat + k < 2 ^ 32) : (c + UInt32.ofNat k).toNat = c.toNat + k := by
  rw [UInt32.toNat_add, UInt32.toNat_ofNat']; omega

theorem addU32_room {bd : Build} {a : Assembler} {n : Nat} (h : Room bd a (n + 1)) :
    addU32 bd a.curLine 1 = .ok (a.curLine + 1) := by
  unfold addU32
  rw [if_pos]
  rcases h with h | h
  · exact .inr h
  · exact .inl (by simp; omega)

theorem room_bump {bd : Build} {a : Assembler} {k n : Nat} (h : Room bd a (k + n)) : Room bd (bump k a) n := by
  rcases h with h | h
  · exact .inl h
  · refine .inr ?_
    show (a.curLine + UInt32.ofNat k).toNat + n < 2 ^ 32
    rw [add_line (by omega)]; omega

theorem doLine_bump (bd : Build) (k : Nat) (a : Assembler) (s : Str) (h : Room bd a (k + 1)) :
    EndLater k (a.doLine bd s) ((bump k a).doLine bd s) := by
  have h1 := addU32_room h
  have h2 := addU32_room (n := 0) (room_bump h)
  have hn : (bump k a).curLine + 1 = (a.curLine + 1) + UInt32.ofNat k := by
    show a.curLine + UInt32.ofNat k + 1 = _
    rw [UInt32.add_assoc, UInt32.add_comm (UInt32.ofNat k), ← UInt32.add_assoc]
  unfold Assembler.doLine
  rw [h1, h2, hn]
  simp only [bind, Except.bind]
  unfold parseOrExit
  cases parseLine bd s with
  | error e =>
    cases e with
    | parseErr msg =>
      refine Later.line (a.curLine.toNat + 1) _ _ _ ?_ ?_
      · have : (a.curLine + 1).toNat = (a.curLine.toNat + 1) % 2 ^ 32 := by rw [UInt32.toNat_add]; rfl
        rw [← this]; exact showNat_decimal _
      · have : ((a.curLine + 1) + UInt32.ofNat k).toNat = (k + (a.curLine.toNat + 1)) % 2 ^ 32 := by
          rw [UInt32.toNat_add, UInt32.toNat_add, UInt32.toNat_ofNat']
          simp only [UInt32.toNat_one]; omega
        rw [← this]; exact showNat_decimal _
    | panic => exact .same _
    | exit k m => exact .same _
  | ok l =>
    have := step_bump bd k { a with curLine := a.curLine + 1 } l
    simp only
    show EndLater k _ ((bump k { a with curLine := a.curLine + 1 }).step bd l)
    rw [this]
    cases ({ a with curLine := a.curLine + 1 } : Assembler).step bd l with
    | error e => exact .same _
    | ok a' => rfl

theorem runLines_bump (bd : Build) (k : Nat) (ls : List Bytes) (a : Assembler) (h : Room bd a (k + ls.length)) :
    EndLater k (runLines bd a ls) (runLines bd (bump k a) ls) := by
  induction ls generalizing a with
  | nil => rfl
  | cons b ls ih =>
    rw [List.length_cons] at h
    unfold runLines
    cases fromUtf8 b with
    | none => exact .same _
    | some s =>
      simp only
      have hd := doLine_bump bd k a s (h.imp id (by intro h; omega))
      cases h1 : a.doLine bd s with
      | error e =>
        cases h2 : (bump k a).doLine bd s with
        | error e' => rw [h1, h2] at hd; exact hd
        | ok b' => rw [h1, h2] at hd; exact hd.elim
      | ok a' =>
        cases h2 : (bump k a).doLine bd s with
        | error e' => rw [h1, h2] at hd; exact hd.elim
        | ok b' =>
          rw [h1, h2] at hd
          rw [show b' = bump k a' from hd]
          refine ih a' ?_
          rcases h with h | h
          · exact .inl h
          · refine .inr ?_
            rw [doLine_line h1, UInt32.toNat_add]
            simp only [UInt32.toNat_one]; omega

/-! ## Sessions -/

/-- How the calls end and how the source ends. -/
def Agree (calls : List Call) (k : Nat) : Res Assembler → Res Assembler → Prop
  | .ok a, .ok b => ∃ k', (bump k' a).markExt = b.markExt
  | .error e, .error f => ∃ before cs after, calls = before ++ .read cs :: after ∧
      Later (k + selections before) e f
  | _, _ => False

theorem Agree.cons {calls : List Call} {k k' : Nat} {c : Call} (hk : k' = k + selections [c])
    {r q : Res Assembler} (h : Agree calls k' r q) : Agree (c :: calls) k r q := by
  cases r with
  | error e => cases q with
    | error f =>
      obtain ⟨before, cs, after, rfl, hl⟩ := h
      refine ⟨c :: before, cs, after, rfl, ?_⟩
      have : k + selections (c :: before) = k' + selections before := by
        rw [hk]; cases c <;> simp [selections]; omega
      rw [this]; exact hl
    | ok b => exact h.elim
  | ok a => cases q with
    | error f => exact h.elim
    | ok b => exact h

theorem section_line (bd : Build) (x : Section) :
    parseLine bd (str% "section " ++ sectName x ++ str% "\n") = .ok (.sect x) := by
  cases bd <;> cases x <;> decide +kernel

theorem section_cut (x : Section) : Cut (textOf (.select x)) [textOf (.select x)] ∧
    (textOf (.select x)).getLast? = some 10 ∧
    fromUtf8 (textOf (.select x)) = some (str% "section " ++ sectName x ++ str% "\n") := by
  refine ⟨⟨?_, ?_, ?_, ?_⟩, ?_, ?_⟩ <;> cases x <;> decide +kernel

theorem bump_markExt (k : Nat) (a : Assembler) : (bump k a).markExt = bump k a.markExt := rfl

theorem sourceOf_cons (c : Call) (calls : List Call) : sourceOf (c :: calls) = textOf c ++ sourceOf calls := rfl

theorem makes_agree {bd : Build} {calls : List Call} {a b : Assembler} {r : Res Assembler} {k : Nat} {ls : List Bytes}
    (hm : Makes bd a calls r) (hw : WholeLines calls) (hab : (bump k a).markExt = b.markExt)
    (hc : Cut (sourceOf calls) ls) (hr : Room bd a (k + ls.length)) : Agree calls k r (runLines bd b ls) := by
  induction hm generalizing b k ls with
  | done a =>
    have : ls = [] := cut_nil hc
    subst this
    exact ⟨k, hab⟩
  | select a x calls r hm ih =>
    obtain ⟨ms, hms⟩ := Cut.exists (sourceOf calls)
    obtain ⟨h1, h2, h3⟩ := section_cut x
    have hls : ls = textOf (.select x) :: ms := Cut.det hc (by
      rw [sourceOf_cons]; exact Cut.append h1 hms (.inr h2))
    subst hls
    rw [List.length_cons] at hr
    have hb : b.curLine = (bump k a).curLine := (markExt_inj hab).2.1.symm
    have hrb : Room bd b (0 + 1) := by
      have := room_bump (n := 0 + 1) (hr.imp id (fun h => by omega) : Room bd a (k + (0 + 1)))
      unfold Room at this ⊢
      rw [hb]; exact this
    have hdo : b.doLine bd (str% "section " ++ sectName x ++ str% "\n") =
        .ok { b with curLine := b.curLine + 1, curSect := x } := by
      unfold Assembler.doLine
      rw [addU32_room hrb]
      simp only [bind, Except.bind]
      unfold parseOrExit
      rw [section_line]
      rfl
    unfold runLines
    rw [h3]
    simp only
    rw [hdo]
    simp only
    refine Agree.cons (k' := k + 1) rfl (ih ?_ ?_ hms ?_)
    · refine ⟨fun cs h => hw.chunks cs (List.mem_cons_of_mem _ h), fun cs h => hw.ends cs ?_⟩
      cases calls with
      | nil => cases h
      | cons c cs => rw [List.dropLast_cons_cons]; exact List.mem_cons_of_mem _ h
    · have h' : (bump 1 ((bump k a).setCurSect x)).markExt = (bump 1 (b.setCurSect x)).markExt := by
        show bump 1 ((bump k a).markExt.setCurSect x) = bump 1 (b.markExt.setCurSect x)
        rw [hab]
      have e1 : bump 1 ((bump k a).setCurSect x) = bump (k + 1) (a.setCurSect x) := by
        show Assembler.mk _ _ _ _ = Assembler.mk _ _ _ _
        congr 1
        show a.curLine + UInt32.ofNat k + UInt32.ofNat 1 = a.curLine + UInt32.ofNat (k + 1)
        rw [UInt32.ofNat_add, UInt32.add_assoc]
      rw [← e1, h']
      rfl
    · exact hr.imp id (fun h => by show a.curLine.toNat + _ < _; omega)
  | read a a' cs calls r hok hm ih =>
    obtain ⟨ms, hms⟩ := Cut.exists (sourceOf calls)
    obtain ⟨ns, hns⟩ := Cut.exists cs.flatten
    have hcs := hw.chunks cs (List.mem_cons_self ..)
    have hls : ls = ns ++ ms := by
      refine Cut.det hc ?_
      rw [sourceOf_cons]
      cases calls with
      | nil =>
        have : ms = [] := cut_nil hms
        subst this
        simpa [sourceOf, textOf] using hns
      | cons c calls => exact Cut.append hns hms (hw.ends cs (by rw [List.dropLast_cons_cons]; exact List.mem_cons_self ..))
    subst hls
    rw [List.length_append] at hr
    rw [runLines_two]
    rw [readFrom_eq bd a cs ns hcs hns] at hok
    have hbump := runLines_bump bd k ns a (hr.imp id (fun h => by omega))
    have hsame := runLines_same bd ns hab
    cases h1 : runLines bd a ns with
    | error e => rw [h1] at hok; cases hok
    | ok a1 =>
      rw [h1] at hok hbump
      cases h2 : runLines bd (bump k a) ns with
      | error e => rw [h2] at hbump; exact hbump.elim
      | ok b1 =>
        rw [h2] at hbump hsame
        cases h3 : runLines bd b ns with
        | error e => rw [h3] at hsame; exact hsame.elim
        | ok b2 =>
          rw [h3] at hsame
          have hb1 : b1 = bump k a1 := hbump
          have ha' : a' = a1.markExt := by cases hok; rfl
          refine Agree.cons (k' := k) rfl (ih ?_ ?_ hms ?_)
          · refine ⟨fun cs h => hw.chunks cs (List.mem_cons_of_mem _ h), fun cs h => hw.ends cs ?_⟩
            cases calls with
            | nil => cases h
            | cons c cs => rw [List.dropLast_cons_cons]; exact List.mem_cons_of_mem _ h
          · rw [ha', bump_markExt, markExt_idem, ← bump_markExt, ← hb1]; exact hsame
          · rcases hr with hr | hr
            · exact .inl hr
            · refine .inr ?_
              have : a'.curLine = a.curLine + UInt32.ofNat ns.length := by
                rw [ha']; show a1.curLine = _; exact runLines_line h1
              rw [this, add_line (by omega)]; omega
  | stop a cs calls e hfail =>
    obtain ⟨ms, hms⟩ := Cut.exists (sourceOf calls)
    obtain ⟨ns, hns⟩ := Cut.exists cs.flatten
    have hcs := hw.chunks cs (List.mem_cons_self ..)
    have hls : ls = ns ++ ms := by
      refine Cut.det hc ?_
      rw [sourceOf_cons]
      cases calls with
      | nil =>
        have : ms = [] := cut_nil hms
        subst this
        simpa [sourceOf, textOf] using hns
      | cons c calls => exact Cut.append hns hms (hw.ends cs (by rw [List.dropLast_cons_cons]; exact List.mem_cons_self ..))
    subst hls
    rw [List.length_append] at hr
    rw [runLines_two]
    rw [readFrom_eq bd a cs ns hcs hns] at hfail
    have hbump := runLines_bump bd k ns a (hr.imp id (fun h => by omega))
    have hsame := runLines_same bd ns hab
    cases h1 : runLines bd a ns with
    | ok a1 => rw [h1] at hfail; cases hfail
    | error e1 =>
      rw [h1] at hfail hbump
      have : e1 = e := by cases hfail; rfl
      subst this
      cases h2 : runLines bd (bump k a) ns with
      | ok b1 => rw [h2] at hbump; exact hbump.elim
      | error e2 =>
        rw [h2] at hbump hsame
        cases h3 : runLines bd b ns with
        | ok b2 => rw [h3] at hsame; exact hsame.elim
        | error e3 =>
          rw [h3] at hsame
          have : e2 = e3 := hsame
          subst this
          exact ⟨[], cs, calls, rfl, hbump⟩

theorem makes_marked {bd : Build} {calls : List Call} {a a' : Assembler} {r : Res Assembler}
    (hm : Makes bd a calls r) (hr : r = .ok a') (hw : ∀ cs, Call.read cs ∈ calls → ∀ c ∈ cs, c ≠ [])
    (ha : a.markExt = a) : a'.markExt = a' := by
  induction hm with
  | done a => cases hr; exact ha
  | select a x calls r hm ih =>
    refine ih hr (fun cs h => hw cs (List.mem_cons_of_mem _ h)) ?_
    show a.markExt.setCurSect x = _
    rw [ha]
  | read a a1 cs calls r hok hm ih =>
    refine ih hr (fun cs h => hw cs (List.mem_cons_of_mem _ h)) ?_
    obtain ⟨ns, hns⟩ := Cut.exists cs.flatten
    rw [readFrom_eq bd a cs ns (hw cs (List.mem_cons_self ..)) hns] at hok
    cases h1 : runLines bd a ns with
    | error e => rw [h1] at hok; cases hok
    | ok a2 =>
      rw [h1] at hok
      have : a1 = a2.markExt := by cases hok; rfl
      rw [this, markExt_idem]
  | stop a cs calls e hfail => cases hr

/-- The calls end in some way. -/
theorem makes_exists (bd : Build) (a : Assembler) (calls : List Call) : ∃ r, Makes bd a calls r := by
  induction calls generalizing a with
  | nil => exact ⟨_, .done a⟩
  | cons c calls ih =>
    cases c with
    | select x => obtain ⟨r, h⟩ := ih (a.setCurSect x); exact ⟨r, .select a x calls r h⟩
    | read cs =>
      cases h : a.readFrom bd cs with
      | error e => exact ⟨_, .stop a cs calls e h⟩
      | ok a' => obtain ⟨r, h'⟩ := ih a'; exact ⟨r, .read a a' cs calls r h h'⟩

/-- The calls do not end in two ways. -/
theorem makes_one {bd : Build} {a : Assembler} {calls : List Call} {r q : Res Assembler}
    (h : Makes bd a calls r) (h' : Makes bd a calls q) : r = q := by
  induction h generalizing q with
  | done a => cases h'; rfl
  | select a x calls r hm ih => cases h' with | select _ _ _ _ h' => exact ih h'
  | read a a' cs calls r hok hm ih =>
    cases h' with
    | read _ b _ _ _ hb h' => rw [hok] at hb; cases hb; exact ih h'
    | stop _ _ _ e he => rw [hok] at he; cases he
  | stop a cs calls e hfail =>
    cases h' with
    | read _ b _ _ _ hb h' => rw [hfail] at hb; cases hb
    | stop _ _ _ e he => rw [hfail] at he; cases he; rfl

/-- How the calls end, compared with the source read at once. -/
theorem session_cases {bd : Build} {calls : List Call} {r : Res Assembler} {ds ls : List Bytes}
    (hm : Makes bd Assembler.new calls r) (hw : WholeLines calls) (hd : ∀ c ∈ ds, c ≠ [])
    (hs : ds.flatten = sourceOf calls) (hc : Cut (sourceOf calls) ls) (hl : bd = .release ∨ ls.length < 2 ^ 32) :
    (∃ a b, r = .ok a ∧ Assembler.new.readFrom bd ds = .ok b ∧ a.obj = b.obj) ∨
    ∃ e f before cs after, r = .error e ∧ Assembler.new.readFrom bd ds = .error f ∧
      calls = before ++ .read cs :: after ∧ Later (selections before) e f := by
  have h := makes_agree (b := Assembler.new) (k := 0) hm hw rfl hc (hl.imp id (fun h => by
    show (0 : UInt32).toNat + _ < _; simpa using h))
  rw [readFrom_eq bd _ ds ls hd (by rw [hs]; exact hc)]
  cases hrun : runLines bd Assembler.new ls with
  | error f =>
    rw [hrun] at h
    cases r with
    | ok a => exact h.elim
    | error e =>
      obtain ⟨before, cs, after, h1, h2⟩ := h
      exact .inr ⟨e, f, before, cs, after, rfl, rfl, h1, by rwa [Nat.zero_add] at h2⟩
  | ok b =>
    rw [hrun] at h
    cases r with
    | error e => exact h.elim
    | ok a =>
      obtain ⟨k', h⟩ := h
      refine .inl ⟨a, b.markExt, rfl, rfl, ?_⟩
      rw [← h, bump_markExt, makes_marked hm rfl hw.chunks rfl]
      rfl

/-- C95: an assembler on which sections are selected and sources are read, in any order, holds the
object of one source in which every selection is a section line, and stops the program if that source
does; the message is the same, except that its line number does not count the selections. -/
theorem C95_session (bd : Build) (calls : List Call) (ds ls : List Bytes) (hw : WholeLines calls)
    (hd : ∀ c ∈ ds, c ≠ []) (hs : ds.flatten = sourceOf calls) (hc : Cut (sourceOf calls) ls)
    (hl : bd = .release ∨ ls.length < 2 ^ 32) :
    (∀ o, (∃ a, Makes bd Assembler.new calls (.ok a) ∧ a.obj = o) ↔
      ∃ b, Assembler.new.readFrom bd ds = .ok b ∧ b.obj = o) ∧
    (∀ e, Makes bd Assembler.new calls (.error e) → ∃ f before cs after,
      Assembler.new.readFrom bd ds = .error f ∧ calls = before ++ .read cs :: after ∧
      Later (selections before) e f) ∧
    (∀ f, Assembler.new.readFrom bd ds = .error f → ∃ e, Makes bd Assembler.new calls (.error e)) := by
  refine ⟨fun o => ⟨?_, ?_⟩, ?_, ?_⟩
  · rintro ⟨a, hm, rfl⟩
    rcases session_cases hm hw hd hs hc hl with ⟨a', b, h, hb, ho⟩ | ⟨e, f, _, _, _, h, _⟩
    · cases h; exact ⟨b, hb, ho.symm⟩
    · cases h
  · rintro ⟨b, hb, rfl⟩
    obtain ⟨r, hm⟩ := makes_exists bd Assembler.new calls
    rcases session_cases hm hw hd hs hc hl with ⟨a', b', rfl, hb', ho⟩ | ⟨e, f, _, _, _, _, hf, _⟩
    · rw [hb] at hb'; cases hb'; exact ⟨a', hm, ho⟩
    · rw [hb] at hf; cases hf
  · intro e hm
    rcases session_cases hm hw hd hs hc hl with ⟨a', b, h, _⟩ | ⟨e', f, before, cs, after, h, hf, h1, h2⟩
    · cases h
    · cases h; exact ⟨f, before, cs, after, hf, h1, h2⟩
  · intro f hf
    obtain ⟨r, hm⟩ := makes_exists bd Assembler.new calls
    rcases session_cases hm hw hd hs hc hl with ⟨a', b', _, hb', _⟩ | ⟨e, f', _, _, _, rfl, _⟩
    · rw [hf] at hb'; cases hb'
    · exact ⟨e, hm⟩

/-- C95: what the assembler writes after the calls is what it writes after that source. -/
theorem C95_write (bd : Build) (en : Endian) (calls : List Call) (ds ls : List Bytes) (a : Assembler)
    (hw : WholeLines calls) (hd : ∀ c ∈ ds, c ≠ []) (hs : ds.flatten = sourceOf calls)
    (hc : Cut (sourceOf calls) ls) (hl : bd = .release ∨ ls.length < 2 ^ 32)
    (hm : Makes bd Assembler.new calls (.ok a)) :
    ∃ b, Assembler.new.readFrom bd ds = .ok b ∧ a.writeInto bd en = b.writeInto bd en := by
  obtain ⟨b, hb, ho⟩ := ((C95_session bd calls ds ls hw hd hs hc hl).1 a.obj).1 ⟨a, hm, rfl⟩
  exact ⟨b, hb, by unfold Assembler.writeInto; rw [ho]⟩

/-! ## Examples -/

def sampleCalls : List Call := [.select .data, .read [utf8 (str% "x db 1,"), utf8 (str% " 2\nglobal g\n")],
  .select .text, .read [], .read [utf8 (str% "g:\nmov rax, x\n")], .select .bss, .read [utf8 (str% "end:")]]

/-- Calls that meet the conditions of C95. -/
example : WholeLines sampleCalls := by
  refine ⟨fun cs h => ?_, fun cs h => ?_⟩
  · have h' : cs = [utf8 (str% "x db 1,"), utf8 (str% " 2\nglobal g\n")] ∨ cs = [] ∨
        cs = [utf8 (str% "g:\nmov rax, x\n")] ∨ cs = [utf8 (str% "end:")] := by simpa [sampleCalls] using h
    rcases h' with rfl | rfl | rfl | rfl <;> decide +kernel
  · have h' : cs = [utf8 (str% "x db 1,"), utf8 (str% " 2\nglobal g\n")] ∨ cs = [] ∨
        cs = [utf8 (str% "g:\nmov rax, x\n")] := by simpa [sampleCalls] using h
    rcases h' with rfl | rfl | rfl <;> decide +kernel

/-- Their source. -/
example : sourceOf sampleCalls = utf8 (str% "section .data\nx db 1, 2\nglobal g\nsection .text\ng:\nmov rax, x\nsection .bss\nend:") := by
  decide +kernel

/-- The object they make. -/
example : ∃ a, Makes .debug Assembler.new sampleCalls (.ok a) ∧ a.obj = { sections := {
    text := { bytes := [0x48, 0xB8, 0, 0, 0, 0, 0, 0, 0, 0], symbols := [.ref (str% "g") 0 true],
              relocs := [⟨2, str% "x", false, 3⟩] }
    data := { bytes := [1, 2], symbols := [.ref (str% "x") 0 false] }
    bss := { symbols := [.ref (str% "end") 0 false] } } } :=
  ⟨⟨.bss, 5, { sections := {
    text := { bytes := [0x48, 0xB8, 0, 0, 0, 0, 0, 0, 0, 0], symbols := [.ref (str% "g") 0 true],
              relocs := [⟨2, str% "x", false, 3⟩] }
    data := { bytes := [1, 2], symbols := [.ref (str% "x") 0 false] }
    bss := { symbols := [.ref (str% "end") 0 false] } } }, [str% "g"]⟩,
   .select _ _ _ _ (.read _ ⟨.data, 2, { sections := { data := { bytes := [1, 2], symbols := [.ref (str% "x") 0 false] } } }, [str% "g"]⟩ _ _ _ (by decide +kernel)
    (.select _ _ _ _ (.read _ ⟨.text, 2, { sections := { data := { bytes := [1, 2], symbols := [.ref (str% "x") 0 false] } } }, [str% "g"]⟩ _ _ _ (by decide +kernel)
    (.read _ ⟨.text, 4, { sections := {
      text := { bytes := [0x48, 0xB8, 0, 0, 0, 0, 0, 0, 0, 0], symbols := [.ref (str% "g") 0 true], relocs := [⟨2, str% "x", false, 3⟩] },
      data := { bytes := [1, 2], symbols := [.ref (str% "x") 0 false] } } }, [str% "g"]⟩ _ _ _ (by decide +kernel)
    (.select _ _ _ _ (.read _ _ _ _ _ (by decide +kernel) (.done _))))))), rfl⟩

/-- A wrong line: the calls say line 2, the source says line 3. -/
example : Makes .debug Assembler.new [.read [utf8 (str% "ret\n")], .select .data, .read [utf8 (str% "foo\n")]]
      (.error (.exit 1 (str% "error at line 2: unrecognized line\n"))) ∧
    Assembler.new.readFrom .debug [utf8 (str% "ret\nsection .data\nfoo\n")] =
      .error (.exit 1 (str% "error at line 3: unrecognized line\n")) :=
  ⟨.read _ ⟨.text, 1, { sections := { text := { bytes := [0xC3] } } }, []⟩ _ _ _ (by decide +kernel)
    (.select _ _ _ _ (.stop _ _ _ _ (by decide +kernel))), by decide +kernel⟩

/-- The condition that a source ends at the end of a line is needed. -/
example : Makes .debug Assembler.new [.read [utf8 (str% "re")], .read [utf8 (str% "t")]]
      (.error (.exit 1 (str% "error at line 1: unrecognized line\n"))) ∧
    Assembler.new.readFrom .debug [utf8 (str% "re"), utf8 (str% "t")] =
      .ok ⟨.text, 1, { sections := { text := { bytes := [0xC3] } } }, []⟩ :=
  ⟨.stop _ _ _ _ (by decide +kernel), by decide +kernel⟩

end AT.Props
