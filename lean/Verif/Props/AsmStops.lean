import Verif.Props.AsmInst
/-!
# Property C61: how parsing a line can stop
-/

namespace AT.Props
open AT.Asm AT.AsmSpec AT.X64
open X86 (OperandsOk)

/-- The computation stops, if it does, with a parse error. -/
def OnlyParse {α : Type} (r : Res α) : Prop := ∀ e, r = .error e → ∃ m, e = .parseErr m

theorem OnlyParse.ok {α : Type} (a : α) : OnlyParse (.ok a : Res α) := by intro e h; simp at h
theorem OnlyParse.pure {α : Type} (a : α) : OnlyParse (pure a : Res α) := OnlyParse.ok a
theorem OnlyParse.perr {α : Type} (m : Str) : OnlyParse (perr m : Res α) := by
  intro e h; cases h; exact ⟨m, rfl⟩
theorem OnlyParse.bind {α β : Type} {r : Res α} {f : α → Res β} (h : OnlyParse r)
    (hf : ∀ a, OnlyParse (f a)) : OnlyParse (r >>= f) := by
  intro e he
  cases hr : r with
  | error e' => rw [hr] at he; cases he; exact h e hr
  | ok a => rw [hr] at he; exact hf a e he
theorem OnlyParse.map {α β : Type} {r : Res α} {f : α → β} (h : OnlyParse r) : OnlyParse (f <$> r) := by
  intro e he
  cases hr : r with
  | error e' => rw [hr] at he; cases he; exact h e hr
  | ok a => rw [hr] at he; cases he

theorem section_only (s : Str) : OnlyParse (tryParseSection s) := by
  unfold tryParseSection
  split
  · exact .pure _
  · split
    · exact .pure _
    · split
      · exact .perr _
      · intro e h
        simp only [bind, Except.bind, pure, Except.pure] at h
        repeat' split at h
        all_goals first
          | (cases h; done)
          | (cases h; exact ⟨_, rfl⟩)
          | (rename_i hp; cases hp; cases h; exact ⟨_, rfl⟩)

theorem global_only (s : Str) : OnlyParse (tryParseGlobal s) := by
  unfold tryParseGlobal
  split
  · exact .pure _
  · split
    · exact .pure _
    · split
      · exact .perr _
      · exact .pure _
      · exact .perr _

theorem parseU64_only (s : Str) : OnlyParse (parseU64 s) := by
  unfold parseU64
  split
  · exact .pure _
  · exact .perr _

theorem dataNext_only {s : Str} {r : Res (DataDef × Str)} (h : dataNext s = some r) : OnlyParse r := by
  unfold dataNext at h
  split at h
  · simp at h
  · split at h
    · cases h; exact .perr _
    · cases h; exact .ok _
  · split at h
    split at h
    · cases h; exact .ok _
    · rename_i e he
      cases h
      intro e' h'
      cases h'
      exact parseU64_only _ e he

theorem write_only (d : DataDef) (a : Align) : OnlyParse (d.write a) := by
  cases d with
  | str s => exact .pure _
  | num n =>
    show OnlyParse (writeNum n a)
    unfold writeNum
    split
    · split
      · exact .pure _
      · exact .perr _
    · split
      · exact .pure _
      · exact .perr _
    · split
      · exact .pure _
      · exact .perr _
    · exact .pure _

theorem dataLoop_only (a : Align) (fuel : Nat) (s : Str) : OnlyParse (dataLoop a fuel s) := by
  induction fuel generalizing s with
  | zero => exact .pure _
  | succ n ih =>
    unfold dataLoop
    split
    · exact .pure _
    · rename_i e he
      exact (fun e' h' => by cases h'; exact dataNext_only he e rfl)
    · exact .bind (write_only _ _) fun _ => .bind (ih _) fun _ => .pure _

theorem data_only (s : Str) : OnlyParse (tryParseData s) := by
  unfold tryParseData
  split
  · exact .pure _
  · exact .bind (dataLoop_only _ _ _) fun _ => .pure _

theorem new_only (x : Inst) (h : OperandsOk x) : OnlyParse (Instruction.new x) := by
  obtain ⟨bs, ⟨b, hb, _⟩, _⟩ := C06_encodes x h
  unfold Instruction.new
  rw [hb]
  exact .ok _

theorem push_only (s : Str) : OnlyParse (parsePush s) := by
  unfold parsePush
  split
  · exact .perr _
  · split
    · exact .perr _
    · split
      · exact .perr _
      · split
        · exact new_only _ trivial
        · split
          · exact new_only _ trivial
          · split
            · exact new_only _ trivial
            · exact .perr _

/-- What a line that fails without a parse error is. -/
theorem line_stop {bd : Build} {s : Str} {e : Stop} (h : parseLine bd s = .error e)
    (he : ∀ m, e ≠ .parseErr m) : ∃ c, Code s c ∧ ¬ IsData c ∧ parseMov bd c = .error e := by
  have no : ∀ {α : Type} {r : Res α}, OnlyParse r → r ≠ .error e := fun ho hr =>
    let ⟨m, hm⟩ := ho e hr; he m hm
  obtain ⟨c, hc⟩ : ∃ c, Code s c := ⟨_, code_strip s⟩
  refine ⟨c, hc, ?_⟩
  rw [parseLine_eq, stripComment_eq hc] at h
  unfold parseCode at h
  cases ht : splitWs c with
  | nil => rw [ht] at h; simp [pure, Except.pure] at h
  | cons t rest =>
    rw [ht] at h
    simp only at h
    cases hsec : tryParseSection c with
    | error e' => rw [hsec] at h; cases h; exact absurd hsec (no (section_only c))
    | ok o =>
      rw [hsec] at h
      cases o with
      | some x => simp [bind, Except.bind, pure, Except.pure] at h
      | none =>
        simp only [bind, Except.bind] at h
        cases hg : tryParseGlobal c with
        | error e' => rw [hg] at h; cases h; exact absurd hg (no (global_only c))
        | ok o =>
          rw [hg] at h
          cases o with
          | some x => simp [pure, Except.pure] at h
          | none =>
            simp only at h
            split at h
            · split at h
              · simp [pure, Except.pure] at h
              · cases h; exact absurd rfl (he _)
            · cases hd : tryParseData c with
              | error e' => rw [hd] at h; cases h; exact absurd hd (no (data_only c))
              | ok o =>
                rw [hd] at h
                cases o with
                | some x => simp [pure, Except.pure] at h
                | none =>
                  simp only at h
                  have hnd : splitParts c = none := by
                    unfold tryParseData at hd
                    cases hp : splitParts c with
                    | none => rfl
                    | some p =>
                      rw [hp] at hd
                      obtain ⟨lab, a, txt⟩ := p
                      simp only [bind, Except.bind, pure, Except.pure] at hd
                      split at hd <;> simp at hd
                  cases hi : tryParseInstruction bd c with
                  | ok o =>
                    rw [hi] at h
                    cases o with
                    | some x => simp [pure, Except.pure] at h
                    | none => cases h; exact absurd rfl (he _)
                  | error e' =>
                    rw [hi] at h
                    cases h
                    unfold tryParseInstruction at hi
                    rw [ht] at hi
                    simp only at hi
                    split at hi
                    · rename_i hmov
                      subst hmov
                      refine ⟨?_, ?_⟩
                      · exact (splitParts_none (splitWs_iff.1 ht) (by decide) (by decide) (by decide)).1 hnd
                      · cases hm : parseMov bd c with
                        | ok i => rw [hm] at hi; cases hi
                        | error e' => rw [hm] at hi; cases hi; rfl
                    · split at hi
                      · exact absurd hi (no (push_only c).map)
                      · split at hi
                        · exact absurd hi (no (new_only .ret trivial).map)
                        · split at hi
                          · exact absurd hi (no (new_only .syscall trivial).map)
                          · cases hi

theorem expr_stop {bd : Build} {s : Str} {e : Stop} (h : tryParseExpr bd s = .error e)
    (he : ∀ m, e ≠ .parseErr m) : e = .panic := by
  have hc := expr_cases bd s
  rw [h] at hc
  generalize hr : (Except.error e : Res (Option UInt64)) = r at hc
  cases hc with
  | nothing => simp at hr
  | bad => cases hr; exact absurd rfl (he _)
  | one a v ht hn => simp at hr
  | op sign a b extra x y ht hx hy =>
    cases sign with
    | true => rw [evalOp_add] at hr; split at hr <;> cases hr; rfl
    | false => rw [evalOp_sub] at hr; split at hr <;> cases hr; rfl

theorem mov_stop {bd : Build} {dst src : Str} {e : Stop} (h : movArgs bd dst src = .error e)
    (he : ∀ m, e ≠ .parseErr m) : tryParseExpr bd src = .error e ∧
      ((∃ d : Reg64, dst = d.asmName) ∨ (∃ d : Reg32, dst = d.asmName) ∨ (∃ d : Reg16, dst = d.asmName)) := by
  have no : ∀ {α : Type} {r : Res α}, OnlyParse r → r ≠ .error e := fun ho hr =>
    let ⟨m, hm⟩ := ho e hr; he m hm
  unfold movArgs at h
  split at h
  · rename_i d hd
    refine ⟨?_, .inl ⟨d, reg64_name hd⟩⟩
    unfold parseMov64 at h
    cases hx : tryParseExpr bd src with
    | error e' => rw [hx] at h; cases h; rfl
    | ok o =>
      rw [hx] at h
      exfalso
      refine absurd h (no ?_)
      refine .bind (.ok o) fun o => ?_
      split
      · exact new_only _ trivial
      · split
        · exact new_only _ trivial
        · exact .bind (new_only _ trivial) fun _ => .pure _
  · split at h
    · rename_i d hd
      refine ⟨?_, .inr (.inl ⟨d, reg32_name hd⟩)⟩
      unfold parseMov32 at h
      cases hx : tryParseExpr bd src with
      | error e' => rw [hx] at h; cases h; rfl
      | ok o =>
        rw [hx] at h
        exfalso
        refine absurd h (no ?_)
        refine .bind (.ok o) fun o => ?_
        split
        · split
          · exact new_only _ trivial
          · exact .perr _
        · split
          · exact new_only _ trivial
          · exact .bind (new_only _ trivial) fun _ => .pure _
    · split at h
      · rename_i d hd
        refine ⟨?_, .inr (.inr ⟨d, reg16_name hd⟩)⟩
        unfold parseMov16 at h
        cases hx : tryParseExpr bd src with
        | error e' => rw [hx] at h; cases h; rfl
        | ok o =>
          rw [hx] at h
          exfalso
          refine absurd h (no ?_)
          refine .bind (.ok o) fun o => ?_
          split
          · split
            · exact new_only _ trivial
            · exact .perr _
          · split
            · exact new_only _ trivial
            · exact .perr _
      · cases h; exact absurd rfl (he _)

/-- C61: every line is parsed, rejected with a message, or - never in a release build - panics. -/
theorem C61_never_exits (bd : Build) (s : Str) :
    (∃ l, parseLine bd s = .ok l) ∨ (∃ msg, parseLine bd s = .error (.parseErr msg)) ∨
    (bd = .debug ∧ parseLine bd s = .error .panic) := by
  cases h : parseLine bd s with
  | ok l => exact .inl ⟨l, rfl⟩
  | error e =>
    refine .inr ?_
    by_cases he : ∃ m, e = .parseErr m
    · obtain ⟨m, rfl⟩ := he; exact .inl ⟨m, rfl⟩
    · have he' : ∀ m, e ≠ .parseErr m := fun m hm => he ⟨m, hm⟩
      obtain ⟨c, hc, _, hm⟩ := line_stop h he'
      obtain ⟨dst, src, _, ha⟩ := mov_inv' hm (by intro m hm; cases hm; exact he' m rfl)
      obtain ⟨hx, _⟩ := mov_stop ha he'
      have hp := expr_stop hx he'
      subst hp
      exact .inr ⟨((C38_panics bd src).1 hx).1, rfl⟩

/-- C61: exactly which lines panic: `mov` to a register of a sum or difference that overflows the
signed 64-bit computation, in a debug build. -/
theorem C61_panics (bd : Build) (s : Str) :
    parseLine bd s = .error .panic ↔ bd = .debug ∧ ∃ c dst src ts, Code s c ∧ MovLine c dst src ∧
      ((∃ d : Reg64, dst = d.asmName) ∨ (∃ d : Reg32, dst = d.asmName) ∨ (∃ d : Reg16, dst = d.asmName)) ∧
      Spells src ts ∧ Overflow ts := by
  constructor
  · intro h
    obtain ⟨c, hc, _, hm⟩ := line_stop h (by simp)
    obtain ⟨dst, src, hl, ha⟩ := mov_inv' hm (by simp)
    obtain ⟨hx, hd⟩ := mov_stop ha (by simp)
    obtain ⟨hb, ts, h1, h2⟩ := (C38_panics bd src).1 hx
    exact ⟨hb, c, dst, src, ts, hc, hl, hd, h1, h2⟩
  · rintro ⟨hb, c, dst, src, ts, hc, hl, hd, h1, h2⟩
    have hx := (C38_panics bd src).2 ⟨hb, ts, h1, h2⟩
    rcases hd with ⟨d, rfl⟩ | ⟨d, rfl⟩ | ⟨d, rfl⟩
    · rw [mov_line_eq hc hl (mov64_notData hl), movArgs_64]; unfold parseMov64; rw [hx]; rfl
    · rw [mov_line_eq hc hl (mov32_notData hl), movArgs_32]; unfold parseMov32; rw [hx]; rfl
    · rw [mov_line_eq hc hl (mov16_notData hl), movArgs_16]; unfold parseMov16; rw [hx]; rfl

/-- A line that panics in a debug build. -/
example : parseLine .debug (str% "mov rax, 0x7fffffffffffffff + 1") = .error .panic ∧
    ∃ l, parseLine .release (str% "mov rax, 0x7fffffffffffffff + 1") = .ok l := by
  refine ⟨by decide +kernel, ?_⟩
  rcases C61_never_exits .release (str% "mov rax, 0x7fffffffffffffff + 1") with h | ⟨m, h⟩ | h
  · exact h
  · exfalso; revert h; generalize hr : parseLine .release (str% "mov rax, 0x7fffffffffffffff + 1") = r
    have : r.isOk = true := by rw [← hr]; decide +kernel
    intro h; rw [h] at this; cases this
  · exact absurd h.1 (by simp)

end AT.Props
