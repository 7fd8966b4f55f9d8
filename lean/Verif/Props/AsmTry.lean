import Verif.Props.AsmStrict
/-!
# C85: which texts `try_parse_str` passes over

`ParseStr::try_parse_str` answers "not this construct" for some texts and refuses others.
-/

namespace AT.Props
open AT.Asm AT.AsmSpec AT.X64

/-- C85, sections: passed over exactly if the first word is not `section`; otherwise the declaration, or
what is wrong with it. -/
theorem C85_sections (s : Str) :
    (tryParseSection s = .ok none ↔ ∀ ts, ¬ Tokens s (str% "section" :: ts)) ∧
    (∀ x, tryParseSection s = .ok (some x) ↔ Tokens s [str% "section", sectName x]) ∧
    (∀ e, tryParseSection s = .error e ↔
      ∃ msg ts, e = .parseErr msg ∧ Tokens s (str% "section" :: ts) ∧ BadSection s msg) := by
  have hsome : ∀ x, tryParseSection s = .ok (some x) ↔ parseSectionStr s = .ok x := by
    intro x
    unfold parseSectionStr
    cases tryParseSection s with
    | error e => simp
    | ok o => cases o <;> simp [perr]
  have hnone : tryParseSection s = .ok none ↔ ∀ ts, ¬ Tokens s (str% "section" :: ts) := by
    constructor
    · intro h ts ht
      rw [tryParseSection, splitWs_of_tokens ht] at h
      cases ts with
      | nil => simp [perr] at h
      | cons name more =>
        simp only [ne_eq, not_true_eq_false, if_false, bind, Except.bind, pure, Except.pure, perr] at h
        repeat' split at h
        all_goals cases h
    · intro h
      obtain ⟨ts, ht⟩ := tokens_exists s
      have hs := splitWs_of_tokens ht
      cases ts with
      | nil => unfold tryParseSection; rw [hs]; rfl
      | cons t ts => exact section_other hs (fun e => h ts (e ▸ ht))
  refine ⟨hnone, fun x => (hsome x).trans ((C67_sections s).1 x), fun e => ⟨fun h => ?_, ?_⟩⟩
  · have hp : parseSectionStr s = .error e := by rw [parseSectionStr, h]
    obtain ⟨msg, rfl, hb⟩ := ((C67_sections s).2 e).1 hp
    have hn : ¬ ∀ ts, ¬ Tokens s (str% "section" :: ts) := fun hn => by rw [hnone.2 hn] at h; cases h
    obtain ⟨ts, ht⟩ := Classical.not_forall.mp hn
    exact ⟨msg, ts, rfl, Classical.not_not.mp ht, hb⟩
  · rintro ⟨msg, ts, rfl, ht, hb⟩
    have hp := badSection_parse hb
    unfold parseSectionStr at hp
    cases hx : tryParseSection s with
    | error e => rw [hx] at hp; simpa using hp
    | ok o =>
      cases o with
      | none => exact absurd ht (hnone.1 hx ts)
      | some x => rw [hx] at hp; cases hp

/-- C85, global symbols: passed over exactly if the first word is not `global`. -/
theorem C85_globals (s : Str) :
    (tryParseGlobal s = .ok none ↔ ∀ ts, ¬ Tokens s (str% "global" :: ts)) ∧
    (∀ x, tryParseGlobal s = .ok (some x) ↔ Tokens s [str% "global", x]) ∧
    (∀ e, tryParseGlobal s = .error e ↔
      ∃ msg ts, e = .parseErr msg ∧ Tokens s (str% "global" :: ts) ∧ BadGlobal s msg) := by
  have hsome : ∀ x, tryParseGlobal s = .ok (some x) ↔ parseGlobalStr s = .ok x := by
    intro x
    unfold parseGlobalStr
    cases tryParseGlobal s with
    | error e => simp [bind, Except.bind]
    | ok o => cases o <;> simp [perr, bind, Except.bind, pure, Except.pure]
  have hnone : tryParseGlobal s = .ok none ↔ ∀ ts, ¬ Tokens s (str% "global" :: ts) := by
    constructor
    · intro h ts ht
      rw [tryParseGlobal, splitWs_of_tokens ht] at h
      match ts with
      | [] => cases h
      | [_] => cases h
      | _ :: _ :: _ => cases h
    · intro h
      obtain ⟨ts, ht⟩ := tokens_exists s
      have hs := splitWs_of_tokens ht
      cases ts with
      | nil => unfold tryParseGlobal; rw [hs]; rfl
      | cons t ts => exact global_other hs (fun e => h ts (e ▸ ht))
  refine ⟨hnone, fun x => (hsome x).trans ((C67_globals s).1 x), fun e => ⟨fun h => ?_, ?_⟩⟩
  · have hp : parseGlobalStr s = .error e := by rw [parseGlobalStr, h]; rfl
    obtain ⟨msg, rfl, hb⟩ := ((C67_globals s).2 e).1 hp
    have hn : ¬ ∀ ts, ¬ Tokens s (str% "global" :: ts) := fun hn => by rw [hnone.2 hn] at h; cases h
    obtain ⟨ts, ht⟩ := Classical.not_forall.mp hn
    exact ⟨msg, ts, rfl, Classical.not_not.mp ht, hb⟩
  · rintro ⟨msg, ts, rfl, ht, hb⟩
    have hp := badGlobal_parse hb
    unfold parseGlobalStr at hp
    cases hx : tryParseGlobal s with
    | error e => rw [hx] at hp; simpa [bind, Except.bind] using hp
    | ok o =>
      cases o with
      | none => exact absurd ht (hnone.1 hx ts)
      | some x => rw [hx] at hp; cases hp

/-- C85, data: passed over exactly if it is not a directive, possibly after a label, with something
behind it. -/
theorem C85_data (s : Str) :
    (tryParseData s = .ok none ↔ ∀ lab w txt, ¬ DataForm s lab w txt) ∧
    (∀ d, tryParseData s = .ok (some d) ↔ ∃ w txt its, DataForm s d.label w txt ∧ Items txt its ∧
      Stored w its d.bytes) ∧
    (∀ e, tryParseData s = .error e ↔
      ∃ lab w txt msg, e = .parseErr msg ∧ DataForm s lab w txt ∧ BadItems w txt msg) := by
  have hsome : ∀ x, tryParseData s = .ok (some x) ↔ parseDataStr s = .ok x := by
    intro x
    unfold parseDataStr
    cases tryParseData s with
    | error e => simp [bind, Except.bind]
    | ok o => cases o <;> simp [perr, bind, Except.bind, pure, Except.pure]
  have hnone : tryParseData s = .ok none ↔ ∀ lab w txt, ¬ DataForm s lab w txt := by
    unfold tryParseData
    cases hp : splitParts s with
    | none =>
      refine ⟨fun _ lab w txt h => ?_, fun _ => rfl⟩
      obtain ⟨a, _, ha⟩ := parts_of_form h
      rw [hp] at ha; cases ha
    | some p =>
      obtain ⟨lab, a, txt⟩ := p
      refine ⟨fun h => ?_, fun h => absurd (form_of_parts hp) (h _ _ _)⟩
      simp only [bind, Except.bind] at h
      cases hl : dataLoop a txt.length txt <;> rw [hl] at h <;> cases h
  refine ⟨hnone, fun d => (hsome d).trans ((C67_data s).1 d), fun e => ⟨fun h => ?_, ?_⟩⟩
  · have hp : parseDataStr s = .error e := by rw [parseDataStr, h]; rfl
    obtain ⟨msg, rfl, hb⟩ := ((C67_data s).2 e).1 hp
    cases hb with
    | other hn => rw [hnone.2 hn] at h; cases h
    | items lab w txt _ hf hi => exact ⟨lab, w, txt, msg, rfl, hf, hi⟩
  · rintro ⟨lab, w, txt, msg, rfl, hf, hi⟩
    have hp := ((C67_data s).2 _).2 ⟨msg, rfl, .items lab w txt msg hf hi⟩
    unfold parseDataStr at hp
    cases hx : tryParseData s with
    | error e => rw [hx] at hp; simpa [bind, Except.bind] using hp
    | ok o =>
      cases o with
      | none => exact absurd hf (hnone.1 hx _ _ _)
      | some x => rw [hx] at hp; cases hp

/-- The words instructions begin with. -/
def opcodes : List Str := [str% "mov", str% "push", str% "ret", str% "syscall"]

/-- C85, instructions: passed over exactly if the first word is no opcode. -/
theorem C85_instructions (bd : Build) (s : Str) :
    (tryParseInstruction bd s = .ok none ↔ ∀ t more, Tokens s (t :: more) → t ∉ opcodes) ∧
    (∀ i, tryParseInstruction bd s = .ok (some i) ↔ ∃ x, InstLine bd s x ∧ i = assembled x) ∧
    (∀ msg, tryParseInstruction bd s = .error (.parseErr msg) ↔
      BadInst bd s msg ∧ ∃ t more, Tokens s (t :: more) ∧ t ∈ opcodes) ∧
    (∀ e, (∀ msg, e ≠ .parseErr msg) → (tryParseInstruction bd s = .error e ↔
      e = .panic ∧ bd = .debug ∧ ∃ dst src ts, MovLine s dst src ∧
        ((∃ d : Reg64, dst = d.asmName) ∨ (∃ d : Reg32, dst = d.asmName) ∨ (∃ d : Reg16, dst = d.asmName)) ∧
        Spells src ts ∧ Overflow ts)) := by
  have hsome : ∀ x, tryParseInstruction bd s = .ok (some x) ↔ parseInstructionStr bd s = .ok x := by
    intro x
    unfold parseInstructionStr
    cases tryParseInstruction bd s with
    | error e => simp [bind, Except.bind]
    | ok o => cases o <;> simp [perr, bind, Except.bind, pure, Except.pure]
  have hnone : tryParseInstruction bd s = .ok none ↔ ∀ t more, Tokens s (t :: more) → t ∉ opcodes := by
    obtain ⟨ts, ht⟩ := tokens_exists s
    have hs := splitWs_of_tokens ht
    cases ts with
    | nil =>
      refine ⟨fun _ t more h' => ?_, fun _ => by rw [tryParseInstruction, hs]; rfl⟩
      have := h'.det ht; simp at this
    | cons t ts =>
      have hmap : ∀ r : Res Instruction, (some <$> r : Res (Option Instruction)) ≠ .ok none := by
        intro r; cases r <;> simp [Functor.map, Except.map]
      constructor
      · intro h t' more h' hm
        have e := h'.det ht
        simp only [List.cons.injEq] at e
        obtain ⟨rfl, rfl⟩ := e
        rw [tryParseInstruction, hs] at h
        simp only at h
        simp only [opcodes, List.mem_cons, List.not_mem_nil, or_false] at hm
        rcases hm with rfl | rfl | rfl | rfl
        · exact hmap _ h
        · exact hmap _ h
        · exact hmap _ h
        · exact hmap _ h
      · intro h
        have := h t ts ht
        simp only [opcodes, List.mem_cons, List.not_mem_nil, or_false, not_or] at this
        obtain ⟨h1, h2, h3, h4⟩ := this
        rw [tryParseInstruction, hs]
        simp only [h1, h2, h3, h4, if_false]
        rfl
  have herr : ∀ e, tryParseInstruction bd s = .error e ↔
      parseInstructionStr bd s = .error e ∧ tryParseInstruction bd s ≠ .ok none := by
    intro e
    unfold parseInstructionStr
    cases tryParseInstruction bd s with
    | error e => simp [bind, Except.bind]
    | ok o => cases o <;> simp [perr, bind, Except.bind, pure, Except.pure]
  obtain ⟨h1, h2, h3⟩ := C67_instructions bd s
  refine ⟨hnone, fun i => (hsome i).trans (h1 i), fun msg => ?_, fun e he => ?_⟩
  · rw [herr, h2, ne_eq, hnone]
    refine and_congr_right fun _ => ?_
    simp only [Classical.not_forall, Classical.not_not, exists_prop]
  · rw [← h3 e he, herr]
    refine ⟨fun h => h.1, fun h => ⟨h, fun hn => ?_⟩⟩
    rw [parseInstructionStr, hn] at h
    cases h
    exact he _ rfl

example : tryParseSection (str% "sections .text") = .ok none ∧
    tryParseSection (str% "section .foo") = .error (.parseErr (str% "unrecognized section .foo")) ∧
    tryParseGlobal (str% "globl _main") = .ok none ∧ tryParseData (str% "msg 1, 2") = .ok none ∧
    tryParseData (str% "db 256") ≠ .ok none ∧ tryParseInstruction .debug (str% "add rax, 1") = .ok none := by
  decide +kernel

end AT.Props
