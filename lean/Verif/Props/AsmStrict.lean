import Verif.Model.AsmParseStr
import Verif.Spec.AsmStrict
import Verif.Props.AsmErrors
import Verif.Props.AsmStops
/-!
# Property C67: single constructs, parsed on their own
-/

namespace AT.Props
open AT.Asm AT.AsmSpec AT.X64

/-! ## Numbers and registers -/

/-- C67, numbers: exactly the numbers in range are accepted; everything else is reported. -/
theorem C67_numbers (s : Str) :
    ((∀ v : UInt64, parseU64 s = .ok v ↔ Number s v.toNat) ∧
      ((∀ n, Number s n → 2 ^ 64 ≤ n) ↔ parseU64 s = .error (.parseErr (s ++ str% " is invalid u64")))) ∧
    ((∀ v : UInt32, parseU32Str s = .ok v ↔ Number s v.toNat) ∧
      ((∀ n, Number s n → 2 ^ 32 ≤ n) ↔ parseU32Str s = .error (.parseErr (s ++ str% " is invalid u32")))) ∧
    ((∀ v : UInt16, parseU16Str s = .ok v ↔ Number s v.toNat) ∧
      ((∀ n, Number s n → 2 ^ 16 ≤ n) ↔ parseU16Str s = .error (.parseErr (s ++ str% " is invalid u16")))) ∧
    ((∀ v : UInt8, parseU8Str s = .ok v ↔ Number s v.toNat) ∧
      ((∀ n, Number s n → 2 ^ 8 ≤ n) ↔ parseU8Str s = .error (.parseErr (s ++ str% " is invalid u8")))) := by
  have h32 : (∀ n, Number s n → 2 ^ 32 ≤ n) ↔ tryParseU32 s = none := by
    rw [← tryParseNum_none (by decide), tryParseU32, Option.map_eq_none_iff]
  have h16 : (∀ n, Number s n → 2 ^ 16 ≤ n) ↔ tryParseU16 s = none := by
    rw [← tryParseNum_none (by decide), tryParseU16, Option.map_eq_none_iff]
  have h8 : (∀ n, Number s n → 2 ^ 8 ≤ n) ↔ tryParseU8 s = none := by
    rw [← tryParseNum_none (by decide), tryParseU8, Option.map_eq_none_iff]
  refine ⟨⟨(C37_parse_u64 s).1, (C37_parse_u64 s).2, fun h n hn => ?_⟩, ⟨fun v => ?_, ?_⟩, ⟨fun v => ?_, ?_⟩,
    ⟨fun v => ?_, ?_⟩⟩
  · apply Nat.le_of_not_lt
    intro hlt
    rw [((C37_parse_u64 s).1 (UInt64.ofNat n)).2 (number_u64 hn hlt)] at h
    cases h
  · rw [← (C37_numbers s).2.1 v]; unfold parseU32Str
    cases tryParseU32 s <;> simp [perr, pure, Except.pure]
  · rw [h32]; unfold parseU32Str
    cases tryParseU32 s <;> simp [perr, pure, Except.pure]
  · rw [← (C37_numbers s).2.2.1 v]; unfold parseU16Str
    cases tryParseU16 s <;> simp [perr, pure, Except.pure]
  · rw [h16]; unfold parseU16Str
    cases tryParseU16 s <;> simp [perr, pure, Except.pure]
  · rw [← (C37_numbers s).2.2.2 v]; unfold parseU8Str
    cases tryParseU8 s <;> simp [perr, pure, Except.pure]
  · rw [h8]; unfold parseU8Str
    cases tryParseU8 s <;> simp [perr, pure, Except.pure]

/-- C67, registers: exactly the names are accepted; everything else is reported. -/
theorem C67_registers (s : Str) :
    ((∀ r : Reg64, parseReg64Str s = .ok r ↔ s = r.asmName) ∧
      ((∀ r : Reg64, s ≠ r.asmName) ↔
        parseReg64Str s = .error (.parseErr (str% "error: invalid 64bit register : " ++ s)))) ∧
    ((∀ r : Reg32, parseReg32Str s = .ok r ↔ s = r.asmName) ∧
      ((∀ r : Reg32, s ≠ r.asmName) ↔
        parseReg32Str s = .error (.parseErr (str% "error: invalid 32bit register : " ++ s)))) ∧
    ((∀ r : Reg16, parseReg16Str s = .ok r ↔ s = r.asmName) ∧
      ((∀ r : Reg16, s ≠ r.asmName) ↔
        parseReg16Str s = .error (.parseErr (str% "error: invalid 16bit register : " ++ s)))) := by
  refine ⟨⟨fun r => ⟨fun h => ?_, ?_⟩, ?_⟩, ⟨fun r => ⟨fun h => ?_, ?_⟩, ?_⟩, ⟨fun r => ⟨fun h => ?_, ?_⟩, ?_⟩⟩
  · apply reg64_name
    unfold parseReg64Str at h
    cases hr : parseReg64 s <;> simp_all [perr, pure, Except.pure]
  · rintro rfl; rw [parseReg64Str, parse_asmName.1 r]; rfl
  · rw [← reg64_none, parseReg64Str]
    cases parseReg64 s <;> simp [perr, pure, Except.pure]
  · apply reg32_name
    unfold parseReg32Str at h
    cases hr : parseReg32 s <;> simp_all [perr, pure, Except.pure]
  · rintro rfl; rw [parseReg32Str, parse_asmName.2.1 r]; rfl
  · rw [← reg32_none, parseReg32Str]
    cases parseReg32 s <;> simp [perr, pure, Except.pure]
  · apply reg16_name
    unfold parseReg16Str at h
    cases hr : parseReg16 s <;> simp_all [perr, pure, Except.pure]
  · rintro rfl; rw [parseReg16Str, parse_asmName.2.2 r]; rfl
  · rw [← reg16_none, parseReg16Str]
    cases parseReg16 s <;> simp [perr, pure, Except.pure]

/-! ## Constants -/

/-- C67, the tokens of a constant: a sign, or a number below 2^64; nothing else is one.  The strict
parser of tokens is not implemented: it panics on every text, also on tokens. -/
theorem C67_tokens (s : Str) :
    (Token.tryParse s = some .plus ↔ s = ['+']) ∧ (Token.tryParse s = some .minus ↔ s = ['-']) ∧
    (∀ v, Token.tryParse s = some (.num v) ↔ Number s v.toNat) ∧
    (Token.tryParse s = none ↔ s ≠ ['+'] ∧ s ≠ ['-'] ∧ ∀ n, Number s n → 2 ^ 64 ≤ n) ∧
    parseTokenStr s = .error .panic := by
  refine ⟨token_plus s, token_minus s, token_num s, ?_, rfl⟩
  constructor
  · intro h
    refine ⟨fun e => ?_, fun e => ?_, fun n hn => ?_⟩
    · rw [(token_plus s).2 e] at h; cases h
    · rw [(token_minus s).2 e] at h; cases h
    · refine Nat.le_of_not_lt fun hlt => ?_
      have e : (UInt64.ofNat n).toNat = n := by
        rw [UInt64.toNat_ofNat', Nat.mod_eq_of_lt hlt]
      rw [(token_num s (UInt64.ofNat n)).2 (by rwa [e])] at h; cases h
  · rintro ⟨h1, h2, h3⟩
    cases h : Token.tryParse s with
    | none => rfl
    | some x =>
      cases x with
      | plus => exact absurd ((token_plus s).1 h) h1
      | minus => exact absurd ((token_minus s).1 h) h2
      | num v =>
        have := h3 _ ((token_num s v).1 h)
        have := v.toNat_lt
        omega

example : Token.tryParse (str% "0x1F") = some (.num 31) ∧ Token.tryParse (str% "-5") = none ∧
    Token.tryParse (str% "18446744073709551616") = none := by decide +kernel

/-- C67, narrower readings of a constant: as 32 or 16 bits it has the same value, or none when it does not
fit. -/
theorem C67_narrow (e : UInt64) :
    (∀ m, exprAsU32 e = some m ↔ m.toNat = e.toNat) ∧ (exprAsU32 e = none ↔ 2 ^ 32 ≤ e.toNat) ∧
    (∀ m, exprAsU16 e = some m ↔ m.toNat = e.toNat) ∧ (exprAsU16 e = none ↔ 2 ^ 16 ≤ e.toNat) := by
  refine ⟨asU32_some e, ?_, asU16_some e, ?_⟩
  · unfold exprAsU32
    split
    · rename_i h; simp; omega
    · rename_i h; simp; omega
  · unfold exprAsU16
    split
    · rename_i h; simp; omega
    · rename_i h; simp; omega

example : exprAsU32 0xFFFFFFFF = some 0xFFFFFFFF ∧ exprAsU32 0x100000000 = none ∧
    exprAsU16 65535 = some 65535 ∧ exprAsU16 65536 = none := by decide +kernel

/-- C67, constants: accepted with the value, rejected with the message, or arithmetic overflow in a
debug build. -/
theorem C67_constants (bd : Build) (s : Str) :
    (∀ n, parseExprStr bd s = .ok n ↔ Const bd s n) ∧
    (∀ msg, parseExprStr bd s = .error (.parseErr msg) ↔
      (NotConst s ∧ msg = str% "invalid expr format") ∨ BadConst s msg) ∧
    (parseExprStr bd s = .error .panic ↔ bd = .debug ∧ ∃ ts, Spells s ts ∧ Overflow ts) := by
  refine ⟨fun n => ?_, fun msg => ?_, ?_⟩
  · rw [← const_iff]
    unfold parseExprStr
    cases tryParseExpr bd s with
    | error e => simp [bind, Except.bind]
    | ok o => cases o <;> simp [bind, Except.bind, perr, pure, Except.pure]
  · constructor
    · intro h
      unfold parseExprStr at h
      cases hx : tryParseExpr bd s with
      | error e =>
        rw [hx] at h; cases h
        exact .inr (expr_badConst hx)
      | ok o =>
        rw [hx] at h
        cases o with
        | some n => cases h
        | none => cases h; exact .inl ⟨(notConst_iff bd s).1 hx, rfl⟩
    · rintro (⟨h, rfl⟩ | h)
      · rw [parseExprStr, (notConst_iff bd s).2 h]; rfl
      · rw [parseExprStr, badConst_expr h]; rfl
  · rw [← C38_panics]
    unfold parseExprStr
    cases tryParseExpr bd s with
    | error e => simp [bind, Except.bind]
    | ok o => cases o <;> simp [bind, Except.bind, perr, pure, Except.pure]

/-! ## Sections and global symbols -/

theorem badSection_parse {s msg : Str} (h : BadSection s msg) :
    parseSectionStr s = .error (.parseErr msg) := by
  unfold parseSectionStr
  cases h with
  | other h =>
    obtain ⟨ts, ht⟩ := tokens_exists s
    have hs := splitWs_of_tokens ht
    cases ts with
    | nil => unfold tryParseSection; rw [hs]; rfl
    | cons t ts => rw [section_other hs (fun e => h ts (e ▸ ht))]; rfl
  | noName ht =>
    unfold tryParseSection; rw [splitWs_of_tokens ht]; rfl
  | badName name more ht hn =>
    have h1 : name ≠ str% ".text" := hn .text
    have h2 : name ≠ str% ".data" := hn .data
    have h3 : name ≠ str% ".bss" := hn .bss
    unfold tryParseSection; rw [splitWs_of_tokens ht]
    simp only [ne_eq, not_true_eq_false, if_false, h1, h2, h3]
    rfl
  | extra x t more ht =>
    unfold tryParseSection; rw [splitWs_of_tokens ht]
    cases x <;> rfl

theorem section_cases (s : Str) : (∃ x, Tokens s [str% "section", sectName x]) ∨ ∃ msg, BadSection s msg := by
  obtain ⟨ts, ht⟩ := tokens_exists s
  cases ts with
  | nil => exact .inr ⟨_, .other fun ts h => by have := h.det ht; simp at this⟩
  | cons t ts =>
    by_cases h1 : t = str% "section"
    · subst h1
      cases ts with
      | nil => exact .inr ⟨_, .noName ht⟩
      | cons name more =>
        by_cases hn : ∃ x, name = sectName x
        · obtain ⟨x, rfl⟩ := hn
          cases more with
          | nil => exact .inl ⟨x, ht⟩
          | cons u more => exact .inr ⟨_, .extra x u more ht⟩
        · exact .inr ⟨_, .badName name more ht fun x hx => hn ⟨x, hx⟩⟩
    · exact .inr ⟨_, .other fun ts' h => by
        have := h.det ht
        simp only [List.cons.injEq] at this
        exact h1 this.1.symm⟩

theorem section_good {s : Str} {x : Asm.Section} (h : Tokens s [str% "section", sectName x]) :
    parseSectionStr s = .ok x := by
  unfold parseSectionStr tryParseSection
  rw [splitWs_of_tokens h]
  cases x <;> rfl

/-- C67, sections. -/
theorem C67_sections (s : Str) :
    (∀ x, parseSectionStr s = .ok x ↔ Tokens s [str% "section", sectName x]) ∧
    (∀ e, parseSectionStr s = .error e ↔ ∃ msg, e = .parseErr msg ∧ BadSection s msg) := by
  rcases section_cases s with ⟨x, hx⟩ | ⟨msg, hm⟩
  · refine ⟨fun y => ⟨fun h => ?_, section_good⟩, fun e => ⟨fun h => ?_, ?_⟩⟩
    · rw [section_good hx] at h; cases h; exact hx
    · rw [section_good hx] at h; cases h
    · rintro ⟨msg, _, hm⟩
      have := badSection_parse hm
      rw [section_good hx] at this; cases this
  · refine ⟨fun y => ⟨fun h => ?_, section_good⟩, fun e => ⟨fun h => ?_, ?_⟩⟩
    · rw [badSection_parse hm] at h; cases h
    · rw [badSection_parse hm] at h; cases h; exact ⟨_, rfl, hm⟩
    · rintro ⟨m, rfl, h⟩; exact badSection_parse h

theorem badGlobal_parse {s msg : Str} (h : BadGlobal s msg) :
    parseGlobalStr s = .error (.parseErr msg) := by
  unfold parseGlobalStr
  cases h with
  | other h =>
    obtain ⟨ts, ht⟩ := tokens_exists s
    have hs := splitWs_of_tokens ht
    cases ts with
    | nil => unfold tryParseGlobal; rw [hs]; rfl
    | cons t ts => rw [global_other hs (fun e => h ts (e ▸ ht))]; rfl
  | noName ht =>
    unfold tryParseGlobal; rw [splitWs_of_tokens ht]; rfl
  | extra name t more ht =>
    unfold tryParseGlobal; rw [splitWs_of_tokens ht]; rfl

theorem global_cases (s : Str) : (∃ x, Tokens s [str% "global", x]) ∨ ∃ msg, BadGlobal s msg := by
  obtain ⟨ts, ht⟩ := tokens_exists s
  cases ts with
  | nil => exact .inr ⟨_, .other fun ts h => by have := h.det ht; simp at this⟩
  | cons t ts =>
    by_cases h1 : t = str% "global"
    · subst h1
      cases ts with
      | nil => exact .inr ⟨_, .noName ht⟩
      | cons name more =>
        cases more with
        | nil => exact .inl ⟨name, ht⟩
        | cons u more => exact .inr ⟨_, .extra name u more ht⟩
    · exact .inr ⟨_, .other fun ts' h => by
        have := h.det ht
        simp only [List.cons.injEq] at this
        exact h1 this.1.symm⟩

theorem global_good {s x : Str} (h : Tokens s [str% "global", x]) : parseGlobalStr s = .ok x := by
  unfold parseGlobalStr tryParseGlobal
  rw [splitWs_of_tokens h]
  rfl

/-- C67, global symbols. -/
theorem C67_globals (s : Str) :
    (∀ x, parseGlobalStr s = .ok x ↔ Tokens s [str% "global", x]) ∧
    (∀ e, parseGlobalStr s = .error e ↔ ∃ msg, e = .parseErr msg ∧ BadGlobal s msg) := by
  rcases global_cases s with ⟨x, hx⟩ | ⟨msg, hm⟩
  · refine ⟨fun y => ⟨fun h => ?_, global_good⟩, fun e => ⟨fun h => ?_, ?_⟩⟩
    · rw [global_good hx] at h; cases h; exact hx
    · rw [global_good hx] at h; cases h
    · rintro ⟨msg, _, hm⟩
      have := badGlobal_parse hm
      rw [global_good hx] at this; cases this
  · refine ⟨fun y => ⟨fun h => ?_, global_good⟩, fun e => ⟨fun h => ?_, ?_⟩⟩
    · rw [badGlobal_parse hm] at h; cases h
    · rw [badGlobal_parse hm] at h; cases h; exact ⟨_, rfl, hm⟩
    · rintro ⟨m, rfl, h⟩; exact badGlobal_parse h

/-! ## Data -/

theorem parts_of_form {c : Str} {lab : Option Str} {w : Nat} {txt : Str} (h : DataForm c lab w txt) :
    ∃ a, alignSize a = w ∧ splitParts c = some (lab, a, txt) := by
  cases h with
  | plain w0 dir w1 txt w2 w hd h0 hn1 h1 hnt hs he h2 =>
    exact parts_of_line (.plain w0 dir w1 txt w2 w hd h0 hn1 h1 hnt hs he h2)
  | labelled w0 l w1 dir w2 txt w3 w hln hls hlno hd h0 hn1 h1 hn2 h2 hnt hs he h3 =>
    obtain ⟨a, ha, hsz⟩ := directive_align hd
    obtain ⟨hdn, hds⟩ := solid_directive hd
    refine ⟨a, hsz, ?_⟩
    have hm : EndsSolid (dir ++ w2 ++ txt) := ends_append hnt he
    have hms : StartsSolid (dir ++ w2 ++ txt) := by
      rw [List.append_assoc]; exact starts_append hdn hds
    have ht : trim (w0 ++ l ++ w1 ++ dir ++ w2 ++ txt ++ w3) = l ++ w1 ++ (dir ++ w2 ++ txt) := by
      have := trim_eq (m := l ++ w1 ++ (dir ++ w2 ++ txt)) h0 h3
        (by rw [List.append_assoc]; exact starts_append hln hls)
        (ends_append (by simp [hdn]) hm)
      simpa only [List.append_assoc] using this
    unfold splitParts
    rw [trim_trim, ht, split_ws_eq hls h1 hn1 hms hm]
    simp only [(alignOf_none l).2 hlno, split_ws_eq hds h2 hn2 hs he, ha]

theorem form_of_parts {c : Str} {lab : Option Str} {a : Align} {txt : Str}
    (h : splitParts c = some (lab, a, txt)) : DataForm c lab (alignSize a) txt := by
  obtain ⟨w0, w3, hc, hb0, hb3, hss, hee⟩ := trim_split c
  unfold splitParts at h
  rw [trim_trim] at h
  cases hsp : splitWhitespaceOnce (trim c) with
  | none => rw [hsp] at h; simp at h
  | some p =>
    obtain ⟨l, r⟩ := p
    obtain ⟨w1, hw1n, hw1, htrim, hls, hln, hrn, hrs, hre⟩ := split_ws_inv hss hee hsp
    rw [hsp] at h
    simp only at h
    cases hal : alignOf l with
    | some a' =>
      rw [hal] at h
      simp only [Option.some.injEq, Prod.mk.injEq] at h
      obtain ⟨rfl, rfl, rfl⟩ := h
      rw [hc, htrim]
      have := DataForm.plain w0 l w1 r w3 (alignSize a') ((alignOf_iff l a').1 hal) hb0 hw1n hw1 hrn
        hrs hre hb3
      simpa only [List.append_assoc] using this
    | none =>
      rw [hal] at h
      simp only at h
      cases hsp2 : splitWhitespaceOnce r with
      | none => rw [hsp2] at h; simp at h
      | some p2 =>
        obtain ⟨d, r2⟩ := p2
        obtain ⟨w2, hw2n, hw2, hr2, hds, hdn, hr2n, hr2s, hr2e⟩ := split_ws_inv hrs hre hsp2
        rw [hsp2] at h
        simp only at h
        cases hal2 : alignOf d with
        | none => rw [hal2] at h; simp at h
        | some a' =>
          rw [hal2] at h
          simp only [Option.some.injEq, Prod.mk.injEq] at h
          obtain ⟨rfl, rfl, rfl⟩ := h
          rw [hc, htrim, hr2]
          have := DataForm.labelled w0 l w1 d w2 r2 w3 (alignSize a') hln hls ((alignOf_none l).1 hal)
            ((alignOf_iff d a').1 hal2) hb0 hw1n hw1 hw2n hw2 hr2n hr2s hr2e hb3
          simpa only [List.append_assoc] using this

/-- C67, data: exactly the data definitions are accepted, with the label and the bytes of the items. -/
theorem C67_data (s : Str) :
    (∀ d, parseDataStr s = .ok d ↔ ∃ w txt its, DataForm s d.label w txt ∧ Items txt its ∧
      Stored w its d.bytes) ∧
    (∀ e, parseDataStr s = .error e ↔ ∃ msg, e = .parseErr msg ∧ BadData s msg) := by
  cases hp : splitParts s with
  | none =>
    have hno : ∀ lab w txt, ¬ DataForm s lab w txt := fun lab w txt h => by
      obtain ⟨a, _, ha⟩ := parts_of_form h
      rw [hp] at ha; cases ha
    have hr : parseDataStr s = .error (.parseErr (str% "invalid data format")) := by
      rw [parseDataStr, tryParseData, hp]; rfl
    refine ⟨fun d => ⟨fun h => ?_, ?_⟩, fun e => ⟨fun h => ?_, ?_⟩⟩
    · rw [hr] at h; cases h
    · rintro ⟨w, txt, its, h, _⟩; exact absurd h (hno _ _ _)
    · rw [hr] at h; cases h; exact ⟨_, rfl, .other hno⟩
    · rintro ⟨msg, rfl, h⟩
      cases h with
      | other => exact hr
      | items lab w txt msg h => exact absurd h (hno _ _ _)
  | some p =>
    obtain ⟨lab, a, txt⟩ := p
    have hf := form_of_parts hp
    have huniq : ∀ {lab' w' txt'}, DataForm s lab' w' txt' → lab' = lab ∧ w' = alignSize a ∧ txt' = txt := by
      intro lab' w' txt' h
      obtain ⟨a', ha', hp'⟩ := parts_of_form h
      rw [hp] at hp'
      cases hp'
      exact ⟨rfl, ha'.symm, rfl⟩
    have hr : parseDataStr s = dataLoop a txt.length txt >>= fun bs => pure ⟨lab, bs⟩ := by
      rw [parseDataStr, tryParseData, hp]
      simp only [bind, Except.bind]
      cases dataLoop a txt.length txt <;> rfl
    refine ⟨fun d => ⟨fun h => ?_, ?_⟩, fun e => ⟨fun h => ?_, ?_⟩⟩
    · rw [hr] at h
      cases hl : dataLoop a txt.length txt with
      | error e => rw [hl] at h; cases h
      | ok bs =>
        rw [hl] at h
        cases h
        obtain ⟨its, hi, hst⟩ := loop_inv (Nat.le_refl _) hl
        exact ⟨_, _, its, hf, hi, hst⟩
    · rintro ⟨w, txt', its, h, hi, hst⟩
      obtain ⟨hlab, rfl, rfl⟩ := huniq h
      rw [hr, loop_ok hi hst _ (Nat.le_refl _), ← hlab]
      rfl
    · rw [hr] at h
      cases hl : dataLoop a txt.length txt with
      | ok bs => rw [hl] at h; cases h
      | error e' =>
        rw [hl] at h
        cases h
        obtain ⟨m, rfl⟩ := loop_err hl
        exact ⟨m, rfl, .items _ _ _ _ hf (loop_badItems hl)⟩
    · rintro ⟨msg, rfl, h⟩
      cases h with
      | other h => exact absurd hf (h _ _ _)
      | items lab' w' txt' _ h hb =>
        obtain ⟨_, hw, rfl⟩ := huniq h
        rw [hr, badItems_loop hw.symm hb (Nat.le_refl _)]; rfl

/-! ## Instructions -/

theorem badInst_parse {bd : Build} {c msg : Str} (h : BadInst bd c msg) :
    parseInstructionStr bd c = .error (.parseErr msg) := by
  unfold parseInstructionStr
  cases h with
  | mov more msg ht hm =>
    rw [tryParseInstruction, splitWs_of_tokens ht]
    simp only [if_true, badMov_parse hm]; rfl
  | noOperand ht =>
    have hs := splitWs_of_tokens ht
    rw [tryParseInstruction, hs, parsePush, hs]; rfl
  | badOperand op more ht hr hn =>
    have hs := splitWs_of_tokens ht
    have h8 : tryParseU8 op = none := by
      rw [tryParseU8, (tryParseNum_none (by decide)).2 (fun n h => by have := hn n h; omega)]; rfl
    have h32 : tryParseU32 op = none := by
      rw [tryParseU32, (tryParseNum_none (by decide)).2 hn]; rfl
    rw [tryParseInstruction, hs, parsePush, hs]
    simp only [reg64_none.2 hr, h8, h32]
    rfl
  | other h =>
    obtain ⟨ts, ht⟩ := tokens_exists c
    have hs := splitWs_of_tokens ht
    cases ts with
    | nil => rw [tryParseInstruction, hs]; rfl
    | cons t ts =>
      have := h t ts ht
      simp only [List.mem_cons, List.not_mem_nil, or_false, not_or] at this
      obtain ⟨h1, h2, h3, h4⟩ := this
      rw [tryParseInstruction, hs]
      simp only [h1, h2, h3, h4, if_false]
      rfl

theorem parse_badInst {bd : Build} {c msg : Str} (h : parseInstructionStr bd c = .error (.parseErr msg)) :
    BadInst bd c msg := by
  have main : ∃ m, BadInst bd c m := by
    obtain ⟨ts, ht⟩ := tokens_exists c
    have hs := splitWs_of_tokens ht
    cases ts with
    | nil => exact ⟨_, .other fun t more h' => by have := h'.det ht; simp at this⟩
    | cons t ts =>
      unfold parseInstructionStr at h
      rw [tryParseInstruction, hs] at h
      simp only at h
      by_cases h4 : t = str% "mov"
      · subst h4
        simp only [if_true] at h
        cases hm : parseMov bd c with
        | ok i => rw [hm] at h; cases h
        | error e =>
          rw [hm] at h
          cases h
          exact ⟨_, .mov ts msg ht (parse_badMov hm)⟩
      by_cases h5 : t = str% "push"
      · subst h5
        cases ts with
        | nil => exact ⟨_, .noOperand ht⟩
        | cons op more =>
          by_cases hr : ∃ r : Reg64, op = r.asmName
          · exfalso
            obtain ⟨r, rfl⟩ := hr
            obtain ⟨i, hi⟩ := new_total (.pushReg64 r) trivial
            simp only [if_neg h4, if_true, parsePush, hs, ne_eq, not_true_eq_false, if_false,
              (parse_asmName).1 r, hi] at h
            cases h
          by_cases hn : ∃ n, Number op n ∧ n < 2 ^ 32
          · exfalso
            obtain ⟨n, hN, hn⟩ := hn
            simp only [if_neg h4, if_true, parsePush, hs, ne_eq, not_true_eq_false, if_false,
              reg64_none.2 (fun r hr' => hr ⟨r, hr'⟩)] at h
            cases h8 : tryParseU8 op with
            | some n =>
              obtain ⟨i, hi⟩ := new_total (.pushU8 n) trivial
              simp only [h8, hi] at h
              cases h
            | none =>
              have h32 : tryParseU32 op = some (UInt32.ofNat n) := by
                rw [tryParseU32, tryParseNum_some hn hN]; rfl
              obtain ⟨i, hi⟩ := new_total (.pushU32 (UInt32.ofNat n)) trivial
              simp only [h8, h32, hi] at h
              cases h
          · exact ⟨_, .badOperand op more ht (fun r hr' => hr ⟨r, hr'⟩)
              (fun n hN => Nat.le_of_not_lt fun hlt => hn ⟨n, hN, hlt⟩)⟩
      by_cases h6 : t = str% "ret"
      · subst h6
        exfalso
        obtain ⟨i, hi⟩ := new_total .ret trivial
        simp only [if_neg h4, if_neg h5, if_true, hi] at h
        cases h
      by_cases h7 : t = str% "syscall"
      · subst h7
        exfalso
        obtain ⟨i, hi⟩ := new_total .syscall trivial
        simp only [if_neg h4, if_neg h5, if_neg h6, if_true, hi] at h
        cases h
      refine ⟨_, .other fun t' more h' => ?_⟩
      have := h'.det ht
      simp only [List.cons.injEq] at this
      obtain ⟨rfl, _⟩ := this
      simp [h4, h5, h6, h7]
  obtain ⟨m, hm⟩ := main
  have := badInst_parse hm
  rw [h] at this
  cases this
  exact hm

/-- A parser of instructions that stops without a parse error has evaluated the constant of a `mov`. -/
theorem inst_stop {bd : Build} {c : Str} {e : Stop} (h : parseInstructionStr bd c = .error e)
    (he : ∀ m, e ≠ .parseErr m) : e = .panic ∧ bd = .debug ∧ ∃ dst src ts, MovLine c dst src ∧
      ((∃ d : Reg64, dst = d.asmName) ∨ (∃ d : Reg32, dst = d.asmName) ∨ (∃ d : Reg16, dst = d.asmName)) ∧
      Spells src ts ∧ Overflow ts := by
  have hm : parseMov bd c = .error e := by
    unfold parseInstructionStr at h
    cases ht : tryParseInstruction bd c with
    | ok o =>
      rw [ht] at h
      cases o with
      | none => cases h; exact absurd rfl (he _)
      | some i => cases h
    | error e' =>
      rw [ht] at h
      cases h
      have no : ∀ {α : Type} {r : Res α}, OnlyParse r → r ≠ .error e := fun ho hr =>
        let ⟨m, hm⟩ := ho e hr; he m hm
      unfold tryParseInstruction at ht
      split at ht
      · cases ht
      · split at ht
        · cases hp : parseMov bd c with
          | ok i => rw [hp] at ht; cases ht
          | error e' => rw [hp] at ht; cases ht; rfl
        · split at ht
          · exact absurd ht (no (.map (push_only c)))
          · split at ht
            · exact absurd ht (no (.map (new_only _ trivial)))
            · split at ht
              · exact absurd ht (no (.map (new_only _ trivial)))
              · cases ht
  obtain ⟨dst, src, hl, ha⟩ := mov_inv' hm (by intro m hm; cases hm; exact he m rfl)
  obtain ⟨hx, hd⟩ := mov_stop ha he
  have hp := expr_stop hx he
  subst hp
  obtain ⟨hb, ts, h1, h2⟩ := (C38_panics bd src).1 hx
  exact ⟨rfl, hb, dst, src, ts, hl, hd, h1, h2⟩

/-- C67, instructions: accepted with the machine code, rejected with the message, or - for `mov` of a
sum or difference that overflows, in a debug build - a panic. -/
theorem C67_instructions (bd : Build) (c : Str) :
    (∀ i, parseInstructionStr bd c = .ok i ↔ ∃ x, InstLine bd c x ∧ i = assembled x) ∧
    (∀ msg, parseInstructionStr bd c = .error (.parseErr msg) ↔ BadInst bd c msg) ∧
    (∀ e, (∀ msg, e ≠ .parseErr msg) → (parseInstructionStr bd c = .error e ↔
      e = .panic ∧ bd = .debug ∧ ∃ dst src ts, MovLine c dst src ∧
        ((∃ d : Reg64, dst = d.asmName) ∨ (∃ d : Reg32, dst = d.asmName) ∨ (∃ d : Reg16, dst = d.asmName)) ∧
        Spells src ts ∧ Overflow ts)) := by
  refine ⟨fun i => ?_, fun msg => ⟨parse_badInst, badInst_parse⟩, fun e he => ⟨fun h => inst_stop h he, ?_⟩⟩
  rotate_left
  · rintro ⟨rfl, hb, dst, src, ts, hl, hd, h1, h2⟩
    have hx := (C38_panics bd src).2 ⟨hb, ts, h1, h2⟩
    obtain ⟨us, hu⟩ := mov_tokens hl
    have hts := splitWs_of_tokens hu
    unfold parseInstructionStr tryParseInstruction
    rw [hts]
    simp only [if_true, parseMov_eq hl]
    rcases hd with ⟨d, rfl⟩ | ⟨d, rfl⟩ | ⟨d, rfl⟩
    · rw [movArgs_64]; unfold parseMov64; rw [hx]; rfl
    · rw [movArgs_32]; unfold parseMov32; rw [hx]; rfl
    · rw [movArgs_16]; unfold parseMov16; rw [hx]; rfl
  rw [show (∃ x, InstLine bd c x ∧ i = assembled x) ↔ ∃ x, InstLine bd c x ∧ Yields x i from
    exists_congr fun x => and_congr_right fun hx => (yields_iff i (instLine_ok hx)).symm, ← inst_iff]
  unfold parseInstructionStr
  cases tryParseInstruction bd c with
  | error e => simp [bind, Except.bind]
  | ok o => cases o <;> simp [bind, Except.bind, perr, pure, Except.pure]

/-- C67, the parsers of `mov` and of `push` called by themselves on any text: each takes a text whose
first word is its opcode as the parser of instructions does, and rejects every other text with its own
message - for `mov` one message for a text without a space inside and another for a text with one. -/
theorem C67_opcodes (bd : Build) (s : Str) :
    (∀ more, Tokens s (str% "push" :: more) → parsePush s = parseInstructionStr bd s) ∧
    ((∀ more, ¬ Tokens s (str% "push" :: more)) ↔
      parsePush s = .error (.parseErr (str% "error: invalid push instruction format"))) ∧
    (∀ more, Tokens s (str% "mov" :: more) → parseMov bd s = parseInstructionStr bd s) ∧
    ((∀ more, ¬ Tokens s (str% "mov" :: more)) →
      ∀ t, Trimmed s t → parseMov bd s = .error (.parseErr
        (if ' ' ∈ t then str% "not mov opcode" else str% "invalid mov instruction format"))) := by
  refine ⟨fun more h => ?_, ⟨fun h => ?_, fun h more hm => ?_⟩, fun more h => ?_, fun h t ht => ?_⟩
  · have hs := splitWs_of_tokens h
    unfold parseInstructionStr tryParseInstruction
    rw [hs]
    simp only [if_neg (show ¬ (str% "push" = str% "mov") by decide), if_true]
    cases parsePush s <;> rfl
  · unfold parsePush
    cases hs : splitWs s with
    | nil => rfl
    | cons w more =>
      have hw : w ≠ str% "push" := by
        rintro rfl
        exact h more ((splitWs_iff ..).1 hs)
      simp only [ne_eq, hw, not_false_eq_true, if_true]
      rfl
  · have hs := splitWs_of_tokens hm
    unfold parsePush at h
    rw [hs] at h
    cases more with
    | nil => exact absurd h (by decide)
    | cons op more =>
      simp only [ne_eq, not_true_eq_false, if_false] at h
      have no : ∀ x, X86.OperandsOk x → Instruction.new x ≠
          .error (.parseErr (str% "error: invalid push instruction format")) := fun x hx hn => by
        obtain ⟨i, hi⟩ := new_total x hx
        rw [hi] at hn; cases hn
      split at h
      · exact no _ (by trivial) h
      · split at h
        · exact no _ (by trivial) h
        · split at h
          · exact no _ (by trivial) h
          · simp [perr] at h
  · have hs := splitWs_of_tokens h
    unfold parseInstructionStr tryParseInstruction
    rw [hs]
    simp only [if_true]
    cases parseMov bd s <;> rfl
  · by_cases hm : ' ' ∈ t
    · rw [if_pos hm]
      rcases char_split ' ' t with hn | ⟨op, r, hop, rfl⟩
      · exact absurd hm hn
      refine badMov_parse (.glued op r ht hop ?_)
      rintro rfl
      obtain ⟨ts, hts⟩ := tokens_cons_of (w0 := []) (l := str% "mov") (w1 := [' ']) (r := r) (by simp [Blank])
        (by simp) (by simp [Solid]; decide) (by simp) (by simp [Blank]; decide)
      refine h ts (splitWs_iff.1 ?_)
      rw [← splitWs_trim, trimmed_iff.1 ht]
      exact splitWs_iff.2 (by simpa using hts)
    · rw [if_neg hm]
      exact badMov_parse (.noSpace t ht hm)

/-- C67, lines: the lenient parser of lines never gives up on a line, it is the strict one. -/
theorem C67_lines (bd : Build) (s : Str) :
    (∀ o, tryParseLine bd s = .ok o ↔ ∃ l, o = some l ∧ parseLine bd s = .ok l) ∧
    (∀ e, tryParseLine bd s = .error e ↔ parseLine bd s = .error e) := by
  refine ⟨fun o => ?_, fun e => by unfold tryParseLine; cases parseLine bd s <;> simp [bind, Except.bind, pure, Except.pure]⟩
  unfold tryParseLine
  cases parseLine bd s with
  | error e => simp [bind, Except.bind]
  | ok l =>
    simp only [bind, Except.bind, pure, Except.pure, Except.ok.injEq]
    constructor
    · rintro rfl; exact ⟨l, rfl, rfl⟩
    · rintro ⟨_, rfl, rfl⟩; rfl

/-! ## Concrete cases -/

/-- The opcodes' own parsers: a `push` without its opcode, another opcode and a lone word. -/
example : parsePush (str% " pop rax") = .error (.parseErr (str% "error: invalid push instruction format")) ∧
    parseMov .debug (str% "add rax, 1") = .error (.parseErr (str% "not mov opcode")) ∧
    parseMov .debug (str% " ret ") = .error (.parseErr (str% "invalid mov instruction format")) := by
  decide +kernel

/-- A data definition whose label is no legal data label of a line. -/
example : parseDataStr (str% "section db 1, \"ab\"") = .ok ⟨some (str% "section"), [1, 97, 98]⟩ := by
  decide +kernel

example : ∃ w txt its, DataForm (str% "section db 1, \"ab\"") (some (str% "section")) w txt ∧ Items txt its ∧
    Stored w its [1, 97, 98] :=
  ((C67_data _).1 ⟨some (str% "section"), [1, 97, 98]⟩).1 (by decide +kernel)

example : BadData (str% "mov rax, 1") (str% "invalid data format") := by
  obtain ⟨m, hm, h⟩ := ((C67_data (str% "mov rax, 1")).2 (.parseErr (str% "invalid data format"))).1
    (by decide +kernel)
  cases hm; exact h

example (bd : Build) : parseInstructionStr bd (str% "add rax, 1") =
    .error (.parseErr (str% "unrecognized opcode")) := by
  cases bd <;> decide +kernel

example (bd : Build) : parseExprStr bd (str% "foo") = .error (.parseErr (str% "invalid expr format")) := by
  cases bd <;> decide +kernel

end AT.Props
