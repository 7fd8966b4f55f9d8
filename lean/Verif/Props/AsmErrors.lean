import Verif.Proofs.AsmErrors
import Verif.Props.Asm
/-!
# Property C66: what is wrong with a rejected line
-/

namespace AT.Props
open AT.Asm AT.AsmSpec AT.X64
open X86 (OperandsOk)

/-! ## Constants -/

theorem badConst_expr {bd : Build} {s msg : Str} (h : BadConst s msg) :
    tryParseExpr bd s = .error (.parseErr msg) := by
  cases h with
  | unary a rest ht ha =>
    rcases ha with rfl | rfl
    · simp only [tryParseExpr, splitWs_of_tokens ht, (token_plus _).2 rfl]; rfl
    · simp only [tryParseExpr, splitWs_of_tokens ht, (token_minus _).2 rfl]; rfl
  | operator a op rest ht ha h1 h2 =>
    obtain ⟨v, hv⟩ := readable_iff.1 ha
    simp only [tryParseExpr, splitWs_of_tokens ht, (token_num a v).2 hv]
    split
    · rename_i h; exact absurd ((token_plus _).1 h) h1
    · rename_i h; exact absurd ((token_minus _).1 h) h2
    · rfl
  | noRhs a op ht ha hop =>
    obtain ⟨v, hv⟩ := readable_iff.1 ha
    rcases hop with rfl | rfl
    · simp only [tryParseExpr, splitWs_of_tokens ht, (token_num a v).2 hv, (token_plus _).2 rfl]; rfl
    · simp only [tryParseExpr, splitWs_of_tokens ht, (token_num a v).2 hv, (token_minus _).2 rfl]; rfl
  | badRhs a op b rest ht ha hop hb =>
    obtain ⟨v, hv⟩ := readable_iff.1 ha
    have hb' : ∀ w, Token.tryParse b ≠ some (.num w) := fun w hw =>
      hb (readable_iff.2 ⟨w, (token_num b w).1 hw⟩)
    rcases hop with rfl | rfl
    · simp only [tryParseExpr, splitWs_of_tokens ht, (token_num a v).2 hv, (token_plus _).2 rfl]
      rfl
    · simp only [tryParseExpr, splitWs_of_tokens ht, (token_num a v).2 hv, (token_minus _).2 rfl]
      rfl

theorem expr_badConst {bd : Build} {s msg : Str} (h : tryParseExpr bd s = .error (.parseErr msg)) :
    BadConst s msg := by
  have main : ∃ m, BadConst s m := by
    have hc := expr_cases bd s
    rw [h] at hc
    generalize hr : (Except.error (.parseErr msg) : Res (Option UInt64)) = r at hc
    cases hc with
    | nothing => simp at hr
    | one => simp at hr
    | op sign a b extra x y =>
      exfalso
      cases sign with
      | true => rw [evalOp_add] at hr; split at hr <;> cases hr
      | false => rw [evalOp_sub] at hr; split at hr <;> cases hr
    | bad m a rest ht hno ha =>
      by_cases hsign : a = ['+'] ∨ a = ['-']
      · exact ⟨_, .unary a rest ht hsign⟩
      · obtain ⟨x, hx, hN⟩ : ∃ x, x < 2 ^ 64 ∧ Number a x := by
          rcases ha with h | h | h
          · exact absurd (.inl h) hsign
          · exact absurd (.inr h) hsign
          · exact h
        have hread : Readable a := ⟨x, hN, hx⟩
        cases rest with
        | nil => exact absurd (.num a x hN hx) (hno _ _ (.inl ht))
        | cons op rest =>
          by_cases hop : op = ['+'] ∨ op = ['-']
          · cases rest with
            | nil => exact ⟨_, .noRhs a op ht hread hop⟩
            | cons b rest =>
              by_cases hb : Readable b
              · exfalso
                obtain ⟨y, hN', hy⟩ := hb
                have hsp : Spells s [a, op, b] := by
                  cases rest with
                  | nil => exact .inl ht
                  | cons c extra => exact .inr ⟨a, op, b, c, extra, rfl, ht⟩
                rcases hop with rfl | rfl
                · exact hno _ _ hsp (.add a b x y hN hx hN' hy)
                · exact hno _ _ hsp (.sub a b x y hN hx hN' hy)
              · exact ⟨_, .badRhs a op b rest ht hread hop hb⟩
          · exact ⟨_, .operator a op rest ht hread (fun h => hop (.inl h)) (fun h => hop (.inr h))⟩
  obtain ⟨m, hm⟩ := main
  have := badConst_expr (bd := bd) hm
  rw [h] at this
  cases this
  exact hm

/-! ## `mov` -/

theorem trimmed_iff {c m : Str} : Trimmed c m ↔ trim c = m := by
  constructor
  · rintro ⟨w0, w1, h0, h1, rfl, hs, he⟩; exact trim_eq h0 h1 hs he
  · rintro rfl
    obtain ⟨w0, w1, h, h0, h1, hs, he⟩ := trim_split c
    exact ⟨w0, w1, h0, h1, h, hs, he⟩

theorem split_char {x : Char} {a b : Str} (h : x ∉ a) : splitOnce (· == x) (a ++ x :: b) = some (a, b) := by
  apply splitOnce_eq (by simp)
  intro y hy
  have : y ≠ x := fun he => h (he ▸ hy)
  simpa using this

theorem split_char_none {x : Char} {s : Str} (h : x ∉ s) : splitOnce (· == x) s = none := by
  apply splitOnce_none.2
  intro y hy
  have : y ≠ x := fun he => h (he ▸ hy)
  simpa using this

theorem char_split (x : Char) (s : Str) : x ∉ s ∨ ∃ a b, x ∉ a ∧ s = a ++ x :: b := by
  cases h : splitOnce (· == x) s with
  | none => exact .inl fun hm => by simpa using splitOnce_none.1 h _ hm
  | some p =>
    obtain ⟨a, b⟩ := p
    obtain ⟨c, hs, hc, ha⟩ := splitOnce_some h
    have : c = x := by simpa using hc
    subst this
    exact .inr ⟨a, b, fun hm => by simpa using ha _ hm, hs⟩

theorem movLine_of_trim {c s1 s2 : Str} (ht : trim c = str% "mov" ++ ' ' :: (s1 ++ ',' :: s2))
    (hs1 : ',' ∉ s1) : MovLine c (trim s1) (trim s2) := by
  obtain ⟨w0, w3, hc, hb0, hb3, hss, hee⟩ := trim_split c
  obtain ⟨a, b, h1, ha, hb, hst1, hen1⟩ := trim_split s1
  obtain ⟨d, e, h2, hd, he, hst2, hen2⟩ := trim_split s2
  refine ⟨w0, a, b, d, e ++ w3, hb0, ha, hb, hd, he.append hb3, ?_, hst1, hen1, hst2, hen2, ?_⟩
  · intro hm
    exact hs1 (by rw [h1]; simp [hm])
  · have e1 : s1 ++ ',' :: s2 = a ++ trim s1 ++ b ++ ',' :: (d ++ trim s2 ++ e) := by
      rw [← h1, ← h2]
    have e2 : c = w0 ++ (str% "mov" ++ ' ' :: (s1 ++ ',' :: s2)) ++ w3 := by rw [← ht]; exact hc
    rw [e1] at e2
    have e3 : w0 ++ str% "mov" ++ ' ' :: (a ++ trim s1 ++ b ++ ',' :: (d ++ trim s2 ++ (e ++ w3))) =
        w0 ++ (str% "mov" ++ ' ' :: (a ++ trim s1 ++ b ++ ',' :: (d ++ trim s2 ++ e))) ++ w3 := by
      simp
    rw [e3]; exact e2

theorem new_total (x : Inst) (h : OperandsOk x) : ∃ i, Instruction.new x = .ok i := by
  obtain ⟨bs, ⟨b, hb, _⟩, _⟩ := C06_encodes x h
  exact ⟨⟨b, none⟩, by unfold Instruction.new; rw [hb]; rfl⟩

theorem badMov_parse {bd : Build} {c msg : Str} (h : BadMov bd c msg) :
    parseMov bd c = .error (.parseErr msg) := by
  cases h with
  | noSpace m ht hm =>
    unfold parseMov
    rw [trimmed_iff.1 ht, split_char_none hm]; rfl
  | glued op r ht hop hne =>
    unfold parseMov
    rw [trimmed_iff.1 ht, split_char hop]
    simp only [ne_eq, hne, not_false_eq_true, if_true]; rfl
  | noComma r ht hr =>
    unfold parseMov
    rw [trimmed_iff.1 ht, split_char (by decide)]
    simp only [ne_eq, not_true_eq_false, if_false, split_char_none hr]; rfl
  | badDst dst src hm hd =>
    rw [parseMov_eq hm, movArgs, reg64_none.2 (fun r hr => hd (.inl ⟨r, hr⟩)),
      reg32_none.2 (fun r hr => hd (.inr (.inl ⟨r, hr⟩))),
      reg16_none.2 (fun r hr => hd (.inr (.inr ⟨r, hr⟩)))]
    rfl
  | badConst dst src msg hm hd hc =>
    rw [parseMov_eq hm]
    rcases hd with ⟨d, rfl⟩ | ⟨d, rfl⟩ | ⟨d, rfl⟩
    · rw [movArgs_64, parseMov64, badConst_expr hc]; rfl
    · rw [movArgs_32, parseMov32, badConst_expr hc]; rfl
    · rw [movArgs_16, parseMov16, badConst_expr hc]; rfl
  | large32 d src n num hm hc hn hnum =>
    have h32 : exprAsU32 n = none := by unfold exprAsU32; rw [if_neg (by omega)]
    rw [parseMov_eq hm, movArgs_32, parseMov32, (const_iff bd src n).2 hc, decimal_iff.1 hnum]
    simp only [bind, Except.bind, h32]; rfl
  | large16 d src n num hm hc hn hnum =>
    have h16 : exprAsU16 n = none := by unfold exprAsU16; rw [if_neg (by omega)]
    rw [parseMov_eq hm, movArgs_16, parseMov16, (const_iff bd src n).2 hc, decimal_iff.1 hnum]
    simp only [bind, Except.bind, h16]; rfl
  | badSrc d src hm hc hr =>
    rw [parseMov_eq hm, movArgs_16, parseMov16, (notConst_iff bd src).2 hc]
    simp only [bind, Except.bind, reg16_none.2 hr]; rfl

theorem mov_bad {bd : Build} {c dst src msg : Str} (hm : MovLine c dst src)
    (h : movArgs bd dst src = .error (.parseErr msg)) : ∃ m, BadMov bd c m := by
  by_cases hreg : IsReg dst
  · cases hx : tryParseExpr bd src with
    | error e =>
      cases e with
      | parseErr m => exact ⟨_, .badConst dst src m hm hreg (expr_badConst hx)⟩
      | _ =>
        exfalso
        rcases hreg with ⟨d, rfl⟩ | ⟨d, rfl⟩ | ⟨d, rfl⟩
        · rw [movArgs_64, parseMov64, hx] at h; cases h
        · rw [movArgs_32, parseMov32, hx] at h; cases h
        · rw [movArgs_16, parseMov16, hx] at h; cases h
    | ok o =>
      cases o with
      | some n =>
        have hc := (const_iff bd src n).1 hx
        rcases hreg with ⟨d, rfl⟩ | ⟨d, rfl⟩ | ⟨d, rfl⟩
        · exfalso
          rw [movArgs_64, parseMov64, hx] at h
          obtain ⟨i, hi⟩ := new_total (.movReg64Imm d n) trivial
          simp [bind, Except.bind, hi] at h
        · by_cases hn : 2 ^ 32 ≤ n.toNat
          · exact ⟨_, .large32 d src n _ hm hc hn (showNat_decimal _)⟩
          · exfalso
            rw [movArgs_32, parseMov32, hx] at h
            have h32 : exprAsU32 n = some (UInt32.ofNat n.toNat) := by
              unfold exprAsU32; rw [if_pos (by omega)]
            obtain ⟨i, hi⟩ := new_total (.movReg32Imm d (UInt32.ofNat n.toNat)) trivial
            simp only [bind, Except.bind, h32, hi] at h
            cases h
        · by_cases hn : 2 ^ 16 ≤ n.toNat
          · exact ⟨_, .large16 d src n _ hm hc hn (showNat_decimal _)⟩
          · exfalso
            rw [movArgs_16, parseMov16, hx] at h
            have h16 : exprAsU16 n = some (UInt16.ofNat n.toNat) := by
              unfold exprAsU16; rw [if_pos (by omega)]
            obtain ⟨i, hi⟩ := new_total (.movReg16Imm d (UInt16.ofNat n.toNat)) trivial
            simp only [bind, Except.bind, h16, hi] at h
            cases h
      | none =>
        have hc := (notConst_iff bd src).1 hx
        rcases hreg with ⟨d, rfl⟩ | ⟨d, rfl⟩ | ⟨d, rfl⟩
        · exfalso
          rw [movArgs_64, parseMov64, hx] at h
          simp only [bind, Except.bind] at h
          split at h
          · rename_i r _
            obtain ⟨i, hi⟩ := new_total (.movReg64Reg64 d r) trivial
            simp [hi] at h
          · obtain ⟨i, hi⟩ := new_total (.movReg64Imm d 0) trivial
            simp [hi, pure, Except.pure] at h
        · exfalso
          rw [movArgs_32, parseMov32, hx] at h
          simp only [bind, Except.bind] at h
          split at h
          · rename_i r _
            obtain ⟨i, hi⟩ := new_total (.movReg32Reg32 d r) trivial
            simp [hi] at h
          · obtain ⟨i, hi⟩ := new_total (.movReg32Imm d 0) trivial
            simp [hi, pure, Except.pure] at h
        · refine ⟨_, .badSrc d src hm hc (reg16_none.1 ?_)⟩
          rw [movArgs_16, parseMov16, hx] at h
          simp only [bind, Except.bind] at h
          split at h
          · exfalso
            rename_i r _
            obtain ⟨i, hi⟩ := new_total (.movReg16Reg16 d r) trivial
            simp [hi] at h
          · assumption
  · exact ⟨_, .badDst dst src hm hreg⟩

theorem parse_badMov {bd : Build} {c msg : Str} (h : parseMov bd c = .error (.parseErr msg)) :
    BadMov bd c msg := by
  have main : ∃ m, BadMov bd c m := by
    have ht : Trimmed c (trim c) := trimmed_iff.2 rfl
    rcases char_split ' ' (trim c) with hsp | ⟨op, r, hop, htr⟩
    · exact ⟨_, .noSpace _ ht hsp⟩
    · rw [htr] at ht
      by_cases ho : op = str% "mov"
      · subst ho
        rcases char_split ',' r with hr | ⟨s1, s2, hs1, rfl⟩
        · exact ⟨_, .noComma r ht hr⟩
        · have hm := movLine_of_trim htr hs1
          rw [parseMov_eq hm] at h
          exact mov_bad hm h
      · exact ⟨_, .glued op r ht hop ho⟩
  obtain ⟨m, hm⟩ := main
  have := badMov_parse hm
  rw [h] at this
  cases this
  exact hm

/-! ## Lines -/

theorem colon_iff {t : Str} : endsWithChar ':' t = false ↔ ∀ l, t ≠ l ++ [':'] := by
  constructor
  · rintro h l rfl
    simp [endsWithChar] at h
  · intro h
    cases hb : endsWithChar ':' t with
    | false => rfl
    | true =>
      have : t.getLast? = some ':' := by simpa [endsWithChar] using hb
      obtain ⟨l, hl⟩ := List.getLast?_eq_some_iff.1 this
      exact absurd hl (h l)

theorem notData_iff {c : Str} : NotDataLine c ↔ ¬ IsData c := by
  constructor
  · rintro h ⟨lab, w, txt, hd⟩; exact h lab w txt hd
  · intro h lab w txt hd; exact h ⟨lab, w, txt, hd⟩

/-- What is parsed when the line is neither a directive nor a label nor data. -/
theorem code_inst {bd : Build} {c t : Str} {ts : List Str} (ht : Tokens c (t :: ts))
    (h1 : t ≠ str% "section") (h2 : t ≠ str% "global") (h3 : ∀ l, t ≠ l ++ [':']) (hd : NotDataLine c) :
    parseCode bd c = tryParseInstruction bd c >>= fun o =>
      match o with
      | some i => pure (.instruction i)
      | none => perr (str% "unrecognized line") := by
  have h3' := colon_iff.2 h3
  rw [code_body (splitWs_of_tokens ht) h1 h2 h3', parseBody, tryParseData,
    (splitParts_none ht h1 h2 h3').2 (notData_iff.1 hd)]
  rfl

theorem wrong_parse {bd : Build} {c msg : Str} (h : Wrong bd c msg) :
    parseCode bd c = .error (.parseErr msg) := by
  cases h with
  | noSection ht =>
    have hs := splitWs_of_tokens ht
    unfold parseCode tryParseSection; rw [hs]; rfl
  | badSection name more ht hn =>
    have hs := splitWs_of_tokens ht
    have h1 : name ≠ str% ".text" := hn .text
    have h2 : name ≠ str% ".data" := hn .data
    have h3 : name ≠ str% ".bss" := hn .bss
    unfold parseCode tryParseSection; rw [hs]
    simp only [ne_eq, not_true_eq_false, if_false, h1, h2, h3]
    rfl
  | afterSection x t more ht =>
    have hs := splitWs_of_tokens ht
    unfold parseCode tryParseSection; rw [hs]
    cases x <;> rfl
  | noGlobal ht =>
    have hs := splitWs_of_tokens ht
    unfold parseCode
    rw [section_other hs (by decide)]
    unfold tryParseGlobal; rw [hs]; rfl
  | afterGlobal name t more ht =>
    have hs := splitWs_of_tokens ht
    unfold parseCode
    rw [section_other hs (by decide)]
    unfold tryParseGlobal; rw [hs]; rfl
  | afterLabel l t more ht =>
    rw [code_label (splitWs_of_tokens ht) (by simp [endsWithChar])]
    simp only [List.cons_ne_nil, if_false]; rfl
  | data lab w txt msg hd hb =>
    obtain ⟨a, ha, hp⟩ := parts_of_line hd
    obtain ⟨t, ts, ht, h1, h2, h3⟩ := line_first hd
    rw [code_body (splitWs_of_tokens ht) h1 h2 h3, parseBody, tryParseData, hp]
    simp only [badItems_loop ha hb (Nat.le_refl _)]; rfl
  | mov more msg ht hd hm =>
    have hs := splitWs_of_tokens ht
    rw [code_inst ht (by decide) (by decide) (colon_iff.1 (by decide)) hd, tryParseInstruction, hs]
    simp only [if_true, badMov_parse hm]; rfl
  | noOperand ht =>
    have hs := splitWs_of_tokens ht
    have hd : NotDataLine c := notData_iff.2 (notData_of ht not_directive_push (by simp))
    rw [code_inst ht (by decide) (by decide) (colon_iff.1 (by decide)) hd, tryParseInstruction, hs,
      parsePush, hs]
    rfl
  | badOperand op more ht hd hr hn =>
    have hs := splitWs_of_tokens ht
    have h8 : tryParseU8 op = none := by
      rw [tryParseU8, (tryParseNum_none (by decide)).2 (fun n h => by have := hn n h; omega)]; rfl
    have h32 : tryParseU32 op = none := by
      rw [tryParseU32, (tryParseNum_none (by decide)).2 hn]; rfl
    rw [code_inst ht (by decide) (by decide) (colon_iff.1 (by decide)) hd, tryParseInstruction, hs,
      parsePush, hs]
    simp only [reg64_none.2 hr, h8, h32]
    rfl
  | unrecognized t more ht hd h1 h2 h3 h4 h5 h6 h7 =>
    have hs := splitWs_of_tokens ht
    rw [code_inst ht h1 h2 h3 hd, tryParseInstruction, hs]
    simp only [h4, h5, h6, h7, if_false]
    rfl

theorem parse_wrong {bd : Build} {c msg : Str} (h : parseCode bd c = .error (.parseErr msg)) :
    Wrong bd c msg := by
  have main : ∃ m, Wrong bd c m := by
    obtain ⟨ts, ht⟩ := tokens_exists c
    have hs := splitWs_of_tokens ht
    cases ts with
    | nil => rw [code_nil hs] at h; cases h
    | cons t ts =>
      by_cases h1 : t = str% "section"
      · subst h1
        cases ts with
        | nil => exact ⟨_, .noSection ht⟩
        | cons name more =>
          by_cases hn : ∃ x, name = sectName x
          · obtain ⟨x, rfl⟩ := hn
            cases more with
            | nil => rw [(code_section hs).1 x rfl] at h; cases h
            | cons t more => exact ⟨_, .afterSection x t more ht⟩
          · exact ⟨_, .badSection name more ht (fun x hx => hn ⟨x, hx⟩)⟩
      by_cases h2 : t = str% "global"
      · subst h2
        cases ts with
        | nil => exact ⟨_, .noGlobal ht⟩
        | cons name more =>
          cases more with
          | nil => rw [(code_global hs).1 name rfl] at h; cases h
          | cons t more => exact ⟨_, .afterGlobal name t more ht⟩
      by_cases h3 : ∃ l, t = l ++ [':']
      · obtain ⟨l, rfl⟩ := h3
        cases ts with
        | nil =>
          rw [code_label hs (by simp [endsWithChar])] at h
          simp at h
        | cons u more => exact ⟨_, .afterLabel l u more ht⟩
      have h3' : ∀ l, t ≠ l ++ [':'] := fun l hl => h3 ⟨l, hl⟩
      by_cases hd : IsData c
      · obtain ⟨lab, w, txt, hd⟩ := hd
        obtain ⟨a, ha, hp⟩ := parts_of_line hd
        rw [code_body hs h1 h2 (colon_iff.2 h3'), parseBody, tryParseData, hp] at h
        simp only at h
        cases hl : dataLoop a txt.length txt with
        | ok bs => rw [hl] at h; simp [bind, Except.bind, pure, Except.pure] at h
        | error e =>
          obtain ⟨m, rfl⟩ := loop_err hl
          exact ⟨m, .data lab w txt m hd (ha ▸ loop_badItems hl)⟩
      have hnd := notData_iff.2 hd
      rw [code_inst ht h1 h2 h3' hnd, tryParseInstruction, hs] at h
      simp only at h
      by_cases h4 : t = str% "mov"
      · subst h4
        simp only [if_true] at h
        cases hm : parseMov bd c with
        | ok i => rw [hm] at h; cases h
        | error e =>
          rw [hm] at h
          cases h
          exact ⟨_, .mov ts msg ht hnd (parse_badMov hm)⟩
      by_cases h5 : t = str% "push"
      · subst h5
        cases ts with
        | nil => exact ⟨_, .noOperand ht⟩
        | cons op more =>
          by_cases hr : ∃ r : Reg64, op = r.asmName
          · exfalso
            obtain ⟨r, rfl⟩ := hr
            obtain ⟨i, hi⟩ := new_total (.pushReg64 r) trivial
            simp only [if_neg h4, if_true, parsePush, hs, ne_eq, not_true_eq_false, if_false,
              (parse_asmName).1 r, hi] at h
            cases h
          by_cases hn : ∃ n, Number op n ∧ n < 2 ^ 32
          · exfalso
            obtain ⟨n, hN, hn⟩ := hn
            simp only [if_neg h4, if_true, parsePush, hs, ne_eq, not_true_eq_false, if_false,
              reg64_none.2 (fun r hr' => hr ⟨r, hr'⟩)] at h
            cases h8 : tryParseU8 op with
            | some n =>
              obtain ⟨i, hi⟩ := new_total (.pushU8 n) trivial
              simp only [h8, hi] at h
              cases h
            | none =>
              have h32 : tryParseU32 op = some (UInt32.ofNat n) := by
                rw [tryParseU32, tryParseNum_some hn hN]; rfl
              obtain ⟨i, hi⟩ := new_total (.pushU32 (UInt32.ofNat n)) trivial
              simp only [h8, h32, hi] at h
              cases h
          · exact ⟨_, .badOperand op more ht hnd (fun r hr' => hr ⟨r, hr'⟩)
              (fun n hN => Nat.le_of_not_lt fun hlt => hn ⟨n, hN, hlt⟩)⟩
      by_cases h6 : t = str% "ret"
      · subst h6
        exfalso
        obtain ⟨i, hi⟩ := new_total .ret trivial
        simp only [if_neg h4, if_neg h5, if_true, hi] at h
        cases h
      by_cases h7 : t = str% "syscall"
      · subst h7
        exfalso
        obtain ⟨i, hi⟩ := new_total .syscall trivial
        simp only [if_neg h4, if_neg h5, if_neg h6, if_true, hi] at h
        cases h
      exact ⟨_, .unrecognized t ts ht hnd h1 h2 h3' h4 h5 h6 h7⟩
  obtain ⟨m, hm⟩ := main
  have := wrong_parse hm
  rw [h] at this
  cases this
  exact hm

/-- C66: exactly which lines are rejected, and with which message. -/
theorem C66_messages (bd : Build) (s msg : Str) :
    parseLine bd s = .error (.parseErr msg) ↔ ∃ c, Code s c ∧ Wrong bd c msg := by
  rw [parseLine_eq]
  constructor
  · intro h; exact ⟨_, code_strip s, parse_wrong h⟩
  · rintro ⟨c, hc, hw⟩; rw [stripComment_eq hc]; exact wrong_parse hw

/-- C66: the message of a line is unique. -/
theorem C66_unique {bd : Build} {c m1 m2 : Str} (h1 : Wrong bd c m1) (h2 : Wrong bd c m2) : m1 = m2 := by
  have := wrong_parse h1
  rw [wrong_parse h2] at this
  cases this
  rfl

/-- C66: what is printed when the first wrong line of a source is reached. -/
theorem C66_printed (bd : Build) (chunks : List Bytes) (ss : List Str) (ls : List Line) (s c msg : Str)
    (rest : List Bytes) (hne : ∀ c ∈ chunks, c ≠ [])
    (hcut : Cut chunks.flatten (ss.map utf8 ++ utf8 s :: rest))
    (hp : ReadsAll bd ss ls) (hsmall : Within bd ls) (hlen : ss.length + 1 < 2 ^ 32)
    (hb : NoBssContent ls) (hc : Code s c) (hw : Wrong bd c msg) :
    ∃ num, Decimal (ss.length + 1) num ∧ Assembler.new.readFrom bd chunks =
      .error (.exit 1 (str% "error at line " ++ num ++ str% ": " ++ msg ++ str% "\n")) :=
  C49_reported bd chunks ss ls s msg rest hne hcut hp hsmall hlen hb ((C66_messages bd s msg).2 ⟨c, hc, hw⟩)

/-! ## Concrete cases -/

/-- A wrong line, by the rules. -/
example (bd : Build) : parseLine bd (str% "section .text x ; comment") =
    .error (.parseErr (str% "expected end of line after section declaration")) :=
  (C66_messages bd _ _).2 ⟨str% "section .text x ", ⟨by decide, .inr ⟨str% " comment", rfl⟩⟩,
    .afterSection .text (str% "x") [] (splitWs_iff.1 (by decide +kernel))⟩

/-- `300` does not fit a byte; the items before it do not matter. -/
example (bd : Build) : Wrong bd (str% "x db 1, \"a b\", 300, foo") (str% "300 is not a 8 bit number") := by
  obtain ⟨c, hc, h⟩ := (C66_messages bd (str% "x db 1, \"a b\", 300, foo") (str% "300 is not a 8 bit number")).1
    (by cases bd <;> decide +kernel)
  obtain ⟨_, rfl | ⟨r, hr⟩⟩ := hc
  · exact h
  · have : ';' ∈ str% "x db 1, \"a b\", 300, foo" := by rw [hr]; simp
    exact absurd this (by decide)

example : BadItems 1 (str% "1, 300, foo") (str% "300 is not a 8 bit number") :=
  .afterNumber _ (str% "1") (str% "300, foo") 1 _
    (.more (str% "1") ',' (str% " ") (str% "300, foo")
      (fun c hc => by rw [← isDelim_iff]; revert c; decide) (by decide) (.inr rfl) (by unfold Blank; decide)
      (fun c r h => by cases h; decide))
    (.inl (.dec _ _ (.one _ _ rfl))) (by decide) (by decide)
    (.tooLarge _ (str% "300") (str% "foo") 300 (str% "300") (str% "8")
      (.more (str% "300") ',' (str% " ") (str% "foo")
        (fun c hc => by rw [← isDelim_iff]; revert c; decide) (by decide) (.inr rfl) (by unfold Blank; decide)
        (fun c r h => by cases h; decide))
      (.inl (.dec _ _ (showNat_digits 300))) (by decide) (by decide)
      (decimal_iff.2 rfl) (decimal_iff.2 rfl))

example (bd : Build) : parseLine bd (str% "mov ax, 65535 + 1") = .error (.parseErr (str% "65536 is not 16bit")) ∧
    parseLine bd (str% "mov rax, 1 +") = .error (.parseErr (str% "rhs not found")) ∧
    parseLine bd (str% "mov xyz, 1") = .error (.parseErr (str% "invalid first operand")) ∧
    parseLine bd (str% "push 4294967296") = .error (.parseErr (str% "error: invalid push operand : 4294967296")) := by
  cases bd <;> decide +kernel

end AT.Props
