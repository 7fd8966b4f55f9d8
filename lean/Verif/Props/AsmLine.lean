import Verif.Proofs.AsmLine
/-!
# Properties of line parsing: comments, blanks, directives, labels (C40, C41)
-/

namespace AT.Props
open AT.Asm AT.AsmSpec AT.X64

/-! ## C40 -/

/-- C40: what a blank is: the characters with the Unicode property White_Space (PropList.txt). -/
theorem C40_white_space (c : Char) : isWs c = true ↔ c.toNat ∈
    [0x9, 0xA, 0xB, 0xC, 0xD, 0x20, 0x85, 0xA0, 0x1680, 0x2000, 0x2001, 0x2002, 0x2003, 0x2004, 0x2005, 0x2006,
      0x2007, 0x2008, 0x2009, 0x200A, 0x2028, 0x2029, 0x202F, 0x205F, 0x3000] := by
  simp only [isWs, Bool.or_eq_true, Bool.and_eq_true, beq_iff_eq, decide_eq_true_eq, List.mem_cons,
    List.not_mem_nil, or_false]
  omega

/-- C40: a comment does not matter. -/
theorem C40_comment (bd : Build) (s c : Str) : parseLine bd (s ++ ';' :: c) = parseLine bd s := by
  rw [parseLine_eq, parseLine_eq, strip_append_semi]

/-- C40: blanks (of any kind, including the line end) around a line do not matter. -/
theorem C40_blanks (bd : Build) (w s w' : Str) (hw : Blank w) (hw' : Blank w') :
    parseLine bd (w ++ s ++ w') = parseLine bd s := by
  rw [parseLine_eq, parseLine_eq]
  obtain ⟨v, hv, h⟩ := strip_blank_right (s := w ++ s) hw'
  rw [h, strip_blank_left hw]
  apply parseCode_congr
  · rw [splitWs_blank_right hv, splitWs_blank_left hw]
  · rw [trim_blank_right hv, trim_blank_left hw]

/-- C40: blanks before a comment do not matter either. -/
theorem C40_blank_comment (bd : Build) (w s w' c : Str) (hw : Blank w) (hw' : Blank w') :
    parseLine bd (w ++ s ++ w' ++ ';' :: c) = parseLine bd s := by
  rw [C40_comment, C40_blanks bd w s w' hw hw']

/-- An instance: tabs, an ideographic space, a comment containing directives, a line end. -/
example (bd : Build) : parseLine bd (str% "\t  section .data　 ; section .text\r\n") =
    parseLine bd (str% "section .data") :=
  C40_blank_comment bd (str% "\t  ") (str% "section .data") (str% "　 ") (str% " section .text\r\n")
    (by simp [Blank]; decide) (by simp [Blank]; decide)

example : parseLine .debug (str% "section .data") = .ok (.sect .data) := by decide

/-! ## C41 -/

theorem line_of_tokens {bd : Build} {s c : Str} (hc : Code s c) : parseLine bd s = parseCode bd c := by
  rw [parseLine_eq, stripComment_eq hc]

theorem blank_of_no_tokens {c : Str} (h : Tokens c []) : Blank c := by
  cases h with
  | nil _ hb => exact hb

/-- How the first token decides, for every line with at least one token. -/
theorem code_cases {bd : Build} {c : Str} {l : Line} (h : parseCode bd c = .ok l) :
    (l = .empty ∧ Tokens c []) ∨
    (∃ x, l = .sect x ∧ Tokens c [str% "section", sectName x]) ∨
    (∃ n, l = .globalSymbol n ∧ Tokens c [str% "global", n]) ∨
    (∃ n k, l = .symbol n ∧ Tokens c [n ++ List.replicate (k + 1) ':'] ∧ endsWithChar ':' n = false) ∨
    (∃ d, l = .data d) ∨ (∃ i, l = .instruction i) := by
  obtain ⟨ts, ht⟩ := tokens_exists c
  have hts := splitWs_of_tokens ht
  cases ts with
  | nil =>
    rw [code_nil hts] at h
    exact .inl ⟨(Except.ok.inj h).symm, ht⟩
  | cons t args =>
    by_cases h1 : t = str% "section"
    · subst h1
      by_cases hx : ∃ x, args = [sectName x]
      · obtain ⟨x, rfl⟩ := hx
        rw [(code_section hts).1 x rfl] at h
        exact .inr (.inl ⟨x, (Except.ok.inj h).symm, ht⟩)
      · obtain ⟨msg, he⟩ := (code_section (bd := bd) hts).2 (fun x hx' => hx ⟨x, hx'⟩)
        rw [he] at h; simp at h
    by_cases h2 : t = str% "global"
    · subst h2
      by_cases hx : ∃ n, args = [n]
      · obtain ⟨n, rfl⟩ := hx
        rw [(code_global hts).1 n rfl] at h
        exact .inr (.inr (.inl ⟨n, (Except.ok.inj h).symm, ht⟩))
      · obtain ⟨msg, he⟩ := (code_global (bd := bd) hts).2 (fun x hx' => hx ⟨x, hx'⟩)
        rw [he] at h; simp at h
    cases h3 : endsWithChar ':' t with
    | true =>
      rw [code_label hts h3] at h
      split at h
      · rename_i ha
        subst ha
        obtain ⟨k, hk⟩ := colon_split h3
        refine .inr (.inr (.inr (.inl ⟨_, k, (Except.ok.inj h).symm, ?_, trimEnd_not_colon t⟩)))
        rw [← hk]; exact ht
      · simp [perr] at h
    | false =>
      rw [code_body hts h1 h2 h3] at h
      rcases body_kinds h with ⟨d, hd, _⟩ | ⟨i, hi, _⟩
      · exact .inr (.inr (.inr (.inr (.inl ⟨d, hd⟩))))
      · exact .inr (.inr (.inr (.inr (.inr ⟨i, hi⟩))))

/-- C41: a line is empty exactly when there is nothing but blanks before the first `;`. -/
theorem C41_empty (bd : Build) (s : Str) :
    parseLine bd s = .ok .empty ↔ ∃ c, Code s c ∧ Blank c := by
  constructor
  · intro h
    refine ⟨_, code_strip s, ?_⟩
    rw [parseLine_eq] at h
    rcases code_cases h with ⟨_, ht⟩ | ⟨_, h, _⟩ | ⟨_, h, _⟩ | ⟨_, _, h, _⟩ | ⟨_, h⟩ | ⟨_, h⟩
    · exact blank_of_no_tokens ht
    all_goals simp at h
  · rintro ⟨c, hc, hb⟩
    rw [line_of_tokens hc]
    exact code_nil (splitWs_of_tokens (.nil c hb))

/-- C41: exactly the lines `section <name>` switch sections, to the section named. -/
theorem C41_section (bd : Build) (s : Str) (x : Section) :
    parseLine bd s = .ok (.sect x) ↔ ∃ c, Code s c ∧ Tokens c [str% "section", sectName x] := by
  constructor
  · intro h
    refine ⟨_, code_strip s, ?_⟩
    rw [parseLine_eq] at h
    rcases code_cases h with ⟨h, _⟩ | ⟨_, h, ht⟩ | ⟨_, h, _⟩ | ⟨_, _, h, _⟩ | ⟨_, h⟩ | ⟨_, h⟩
    case inr.inl => cases h; exact ht
    all_goals simp at h
  · rintro ⟨c, hc, ht⟩
    rw [line_of_tokens hc]
    exact (code_section (splitWs_of_tokens ht)).1 x rfl

/-- C41: exactly the lines `global <name>` are global declarations, of that name. -/
theorem C41_global (bd : Build) (s n : Str) :
    parseLine bd s = .ok (.globalSymbol n) ↔ ∃ c, Code s c ∧ Tokens c [str% "global", n] := by
  constructor
  · intro h
    refine ⟨_, code_strip s, ?_⟩
    rw [parseLine_eq] at h
    rcases code_cases h with ⟨h, _⟩ | ⟨_, h, _⟩ | ⟨_, h, ht⟩ | ⟨_, _, h, _⟩ | ⟨_, h⟩ | ⟨_, h⟩
    case inr.inr.inl => cases h; exact ht
    all_goals simp at h
  · rintro ⟨c, hc, ht⟩
    rw [line_of_tokens hc]
    exact (code_global (splitWs_of_tokens ht)).1 n rfl

/-- C41: exactly the lines consisting of a name and colons are labels, of that name. -/
theorem C41_label (bd : Build) (s n : Str) :
    parseLine bd s = .ok (.symbol n) ↔
      (∀ r, n ≠ r ++ [':']) ∧ ∃ c k, Code s c ∧ Tokens c [n ++ List.replicate (k + 1) ':'] := by
  have hend : endsWithChar ':' n = false ↔ ∀ r, n ≠ r ++ [':'] := by
    unfold endsWithChar
    constructor
    · rintro h r rfl
      simp at h
    · intro h
      by_cases hl : n.getLast? = some ':'
      · obtain ⟨r, hr⟩ := List.getLast?_eq_some_iff.1 hl
        exact absurd hr (h r)
      · simpa using hl
  constructor
  · intro h
    rw [parseLine_eq] at h
    rcases code_cases h with ⟨h, _⟩ | ⟨_, h, _⟩ | ⟨_, h, _⟩ | ⟨_, k, h, ht, he⟩ | ⟨_, h⟩ | ⟨_, h⟩
    case inr.inr.inr.inl => cases h; exact ⟨hend.1 he, _, k, code_strip s, ht⟩
    all_goals simp at h
  · rintro ⟨he, c, k, hc, ht⟩
    rw [line_of_tokens hc, code_label (splitWs_of_tokens ht) (ends_colons n k), if_pos rfl,
      trimEnd_colons _ (hend.2 he)]

/-- C41: `section` with other arguments, `global` without exactly one, and a label followed by
anything are reported as errors. -/
theorem C41_errors (bd : Build) (s c : Str) (hc : Code s c) :
    (∀ args, Tokens c (str% "section" :: args) → (∀ x, args ≠ [sectName x]) →
      ∃ msg, parseLine bd s = .error (.parseErr msg)) ∧
    (∀ args, Tokens c (str% "global" :: args) → args.length ≠ 1 →
      ∃ msg, parseLine bd s = .error (.parseErr msg)) ∧
    (∀ n t args, Tokens c ((n ++ [':']) :: t :: args) →
      ∃ msg, parseLine bd s = .error (.parseErr msg)) := by
  rw [line_of_tokens hc]
  refine ⟨fun args ht h => (code_section (splitWs_of_tokens ht)).2 h,
    fun args ht h => (code_global (splitWs_of_tokens ht)).2 (fun n hn => h (by rw [hn]; rfl)),
    fun n t args ht => ?_⟩
  rw [code_label (splitWs_of_tokens ht) (ends_colons n 0), if_neg (by simp)]
  exact ⟨_, rfl⟩

example : parseLine .debug (str% "  _start:  ; entry\n") = .ok (.symbol (str% "_start")) ∧
    parseLine .debug (str% "global _start") = .ok (.globalSymbol (str% "_start")) ∧
    parseLine .debug (str% " ; nothing") = .ok .empty ∧
    parseLine .debug (str% "section .rodata") =
      .error (.parseErr (str% "unrecognized section .rodata")) := by decide

end AT.Props
