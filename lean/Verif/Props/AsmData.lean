import Verif.Proofs.AsmData
/-!
# Properties of the data directives (C42)
-/

namespace AT.Props
open AT.Asm AT.AsmSpec AT.X64

/-- What `parseLine` does with a data line. -/
theorem data_line_eq {bd : Build} {s c : Str} {lab : Option Str} {w : Nat} {txt : Str} (hc : Code s c)
    (h : DataLine c lab w txt) : ∃ a, alignSize a = w ∧
      parseLine bd s = (dataLoop a txt.length txt >>= fun b => pure (.data ⟨lab, b⟩)) := by
  obtain ⟨a, ha, hp⟩ := parts_of_line h
  obtain ⟨t, ts, ht, h1, h2, h3⟩ := line_first h
  refine ⟨a, ha, ?_⟩
  rw [parseLine_eq, stripComment_eq hc, code_body (splitWs_of_tokens ht) h1 h2 h3]
  unfold parseBody tryParseData
  rw [hp]
  simp only
  cases dataLoop a txt.length txt <;> rfl

/-- C42: a line is a data line with label `d.label` and contents `d.bytes` exactly when it has the
form `[label] directive items` and the bytes are those of the listed items, in order. -/
theorem C42_data (bd : Build) (s : Str) (d : Data) :
    parseLine bd s = .ok (.data d) ↔
      ∃ c w txt its, Code s c ∧ DataLine c d.label w txt ∧ Items txt its ∧ Stored w its d.bytes := by
  constructor
  · intro h
    have hc := code_strip s
    rw [parseLine_eq] at h
    obtain ⟨ts, ht⟩ := tokens_exists (stripComment s)
    have hts := splitWs_of_tokens ht
    cases ts with
    | nil => rw [code_nil hts] at h; simp at h
    | cons t args =>
      by_cases h1 : t = str% "section"
      · subst h1
        by_cases hx : ∃ x, args = [sectName x]
        · obtain ⟨x, hx⟩ := hx
          rw [(code_section hts).1 x hx] at h; simp at h
        · obtain ⟨msg, he⟩ := (code_section (bd := bd) hts).2 (fun x hx' => hx ⟨x, hx'⟩)
          rw [he] at h; simp at h
      by_cases h2 : t = str% "global"
      · subst h2
        by_cases hx : ∃ n, args = [n]
        · obtain ⟨n, hx⟩ := hx
          rw [(code_global hts).1 n hx] at h; simp at h
        · obtain ⟨msg, he⟩ := (code_global (bd := bd) hts).2 (fun x hx' => hx ⟨x, hx'⟩)
          rw [he] at h; simp at h
      cases h3 : endsWithChar ':' t with
      | true =>
        rw [code_label hts h3] at h
        split at h <;> simp [perr] at h
      | false =>
        rw [code_body hts h1 h2 h3] at h
        rcases body_kinds h with ⟨d', hd, hpd⟩ | ⟨i, hi, _⟩
        · cases hd
          unfold tryParseData at hpd
          cases hsp : splitParts (stripComment s) with
          | none => rw [hsp] at hpd; simp [pure, Except.pure] at hpd
          | some p =>
            obtain ⟨lab, a, txt⟩ := p
            rw [hsp] at hpd
            simp only at hpd
            cases hl : dataLoop a txt.length txt with
            | error e => rw [hl] at hpd; simp [bind, Except.bind] at hpd
            | ok bs =>
              rw [hl] at hpd
              simp only [bind, Except.bind, pure, Except.pure, Except.ok.injEq, Option.some.injEq] at hpd
              subst hpd
              obtain ⟨its, hi, hst⟩ := loop_inv (Nat.le_refl _) hl
              exact ⟨_, _, txt, its, hc, line_of_parts ht h1 h2 h3 hsp, hi, hst⟩
        · simp at hi
  · rintro ⟨c, w, txt, its, hc, hl, hi, hst⟩
    obtain ⟨a, rfl, h⟩ := data_line_eq (bd := bd) hc hl
    rw [h, loop_ok hi hst _ (Nat.le_refl _)]
    rfl

/-- C42: a data line whose items cannot be read or stored is a reported error. -/
theorem C42_errors (bd : Build) (s c : Str) (lab : Option Str) (w : Nat) (txt : Str) (hc : Code s c)
    (hl : DataLine c lab w txt) (hno : ¬ ∃ its bs, Items txt its ∧ Stored w its bs) :
    ∃ msg, parseLine bd s = .error (.parseErr msg) := by
  obtain ⟨a, rfl, h⟩ := data_line_eq (bd := bd) hc hl
  rw [h]
  cases hd : dataLoop a txt.length txt with
  | ok bs =>
    obtain ⟨its, hi, hst⟩ := loop_inv (Nat.le_refl _) hd
    exact absurd ⟨its, bs, hi, hst⟩ hno
  | error e =>
    obtain ⟨msg, rfl⟩ := loop_err hd
    exact ⟨msg, rfl⟩

theorem items_head {s : Str} {its : List Item} (h : Items s its) :
    (s = [] ∧ its = []) ∨ ∃ d s' its', dataNext s = some (.ok (d, s')) ∧ its = itemOf d :: its' ∧
      Items s' its' := by
  cases h with
  | nil => exact .inl ⟨rfl, rfl⟩
  | last a n hN hn =>
    exact .inr ⟨_, _, _, next_number_last hN hn, by simp [itemOf, Nat.mod_eq_of_lt hn], .nil⟩
  | num a n c w rest its hN hn hc hw hr =>
    exact .inr ⟨_, _, _, next_number hN hn hc hw hr, by simp [itemOf, Nat.mod_eq_of_lt hn], hr⟩
  | str body w rest its hq hw hr => exact .inr ⟨_, _, _, next_string hq hw hr, rfl, hr⟩

/-- C42: a text lists at most one sequence of items. -/
theorem C42_items_unique (s : Str) (its its' : List Item) (h : Items s its) (h' : Items s its') :
    its = its' := by
  induction hl : s.length using Nat.strongRecOn generalizing s its its' with
  | _ n ih =>
    subst hl
    rcases items_head h with ⟨rfl, rfl⟩ | ⟨d, t, us, hn, rfl, hu⟩
    · rcases items_head h' with ⟨_, rfl⟩ | ⟨_, _, _, hn, _⟩
      · rfl
      · simp [next_nil] at hn
    · rcases items_head h' with ⟨rfl, _⟩ | ⟨d', t', us', hn', rfl, hu'⟩
      · simp [next_nil] at hn
      · rw [hn] at hn'
        simp only [Option.some.injEq, Except.ok.injEq, Prod.mk.injEq] at hn'
        obtain ⟨rfl, rfl⟩ := hn'
        rw [ih _ (next_inv hn).1 t us us' hu hu' rfl]

theorem stored_fits {w : Nat} {its : List Item} {bs : Bytes} (h : Stored w its bs) :
    ∀ n, .num n ∈ its → n < 256 ^ w := by
  induction h with
  | nil => simp
  | cons it its b bs hb _ ih =>
    intro n hn
    rcases List.mem_cons.1 hn with rfl | hn
    · exact ((le_iff w n b).1 hb).1
    · exact ih n hn

/-- C42: items that all fit can be stored. -/
theorem C42_storable (w : Nat) (hw : w = 1 ∨ w = 2 ∨ w = 4 ∨ w = 8) (its : List Item)
    (h : ∀ n, .num n ∈ its → n < 256 ^ w) : ∃ bs, Stored w its bs := by
  induction its with
  | nil => exact ⟨[], .nil⟩
  | cons it its ih =>
    obtain ⟨bs, hbs⟩ := ih (fun n hn => h n (by simp [hn]))
    cases it with
    | num n =>
      exact ⟨_, .cons _ _ (leBytes w n) _ ((le_iff w n _).2 ⟨h n (by simp), rfl⟩) hbs⟩
    | str s =>
      obtain ⟨a, rfl⟩ : ∃ a, alignSize a = w := by
        rcases hw with rfl | rfl | rfl | rfl
        · exact ⟨.db, rfl⟩
        · exact ⟨.dw, rfl⟩
        · exact ⟨.dd, rfl⟩
        · exact ⟨.dq, rfl⟩
      exact ⟨_, .cons _ _ (writeStr s a) _ ((pad_iff a s _).2 rfl) hbs⟩

/-- C42: a number too large for the directive is a reported error. -/
theorem C42_too_large (bd : Build) (s c : Str) (lab : Option Str) (w : Nat) (txt : Str)
    (its : List Item) (n : Nat) (hc : Code s c) (hl : DataLine c lab w txt) (hi : Items txt its)
    (hn : .num n ∈ its) (hbig : 256 ^ w ≤ n) : ∃ msg, parseLine bd s = .error (.parseErr msg) := by
  refine C42_errors bd s c lab w txt hc hl ?_
  rintro ⟨its', bs, hi', hst⟩
  rw [← C42_items_unique txt its its' hi hi'] at hst
  have := stored_fits hst n hn
  omega

/-- Sample line: `msg dw 300, "héy" 0x1F,` . -/
def sampleData : Str := str% "\tmsg dw 300, \"héy\" 0x1F,  ; text\n"

/-- The hypotheses of `C42_data` hold of it: label, element size 2, three items. -/
theorem sampleData_items : Items (str% "300, \"héy\" 0x1F,") [.num 300, .str (str% "héy"), .num 31] := by
  have h300 : Number (str% "300") 300 := by
    have h := (tryParseNum_iff (bound := 512) (by decide) (str% "300") 300).1 (by decide +kernel)
    exact h.2
  have h1f : Number (str% "0x1F") 31 := by
    have h := (tryParseNum_iff (bound := 512) (by decide) (str% "0x1F") 31).1 (by decide +kernel)
    exact h.2
  refine .num (str% "300") 300 ',' [' '] _ _ h300 (by decide) (.inr rfl) (by simp [Blank]; decide) ?_
  refine .str (str% "héy") [' '] (str% "0x1F,") _ (by decide) (by simp [Delim]; decide) ?_
  exact .num (str% "0x1F") 31 ',' [] [] _ h1f (by decide) (.inr rfl) Blank.nil .nil

example : parseLine .debug sampleData = .ok (.data ⟨some (str% "msg"),
    [0x2C, 0x01, 0x68, 0xC3, 0xA9, 0x79, 0x1F, 0x00]⟩) := by decide +kernel

/-- Too large for a byte; a blank before a comma; a `;` inside a string (it starts a comment);
`db` without items. -/
example : parseLine .debug (str% "db 256") = .error (.parseErr (str% "256 is not a 8 bit number")) ∧
    parseLine .debug (str% "db 1 ,2") = .error (.parseErr (str% " is invalid u64")) ∧
    parseLine .debug (str% "db \"a;b\"") = .error (.parseErr (str% "unclosed \" found")) ∧
    parseLine .debug (str% "db ") = .error (.parseErr (str% "unrecognized line")) := by
  refine ⟨?_, ?_, ?_, ?_⟩ <;> decide +kernel

end AT.Props
