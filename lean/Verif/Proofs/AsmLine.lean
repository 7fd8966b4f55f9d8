import Verif.Proofs.AsmExpr
/-!
# Lemmas: lines, comments and directives
-/

namespace AT.AsmSpec
open AT.Asm AT.X64

/-- `parseLine` after the comment is removed. -/
def parseCode (bd : Build) (s : Str) : Res Line :=
  match splitWs s with
  | [] => pure .empty
  | token :: rest => do
    match ← tryParseSection s with
    | some sect => pure (.sect sect)
    | none =>
      match ← tryParseGlobal s with
      | some name => pure (.globalSymbol name)
      | none =>
        if endsWithChar ':' token then
          if rest.isEmpty then pure (.symbol (trimEndBy (· == ':') token))
          else perr (str% "error: expected end of line.")
        else
          match ← tryParseData s with
          | some d => pure (.data d)
          | none =>
            match ← tryParseInstruction bd s with
            | some i => pure (.instruction i)
            | none => perr (str% "unrecognized line")

theorem parseLine_eq (bd : Build) (s : Str) : parseLine bd s = parseCode bd (stripComment s) := rfl

theorem parseCode_congr {bd : Build} {s t : Str} (h1 : splitWs s = splitWs t) (h2 : trim s = trim t) :
    parseCode bd s = parseCode bd t := by
  have hs : tryParseSection s = tryParseSection t := by unfold tryParseSection; rw [h1]
  have hg : tryParseGlobal s = tryParseGlobal t := by unfold tryParseGlobal; rw [h1]
  have hd : tryParseData s = tryParseData t := by
    have : splitParts s = splitParts t := by unfold splitParts; rw [h2]
    unfold tryParseData; rw [this]
  have hi : tryParseInstruction bd s = tryParseInstruction bd t := by
    have hm : parseMov bd s = parseMov bd t := by unfold parseMov; rw [h2]
    have hp : parsePush s = parsePush t := by unfold parsePush; rw [h1]
    unfold tryParseInstruction; rw [h1, hm, hp]
  unfold parseCode
  rw [h1, hs, hg, hd, hi]

theorem strip_append_semi (s c : Str) : stripComment (s ++ ';' :: c) = stripComment s := by
  apply stripComment_eq
  obtain ⟨hn, h⟩ := code_strip s
  refine ⟨hn, .inr ?_⟩
  rcases h with h | ⟨r, h⟩
  · rw [← h]; exact ⟨c, rfl⟩
  · exact ⟨r ++ ';' :: c, by conv => lhs; rw [h]
                             simp⟩

theorem not_semi_of_blank {w : Str} (hw : Blank w) : ';' ∉ w := by
  intro h
  have := hw _ h
  simp [isWs] at this

theorem strip_blank_left {w s : Str} (hw : Blank w) :
    stripComment (w ++ s) = w ++ stripComment s := by
  apply stripComment_eq
  obtain ⟨hn, h⟩ := code_strip s
  refine ⟨by simp [hn, not_semi_of_blank hw], ?_⟩
  rcases h with h | ⟨r, h⟩
  · exact .inl (by rw [← h])
  · exact .inr ⟨r, by conv => lhs; rw [h]
                      simp⟩

theorem strip_blank_right {w s : Str} (hw : Blank w) :
    ∃ w', Blank w' ∧ stripComment (s ++ w) = stripComment s ++ w' := by
  obtain ⟨hn, h⟩ := code_strip s
  rcases h with h | ⟨r, h⟩
  · refine ⟨w, hw, stripComment_eq ⟨by simp [hn, not_semi_of_blank hw], .inl (by rw [← h])⟩⟩
  · refine ⟨[], Blank.nil, stripComment_eq ⟨by simpa using hn, .inr ⟨r ++ w, ?_⟩⟩⟩
    conv => lhs; rw [h]
    simp

/-! ## What a line is, by its tokens -/

theorem section_args {s : Str} {args : List Str} (ht : splitWs s = str% "section" :: args) :
    (∀ x, args = [sectName x] → tryParseSection s = .ok (some x)) ∧
    ((∀ x, args ≠ [sectName x]) → ∃ msg, tryParseSection s = .error (.parseErr msg)) := by
  unfold tryParseSection
  rw [ht]
  simp only [ne_eq, not_true_eq_false, if_false]
  constructor
  · rintro x rfl
    cases x <;> rfl
  · intro h
    cases args with
    | nil => exact ⟨_, rfl⟩
    | cons n rest =>
      by_cases h1 : n = str% ".text"
      · cases rest with
        | nil => exact absurd (by rw [h1]; rfl) (h .text)
        | cons => subst h1; exact ⟨_, rfl⟩
      · by_cases h2 : n = str% ".data"
        · cases rest with
          | nil => exact absurd (by rw [h2]; rfl) (h .data)
          | cons => subst h2; exact ⟨_, rfl⟩
        · by_cases h3 : n = str% ".bss"
          · cases rest with
            | nil => exact absurd (by rw [h3]; rfl) (h .bss)
            | cons => subst h3; exact ⟨_, rfl⟩
          · simp only [h1, h2, h3, if_false]
            exact ⟨_, rfl⟩

theorem section_other {s t : Str} {args : List Str} (ht : splitWs s = t :: args)
    (h : t ≠ str% "section") : tryParseSection s = .ok none := by
  unfold tryParseSection
  rw [ht]
  simp only [ne_eq, h, not_false_eq_true, if_true]; rfl

theorem global_other {s t : Str} {args : List Str} (ht : splitWs s = t :: args)
    (h : t ≠ str% "global") : tryParseGlobal s = .ok none := by
  unfold tryParseGlobal
  rw [ht]
  simp only [ne_eq, h, not_false_eq_true, if_true]; rfl

theorem global_args {s : Str} {args : List Str} (ht : splitWs s = str% "global" :: args) :
    (∀ n, args = [n] → tryParseGlobal s = .ok (some n)) ∧
    ((∀ n, args ≠ [n]) → ∃ msg, tryParseGlobal s = .error (.parseErr msg)) := by
  unfold tryParseGlobal
  rw [ht]
  simp only [ne_eq, not_true_eq_false, if_false]
  constructor
  · rintro n rfl; rfl
  · intro h
    match args, h with
    | [], _ => exact ⟨_, rfl⟩
    | [n], h => exact absurd rfl (h n)
    | _ :: _ :: _, _ => exact ⟨_, rfl⟩

/-- The part of `parseCode` after the directives and labels. -/
def parseBody (bd : Build) (s : Str) : Res Line := do
  match ← tryParseData s with
  | some d => pure (.data d)
  | none =>
    match ← tryParseInstruction bd s with
    | some i => pure (.instruction i)
    | none => perr (str% "unrecognized line")

theorem code_nil {bd : Build} {s : Str} (ht : splitWs s = []) : parseCode bd s = .ok .empty := by
  unfold parseCode; rw [ht]; rfl

theorem code_section {bd : Build} {s : Str} {args : List Str}
    (ht : splitWs s = str% "section" :: args) :
    (∀ x, args = [sectName x] → parseCode bd s = .ok (.sect x)) ∧
    ((∀ x, args ≠ [sectName x]) → ∃ msg, parseCode bd s = .error (.parseErr msg)) := by
  unfold parseCode
  rw [ht]
  constructor
  · intro x hx
    simp only [(section_args ht).1 x hx]; rfl
  · intro hx
    obtain ⟨msg, h⟩ := (section_args ht).2 hx
    simp only [h]
    exact ⟨msg, rfl⟩

theorem code_global {bd : Build} {s : Str} {args : List Str}
    (ht : splitWs s = str% "global" :: args) :
    (∀ n, args = [n] → parseCode bd s = .ok (.globalSymbol n)) ∧
    ((∀ n, args ≠ [n]) → ∃ msg, parseCode bd s = .error (.parseErr msg)) := by
  unfold parseCode
  rw [ht, section_other ht (by decide)]
  constructor
  · intro x hx
    simp only [(global_args ht).1 x hx]; rfl
  · intro hx
    obtain ⟨msg, h⟩ := (global_args ht).2 hx
    simp only [h]
    exact ⟨msg, rfl⟩

theorem code_label {bd : Build} {s t : Str} {args : List Str} (ht : splitWs s = t :: args)
    (h : endsWithChar ':' t = true) :
    parseCode bd s = if args = [] then .ok (.symbol (trimEndBy (· == ':') t))
      else perr (str% "error: expected end of line.") := by
  have h1 : t ≠ str% "section" := by rintro rfl; simp [endsWithChar] at h
  have h2 : t ≠ str% "global" := by rintro rfl; simp [endsWithChar] at h
  unfold parseCode
  rw [ht, section_other ht h1, global_other ht h2]
  simp only [h, if_true]
  cases args <;> rfl

theorem code_body {bd : Build} {s t : Str} {args : List Str} (ht : splitWs s = t :: args)
    (h1 : t ≠ str% "section") (h2 : t ≠ str% "global") (h : endsWithChar ':' t = false) :
    parseCode bd s = parseBody bd s := by
  unfold parseCode
  rw [ht, section_other ht h1, global_other ht h2]
  simp only [h]
  rfl

theorem body_kinds {bd : Build} {s : Str} {l : Line} (h : parseBody bd s = .ok l) :
    (∃ d, l = .data d ∧ tryParseData s = .ok (some d)) ∨
    (∃ i, l = .instruction i ∧ tryParseData s = .ok none ∧
      tryParseInstruction bd s = .ok (some i)) := by
  unfold parseBody at h
  cases hd : tryParseData s with
  | error e => rw [hd] at h; simp [bind, Except.bind] at h
  | ok d =>
    rw [hd] at h
    cases d with
    | some d =>
      simp only [bind, Except.bind, pure, Except.pure, Except.ok.injEq] at h
      exact .inl ⟨d, h.symm, rfl⟩
    | none =>
      simp only [bind, Except.bind] at h
      cases hi : tryParseInstruction bd s with
      | error e => rw [hi] at h; simp at h
      | ok i =>
        rw [hi] at h
        cases i with
        | none => simp [perr] at h
        | some i =>
          simp only [pure, Except.pure, Except.ok.injEq] at h
          exact .inr ⟨i, h.symm, rfl, rfl⟩

/-- A string that ends with a colon is a name followed by colons. -/
theorem colon_split {t : Str} (h : endsWithChar ':' t = true) :
    ∃ k, t = trimEndBy (· == ':') t ++ List.replicate (k + 1) ':' := by
  have : t ≠ [] := by rintro rfl; simp [endsWithChar] at h
  have hl : t.getLast? = some ':' := by simpa [endsWithChar] using h
  unfold trimEndBy
  have e1 : t.reverse = t.reverse.takeWhile (· == ':') ++ t.reverse.dropWhile (· == ':') :=
    (List.takeWhile_append_dropWhile).symm
  have hk : t.reverse.takeWhile (· == ':') =
      List.replicate (t.reverse.takeWhile (· == ':')).length ':' := by
    apply List.eq_replicate_of_mem
    intro x hx
    have := List.all_eq_true.1 (List.all_takeWhile (p := (· == ':')) (l := t.reverse)) x hx
    simpa using this
  have hpos : 0 < (t.reverse.takeWhile (· == ':')).length := by
    have : t.reverse.head? = some ':' := by rw [List.head?_reverse]; exact hl
    cases hr : t.reverse with
    | nil => rw [hr] at this; simp at this
    | cons a l =>
      rw [hr] at this
      simp only [List.head?_cons, Option.some.injEq] at this
      subst this
      simp
  refine ⟨(t.reverse.takeWhile (· == ':')).length - 1, ?_⟩
  have : (t.reverse.takeWhile (· == ':')).length - 1 + 1 = (t.reverse.takeWhile (· == ':')).length := by
    omega
  rw [this]
  have e2 := congrArg List.reverse e1
  rw [List.reverse_reverse, List.reverse_append] at e2
  conv => lhs; rw [e2]
  congr 1
  rw [hk, List.reverse_replicate, List.length_replicate]

theorem trimEnd_colons {n : Str} (k : Nat) (h : endsWithChar ':' n = false) :
    trimEndBy (· == ':') (n ++ List.replicate k ':') = n := by
  unfold trimEndBy
  rw [List.reverse_append, List.reverse_replicate]
  have : ∀ k, (List.replicate k ':' ++ n.reverse).dropWhile (· == ':') = n.reverse := by
    intro k
    induction k with
    | zero =>
      simp only [List.replicate_zero, List.nil_append]
      cases hr : n.reverse with
      | nil => rfl
      | cons a l =>
        have ha : n.getLast? = some a := by rw [← List.head?_reverse, hr]; rfl
        have : a ≠ ':' := by rintro rfl; simp [endsWithChar, ha] at h
        rw [List.dropWhile_cons, if_neg (by simpa using this)]
    | succ k ih => rw [List.replicate_succ, List.cons_append, List.dropWhile_cons, if_pos (by decide), ih]
  rw [this, List.reverse_reverse]

theorem trimEnd_not_colon (t : Str) : endsWithChar ':' (trimEndBy (· == ':') t) = false := by
  unfold trimEndBy endsWithChar
  rw [List.getLast?_reverse]
  induction t.reverse with
  | nil => rfl
  | cons a l ih =>
    rw [List.dropWhile_cons]
    split
    · exact ih
    · rename_i h
      simpa using h

theorem ends_colons (n : Str) (k : Nat) :
    endsWithChar ':' (n ++ List.replicate (k + 1) ':') = true := by
  unfold endsWithChar
  rw [List.replicate_succ', ← List.append_assoc, List.getLast?_concat]
  rfl

end AT.AsmSpec
