import Verif.Spec.AsmSpec
/-!
# Lemmas: cutting strings
-/

namespace AT.AsmSpec

/-! ## `splitOnce` -/

theorem splitOnce_some {p : Char → Bool} {s a b : Str} (h : splitOnce p s = some (a, b)) :
    ∃ c, s = a ++ c :: b ∧ p c = true ∧ ∀ x ∈ a, p x = false := by
  induction s generalizing a b with
  | nil => simp [splitOnce] at h
  | cons c cs ih =>
    unfold splitOnce at h
    by_cases hp : p c = true
    · rw [if_pos hp] at h
      simp only [Option.some.injEq, Prod.mk.injEq] at h
      obtain ⟨rfl, rfl⟩ := h
      exact ⟨c, rfl, hp, by simp⟩
    · rw [if_neg hp] at h
      cases hs : splitOnce p cs with
      | none => rw [hs] at h; simp at h
      | some q =>
        obtain ⟨a', b'⟩ := q
        rw [hs] at h
        simp only [Option.some.injEq, Prod.mk.injEq] at h
        obtain ⟨rfl, rfl⟩ := h
        obtain ⟨d, rfl, hd, ha⟩ := ih hs
        refine ⟨d, rfl, hd, fun x hx => ?_⟩
        rcases List.mem_cons.1 hx with rfl | hx
        · simpa using hp
        · exact ha x hx

theorem splitOnce_eq {p : Char → Bool} {a b : Str} {c : Char} (hc : p c = true)
    (ha : ∀ x ∈ a, p x = false) : splitOnce p (a ++ c :: b) = some (a, b) := by
  induction a with
  | nil => simp [splitOnce, hc]
  | cons x xs ih =>
    have hx := ha x (by simp)
    rw [List.cons_append]
    unfold splitOnce
    rw [if_neg (by simp [hx]), ih (fun y hy => ha y (by simp [hy]))]

theorem splitOnce_none {p : Char → Bool} {s : Str} :
    splitOnce p s = none ↔ ∀ x ∈ s, p x = false := by
  induction s with
  | nil => simp [splitOnce]
  | cons c cs ih =>
    unfold splitOnce
    by_cases hp : p c = true
    · rw [if_pos hp]
      simp [hp]
    · rw [if_neg hp]
      cases hs : splitOnce p cs with
      | none =>
        simp only [List.mem_cons, forall_eq_or_imp]
        exact ⟨fun _ => ⟨by simpa using hp, ih.1 hs⟩, fun _ => trivial⟩
      | some q =>
        simp only [List.mem_cons, forall_eq_or_imp]
        constructor
        · intro h; simp at h
        · intro h
          have := ih.2 h.2
          rw [hs] at this
          simp at this

/-! ## Blanks -/

theorem Blank.nil : Blank [] := by simp [Blank]

theorem Blank.append {a b : Str} (ha : Blank a) (hb : Blank b) : Blank (a ++ b) := by
  intro c hc
  rcases List.mem_append.1 hc with h | h
  · exact ha c h
  · exact hb c h

theorem Blank.reverse {a : Str} (ha : Blank a) : Blank a.reverse := by
  intro c hc; exact ha c (List.mem_reverse.1 hc)

theorem dropWhile_blank {w s : Str} (hw : Blank w) :
    (w ++ s).dropWhile isWs = s.dropWhile isWs := by
  induction w with
  | nil => rfl
  | cons c w ih =>
    rw [List.cons_append, List.dropWhile_cons, if_pos (hw c (by simp))]
    exact ih (fun x hx => hw x (by simp [hx]))

theorem dropWhile_solid {s : Str} (hs : StartsSolid s) : s.dropWhile isWs = s := by
  cases s with
  | nil => rfl
  | cons c r => rw [List.dropWhile_cons, if_neg (by simp [hs c r rfl])]

theorem startsSolid_dropWhile (s : Str) : StartsSolid (s.dropWhile isWs) := by
  induction s with
  | nil => intro c r h; simp at h
  | cons c s ih =>
    rw [List.dropWhile_cons]
    by_cases hc : isWs c = true
    · rw [if_pos hc]; exact ih
    · rw [if_neg hc]
      intro d r h
      simp only [List.cons.injEq] at h
      rw [← h.1]; simpa using hc

theorem startsSolid_reverse {s : Str} : StartsSolid s.reverse ↔ EndsSolid s := by
  constructor
  · intro h c r hs
    exact h c r.reverse (by simp [hs])
  · intro h c r hs
    refine h c r.reverse ?_
    have := congrArg List.reverse hs
    simpa using this

theorem blank_takeWhile (s : Str) : Blank (s.takeWhile isWs) := by
  intro c hc
  have := List.all_takeWhile (p := isWs) (l := s)
  exact List.all_eq_true.1 this c hc

/-- `trim` removes exactly the blanks at both ends. -/
theorem trim_eq {w1 m w2 : Str} (h1 : Blank w1) (h2 : Blank w2) (hs : StartsSolid m)
    (he : EndsSolid m) : trim (w1 ++ m ++ w2) = m := by
  unfold trim trimEnd trimStart trimEndBy trimStartBy
  rw [List.append_assoc, dropWhile_blank h1]
  by_cases hm : m = []
  · subst hm
    rw [List.nil_append]
    have : w2.dropWhile isWs = [] := by
      have := dropWhile_blank (s := []) h2
      simpa using this
    rw [this]; rfl
  · have hs' : StartsSolid (m ++ w2) := by
      intro c r h
      cases m with
      | nil => exact absurd rfl hm
      | cons d m' =>
        simp only [List.cons_append, List.cons.injEq] at h
        exact h.1 ▸ hs d m' rfl
    rw [dropWhile_solid hs', List.reverse_append, dropWhile_blank h2.reverse,
      dropWhile_solid (startsSolid_reverse.2 he), List.reverse_reverse]

/-- Every string is blanks, its trimmed form, blanks. -/
theorem trim_split (s : Str) : ∃ w1 w2, s = w1 ++ trim s ++ w2 ∧ Blank w1 ∧ Blank w2 ∧
    StartsSolid (trim s) ∧ EndsSolid (trim s) := by
  refine ⟨s.takeWhile isWs, ((s.dropWhile isWs).reverse.takeWhile isWs).reverse, ?_,
    blank_takeWhile _, (blank_takeWhile _).reverse, ?_, ?_⟩
  · unfold trim trimEnd trimStart trimEndBy trimStartBy
    rw [List.append_assoc, ← List.reverse_append, List.takeWhile_append_dropWhile,
      List.reverse_reverse, List.takeWhile_append_dropWhile]
  · unfold trim trimEnd trimStart trimEndBy trimStartBy
    intro c r h
    have hp : (s.dropWhile isWs).reverse.dropWhile isWs <:+ (s.dropWhile isWs).reverse :=
      List.dropWhile_suffix _
    have hp' := List.reverse_prefix.2 hp
    rw [List.reverse_reverse, h] at hp'
    obtain ⟨z, hz⟩ := hp'
    exact startsSolid_dropWhile s c (r ++ z) (by rw [← hz]; rfl)
  · unfold trim trimEnd trimStart trimEndBy trimStartBy
    rw [← startsSolid_reverse, List.reverse_reverse]
    exact startsSolid_dropWhile _

theorem trim_blank_left {w s : Str} (hw : Blank w) : trim (w ++ s) = trim s := by
  obtain ⟨w1, w2, h, h1, h2, hs, he⟩ := trim_split s
  have := trim_eq (hw.append h1) h2 hs he
  rw [List.append_assoc, List.append_assoc, ← List.append_assoc w1, ← h] at this
  exact this

theorem trim_blank_right {w s : Str} (hw : Blank w) : trim (s ++ w) = trim s := by
  obtain ⟨w1, w2, h, h1, h2, hs, he⟩ := trim_split s
  have := trim_eq h1 (h2.append hw) hs he
  rw [← List.append_assoc, ← h] at this
  exact this

theorem trim_solid {s : Str} (hs : StartsSolid s) (he : EndsSolid s) : trim s = s := by
  have := trim_eq (w1 := []) (w2 := []) Blank.nil Blank.nil hs he
  simpa using this

theorem trim_trim (s : Str) : trim (trim s) = trim s := by
  obtain ⟨w1, w2, h, h1, h2, hs, he⟩ := trim_split s
  exact trim_solid hs he

theorem Solid.starts {s : Str} (h : Solid s) : StartsSolid s := by
  intro c r hs; exact h c (by simp [hs])

theorem Solid.ends {s : Str} (h : Solid s) : EndsSolid s := by
  intro c r hs; exact h c (by simp [hs])

theorem trim_of_solid {s : Str} (h : Solid s) : trim s = s := trim_solid h.starts h.ends

/-! ## Tokens -/

theorem splitWsGo_solid (t : Str) (ht : Solid t) (cur rest : Str) :
    splitWsGo cur (t ++ rest) = splitWsGo (t.reverse ++ cur) rest := by
  induction t generalizing cur with
  | nil => rfl
  | cons c t ih =>
    rw [List.cons_append]
    rw [splitWsGo, if_neg (by simp [ht c (by simp)]), ih (fun x hx => ht x (by simp [hx]))]
    simp

theorem splitWsGo_blank (w : Str) (hw : Blank w) (s : Str) :
    splitWsGo [] (w ++ s) = splitWsGo [] s := by
  induction w with
  | nil => rfl
  | cons c w ih =>
    rw [List.cons_append]
    rw [splitWsGo, if_pos (hw c (by simp))]
    exact ih (fun x hx => hw x (by simp [hx]))

theorem splitWsGo_broken (cur rest : Str) (hc : cur ≠ []) (hb : Broken rest) :
    splitWsGo cur rest = cur.reverse :: splitWsGo [] rest := by
  have he : cur.isEmpty = false := by simpa using hc
  cases rest with
  | nil => simp [splitWsGo, he]
  | cons c r =>
    rw [splitWsGo, splitWsGo, if_pos (hb c r rfl), if_pos (hb c r rfl), he]
    rfl

theorem splitWs_of_tokens {s : Str} {ts : List Str} (h : Tokens s ts) : splitWs s = ts := by
  unfold splitWs
  induction h with
  | nil w hw =>
    have := splitWsGo_blank w hw []
    rw [List.append_nil] at this
    rw [this]; rfl
  | cons w t rest ts hw hne ht hb _ ih =>
    rw [List.append_assoc, splitWsGo_blank w hw, splitWsGo_solid t ht,
      splitWsGo_broken _ _ (by simpa using hne) hb, ih]
    simp

theorem broken_dropWhile (s : Str) : Broken (s.dropWhile (fun c => !isWs c)) := by
  induction s with
  | nil => intro c r h; simp at h
  | cons c s ih =>
    rw [List.dropWhile_cons]
    by_cases hc : isWs c = true
    · rw [if_neg (by simp [hc])]
      intro d r h
      simp only [List.cons.injEq] at h
      exact h.1 ▸ hc
    · rw [if_pos (by simp [hc])]; exact ih

theorem tokens_exists (s : Str) : ∃ ts, Tokens s ts := by
  induction h : s.length using Nat.strongRecOn generalizing s with
  | _ n ih =>
    subst h
    cases hd : s.dropWhile isWs with
    | nil =>
      have hs := List.takeWhile_append_dropWhile (p := isWs) (l := s)
      rw [hd, List.append_nil] at hs
      exact ⟨[], .nil s (by rw [← hs]; exact blank_takeWhile s)⟩
    | cons c r =>
      have hc : isWs c = false := startsSolid_dropWhile s c r hd
      have h1 := List.takeWhile_append_dropWhile (p := isWs) (l := s)
      have h2 := List.takeWhile_append_dropWhile (p := fun c => !isWs c) (l := c :: r)
      have hne : (c :: r).takeWhile (fun c => !isWs c) ≠ [] := by
        rw [List.takeWhile_cons, if_pos (by simp [hc])]; simp
      have hlen : ((c :: r).dropWhile (fun c => !isWs c)).length < s.length := by
        have e1 := congrArg List.length h1
        have e2 := congrArg List.length h2
        rw [hd] at e1
        simp only [List.length_append] at e1 e2
        have := List.length_pos_iff.2 hne
        omega
      obtain ⟨ts, hts⟩ := ih _ hlen _ rfl
      have := Tokens.cons (s.takeWhile isWs) _ _ ts (blank_takeWhile s) hne
        (by
          intro x hx
          have := List.all_eq_true.1 (List.all_takeWhile (p := fun c => !isWs c) (l := c :: r)) x hx
          simpa using this) (broken_dropWhile (c :: r)) hts
      rw [List.append_assoc, h2, ← hd, h1] at this
      exact ⟨_, this⟩

/-- `split_whitespace` yields exactly the tokens. -/
theorem splitWs_iff {s : Str} {ts : List Str} : splitWs s = ts ↔ Tokens s ts := by
  constructor
  · rintro rfl
    obtain ⟨ts, h⟩ := tokens_exists s
    rw [splitWs_of_tokens h]; exact h
  · exact splitWs_of_tokens

theorem splitWs_blank_left {w s : Str} (hw : Blank w) : splitWs (w ++ s) = splitWs s :=
  splitWsGo_blank w hw s

theorem Tokens.blank_right {s : Str} {ts : List Str} (h : Tokens s ts) {w : Str} (hw : Blank w) :
    Tokens (s ++ w) ts := by
  induction h with
  | nil v hv => exact .nil _ (hv.append hw)
  | cons v t rest ts hv hne ht hb _ ih =>
    rw [List.append_assoc]
    refine .cons v t _ ts hv hne ht ?_ ih
    intro c r h
    cases rest with
    | nil => exact hw c (by rw [List.nil_append] at h; simp [h])
    | cons d r' =>
      simp only [List.cons_append, List.cons.injEq] at h
      exact h.1 ▸ hb d r' rfl

theorem splitWs_blank_right {w s : Str} (hw : Blank w) : splitWs (s ++ w) = splitWs s :=
  splitWs_iff.2 ((splitWs_iff.1 rfl).blank_right hw)

theorem splitWs_trim (s : Str) : splitWs (trim s) = splitWs s := by
  obtain ⟨w1, w2, h, h1, h2, hs, he⟩ := trim_split s
  conv => rhs; rw [h]
  rw [splitWs_blank_right h2, splitWs_blank_left h1]

theorem Tokens.det {s : Str} {ts us : List Str} (h : Tokens s ts) (h' : Tokens s us) : ts = us :=
  (splitWs_of_tokens h).symm.trans (splitWs_of_tokens h')

theorem Tokens.ne_nil {s : Str} {ts : List Str} (h : Tokens s ts) : ∀ t ∈ ts, t ≠ [] ∧ Solid t := by
  induction h with
  | nil => simp
  | cons w t rest ts _ hne hs _ _ ih =>
    intro u hu
    rcases List.mem_cons.1 hu with rfl | hu
    · exact ⟨hne, hs⟩
    · exact ih u hu

/-- One token is blanks, the token, blanks. -/
theorem splitWs_single {w1 t w2 : Str} (h1 : Blank w1) (h2 : Blank w2) (hne : t ≠ [])
    (hs : Solid t) : splitWs (w1 ++ t ++ w2) = [t] := by
  apply splitWs_of_tokens
  exact .cons w1 t w2 [] h1 hne hs (fun c r h => h2 c (by simp [h])) (.nil w2 h2)

/-! ## Comments -/

theorem stripComment_eq {s c : Str} (h : Code s c) : Asm.stripComment s = c := by
  obtain ⟨hn, h⟩ := h
  have hf : ∀ x ∈ c, (x == ';') = false := fun x hx => by
    have : x ≠ ';' := fun h => hn (h ▸ hx)
    simpa using this
  unfold Asm.stripComment
  rcases h with rfl | ⟨r, rfl⟩
  · rw [splitOnce_none.2 hf]
  · rw [splitOnce_eq (by rfl) hf]

theorem code_strip (s : Str) : Code s (Asm.stripComment s) := by
  unfold Asm.stripComment
  cases h : splitOnce (· == ';') s with
  | none =>
    refine ⟨?_, .inl rfl⟩
    intro hm
    have := splitOnce_none.1 h _ hm
    simp at this
  | some q =>
    obtain ⟨a, b⟩ := q
    obtain ⟨c, rfl, hc, ha⟩ := splitOnce_some h
    have : c = ';' := by simpa using hc
    subst this
    refine ⟨?_, .inr ⟨b, rfl⟩⟩
    intro hm
    have := ha _ hm
    simp at this

end AT.AsmSpec
