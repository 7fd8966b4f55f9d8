import Verif.Proofs.AsmLine
import Verif.Proofs.MacIo
/-!
# Lemmas: data directives
-/

namespace AT.AsmSpec
open AT.Asm AT.X64

/-- The element size of a directive. -/
def alignSize : Align → Nat
  | .db => 1
  | .dw => 2
  | .dd => 4
  | .dq => 8

theorem alignOf_iff (s : Str) (a : Align) : alignOf s = some a ↔ (s, alignSize a) ∈ directives := by
  unfold alignOf directives
  by_cases h1 : s = str% "db"
  · subst h1; cases a <;> simp [alignSize]
  by_cases h2 : s = str% "dw"
  · subst h2; cases a <;> simp [alignSize]
  by_cases h3 : s = str% "dd"
  · subst h3; cases a <;> simp [alignSize]
  by_cases h4 : s = str% "dq"
  · subst h4; cases a <;> simp [alignSize]
  simp [h1, h2, h3, h4]

theorem directive_align {s : Str} {w : Nat} (h : (s, w) ∈ directives) :
    ∃ a, alignOf s = some a ∧ alignSize a = w := by
  simp only [directives, List.mem_cons, Prod.mk.injEq, List.not_mem_nil, or_false] at h
  rcases h with ⟨rfl, rfl⟩ | ⟨rfl, rfl⟩ | ⟨rfl, rfl⟩ | ⟨rfl, rfl⟩
  · exact ⟨.db, rfl, rfl⟩
  · exact ⟨.dw, rfl, rfl⟩
  · exact ⟨.dd, rfl, rfl⟩
  · exact ⟨.dq, rfl, rfl⟩

theorem alignOf_none (s : Str) : alignOf s = none ↔ ∀ w, (s, w) ∉ directives := by
  constructor
  · intro h w hw
    obtain ⟨a, ha, _⟩ := directive_align hw
    rw [ha] at h; simp at h
  · intro h
    cases ha : alignOf s with
    | none => rfl
    | some a => exact absurd ((alignOf_iff s a).1 ha) (h _)

/-! ## Characters of numbers -/

/-- The characters a number can be made of. -/
def numChar (c : Char) : Prop := (hexDigit c).isSome ∨ c = 'x' ∨ c = '+'

theorem dec_hex {c : Char} (h : (decDigit c).isSome) : (hexDigit c).isSome := by
  unfold decDigit at h
  unfold hexDigit
  split at h
  · rw [if_pos ‹_›]; rfl
  · simp at h

theorem digits_chars {d : Char → Option Nat} {b : Nat} {s : Str} {n : Nat} (h : Digits d b s n) :
    s ≠ [] ∧ ∀ c ∈ s, (d c).isSome := by
  induction h with
  | one c v hv => simp [hv]
  | snoc s n c v _ hv ih =>
    refine ⟨by simp, fun x hx => ?_⟩
    rcases List.mem_append.1 hx with hx | hx
    · exact ih.2 x hx
    · rw [List.mem_singleton.1 hx, hv]; rfl

theorem zeroXs_chars (k : Nat) : ∀ c ∈ zeroXs k, numChar c := by
  induction k with
  | zero => simp [zeroXs]
  | succ k ih =>
    intro c hc
    simp only [zeroXs, List.mem_cons] at hc
    rcases hc with rfl | rfl | hc
    · exact .inl (by decide)
    · exact .inr (.inl rfl)
    · exact ih c hc

theorem number_chars {s : Str} {n : Nat} (h : Number s n) : s ≠ [] ∧ ∀ c ∈ s, numChar c := by
  rcases h with h | h
  · cases h with
    | dec _ _ h =>
      have := digits_chars h
      exact ⟨this.1, fun c hc => .inl (dec_hex (this.2 c hc))⟩
    | hex s _ h =>
      have := digits_chars h
      refine ⟨by simp, fun c hc => ?_⟩
      simp only [List.mem_cons] at hc
      rcases hc with rfl | rfl | hc
      · exact .inl (by decide)
      · exact .inr (.inl rfl)
      · exact .inl (this.2 c hc)
  · cases h with
    | plusDec s _ h =>
      have := digits_chars h
      refine ⟨by simp, fun c hc => ?_⟩
      simp only [List.mem_cons] at hc
      rcases hc with rfl | hc
      · exact .inr (.inr rfl)
      · exact .inl (dec_hex (this.2 c hc))
    | plusHex k s _ h =>
      have := digits_chars h
      refine ⟨by simp, fun c hc => ?_⟩
      simp only [List.mem_append, List.mem_cons] at hc
      rcases hc with hc | rfl | hc
      · exact zeroXs_chars _ c hc
      · exact .inr (.inr rfl)
      · exact .inl (this.2 c hc)
    | again k s _ h =>
      have := digits_chars h
      refine ⟨by simp [this.1], fun c hc => ?_⟩
      simp only [List.mem_append] at hc
      rcases hc with hc | hc
      · exact zeroXs_chars _ c hc
      · exact .inl (this.2 c hc)

theorem hexDigit_range {c : Char} (h : (hexDigit c).isSome) :
    (48 ≤ c.toNat ∧ c.toNat ≤ 57) ∨ (97 ≤ c.toNat ∧ c.toNat ≤ 102) ∨
      (65 ≤ c.toNat ∧ c.toNat ≤ 70) := by
  unfold hexDigit at h
  simp only [char_le, show '0'.toNat = 48 from rfl, show '9'.toNat = 57 from rfl,
    show 'a'.toNat = 97 from rfl, show 'f'.toNat = 102 from rfl, show 'A'.toNat = 65 from rfl,
    show 'F'.toNat = 70 from rfl] at h
  split at h
  · exact .inl ‹_›
  · split at h
    · exact .inr (.inl ‹_›)
    · split at h
      · exact .inr (.inr ‹_›)
      · simp at h

theorem numChar_range {c : Char} (h : numChar c) :
    33 ≤ c.toNat ∧ c.toNat ≤ 122 ∧ c ≠ ',' ∧ c ≠ '"' ∧ c ≠ ';' ∧ c ≠ ':' := by
  have ne : ∀ d : Char, c.toNat ≠ d.toNat → c ≠ d := fun d h e => h (by rw [e])
  rcases h with h | rfl | rfl
  · have := hexDigit_range h
    exact ⟨by omega, by omega, ne _ (by simp; omega), ne _ (by simp; omega), ne _ (by simp; omega),
      ne _ (by simp; omega)⟩
  · decide
  · decide

theorem isWs_mid {c : Char} (h1 : 33 ≤ c.toNat) (h2 : c.toNat ≤ 122) : isWs c = false := by
  unfold isWs
  simp
  omega

theorem isDelim_iff (c : Char) : isDelim c = true ↔ Delim c := by
  simp [isDelim, Delim]

theorem numChar_not_delim {c : Char} (h : numChar c) : isDelim c = false := by
  obtain ⟨h1, h2, h3, _⟩ := numChar_range h
  simp [isDelim, isWs_mid h1 h2, h3]

theorem number_not_delim {s : Str} {n : Nat} (h : Number s n) : ∀ c ∈ s, isDelim c = false :=
  fun c hc => numChar_not_delim ((number_chars h).2 c hc)

theorem number_starts {s : Str} {n : Nat} (h : Number s n) :
    ∃ c r, s = c :: r ∧ c ≠ '"' ∧ isDelim c = false := by
  obtain ⟨hne, hc⟩ := number_chars h
  cases s with
  | nil => exact absurd rfl hne
  | cons c r =>
    have := hc c (by simp)
    exact ⟨c, r, rfl, (numChar_range this).2.2.2.1, numChar_not_delim this⟩

/-- A list of items does not start with a separator. -/
theorem items_starts {s : Str} {its : List Item} (h : Items s its) :
    ∀ c r, s = c :: r → isDelim c = false := by
  intro c r hs
  cases h with
  | nil => simp at hs
  | last a n hN _ =>
    obtain ⟨c', r', hs', _, hd⟩ := number_starts hN
    rw [hs'] at hs
    simp only [List.cons.injEq] at hs
    rw [← hs.1]; exact hd
  | num a n c' w rest its hN =>
    obtain ⟨c', r', hs', _, hd⟩ := number_starts hN
    rw [hs'] at hs
    simp only [List.cons_append, List.cons.injEq] at hs
    rw [← hs.1]; exact hd
  | str =>
    simp only [List.cons.injEq] at hs
    rw [← hs.1]; decide

theorem dropWhile_all {p : Char → Bool} {w s : Str} (hw : ∀ c ∈ w, p c = true)
    (hs : ∀ c r, s = c :: r → p c = false) : (w ++ s).dropWhile p = s := by
  induction w with
  | nil =>
    cases s with
    | nil => rfl
    | cons c r => rw [List.nil_append, List.dropWhile_cons, if_neg (by simp [hs c r rfl])]
  | cons x w ih =>
    rw [List.cons_append, List.dropWhile_cons, if_pos (hw x (by simp))]
    exact ih (fun c hc => hw c (by simp [hc]))

/-! ## One item -/

theorem parseU64_ok {s : Str} {n : Nat} (h : Number s n) (hn : n < 2 ^ 64) :
    parseU64 s = .ok (UInt64.ofNat n) := by
  rw [parseU64, tryParseNum_some hn h]; rfl

theorem next_number_last {a : Str} {n : Nat} (h : Number a n) (hn : n < 2 ^ 64) :
    dataNext a = some (.ok (.num (UInt64.ofNat n), [])) := by
  obtain ⟨c, r, rfl, hq, hd⟩ := number_starts h
  have hs : splitDelimOnce (c :: r) = (c :: r, []) := by
    rw [splitDelimOnce, splitOnce_none.2 (number_not_delim h)]
  unfold dataNext
  split
  · rename_i h'; simp at h'
  · rename_i h'; simp only [List.cons.injEq] at h'; exact absurd h'.1 hq
  · rw [hs]; simp only [parseU64_ok h hn]

theorem next_number {a : Str} {n : Nat} {c : Char} {w rest : Str} {its : List Item} (h : Number a n)
    (hn : n < 2 ^ 64) (hc : Delim c) (hw : Blank w) (hr : Items rest its) :
    dataNext (a ++ c :: (w ++ rest)) = some (.ok (.num (UInt64.ofNat n), rest)) := by
  have hs : splitDelimOnce (a ++ c :: (w ++ rest)) = (a, rest) := by
    rw [splitDelimOnce, splitOnce_eq ((isDelim_iff c).2 hc) (number_not_delim h)]
    simp only [Prod.mk.injEq, true_and, trimStart, trimStartBy]
    apply dropWhile_all hw
    intro x r hx
    have := items_starts hr x r hx
    simp only [isDelim, Bool.or_eq_false_iff] at this
    exact this.1
  obtain ⟨x, r, ha, hq, hd⟩ := number_starts h
  unfold dataNext
  split
  · rename_i h'; simp at h'
  · rename_i h'
    rw [ha] at h'
    simp only [List.cons_append, List.cons.injEq] at h'; exact absurd h'.1 hq
  · rw [hs]; simp only [parseU64_ok h hn]

theorem next_string {body w rest : Str} {its : List Item} (hb : '"' ∉ body) (hw : ∀ c ∈ w, Delim c)
    (hr : Items rest its) :
    dataNext ('"' :: (body ++ '"' :: (w ++ rest))) = some (.ok (.str body, rest)) := by
  have hs : splitOnce (· == '"') (body ++ '"' :: (w ++ rest)) = some (body, w ++ rest) := by
    apply splitOnce_eq (by decide)
    intro x hx
    have : x ≠ '"' := fun h => hb (h ▸ hx)
    simpa using this
  have hd : trimStartBy isDelim (w ++ rest) = rest :=
    dropWhile_all (fun c hc => (isDelim_iff c).2 (hw c hc)) (items_starts hr)
  simp only [dataNext, hs, hd]

/-- Every successful `dataNext` takes an item off the front. -/
theorem next_inv {s s' : Str} {d : DataDef} (h : dataNext s = some (.ok (d, s'))) :
    s'.length < s.length ∧
    ((∃ n, d = .num n ∧ ((Number s n.toNat ∧ s' = []) ∨
      ∃ a c w, s = a ++ c :: (w ++ s') ∧ Number a n.toNat ∧ Delim c ∧ Blank w)) ∨
    (∃ body w, d = .str body ∧ s = '"' :: (body ++ '"' :: (w ++ s')) ∧ '"' ∉ body ∧
      ∀ c ∈ w, Delim c)) := by
  unfold dataNext at h
  split at h
  · simp at h
  · rename_i t
    split at h
    · simp [perr] at h
    · rename_i d' rmn hs
      simp only [Option.some.injEq, Except.ok.injEq, Prod.mk.injEq] at h
      obtain ⟨rfl, rfl⟩ := h
      obtain ⟨q, ht, hq, hb⟩ := splitOnce_some hs
      have hq' : q = '"' := by simpa using hq
      subst hq'
      have hb' : '"' ∉ d' := fun hh => by simpa using hb _ hh
      have hsplit : rmn = rmn.takeWhile isDelim ++ trimStartBy isDelim rmn :=
        (List.takeWhile_append_dropWhile).symm
      have hlen : (trimStartBy isDelim rmn).length ≤ rmn.length := by
        have := congrArg List.length hsplit
        rw [List.length_append] at this; omega
      refine ⟨?_, .inr ⟨d', rmn.takeWhile isDelim, rfl, ?_, hb', ?_⟩⟩
      · have := congrArg List.length ht
        simp only [List.length_append, List.length_cons] at this ⊢
        omega
      · rw [← hsplit, ht]
      · intro c hc
        exact (isDelim_iff c).1
          (List.all_eq_true.1 (List.all_takeWhile (p := isDelim) (l := rmn)) c hc)
  · rename_i hne hq
    have hne' : s ≠ [] := fun hh => hne hh
    cases hs : splitOnce isDelim s with
    | none =>
      rw [splitDelimOnce, hs] at h
      simp only at h
      split at h
      · rename_i n hp
        simp only [Option.some.injEq, Except.ok.injEq, Prod.mk.injEq] at h
        obtain ⟨rfl, rfl⟩ := h
        refine ⟨?_, .inl ⟨n, rfl, .inl ⟨?_, rfl⟩⟩⟩
        · simpa using List.length_pos_iff.2 hne'
        · rw [parseU64] at hp
          split at hp
          · rename_i m hm
            simp only [pure, Except.pure, Except.ok.injEq] at hp
            subst hp
            have := (tryParseNum_iff (by decide) s m).1 hm
            exact number_u64 this.2 this.1
          · simp [perr] at hp
      · simp at h
    | some p =>
      obtain ⟨a, b⟩ := p
      rw [splitDelimOnce, hs] at h
      simp only at h
      split at h
      · rename_i n hp
        simp only [Option.some.injEq, Except.ok.injEq, Prod.mk.injEq] at h
        obtain ⟨rfl, rfl⟩ := h
        obtain ⟨c, hsc, hc, ha⟩ := splitOnce_some hs
        have hsplit : b = b.takeWhile isWs ++ trimStart b := (List.takeWhile_append_dropWhile).symm
        refine ⟨?_, .inl ⟨n, rfl, .inr ⟨a, c, b.takeWhile isWs, ?_, ?_, (isDelim_iff c).1 hc, blank_takeWhile b⟩⟩⟩
        · have h1 := congrArg List.length hsplit
          rw [List.length_append] at h1
          have := congrArg List.length hsc
          simp only [List.length_append, List.length_cons] at this
          omega
        · rw [← hsplit]; exact hsc
        · rw [parseU64] at hp
          split at hp
          · rename_i m hm
            simp only [pure, Except.pure, Except.ok.injEq] at hp
            subst hp
            have := (tryParseNum_iff (by decide) a m).1 hm
            exact number_u64 this.2 this.1
          · simp [perr] at hp
      · simp at h

/-! ## Bytes of an item -/

/-- The specification's view of an item. -/
def itemOf : DataDef → Item
  | .num n => .num n.toNat
  | .str s => .str s

theorem le_iff (w n : Nat) (bs : Bytes) :
    (bs.length = w ∧ leVal bs = n) ↔ n < 256 ^ w ∧ bs = leBytes w n := by
  constructor
  · rintro ⟨rfl, rfl⟩
    exact ⟨Mac.leVal_lt bs, (Mac.leBytes_leVal bs).symm⟩
  · rintro ⟨h, rfl⟩
    exact ⟨length_leBytes w n, Mac.leVal_leBytes w n h⟩

theorem pad_iff (a : Align) (s : Str) (bs : Bytes) :
    ItemBytes (alignSize a) (.str s) bs ↔ bs = writeStr s a := by
  unfold ItemBytes writeStr
  have hl : (utf8 s).length = utf8Len s := rfl
  constructor
  · rintro ⟨p, rfl, hp, hm⟩
    simp only [List.length_append, List.length_replicate, hl] at hm
    have : p = strPad (utf8Len s) a := by
      cases a <;> simp only [alignSize, strPad] at * <;> omega
    rw [this]
  · rintro rfl
    refine ⟨_, rfl, ?_, ?_⟩
    · cases a <;> simp only [alignSize, strPad] <;> omega
    · simp only [List.length_append, List.length_replicate, hl]
      cases a <;> simp only [alignSize, strPad] <;> omega

theorem item_bytes (d : DataDef) (a : Align) (bs : Bytes) :
    d.write a = .ok bs ↔ ItemBytes (alignSize a) (itemOf d) bs := by
  cases d with
  | str s =>
    rw [itemOf, pad_iff]
    simp only [DataDef.write, pure, Except.pure, Except.ok.injEq]
    exact eq_comm
  | num n =>
    rw [itemOf, ItemBytes, le_iff]
    have := n.toNat_lt
    cases a <;> simp only [DataDef.write, writeNum, alignSize]
    all_goals try split
    all_goals simp only [pure, Except.pure, perr, Except.ok.injEq, reduceCtorEq, false_iff]
    all_goals first
      | (rintro ⟨h, _⟩; omega)
      | (constructor
         · rintro rfl; exact ⟨by omega, rfl⟩
         · rintro ⟨_, rfl⟩; rfl)

/-! ## The loop -/

theorem next_nil : dataNext [] = none := rfl

theorem next_cons_isSome (c : Char) (r : Str) : dataNext (c :: r) ≠ none := by
  unfold dataNext
  split
  · rename_i h; simp at h
  · split <;> simp
  · split
    split <;> simp

theorem loop_ok {s : Str} {its : List Item} (h : Items s its) {a : Align} {bs : Bytes}
    (hb : Stored (alignSize a) its bs) (fuel : Nat) (hf : s.length ≤ fuel) :
    dataLoop a fuel s = .ok bs := by
  induction h generalizing bs fuel with
  | nil =>
    cases hb
    cases fuel <;> rfl
  | last x n hN hn =>
    cases hb with
    | cons it its b bs' h1 h2 =>
      cases h2
      obtain ⟨c, r, rfl, _⟩ := number_starts hN
      cases fuel with
      | zero => simp at hf
      | succ fuel =>
        have hw : (DataDef.num (UInt64.ofNat n)).write a = .ok b := by
          rw [item_bytes, itemOf, UInt64.toNat_ofNat', Nat.mod_eq_of_lt hn]; exact h1
        simp only [dataLoop, next_number_last hN hn, hw, bind, Except.bind]
        have : dataLoop a fuel [] = .ok [] := by cases fuel <;> rfl
        rw [this]; rfl
  | num x n c w rest its hN hn hc hw _hr ih =>
    cases hb with
    | cons it its b bs' h1 h2 =>
      cases fuel with
      | zero => simp at hf
      | succ fuel =>
        have hw' : (DataDef.num (UInt64.ofNat n)).write a = .ok b := by
          rw [item_bytes, itemOf, UInt64.toNat_ofNat', Nat.mod_eq_of_lt hn]; exact h1
        simp only [dataLoop, next_number hN hn hc hw _hr, hw', bind, Except.bind]
        rw [ih h2 fuel (by simp at hf; omega)]; rfl
  | str body w rest its hq hw _hr ih =>
    cases hb with
    | cons it its b bs' h1 h2 =>
      cases fuel with
      | zero => simp at hf
      | succ fuel =>
        have hw' : (DataDef.str body).write a = .ok b := by
          rw [item_bytes]; exact h1
        simp only [dataLoop, next_string hq hw _hr, hw', bind, Except.bind]
        rw [ih h2 fuel (by simp at hf; omega)]; rfl

theorem loop_inv {a : Align} {fuel : Nat} {s : Str} {bs : Bytes} (hf : s.length ≤ fuel)
    (h : dataLoop a fuel s = .ok bs) : ∃ its, Items s its ∧ Stored (alignSize a) its bs := by
  induction fuel generalizing s bs with
  | zero =>
    have : s = [] := List.length_eq_zero_iff.1 (by omega)
    subst this
    cases h
    exact ⟨[], .nil, .nil⟩
  | succ fuel ih =>
    cases s with
    | nil => cases h; exact ⟨[], .nil, .nil⟩
    | cons c r =>
      rw [dataLoop] at h
      cases hn : dataNext (c :: r) with
      | none => exact absurd hn (next_cons_isSome c r)
      | some res =>
        rw [hn] at h
        cases res with
        | error e => simp at h
        | ok p =>
          obtain ⟨d, s'⟩ := p
          simp only [bind, Except.bind] at h
          cases hw : d.write a with
          | error e => rw [hw] at h; simp at h
          | ok b =>
            rw [hw] at h
            cases hl : dataLoop a fuel s' with
            | error e => rw [hl] at h; simp at h
            | ok bs' =>
              rw [hl] at h
              simp only [pure, Except.pure, Except.ok.injEq] at h
              subst h
              obtain ⟨hlt, hinv⟩ := next_inv hn
              obtain ⟨its, hi, hst⟩ := ih (by omega) hl
              have hb := (item_bytes d a b).1 hw
              refine ⟨itemOf d :: its, ?_, .cons _ _ _ _ hb hst⟩
              rcases hinv with ⟨n, rfl, ⟨hN, rfl⟩ | ⟨x, c', w, hs, hN, hc, hw⟩⟩ | ⟨body, w, rfl, hs, hq, hw⟩
              · have : its = [] := by
                  generalize hz : ([] : Str) = z at hi
                  cases hi with
                  | nil => rfl
                  | last a n hN => subst hz; exact absurd rfl (number_chars hN).1
                  | num => simp at hz
                  | str => simp at hz
                subst this
                exact .last _ _ hN n.toNat_lt
              · rw [hs]; exact .num x _ c' w s' its hN n.toNat_lt hc hw hi
              · rw [hs]; exact .str body w s' its hq hw hi

/-- Errors of the loop are parse errors. -/
theorem next_err {s : Str} {e : Stop} (h : dataNext s = some (.error e)) : ∃ msg, e = .parseErr msg := by
  unfold dataNext at h
  split at h
  · simp at h
  · split at h
    · simp only [perr, Option.some.injEq, Except.error.injEq] at h; exact ⟨_, h.symm⟩
    · simp at h
  · split at h
    split at h
    · simp at h
    · rename_i e' he
      simp only [Option.some.injEq, Except.error.injEq] at h
      subst h
      rw [parseU64] at he
      split at he
      · simp [pure, Except.pure] at he
      · simp only [perr, Except.error.injEq] at he; exact ⟨_, he.symm⟩

theorem write_err {d : DataDef} {a : Align} {e : Stop} (h : d.write a = .error e) :
    ∃ msg, e = .parseErr msg := by
  cases d with
  | str s => simp [DataDef.write, pure, Except.pure] at h
  | num n =>
    cases a <;> simp only [DataDef.write, writeNum] at h
    all_goals try split at h
    all_goals first
      | (simp [pure, Except.pure] at h; done)
      | (simp only [perr, Except.error.injEq] at h; exact ⟨_, h.symm⟩)

theorem loop_err {a : Align} {fuel : Nat} {s : Str} {e : Stop} (h : dataLoop a fuel s = .error e) :
    ∃ msg, e = .parseErr msg := by
  induction fuel generalizing s with
  | zero => simp [dataLoop, pure, Except.pure] at h
  | succ fuel ih =>
    rw [dataLoop] at h
    cases hn : dataNext s with
    | none => rw [hn] at h; simp [pure, Except.pure] at h
    | some res =>
      rw [hn] at h
      cases res with
      | error e' => simp only [Except.error.injEq] at h; subst h; exact next_err hn
      | ok p =>
        obtain ⟨d, s'⟩ := p
        simp only [bind, Except.bind] at h
        cases hw : d.write a with
        | error e' =>
          rw [hw] at h; simp only [Except.error.injEq] at h; subst h
          exact write_err hw
        | ok b =>
          rw [hw] at h
          cases hl : dataLoop a fuel s' with
          | error e' => rw [hl] at h; simp only [Except.error.injEq] at h; subst h; exact ih hl
          | ok bs' => rw [hl] at h; simp [pure, Except.pure] at h

/-! ## The parts of a data line -/

theorem split_ws_eq {l w r : Str} (hl : Solid l) (hw : Blank w) (hwn : w ≠ []) (hs : StartsSolid r)
    (he : EndsSolid r) : splitWhitespaceOnce (l ++ w ++ r) = some (l, r) := by
  cases w with
  | nil => exact absurd rfl hwn
  | cons c w =>
    unfold splitWhitespaceOnce
    rw [List.append_assoc, List.cons_append, splitOnce_eq (hw c (by simp)) hl]
    have hw' : Blank w := fun x hx => hw x (by simp [hx])
    simp only [trim_of_solid hl, trim_blank_left hw', trim_solid hs he]

theorem split_ws_inv {t l r : Str} (hs : StartsSolid t) (he : EndsSolid t)
    (h : splitWhitespaceOnce t = some (l, r)) : ∃ w, w ≠ [] ∧ Blank w ∧ t = l ++ w ++ r ∧ Solid l ∧
      l ≠ [] ∧ r ≠ [] ∧ StartsSolid r ∧ EndsSolid r := by
  unfold splitWhitespaceOnce at h
  cases hsp : splitOnce isWs t with
  | none => rw [hsp] at h; simp at h
  | some p =>
    obtain ⟨s1, s2⟩ := p
    rw [hsp] at h
    simp only [Option.some.injEq, Prod.mk.injEq] at h
    obtain ⟨rfl, rfl⟩ := h
    obtain ⟨c, ht, hc, hs1⟩ := splitOnce_some hsp
    have hsol : Solid s1 := hs1
    rw [trim_of_solid hsol]
    obtain ⟨w1, w2, h2, hb1, hb2, hss, hee⟩ := trim_split s2
    have hw2 : w2 = [] := by
      by_cases hw : w2 = []
      · exact hw
      · exfalso
        obtain ⟨v, x, rfl⟩ : ∃ v x, w2 = v ++ [x] :=
          ⟨w2.dropLast, w2.getLast hw, (List.dropLast_concat_getLast hw).symm⟩
        have := he x (s1 ++ c :: (w1 ++ trim s2 ++ v)) (by
          rw [ht]; conv => lhs; rw [h2]
          simp)
        rw [hb2 x (by simp)] at this
        simp at this
    subst hw2
    rw [List.append_nil] at h2
    refine ⟨c :: w1, by simp, ?_, ?_, hsol, ?_, ?_, hss, hee⟩
    · intro x hx
      rcases List.mem_cons.1 hx with rfl | hx
      · exact hc
      · exact hb1 x hx
    · rw [ht]; conv => lhs; rw [h2]
      simp
    · rintro rfl
      have := hs c s2 (by rw [ht]; rfl)
      rw [hc] at this; simp at this
    · intro hr
      rw [hr, List.append_nil] at h2
      have hw1 : Blank (c :: w1) := by
        intro x hx
        rcases List.mem_cons.1 hx with rfl | hx
        · exact hc
        · exact hb1 x hx
      have hne : (c :: w1) ≠ [] := by simp
      have := he ((c :: w1).getLast hne) (s1 ++ (c :: w1).dropLast) (by
        rw [ht, h2, List.append_assoc, List.dropLast_concat_getLast hne])
      rw [hw1 _ (List.getLast_mem hne)] at this
      simp at this

theorem solid_directive {d : Str} {w : Nat} (h : (d, w) ∈ directives) : d ≠ [] ∧ Solid d := by
  simp only [directives, List.mem_cons, Prod.mk.injEq, List.not_mem_nil, or_false] at h
  rcases h with ⟨rfl, _⟩ | ⟨rfl, _⟩ | ⟨rfl, _⟩ | ⟨rfl, _⟩ <;> exact ⟨by simp, by simp [Solid]; decide⟩

theorem starts_append {a b : Str} (ha : a ≠ []) (h : Solid a) : StartsSolid (a ++ b) := by
  cases a with
  | nil => exact absurd rfl ha
  | cons x a =>
    intro c r hs
    simp only [List.cons_append, List.cons.injEq] at hs
    rw [← hs.1]; exact h x (by simp)

theorem ends_append {a b : Str} (hb : b ≠ []) (h : EndsSolid b) : EndsSolid (a ++ b) := by
  obtain ⟨v, x, rfl⟩ : ∃ v x, b = v ++ [x] :=
    ⟨b.dropLast, b.getLast hb, (List.dropLast_concat_getLast hb).symm⟩
  intro c r hs
  rw [← List.append_assoc] at hs
  have := List.append_inj_right' hs rfl
  simp only [List.cons.injEq, and_true] at this
  rw [← this]
  exact h x v rfl

theorem parts_of_line {c : Str} {lab : Option Str} {w : Nat} {txt : Str} (h : DataLine c lab w txt) :
    ∃ a, alignSize a = w ∧ splitParts c = some (lab, a, txt) := by
  cases h with
  | plain w0 dir w1 txt w2 w hd h0 hn1 h1 hnt hs he h2 =>
    obtain ⟨a, ha, hsz⟩ := directive_align hd
    obtain ⟨hdn, hds⟩ := solid_directive hd
    refine ⟨a, hsz, ?_⟩
    have ht : trim (w0 ++ dir ++ w1 ++ txt ++ w2) = dir ++ w1 ++ txt := by
      have := trim_eq (m := dir ++ w1 ++ txt) h0 h2
        (by rw [List.append_assoc]; exact starts_append hdn hds) (ends_append hnt he)
      simpa only [List.append_assoc] using this
    unfold splitParts
    rw [trim_trim, ht, split_ws_eq hds h1 hn1 hs he]
    simp only [ha]
  | labelled w0 l w1 dir w2 txt w3 w hl hd h0 hn1 h1 hn2 h2 hnt hs he h3 =>
    obtain ⟨a, ha, hsz⟩ := directive_align hd
    obtain ⟨hdn, hds⟩ := solid_directive hd
    obtain ⟨hln, hls, hlno, _⟩ := hl
    refine ⟨a, hsz, ?_⟩
    have hm : EndsSolid (dir ++ w2 ++ txt) := ends_append hnt he
    have hms : StartsSolid (dir ++ w2 ++ txt) := by
      rw [List.append_assoc]; exact starts_append hdn hds
    have ht : trim (w0 ++ l ++ w1 ++ dir ++ w2 ++ txt ++ w3) = l ++ w1 ++ (dir ++ w2 ++ txt) := by
      have := trim_eq (m := l ++ w1 ++ (dir ++ w2 ++ txt)) h0 h3
        (by rw [List.append_assoc]; exact starts_append hln hls)
        (ends_append (by simp [hdn]) hm)
      simpa only [List.append_assoc] using this
    unfold splitParts
    rw [trim_trim, ht, split_ws_eq hls h1 hn1 hms hm]
    simp only [(alignOf_none l).2 hlno, split_ws_eq hds h2 hn2 hs he, ha]

theorem tokens_cons_of {w0 l w1 r : Str} (h0 : Blank w0) (hl : l ≠ []) (hs : Solid l) (hn : w1 ≠ [])
    (h1 : Blank w1) : ∃ ts, Tokens (w0 ++ l ++ (w1 ++ r)) (l :: ts) := by
  obtain ⟨ts, ht⟩ := tokens_exists (w1 ++ r)
  refine ⟨ts, .cons w0 l (w1 ++ r) ts h0 hl hs ?_ ht⟩
  intro c q hq
  cases w1 with
  | nil => exact absurd rfl hn
  | cons x w1 =>
    simp only [List.cons_append, List.cons.injEq] at hq
    rw [← hq.1]; exact h1 x (by simp)

theorem line_of_parts {c : Str} {lab : Option Str} {a : Align} {txt t : Str} {ts : List Str}
    (ht : Tokens c (t :: ts)) (h1 : t ≠ str% "section") (h2 : t ≠ str% "global")
    (h3 : endsWithChar ':' t = false) (h : splitParts c = some (lab, a, txt)) :
    DataLine c lab (alignSize a) txt := by
  obtain ⟨w0, w3, hc, hb0, hb3, hss, hee⟩ := trim_split c
  unfold splitParts at h
  rw [trim_trim] at h
  cases hsp : splitWhitespaceOnce (trim c) with
  | none => rw [hsp] at h; simp at h
  | some p =>
    obtain ⟨l, r⟩ := p
    obtain ⟨w1, hw1n, hw1, htrim, hls, hln, hrn, hrs, hre⟩ := split_ws_inv hss hee hsp
    rw [hsp] at h
    have hlt : l = t := by
      obtain ⟨ts', ht'⟩ := tokens_cons_of (r := r ++ w3) hb0 hln hls hw1n hw1
      have : w0 ++ l ++ (w1 ++ (r ++ w3)) = c := by
        conv => rhs; rw [hc, htrim]
        simp only [List.append_assoc]
      rw [this] at ht'
      have := ht'.det ht
      simp only [List.cons.injEq] at this
      exact this.1
    simp only at h
    cases hal : alignOf l with
    | some a' =>
      rw [hal] at h
      simp only [Option.some.injEq, Prod.mk.injEq] at h
      obtain ⟨rfl, rfl, rfl⟩ := h
      rw [hc, htrim]
      have := DataLine.plain w0 l w1 r w3 (alignSize a') ((alignOf_iff l a').1 hal) hb0 hw1n hw1 hrn
        hrs hre hb3
      simpa only [List.append_assoc] using this
    | none =>
      rw [hal] at h
      simp only at h
      cases hsp2 : splitWhitespaceOnce r with
      | none => rw [hsp2] at h; simp at h
      | some p2 =>
        obtain ⟨d, r2⟩ := p2
        obtain ⟨w2, hw2n, hw2, hr2, hds, hdn, hr2n, hr2s, hr2e⟩ := split_ws_inv hrs hre hsp2
        rw [hsp2] at h
        simp only at h
        cases hal2 : alignOf d with
        | none => rw [hal2] at h; simp at h
        | some a' =>
          rw [hal2] at h
          simp only [Option.some.injEq, Prod.mk.injEq] at h
          obtain ⟨rfl, rfl, rfl⟩ := h
          rw [hc, htrim, hr2]
          have hlab : DataLabel l := by
            refine ⟨hln, hls, (alignOf_none l).1 hal, hlt ▸ h1, hlt ▸ h2, ?_⟩
            rintro q hq
            rw [← hlt, hq] at h3
            simp [endsWithChar] at h3
          have := DataLine.labelled w0 l w1 d w2 r2 w3 (alignSize a') hlab ((alignOf_iff d a').1 hal2)
            hb0 hw1n hw1 hw2n hw2 hr2n hr2s hr2e hb3
          simpa only [List.append_assoc] using this

/-- The first token of a data line. -/
theorem line_first {c : Str} {lab : Option Str} {w : Nat} {txt : Str} (h : DataLine c lab w txt) :
    ∃ t ts, Tokens c (t :: ts) ∧ t ≠ str% "section" ∧ t ≠ str% "global" ∧ endsWithChar ':' t = false := by
  cases h with
  | plain w0 dir w1 txt w2 w hd h0 hn1 h1 hnt hs he h2 =>
    obtain ⟨hdn, hds⟩ := solid_directive hd
    obtain ⟨ts, ht⟩ := tokens_cons_of (r := txt ++ w2) h0 hdn hds hn1 h1
    refine ⟨dir, ts, by simpa only [List.append_assoc] using ht, ?_⟩
    simp only [directives, List.mem_cons, Prod.mk.injEq, List.not_mem_nil, or_false] at hd
    rcases hd with ⟨rfl, _⟩ | ⟨rfl, _⟩ | ⟨rfl, _⟩ | ⟨rfl, _⟩ <;> decide
  | labelled w0 l w1 dir w2 txt w3 w hl hd h0 hn1 h1 hn2 h2 hnt hs he h3 =>
    obtain ⟨hln, hls, hlno, hsec, hglob, hcol⟩ := hl
    obtain ⟨ts, ht⟩ := tokens_cons_of (r := dir ++ w2 ++ txt ++ w3) h0 hln hls hn1 h1
    refine ⟨l, ts, by simpa only [List.append_assoc] using ht, hsec, hglob, ?_⟩
    by_cases hg : l.getLast? = some ':'
    · obtain ⟨r, hr⟩ := List.getLast?_eq_some_iff.1 hg
      exact absurd hr (hcol r)
    · simpa [endsWithChar] using hg

end AT.AsmSpec
