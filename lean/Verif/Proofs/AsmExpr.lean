import Verif.Proofs.AsmNum
/-!
# Lemmas: operand expressions and register names
-/

namespace AT.AsmSpec
open AT.Asm AT.X64

theorem number_plus (n : Nat) : ¬ Number ['+'] n := by
  intro h
  have := tryParseNum_some (Nat.lt_succ_self n) h
  simp [tryParseNum, startsWith0x, fromStrRadix] at this

theorem number_minus (n : Nat) : ¬ Number ['-'] n := by
  intro h
  have := tryParseNum_some (Nat.lt_succ_self n) h
  simp [tryParseNum, startsWith0x, fromStrRadix] at this

theorem tryParseU64_iff (s : Str) (v : UInt64) : tryParseU64 s = some v ↔ Number s v.toNat := by
  unfold tryParseU64
  rw [Option.map_eq_some_iff]
  constructor
  · rintro ⟨n, hn, rfl⟩
    obtain ⟨hlt, hN⟩ := (tryParseNum_iff (by decide) s n).1 hn
    rwa [UInt64.toNat_ofNat', Nat.mod_eq_of_lt hlt]
  · intro h
    exact ⟨v.toNat, tryParseNum_some v.toNat_lt h, UInt64.ofNat_toNat⟩

theorem tryParseU32_iff (s : Str) (v : UInt32) : tryParseU32 s = some v ↔ Number s v.toNat := by
  unfold tryParseU32
  rw [Option.map_eq_some_iff]
  constructor
  · rintro ⟨n, hn, rfl⟩
    obtain ⟨hlt, hN⟩ := (tryParseNum_iff (by decide) s n).1 hn
    rwa [UInt32.toNat_ofNat', Nat.mod_eq_of_lt hlt]
  · intro h
    exact ⟨v.toNat, tryParseNum_some v.toNat_lt h, UInt32.ofNat_toNat⟩

theorem tryParseU16_iff (s : Str) (v : UInt16) : tryParseU16 s = some v ↔ Number s v.toNat := by
  unfold tryParseU16
  rw [Option.map_eq_some_iff]
  constructor
  · rintro ⟨n, hn, rfl⟩
    obtain ⟨hlt, hN⟩ := (tryParseNum_iff (by decide) s n).1 hn
    rwa [UInt16.toNat_ofNat', Nat.mod_eq_of_lt hlt]
  · intro h
    exact ⟨v.toNat, tryParseNum_some v.toNat_lt h, UInt16.ofNat_toNat⟩

theorem tryParseU8_iff (s : Str) (v : UInt8) : tryParseU8 s = some v ↔ Number s v.toNat := by
  unfold tryParseU8
  rw [Option.map_eq_some_iff]
  constructor
  · rintro ⟨n, hn, rfl⟩
    obtain ⟨hlt, hN⟩ := (tryParseNum_iff (by decide) s n).1 hn
    rwa [UInt8.toNat_ofNat', Nat.mod_eq_of_lt hlt]
  · intro h
    exact ⟨v.toNat, tryParseNum_some v.toNat_lt h, UInt8.ofNat_toNat⟩

theorem token_num (s : Str) (v : UInt64) :
    Token.tryParse s = some (.num v) ↔ Number s v.toNat := by
  unfold Token.tryParse
  split
  · rename_i h; subst h; simp [number_plus]
  · split
    · rename_i h; subst h; simp [number_minus]
    · rw [← tryParseU64_iff, Option.map_eq_some_iff]
      simp

theorem token_plus (s : Str) : Token.tryParse s = some .plus ↔ s = ['+'] := by
  unfold Token.tryParse
  split
  · simp [*]
  · split
    · rename_i h1 h; subst h; simp
    · rename_i h _
      simp [h]

theorem token_minus (s : Str) : Token.tryParse s = some .minus ↔ s = ['-'] := by
  unfold Token.tryParse
  split
  · rename_i h; subst h; simp
  · split
    · simp [*]
    · rename_i h
      simp [h]

theorem toInt64_toInt (x : UInt64) : x.toInt64.toInt = asI64 x.toNat := by
  have h : x.toInt64.toInt = x.toBitVec.toInt := rfl
  rw [h, BitVec.toInt_eq_toNat_cond, UInt64.toNat_toBitVec, asI64]
  have := x.toNat_lt
  split <;> split <;> omega

theorem mulI64_one (bd : Build) (y : UInt64) : mulI64 bd (signToI64 true) y.toInt64 = .ok y.toInt64 := by
  unfold mulI64 signToI64
  have h1 : (1 : Int64).toInt = 1 := rfl
  have := y.toInt64.toInt_lt
  have := y.toInt64.le_toInt
  simp only [if_true]
  rw [if_pos (.inl (by rw [h1]; omega)), Int64.one_mul]

theorem mulI64_neg (bd : Build) (y : UInt64) : mulI64 bd (signToI64 false) y.toInt64 =
    if FitsI64 (- asI64 y.toNat) ∨ bd = .release then .ok (-y.toInt64) else .error .panic := by
  unfold mulI64 signToI64 FitsI64
  have h1 : (-1 : Int64).toInt = -1 := rfl
  simp only [Bool.false_eq_true, if_false]
  rw [h1, toInt64_toInt, Int64.neg_eq_neg_one_mul y.toInt64]
  have : -1 * asI64 y.toNat = - asI64 y.toNat := by omega
  rw [this]
  rfl

theorem addI64_eq (bd : Build) (a b : Int64) : addI64 bd a b =
    if FitsI64 (a.toInt + b.toInt) ∨ bd = .release then .ok (a + b) else .error .panic := rfl

theorem sum_u64 (x y : UInt64) :
    ((x.toInt64 + y.toInt64).toUInt64.toNat : Int) = ((x.toNat : Int) + y.toNat) % 2 ^ 64 := by
  have h : (x.toInt64 + y.toInt64).toUInt64 = x + y := rfl
  rw [h, UInt64.toNat_add]
  omega

theorem diff_u64 (x y : UInt64) :
    ((x.toInt64 + -y.toInt64).toUInt64.toNat : Int) = ((x.toNat : Int) - y.toNat) % 2 ^ 64 := by
  have h : (x.toInt64 + -y.toInt64).toUInt64 = x + -y := rfl
  rw [h, UInt64.toNat_add, UInt64.toNat_neg]
  have := y.toNat_lt
  have hs : UInt64.size = 2 ^ 64 := rfl
  rw [hs]
  omega

/-- What the sum or difference of two numbers evaluates to. -/
def evalOp (bd : Build) (sign : Bool) (x y : UInt64) : Res (Option UInt64) := do
  let m ← mulI64 bd (signToI64 sign) y.toInt64
  let r ← addI64 bd x.toInt64 m
  pure (some r.toUInt64)

theorem evalOp_add (bd : Build) (x y : UInt64) : evalOp bd true x y =
    if FitsI64 (asI64 x.toNat + asI64 y.toNat) ∨ bd = .release then
      .ok (some (x.toInt64 + y.toInt64).toUInt64) else .error .panic := by
  unfold evalOp
  rw [mulI64_one]
  show (addI64 bd x.toInt64 y.toInt64 >>= fun r => pure (some r.toUInt64)) = _
  rw [addI64_eq, toInt64_toInt, toInt64_toInt]
  split <;> rfl

theorem neg_toInt {y : UInt64} (h : FitsI64 (- asI64 y.toNat)) :
    (-y.toInt64).toInt = - asI64 y.toNat := by
  have : (-y.toInt64).toInt = (-(y.toInt64.toInt)).bmod (2 ^ 64) := Int64.toInt_neg _
  rw [this, toInt64_toInt]
  unfold FitsI64 at h
  rw [Int.bmod_eq_of_le] <;> omega

theorem evalOp_sub (bd : Build) (x y : UInt64) : evalOp bd false x y =
    if (FitsI64 (- asI64 y.toNat) ∧ FitsI64 (asI64 x.toNat - asI64 y.toNat)) ∨ bd = .release then
      .ok (some (x.toInt64 + -y.toInt64).toUInt64) else .error .panic := by
  unfold evalOp
  rw [mulI64_neg]
  by_cases hb : bd = .release
  · subst hb
    simp only [or_true, if_true]
    show (addI64 .release x.toInt64 (-y.toInt64) >>= fun r => pure (some r.toUInt64)) = _
    rw [addI64_eq]
    simp only [or_true, if_true]; rfl
  · simp only [hb, or_false]
    by_cases h : FitsI64 (- asI64 y.toNat)
    · simp only [h, if_true, true_and]
      show (addI64 bd x.toInt64 (-y.toInt64) >>= fun r => pure (some r.toUInt64)) = _
      rw [addI64_eq, neg_toInt h, toInt64_toInt]
      simp only [hb, or_false, Int.sub_eq_add_neg]
      split <;> rfl
    · simp only [h, if_false, false_and]; rfl

theorem number_u64 {a : Str} {x : Nat} (h : Number a x) (hx : x < 2 ^ 64) :
    Number a (UInt64.ofNat x).toNat := by
  rwa [UInt64.toNat_ofNat', Nat.mod_eq_of_lt hx]

theorem expr_one {bd : Build} {s a : Str} {v : UInt64} (ht : Tokens s [a]) (hn : Number a v.toNat) :
    tryParseExpr bd s = .ok (some v) := by
  simp only [tryParseExpr, splitWs_of_tokens ht, (token_num a v).2 hn]
  rfl

theorem expr_op {bd : Build} {s a op b : Str} {extra : List Str} {x y : UInt64} {sign : Bool}
    (ht : Tokens s (a :: op :: b :: extra)) (hx : Number a x.toNat) (hy : Number b y.toNat)
    (hop : op = if sign then ['+'] else ['-']) : tryParseExpr bd s = evalOp bd sign x y := by
  cases sign with
  | true =>
    have : Token.tryParse op = some .plus := (token_plus op).2 (by simpa using hop)
    simp only [tryParseExpr, splitWs_of_tokens ht, (token_num a x).2 hx, (token_num b y).2 hy, this]
    rfl
  | false =>
    have : Token.tryParse op = some .minus := (token_minus op).2 (by simpa using hop)
    simp only [tryParseExpr, splitWs_of_tokens ht, (token_num a x).2 hx, (token_num b y).2 hy, this]
    rfl

/-- Every way `tryParseExpr` can go. -/
inductive ExprCase (bd : Build) (s : Str) : Res (Option UInt64) → Prop
  | nothing : (∀ a rest, Tokens s (a :: rest) → a ≠ ['+'] ∧ a ≠ ['-'] ∧
      ∀ n, Number a n → 2 ^ 64 ≤ n) → ExprCase bd s (.ok none)
  | one (a : Str) (v : UInt64) : Tokens s [a] → Number a v.toNat → ExprCase bd s (.ok (some v))
  | op (sign : Bool) (a b : Str) (extra : List Str) (x y : UInt64) :
      Tokens s (a :: (if sign then ['+'] else ['-']) :: b :: extra) → Number a x.toNat →
      Number b y.toNat → ExprCase bd s (evalOp bd sign x y)
  | bad (msg : Str) (a : Str) (rest : List Str) : Tokens s (a :: rest) →
      (∀ ts v, Spells s ts → ¬ Operand ts v) →
      (a = ['+'] ∨ a = ['-'] ∨ ∃ x, x < 2 ^ 64 ∧ Number a x) → ExprCase bd s (perr msg)

theorem spells_inv {s : Str} {ts us : List Str} (h : Tokens s ts) (h' : Spells s us) :
    us = ts ∨ ∃ a op b c extra, us = [a, op, b] ∧ ts = a :: op :: b :: c :: extra := by
  rcases h' with h' | ⟨a, op, b, c, extra, rfl, h'⟩
  · exact .inl (h'.det h)
  · exact .inr ⟨a, op, b, c, extra, rfl, h.det h'⟩

theorem not_operand_nil (v : Int) : ¬ Operand [] v := by
  intro h; cases h

/-- Dichotomy for tokens. -/
theorem token_cases (a : Str) : a = ['+'] ∨ a = ['-'] ∨ (∃ v : UInt64, Number a v.toNat) ∨
    (Token.tryParse a = none ∧ a ≠ ['+'] ∧ a ≠ ['-'] ∧ ∀ n, Number a n → 2 ^ 64 ≤ n) := by
  by_cases h1 : a = ['+']
  · exact .inl h1
  by_cases h2 : a = ['-']
  · exact .inr (.inl h2)
  refine .inr (.inr ?_)
  cases h : tryParseU64 a with
  | some v => exact .inl ⟨v, (tryParseU64_iff a v).1 h⟩
  | none =>
    refine .inr ⟨by simp [Token.tryParse, h1, h2, h], h1, h2, ?_⟩
    simp only [tryParseU64, Option.map_eq_none_iff] at h
    exact (tryParseNum_none (by decide)).1 h

theorem number_nat {a : Str} {v : UInt64} (h : Number a v.toNat) : ∃ x, x < 2 ^ 64 ∧ Number a x :=
  ⟨_, v.toNat_lt, h⟩

theorem expr_cases (bd : Build) (s : Str) : ExprCase bd s (tryParseExpr bd s) := by
  obtain ⟨ts, ht⟩ := tokens_exists s
  cases ts with
  | nil =>
    have : tryParseExpr bd s = .ok none := by simp only [tryParseExpr, splitWs_of_tokens ht]; rfl
    rw [this]
    exact .nothing fun a rest h => by cases h.det ht
  | cons a rest =>
    rcases token_cases a with rfl | rfl | ⟨v, hv⟩ | ⟨hn, h1, h2, h3⟩
    · have : tryParseExpr bd s = perr (str% "unary op is not supported") := by
        simp only [tryParseExpr, splitWs_of_tokens ht, (token_plus _).2 rfl]
      rw [this]
      refine .bad _ _ _ ht ?_ (.inl rfl)
      intro us v hu ho
      rcases spells_inv ht hu with rfl | ⟨_, _, _, _, _, rfl, h⟩
      · cases ho <;> exact number_plus _ ‹_›
      · simp only [List.cons.injEq] at h
        obtain ⟨rfl, _⟩ := h
        cases ho <;> exact number_plus _ ‹Number ['+'] _›
    · have : tryParseExpr bd s = perr (str% "unary op is not supported") := by
        simp only [tryParseExpr, splitWs_of_tokens ht, (token_minus _).2 rfl]
      rw [this]
      refine .bad _ _ _ ht ?_ (.inr (.inl rfl))
      intro us v hu ho
      rcases spells_inv ht hu with rfl | ⟨_, _, _, _, _, rfl, h⟩
      · cases ho <;> exact number_minus _ ‹_›
      · simp only [List.cons.injEq] at h
        obtain ⟨rfl, _⟩ := h
        cases ho <;> exact number_minus _ ‹Number ['-'] _›
    · cases rest with
      | nil => rw [expr_one ht hv]; exact .one a v ht hv
      | cons op rest =>
        by_cases hop : op = ['+'] ∨ op = ['-']
        · obtain ⟨sign, rfl⟩ : ∃ sign : Bool, op = if sign then ['+'] else ['-'] := by
            rcases hop with h | h
            · exact ⟨true, by simpa using h⟩
            · exact ⟨false, by simpa using h⟩
          cases rest with
          | nil =>
            have : tryParseExpr bd s = perr (str% "rhs not found") := by
              cases sign
              · have hm := (token_minus _).2 rfl
                simp only [tryParseExpr, splitWs_of_tokens ht, (token_num a v).2 hv,
                  Bool.false_eq_true, if_false, hm]
              · have hm := (token_plus _).2 rfl
                simp only [tryParseExpr, splitWs_of_tokens ht, (token_num a v).2 hv,
                  if_true, hm]
            rw [this]
            refine .bad _ _ _ ht ?_ (.inr (.inr (number_nat hv)))
            intro us w hu ho
            rcases spells_inv ht hu with rfl | ⟨_, _, _, _, _, rfl, h⟩
            · revert ho
              generalize (if sign = true then ['+'] else ['-']) = z
              intro ho
              cases ho
            · simp at h
          | cons b extra =>
            rcases token_cases b with hb | hb | ⟨w, hw⟩ | ⟨hb, h1, h2, h3⟩
            case inr.inr.inl =>
              rw [expr_op ht hv hw rfl]
              exact .op sign a b extra v w ht hv hw
            all_goals
              have : tryParseExpr bd s = perr (str% "invalid rhs") := by
                first
                  | have hb' := (token_plus _).2 hb
                    cases sign
                    · have hm := (token_minus _).2 rfl
                      simp only [tryParseExpr, splitWs_of_tokens ht, (token_num a v).2 hv,
                        Bool.false_eq_true, if_false, hm, hb']
                    · have hm := (token_plus _).2 rfl
                      simp only [tryParseExpr, splitWs_of_tokens ht, (token_num a v).2 hv,
                        if_true, hm, hb']
                  | have hb' := (token_minus _).2 hb
                    cases sign
                    · have hm := (token_minus _).2 rfl
                      simp only [tryParseExpr, splitWs_of_tokens ht, (token_num a v).2 hv,
                        Bool.false_eq_true, if_false, hm, hb']
                    · have hm := (token_plus _).2 rfl
                      simp only [tryParseExpr, splitWs_of_tokens ht, (token_num a v).2 hv,
                        if_true, hm, hb']
                  | cases sign
                    · have hm := (token_minus _).2 rfl
                      simp only [tryParseExpr, splitWs_of_tokens ht, (token_num a v).2 hv,
                        Bool.false_eq_true, if_false, hm, hb]
                    · have hm := (token_plus _).2 rfl
                      simp only [tryParseExpr, splitWs_of_tokens ht, (token_num a v).2 hv,
                        if_true, hm, hb]
              rw [this]
              refine .bad _ _ _ ht ?_ (.inr (.inr (number_nat hv)))
              have hno : ∀ y, y < 2 ^ 64 → ¬ Number b y := by
                intro y hy hN
                first
                  | (subst hb; exact number_plus _ hN)
                  | (subst hb; exact number_minus _ hN)
                  | (have := h3 y hN; omega)
              intro us w hu ho
              have hus : us = a :: (if sign then ['+'] else ['-']) :: b :: extra ∨
                  us = [a, (if sign then ['+'] else ['-']), b] := by
                rcases spells_inv ht hu with h | ⟨_, _, _, _, _, rfl, h⟩
                · exact .inl h
                · simp only [List.cons.injEq] at h
                  obtain ⟨rfl, rfl, rfl, _⟩ := h
                  exact .inr rfl
              cases ho with
              | num => rcases hus with h | h <;> simp at h
              | add a' b' x y _ _ hN hy =>
                have : b = b' := by rcases hus with h | h <;> simp at h <;> simp [h]
                subst this
                exact hno y hy hN
              | sub a' b' x y _ _ hN hy =>
                have : b = b' := by rcases hus with h | h <;> simp at h <;> simp [h]
                subst this
                exact hno y hy hN
        · have : tryParseExpr bd s = perr (str% "expected + or -") := by
            simp only [tryParseExpr, splitWs_of_tokens ht, (token_num a v).2 hv]
            split
            · rename_i h; exact absurd (.inl ((token_plus _).1 h)) hop
            · rename_i h; exact absurd (.inr ((token_minus _).1 h)) hop
            · rfl
          rw [this]
          refine .bad _ _ _ ht ?_ (.inr (.inr (number_nat hv)))
          intro us w hu ho
          have hus : us = a :: op :: rest ∨ ∃ b, us = [a, op, b] := by
            rcases spells_inv ht hu with h | ⟨_, _, _, _, _, rfl, h⟩
            · exact .inl h
            · simp only [List.cons.injEq] at h
              obtain ⟨rfl, rfl, _⟩ := h
              exact .inr ⟨_, rfl⟩
          cases ho with
          | num => rcases hus with h | ⟨_, h⟩ <;> simp at h
          | add => exact hop (.inl (by rcases hus with h | ⟨_, h⟩ <;> simp at h <;> simp [h]))
          | sub => exact hop (.inr (by rcases hus with h | ⟨_, h⟩ <;> simp at h <;> simp [h]))
    · have : tryParseExpr bd s = .ok none := by
        simp only [tryParseExpr, splitWs_of_tokens ht, hn]; rfl
      rw [this]
      refine .nothing fun a' rest' h => ?_
      cases ht.det h
      exact ⟨h1, h2, h3⟩

end AT.AsmSpec
