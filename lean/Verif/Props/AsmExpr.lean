import Verif.Proofs.AsmExpr
import Verif.Spec.X86Meaning
/-!
# Properties of the operand parsers (C37 - C39)

Specification: `Number`, `Operand`, `Tokens`, ... of `Spec/AsmSpec.lean`.
-/

namespace AT.Props
open AT.Asm AT.AsmSpec AT.X64 X86

/-! ## C37 -/

/-- C37: each integer parser accepts exactly the number strings whose value fits its type, and
returns that value. -/
theorem C37_numbers (s : Str) :
    (∀ v : UInt64, tryParseU64 s = some v ↔ Number s v.toNat) ∧
    (∀ v : UInt32, tryParseU32 s = some v ↔ Number s v.toNat) ∧
    (∀ v : UInt16, tryParseU16 s = some v ↔ Number s v.toNat) ∧
    (∀ v : UInt8, tryParseU8 s = some v ↔ Number s v.toNat) :=
  ⟨tryParseU64_iff s, tryParseU32_iff s, tryParseU16_iff s, tryParseU8_iff s⟩

/-- C37 for plain literals: accepted iff the value fits, with that value. -/
theorem C37_literals (s : Str) (n : Nat) (h : Literal s n) :
    tryParseU64 s = (if n < 2 ^ 64 then some (UInt64.ofNat n) else none) ∧
    tryParseU32 s = (if n < 2 ^ 32 then some (UInt32.ofNat n) else none) ∧
    tryParseU16 s = (if n < 2 ^ 16 then some (UInt16.ofNat n) else none) ∧
    tryParseU8 s = (if n < 2 ^ 8 then some (UInt8.ofNat n) else none) := by
  have key : ∀ bound, 0 < bound →
      tryParseNum bound s = if n < bound then some n else none := by
    intro bound hb
    split
    · exact tryParseNum_some ‹_› (.inl h)
    · rw [tryParseNum_none hb]
      intro m hm
      rw [hm.det (.inl h)]; omega
  refine ⟨?_, ?_, ?_, ?_⟩
  · rw [tryParseU64, key _ (by decide)]; split <;> rfl
  · rw [tryParseU32, key _ (by decide)]; split <;> rfl
  · rw [tryParseU16, key _ (by decide)]; split <;> rfl
  · rw [tryParseU8, key _ (by decide)]; split <;> rfl

/-- C37: `parse_str` agrees with `try_parse_str`, and reports the string when it is rejected. -/
theorem C37_parse_u64 (s : Str) :
    (∀ v : UInt64, parseU64 s = .ok v ↔ Number s v.toNat) ∧
    ((∀ n, Number s n → 2 ^ 64 ≤ n) → parseU64 s = .error (.parseErr (s ++ str% " is invalid u64"))) := by
  have hp : ∀ v : UInt64, parseU64 s = .ok v ↔ tryParseU64 s = some v := by
    intro v
    unfold parseU64 tryParseU64
    cases tryParseNum (2 ^ 64) s <;> simp [perr, pure, Except.pure]
  refine ⟨fun v => (hp v).trans (tryParseU64_iff s v), fun h => ?_⟩
  rw [parseU64, (tryParseNum_none (by decide)).2 h]; rfl

/-- A number string has one value. -/
theorem C37_unambiguous (s : Str) (n m : Nat) (h : Number s n) (h' : Number s m) : n = m := h.det h'

theorem hex_1f : Literal (str% "0x1F") 31 :=
  .hex _ _ (.snoc ['1'] 1 'F' 15 (.one '1' 1 (by decide)) (by decide))

theorem dec_300 : Literal (str% "300") 300 :=
  .dec _ _ (.snoc ['3', '0'] 30 '0' 0 (.snoc ['3'] 3 '0' 0 (.one '3' 3 (by decide)) (by decide))
    (by decide))

/-- `0x1F` is 31 for every type; `300` does not fit a byte. -/
example : tryParseU8 (str% "0x1F") = some 31 ∧ tryParseU8 (str% "300") = none ∧
    tryParseU16 (str% "300") = some 300 :=
  ⟨by rw [(C37_literals _ _ hex_1f).2.2.2]; rfl, by rw [(C37_literals _ _ dec_300).2.2.2]; rfl,
   by rw [(C37_literals _ _ dec_300).2.2.1]; rfl⟩

/-- Rejected: empty, lone sign, lone `0x`, negative, other bases, underscore. -/
example : [[], str% "+", str% "-1", str% "0x", str% "0b1", str% "0X1", str% "1_0", str% "ff",
    str% "1 "].map (tryParseNum (2 ^ 64)) = List.replicate 9 none := by decide

/-! ## C38 -/

/-- C38: a constant operand is accepted exactly when its tokens are `a`, `a + b` or `a - b`; the
result is the mathematical value modulo 2^64.  In a debug build this requires that the 64-bit
signed computation does not overflow. -/
theorem C38_expressions (bd : Build) (s : Str) (e : UInt64) :
    tryParseExpr bd s = .ok (some e) ↔
      ∃ ts v, Spells s ts ∧ Operand ts v ∧ (e.toNat : Int) = v % 2 ^ 64 ∧
        (bd = .release ∨ ¬ Overflow ts) := by
  have huniq : ∀ {a : Str} {x y : Nat}, Number a x → Number a y → x = y := Number.det
  constructor
  · intro h
    have hc := expr_cases bd s
    rw [h] at hc
    generalize hr : (Except.ok (some e) : Res (Option UInt64)) = r at hc
    cases hc with
    | nothing => simp at hr
    | bad => simp [perr] at hr
    | one a v ht hn =>
      simp only [Except.ok.injEq, Option.some.injEq] at hr
      subst hr
      refine ⟨[a], e.toNat, .inl ht, .num a _ hn e.toNat_lt, ?_, .inr ?_⟩
      · have := e.toNat_lt; omega
      · intro h; cases h
    | op sign a b extra x y ht hx hy =>
      have hsp : ∀ op, Tokens s (a :: op :: b :: extra) → Spells s [a, op, b] := by
        intro op h
        cases extra with
        | nil => exact .inl h
        | cons c extra => exact .inr ⟨a, op, b, c, extra, rfl, h⟩
      cases sign with
      | true =>
        rw [evalOp_add] at hr
        split at hr
        · rename_i hf
          simp only [Except.ok.injEq, Option.some.injEq] at hr
          refine ⟨[a, ['+'], b], _, hsp _ (by simpa using ht), .add a b _ _ hx x.toNat_lt hy y.toNat_lt,
            by rw [hr]; exact sum_u64 x y, ?_⟩
          rcases hf with hf | hf
          · refine .inr fun ho => ?_
            cases ho with
            | add _ _ x' y' hx' _ hy' _ hno =>
              rw [huniq hx' hx, huniq hy' hy] at hno
              exact hno hf
          · exact .inl hf
        · simp at hr
      | false =>
        rw [evalOp_sub] at hr
        split at hr
        · rename_i hf
          simp only [Except.ok.injEq, Option.some.injEq] at hr
          refine ⟨[a, ['-'], b], _, hsp _ (by simpa using ht), .sub a b _ _ hx x.toNat_lt hy y.toNat_lt,
            by rw [hr]; exact diff_u64 x y, ?_⟩
          rcases hf with hf | hf
          · refine .inr fun ho => ?_
            cases ho with
            | sub _ _ x' y' hx' _ hy' _ hno =>
              rw [huniq hx' hx, huniq hy' hy] at hno
              exact hno hf
          · exact .inl hf
        · simp at hr
  · rintro ⟨ts, v, hs, ho, he, hb⟩
    have htok : ∀ a op b, ts = [a, op, b] → ∃ extra, Tokens s (a :: op :: b :: extra) := by
      rintro a op b rfl
      rcases hs with h | ⟨_, _, _, c, extra, h, h'⟩
      · exact ⟨[], h⟩
      · simp only [List.cons.injEq, and_true] at h
        obtain ⟨rfl, rfl, rfl⟩ := h
        exact ⟨c :: extra, h'⟩
    cases ho with
    | num a x hN hx =>
      have ht : Tokens s [a] := by
        rcases hs with h | ⟨_, _, _, _, _, h, _⟩
        · exact h
        · simp at h
      have : e.toNat = x := by omega
      exact expr_one ht (this ▸ hN)
    | add a b x y hN hx hM hy =>
      obtain ⟨extra, ht⟩ := htok _ _ _ rfl
      rw [expr_op (sign := true) ht (number_u64 hN hx) (number_u64 hM hy) rfl, evalOp_add, if_pos]
      · congr 2
        apply UInt64.toNat_inj.1
        have := sum_u64 (UInt64.ofNat x) (UInt64.ofNat y)
        rw [UInt64.toNat_ofNat', UInt64.toNat_ofNat', Nat.mod_eq_of_lt hx, Nat.mod_eq_of_lt hy] at this
        omega
      · rcases hb with hb | hb
        · exact .inr hb
        · left
          rw [UInt64.toNat_ofNat', UInt64.toNat_ofNat', Nat.mod_eq_of_lt hx, Nat.mod_eq_of_lt hy]
          exact Decidable.byContradiction fun hf => hb (.add a b x y hN hx hM hy hf)
    | sub a b x y hN hx hM hy =>
      obtain ⟨extra, ht⟩ := htok _ _ _ rfl
      rw [expr_op (sign := false) ht (number_u64 hN hx) (number_u64 hM hy) rfl, evalOp_sub, if_pos]
      · congr 2
        apply UInt64.toNat_inj.1
        have := diff_u64 (UInt64.ofNat x) (UInt64.ofNat y)
        rw [UInt64.toNat_ofNat', UInt64.toNat_ofNat', Nat.mod_eq_of_lt hx, Nat.mod_eq_of_lt hy] at this
        omega
      · rcases hb with hb | hb
        · exact .inr hb
        · left
          rw [UInt64.toNat_ofNat', UInt64.toNat_ofNat', Nat.mod_eq_of_lt hx, Nat.mod_eq_of_lt hy]
          exact Decidable.byContradiction fun hf => hb (.sub a b x y hN hx hM hy hf)

/-- C38, sums and differences of numbers below 2^62: the exact value, in both builds. -/
theorem C38_small (bd : Build) (s a b : Str) (x y : Nat) (hx : Number a x) (hy : Number b y)
    (hxl : x < 2 ^ 62) (hyl : y < 2 ^ 62) :
    (Tokens s [a, ['+'], b] → tryParseExpr bd s = .ok (some (UInt64.ofNat (x + y)))) ∧
    (Tokens s [a, ['-'], b] → y ≤ x → tryParseExpr bd s = .ok (some (UInt64.ofNat (x - y)))) := by
  have hax : asI64 x = x := by unfold asI64; rw [if_pos (by omega)]
  have hay : asI64 y = y := by unfold asI64; rw [if_pos (by omega)]
  constructor
  · intro ht
    refine (C38_expressions bd s _).2 ⟨_, _, .inl ht, .add a b x y hx (by omega) hy (by omega), ?_, .inr ?_⟩
    · rw [UInt64.toNat_ofNat']; omega
    · intro h
      cases h with
      | add _ _ x' y' hx' _ hy' _ hno =>
        rw [hx'.det hx, hy'.det hy, hax, hay] at hno
        exact hno ⟨by omega, by omega⟩
  · intro ht hle
    refine (C38_expressions bd s _).2 ⟨_, _, .inl ht, .sub a b x y hx (by omega) hy (by omega), ?_, .inr ?_⟩
    · rw [UInt64.toNat_ofNat']; omega
    · intro h
      cases h with
      | sub _ _ x' y' hx' _ hy' _ hno =>
        rw [hx'.det hx, hy'.det hy, hax, hay] at hno
        exact hno ⟨⟨by omega, by omega⟩, ⟨by omega, by omega⟩⟩

/-- C38: a debug build panics exactly when the signed computation overflows; a release build never
does. -/
theorem C38_panics (bd : Build) (s : Str) :
    tryParseExpr bd s = .error .panic ↔ bd = .debug ∧ ∃ ts, Spells s ts ∧ Overflow ts := by
  constructor
  · intro h
    have hc := expr_cases bd s
    rw [h] at hc
    generalize hr : (Except.error Stop.panic : Res (Option UInt64)) = r at hc
    cases hc with
    | nothing => simp at hr
    | bad => simp [perr] at hr
    | one a v ht hn => simp at hr
    | op sign a b extra x y ht hx hy =>
      have hsp : ∀ op, Tokens s (a :: op :: b :: extra) → Spells s [a, op, b] := by
        intro op h
        cases extra with
        | nil => exact .inl h
        | cons c extra => exact .inr ⟨a, op, b, c, extra, rfl, h⟩
      cases sign with
      | true =>
        rw [evalOp_add] at hr
        split at hr
        · simp at hr
        · rename_i hf
          have hb : bd = .debug := by cases bd <;> simp_all
          exact ⟨hb, [a, ['+'], b], hsp _ (by simpa using ht),
            .add a b _ _ hx x.toNat_lt hy y.toNat_lt fun hh => hf (.inl hh)⟩
      | false =>
        rw [evalOp_sub] at hr
        split at hr
        · simp at hr
        · rename_i hf
          have hb : bd = .debug := by cases bd <;> simp_all
          exact ⟨hb, [a, ['-'], b], hsp _ (by simpa using ht),
            .sub a b _ _ hx x.toNat_lt hy y.toNat_lt fun hh => hf (.inl hh)⟩
  · rintro ⟨rfl, ts, hs, ho⟩
    have htok : ∀ a op b, ts = [a, op, b] → ∃ extra, Tokens s (a :: op :: b :: extra) := by
      rintro a op b rfl
      rcases hs with h | ⟨_, _, _, c, extra, h, h'⟩
      · exact ⟨[], h⟩
      · simp only [List.cons.injEq, and_true] at h
        obtain ⟨rfl, rfl, rfl⟩ := h
        exact ⟨c :: extra, h'⟩
    cases ho with
    | add a b x y hN hx hM hy hno =>
      obtain ⟨extra, ht⟩ := htok _ _ _ rfl
      rw [expr_op (sign := true) ht (number_u64 hN hx) (number_u64 hM hy) rfl, evalOp_add, if_neg]
      rw [UInt64.toNat_ofNat', UInt64.toNat_ofNat', Nat.mod_eq_of_lt hx, Nat.mod_eq_of_lt hy]
      rintro (h | h)
      · exact hno h
      · simp at h
    | sub a b x y hN hx hM hy hno =>
      obtain ⟨extra, ht⟩ := htok _ _ _ rfl
      rw [expr_op (sign := false) ht (number_u64 hN hx) (number_u64 hM hy) rfl, evalOp_sub, if_neg]
      rw [UInt64.toNat_ofNat', UInt64.toNat_ofNat', Nat.mod_eq_of_lt hx, Nat.mod_eq_of_lt hy]
      rintro (h | h)
      · exact hno h
      · simp at h

/-- C38: a text is not taken for a constant (and so may be a register or symbol) exactly when it
has no token, or its first token is neither a sign nor a number below 2^64. -/
theorem C38_not_constant (bd : Build) (s : Str) :
    tryParseExpr bd s = .ok none ↔
      ∀ a rest, Tokens s (a :: rest) → a ≠ ['+'] ∧ a ≠ ['-'] ∧ ∀ n, Number a n → 2 ^ 64 ≤ n := by
  constructor
  · intro h
    have hc := expr_cases bd s
    rw [h] at hc
    generalize hr : (Except.ok none : Res (Option UInt64)) = r at hc
    cases hc with
    | nothing hn => exact hn
    | bad => simp [perr] at hr
    | one a v ht hn => simp at hr
    | op sign a b extra x y ht hx hy =>
      cases sign
      · rw [evalOp_sub] at hr
        split at hr <;> simp at hr
      · rw [evalOp_add] at hr
        split at hr <;> simp at hr
  · intro h
    have hc := expr_cases bd s
    generalize hr : tryParseExpr bd s = r at hc
    cases hc with
    | nothing hn => rfl
    | bad msg a rest ht _ hq =>
      obtain ⟨h1, h2, h3⟩ := h a rest ht
      rcases hq with hq | hq | ⟨x, hx, hq⟩
      · exact absurd hq h1
      · exact absurd hq h2
      · have := h3 x hq; omega
    | one a v ht hn =>
      have := (h a _ ht).2.2 _ hn
      have := v.toNat_lt
      omega
    | op sign a b extra x y ht hx hy =>
      have := (h a _ ht).2.2 _ hx
      have := x.toNat_lt
      omega

/-- `2 - 5` wraps to `2^64 - 3`; blanks of any kind and amount may separate the tokens. -/
example : tryParseExpr .debug (str% "\t 2  - 5") = .ok (some (UInt64.ofNat (2 ^ 64 - 3))) := by decide +kernel

/-- The mathematical value is not reached in a debug build. -/
theorem C38_debug_counterexample :
    tryParseExpr .debug (str% "0x7fffffffffffffff + 1") = .error .panic ∧
    tryParseExpr .release (str% "0x7fffffffffffffff + 1") = .ok (some (2 ^ 63)) := by
  constructor <;> decide +kernel

/-! ## C39 -/

/-- C39: parsing the printed name of a register gives that register. -/
theorem C39_parse_display :
    (∀ r : Reg64, parseReg64 r.display = some r) ∧
    (∀ r : Reg32, parseReg32 r.display = some r) ∧
    (∀ r : Reg16, parseReg16 r.display = some r) := by
  refine ⟨fun r => ?_, fun r => ?_, fun r => ?_⟩ <;> cases r <;> rfl

/-- The same with the name in Intel's table. -/
theorem parse_asmName :
    (∀ r : Reg64, parseReg64 r.asmName = some r) ∧
    (∀ r : Reg32, parseReg32 r.asmName = some r) ∧
    (∀ r : Reg16, parseReg16 r.asmName = some r) := by
  refine ⟨fun r => ?_, fun r => ?_, fun r => ?_⟩ <;> cases r <;> rfl

theorem ite_some {α : Type} {c : Prop} [Decidable c] {a r : α} {x : Option α}
    (h : (if c then some a else x) = some r) : (c ∧ a = r) ∨ x = some r := by
  split at h
  · exact .inl ⟨‹_›, Option.some.inj h⟩
  · exact .inr h

theorem reg64_name {s : Str} {r : Reg64} (h : parseReg64 s = some r) : s = r.asmName := by
  unfold parseReg64 at h
  iterate 16
    replace h := ite_some h
    rcases h with ⟨hs, rfl⟩ | h
    · exact hs
  simp at h

theorem reg32_name {s : Str} {r : Reg32} (h : parseReg32 s = some r) : s = r.asmName := by
  unfold parseReg32 at h
  iterate 16
    replace h := ite_some h
    rcases h with ⟨hs, rfl⟩ | h
    · exact hs
  simp at h

theorem reg16_name {s : Str} {r : Reg16} (h : parseReg16 s = some r) : s = r.asmName := by
  unfold parseReg16 at h
  iterate 16
    replace h := ite_some h
    rcases h with ⟨hs, rfl⟩ | h
    · exact hs
  simp at h

/-- C39: every accepted string is the printed name of the register it yields. -/
theorem C39_display_parse (s : Str) :
    (∀ r, parseReg64 s = some r → s = r.display) ∧
    (∀ r, parseReg32 s = some r → s = r.display) ∧
    (∀ r, parseReg16 s = some r → s = r.display) :=
  ⟨fun r h => (reg64_name h).trans (by cases r <;> rfl), fun r h => (reg32_name h).trans (by cases r <;> rfl),
    fun r h => (reg16_name h).trans (by cases r <;> rfl)⟩

/-- C39: the strings accepted are exactly Intel's register names, each for the register with that
hardware number. -/
theorem C39_names (s : Str) (n : Nat) :
    ((∃ r, parseReg64 s = some r ∧ num64 r = n) ↔ names64[n]? = some s) ∧
    ((∃ r, parseReg32 s = some r ∧ num32 r = n) ↔ names32[n]? = some s) ∧
    ((∃ r, parseReg16 s = some r ∧ num16 r = n) ↔ names16[n]? = some s) := by
  have lt : ∀ {l : List Str}, l[n]? = some s → l.length = 16 → n < 16 := fun h hl =>
    hl ▸ (List.getElem?_eq_some_iff.1 h).1
  refine ⟨⟨?_, fun h => ?_⟩, ⟨?_, fun h => ?_⟩, ⟨?_, fun h => ?_⟩⟩
  · rintro ⟨r, h, rfl⟩
    rw [reg64_name h]; cases r <;> rfl
  · have hn := lt h rfl
    match n, hn, h with
    | 0, _, h | 1, _, h | 2, _, h | 3, _, h | 4, _, h | 5, _, h | 6, _, h | 7, _, h | 8, _, h
    | 9, _, h | 10, _, h | 11, _, h | 12, _, h | 13, _, h | 14, _, h | 15, _, h =>
      cases h
      exact ⟨_, rfl, rfl⟩
  · rintro ⟨r, h, rfl⟩
    rw [reg32_name h]; cases r <;> rfl
  · have hn := lt h rfl
    match n, hn, h with
    | 0, _, h | 1, _, h | 2, _, h | 3, _, h | 4, _, h | 5, _, h | 6, _, h | 7, _, h | 8, _, h
    | 9, _, h | 10, _, h | 11, _, h | 12, _, h | 13, _, h | 14, _, h | 15, _, h =>
      cases h
      exact ⟨_, rfl, rfl⟩
  · rintro ⟨r, h, rfl⟩
    rw [reg16_name h]; cases r <;> rfl
  · have hn := lt h rfl
    match n, hn, h with
    | 0, _, h | 1, _, h | 2, _, h | 3, _, h | 4, _, h | 5, _, h | 6, _, h | 7, _, h | 8, _, h
    | 9, _, h | 10, _, h | 11, _, h | 12, _, h | 13, _, h | 14, _, h | 15, _, h =>
      cases h
      exact ⟨_, rfl, rfl⟩

/-- C39: a register of any width is printed as Intel's name of it. -/
theorem C39_printed (r : Reg) :
    (match r with
      | .reg64 r => names64[num64 r]?
      | .reg32 r => names32[num32 r]?
      | .reg16 r => names16[num16 r]?
      | .reg8 r => names8[num8 r]?) = some r.display := by
  rcases r with r | r | r | r <;> cases r <;> rfl

/-- C39: different registers are printed differently. -/
theorem C39_distinct {r s : Reg} (h : r.display = s.display) : r = s := by
  let place : Reg → Nat
    | .reg64 r => num64 r
    | .reg32 r => 16 + num32 r
    | .reg16 r => 32 + num16 r
    | .reg8 r => 48 + num8 r
  have hp : ∀ r : Reg, (names64 ++ names32 ++ names16 ++ names8)[place r]? = some r.display := by
    intro r; rcases r with r | r | r | r <;> cases r <;> rfl
  let all : List Reg :=
    [.RAX, .RCX, .RDX, .RBX, .RSP, .RBP, .RSI, .RDI,
      .R8, .R9, .R10, .R11, .R12, .R13, .R14, .R15].map Reg.reg64 ++
    [.EAX, .ECX, .EDX, .EBX, .ESP, .EBP, .ESI, .EDI,
      .R8D, .R9D, .R10D, .R11D, .R12D, .R13D, .R14D, .R15D].map Reg.reg32 ++
    [.AX, .CX, .DX, .BX, .SP, .BP, .SI, .DI,
      .R8W, .R9W, .R10W, .R11W, .R12W, .R13W, .R14W, .R15W].map Reg.reg16 ++
    [.AL, .CL, .DL, .BL, .SPL, .BPL, .SIL, .DIL,
      .R8B, .R9B, .R10B, .R11B, .R12B, .R13B, .R14B, .R15B].map Reg.reg8
  have ha : ∀ r : Reg, all[place r]? = some r := by
    intro r; rcases r with r | r | r | r <;> cases r <;> rfl
  have hinj : ∀ r s : Reg, place r = place s → r = s := fun r s h =>
    Option.some.inj ((ha r).symm.trans ((congrArg (all[·]?) h).trans (ha s)))
  have hnd : (names64 ++ names32 ++ names16 ++ names8).Nodup := by decide
  obtain ⟨h1, e1⟩ := List.getElem?_eq_some_iff.1 (hp r)
  obtain ⟨h2, e2⟩ := List.getElem?_eq_some_iff.1 (hp s)
  exact hinj r s ((List.getElem_inj hnd).1 (e1.trans (h.trans e2.symm)))

example : (∃ r, parseReg64 (str% "rsi") = some r ∧ num64 r = 6) ∧ (Reg.reg8 .SIL).display = str% "sil" :=
  ⟨((C39_names _ _).1).2 rfl, rfl⟩

/-- C39: no string names registers of two widths. -/
theorem C39_one_width (s : Str) :
    ((parseReg64 s).isSome → parseReg32 s = none ∧ parseReg16 s = none) ∧
    ((parseReg32 s).isSome → parseReg64 s = none ∧ parseReg16 s = none) ∧
    ((parseReg16 s).isSome → parseReg64 s = none ∧ parseReg32 s = none) := by
  refine ⟨fun h => ?_, fun h => ?_, fun h => ?_⟩ <;> obtain ⟨r, h⟩ := Option.isSome_iff_exists.1 h
  · rw [reg64_name h]; cases r <;> exact ⟨rfl, rfl⟩
  · rw [reg32_name h]; cases r <;> exact ⟨rfl, rfl⟩
  · rw [reg16_name h]; cases r <;> exact ⟨rfl, rfl⟩

/-- C39: no register name is a number, so registers are never read as constants or vice versa. -/
theorem C39_not_number (n : Nat) :
    (∀ r : Reg64, ¬ Number r.asmName n) ∧ (∀ r : Reg32, ¬ Number r.asmName n) ∧
    (∀ r : Reg16, ¬ Number r.asmName n) := by
  have key : ∀ s : Str, (∀ c r, s = c :: r → c ≠ '+' ∧ decDigit c = none) → ¬ Number s n := by
    intro s hs hN
    cases s with
    | nil =>
      have := tryParseNum_some (Nat.lt_succ_self n) hN
      simp [tryParseNum, startsWith0x, fromStrRadix] at this
    | cons c r =>
      obtain ⟨h1, h2⟩ := hs c r rfl
      have h0 : c ≠ '0' := by rintro rfl; simp [decDigit] at h2
      rcases hN with h | h
      · generalize hq : c :: r = q at h
        cases h with
        | dec _ _ h => subst hq; have := (digits_iff.1 h).2; simp [digVal, h2] at this
        | hex => simp at hq; exact h0 hq.1
      · generalize hq : c :: r = q at h
        cases h with
        | plusDec => simp at hq; exact h1 hq.1
        | plusHex => simp [zeroXs] at hq; exact h0 hq.1
        | again => simp [zeroXs] at hq; exact h0 hq.1
  refine ⟨fun r => key _ ?_, fun r => key _ ?_, fun r => key _ ?_⟩ <;> cases r <;>
    (intro c t h; replace h := (show _ = _ from h.symm); simp [Reg64.asmName, Reg32.asmName, Reg16.asmName, names64, names32, names16, num64, num32, num16] at h; obtain ⟨rfl, _⟩ := h; decide)

example : parseReg64 (str% "r10") = some .R10 ∧ parseReg32 (str% "r10d") = some .R10D ∧
    parseReg64 (str% "R10") = none := by decide

end AT.Props
