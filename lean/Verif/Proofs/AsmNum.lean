import Verif.Proofs.AsmStr
/-!
# Lemmas: number literals
-/

namespace AT.AsmSpec
open AT.Asm

/-- Value of a digit string after the number `acc`. -/
def digVal (d : Char → Option Nat) (base : Nat) : Nat → Str → Option Nat
  | acc, [] => some acc
  | acc, c :: cs =>
    match d c with
    | none => none
    | some v => digVal d base (acc * base + v) cs

theorem digVal_ge {d : Char → Option Nat} {base : Nat} (hb : 0 < base) {acc n : Nat} {s : Str}
    (h : digVal d base acc s = some n) : acc ≤ n := by
  induction s generalizing acc with
  | nil => simp [digVal] at h; omega
  | cons c cs ih =>
    rw [digVal] at h
    cases hc : d c with
    | none => rw [hc] at h; simp at h
    | some v =>
      rw [hc] at h
      have := ih h
      have : acc * 1 ≤ acc * base := Nat.mul_le_mul_left _ hb
      omega

theorem digVal_snoc (d : Char → Option Nat) (base acc : Nat) (s : Str) (c : Char) :
    digVal d base acc (s ++ [c]) =
      (digVal d base acc s).bind (fun n => (d c).map (fun v => n * base + v)) := by
  induction s generalizing acc with
  | nil =>
    rw [List.nil_append, digVal]
    cases h : d c <;> simp [digVal, h]
  | cons x xs ih =>
    rw [List.cons_append, digVal, digVal]
    cases h : d x with
    | none => rfl
    | some v => exact ih _

theorem digits_iff {d : Char → Option Nat} {base : Nat} {s : Str} {n : Nat} :
    Digits d base s n ↔ s ≠ [] ∧ digVal d base 0 s = some n := by
  constructor
  · intro h
    induction h with
    | one c v hv => exact ⟨by simp, by simp [digVal, hv]⟩
    | snoc s n c v _ hv ih => exact ⟨by simp, by rw [digVal_snoc, ih.2, hv]; rfl⟩
  · rintro ⟨hne, h⟩
    induction hl : s.length generalizing s n with
    | zero => exact absurd (List.length_eq_zero_iff.1 hl) hne
    | succ k ih =>
      obtain ⟨t, c, rfl⟩ : ∃ t c, s = t ++ [c] :=
        ⟨s.dropLast, s.getLast hne, (List.dropLast_concat_getLast hne).symm⟩
      rw [digVal_snoc] at h
      cases ht : digVal d base 0 t with
      | none => rw [ht] at h; simp at h
      | some m =>
        cases hc : d c with
        | none => rw [ht, hc] at h; simp at h
        | some v =>
          rw [ht, hc] at h
          simp only [Option.bind_some, Option.map_some, Option.some.injEq] at h
          by_cases hte : t = []
          · subst hte
            simp only [digVal, Option.some.injEq] at ht
            subst ht
            simp only [Nat.zero_mul, Nat.zero_add] at h
            subst h
            exact .one c v hc
          · have := ih hte ht (by simpa using hl)
            rw [← h]
            exact .snoc t m c v this hc

theorem digitLoop_iff {d : Char → Option Nat} {radix bound : Nat} (hr : 0 < radix)
    (hd : ∀ c, toDigit radix c = d c) (acc : Nat) (s : Str) (n : Nat) (ha : acc < bound) :
    digitLoop radix bound acc s = some n ↔ digVal d radix acc s = some n ∧ n < bound := by
  induction s generalizing acc with
  | nil =>
    simp only [digitLoop, digVal, Option.some.injEq]
    constructor
    · rintro rfl; exact ⟨rfl, ha⟩
    · exact fun h => h.1
  | cons c cs ih =>
    rw [digitLoop, digVal, hd c]
    cases hc : d c with
    | none => simp
    | some v =>
      simp only
      by_cases h2 : acc * radix + v < bound
      · rw [if_pos (by omega), if_pos h2]
        exact ih _ h2
      · have : digVal d radix (acc * radix + v) cs = some n ∧ n < bound ↔ False := by
          constructor
          · rintro ⟨h, hn⟩
            have := digVal_ge hr h
            omega
          · exact False.elim
        rw [this, iff_false]
        by_cases h1 : acc * radix < bound
        · rw [if_pos h1, if_neg h2]; simp
        · rw [if_neg h1]; simp

theorem char_le {a c : Char} : a ≤ c ↔ a.toNat ≤ c.toNat := by
  rw [Char.le_def, UInt32.le_iff_toNat_le]; rfl

theorem toDigit_dec (c : Char) : toDigit 10 c = decDigit c := by
  unfold toDigit decDigit
  simp only [char_le, show '0'.toNat = 48 from rfl, show '9'.toNat = 57 from rfl]
  by_cases h1 : 48 ≤ c.toNat ∧ c.toNat ≤ 57
  · rw [if_pos h1, if_pos h1]
    simp only [Option.bind_some]
    rw [if_pos (by omega)]
  · rw [if_neg h1, if_neg h1]
    by_cases h2 : 97 ≤ c.toNat ∧ c.toNat ≤ 122
    · rw [if_pos h2]
      simp only [Option.bind_some]
      rw [if_neg (by omega)]
    · rw [if_neg h2]
      by_cases h3 : 65 ≤ c.toNat ∧ c.toNat ≤ 90
      · rw [if_pos h3]
        simp only [Option.bind_some]
        rw [if_neg (by omega)]
      · rw [if_neg h3]; rfl

theorem toDigit_hex (c : Char) : toDigit 16 c = hexDigit c := by
  unfold toDigit hexDigit
  simp only [char_le, show '0'.toNat = 48 from rfl, show '9'.toNat = 57 from rfl,
    show 'a'.toNat = 97 from rfl, show 'f'.toNat = 102 from rfl, show 'A'.toNat = 65 from rfl,
    show 'F'.toNat = 70 from rfl]
  by_cases h1 : 48 ≤ c.toNat ∧ c.toNat ≤ 57
  · rw [if_pos h1, if_pos h1]
    simp only [Option.bind_some]
    rw [if_pos (by omega)]
  · rw [if_neg h1, if_neg h1]
    by_cases h2 : 97 ≤ c.toNat ∧ c.toNat ≤ 122
    · rw [if_pos h2]
      simp only [Option.bind_some]
      by_cases h4 : c.toNat ≤ 102
      · rw [if_pos (by omega), if_pos (by omega)]
        congr 1; omega
      · rw [if_neg (by omega), if_neg (by omega), if_neg (by omega)]
    · rw [if_neg h2, if_neg (c := 97 ≤ c.toNat ∧ c.toNat ≤ 102) (by omega)]
      by_cases h3 : 65 ≤ c.toNat ∧ c.toNat ≤ 90
      · rw [if_pos h3]
        simp only [Option.bind_some]
        by_cases h4 : c.toNat ≤ 70
        · rw [if_pos (by omega), if_pos (by omega)]
          congr 1; omega
        · rw [if_neg (by omega), if_neg (by omega)]
      · rw [if_neg h3, if_neg (by omega)]; rfl

theorem fromStrRadix_iff {d : Char → Option Nat} {radix bound : Nat} (hr : 0 < radix)
    (hd : ∀ c, toDigit radix c = d c) (hm : d '-' = none) (hp : d '+' = none) (hb : 0 < bound)
    (s : Str) (n : Nat) : fromStrRadix bound radix s = some n ↔
      n < bound ∧ (Digits d radix s n ∨ ∃ r, s = '+' :: r ∧ Digits d radix r n) := by
  have hloop : ∀ s, digitLoop radix bound 0 s = some n ↔ digVal d radix 0 s = some n ∧ n < bound :=
    fun s => digitLoop_iff hr hd 0 s n hb
  have hplus : ∀ r, ¬ Digits d radix ('+' :: r) n := by
    intro r h
    have := (digits_iff.1 h).2
    simp [digVal, hp] at this
  unfold fromStrRadix
  split
  · simp [digits_iff]
  · simp [digits_iff, digVal, hp]
  · simp [digits_iff, digVal, hm]
  · rename_i r hne
    have hr' : r ≠ [] := fun h => hne h
    rw [hloop]
    constructor
    · rintro ⟨h, hn⟩
      exact ⟨hn, .inr ⟨r, rfl, digits_iff.2 ⟨hr', h⟩⟩⟩
    · rintro ⟨hn, h | ⟨r', h, hd'⟩⟩
      · exact absurd h (hplus r)
      · simp only [List.cons.injEq, true_and] at h
        subst h
        exact ⟨(digits_iff.1 hd').2, hn⟩
  · rename_i hne1 _ _ hne
    rw [hloop]
    constructor
    · rintro ⟨h, hn⟩
      exact ⟨hn, .inl (digits_iff.2 ⟨hne1, h⟩)⟩
    · rintro ⟨hn, h | ⟨r', h, hd'⟩⟩
      · exact ⟨(digits_iff.1 h).2, hn⟩
      · exact absurd h (hne r')

theorem trimStart0x_split (s : Str) : ∃ k, s = zeroXs k ++ trimStart0x s ∧
    startsWith0x (trimStart0x s) = false := by
  fun_induction trimStart0x s with
  | case1 rest ih =>
    obtain ⟨k, h, h'⟩ := ih
    exact ⟨k + 1, by rw [zeroXs, List.cons_append, List.cons_append, ← h], h'⟩
  | case2 s hne =>
    refine ⟨0, rfl, ?_⟩
    unfold startsWith0x
    split
    · rename_i r
      exact absurd rfl (hne r)
    · rfl

theorem trimStart0x_zeroXs (k : Nat) (s : Str) (h : startsWith0x s = false) :
    trimStart0x (zeroXs k ++ s) = s := by
  induction k with
  | zero =>
    rw [zeroXs, List.nil_append]
    unfold trimStart0x
    split
    · simp [startsWith0x] at h
    · rfl
  | succ k ih => rw [zeroXs, List.cons_append, List.cons_append, trimStart0x, ih]

theorem not_0x_of_digits {s : Str} {n : Nat} {d : Char → Option Nat} {b : Nat}
    (hx : d 'x' = none) (h : Digits d b s n) : startsWith0x s = false := by
  have := (digits_iff.1 h).2
  unfold startsWith0x
  split
  · exfalso
    simp only [digVal] at this
    split at this
    · simp at this
    · rw [hx] at this; simp at this
  · rfl

theorem startsWith0x_iff (s : Str) : startsWith0x s = true ↔ ∃ r, s = '0' :: 'x' :: r := by
  unfold startsWith0x
  split
  · rename_i r; exact ⟨fun _ => ⟨r, rfl⟩, fun _ => rfl⟩
  · rename_i hne
    exact ⟨fun h => by simp at h, fun ⟨r, h⟩ => absurd h (hne r)⟩

/-- Exactly which strings the number parser accepts, and with which value. -/
theorem tryParseNum_iff {bound : Nat} (hb : 0 < bound) (s : Str) (n : Nat) :
    tryParseNum bound s = some n ↔ n < bound ∧ Number s n := by
  unfold tryParseNum
  cases hx : startsWith0x s with
  | true =>
    rw [if_pos rfl, fromStrRadix_iff (by decide) toDigit_hex (by decide) (by decide) hb]
    obtain ⟨k, hk, hk'⟩ := trimStart0x_split s
    constructor
    · rintro ⟨hn, h⟩
      refine ⟨hn, ?_⟩
      have hk0 : k ≠ 0 := by
        rintro rfl
        rw [zeroXs, List.nil_append] at hk
        rw [← hk, hx] at hk'
        simp at hk'
      rcases h with h | ⟨r, hr, h⟩
      · cases k with
        | zero => exact absurd rfl hk0
        | succ k =>
          cases k with
          | zero => exact .inl (by rw [hk]; exact .hex _ _ h)
          | succ k => exact .inr (by rw [hk]; exact .again k _ _ h)
      · cases k with
        | zero => exact absurd rfl hk0
        | succ k => exact .inr (by rw [hk, hr]; exact .plusHex k _ _ h)
    · rintro ⟨hn, h⟩
      refine ⟨hn, ?_⟩
      rcases h with h | h
      · cases h with
        | dec _ _ h => rw [not_0x_of_digits (by decide) h] at hx; simp at hx
        | hex r _ h =>
          have := trimStart0x_zeroXs 1 r (not_0x_of_digits (by decide) h)
          simp only [zeroXs, List.cons_append, List.nil_append] at this
          rw [this]; exact .inl h
      · cases h with
        | plusDec r _ h => simp [startsWith0x] at hx
        | plusHex k r _ h =>
          rw [trimStart0x_zeroXs (k + 1) ('+' :: r) rfl]
          exact .inr ⟨r, rfl, h⟩
        | again k r _ h =>
          rw [trimStart0x_zeroXs (k + 2) r (not_0x_of_digits (by decide) h)]
          exact .inl h
  | false =>
    rw [if_neg (by decide), fromStrRadix_iff (by decide) toDigit_dec (by decide) (by decide) hb]
    constructor
    · rintro ⟨hn, h | ⟨r, hr, h⟩⟩
      · exact ⟨hn, .inl (.dec _ _ h)⟩
      · exact ⟨hn, .inr (by rw [hr]; exact .plusDec _ _ h)⟩
    · rintro ⟨hn, h⟩
      refine ⟨hn, ?_⟩
      rcases h with h | h
      · cases h with
        | dec _ _ h => exact .inl h
        | hex r _ h => simp [startsWith0x] at hx
      · cases h with
        | plusDec r _ h => exact .inr ⟨r, rfl, h⟩
        | plusHex k r _ h => simp [startsWith0x, zeroXs] at hx
        | again k r _ h => simp [startsWith0x, zeroXs] at hx

/-- A string has at most one value. -/
theorem Number.det {s : Str} {n m : Nat} (h : Number s n) (h' : Number s m) : n = m := by
  have hb : 0 < n + m + 1 := by omega
  have e1 := (tryParseNum_iff hb s n).2 ⟨by omega, h⟩
  have e2 := (tryParseNum_iff hb s m).2 ⟨by omega, h'⟩
  exact Option.some.inj (e1.symm.trans e2)

theorem tryParseNum_some {bound n : Nat} {s : Str} (hn : n < bound) (h : Number s n) :
    tryParseNum bound s = some n := (tryParseNum_iff (by omega) s n).2 ⟨hn, h⟩

theorem tryParseNum_none {bound : Nat} (hb : 0 < bound) {s : Str} :
    tryParseNum bound s = none ↔ ∀ n, Number s n → bound ≤ n := by
  constructor
  · intro h n hn
    apply Nat.le_of_not_lt
    intro hlt
    rw [tryParseNum_some hlt hn] at h
    simp at h
  · intro h
    cases hp : tryParseNum bound s with
    | none => rfl
    | some n =>
      have := (tryParseNum_iff hb s n).1 hp
      have := h n this.2
      omega

end AT.AsmSpec
