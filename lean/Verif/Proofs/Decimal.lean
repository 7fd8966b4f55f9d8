import Verif.Proofs.AsmNum
/-!
# Decimal spelling of numbers
-/

namespace AT.AsmSpec
open AT.Asm

theorem digitChar_dec : ∀ n < 10, decDigit n.digitChar = some n := by decide

theorem showNat_digits (n : Nat) : Digits decDigit 10 (showNat n) n := by
  induction n using Nat.strongRecOn with
  | _ n ih =>
    unfold showNat at *
    rw [Nat.toDigits_eq_if (by decide)]
    split
    · rename_i h; exact .one _ n (digitChar_dec n h)
    · rename_i h
      have := Digits.snoc _ _ _ _ (ih (n / 10) (by omega)) (digitChar_dec (n % 10) (by omega))
      rwa [show n / 10 * 10 + n % 10 = n by omega] at this

theorem decDigit_digitChar {c : Char} {v : Nat} (h : decDigit c = some v) : v < 10 ∧ c = v.digitChar := by
  unfold decDigit at h
  split at h
  · rename_i hc
    have h1 : '0'.toNat ≤ c.toNat := hc.1
    have h2 : c.toNat ≤ '9'.toNat := hc.2
    have e0 : '0'.toNat = 48 := rfl
    have e9 : '9'.toNat = 57 := rfl
    simp only [Option.some.injEq] at h
    have hv : v < 10 := by omega
    refine ⟨hv, ?_⟩
    have : c.toNat = v.digitChar.toNat := by
      have : ∀ v < 10, v.digitChar.toNat = v + 48 := by decide
      rw [this v hv]; omega
    exact Char.toNat_inj.1 this
  · simp at h

theorem digits_ne_nil {d : Char → Option Nat} {b : Nat} {s : Str} {n : Nat} (h : Digits d b s n) :
    s ≠ [] := by
  cases h <;> simp

/-- Digits without a leading zero are the usual spelling. -/
theorem digits_unique {s : Str} {n : Nat} (h : Digits decDigit 10 s n) (h0 : s.head? ≠ some '0') :
    s = showNat n ∧ 0 < n := by
  unfold showNat
  induction h with
  | one c v hc =>
    obtain ⟨hv, rfl⟩ := decDigit_digitChar hc
    have hv0 : v ≠ 0 := by rintro rfl; exact h0 rfl
    rw [Nat.toDigits_eq_if (by decide), if_pos hv]
    exact ⟨rfl, by omega⟩
  | snoc s n c v hs hc ih =>
    obtain ⟨hv, rfl⟩ := decDigit_digitChar hc
    have hne : s ≠ [] := digits_ne_nil hs
    obtain ⟨e, hn⟩ := ih (by
      cases s with
      | nil => exact absurd rfl hne
      | cons x s => simpa using h0)
    rw [Nat.toDigits_eq_if (by decide), if_neg (by omega), e, show (n * 10 + v) / 10 = n by omega,
      show (n * 10 + v) % 10 = v by omega]
    exact ⟨rfl, by omega⟩

theorem showNat_head (n : Nat) : (showNat n).head? = some '0' → showNat n = ['0'] := by
  induction n using Nat.strongRecOn with
  | _ n ih =>
    unfold showNat at *
    rw [Nat.toDigits_eq_if (by decide)]
    split
    · rename_i h
      revert h
      have : ∀ n < 10, [n.digitChar].head? = some '0' → [n.digitChar] = ['0'] := by decide
      exact this n
    · rename_i h
      intro hh
      exfalso
      have hne : Nat.toDigits 10 (n / 10) ≠ [] := by simp
      have hh' : (Nat.toDigits 10 (n / 10)).head? = some '0' := by
        cases hd : Nat.toDigits 10 (n / 10) with
        | nil => exact absurd hd hne
        | cons x r => rw [hd] at hh; simpa using hh
      have := ih (n / 10) (by omega) hh'
      have hd := showNat_digits (n / 10)
      unfold showNat at hd
      rw [this] at hd
      generalize hq : n / 10 = q at hd
      generalize hz : ['0'] = z at hd
      cases hd with
      | one c v hc =>
        simp only [List.cons.injEq, and_true] at hz
        subst hz
        simp [decDigit] at hc
        omega
      | snoc s n c v hs hc =>
        cases s with
        | nil => exact absurd rfl (digits_ne_nil hs)
        | cons x s => simp at hz

theorem showNat_decimal (n : Nat) : Decimal n (showNat n) := ⟨showNat_digits n, showNat_head n⟩

theorem decimal_iff {n : Nat} {s : Str} : Decimal n s ↔ s = showNat n := by
  constructor
  · rintro ⟨h, h0⟩
    by_cases hh : s.head? = some '0'
    · have := h0 hh
      subst this
      generalize hz : ['0'] = z at h
      cases h with
      | one c v hc =>
        simp only [List.cons.injEq, and_true] at hz
        subst hz
        simp [decDigit] at hc
        subst hc
        rfl
      | snoc s n c v hs hc =>
        cases s with
        | nil => exact absurd rfl (digits_ne_nil hs)
        | cons x s => simp at hz
    · exact (digits_unique h hh).1
  · rintro rfl; exact showNat_decimal n

end AT.AsmSpec
