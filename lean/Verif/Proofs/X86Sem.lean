import Verif.Spec.X86
/-!
Helper lemmas about the execution semantics of `Spec/X86`.
-/

namespace X86

theorem bv_add_ne (a : BitVec 64) {j k : Nat} (hj : j < 2 ^ 64) (hk : k < 2 ^ 64) (h : j ≠ k) :
    a + BitVec.ofNat 64 j ≠ a + BitVec.ofNat 64 k := by
  intro he
  have := congrArg BitVec.toNat he
  simp only [BitVec.toNat_add, BitVec.toNat_ofNat] at this
  have ha := a.isLt
  omega

theorem add_ofNat_succ (a : BitVec 64) (j : Nat) :
    a + 1 + BitVec.ofNat 64 j = a + BitVec.ofNat 64 (j + 1) := by
  apply BitVec.eq_of_toNat_eq
  have : BitVec.toNat (1 : BitVec 64) = 1 := rfl
  simp only [BitVec.toNat_add, BitVec.toNat_ofNat, this]
  omega

theorem loadBytes_congr (m m' : BitVec 64 → BitVec 8) (n : Nat) : ∀ a,
    (∀ j < n, m (a + BitVec.ofNat 64 j) = m' (a + BitVec.ofNat 64 j)) →
    loadBytes m a n = loadBytes m' a n := by
  induction n with
  | zero => intro a _; rfl
  | succ n ih =>
    intro a h
    simp only [loadBytes]
    have h0 := h 0 (by omega)
    simp at h0
    rw [h0, ih (a + 1)]
    intro j hj
    rw [add_ofNat_succ]
    exact h (j + 1) (by omega)

/-- Loading what was just stored gives the low bytes. -/
theorem load_store (m : BitVec 64 → BitVec 8) (n : Nat) (hn : n < 2 ^ 64) : ∀ a v,
    loadBytes (storeBytes m a n v) a n = (v.truncate (8 * n)).zeroExtend 64 := by
  induction n with
  | zero => intro a v; apply BitVec.eq_of_toNat_eq; simp [loadBytes, Nat.mod_one]
  | succ n ih =>
    intro a v
    simp only [loadBytes, storeBytes, if_true]
    rw [loadBytes_congr _ (storeBytes m (a + 1) n (v >>> 8)) n (a + 1), ih (by omega)]
    · ext i hi
      simp [BitVec.getElem_or, BitVec.getElem_setWidth, BitVec.getLsbD_setWidth, BitVec.getElem_shiftLeft]
      by_cases h8 : i < 8
      · simp [h8, show i < 8 * (n + 1) by omega]
      · simp [h8, show 8 + (i - 8) = i by omega]
        by_cases h2 : i < 8 * (n + 1)
        · simp [h2, show i - 8 < 8 * n by omega]
        · simp [h2, show ¬ i - 8 < 8 * n by omega]
    · intro j hj
      have : a + 1 + BitVec.ofNat 64 j ≠ a := by
        rw [add_ofNat_succ]
        have := bv_add_ne a (j := j + 1) (k := 0) (by omega) (by omega) (by omega)
        simpa using this
      simp only [if_neg this]

theorem storeBytes_other (m : BitVec 64 → BitVec 8) (n : Nat) : ∀ a v x,
    (∀ j < n, x ≠ a + BitVec.ofNat 64 j) → storeBytes m a n v x = m x := by
  induction n with
  | zero => intro a v x _; rfl
  | succ n ih =>
    intro a v x h
    have h0 := h 0 (by omega)
    simp at h0
    simp only [storeBytes, if_neg h0]
    apply ih
    intro j hj
    rw [add_ofNat_succ]
    exact h (j + 1) (by omega)

theorem signed_of_lt {k n : Nat} (h : n < 2 ^ (k - 1)) : signed k n = n := by simp [signed, h]

theorem signed_of_ge {k n : Nat} (h : ¬ n < 2 ^ (k - 1)) : signed k n = (n : Int) - 2 ^ k := by
  simp only [signed, if_neg h]

theorem ofInt_signed_eq_iff {k n : Nat} (hk64 : k < 64) (hn : n < 2 ^ k) :
    BitVec.ofInt 64 (signed k n) = BitVec.ofNat 64 n ↔ n < 2 ^ (k - 1) := by
  have hp : (2 : Nat) ^ k < 2 ^ 64 := Nat.pow_lt_pow_right (by omega) hk64
  constructor
  · intro h
    by_cases hlt : n < 2 ^ (k - 1)
    · exact hlt
    · exfalso
      rw [signed_of_ge hlt] at h
      have h2 := congrArg BitVec.toNat h
      simp only [BitVec.toNat_ofInt, BitVec.toNat_ofNat] at h2
      rw [Nat.mod_eq_of_lt (by omega)] at h2
      have hcast : ((2 ^ k : Nat) : Int) = 2 ^ k := by norm_cast
      have : ((2 : Int) ^ k) < 2 ^ 64 := by rw [← hcast]; exact_mod_cast hp
      have hpos : (0 : Int) < 2 ^ k := by rw [← hcast]; exact_mod_cast Nat.pow_pos (by omega)
      have e : ((n : Int) - 2 ^ k) % ((2 ^ 64 : Nat) : Int) = (n : Int) - 2 ^ k + 2 ^ 64 := by
        have hn' : (n : Int) < 2 ^ k := by rw [← hcast]; exact_mod_cast hn
        generalize (2 : Int) ^ k = q at *
        simp only [Nat.reducePow] at *
        omega
      rw [e] at h2
      have hn' : (n : Int) < 2 ^ k := by rw [← hcast]; exact_mod_cast hn
      generalize (2 : Int) ^ k = q at *
      simp only [Int.reducePow] at *
      omega
  · intro h
    rw [signed_of_lt h]
    simp

end X86
