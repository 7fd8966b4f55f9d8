import Verif.Model.Obj
/-!
# Overflow-free arithmetic of the object writer, on natural numbers
-/

namespace AT.Obj

theorem u32_ofNat (n : Nat) (h : n < 2 ^ 32) : (UInt32.ofNat n).toNat = n := by
  rw [UInt32.toNat_ofNat']; omega

theorem u64_ofNat (n : Nat) (h : n < 2 ^ 64) : (UInt64.ofNat n).toNat = n := by
  rw [UInt64.toNat_ofNat']; omega

theorem addU32_nat (bd : Build) {a b : Nat} (h : a + b < 2 ^ 32) :
    addU32 bd (UInt32.ofNat a) (UInt32.ofNat b) = .ok (UInt32.ofNat (a + b)) := by
  unfold addU32
  rw [u32_ofNat a (by omega), u32_ofNat b (by omega), if_pos (.inl h), ← UInt32.ofNat_add]

theorem mulU32_nat (bd : Build) {a b : Nat} (ha : a < 2 ^ 32) (hb : b < 2 ^ 32)
    (h : a * b < 2 ^ 32) :
    mulU32 bd (UInt32.ofNat a) (UInt32.ofNat b) = .ok (UInt32.ofNat (a * b)) := by
  unfold mulU32
  rw [u32_ofNat a ha, u32_ofNat b hb, if_pos (.inl h), ← UInt32.ofNat_mul]

theorem addU64_nat (bd : Build) {a b : Nat} (h : a + b < 2 ^ 64) :
    addU64 bd (UInt64.ofNat a) (UInt64.ofNat b) = .ok (UInt64.ofNat (a + b)) := by
  unfold addU64
  rw [u64_ofNat a (by omega), u64_ofNat b (by omega), if_pos (.inl h), ← UInt64.ofNat_add]

theorem foldlM_add32 (bd : Build) (l : List Nat) (a : Nat) (h : a + l.sum < 2 ^ 32) :
    (l.map UInt32.ofNat).foldlM (addU32 bd) (UInt32.ofNat a) = .ok (UInt32.ofNat (a + l.sum)) := by
  induction l generalizing a with
  | nil => rfl
  | cons x l ih =>
    simp only [List.sum_cons] at h
    rw [List.map_cons, List.foldlM_cons, addU32_nat bd (by omega)]
    simp only [bind, Except.bind]
    rw [ih (a + x) (by omega), List.sum_cons, Nat.add_assoc]

theorem foldlM_add64 (bd : Build) (l : List Nat) (a : Nat) (h : a + l.sum < 2 ^ 64) :
    (l.map UInt64.ofNat).foldlM (addU64 bd) (UInt64.ofNat a) = .ok (UInt64.ofNat (a + l.sum)) := by
  induction l generalizing a with
  | nil => rfl
  | cons x l ih =>
    simp only [List.sum_cons] at h
    rw [List.map_cons, List.foldlM_cons, addU64_nat bd (by omega)]
    simp only [bind, Except.bind]
    rw [ih (a + x) (by omega), List.sum_cons, Nat.add_assoc]

theorem sumU32_nat (bd : Build) (l : List Nat) (h : l.sum < 2 ^ 32) :
    sumU32 bd (l.map UInt32.ofNat) = .ok (UInt32.ofNat l.sum) := by
  have := foldlM_add32 bd l 0 (by omega)
  rw [Nat.zero_add] at this
  exact this

theorem sumU64_nat (bd : Build) (l : List Nat) (h : l.sum < 2 ^ 64) :
    sumU64 bd (l.map UInt64.ofNat) = .ok (UInt64.ofNat l.sum) := by
  have := foldlM_add64 bd l 0 (by omega)
  rw [Nat.zero_add] at this
  exact this

/-- Least multiple of `a` not below `n`. -/
def nextMul (n a : Nat) : Nat := (n / a + if n % a > 0 then 1 else 0) * a

theorem nextMul_spec (n a : Nat) (ha : 0 < a) :
    a ∣ nextMul n a ∧ n ≤ nextMul n a ∧ nextMul n a < n + a := by
  have h := Nat.div_add_mod n a
  have hm := Nat.mod_lt n ha
  have hc : n / a * a = a * (n / a) := Nat.mul_comm _ _
  unfold nextMul
  refine ⟨⟨_, Nat.mul_comm _ _⟩, ?_, ?_⟩
  · split
    · rw [Nat.add_mul]; omega
    · rw [Nat.add_mul]; omega
  · split
    · rw [Nat.add_mul]; omega
    · rw [Nat.add_mul]; omega

theorem nextMul_least (n a m : Nat) (ha : 0 < a) (hm : a ∣ m) (hn : n ≤ m) : nextMul n a ≤ m := by
  obtain ⟨⟨p, hp⟩, _, hlt⟩ := nextMul_spec n a ha
  obtain ⟨q, rfl⟩ := hm
  rw [hp] at hlt ⊢
  have : p < q + 1 := by
    apply Nat.lt_of_mul_lt_mul_left (a := a)
    rw [Nat.mul_add]
    omega
  exact Nat.mul_le_mul_left a (by omega)

theorem nextMul_8 (n : Nat) : nextMul n 8 = (n + 7) / 8 * 8 := by
  unfold nextMul
  split <;> omega

theorem alignedU32_eq (bd : Build) (n a : UInt32) (ha : a.toNat ≠ 0)
    (h : nextMul n.toNat a.toNat < 2 ^ 32) :
    alignedU32 bd n a = .ok (UInt32.ofNat (nextMul n.toNat a.toNat)) := by
  have hne : (a != 0) = true := by
    rw [bne_iff_ne]; rintro rfl; exact ha rfl
  have hgt : n % a > 0 ↔ n.toNat % a.toNat > 0 := by
    rw [gt_iff_lt, UInt32.lt_iff_toNat_lt, UInt32.toNat_mod]; rfl
  have hq : (if n % a > 0 then (1 : UInt32) else 0) =
      UInt32.ofNat (if n.toNat % a.toNat > 0 then 1 else 0) := by
    by_cases hc : n % a > 0
    · rw [if_pos hc, if_pos (hgt.1 hc)]; rfl
    · rw [if_neg hc, if_neg (fun hh => hc (hgt.2 hh))]; rfl
  have hd : n / a = UInt32.ofNat (n.toNat / a.toNat) := by
    apply UInt32.toNat.inj
    rw [UInt32.toNat_div, u32_ofNat]
    exact Nat.lt_of_le_of_lt (Nat.div_le_self _ _) n.toNat_lt
  have ha' : a = UInt32.ofNat a.toNat := by simp
  unfold nextMul at h
  have hle : n.toNat / a.toNat + (if n.toNat % a.toNat > 0 then 1 else 0) < 2 ^ 32 :=
    Nat.lt_of_le_of_lt (Nat.le_mul_of_pos_right _ (by omega)) h
  unfold alignedU32
  rw [hne, hq, hd]
  simp only [rassert, if_true, bind, Except.bind]
  rw [addU32_nat bd hle]
  simp only
  conv => lhs; rw [ha']
  rw [u32_ofNat a.toNat a.toNat_lt, mulU32_nat bd hle a.toNat_lt h]
  rfl

theorem alignedU64_eq (bd : Build) (n a : UInt64) (ha : a.toNat ≠ 0)
    (h : nextMul n.toNat a.toNat < 2 ^ 64) :
    alignedU64 bd n a = .ok (UInt64.ofNat (nextMul n.toNat a.toNat)) := by
  have hne : (a != 0) = true := by
    rw [bne_iff_ne]; rintro rfl; exact ha rfl
  have hgt : n % a > 0 ↔ n.toNat % a.toNat > 0 := by
    rw [gt_iff_lt, UInt64.lt_iff_toNat_lt, UInt64.toNat_mod]; rfl
  have hq : (if n % a > 0 then (1 : UInt64) else 0) =
      UInt64.ofNat (if n.toNat % a.toNat > 0 then 1 else 0) := by
    by_cases hc : n % a > 0
    · rw [if_pos hc, if_pos (hgt.1 hc)]; rfl
    · rw [if_neg hc, if_neg (fun hh => hc (hgt.2 hh))]; rfl
  have hd : n / a = UInt64.ofNat (n.toNat / a.toNat) := by
    apply UInt64.toNat.inj
    rw [UInt64.toNat_div, u64_ofNat]
    exact Nat.lt_of_le_of_lt (Nat.div_le_self _ _) n.toNat_lt
  have ha' : a = UInt64.ofNat a.toNat := by simp
  unfold nextMul at h
  have hle : n.toNat / a.toNat + (if n.toNat % a.toNat > 0 then 1 else 0) < 2 ^ 64 :=
    Nat.lt_of_le_of_lt (Nat.le_mul_of_pos_right _ (by omega)) h
  unfold alignedU64
  rw [hne, hq, hd]
  simp only [rassert, if_true, bind, Except.bind]
  rw [addU64_nat bd hle]
  simp only
  have hmul : mulU64 bd (UInt64.ofNat (n.toNat / a.toNat + if n.toNat % a.toNat > 0 then 1 else 0)) a
      = .ok (UInt64.ofNat ((n.toNat / a.toNat + if n.toNat % a.toNat > 0 then 1 else 0) * a.toNat)) := by
    unfold mulU64
    rw [u64_ofNat _ hle, if_pos (.inl h), UInt64.ofNat_mul, UInt64.ofNat_toNat]
  rw [hmul]
  rfl

/-- A quotient rounded up is no more than the number divided. -/
theorem quot_up_le (n a : Nat) (ha : a ≠ 0) : n / a + (if n % a > 0 then 1 else 0) ≤ n := by
  have h := Nat.div_add_mod n a
  have hq : n / a ≤ a * (n / a) := Nat.le_mul_of_pos_left _ (by omega)
  split <;> omega

theorem alignedU32_over (bd : Build) (n a : UInt32) (ha : a.toNat ≠ 0)
    (h : 2 ^ 32 ≤ nextMul n.toNat a.toNat) :
    alignedU32 bd n a =
      if bd = .release then .ok (UInt32.ofNat (nextMul n.toNat a.toNat)) else .error .panic := by
  have hne : (a != 0) = true := by
    rw [bne_iff_ne]; rintro rfl; exact ha rfl
  have hgt : n % a > 0 ↔ n.toNat % a.toNat > 0 := by
    rw [gt_iff_lt, UInt32.lt_iff_toNat_lt, UInt32.toNat_mod]; rfl
  have hq : (if n % a > 0 then (1 : UInt32) else 0) =
      UInt32.ofNat (if n.toNat % a.toNat > 0 then 1 else 0) := by
    by_cases hc : n % a > 0
    · rw [if_pos hc, if_pos (hgt.1 hc)]; rfl
    · rw [if_neg hc, if_neg (fun hh => hc (hgt.2 hh))]; rfl
  have hd : n / a = UInt32.ofNat (n.toNat / a.toNat) := by
    apply UInt32.toNat.inj
    rw [UInt32.toNat_div, u32_ofNat]
    exact Nat.lt_of_le_of_lt (Nat.div_le_self _ _) n.toNat_lt
  unfold nextMul at h ⊢
  have hle : n.toNat / a.toNat + (if n.toNat % a.toNat > 0 then 1 else 0) < 2 ^ 32 :=
    Nat.lt_of_le_of_lt (quot_up_le _ _ ha) n.toNat_lt
  unfold alignedU32
  rw [hne, hq, hd]
  simp only [rassert, if_true, bind, Except.bind]
  rw [addU32_nat bd hle]
  simp only
  unfold mulU32
  rw [u32_ofNat _ hle, UInt32.ofNat_mul, UInt32.ofNat_toNat]
  by_cases hb : bd = .release
  · rw [if_pos (.inr hb), if_pos hb]
  · rw [if_neg (fun hh => hh.elim (fun h1 => by omega) hb), if_neg hb]

theorem alignedU64_over (bd : Build) (n a : UInt64) (ha : a.toNat ≠ 0)
    (h : 2 ^ 64 ≤ nextMul n.toNat a.toNat) :
    alignedU64 bd n a =
      if bd = .release then .ok (UInt64.ofNat (nextMul n.toNat a.toNat)) else .error .panic := by
  have hne : (a != 0) = true := by
    rw [bne_iff_ne]; rintro rfl; exact ha rfl
  have hgt : n % a > 0 ↔ n.toNat % a.toNat > 0 := by
    rw [gt_iff_lt, UInt64.lt_iff_toNat_lt, UInt64.toNat_mod]; rfl
  have hq : (if n % a > 0 then (1 : UInt64) else 0) =
      UInt64.ofNat (if n.toNat % a.toNat > 0 then 1 else 0) := by
    by_cases hc : n % a > 0
    · rw [if_pos hc, if_pos (hgt.1 hc)]; rfl
    · rw [if_neg hc, if_neg (fun hh => hc (hgt.2 hh))]; rfl
  have hd : n / a = UInt64.ofNat (n.toNat / a.toNat) := by
    apply UInt64.toNat.inj
    rw [UInt64.toNat_div, u64_ofNat]
    exact Nat.lt_of_le_of_lt (Nat.div_le_self _ _) n.toNat_lt
  unfold nextMul at h ⊢
  have hle : n.toNat / a.toNat + (if n.toNat % a.toNat > 0 then 1 else 0) < 2 ^ 64 :=
    Nat.lt_of_le_of_lt (quot_up_le _ _ ha) n.toNat_lt
  unfold alignedU64
  rw [hne, hq, hd]
  simp only [rassert, if_true, bind, Except.bind]
  rw [addU64_nat bd hle]
  simp only
  unfold mulU64
  rw [u64_ofNat _ hle, UInt64.ofNat_mul, UInt64.ofNat_toNat]
  by_cases hb : bd = .release
  · rw [if_pos (.inr hb), if_pos hb]
  · rw [if_neg (fun hh => hh.elim (fun h1 => by omega) hb), if_neg hb]

end AT.Obj
