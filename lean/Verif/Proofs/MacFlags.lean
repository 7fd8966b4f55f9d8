import Verif.Proofs.MacStructs
import Verif.Spec.MachO
/-!
# Flag words as sets of bits
-/

namespace AT.Mac
open AT.MachO

theorem foldl_or_bit {α : Type} (enc : α → UInt32) (bitOf : α → Nat)
    (henc : ∀ f, enc f = (1 : UInt32) <<< UInt32.ofNat (bitOf f)) (hlt : ∀ f, bitOf f < 32)
    (l : List α) (n : UInt32) (j : Nat) (hj : j < 32) :
    (l.foldl (fun n f => n ||| enc f) n).toBitVec.getLsbD j =
      (n.toBitVec.getLsbD j || l.any (fun f => bitOf f == j)) := by
  induction l generalizing n with
  | nil => simp
  | cons f l ih =>
    rw [List.foldl_cons, ih, UInt32.toBitVec_or, BitVec.getLsbD_or, List.any_cons, Bool.or_assoc]
    congr 1
    congr 1
    have h1 := and_one_shl j hj (enc f)
    have h2 := and_one_shl (bitOf f) (hlt f) (enc f)
    rw [henc f]
    have tab : ∀ i < 32, ∀ j < 32,
      ((1 : UInt32) <<< UInt32.ofNat i).toBitVec.getLsbD j = (i == j) := by decide
    exact tab _ (hlt f) _ hj

section generic
variable {α : Type} (dec : UInt32 → Option α) (bitOf : α → Nat) (all : List α)

theorem filterMap_bits (hdec : ∀ i < 32, ∀ f, dec ((1 : UInt32) <<< UInt32.ofNat i) = some f →
      bitOf f = i) (l : List Nat) (hl : ∀ i ∈ l, i < 32)
    (hall : all = l.filterMap (fun i => dec ((1 : UInt32) <<< UInt32.ofNat i))) (n : UInt32) :
    l.filterMap (fun i => if n.toBitVec.getLsbD i then dec ((1 : UInt32) <<< UInt32.ofNat i)
      else none) = all.filter (fun f => n.toBitVec.getLsbD (bitOf f)) := by
  rw [hall, List.filter_filterMap]
  have congr : ∀ (l : List Nat) (f g : Nat → Option α), (∀ i ∈ l, f i = g i) →
      l.filterMap f = l.filterMap g := by
    intro l f g h
    induction l with
    | nil => rfl
    | cons a l ih =>
      rw [List.filterMap_cons, List.filterMap_cons, h a (by simp), ih (fun i hi => h i (by simp [hi]))]
  apply congr
  intro i hi
  cases hd : dec ((1 : UInt32) <<< UInt32.ofNat i) with
  | none => simp
  | some f =>
    have := hdec i (hl i hi) f hd
    simp [Option.filter, this]

end generic

theorem flag_enc : ∀ f : Flag, f.toU32 = (1 : UInt32) <<< UInt32.ofNat (flagBit f) := by
  intro f; cases f <;> decide
theorem flagBit_lt : ∀ f : Flag, flagBit f < 32 := by intro f; cases f <;> decide
theorem flag_dec : ∀ i < 32, ∀ f, Flag.fromU32? ((1 : UInt32) <<< UInt32.ofNat i) = some f →
    flagBit f = i := by
  have : ∀ i < 32, (Flag.fromU32? ((1 : UInt32) <<< UInt32.ofNat i)).all (fun f => flagBit f == i) := by
    decide
  intro i hi f hf
  have := this i hi
  rw [hf] at this
  simpa using this
theorem flag_dec_enc : ∀ f : Flag,
    Flag.fromU32? ((1 : UInt32) <<< UInt32.ofNat (flagBit f)) = some f := by
  intro f; cases f <;> decide
theorem mem_allFlags (f : Flag) : f ∈ allFlags := by cases f <;> decide

theorem attr_enc : ∀ f : SectionAttr, f.toU32 = (1 : UInt32) <<< UInt32.ofNat (attrBit f) := by
  intro f; cases f <;> decide
theorem attrBit_lt : ∀ f : SectionAttr, attrBit f < 32 := by intro f; cases f <;> decide
theorem attrBit_ge : ∀ f : SectionAttr, 8 ≤ attrBit f := by intro f; cases f <;> decide
theorem attr_dec : ∀ i < 32, ∀ f,
    SectionAttr.fromU32? ((1 : UInt32) <<< UInt32.ofNat i) = some f → attrBit f = i := by
  have : ∀ i < 32,
    (SectionAttr.fromU32? ((1 : UInt32) <<< UInt32.ofNat i)).all (fun f => attrBit f == i) := by
    decide
  intro i hi f hf
  have := this i hi
  rw [hf] at this
  simpa using this
theorem attr_dec_enc : ∀ f : SectionAttr,
    SectionAttr.fromU32? ((1 : UInt32) <<< UInt32.ofNat (attrBit f)) = some f := by
  intro f; cases f <;> decide
theorem mem_allAttrs (f : SectionAttr) : f ∈ allAttrs := by cases f <;> decide

open Classical in
/-- `Flags::from_u32`, in terms of bits. -/
theorem flags_fromU32 (n : UInt32) :
    Flags.fromU32 n =
      if ∀ i < 32, n.toBitVec.getLsbD i = true → ∃ f, flagBit f = i then
        .ok (allFlags.filter (fun f => n.toBitVec.getLsbD (flagBit f)))
      else .error .panic := by
  rw [flags_fold, bitFold _ _ _ (by simp),
    filterMap_bits Flag.fromU32? flagBit allFlags flag_dec _ (by simp) (by decide)]
  have : (∀ i ∈ List.range 32, n.toBitVec.getLsbD i = true →
      (Flag.fromU32? ((1 : UInt32) <<< UInt32.ofNat i)).isSome) ↔
      (∀ i < 32, n.toBitVec.getLsbD i = true → ∃ f, flagBit f = i) := by
    constructor
    · intro h i hi hb
      obtain ⟨f, hf⟩ := Option.isSome_iff_exists.1 (h i (by simpa using hi) hb)
      exact ⟨f, flag_dec i hi f hf⟩
    · intro h i hi hb
      obtain ⟨f, rfl⟩ := h i (by simpa using hi) hb
      rw [flag_dec_enc]; rfl
  rw [List.nil_append]
  split <;> split <;> first | rfl | (exfalso; simp_all)

open Classical in
/-- `SectionAttrs::from_u32`, in terms of bits. -/
theorem attrs_fromU32 (n : UInt32) :
    SectionAttrs.fromU32 n =
      if ∀ i, 8 ≤ i → i < 32 → n.toBitVec.getLsbD i = true → ∃ f, attrBit f = i then
        .ok (allAttrs.filter (fun f => n.toBitVec.getLsbD (attrBit f)))
      else .error .panic := by
  rw [attrs_fold, bitFold _ _ _ (by simp [List.mem_range'_1]),
    filterMap_bits SectionAttr.fromU32? attrBit allAttrs attr_dec _ (by simp [List.mem_range'_1])
      (by decide)]
  have : (∀ i ∈ List.range' 8 24, n.toBitVec.getLsbD i = true →
      (SectionAttr.fromU32? ((1 : UInt32) <<< UInt32.ofNat i)).isSome) ↔
      (∀ i, 8 ≤ i → i < 32 → n.toBitVec.getLsbD i = true → ∃ f, attrBit f = i) := by
    constructor
    · intro h i h8 hi hb
      obtain ⟨f, hf⟩ := Option.isSome_iff_exists.1
        (h i (by rw [List.mem_range'_1]; omega) hb)
      exact ⟨f, attr_dec i hi f hf⟩
    · intro h i hi hb
      rw [List.mem_range'_1] at hi
      obtain ⟨f, rfl⟩ := h i (by omega) (by omega) hb
      rw [attr_dec_enc]; rfl
  rw [List.nil_append]
  split <;> split <;> first | rfl | (exfalso; simp_all)

theorem flags_bit (l : Flags) (j : Nat) (hj : j < 32) :
    l.toU32.toBitVec.getLsbD j = l.any (fun f => flagBit f == j) := by
  rw [Flags.toU32, foldl_or_bit Flag.toU32 flagBit flag_enc flagBit_lt _ _ _ hj]
  simp

theorem attrs_bit (l : SectionAttrs) (j : Nat) (hj : j < 32) :
    l.toU32.toBitVec.getLsbD j = l.any (fun f => attrBit f == j) := by
  rw [SectionAttrs.toU32, foldl_or_bit SectionAttr.toU32 attrBit attr_enc attrBit_lt _ _ _ hj]
  simp

theorem flagBit_inj : ∀ f g : Flag, flagBit f = flagBit g → f = g := by
  intro f g; cases f <;> cases g <;> decide

theorem attrBit_inj : ∀ f g : SectionAttr, attrBit f = attrBit g → f = g := by
  intro f g; cases f <;> cases g <;> decide

theorem flags_bit_mem (l : Flags) (f : Flag) :
    l.toU32.toBitVec.getLsbD (flagBit f) = decide (f ∈ l) := by
  rw [flags_bit l _ (flagBit_lt f)]
  rw [Bool.eq_iff_iff]
  simp only [List.any_eq_true, beq_iff_eq, decide_eq_true_eq]
  constructor
  · rintro ⟨g, hg, h⟩; rwa [← flagBit_inj _ _ h]
  · intro h; exact ⟨f, h, rfl⟩

theorem attrs_bit_mem (l : SectionAttrs) (f : SectionAttr) :
    l.toU32.toBitVec.getLsbD (attrBit f) = decide (f ∈ l) := by
  rw [attrs_bit l _ (attrBit_lt f)]
  rw [Bool.eq_iff_iff]
  simp only [List.any_eq_true, beq_iff_eq, decide_eq_true_eq]
  constructor
  · rintro ⟨g, hg, h⟩; rwa [← attrBit_inj _ _ h]
  · intro h; exact ⟨f, h, rfl⟩

theorem flags_fromU32_toU32 (l : Flags) : Flags.fromU32 l.toU32 = .ok (sortFlags l) := by
  rw [flags_fromU32, if_pos]
  · congr 1
    unfold sortFlags
    apply List.filter_congr
    intro f _
    exact flags_bit_mem l f
  · intro i hi hb
    rw [flags_bit l i hi] at hb
    simp only [List.any_eq_true, beq_iff_eq] at hb
    obtain ⟨f, _, h⟩ := hb
    exact ⟨f, h⟩

theorem attrs_fromU32_toU32 (l : SectionAttrs) :
    SectionAttrs.fromU32 l.toU32 = .ok (sortAttrs l) := by
  rw [attrs_fromU32, if_pos]
  · congr 1
    unfold sortAttrs
    apply List.filter_congr
    intro f _
    exact attrs_bit_mem l f
  · intro i _ hi hb
    rw [attrs_bit l i hi] at hb
    simp only [List.any_eq_true, beq_iff_eq] at hb
    obtain ⟨f, _, h⟩ := hb
    exact ⟨f, h⟩

theorem flags_toU32_fromU32 {n : UInt32} {l : Flags} (h : Flags.fromU32 n = .ok l) :
    l.toU32 = n := by
  rw [flags_fromU32] at h
  split at h
  · rename_i hk
    simp only [Except.ok.injEq] at h
    subst h
    apply UInt32.toBitVec_inj.1
    apply BitVec.eq_of_getLsbD_eq
    intro j hj
    rw [flags_bit _ j hj]
    rw [Bool.eq_iff_iff]
    simp only [List.any_eq_true, beq_iff_eq, List.mem_filter]
    constructor
    · rintro ⟨f, ⟨_, hf⟩, rfl⟩; exact hf
    · intro hb
      obtain ⟨f, rfl⟩ := hk j hj hb
      exact ⟨f, ⟨mem_allFlags f, hb⟩, rfl⟩
  · simp at h

theorem mask_bit (n : UInt32) : ∀ j < 32, (n &&& SectionAttrs.BIT_MASK).toBitVec.getLsbD j =
    (n.toBitVec.getLsbD j && decide (8 ≤ j)) := by
  intro j hj
  rw [UInt32.toBitVec_and, BitVec.getLsbD_and]
  congr 1
  exact (by decide : ∀ j < 32, SectionAttrs.BIT_MASK.toBitVec.getLsbD j = decide (8 ≤ j)) j hj

theorem mask_bit' (n : UInt32) : ∀ j < 32, (n &&& SectionType.BIT_MASK).toBitVec.getLsbD j =
    (n.toBitVec.getLsbD j && decide (j < 8)) := by
  intro j hj
  rw [UInt32.toBitVec_and, BitVec.getLsbD_and]
  congr 1
  exact (by decide : ∀ j < 32, SectionType.BIT_MASK.toBitVec.getLsbD j = decide (j < 8)) j hj

theorem attrs_toU32_fromU32 {n : UInt32} {l : SectionAttrs} (h : SectionAttrs.fromU32 n = .ok l) :
    l.toU32 = n &&& SectionAttrs.BIT_MASK := by
  rw [attrs_fromU32] at h
  split at h
  · rename_i hk
    simp only [Except.ok.injEq] at h
    subst h
    apply UInt32.toBitVec_inj.1
    apply BitVec.eq_of_getLsbD_eq
    intro j hj
    rw [attrs_bit _ j hj, mask_bit n j hj]
    rw [Bool.eq_iff_iff]
    simp only [List.any_eq_true, beq_iff_eq, List.mem_filter, Bool.and_eq_true, decide_eq_true_eq]
    constructor
    · rintro ⟨f, ⟨_, hf⟩, rfl⟩; exact ⟨hf, attrBit_ge f⟩
    · rintro ⟨hb, h8⟩
      obtain ⟨f, rfl⟩ := hk j h8 hj hb
      exact ⟨f, ⟨mem_allAttrs f, hb⟩, rfl⟩
  · simp at h

theorem type_bit : ∀ t : SectionType, ∀ j < 32,
    t.toU32.toBitVec.getLsbD j = true → j < 8 := by
  intro t; cases t <;> decide

theorem type_dec (t : SectionType) : SectionType.fromU32? t.toU32 = some t := by
  cases t <;> decide

/-- The flags word of a section: the type is in the low byte, the attributes above. -/
theorem sectionWord_type (l : SectionAttrs) (t : SectionType) :
    (l.toU32 ||| t.toU32) &&& SectionType.BIT_MASK = t.toU32 := by
  apply UInt32.toBitVec_inj.1
  apply BitVec.eq_of_getLsbD_eq
  intro j hj
  rw [mask_bit' _ j hj, UInt32.toBitVec_or, BitVec.getLsbD_or, attrs_bit l j hj]
  have ht := type_bit t j hj
  rw [Bool.eq_iff_iff]
  simp only [Bool.and_eq_true, Bool.or_eq_true, List.any_eq_true, beq_iff_eq, decide_eq_true_eq]
  constructor
  · rintro ⟨⟨f, _, rfl⟩ | h, h8⟩
    · have := attrBit_ge f; omega
    · exact h
  · intro h; exact ⟨.inr h, ht h⟩

theorem sectionWord_attrs (l : SectionAttrs) (t : SectionType) :
    (l.toU32 ||| t.toU32) &&& SectionAttrs.BIT_MASK = l.toU32 := by
  apply UInt32.toBitVec_inj.1
  apply BitVec.eq_of_getLsbD_eq
  intro j hj
  rw [mask_bit _ j hj, UInt32.toBitVec_or, BitVec.getLsbD_or, attrs_bit l j hj]
  have ht := type_bit t j hj
  rw [Bool.eq_iff_iff]
  simp only [Bool.and_eq_true, Bool.or_eq_true, List.any_eq_true, beq_iff_eq, decide_eq_true_eq]
  constructor
  · rintro ⟨⟨f, hf, rfl⟩ | h, h8⟩
    · exact ⟨f, hf, rfl⟩
    · have := ht h; omega
  · rintro ⟨f, hf, rfl⟩; exact ⟨.inl ⟨f, hf, rfl⟩, attrBit_ge f⟩

theorem flags_err (n : UInt32) (e : Stop) (h : Flags.fromU32 n = .error e) : e = .panic := by
  rw [flags_fromU32] at h
  split at h <;> simp at h
  exact h.symm

theorem attrs_err (n : UInt32) (e : Stop) (h : SectionAttrs.fromU32 n = .error e) :
    e = .panic := by
  rw [attrs_fromU32] at h
  split at h <;> simp at h
  exact h.symm

end AT.Mac
