import Verif.Proofs.MacStructs
import Verif.Proofs.MacFlags
import Verif.Proofs.MacBits
/-!
# The byte images have the documented field layout
-/

namespace AT.Mac
open AT.MachO

theorem beNat_append (a b : Bytes) : beNat (a ++ b) = beNat a * 256 ^ b.length + beNat b := by
  have key : ∀ (b : Bytes) (n : Nat), b.foldl (fun n x => 256 * n + x.toNat) n =
      n * 256 ^ b.length + beNat b := by
    intro b
    induction b with
    | nil => intro n; simp [beNat]
    | cons x b ih =>
      intro n
      simp only [beNat, List.foldl_cons, List.length_cons] at *
      rw [ih, ih (256 * 0 + x.toNat), Nat.pow_succ]
      have e1 : 256 * n * 256 ^ b.length = n * (256 ^ b.length * 256) := by
        rw [Nat.mul_comm 256 n, Nat.mul_assoc, Nat.mul_comm 256]
      simp only [Nat.add_mul, e1]
      omega
  simp only [beNat, List.foldl_append]
  exact key b _

theorem beNat_reverse (b : Bytes) : beNat b.reverse = leVal b := by
  induction b with
  | nil => rfl
  | cons x b ih =>
    rw [List.reverse_cons, beNat_append, ih]
    simp [leVal, beNat]
    omega

theorem numOf_eq (e : Endian) (b : Bytes) : numOf e b = intVal e b := by
  cases e
  · exact beNat_reverse b
  · show beNat b = leVal b.reverse
    rw [← beNat_reverse, List.reverse_reverse]

theorem numOf_intBytes (e : Endian) (k n : Nat) (h : n < 256 ^ k) :
    numOf e (intBytes e k n) = n := by
  rw [numOf_eq, intVal_intBytes e k n h]

theorem bytesAt_mid (a b c : Bytes) (off len : Nat) (ho : off = a.length) (hl : len = b.length) :
    bytesAt (a ++ (b ++ c)) off len = some b := by
  subst ho hl
  rw [bytesAt, if_pos (by simp), List.drop_left, List.take_left]

theorem numAt_mid (e : Endian) (a c : Bytes) (off len n : Nat) (ho : off = a.length)
    (hn : n < 256 ^ len) : numAt e (a ++ (intBytes e len n ++ c)) off len = some n := by
  rw [numAt, bytesAt_mid a _ c off len ho (length_intBytes e len n).symm, Option.map_some,
    numOf_intBytes e len n hn]

/-! ## Consecutive fields -/

/-- Width of a field. -/
def fieldLen : Field → Nat
  | .num _ len _ => len
  | .name _ len _ => len

/-- Bytes of a field. -/
def fieldBytes (e : Endian) : Field → Bytes
  | .num _ len v => intBytes e len v
  | .name _ len s => nameBytes len s

/-- Offset of a field is `o` and its value fits. -/
def fieldOk (o : Nat) : Field → Prop
  | .num off len v => off = o ∧ v < 256 ^ len
  | .name off len s => off = o ∧ s.length ≤ len

/-- The fields follow each other from offset `o`. -/
def Consec (o : Nat) : List Field → Prop
  | [] => True
  | f :: fs => fieldOk o f ∧ Consec (o + fieldLen f) fs

theorem nameField_eq (n : Nat) (s : Str) : nameField n s = nameBytes n s := rfl

theorem hasFields_of_consec (e : Endian) (l : List Field) (base o : Nat) (a c : Bytes)
    (ha : a.length = base + o) (hc : Consec o l) :
    HasFields e (a ++ (l.flatMap (fieldBytes e) ++ c)) base l := by
  induction l generalizing o a with
  | nil => intro fd hfd; simp at hfd
  | cons f fs ih =>
    obtain ⟨h1, h2⟩ := hc
    rw [List.flatMap_cons, List.append_assoc]
    intro fd hfd
    rw [List.mem_cons] at hfd
    rcases hfd with rfl | hfd
    · cases fd with
      | num off len v =>
        obtain ⟨rfl, hv⟩ := h1
        exact numAt_mid e a _ _ len v ha.symm hv
      | name off len s =>
        obtain ⟨rfl, hs⟩ := h1
        exact bytesAt_mid a _ _ _ _ ha.symm (length_nameBytes len s hs).symm
    · have hl : (fieldBytes e f).length = fieldLen f := by
        cases f with
        | num off len v => exact length_intBytes e len v
        | name off len s => exact length_nameBytes len s h1.2
      have := ih (o + fieldLen f) (a ++ fieldBytes e f) (by simp [ha, hl]; omega) h2
      rw [List.append_assoc] at this
      exact this fd hfd

/-- Statement used for every structure: an image sits at `base` in `f`. -/
theorem hasFields_image {e : Endian} {l : List Field} {img : Bytes} (hi : img = l.flatMap (fieldBytes e))
    (hc : Consec 0 l) (a c : Bytes) : HasFields e (a ++ (img ++ c)) a.length l := by
  subst hi
  exact hasFields_of_consec e l a.length 0 a c rfl hc

/-! ## Values -/

theorem magicNum_eq (m : Magic) : magicNum m = m.toU32.toNat := by cases m <;> rfl
theorem cpuNum_eq (c : CpuType) : cpuNum c = c.toI32I32.1.toUInt32.toNat := by
  rcases c with ⟨⟨⟩⟩ | ⟨⟨⟩⟩ <;> decide
theorem cpuSub_eq (c : CpuType) : 3 = c.toI32I32.2.toUInt32.toNat := by
  rcases c with ⟨⟨⟩⟩ | ⟨⟨⟩⟩ <;> decide
theorem fileTypeNum_eq (t : FileType) : fileTypeNum t = t.toU32.toNat := by cases t <;> rfl
theorem platformNum_eq (t : Platform) : platformNum t = t.toU32.toNat := by cases t <;> rfl
theorem toolNum_eq (t : Tool) : toolNum t = t.toU32.toNat := by cases t <;> rfl
theorem sectionTypeNum_eq (t : SectionType) : sectionTypeNum t = t.toU32.toNat := by
  cases t <;> rfl
theorem nTypeByte_eq (t : NTypeField) : nTypeByte t = t.toU8.toNat := by
  rcases t with ⟨p, t, x⟩ | s
  · cases p <;> cases t <;> cases x <;> decide
  · cases s; decide
theorem relocLengthNum_eq (l : RelocLength) : relocLengthNum l = l.toU32.toNat := by
  cases l <;> rfl

theorem i32Num_eq (n : Int32) : i32Num n = n.toUInt32.toNat := by
  unfold i32Num
  have h := n.toBitVec.toInt_eq_toNat_cond
  have h2 := n.toUInt32.toNat_lt
  have : n.toInt = n.toBitVec.toInt := rfl
  have h3 : n.toUInt32.toNat = n.toBitVec.toNat := rfl
  rw [this, h3, h]
  split <;> omega

/-! ### Flag words as sums of powers of two -/

theorem sum_pow_desc (l : List Nat) (hl : l.Pairwise (· > ·)) :
    (∀ j, ((l.map (fun i => 2 ^ i)).sum).testBit j = decide (j ∈ l)) ∧
    ∀ m, (∀ i ∈ l, i < m) → (l.map (fun i => 2 ^ i)).sum < 2 ^ m := by
  induction l with
  | nil => simp [Nat.two_pow_pos]
  | cons a l ih =>
    rw [List.pairwise_cons] at hl
    obtain ⟨ih1, ih2⟩ := ih hl.2
    have hlt := ih2 a hl.1
    have e : ((a :: l).map (fun i => 2 ^ i)).sum = 2 ^ a * 1 + (l.map (fun i => 2 ^ i)).sum := by
      simp
    constructor
    · intro j
      rw [e, Nat.two_pow_add_eq_or_of_lt hlt, Nat.testBit_or, ih1, Nat.mul_one,
        Nat.testBit_two_pow]
      simp only [List.mem_cons]
      by_cases h1 : a = j <;> by_cases h2 : j ∈ l <;> simp [h1, h2, eq_comm]
    · intro m hm
      have ha := hm a (by simp)
      have : 2 ^ (a + 1) ≤ 2 ^ m := Nat.pow_le_pow_right (by omega) ha
      rw [e]
      rw [Nat.pow_succ] at this
      omega

theorem sum_pow_asc (l : List Nat) (hl : l.Pairwise (· < ·)) (j : Nat) :
    ((l.map (fun i => 2 ^ i)).sum).testBit j = decide (j ∈ l) := by
  have h := (sum_pow_desc l.reverse (by rw [List.pairwise_reverse]; exact hl)).1 j
  rw [List.map_reverse, List.sum_reverse] at h
  simpa using h

theorem flagWord_eq (l : Flags) : flagWord l = l.toU32.toNat := by
  apply Nat.eq_of_testBit_eq
  intro j
  unfold flagWord
  rw [show ((allFlags.filter (· ∈ l)).map (fun f => 2 ^ flagBit f)) =
    ((allFlags.filter (· ∈ l)).map flagBit).map (fun i => 2 ^ i) by simp [Function.comp_def]]
  have hs : ((allFlags.filter (· ∈ l)).map flagBit).Pairwise (· < ·) := by
    have : (allFlags.map flagBit).Pairwise (· < ·) := by decide
    exact this.sublist (List.Sublist.map _ List.filter_sublist)
  rw [sum_pow_asc _ hs]
  by_cases hj : j < 32
  · have h1 : l.toU32.toNat.testBit j = l.toU32.toBitVec.getLsbD j := rfl
    rw [h1, flags_bit l j hj, Bool.eq_iff_iff]
    simp only [List.mem_map, List.mem_filter, decide_eq_true_eq, List.any_eq_true, beq_iff_eq]
    constructor
    · rintro ⟨f, ⟨_, hf⟩, rfl⟩; exact ⟨f, hf, rfl⟩
    · rintro ⟨f, hf, rfl⟩; exact ⟨f, ⟨mem_allFlags f, hf⟩, rfl⟩
  · rw [Nat.testBit_lt_two_pow (Nat.lt_of_lt_of_le l.toU32.toNat_lt
      (Nat.pow_le_pow_right (by omega) (by omega : 32 ≤ j)))]
    simp only [decide_eq_false_iff_not, List.mem_map, not_exists]
    rintro f ⟨_, rfl⟩
    exact hj (flagBit_lt f)

theorem attrWord_eq (l : SectionAttrs) : attrWord l = l.toU32.toNat := by
  apply Nat.eq_of_testBit_eq
  intro j
  unfold attrWord
  rw [show ((allAttrs.filter (· ∈ l)).map (fun f => 2 ^ attrBit f)) =
    ((allAttrs.filter (· ∈ l)).map attrBit).map (fun i => 2 ^ i) by simp [Function.comp_def]]
  have hs : ((allAttrs.filter (· ∈ l)).map attrBit).Pairwise (· < ·) := by
    have : (allAttrs.map attrBit).Pairwise (· < ·) := by decide
    exact this.sublist (List.Sublist.map _ List.filter_sublist)
  rw [sum_pow_asc _ hs]
  by_cases hj : j < 32
  · have h1 : l.toU32.toNat.testBit j = l.toU32.toBitVec.getLsbD j := rfl
    rw [h1, attrs_bit l j hj, Bool.eq_iff_iff]
    simp only [List.mem_map, List.mem_filter, decide_eq_true_eq, List.any_eq_true, beq_iff_eq]
    constructor
    · rintro ⟨f, ⟨_, hf⟩, rfl⟩; exact ⟨f, hf, rfl⟩
    · rintro ⟨f, hf, rfl⟩; exact ⟨f, ⟨mem_allAttrs f, hf⟩, rfl⟩
  · rw [Nat.testBit_lt_two_pow (Nat.lt_of_lt_of_le l.toU32.toNat_lt
      (Nat.pow_le_pow_right (by omega) (by omega : 32 ≤ j)))]
    simp only [decide_eq_false_iff_not, List.mem_map, not_exists]
    rintro f ⟨_, rfl⟩
    exact hj (attrBit_lt f)

theorem sectionWord_eq (l : SectionAttrs) (t : SectionType) :
    attrWord l + sectionTypeNum t = (l.toU32 ||| t.toU32).toNat := by
  rw [attrWord_eq, sectionTypeNum_eq, UInt32.toNat_or]
  have ht : t.toU32.toNat < 2 ^ 8 := by cases t <;> decide
  have hm : l.toU32.toNat % 2 ^ 8 = 0 := by
    apply Nat.eq_of_testBit_eq
    intro j
    rw [Nat.testBit_mod_two_pow, Nat.zero_testBit]
    by_cases hj : j < 8
    · have h1 : l.toU32.toNat.testBit j = l.toU32.toBitVec.getLsbD j := rfl
      rw [h1, attrs_bit l j (by omega)]
      simp only [hj, decide_true, Bool.true_and]
      rw [List.any_eq_false]
      intro f _ hf
      have := attrBit_ge f
      simp only [beq_iff_eq] at hf
      omega
    · simp [hj]
  have e : l.toU32.toNat = 2 ^ 8 * (l.toU32.toNat / 2 ^ 8) := by omega
  rw [e, Nat.two_pow_add_eq_or_of_lt ht]

theorem relocWord_eq (e : Endian) (x : RelocationInfo) (hs : x.rSymbolnum.toNat < 2 ^ 24)
    (ht : x.rType.toNat < 16) : relocWord e x = (x.pack e).toNat := by
  obtain ⟨a, s, p, l, ex, t⟩ := x
  simp only at hs ht
  have et : t = UInt8.ofNat t.toNat := by simp
  cases e
  · rw [pack_little]
    simp only [relocWord]
    have tab : ∀ t < 16, ∀ p x : Bool, ∀ l : RelocLength,
        (packLo p l x (UInt8.ofNat t)).toNat = 2 ^ 24 * (p.toNat + relocLengthNum l * 2 +
          x.toNat * 8 + t * 16) := by
      intro t ht p x l
      revert p x
      cases l <;> (revert t; decide +kernel)
    have h := tab t.toNat ht p ex l
    rw [← et] at h
    rw [UInt32.toNat_or, h, Nat.or_comm, ← Nat.two_pow_add_eq_or_of_lt hs]
    omega
  · rw [pack_big]
    simp only [relocWord]
    have tab : ∀ t < 16, ∀ p x : Bool, ∀ l : RelocLength,
        (packBig p l x (UInt8.ofNat t)).toNat = p.toNat * 2 ^ 7 + relocLengthNum l * 2 ^ 5 +
          x.toNat * 2 ^ 4 + t ∧ (packBig p l x (UInt8.ofNat t)).toNat < 2 ^ 8 := by
      intro t ht p x l
      revert p x
      cases l <;> (revert t; decide +kernel)
    obtain ⟨h, hlt⟩ := tab t.toNat ht p ex l
    rw [← et] at h hlt
    have e2 : (8 : UInt32).toNat % 32 = 8 := rfl
    rw [UInt32.toNat_or, UInt32.toNat_shiftLeft, e2, Nat.shiftLeft_eq,
      Nat.mod_eq_of_lt (a := s.toNat * 2 ^ 8) (by omega), Nat.mul_comm s.toNat,
      ← Nat.two_pow_add_eq_or_of_lt hlt, h]
    omega

/-! ## Images -/

theorem header_image (h : Endian) (x : Header64) :
    headerBytes h x = (headerFields x).flatMap (fieldBytes h) ∧ Consec 0 (headerFields x) := by
  constructor
  · simp only [headerFields, List.flatMap_cons, List.flatMap_nil, fieldBytes, headerBytes,
      magicNum_eq, cpuNum_eq, ← cpuSub_eq, fileTypeNum_eq, flagWord_eq, List.append_nil]
  · simp only [headerFields, Consec, fieldOk, fieldLen, magicNum_eq, cpuNum_eq, fileTypeNum_eq,
      flagWord_eq]
    refine ⟨⟨trivial, UInt32.toNat_lt _⟩, ⟨trivial, UInt32.toNat_lt _⟩, ⟨trivial, by decide⟩,
      ⟨trivial, UInt32.toNat_lt _⟩, ⟨trivial, UInt32.toNat_lt _⟩, ⟨trivial, UInt32.toNat_lt _⟩,
      ⟨trivial, UInt32.toNat_lt _⟩, ⟨trivial, UInt32.toNat_lt _⟩, trivial⟩

theorem segment_image (h : Endian) (x : SegmentCommand64) (hl : x.segname.length ≤ 16) :
    segmentBytes h x = (segmentFields x).flatMap (fieldBytes h) ∧ Consec 0 (segmentFields x) := by
  constructor
  · simp only [segmentFields, List.flatMap_cons, List.flatMap_nil, fieldBytes, segmentBytes,
      i32Num_eq, List.append_nil]
  · simp only [segmentFields, Consec, fieldOk, fieldLen, i32Num_eq]
    refine ⟨⟨trivial, UInt32.toNat_lt _⟩, ⟨trivial, UInt32.toNat_lt _⟩, ⟨trivial, hl⟩,
      ⟨trivial, UInt64.toNat_lt _⟩, ⟨trivial, UInt64.toNat_lt _⟩, ⟨trivial, UInt64.toNat_lt _⟩,
      ⟨trivial, UInt64.toNat_lt _⟩, ⟨trivial, UInt32.toNat_lt _⟩, ⟨trivial, UInt32.toNat_lt _⟩,
      ⟨trivial, UInt32.toNat_lt _⟩, ⟨trivial, UInt32.toNat_lt _⟩, trivial⟩

theorem section_image (h : Endian) (x : Section64) (hl : x.sectname.length ≤ 16)
    (hl' : x.segname.length ≤ 16) :
    sectionBytes h x = (sectionFields x).flatMap (fieldBytes h) ∧ Consec 0 (sectionFields x) := by
  constructor
  · simp only [sectionFields, List.flatMap_cons, List.flatMap_nil, fieldBytes, sectionBytes,
      sectionWord_eq, List.append_nil]
  · simp only [sectionFields, Consec, fieldOk, fieldLen, sectionWord_eq]
    refine ⟨⟨trivial, hl⟩, ⟨trivial, hl'⟩, ⟨trivial, UInt64.toNat_lt _⟩, ⟨trivial, UInt64.toNat_lt _⟩,
      ⟨trivial, UInt32.toNat_lt _⟩, ⟨trivial, UInt32.toNat_lt _⟩, ⟨trivial, UInt32.toNat_lt _⟩,
      ⟨trivial, UInt32.toNat_lt _⟩, ⟨trivial, UInt32.toNat_lt _⟩, ⟨trivial, UInt32.toNat_lt _⟩,
      ⟨trivial, UInt32.toNat_lt _⟩, ⟨trivial, UInt32.toNat_lt _⟩, trivial⟩

theorem symtab_image (h : Endian) (x : SymtabCommand) :
    symtabBytes h x = (symtabFields x).flatMap (fieldBytes h) ∧ Consec 0 (symtabFields x) := by
  constructor
  · simp only [symtabFields, List.flatMap_cons, List.flatMap_nil, fieldBytes, symtabBytes,
      List.append_nil]
  · simp only [symtabFields, Consec, fieldOk, fieldLen]
    repeat (first | exact trivial | refine ⟨⟨trivial, UInt32.toNat_lt _⟩, ?_⟩)

theorem dysymtab_image (h : Endian) (x : DysymtabCommand) :
    dysymtabBytes h x = (dysymtabFields x).flatMap (fieldBytes h) ∧ Consec 0 (dysymtabFields x) := by
  constructor
  · simp only [dysymtabFields, List.flatMap_cons, List.flatMap_nil, fieldBytes, dysymtabBytes,
      List.append_nil]
  · simp only [dysymtabFields, Consec, fieldOk, fieldLen]
    repeat (first | exact trivial | refine ⟨⟨trivial, UInt32.toNat_lt _⟩, ?_⟩)

theorem buildVersion_image (h : Endian) (x : BuildVersionCommand) :
    buildVersionBytes h x = (buildVersionFields x).flatMap (fieldBytes h) ∧
      Consec 0 (buildVersionFields x) := by
  have hv : ∀ v, versionNum v = v.toU32.toNat := fun v => (version_toNat v).symm
  constructor
  · simp only [buildVersionFields, List.flatMap_cons, List.flatMap_nil, fieldBytes,
      buildVersionBytes, platformNum_eq, hv, List.append_nil]
  · simp only [buildVersionFields, Consec, fieldOk, fieldLen, platformNum_eq, hv]
    repeat (first | exact trivial | refine ⟨⟨trivial, UInt32.toNat_lt _⟩, ?_⟩)

theorem tool_image (h : Endian) (x : BuildToolVersion) :
    toolBytes h x = (toolFields x).flatMap (fieldBytes h) ∧ Consec 0 (toolFields x) := by
  constructor
  · simp only [toolFields, List.flatMap_cons, List.flatMap_nil, fieldBytes, toolBytes, toolNum_eq,
      List.append_nil]
  · simp only [toolFields, Consec, fieldOk, fieldLen, toolNum_eq]
    repeat (first | exact trivial | refine ⟨⟨trivial, UInt32.toNat_lt _⟩, ?_⟩)

theorem intBytes_one (e : Endian) (n : UInt8) : intBytes e 1 n.toNat = [n] := by
  have h := n.toNat_lt
  have : UInt8.ofNat (n.toNat % 256) = n := by rw [Nat.mod_eq_of_lt h]; simp
  cases e <;> simp [intBytes, leBytes]

theorem nlist_image (h : Endian) (x : NList64) :
    nlistBytes h x = (nlistFields x).flatMap (fieldBytes h) ∧ Consec 0 (nlistFields x) := by
  constructor
  · simp only [nlistFields, List.flatMap_cons, List.flatMap_nil, fieldBytes, nlistBytes,
      nTypeByte_eq, intBytes_one, List.append_nil]
  · simp only [nlistFields, Consec, fieldOk, fieldLen, nTypeByte_eq]
    refine ⟨⟨trivial, UInt32.toNat_lt _⟩, ⟨trivial, UInt8.toNat_lt _⟩, ⟨trivial, UInt8.toNat_lt _⟩,
      ⟨trivial, UInt16.toNat_lt _⟩, ⟨trivial, UInt64.toNat_lt _⟩, trivial⟩

theorem reloc_image (h : Endian) (x : RelocationInfo) (hs : x.rSymbolnum.toNat < 2 ^ 24)
    (ht : x.rType.toNat < 16) :
    relocBytes h x = (relocFields h x).flatMap (fieldBytes h) ∧ Consec 0 (relocFields h x) := by
  constructor
  · simp only [relocFields, List.flatMap_cons, List.flatMap_nil, fieldBytes, relocBytes,
      i32Num_eq, relocWord_eq h x hs ht, List.append_nil]
  · simp only [relocFields, Consec, fieldOk, fieldLen, i32Num_eq, relocWord_eq h x hs ht]
    refine ⟨⟨trivial, UInt32.toNat_lt _⟩, ⟨trivial, UInt32.toNat_lt _⟩, trivial⟩

theorem relocWordOr_eq (e : Endian) (x : RelocationInfo) : relocWordOr e x = (x.pack e).toNat := by
  obtain ⟨a, s, p, l, ex, t⟩ := x
  have et : t = UInt8.ofNat t.toNat := by simp
  cases e
  · rw [pack_little]
    have tab : ∀ t < 256, ∀ p x : Bool, ∀ l : RelocLength,
        (packLo p l x (UInt8.ofNat t)).toNat = (p.toNat * 2 ^ 24 + relocLengthNum l * 2 ^ 25 +
          x.toNat * 2 ^ 27) ||| t * 2 ^ 28 % 2 ^ 32 := by
      intro t ht p x l
      revert p x
      cases l <;> (revert t; decide +kernel)
    have h := tab t.toNat t.toNat_lt p ex l
    rw [← et] at h
    simp only [relocWordOr]
    rw [UInt32.toNat_or, h, Nat.or_assoc]
  · rw [pack_big]
    have tab : ∀ t < 256, ∀ p x : Bool, ∀ l : RelocLength,
        (packBig p l x (UInt8.ofNat t)).toNat = (p.toNat * 2 ^ 7 + relocLengthNum l * 2 ^ 5 +
          x.toNat * 2 ^ 4) ||| t := by
      intro t ht p x l
      revert p x
      cases l <;> (revert t; decide +kernel)
    have h := tab t.toNat t.toNat_lt p ex l
    rw [← et] at h
    simp only [relocWordOr]
    rw [UInt32.toNat_or, h, UInt32.toNat_shiftLeft, Nat.shiftLeft_eq, Nat.or_assoc]
    rfl

theorem reloc_image_or (h : Endian) (x : RelocationInfo) :
    relocBytes h x = [.num 0 4 (i32Num x.rAddress), .num 4 4 (relocWordOr h x)].flatMap (fieldBytes h) ∧
    Consec 0 [.num 0 4 (i32Num x.rAddress), .num 4 4 (relocWordOr h x)] := by
  constructor
  · simp only [List.flatMap_cons, List.flatMap_nil, fieldBytes, relocBytes, i32Num_eq, relocWordOr_eq,
      List.append_nil]
  · simp only [Consec, fieldOk, fieldLen, i32Num_eq, relocWordOr_eq]
    refine ⟨⟨trivial, UInt32.toNat_lt _⟩, ⟨trivial, UInt32.toNat_lt _⟩, trivial⟩

end AT.Mac
