import Verif.Proofs.ObjView
import Verif.Spec.ObjFile
/-!
# The specification of an object file determines its bytes
-/

namespace AT.Obj
open AT.Mac AT.MachO AT.ObjSpec

/-- The bytes `b` are in `f` at `off`. -/
def At (f : Bytes) (off : Nat) (b : Bytes) : Prop := bytesAt f off b.length = some b

theorem at_iff {f b : Bytes} {off : Nat} : At f off b ↔ ∃ a c, f = a ++ (b ++ c) ∧ a.length = off := by
  constructor
  · intro h
    unfold At bytesAt at h
    by_cases hl : off + b.length ≤ f.length
    · rw [if_pos hl] at h
      have hb := Option.some.inj h
      refine ⟨f.take off, (f.drop off).drop b.length, ?_, by rw [List.length_take]; omega⟩
      conv => lhs; rw [← List.take_append_drop off f, ← List.take_append_drop b.length (f.drop off), hb]
    · rw [if_neg hl] at h; cases h
  · rintro ⟨a, c, rfl, rfl⟩
    exact bytesAt_mid a b c _ _ rfl rfl

theorem at_append {f b c : Bytes} {off : Nat} :
    At f off (b ++ c) ↔ At f off b ∧ At f (off + b.length) c := by
  rw [at_iff, at_iff, at_iff]
  constructor
  · rintro ⟨x, y, hf, hx⟩
    exact ⟨⟨x, c ++ y, by rw [hf, List.append_assoc], hx⟩,
      ⟨x ++ b, y, by rw [hf]; simp only [List.append_assoc], by rw [List.length_append, hx]⟩⟩
  · rintro ⟨⟨x, y, hf, hx⟩, ⟨x', y', hf', hx'⟩⟩
    refine ⟨x, y', ?_, hx⟩
    have e : (x ++ b) ++ y = x' ++ (c ++ y') := by rw [List.append_assoc, ← hf, hf']
    have := List.append_inj e (by rw [List.length_append, hx, hx'])
    rw [hf, this.2, List.append_assoc]

theorem at_nil {f : Bytes} {off : Nat} (h : off ≤ f.length) : At f off [] := by
  unfold At bytesAt
  rw [if_pos (by simpa using h)]
  rfl

theorem at_le {f b : Bytes} {off : Nat} (h : At f off b) : off + b.length ≤ f.length := by
  obtain ⟨a, c, rfl, rfl⟩ := at_iff.1 h
  simp only [List.length_append]
  omega

theorem eq_iff_at {f b : Bytes} : f = b ↔ f.length = b.length ∧ At f 0 b := by
  constructor
  · rintro rfl
    exact ⟨rfl, at_iff.2 ⟨[], [], by simp, rfl⟩⟩
  · rintro ⟨hl, h⟩
    obtain ⟨a, c, rfl, ha⟩ := at_iff.1 h
    have ha := List.length_eq_zero_iff.1 ha
    subst ha
    simp only [List.nil_append, List.length_append] at hl
    have hc : c = [] := List.length_eq_zero_iff.1 (by omega)
    simp [hc]

theorem at_flatMap {α : Type} (g : α → Bytes) (l : List α) {f : Bytes} {off : Nat} (ho : off ≤ f.length) :
    At f off (l.flatMap g) ↔
      ∀ (i : Nat) x, l[i]? = some x → At f (off + ((l.take i).flatMap g).length) (g x) := by
  induction l generalizing off with
  | nil => simp [at_nil ho]
  | cons y l ih =>
    rw [List.flatMap_cons, at_append]
    constructor
    · rintro ⟨h1, h2⟩ i x hx
      cases i with
      | zero => simp only [List.getElem?_cons_zero] at hx; cases hx; simpa using h1
      | succ i =>
        rw [List.getElem?_cons_succ] at hx
        have := (ih (at_le h1)).1 h2 i x hx
        rwa [List.take_succ_cons, List.flatMap_cons, List.length_append, ← Nat.add_assoc]
    · intro h
      have h1 : At f off (g y) := by simpa using h 0 y rfl
      refine ⟨h1, (ih (at_le h1)).2 fun i x hx => ?_⟩
      have := h (i + 1) x hx
      rwa [List.take_succ_cons, List.flatMap_cons, List.length_append, ← Nat.add_assoc] at this

theorem fieldBytes_length (e : Endian) {o : Nat} {fd : Field} (h : fieldOk o fd) :
    (fieldBytes e fd).length = fieldLen fd := by
  cases fd with
  | num off len v => exact length_intBytes e len v
  | name off len s => exact length_nameBytes len s h.2

theorem holds_iff (e : Endian) {o base : Nat} {fd : Field} {f : Bytes} (h : fieldOk o fd) :
    fd.holds e f base ↔ At f (base + o) (fieldBytes e fd) := by
  unfold At
  rw [fieldBytes_length e h]
  cases fd with
  | num off len v =>
    obtain ⟨rfl, hv⟩ := h
    show numAt e f (base + off) len = some v ↔ bytesAt f (base + off) len = some (intBytes e len v)
    unfold numAt
    constructor
    · intro hn
      obtain ⟨b, hb, hbv⟩ := Option.map_eq_some_iff.1 hn
      have hl : b.length = len := by
        unfold bytesAt at hb
        split at hb
        · cases hb; rw [List.length_take, List.length_drop]; omega
        · cases hb
      rw [hb, ← hbv, numOf_eq, ← hl, intBytes_intVal]
    · intro hb
      rw [hb, Option.map_some, numOf_intBytes e len v hv]
  | name off len s =>
    obtain ⟨rfl, hs⟩ := h
    exact Iff.rfl

theorem hasFields_iff (e : Endian) {o base : Nat} {l : List Field} {f : Bytes} (hc : Consec o l)
    (ho : base + o ≤ f.length) :
    HasFields e f base l ↔ At f (base + o) (l.flatMap (fieldBytes e)) := by
  induction l generalizing o with
  | nil => simp [HasFields, at_nil ho]
  | cons fd l ih =>
    obtain ⟨h1, h2⟩ := hc
    have hl := fieldBytes_length e h1
    rw [List.flatMap_cons, at_append, ← holds_iff e h1]
    unfold HasFields
    rw [List.forall_mem_cons]
    constructor
    · rintro ⟨ha, hb⟩
      refine ⟨ha, ?_⟩
      have hle := at_le ((holds_iff e h1).1 ha)
      rw [hl] at hle ⊢
      rw [Nat.add_assoc] at hle ⊢
      exact (ih h2 hle).1 hb
    · rintro ⟨ha, hb⟩
      refine ⟨ha, ?_⟩
      have hle := at_le ((holds_iff e h1).1 ha)
      rw [hl] at hle hb
      rw [Nat.add_assoc] at hle hb
      exact (ih h2 hle).2 hb

/-- Fields at the base of a structure and its bytes. -/
theorem fields_at (e : Endian) {base : Nat} {l : List Field} {img f : Bytes}
    (hi : img = l.flatMap (fieldBytes e)) (hc : Consec 0 l) (ho : base ≤ f.length) :
    HasFields e f base l ↔ At f base img := by
  rw [hi]
  exact hasFields_iff e hc ho

theorem image_at (h : Endian) {ps : List Part} {S : List SectionRef} (hl : ps.length = S.length)
    {f : Bytes} : At f 0 (image h ps S) ↔
      At f 0 (headerBytes h (headerOf ps)) ∧ At f 32 (segmentBytes h (segmentOf ps)) ∧
      At f 104 ((sectionsFrom 0 (cmdsEnd ps) (relocStart ps) S).flatMap (sectionBytes h)) ∧
      At f (104 + 80 * ps.length) (symtabBytes h (symtabOf ps)) ∧
      At f (cmdsEnd ps) (dataBytes ps) ∧
      At f (relocStart ps) (((ps.flatMap (·.relocs)).map (fun r => relocOf ps (lenOf r.len) r)).flatMap
        (relocBytes h)) ∧
      At f (symStart ps) (((placed ps).map (entryOf ((placed ps).map (·.2.name)) ps)).flatMap
        (nlistBytes h)) ∧
      At f (strStart ps) (0 :: cstrs ((placed ps).map (·.2.name))) := by
  unfold image tailBytes
  rw [at_append, at_append, at_append, at_append, List.length_append, length_cmdBytes h ps S hl,
    length_dataBytes, length_relocTable, length_symTable]
  unfold cmdBytes
  rw [at_append, at_append, at_append, length_headerBytes, length_sections,
    length_segmentBytes h (segmentOf ps) (by simp [segmentOf]), ← hl]
  have e1 : 0 + cmdsEnd ps = cmdsEnd ps := Nat.zero_add _
  have e2 : 0 + (cmdsEnd ps + roundUp8 (dataLen ps)) = relocStart ps := Nat.zero_add _
  have e3 : relocStart ps + 8 * relocCount ps = symStart ps := rfl
  have e4 : symStart ps + 16 * symCount ps = strStart ps := rfl
  simp only [e1, e2, e3, e4, Nat.zero_add, and_assoc]

theorem attrWord_congr {l m : List SectionAttr} (h : ∀ a, a ∈ l ↔ a ∈ m) : attrWord l = attrWord m := by
  unfold attrWord
  congr 2
  apply List.filter_congr
  intro a _
  simp [h a]

theorem sectionWord_says {ps : List Part} {i : Nat} {p : Part} {s : Section64}
    (h : SectionSays ps i p s) : attrWord s.attrs + sectionTypeNum s.type = sectionWord p := by
  have ha : attrWord s.attrs = attrWord ((if p.sectname = str% "__text" then
      [.someInstructions, .pureInstructions] else []) ++ (if p.relocs = [] then [] else [.locReloc, .extReloc])) := by
    apply attrWord_congr
    intro a
    rw [h.attrs a]
    by_cases h1 : p.sectname = str% "__text" <;> by_cases h2 : p.relocs = [] <;> simp [h1, h2, or_assoc]
  rw [ha, h.type, sectionWord]
  by_cases h1 : p.sectname = str% "__text" <;> by_cases h2 : p.relocs = [] <;>
    cases p.zerofill <;> simp only [h1, h2, if_true, if_false] <;> decide

theorem headerFields_of {ps : List Part} (hb : Bounds ps) : headerFields (headerOf ps) =
    [ .num 0 4 0xfeedfacf, .num 4 4 0x01000007, .num 8 4 3, .num 12 4 1, .num 16 4 2,
      .num 20 4 (72 + 80 * ps.length + 24), .num 24 4 0, .num 28 4 0 ] := by
  have hf := hb.file
  unfold strStart symStart relocStart cmdsEnd at hf
  unfold headerFields headerOf
  simp only
  rw [u32_ofNat _ (by omega)]
  rfl

theorem segmentFields_of {ps : List Part} (hb : Bounds ps) : segmentFields (segmentOf ps) =
    [ .num 0 4 0x19, .num 4 4 (72 + 80 * ps.length), .name 8 16 [], .num 24 8 0,
      .num 32 8 (vmLen ps), .num 40 8 (cmdsEnd ps), .num 48 8 (roundUp8 (dataLen ps)),
      .num 56 4 7, .num 60 4 7, .num 64 4 ps.length, .num 68 4 0 ] := by
  have hf := hb.file
  have hv := hb.vm
  have e : cmdsEnd ps = 32 + 72 + 80 * ps.length + 24 := rfl
  unfold strStart symStart relocStart at hf
  unfold segmentFields segmentOf
  simp only
  rw [u32_ofNat _ (by omega), u32_ofNat _ (by omega), u64_ofNat _ hv, u64_ofNat _ (by omega),
    u64_ofNat _ (by omega), Nat.mod_eq_of_lt (by omega)]
  rfl

theorem symtabFields_of {ps : List Part} (hb : Bounds ps) : symtabFields (symtabOf ps) =
    [ .num 0 4 0x2, .num 4 4 24, .num 8 4 (symStart ps), .num 12 4 (symCount ps),
      .num 16 4 (strStart ps), .num 20 4 (strLen ps) ] := by
  have hf := hb.file
  have hs := hb.strs
  have e : strStart ps = symStart ps + 16 * symCount ps := rfl
  unfold symtabFields symtabOf
  simp only
  rw [u32_ofNat _ (by omega), u32_ofNat _ (by omega), u32_ofNat _ (by omega), u32_ofNat _ (by omega)]
  rfl

theorem sectionFields_says {ps : List Part} {i : Nat} {p : Part} {s : Section64}
    (h : SectionSays ps i p s) : sectionFields s =
    [ .name 0 16 p.sectname, .name 16 16 p.segname, .num 32 8 (addrOf ps i), .num 40 8 p.vmsize,
      .num 48 4 (if p.zerofill then 0 else cmdsEnd ps + dataLen (ps.take i)), .num 52 4 0,
      .num 56 4 (if p.zerofill then 0 else relocStart ps + 8 * relocCount (ps.take i)),
      .num 60 4 p.relocs.length, .num 64 4 (sectionWord p), .num 68 4 0, .num 72 4 0, .num 76 4 0 ] := by
  unfold sectionFields
  rw [sectionWord_says h, h.sectname, h.segname, h.addr, h.size, h.offset, h.reloff, h.nreloc,
    h.rest.1, h.rest.2.1, h.rest.2.2.1, h.rest.2.2.2]
  rfl

theorem names_take_length {names : List Str} (ha : ∀ s ∈ names, strIsAscii s = true) :
    (cstrs names).length = (names.map (fun s => utf8Len s + 1)).sum := by
  rw [length_cstrs]
  congr 1
  apply List.map_congr_left
  intro s hs
  rw [utf8Len_ascii s (ha s hs)]

theorem chunks_plain {names : List Str} (h : ∀ s ∈ names, Char.ofNat 0 ∉ s) : chunks names = names := by
  induction names with
  | nil => rfl
  | cons s l ih =>
    unfold chunks at *
    rw [List.flatMap_cons, chunk_plain s (h s (by simp)), ih (fun t ht => h t (by simp [ht]))]
    rfl

theorem strPos_nameOff {names : List Str} (h : ∀ s ∈ names, Char.ofNat 0 ∉ s)
    (ha : ∀ s ∈ names, strIsAscii s = true) (n : Str) : strPos names n = nameOff names n := by
  unfold strPos posIn nameOff
  rw [chunks_plain h]
  congr 2
  apply List.map_congr_left
  intro s hs
  rw [utf8Len_ascii s (ha s (List.takeWhile_subset _ hs))]

theorem at_table {α : Type} (g : α → Bytes) (l : List α) (w : Nat) (hw : ∀ x ∈ l, (g x).length = w)
    {f : Bytes} {off : Nat} (ho : off ≤ f.length) :
    At f off (l.flatMap g) ↔ ∀ (i : Nat) x, l[i]? = some x → At f (off + w * i) (g x) := by
  rw [at_flatMap g l ho]
  have key : ∀ (i : Nat) x, l[i]? = some x → ((l.take i).flatMap g).length = w * i := by
    intro i x hx
    obtain ⟨hi, _⟩ := List.getElem?_eq_some_iff.1 hx
    rw [flatMap_len g _ w (fun y hy => hw y (List.mem_of_mem_take hy)), List.length_take,
      Nat.min_eq_left (by omega)]
  constructor
  · intro h i x hx; rw [← key i x hx]; exact h i x hx
  · intro h i x hx; rw [key i x hx]; exact h i x hx

theorem at_zeros {f : Bytes} {off k : Nat} (ho : off ≤ f.length) :
    At f off (List.replicate k 0) ↔ ∀ j < k, At f (off + j) [0] := by
  have := at_table (fun x : UInt8 => [x]) (List.replicate k 0) 1 (fun _ _ => rfl) ho
  rw [List.flatMap_singleton'] at this
  rw [this]
  constructor
  · intro h j hj
    have := h j 0 (by rw [List.getElem?_replicate, if_pos hj])
    rwa [Nat.one_mul] at this
  · intro h i x hx
    rw [List.getElem?_replicate] at hx
    split at hx
    · cases hx; rw [Nat.one_mul]; exact h i ‹_›
    · cases hx

theorem data_at {ps : List Part} {f : Bytes} (ho : cmdsEnd ps + roundUp8 (dataLen ps) ≤ f.length) :
    At f (cmdsEnd ps) (dataBytes ps) ↔
      (∀ (i : Nat) (p : Part), ps[i]? = some p →
        bytesAt f (cmdsEnd ps + dataLen (ps.take i)) p.bytes.length = some p.bytes) ∧
      (∀ k, dataLen ps ≤ k → k < roundUp8 (dataLen ps) → bytesAt f (cmdsEnd ps + k) 1 = some [0]) := by
  have hle : dataLen ps ≤ roundUp8 (dataLen ps) := by unfold roundUp8; omega
  unfold dataBytes
  rw [at_append, at_flatMap _ _ (by omega), length_bytes, at_zeros (by omega)]
  refine and_congr ?_ ?_
  · constructor
    · intro h i p hp
      have := h i p hp
      rwa [length_bytes] at this
    · intro h i p hp
      rw [length_bytes]
      exact h i p hp
  · constructor
    · intro h k hk hlt
      have := h (k - dataLen ps) (by omega)
      rwa [Nat.add_assoc, show dataLen ps + (k - dataLen ps) = k by omega] at this
    · intro h j hj
      rw [Nat.add_assoc]
      exact h _ (by omega) (by omega)

theorem sections_at (h : Endian) {o : Object} (hf : Fits o) {f : Bytes}
    (ho : cmdsEnd (parts o) ≤ f.length) :
    At f 104 ((sectionsFrom 0 (cmdsEnd (parts o)) (relocStart (parts o)) o.sections.iter).flatMap
      (sectionBytes h)) ↔
    ∀ (i : Nat) (p : Part), (parts o)[i]? = some p → HasFields h f (104 + 80 * i)
      [ .name 0 16 p.sectname, .name 16 16 p.segname, .num 32 8 (addrOf (parts o) i), .num 40 8 p.vmsize,
        .num 48 4 (if p.zerofill then 0 else cmdsEnd (parts o) + dataLen ((parts o).take i)), .num 52 4 0,
        .num 56 4 (if p.zerofill then 0 else relocStart (parts o) + 8 * relocCount ((parts o).take i)),
        .num 60 4 p.relocs.length, .num 64 4 (sectionWord p), .num 68 4 0, .num 72 4 0, .num 76 4 0 ] := by
  have e : cmdsEnd (parts o) = 32 + 72 + 80 * (parts o).length + 24 := rfl
  have hlen : (parts o).length =
      (sectionsFrom 0 (cmdsEnd (parts o)) (relocStart (parts o)) o.sections.iter).length := by
    rw [sectionsFrom_length, parts_of_fits hf, List.length_map]
  have key : ∀ (i : Nat) (p : Part) (t : Section64), (parts o)[i]? = some p →
      (sectionsFrom 0 (cmdsEnd (parts o)) (relocStart (parts o)) o.sections.iter)[i]? = some t →
      (HasFields h f (104 + 80 * i)
      [ .name 0 16 p.sectname, .name 16 16 p.segname, .num 32 8 (addrOf (parts o) i), .num 40 8 p.vmsize,
        .num 48 4 (if p.zerofill then 0 else cmdsEnd (parts o) + dataLen ((parts o).take i)), .num 52 4 0,
        .num 56 4 (if p.zerofill then 0 else relocStart (parts o) + 8 * relocCount ((parts o).take i)),
        .num 60 4 p.relocs.length, .num 64 4 (sectionWord p), .num 68 4 0, .num 72 4 0, .num 76 4 0 ] ↔
      At f (104 + 80 * i) (sectionBytes h t)) := by
    intro i p t hp ht
    obtain ⟨s, hs, hsay⟩ := readSections_get hf hp
    unfold readSections at hs
    rw [List.getElem?_map, ht] at hs
    cases hs
    rw [← sectionFields_says hsay, sectionFields_sort]
    have hok := sectionsFrom_mem (List.mem_of_getElem? ht)
    have hi := section_image h t hok.1.len hok.2.len
    obtain ⟨hlt, _⟩ := List.getElem?_eq_some_iff.1 hp
    exact fields_at h hi.1 hi.2 (by omega)
  rw [at_table _ _ 80 (fun x hx => length_sectionBytes h x (sectionsFrom_mem hx).1.len
    (sectionsFrom_mem hx).2.len) (by omega)]
  constructor
  · intro hA i p hp
    obtain ⟨hlt, _⟩ := List.getElem?_eq_some_iff.1 hp
    exact (key i p _ hp (List.getElem?_eq_getElem (hlen ▸ hlt))).2 (hA i _ (List.getElem?_eq_getElem (hlen ▸ hlt)))
  · intro hA i t ht
    obtain ⟨hlt, _⟩ := List.getElem?_eq_some_iff.1 ht
    exact (key i _ t (List.getElem?_eq_getElem (hlen ▸ hlt)) ht).1 (hA i _ (List.getElem?_eq_getElem (hlen ▸ hlt)))

end AT.Obj
