import Verif.Proofs.ObjWrap
import Verif.Spec.ObjWrap
import Verif.Props.ObjFile
import Verif.Proofs.Builds
import Verif.Props.Oversize
/-!
# What is written for objects of any size (C78)
-/

namespace AT.Props
open AT.Mac AT.MachO AT.ObjSpec AT.Obj

theorem pack_spill (h : Endian) (n : UInt32) (p : Bool) (l : RelocLength) (a : Int32) :
    ((⟨a, n, p, l, true, 0⟩ : RelocationInfo).pack h).toNat = spillWord h n.toNat p (relocLengthNum l) := by
  cases h
  · have tab : ∀ p l, (packLo p l true 0).toNat =
        p.toNat * 0x1000000 + relocLengthNum l * 0x2000000 + 0x8000000 := by
      intro p l; cases l <;> revert p <;> decide +kernel
    rw [pack_little, UInt32.toNat_or]
    simp only [spillWord]
    rw [tab, Nat.mod_eq_of_lt n.toNat_lt]
  · have tab : ∀ p l, (packBig p l true 0).toNat =
        p.toNat * 0x80 + relocLengthNum l * 0x20 + 0x10 := by
      intro p l; cases l <;> revert p <;> decide +kernel
    rw [pack_big, UInt32.toNat_or, UInt32.toNat_shiftLeft]
    simp only [spillWord]
    rw [tab, Nat.shiftLeft_eq]
    rfl

theorem spillWord_mod (h : Endian) (n : Nat) (p : Bool) (len : Nat) :
    spillWord h (n % 2 ^ 32) p len = spillWord h n p len := by
  cases h
  · simp [spillWord]
  · simp only [spillWord]
    rw [Nat.mul_mod, Nat.mod_mod, ← Nat.mul_mod]

/-- The entry written for a relocation. -/
theorem reloc_entry_image (h : Endian) {o : Object} (hw : Expressible o) {r : Reloc} (hr : r ∈ allRelocs o) :
    relocBytes h (relocEntry (symNames o) r) =
      [ .num 0 4 (i32Num r.addr),
        .num 4 4 (spillWord h (symNumber o r.symbol) r.pcrel r.len.toNat) ].flatMap (fieldBytes h) ∧
    Consec 0
      [ .num 0 4 (i32Num r.addr),
        .num 4 4 (spillWord h (symNumber o r.symbol) r.pcrel r.len.toNat) ] := by
  have hlen : relocLengthNum (lenOf r.len) = r.len.toNat := by
    have tab : ∀ n < 4, relocLengthNum (lenOf (UInt8.ofNat n)) = n := by decide
    have := tab r.len.toNat (by have := hw.lens r hr; omega)
    rwa [UInt8.ofNat_toNat] at this
  have hword : ((relocEntry (symNames o) r).pack h).toNat =
      spillWord h (symNumber o r.symbol) r.pcrel r.len.toNat := by
    unfold relocEntry
    rw [pack_spill, hlen, UInt32.toNat_ofNat', spillWord_mod]
    rfl
  rw [← hword]
  constructor
  · simp only [List.flatMap_cons, List.flatMap_nil, fieldBytes, relocBytes, i32Num_eq, List.append_nil]
    rfl
  · simp only [Consec, fieldOk, fieldLen, i32Num_eq]
    refine ⟨⟨trivial, UInt32.toNat_lt _⟩, ⟨trivial, UInt32.toNat_lt _⟩, trivial⟩

/-- A symbol number of 24 bits does not spill. -/
theorem spillWord_small (h : Endian) (n : Nat) (p : Bool) (len : Nat) (hn : n < 2 ^ 24) (hl : len ≤ 3) :
    spillWord h n p len = externWord h n p len := by
  have hp : p.toNat ≤ 1 := by cases p <;> decide
  cases h
  · simp only [spillWord, externWord]
    rw [Nat.mod_eq_of_lt (by omega), show p.toNat * 0x1000000 + len * 0x2000000 + 0x8000000 =
      2 ^ 24 * (p.toNat + len * 2 + 8) by omega, Nat.or_comm, ← Nat.two_pow_add_eq_or_of_lt hn]
    omega
  · simp only [spillWord, externWord]
    rw [Nat.mod_eq_of_lt (by omega), show n * 0x100 = 2 ^ 8 * n by omega,
      ← Nat.two_pow_add_eq_or_of_lt (by omega)]
    omega

theorem symbol_word_mod {o : Object} (hw : Expressible o) {i : Nat} {s : Symbol}
    (hs : (i, s) ∈ placed (parts o)) :
    nlistFields (entryOf (symNames o) (parts o) (i, s)) =
      [ .num 0 4 (nameOff (tableStrings (symNames o)) s.name % 2 ^ 32),
        .num 4 1 (symbolWord (parts o) i s).1, .num 5 1 (symbolWord (parts o) i s).2.1, .num 6 2 0,
        .num 8 8 ((symbolWord (parts o) i s).2.2 % 2 ^ 64) ] := by
  have hpl := names_ascii hw.ascii
  have hx : (UInt32.ofNat (strPos (symNames o) s.name)).toNat =
      nameOff (tableStrings (symNames o)) s.name % 2 ^ 32 := by
    rw [UInt32.toNat_ofNat', strPos_table (names := symNames o) hpl]
  have hi : i < 3 := by
    obtain ⟨q, hq, _⟩ := placed_mem hs
    obtain ⟨hi, _⟩ := List.getElem?_eq_some_iff.1 hq
    have := parts_le o
    simp only at hi
    omega
  have hsect : (UInt8.ofNat (i + 1)).toNat = i + 1 := by
    rw [UInt8.toNat_ofNat']; omega
  cases s with
  | undef name => simp only [nlistFields, entryOf, symbolWord, Symbol.name] at *; rw [hx]; rfl
  | abs name val ext =>
    have hv : val.toNat % 2 ^ 64 = val.toNat := Nat.mod_eq_of_lt val.toNat_lt
    simp only [nlistFields, entryOf, symbolWord, Symbol.name, hsect, hv] at *; rw [hx]
    cases ext <;> rfl
  | ref name addr ext =>
    simp only [nlistFields, entryOf, symbolWord, Symbol.name, hsect] at *
    rw [hx, UInt64.toNat_ofNat']
    cases ext <;> rfl

theorem sectionFields_mod (ps : List Part) (i : Nat) (s : SectionRef) (hv : (toPart s).vmsize < 2 ^ 64) :
    sectionFields (genSection64 s (UInt64.ofNat (0 + vmLen (ps.take i)))
      (UInt32.ofNat (cmdsEnd ps + dataLen (ps.take i)))
      (UInt32.ofNat (relocStart ps + 8 * relocCount (ps.take i)))) =
    [ .name 0 16 (toPart s).sectname, .name 16 16 (toPart s).segname,
      .num 32 8 (addrOf ps i % 2 ^ 64), .num 40 8 (toPart s).vmsize,
      .num 48 4 (if (toPart s).zerofill then 0 else (cmdsEnd ps + dataLen (ps.take i)) % 2 ^ 32),
      .num 52 4 0,
      .num 56 4 (if (toPart s).zerofill then 0 else
        (relocStart ps + 8 * relocCount (ps.take i)) % 2 ^ 32),
      .num 60 4 ((toPart s).relocs.length % 2 ^ 32), .num 64 4 (sectionWord (toPart s)),
      .num 68 4 0, .num 72 4 0, .num 76 4 0 ] := by
  unfold addrOf
  cases s with
  | text t =>
    simp only [toPart] at hv
    have hw : attrWord ([.someInstructions, .pureInstructions] ++ relocAttrs t.relocs) +
        sectionTypeNum .regular = sectionWord (toPart (.text t)) := by
      unfold relocAttrs sectionWord
      simp only [toPart]
      by_cases hr : t.relocs = []
      · simp only [hr, List.isEmpty_nil, if_true, Bool.false_eq_true, if_false]; decide
      · simp only [List.isEmpty_iff, hr, if_true, Bool.false_eq_true, if_false]; decide
    simp only [sectionFields, genSection64, genSection64FromText, hw, UInt32.toNat_ofNat',
      UInt64.toNat_ofNat', Nat.zero_add, toPart, Nat.mod_eq_of_lt hv, Bool.false_eq_true, if_false]
    rfl
  | data t =>
    simp only [toPart] at hv
    have hw : attrWord (relocAttrs t.relocs) + sectionTypeNum .regular =
        sectionWord (toPart (.data t)) := by
      unfold relocAttrs sectionWord
      simp only [toPart]
      by_cases hr : t.relocs = []
      · simp only [hr, List.isEmpty_nil, if_true, Bool.false_eq_true, if_false, List.cons.injEq,
          Char.reduceEq, and_false, false_and]
        decide
      · simp only [List.isEmpty_iff, hr, Bool.false_eq_true, if_false, List.cons.injEq, Char.reduceEq,
          and_false, false_and]
        decide
    simp only [sectionFields, genSection64, genSection64FromData, hw, UInt32.toNat_ofNat',
      UInt64.toNat_ofNat', Nat.zero_add, toPart, Nat.mod_eq_of_lt hv, Bool.false_eq_true, if_false]
    rfl
  | bss b =>
    simp only [sectionFields, genSection64, genSection64FromBss, UInt64.toNat_ofNat', Nat.zero_add,
      toPart, if_true]
    rfl

theorem vmsize_lt {o : Object} (ht : o.sections.text.bytes.length < 2 ^ 64)
    (hd : o.sections.data.bytes.length < 2 ^ 64) {s : SectionRef} (hs : s ∈ o.sections.iter) :
    (toPart s).vmsize < 2 ^ 64 := by
  have := (List.mem_filter.1 hs).1
  simp only [List.mem_cons, List.not_mem_nil, or_false] at this
  rcases this with rfl | rfl | rfl
  · exact ht
  · exact hd
  · exact UInt64.toNat_lt _

theorem sections_at_mod (h : Endian) {o : Object} (ht : o.sections.text.bytes.length < 2 ^ 64)
    (hd : o.sections.data.bytes.length < 2 ^ 64) {f : Bytes} (ho : cmdsEnd (parts o) ≤ f.length) :
    At f 104 ((sectionsFrom 0 (cmdsEnd (parts o)) (relocStart (parts o)) o.sections.iter).flatMap
      (sectionBytes h)) ↔
    ∀ (i : Nat) (p : Part), (parts o)[i]? = some p → HasFields h f (104 + 80 * i)
      [ .name 0 16 p.sectname, .name 16 16 p.segname, .num 32 8 (addrOf (parts o) i % 2 ^ 64),
        .num 40 8 p.vmsize,
        .num 48 4 (if p.zerofill then 0 else (cmdsEnd (parts o) + dataLen ((parts o).take i)) % 2 ^ 32),
        .num 52 4 0,
        .num 56 4 (if p.zerofill then 0 else
          (relocStart (parts o) + 8 * relocCount ((parts o).take i)) % 2 ^ 32),
        .num 60 4 (p.relocs.length % 2 ^ 32), .num 64 4 (sectionWord p), .num 68 4 0, .num 72 4 0,
        .num 76 4 0 ] := by
  have hp := parts_eq o ht hd
  have e : cmdsEnd (parts o) = 32 + 72 + 80 * (parts o).length + 24 := rfl
  have key : ∀ (i : Nat) (s : SectionRef), o.sections.iter[i]? = some s →
      ∃ t, (sectionsFrom 0 (cmdsEnd (parts o)) (relocStart (parts o)) o.sections.iter)[i]? = some t ∧
      (HasFields h f (104 + 80 * i)
        [ .name 0 16 (toPart s).sectname, .name 16 16 (toPart s).segname,
          .num 32 8 (addrOf (parts o) i % 2 ^ 64), .num 40 8 (toPart s).vmsize,
          .num 48 4 (if (toPart s).zerofill then 0 else
            (cmdsEnd (parts o) + dataLen ((parts o).take i)) % 2 ^ 32),
          .num 52 4 0,
          .num 56 4 (if (toPart s).zerofill then 0 else
            (relocStart (parts o) + 8 * relocCount ((parts o).take i)) % 2 ^ 32),
          .num 60 4 ((toPart s).relocs.length % 2 ^ 32), .num 64 4 (sectionWord (toPart s)),
          .num 68 4 0, .num 72 4 0, .num 76 4 0 ] ↔
      At f (104 + 80 * i) (sectionBytes h t)) := by
    intro i s hs
    refine ⟨_, sectionsFrom_get _ _ _ _ _ _ hs, ?_⟩
    rw [← hp, ← sectionFields_mod (parts o) i s (vmsize_lt ht hd (List.mem_of_getElem? hs))]
    have hok := genSection64_nameOk s (UInt64.ofNat (0 + vmLen ((parts o).take i)))
      (UInt32.ofNat (cmdsEnd (parts o) + dataLen ((parts o).take i)))
      (UInt32.ofNat (relocStart (parts o) + 8 * relocCount ((parts o).take i)))
    have hi := section_image h _ hok.1.len hok.2.len
    obtain ⟨hlt, _⟩ := List.getElem?_eq_some_iff.1 hs
    have hl : (parts o).length = o.sections.iter.length := by rw [hp, List.length_map]
    exact fields_at h hi.1 hi.2 (by omega)
  rw [at_table _ _ 80 (fun x hx => length_sectionBytes h x (sectionsFrom_mem hx).1.len
    (sectionsFrom_mem hx).2.len) (by omega)]
  constructor
  · intro hA i p hi
    rw [hp, List.getElem?_map] at hi
    obtain ⟨s, hs, rfl⟩ := Option.map_eq_some_iff.1 hi
    obtain ⟨t, ht', hk⟩ := key i s hs
    exact hk.2 (hA i t ht')
  · intro hA i t ht'
    obtain ⟨hlt, _⟩ := List.getElem?_eq_some_iff.1 ht'
    rw [sectionsFrom_length] at hlt
    obtain ⟨t', ht'', hk⟩ := key i _ (List.getElem?_eq_getElem hlt)
    rw [ht'] at ht''
    cases ht''
    exact hk.1 (hA i _ (by rw [hp, List.getElem?_map, List.getElem?_eq_getElem hlt]; rfl))

theorem headerFields_mod {ps : List Part} (hc : cmdsEnd ps < 369) : headerFields (headerOf ps) =
    [ .num 0 4 0xfeedfacf, .num 4 4 0x01000007, .num 8 4 3, .num 12 4 1, .num 16 4 2,
      .num 20 4 (72 + 80 * ps.length + 24), .num 24 4 0, .num 28 4 0 ] := by
  unfold cmdsEnd at hc
  unfold headerFields headerOf
  simp only
  rw [u32_ofNat _ (by omega)]
  rfl

theorem segmentFields_mod {ps : List Part} (hc : cmdsEnd ps < 369) : segmentFields (segmentOf ps) =
    [ .num 0 4 0x19, .num 4 4 (72 + 80 * ps.length), .name 8 16 [], .num 24 8 0,
      .num 32 8 (vmLen ps % 2 ^ 64), .num 40 8 (cmdsEnd ps),
      .num 48 8 (roundUp8 (dataLen ps) % 2 ^ 32),
      .num 56 4 7, .num 60 4 7, .num 64 4 ps.length, .num 68 4 0 ] := by
  have e : cmdsEnd ps = 32 + 72 + 80 * ps.length + 24 := rfl
  unfold segmentFields segmentOf
  simp only
  rw [u32_ofNat _ (by omega), u32_ofNat _ (by omega), UInt64.toNat_ofNat', u64_ofNat _ (by omega),
    u64_ofNat _ (by omega)]
  rfl

theorem symtabFields_mod {ps : List Part} : symtabFields (symtabOf ps) =
    [ .num 0 4 0x2, .num 4 4 24, .num 8 4 (symStart ps % 2 ^ 32), .num 12 4 (symCount ps % 2 ^ 32),
      .num 16 4 (strStart ps % 2 ^ 32), .num 20 4 (strLen ps % 2 ^ 32) ] := by
  unfold symtabFields symtabOf
  simp only
  rw [UInt32.toNat_ofNat', UInt32.toNat_ofNat', UInt32.toNat_ofNat', UInt32.toNat_ofNat']
  rfl

theorem start_at (h : Endian) {ps : List Part} {S : List SectionRef} (hl : ps.length = S.length)
    {f : Bytes} : At f 0 (cmdBytes h ps S ++ dataBytes ps) ↔
      At f 0 (headerBytes h (headerOf ps)) ∧ At f 32 (segmentBytes h (segmentOf ps)) ∧
      At f 104 ((sectionsFrom 0 (cmdsEnd ps) (relocStart ps) S).flatMap (sectionBytes h)) ∧
      At f (104 + 80 * ps.length) (symtabBytes h (symtabOf ps)) ∧ At f (cmdsEnd ps) (dataBytes ps) := by
  rw [at_append, length_cmdBytes h ps S hl]
  unfold cmdBytes
  rw [at_append, at_append, at_append, length_headerBytes, length_sections,
    length_segmentBytes h (segmentOf ps) (by simp [segmentOf]), ← hl]
  simp only [Nat.zero_add, and_assoc]

theorem fileStart_at (h : Endian) (o : Object) (ht : o.sections.text.bytes.length < 2 ^ 64)
    (hd : o.sections.data.bytes.length < 2 ^ 64) {f : Bytes} (hlen : relocStart (parts o) ≤ f.length) :
    FileStart h o f ↔ At f 0 (cmdBytes h (parts o) o.sections.iter ++ dataBytes (parts o)) := by
  have hp := parts_eq o ht hd
  have hl : (parts o).length = o.sections.iter.length := by rw [hp, List.length_map]
  have hc := cmdsEnd_lt hp
  have e4 : relocStart (parts o) = cmdsEnd (parts o) + roundUp8 (dataLen (parts o)) := rfl
  have e5 : cmdsEnd (parts o) = 32 + 72 + 80 * (parts o).length + 24 := rfl
  have hhdr := header_image h (headerOf (parts o))
  have hseg := segment_image h (segmentOf (parts o)) (by simp [segmentOf])
  have hst := symtab_image h (symtabOf (parts o))
  rw [headerFields_mod hc] at hhdr
  rw [segmentFields_mod hc] at hseg
  rw [symtabFields_mod] at hst
  rw [start_at h hl]
  constructor
  · intro H
    exact ⟨(fields_at h hhdr.1 hhdr.2 (Nat.zero_le _)).1 H.header,
      (fields_at h hseg.1 hseg.2 (by omega)).1 H.segment, (sections_at_mod h ht hd (by omega)).2 H.sections,
      (fields_at h hst.1 hst.2 (by omega)).1 H.symtab, (data_at (by omega)).2 ⟨H.contents, H.padding⟩⟩
  · rintro ⟨h1, h2, h3, h4, h5⟩
    obtain ⟨h5a, h5b⟩ := (data_at (by omega)).1 h5
    exact ⟨(fields_at h hhdr.1 hhdr.2 (Nat.zero_le _)).2 h1, (fields_at h hseg.1 hseg.2 (by omega)).2 h2,
      (sections_at_mod h ht hd (by omega)).1 h3, (fields_at h hst.1 hst.2 (by omega)).2 h4, h5a, h5b⟩

theorem file_start (h : Endian) (o : Object) (ht : o.sections.text.bytes.length < 2 ^ 64)
    (hd : o.sections.data.bytes.length < 2 ^ 64) (f : Bytes) :
    (f.length = relocStart (parts o) ∧ FileStart h o f) ↔
      f = cmdBytes h (parts o) o.sections.iter ++ dataBytes (parts o) := by
  have hp := parts_eq o ht hd
  have hl : (parts o).length = o.sections.iter.length := by rw [hp, List.length_map]
  have e4 : cmdsEnd (parts o) + roundUp8 (dataLen (parts o)) = relocStart (parts o) := rfl
  rw [eq_iff_at, List.length_append, length_cmdBytes h _ _ hl, length_dataBytes, e4]
  exact and_congr_right fun hlen => fileStart_at h o ht hd (by omega)

theorem file_mod (h : Endian) (o : Object) (ht : o.sections.text.bytes.length < 2 ^ 64)
    (hd : o.sections.data.bytes.length < 2 ^ 64) (hw : Expressible o) (f : Bytes) :
    FileMod h o f ↔ f = imageMod h (parts o) o.sections.iter := by
  have hp := parts_eq o ht hd
  have hl : (parts o).length = o.sections.iter.length := by rw [hp, List.length_map]
  have hpl := names_ascii hw.ascii
  have hc := cmdsEnd_lt hp
  have e1 : fileLen (parts o) = strStart (parts o) + strLen (parts o) := rfl
  have e2 : strStart (parts o) = symStart (parts o) + 16 * symCount (parts o) := rfl
  have e3 : symStart (parts o) = relocStart (parts o) + 8 * relocCount (parts o) := rfl
  have e4 : relocStart (parts o) = cmdsEnd (parts o) + roundUp8 (dataLen (parts o)) := rfl
  have e5 : cmdsEnd (parts o) = 32 + 72 + 80 * (parts o).length + 24 := rfl
  rw [eq_iff_at, length_imageMod h _ _ hl hpl]
  have hrel : ∀ hlen : f.length = fileLen (parts o),
      At f (relocStart (parts o)) ((((parts o).flatMap (·.relocs)).map
        (relocEntry (symNames o))).flatMap (relocBytes h)) ↔
      ∀ (k : Nat) (r : Reloc), (allRelocs o)[k]? = some r →
        HasFields h f (relocStart (parts o) + 8 * k)
          [ .num 0 4 (i32Num r.addr),
            .num 4 4 (spillWord h (symNumber o r.symbol) r.pcrel r.len.toNat) ] := by
    intro hlen
    rw [at_table _ _ 8 (fun x _ => length_relocBytes h x) (by omega)]
    have key : ∀ (k : Nat) (r : Reloc), (allRelocs o)[k]? = some r →
        (At f (relocStart (parts o) + 8 * k) (relocBytes h (relocEntry (symNames o) r)) ↔
        HasFields h f (relocStart (parts o) + 8 * k)
          [ .num 0 4 (i32Num r.addr),
            .num 4 4 (spillWord h (symNumber o r.symbol) r.pcrel r.len.toNat) ]) := by
      intro k r hk
      have hm := List.mem_of_getElem? hk
      obtain ⟨hlt, _⟩ := List.getElem?_eq_some_iff.1 hk
      have hcount : (allRelocs o).length = relocCount (parts o) := length_relocs _
      have hi := reloc_entry_image h hw hm
      exact (fields_at h hi.1 hi.2 (by omega)).symm
    constructor
    · intro hA k r hk
      refine (key k r hk).1 (hA k _ ?_)
      rw [List.getElem?_map]
      show Option.map _ (allRelocs o)[k]? = _
      rw [hk]; rfl
    · intro hA k x hk
      rw [List.getElem?_map] at hk
      obtain ⟨r, hr, rfl⟩ := Option.map_eq_some_iff.1 hk
      exact (key k r hr).2 (hA k r hr)
  have hsym : ∀ hlen : f.length = fileLen (parts o),
      At f (symStart (parts o)) (((placed (parts o)).map (entryOf (symNames o) (parts o))).flatMap
        (nlistBytes h)) ↔
      ∀ (k i : Nat) (s : Symbol), (placed (parts o))[k]? = some (i, s) →
        HasFields h f (symStart (parts o) + 16 * k)
          [ .num 0 4 (nameOff (tableStrings (symNames o)) s.name % 2 ^ 32),
            .num 4 1 (symbolWord (parts o) i s).1,
            .num 5 1 (symbolWord (parts o) i s).2.1, .num 6 2 0,
            .num 8 8 ((symbolWord (parts o) i s).2.2 % 2 ^ 64) ] := by
    intro hlen
    rw [at_table _ _ 16 (fun x _ => length_nlistBytes h x) (by omega)]
    have key : ∀ (k i : Nat) (s : Symbol), (placed (parts o))[k]? = some (i, s) →
        (At f (symStart (parts o) + 16 * k) (nlistBytes h (entryOf (symNames o) (parts o) (i, s))) ↔
        HasFields h f (symStart (parts o) + 16 * k)
          [ .num 0 4 (nameOff (tableStrings (symNames o)) s.name % 2 ^ 32),
            .num 4 1 (symbolWord (parts o) i s).1,
            .num 5 1 (symbolWord (parts o) i s).2.1, .num 6 2 0,
            .num 8 8 ((symbolWord (parts o) i s).2.2 % 2 ^ 64) ]) := by
      intro k i s hk
      have hw' := symbol_word_mod hw (List.mem_of_getElem? hk)
      obtain ⟨hlt, _⟩ := List.getElem?_eq_some_iff.1 hk
      have hcount : (placed (parts o)).length = symCount (parts o) := length_placed _
      have hi := nlist_image h (entryOf (symNames o) (parts o) (i, s))
      rw [← hw']
      exact (fields_at h hi.1 hi.2 (by omega)).symm
    constructor
    · intro hA k i s hk
      refine (key k i s hk).1 (hA k _ ?_)
      rw [List.getElem?_map, hk]; rfl
    · intro hA k x hk
      rw [List.getElem?_map] at hk
      obtain ⟨⟨i, s⟩, hr, rfl⟩ := Option.map_eq_some_iff.1 hk
      exact (key k i s hr).2 (hA k i s hr)
  constructor
  · intro H
    have hlen := H.length
    exact ⟨hlen, (imageMod_at h hl).2 ⟨(fileStart_at h o ht hd (by omega)).1 H.toFileStart,
      (hrel hlen).2 H.relocs, (hsym hlen).2 H.symbols, (strings_at hw.ascii).2 ⟨H.nul, H.strings⟩⟩⟩
  · rintro ⟨hlen, H⟩
    obtain ⟨h1, h6, h7, h8⟩ := (imageMod_at h hl).1 H
    obtain ⟨h8a, h8b⟩ := (strings_at hw.ascii).1 h8
    exact ⟨(fileStart_at h o ht hd (by omega)).2 h1, hlen, (hrel hlen).1 h6, (hsym hlen).1 h7, h8a, h8b⟩

/-- C78, release builds: for an object of any size, the file is written if names and relocations can
be expressed, and otherwise the writer panics.  What is written is the one file that has all contents
at their true places and every number reduced modulo the width of its field.  (`Vec` lengths are below
`2 ^ 64`.) -/
theorem C78_release (h : Endian) (o : Object) (ht : o.sections.text.bytes.length < 2 ^ 64)
    (hd : o.sections.data.bytes.length < 2 ^ 64) :
    ((writeInto .release h o).res = .ok () ↔ Expressible o) ∧
    ((writeInto .release h o).res = .error .panic ↔ ¬ Expressible o) ∧
    (Expressible o → ∀ f, FileMod h o f ↔ f = (writeInto .release h o).out) := by
  have hp := parts_eq o ht hd
  by_cases hw : Expressible o
  · have hwr := writeInto_writes_rel h hp hw
    refine ⟨⟨fun _ => hw, fun _ => hwr.res⟩, ⟨fun he => ?_, fun hn => absurd hw hn⟩, fun _ f => ?_⟩
    · rw [hwr.res] at he; cases he
    · rw [hwr.out]
      exact file_mod h o ht hd hw f
  · have hpn := writeInto_panics_rel h hp hw
    refine ⟨⟨fun he => ?_, fun hw' => absurd hw' hw⟩, ⟨fun _ => hw, fun _ => hpn.1⟩, fun hw' => absurd hw' hw⟩
    rw [hpn.1] at he; cases he

/-- C78, both builds: whenever a file is written, it is the file of `C78_release`. -/
theorem C78_written (bd : Build) (h : Endian) (o : Object) (ht : o.sections.text.bytes.length < 2 ^ 64)
    (hd : o.sections.data.bytes.length < 2 ^ 64) (hok : (writeInto bd h o).res = .ok ()) :
    Expressible o ∧ ∀ f, FileMod h o f ↔ f = (writeInto bd h o).out := by
  have e : (writeInto .release h o).res = (writeInto bd h o).res ∧
      (writeInto .release h o).out = (writeInto bd h o).out := by
    cases bd with
    | release => exact ⟨rfl, rfl⟩
    | debug =>
      rcases agree_writeInto h o with ⟨h1, _⟩ | hw
      · rw [hok] at h1; cases h1
      · rw [hw]; exact ⟨rfl, rfl⟩
  have hw := (C78_release h o ht hd).1.1 (e.1.trans hok)
  exact ⟨hw, e.2 ▸ (C78_release h o ht hd).2.2 hw⟩

/-- C78, objects whose names or relocations cannot be expressed: the writer panics after it has written
the beginning of the file, up to the relocations, and nothing more. -/
theorem C78_panics (bd : Build) (h : Endian) (o : Object) (ht : o.sections.text.bytes.length < 2 ^ 64)
    (hd : o.sections.data.bytes.length < 2 ^ 64)
    (hfit : bd = .release ∨ Fits o) (hw : ¬ Expressible o) :
    (writeInto bd h o).res = .error .panic ∧
    ∀ f, (f.length = relocStart (parts o) ∧ FileStart h o f) ↔ f = (writeInto bd h o).out := by
  have hp := parts_eq o ht hd
  have key : (writeInto bd h o).res = .error .panic ∧
      (writeInto bd h o).out = cmdBytes h (parts o) o.sections.iter ++ dataBytes (parts o) := by
    rcases hfit with rfl | hf
    · exact writeInto_panics_rel h hp hw
    · exact writeInto_panics bd h hf (fun hw' => hw ((expressible_iff hf.strs).2 hw'))
  exact ⟨key.1, fun f => by rw [key.2]; exact file_start h o ht hd f⟩

/-- If the names take less than `2 ^ 32` bytes, a relocation can be expressed if a symbol was given its
name, and refers to the first such symbol. -/
theorem C78_names (o : Object) (hs : strLen (parts o) < 2 ^ 32) :
    (Expressible o ↔ Writable o) ∧
    (Writable o → ∀ n, symNumber o n = ((symNames o).map seen).idxOf n) :=
  ⟨expressible_iff hs, fun hw n => symNumber_small hw.ascii hs n⟩

/-- Symbol numbers of 24 bits are stored as they are.  The next number is not: the entry says
pc-relative or, big-endian, refers to symbol 0. -/
theorem C78_numbers (h : Endian) (p : Bool) (n len : Nat) (hl : len ≤ 3) :
    (n < 2 ^ 24 → spillWord h n p len = externWord h n p len) ∧
    (n = 2 ^ 24 → spillWord h n p len = externWord h 0 (h == .little || p) len) := by
  refine ⟨fun hn => spillWord_small h n p len hn hl, ?_⟩
  rintro rfl
  have tab : ∀ len ≤ 3, ∀ p, spillWord h (2 ^ 24) p len = externWord h 0 (h == .little || p) len := by
    cases h <;> decide +kernel
  exact tab len hl p

/-- For objects that fit the format the reductions change nothing: the file is the one of C76. -/
theorem C78_fits (h : Endian) (o : Object) (hf : Fits o) (hn : NulFree o) (hw : Writable o)
    (h24 : (symNames o).length < 2 ^ 24) (f : Bytes) : FileMod h o f ↔ FileOf h o f := by
  rw [C76_file .release h o hf hn hw h24,
    (C78_release h o (fits_len hf).1 (fits_len hf).2).2.2 ((expressible_iff hf.strs).2 hw)]
  exact ⟨fun he => ⟨(writeInto_writes .release h hf hw).res, he⟩, fun he => he.2⟩

/-- The objects of C73 that do not fit, and one with a NUL in the name of a symbol that has a
relocation: all are written in release builds. -/
example (o : Object) (ho : o ∈ [fullMemory, farSymbol, nulObject []]) :
    FileMod .little o (writeInto .release .little o).out := by
  have key : o.sections.text.bytes.length < 2 ^ 64 ∧ o.sections.data.bytes.length < 2 ^ 64 ∧
      (writeInto .release .little o).res = .ok () := by
    simp only [List.mem_cons, List.not_mem_nil, or_false] at ho
    rcases ho with rfl | rfl | rfl <;> decide +kernel
  obtain ⟨h1, h2, h3⟩ := key
  exact ((C78_written .release .little o h1 h2 h3).2 _).2 rfl

/-- The relocation of that object refers to the symbol with the NUL. -/
example : allRelocs (nulObject []) ≠ [] ∧ ¬ NulFree (nulObject []) := by
  refine ⟨by decide +kernel, fun h => ?_⟩
  have := h (['a', Char.ofNat 0, 'b']) (by decide +kernel) (Char.ofNat 0) (by decide)
  exact this (by decide)

/-- Code of `2 ^ 32 + n` bytes, in any build: the code is in the file, the size recorded for it in the
segment is that of `n` bytes. -/
example (bd : Build) (h : Endian) (b : Bytes) (n : Nat) (hb : b.length = 2 ^ 32 + n) (hn : n < 2 ^ 31)
    (hok : (writeInto bd h (codeOnly b)).res = .ok ()) :
    bytesAt (writeInto bd h (codeOnly b)).out 208 b.length = some b ∧
    numAt h (writeInto bd h (codeOnly b)).out (32 + 48) 8 = some (roundUp8 n) := by
  have h0 : b ≠ [] := by rintro rfl; simp at hb; omega
  have hps : parts (codeOnly b) = [⟨str% "__text", str% "__TEXT", b, b.length, false, [], []⟩] := by
    simp [parts, codeOnly, h0]
  have H := ((C78_written bd h (codeOnly b) (by simp only [codeOnly]; omega) (by simp [codeOnly]) hok).2 _).2 rfl
  constructor
  · have := H.contents 0 _ (by rw [hps]; rfl)
    simpa [hps, cmdsEnd, dataLen] using this
  · have := H.segment (.num 48 8 (roundUp8 (dataLen (parts (codeOnly b))) % 2 ^ 32)) (by simp)
    have e : roundUp8 (dataLen (parts (codeOnly b))) % 2 ^ 32 = roundUp8 n := by
      simp only [hps, dataLen, List.map_cons, List.map_nil, List.sum_cons, List.sum_nil, hb]
      unfold roundUp8
      omega
    rw [e] at this
    exact this

end AT.Props
