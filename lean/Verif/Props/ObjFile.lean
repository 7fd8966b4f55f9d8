import Verif.Proofs.ObjFile
import Verif.Props.Obj
/-!
# The documented format determines what is written (C76)

The other theorems about the writers say that certain things are found in their output.  These say that
nothing else can be: the documented sizes and fields of a structure, and `FileOf` (`Spec/ObjFile.lean`)
for a whole file, leave no byte open.
-/

namespace AT.Props
open AT.Mac AT.MachO AT.ObjSpec AT.Obj

theorem reloc_word (h : Endian) {o : Object} (hn : NulFree o) (hw : Writable o)
    (h24 : (symNames o).length < 2 ^ 24) {r : Reloc} (hr : r ∈ allRelocs o) :
    (relocOf (parts o) (lenOf r.len) r).rSymbolnum.toNat < 2 ^ 24 ∧
    relocFields h (relocOf (parts o) (lenOf r.len) r) =
      [ .num 0 4 (i32Num r.addr),
        .num 4 4 (externWord h ((symNames o).idxOf r.symbol) r.pcrel r.len.toNat) ] := by
  have hi : symIdx (parts o) r.symbol = (symNames o).idxOf r.symbol := by
    show ((symNames o).map seen).idxOf _ = _
    rw [seen_names hn]
  have hlt : (symNames o).idxOf r.symbol < (symNames o).length :=
    List.idxOf_lt_length_iff.2 (hw.names hn r hr)
  have hnum : (UInt32.ofNat (symIdx (parts o) r.symbol)).toNat = (symNames o).idxOf r.symbol := by
    rw [hi]; exact u32_ofNat _ (by omega)
  have hlen : relocLengthNum (lenOf r.len) = r.len.toNat := by
    have tab : ∀ n < 4, relocLengthNum (lenOf (UInt8.ofNat n)) = n := by decide
    have := tab r.len.toNat (by have := hw.lens r hr; omega)
    rwa [UInt8.ofNat_toNat] at this
  refine ⟨by rw [relocOf]; simp only; rw [hnum]; omega, ?_⟩
  have hword : relocWord h (relocOf (parts o) (lenOf r.len) r) =
      externWord h ((symNames o).idxOf r.symbol) r.pcrel r.len.toNat := by
    have e1 : Bool.toNat true = 1 := rfl
    have e2 : (0 : UInt8).toNat = 0 := rfl
    unfold relocOf relocWord externWord
    cases h <;> simp only [hnum, hlen, e1, e2, Nat.one_mul, Nat.zero_mul, Nat.add_zero]
  rw [relocFields, hword]
  rfl

theorem symbol_word {o : Object} (hf : Fits o) (hn : NulFree o) (hw : Writable o) {i : Nat} {s : Symbol}
    (hs : (i, s) ∈ placed (parts o)) :
    nlistFields (entryOf (symNames o) (parts o) (i, s)) =
      [ .num 0 4 (nameOff (symNames o) s.name), .num 4 1 (symbolWord (parts o) i s).1,
        .num 5 1 (symbolWord (parts o) i s).2.1, .num 6 2 0, .num 8 8 (symbolWord (parts o) i s).2.2 ] := by
  have hpl := names_ascii hw.ascii
  have hm : s.name ∈ symNames o := List.mem_map.2 ⟨_, hs, rfl⟩
  have hx : (UInt32.ofNat (strPos (symNames o) s.name)).toNat = nameOff (symNames o) s.name := by
    have hle := strPos_le (symNames o) s.name hpl hm
    have hns := names_sum (parts o) hpl
    have h1 := hf.strs
    rw [u32_ofNat _ (Nat.lt_of_le_of_lt (hns ▸ hle) h1)]
    exact strPos_nameOff (fun t ht => not_nul (hn t ht)) hpl _
  have hi : i < 3 := by
    obtain ⟨q, hq, _⟩ := placed_mem hs
    obtain ⟨hi, _⟩ := List.getElem?_eq_some_iff.1 hq
    have := parts_le o
    simp only at hi
    omega
  have hsect : (UInt8.ofNat (i + 1)).toNat = i + 1 := by
    rw [UInt8.toNat_ofNat']; omega
  cases s with
  | undef name => simp only [nlistFields, entryOf, symbolWord, Symbol.name] at *; rw [hx]; rfl
  | abs name val ext =>
    simp only [nlistFields, entryOf, symbolWord, Symbol.name, hsect] at *; rw [hx]
    cases ext <;> rfl
  | ref name addr ext =>
    have hr := hf.refs i name addr ext hs
    simp only [nlistFields, entryOf, symbolWord, Symbol.name, hsect] at *; rw [hx, u64_ofNat _ hr]
    cases ext <;> rfl

theorem strings_at {o : Object} (ha : ∀ n ∈ symNames o, ∀ c ∈ n, c.toNat < 128) {f : Bytes} :
    At f (strStart (parts o)) (0 :: cstrs (symNames o)) ↔
      bytesAt f (strStart (parts o)) 1 = some [0] ∧
      ∀ (k : Nat) (n : Str), (symNames o)[k]? = some n →
        bytesAt f (strStart (parts o) + strOff (symNames o) k) (utf8Len n + 1) = some (utf8 n ++ [0]) := by
  have hpl : ∀ n ∈ symNames o, strIsAscii n = true := names_ascii ha
  rw [show (0 : UInt8) :: cstrs (symNames o) = [0] ++ cstrs (symNames o) from rfl, at_append]
  refine and_congr_right fun h0 => ?_
  have h0' := at_le h0
  unfold cstrs
  rw [at_flatMap _ _ h0']
  have key : ∀ (k : Nat) (n : Str), (symNames o)[k]? = some n →
      (At f (strStart (parts o) + [(0 : UInt8)].length +
        (((symNames o).take k).flatMap fun s => nameRaw s ++ [0]).length) (nameRaw n ++ [0]) ↔
      bytesAt f (strStart (parts o) + strOff (symNames o) k) (utf8Len n + 1) = some (utf8 n ++ [0])) := by
    intro k n hk
    have ha := hpl n (List.mem_of_getElem? hk)
    have hl := names_take_length (names := (symNames o).take k) (fun s hs => hpl s (List.mem_of_mem_take hs))
    unfold cstrs at hl
    unfold At strOff
    rw [hl, utf8_ascii n ha, utf8Len_ascii n ha, List.length_append, List.length_singleton,
      Nat.add_assoc]
    unfold nameRaw
    rw [List.length_map]
  constructor
  · intro h k n hk; exact (key k n hk).1 (h k n hk)
  · intro h k n hk; exact (key k n hk).2 (h k n hk)

/-- C76.  A byte string is an object file of `o` according to the format, every field and every byte,
exactly if it is the file the writer writes. -/
theorem C76_file (bd : Build) (h : Endian) (o : Object) (hf : Fits o) (hn : NulFree o) (hw : Writable o)
    (h24 : (symNames o).length < 2 ^ 24) (f : Bytes) :
    FileOf h o f ↔ (writeInto bd h o).res = .ok () ∧ f = (writeInto bd h o).out := by
  have hl := iter_length hf
  have hb := bounds_of hf
  have hpl := names_ascii hw.ascii
  have hwr := writeInto_writes bd h hf hw
  have e1 : fileLen (parts o) = strStart (parts o) + strLen (parts o) := rfl
  have e2 : strStart (parts o) = symStart (parts o) + 16 * symCount (parts o) := rfl
  have e3 : symStart (parts o) = relocStart (parts o) + 8 * relocCount (parts o) := rfl
  have e4 : relocStart (parts o) = cmdsEnd (parts o) + roundUp8 (dataLen (parts o)) := rfl
  have e5 : cmdsEnd (parts o) = 32 + 72 + 80 * (parts o).length + 24 := rfl
  rw [hwr.out, eq_iff_at, length_image h _ _ hl hpl]
  have hrel : ∀ hlen : f.length = fileLen (parts o),
      At f (relocStart (parts o)) ((((parts o).flatMap (·.relocs)).map
        (fun r => relocOf (parts o) (lenOf r.len) r)).flatMap (relocBytes h)) ↔
      ∀ (k : Nat) (r : Reloc), (allRelocs o)[k]? = some r →
        HasFields h f (relocStart (parts o) + 8 * k)
          [ .num 0 4 (i32Num r.addr),
            .num 4 4 (externWord h ((symNames o).idxOf r.symbol) r.pcrel r.len.toNat) ] := by
    intro hlen
    rw [at_table _ _ 8 (fun x _ => length_relocBytes h x) (by omega)]
    have key : ∀ (k : Nat) (r : Reloc), (allRelocs o)[k]? = some r →
        (At f (relocStart (parts o) + 8 * k) (relocBytes h (relocOf (parts o) (lenOf r.len) r)) ↔
        HasFields h f (relocStart (parts o) + 8 * k)
          [ .num 0 4 (i32Num r.addr),
            .num 4 4 (externWord h ((symNames o).idxOf r.symbol) r.pcrel r.len.toNat) ]) := by
      intro k r hk
      obtain ⟨hs, hw'⟩ := reloc_word h hn hw h24 (List.mem_of_getElem? hk)
      obtain ⟨hlt, _⟩ := List.getElem?_eq_some_iff.1 hk
      have hcount : (allRelocs o).length = relocCount (parts o) := length_relocs _
      have hi := reloc_image h (relocOf (parts o) (lenOf r.len) r) hs (Nat.zero_lt_succ _)
      rw [← hw']
      exact (fields_at h hi.1 hi.2 (by omega)).symm
    constructor
    · intro hA k r hk
      refine (key k r hk).1 (hA k _ ?_)
      rw [List.getElem?_map]
      show Option.map _ (allRelocs o)[k]? = _
      rw [hk]; rfl
    · intro hA k x hk
      rw [List.getElem?_map] at hk
      obtain ⟨r, hr, rfl⟩ := Option.map_eq_some_iff.1 hk
      exact (key k r hr).2 (hA k r hr)
  have hsym : ∀ hlen : f.length = fileLen (parts o),
      At f (symStart (parts o)) (((placed (parts o)).map (entryOf (symNames o) (parts o))).flatMap
        (nlistBytes h)) ↔
      ∀ (k i : Nat) (s : Symbol), (placed (parts o))[k]? = some (i, s) →
        HasFields h f (symStart (parts o) + 16 * k)
          [ .num 0 4 (nameOff (symNames o) s.name), .num 4 1 (symbolWord (parts o) i s).1,
            .num 5 1 (symbolWord (parts o) i s).2.1, .num 6 2 0,
            .num 8 8 (symbolWord (parts o) i s).2.2 ] := by
    intro hlen
    rw [at_table _ _ 16 (fun x _ => length_nlistBytes h x) (by omega)]
    have key : ∀ (k i : Nat) (s : Symbol), (placed (parts o))[k]? = some (i, s) →
        (At f (symStart (parts o) + 16 * k) (nlistBytes h (entryOf (symNames o) (parts o) (i, s))) ↔
        HasFields h f (symStart (parts o) + 16 * k)
          [ .num 0 4 (nameOff (symNames o) s.name), .num 4 1 (symbolWord (parts o) i s).1,
            .num 5 1 (symbolWord (parts o) i s).2.1, .num 6 2 0,
            .num 8 8 (symbolWord (parts o) i s).2.2 ]) := by
      intro k i s hk
      have hw' := symbol_word hf hn hw (List.mem_of_getElem? hk)
      obtain ⟨hlt, _⟩ := List.getElem?_eq_some_iff.1 hk
      have hcount : (placed (parts o)).length = symCount (parts o) := length_placed _
      have hi := nlist_image h (entryOf (symNames o) (parts o) (i, s))
      rw [← hw']
      exact (fields_at h hi.1 hi.2 (by omega)).symm
    constructor
    · intro hA k i s hk
      refine (key k i s hk).1 (hA k _ ?_)
      rw [List.getElem?_map, hk]; rfl
    · intro hA k x hk
      rw [List.getElem?_map] at hk
      obtain ⟨⟨i, s⟩, hr, rfl⟩ := Option.map_eq_some_iff.1 hk
      exact (key k i s hr).2 (hA k i s hr)
  have hhdr := header_image h (headerOf (parts o))
  have hseg := segment_image h (segmentOf (parts o)) (by simp [segmentOf])
  have hst := symtab_image h (symtabOf (parts o))
  rw [headerFields_of hb] at hhdr
  rw [segmentFields_of hb] at hseg
  rw [symtabFields_of hb] at hst
  constructor
  · intro H
    have hlen := H.length
    refine ⟨hwr.res, hlen, (image_at h hl).2 ⟨?_, ?_, ?_, ?_, ?_, ?_, ?_, ?_⟩⟩
    · exact (fields_at h hhdr.1 hhdr.2 (Nat.zero_le _)).1 H.header
    · exact (fields_at h hseg.1 hseg.2 (by omega)).1 H.segment
    · exact (sections_at h hf (by omega)).2 H.sections
    · exact (fields_at h hst.1 hst.2 (by omega)).1 H.symtab
    · exact (data_at (by omega)).2 ⟨H.contents, H.padding⟩
    · exact (hrel hlen).2 H.relocs
    · exact (hsym hlen).2 H.symbols
    · exact (strings_at hw.ascii).2 ⟨H.nul, H.strings⟩
  · rintro ⟨_, hlen, H⟩
    obtain ⟨h1, h2, h3, h4, h5, h6, h7, h8⟩ := (image_at h hl).1 H
    obtain ⟨h5a, h5b⟩ := (data_at (by omega)).1 h5
    obtain ⟨h8a, h8b⟩ := (strings_at hw.ascii).1 h8
    exact ⟨hlen, (fields_at h hhdr.1 hhdr.2 (Nat.zero_le _)).2 h1,
      (fields_at h hseg.1 hseg.2 (by omega)).2 h2, (sections_at h hf (by omega)).1 h3,
      (fields_at h hst.1 hst.2 (by omega)).2 h4, h5a, h5b, (hrel hlen).1 h6, (hsym hlen).1 h7, h8a, h8b⟩

/-- The hypotheses of C76 hold for `sampleObject`, which has code, data, zero-fill, symbols of every
kind and relocations. -/
example (f : Bytes) : FileOf .little sampleObject f ↔ f = (writeInto .release .little sampleObject).out := by
  rw [C76_file .release .little sampleObject sample_fits sample_nulFree sample_writable (by decide +kernel)]
  exact ⟨fun h => h.2, fun h => ⟨by decide +kernel, h⟩⟩

/-- One more byte at the end, or a byte of the padding that is not zero, and the file is not one of the
object any more. -/
example : ¬ FileOf .little sampleObject ((writeInto .release .little sampleObject).out ++ [0]) := by
  rw [C76_file .release .little sampleObject sample_fits sample_nulFree sample_writable (by decide +kernel)]
  intro h
  have := congrArg List.length h.2
  simp at this

/-! ## Structures -/

theorem struct_iff {e : Endian} {l : List Field} {img b : Bytes} {w : Wr Unit} (hw : Writes w img)
    (hi : img = l.flatMap (fieldBytes e)) (hc : Consec 0 l) :
    b = w.out ↔ b.length = img.length ∧ HasFields e b 0 l := by
  rw [hw.out, eq_iff_at, fields_at e hi hc (Nat.zero_le _)]

/-- C76.  For every structure: the bytes written are the only ones with the documented size that have
the documented fields. -/
theorem C76_structures (h : Endian) (b : Bytes) :
    (∀ x : Header64, b = (x.writeInto h).out ↔ b.length = 32 ∧ HasFields h b 0 (headerFields x)) ∧
    (∀ x : SegmentCommand64, (x.writeInto h).res = .ok () →
      (b = (x.writeInto h).out ↔ b.length = 72 ∧ HasFields h b 0 (segmentFields x))) ∧
    (∀ x : Section64, (x.writeInto h).res = .ok () →
      (b = (x.writeInto h).out ↔ b.length = 80 ∧ HasFields h b 0 (sectionFields x))) ∧
    (∀ x : SymtabCommand, b = (x.writeInto h).out ↔ b.length = 24 ∧ HasFields h b 0 (symtabFields x)) ∧
    (∀ x : DysymtabCommand, b = (x.writeInto h).out ↔
      b.length = 80 ∧ HasFields h b 0 (dysymtabFields x)) ∧
    (∀ x : BuildVersionCommand, b = (x.writeInto h).out ↔
      b.length = 24 ∧ HasFields h b 0 (buildVersionFields x)) ∧
    (∀ x : BuildToolVersion, b = (x.writeInto h).out ↔ b.length = 8 ∧ HasFields h b 0 (toolFields x)) ∧
    (∀ x : NList64, b = (x.writeInto h).out ↔ b.length = 16 ∧ HasFields h b 0 (nlistFields x)) ∧
    (∀ x : RelocationInfo, x.rSymbolnum.toNat < 2 ^ 24 → x.rType.toNat < 16 →
      (b = (x.writeInto h).out ↔ b.length = 8 ∧ HasFields h b 0 (relocFields h x))) := by
  refine ⟨fun x => ?_, fun x hx => ?_, fun x hx => ?_, fun x => ?_, fun x => ?_, fun x => ?_,
    fun x => ?_, fun x => ?_, fun x hs ht => ?_⟩
  · rw [struct_iff (header_writes h x) (header_image h x).1 (header_image h x).2, length_headerBytes]
  · obtain ⟨ha, hl⟩ := (C14_segment_write_ok_iff h x).1.1 hx
    rw [struct_iff (segment_writes h x ((strIsAscii_iff _).2 ha) hl) (segment_image h x hl).1
      (segment_image h x hl).2, length_segmentBytes h x hl]
  · obtain ⟨⟨ha, hl⟩, ha', hl'⟩ := (C15_section_write_ok_iff h x).1.1 hx
    rw [struct_iff (section_writes h x ((strIsAscii_iff _).2 ha) hl ((strIsAscii_iff _).2 ha') hl')
      (section_image h x hl hl').1 (section_image h x hl hl').2, length_sectionBytes h x hl hl']
  · rw [struct_iff (symtab_writes h x) (symtab_image h x).1 (symtab_image h x).2, length_symtabBytes]
  · rw [struct_iff (dysymtab_writes h x) (dysymtab_image h x).1 (dysymtab_image h x).2,
      length_dysymtabBytes]
  · rw [struct_iff (buildVersion_writes h x) (buildVersion_image h x).1 (buildVersion_image h x).2,
      length_buildVersionBytes]
  · rw [struct_iff (tool_writes h x) (tool_image h x).1 (tool_image h x).2, length_toolBytes]
  · rw [struct_iff (nlist_writes h x) (nlist_image h x).1 (nlist_image h x).2, length_nlistBytes]
  · rw [struct_iff (reloc_writes h x) (reloc_image h x hs ht).1 (reloc_image h x hs ht).2,
      length_relocBytes]

/-- C76, relocation entries with a symbol number and a type of any size: the fields overlap. -/
theorem C76_relocations (h : Endian) (b : Bytes) (x : RelocationInfo) :
    (x.writeInto h).res = .ok () ∧
    (b = (x.writeInto h).out ↔ b.length = 8 ∧
      HasFields h b 0 [.num 0 4 (i32Num x.rAddress), .num 4 4 (relocWordOr h x)]) := by
  refine ⟨(reloc_writes h x).res, ?_⟩
  rw [struct_iff (reloc_writes h x) (reloc_image_or h x).1 (reloc_image_or h x).2, length_relocBytes]

/-- Symbol number `2 ^ 24` is written, on a little-endian machine, as a pc-relative entry for symbol 0. -/
example : (RelocationInfo.writeInto .little ⟨0, 0x1000000, false, .quad, true, 0⟩).out =
    (RelocationInfo.writeInto .little ⟨0, 0, true, .quad, true, 0⟩).out := by decide

/-- A tool version, found from its fields. -/
example (b : Bytes) (hl : b.length = 8) (h0 : numAt .big b 0 4 = some 3) (h4 : numAt .big b 4 4 = some 0x2b50600) :
    b = [0, 0, 0, 3, 0x02, 0xb5, 0x06, 0x00] := by
  have := ((C76_structures .big b).2.2.2.2.2.2.1 ⟨.ld, 0x2b50600⟩).2 ⟨hl, by
    intro fd hfd
    simp only [toolFields, List.mem_cons, List.not_mem_nil, or_false] at hfd
    rcases hfd with rfl | rfl
    · exact h0
    · exact h4⟩
  rw [this]
  decide

end AT.Props
