import Verif.Proofs.ObjWrite
import Verif.Proofs.MacLayout
/-!
# Finding the parts of the written file
-/

namespace AT.Obj
open AT.Mac AT.MachO AT.ObjSpec

theorem flatMap_len {α : Type} (f : α → Bytes) (l : List α) (n : Nat)
    (h : ∀ x ∈ l, (f x).length = n) : (l.flatMap f).length = n * l.length := by
  induction l with
  | nil => simp
  | cons x l ih =>
    rw [List.flatMap_cons, List.length_append, h x (by simp), ih (fun y hy => h y (by simp [hy])),
      List.length_cons, Nat.mul_succ, Nat.add_comm]

theorem flatMap_length_sum {α β : Type} (f : α → List β) (l : List α) :
    (l.flatMap f).length = (l.map (fun x => (f x).length)).sum := by
  induction l with
  | nil => rfl
  | cons x l ih => simp [ih]

theorem length_placed (ps : List Part) : (placed ps).length = symCount ps := by
  have := congrArg List.length (placed_symbols ps)
  rw [List.length_map, flatMap_length_sum] at this
  exact this

theorem length_relocs (ps : List Part) : (ps.flatMap (·.relocs)).length = relocCount ps :=
  flatMap_length_sum _ _

theorem length_bytes (ps : List Part) : (ps.flatMap (·.bytes)).length = dataLen ps :=
  flatMap_length_sum _ _

theorem length_sections (h : Endian) (ds rs : Nat) (S : List SectionRef) (vm : Nat) :
    ((sectionsFrom vm ds rs S).flatMap (sectionBytes h)).length = 80 * S.length := by
  rw [flatMap_len _ _ 80 (fun x hx => length_sectionBytes h x (sectionsFrom_mem hx).1.len
    (sectionsFrom_mem hx).2.len), sectionsFrom_length]

theorem length_cmdBytes (h : Endian) (ps : List Part) (S : List SectionRef)
    (hl : ps.length = S.length) : (cmdBytes h ps S).length = cmdsEnd ps := by
  unfold cmdBytes
  simp only [List.length_append, length_headerBytes, length_sections, length_symtabBytes,
    length_segmentBytes h (segmentOf ps) (by simp [segmentOf])]
  unfold cmdsEnd
  omega

theorem length_dataBytes (ps : List Part) : (dataBytes ps).length = roundUp8 (dataLen ps) := by
  have hle : dataLen ps ≤ roundUp8 (dataLen ps) := by unfold roundUp8; omega
  unfold dataBytes
  rw [List.length_append, length_bytes, List.length_replicate]
  omega

theorem length_strtab (ps : List Part)
    (ha : ∀ n ∈ (placed ps).map (·.2.name), strIsAscii n = true) :
    (0 :: cstrs ((placed ps).map (·.2.name))).length = strLen ps := by
  rw [List.length_cons, length_cstrs, ← names_sum ps ha, Nat.add_comm]

theorem length_relocTable (h : Endian) (ps : List Part) :
    (((ps.flatMap (·.relocs)).map (fun r => relocOf ps (lenOf r.len) r)).flatMap
      (relocBytes h)).length = 8 * relocCount ps := by
  rw [flatMap_len _ _ 8 (fun x _ => length_relocBytes h x), List.length_map, length_relocs]

theorem length_symTable (h : Endian) (ps : List Part) :
    (((placed ps).map (entryOf ((placed ps).map (·.2.name)) ps)).flatMap
      (nlistBytes h)).length = 16 * symCount ps := by
  rw [flatMap_len _ _ 16 (fun x _ => length_nlistBytes h x), List.length_map, length_placed]

theorem length_image (h : Endian) (ps : List Part) (S : List SectionRef)
    (hl : ps.length = S.length)
    (ha : ∀ n ∈ (placed ps).map (·.2.name), strIsAscii n = true) :
    (image h ps S).length = fileLen ps := by
  unfold image tailBytes
  simp only [List.length_append, length_cmdBytes h ps S hl, length_dataBytes, length_relocTable,
    length_symTable, length_strtab ps ha]
  unfold fileLen strStart symStart relocStart
  omega

theorem split_at {α : Type} {l : List α} {i : Nat} {x : α} (h : l[i]? = some x) :
    l = l.take i ++ x :: l.drop (i + 1) := by
  obtain ⟨hi, rfl⟩ := List.getElem?_eq_some_iff.1 h
  simp

/-- Bytes of section `i` in the file. -/
theorem section_bytes (h : Endian) (ps : List Part) (S : List SectionRef)
    (hl : ps.length = S.length) (rest : Bytes) {i : Nat} {p : Part} (hi : ps[i]? = some p) :
    bytesAt (cmdBytes h ps S ++ dataBytes ps ++ rest) (cmdsEnd ps + dataLen (ps.take i))
      p.bytes.length = some p.bytes := by
  have hs : ps.flatMap (·.bytes) = (ps.take i).flatMap (·.bytes) ++
      (p.bytes ++ (ps.drop (i + 1)).flatMap (·.bytes)) := by
    conv => lhs; rw [split_at hi]
    rw [List.flatMap_append, List.flatMap_cons]
  unfold dataBytes
  rw [hs]
  have : cmdBytes h ps S ++ ((ps.take i).flatMap (·.bytes) ++
      (p.bytes ++ (ps.drop (i + 1)).flatMap (·.bytes)) ++
      List.replicate (roundUp8 (dataLen ps) - dataLen ps) 0) ++ rest =
      (cmdBytes h ps S ++ (ps.take i).flatMap (·.bytes)) ++ (p.bytes ++
        ((ps.drop (i + 1)).flatMap (·.bytes) ++
          (List.replicate (roundUp8 (dataLen ps) - dataLen ps) 0 ++ rest))) := by
    simp only [List.append_assoc]
  rw [this]
  apply bytesAt_mid
  · rw [List.length_append, length_cmdBytes h ps S hl, length_bytes]
  · rfl

theorem data_bytes (h : Endian) (ps : List Part) (S : List SectionRef)
    (hl : ps.length = S.length) (rest : Bytes) :
    bytesAt (cmdBytes h ps S ++ dataBytes ps ++ rest) (cmdsEnd ps) (roundUp8 (dataLen ps)) =
      some (ps.flatMap (·.bytes) ++ List.replicate (roundUp8 (dataLen ps) - dataLen ps) 0) := by
  rw [List.append_assoc]
  apply bytesAt_mid
  · rw [length_cmdBytes h ps S hl]
  · exact (length_dataBytes ps).symm

theorem drop_mid (a b : Bytes) (n : Nat) (h : a.length = n) : (a ++ b).drop n = b := by
  subst h; exact List.drop_left

theorem take_sum_le {ps : List Part} {i : Nat} {p : Part} (hi : ps[i]? = some p)
    (f : Part → Nat) : ((ps.take i).map f).sum + f p ≤ (ps.map f).sum := by
  conv => rhs; rw [split_at hi]
  rw [List.map_append, List.map_cons, List.sum_append, List.sum_cons]
  omega

theorem symIdx_lt {ps : List Part} {n : Str} (h : n ∈ ((placed ps).map (·.2.name)).map seen) :
    symIdx ps n < symCount ps := by
  unfold symIdx
  have := List.idxOf_lt_length_iff.2 h
  rwa [List.length_map, List.length_map, length_placed] at this

/-- Relocation entries of section `i` in the file. -/
theorem section_relocs (h : Endian) (ps : List Part) (S : List SectionRef)
    (hl : ps.length = S.length) (h24 : symCount ps < 2 ^ 24)
    (hok : ∀ r ∈ ps.flatMap (·.relocs), relocOk ps r)
    {i : Nat} {p : Part} (hi : ps[i]? = some p) :
    ∃ rest, readN (RelocationInfo.readFromIn h) p.relocs.length
      ((image h ps S).drop (relocStart ps + 8 * relocCount (ps.take i))) =
      .ok (p.relocs.map (fun r => relocOf ps (lenOf r.len) r), rest) := by
  have hs : ps.flatMap (·.relocs) = (ps.take i).flatMap (·.relocs) ++
      (p.relocs ++ (ps.drop (i + 1)).flatMap (·.relocs)) := by
    conv => lhs; rw [split_at hi]
    rw [List.flatMap_append, List.flatMap_cons]
  have hok' : ∀ r ∈ p.relocs, relocOk ps r := fun r hr => hok r (by rw [hs]; simp [hr])
  unfold image tailBytes
  rw [hs]
  simp only [List.map_append, List.flatMap_append, List.append_assoc]
  rw [← List.append_assoc, ← List.append_assoc, drop_mid]
  · have := (Reads.seq (r := RelocationInfo.readFromIn h) (enc := relocBytes h) (norm := id)
      (p.relocs.map (fun r => relocOf ps (lenOf r.len) r)) (fun x hx => by
        obtain ⟨r, hr, rfl⟩ := List.mem_map.1 hx
        apply reloc_reads
        · have := symIdx_lt (hok' r hr).1
          simp only [relocOf]
          rw [u32_ofNat _ (by omega)]
          omega
        · show (0 : UInt8).toNat < 16
          decide)).ok
    rw [List.length_map, List.map_id] at this
    exact ⟨_, this _⟩
  · rw [List.length_append, List.length_append, length_cmdBytes h ps S hl, length_dataBytes,
      flatMap_len _ _ 8 (fun x _ => length_relocBytes h x), List.length_map, length_relocs]
    unfold relocStart
    omega

/-- Symbol entries in the file. -/
theorem symbol_entries (h : Endian) (ps : List Part) (S : List SectionRef)
    (hl : ps.length = S.length) : ∃ rest, readN (NList64.readFromIn h) (symCount ps)
      ((image h ps S).drop (symStart ps)) =
      .ok ((placed ps).map (entryOf ((placed ps).map (·.2.name)) ps), rest) := by
  unfold image tailBytes
  rw [← List.append_assoc, drop_mid]
  · have := (Reads.seq (r := NList64.readFromIn h) (enc := nlistBytes h) (norm := id)
      ((placed ps).map (entryOf ((placed ps).map (·.2.name)) ps)) (fun x _ => nlist_reads h x)).ok
    rw [List.length_map, List.map_id, length_placed] at this
    exact ⟨_, this _⟩
  · simp only [List.length_append, length_cmdBytes h ps S hl, length_dataBytes, length_relocTable]
    unfold symStart relocStart
    omega

/-- The string table in the file. -/
theorem image_strtab (h : Endian) (ps : List Part) (S : List SectionRef)
    (hl : ps.length = S.length) : ∃ a, image h ps S = a ++ (0 :: cstrs ((placed ps).map (·.2.name))) ∧
      a.length = strStart ps := by
  refine ⟨cmdBytes h ps S ++ dataBytes ps ++ ((((ps.flatMap (·.relocs)).map
    (fun r => relocOf ps (lenOf r.len) r)).flatMap (relocBytes h)) ++
    (((placed ps).map (entryOf ((placed ps).map (·.2.name)) ps)).flatMap (nlistBytes h))), ?_, ?_⟩
  · unfold image tailBytes
    simp only [List.append_assoc]
  · simp only [List.length_append, length_cmdBytes h ps S hl, length_dataBytes, length_relocTable,
      length_symTable]
    unfold strStart symStart relocStart
    omega

theorem cstr_in_image (h : Endian) (ps : List Part) (S : List SectionRef)
    (hl : ps.length = S.length) (n : Str) (hm : n ∈ (placed ps).map (·.2.name))
    (hn : strIsAscii n = true ∧ Char.ofNat 0 ∉ n) :
    cstrAt (image h ps S) (strStart ps + strPos ((placed ps).map (·.2.name)) n) = some (utf8 n) := by
  obtain ⟨a, ha, hal⟩ := image_strtab h ps S hl
  obtain ⟨b, c, hb, hbl⟩ := strPos_split _ n hm hn.2
  rw [ha, hb, ← List.append_assoc]
  have hd : (a ++ b ++ (nameRaw n ++ 0 :: c)).drop
      (strStart ps + strPos ((placed ps).map (·.2.name)) n) = nameRaw n ++ 0 :: c :=
    drop_mid _ _ _ (by rw [List.length_append, hal, hbl])
  unfold cstrAt
  rw [hd, if_pos ⟨by simp only [List.length_append, hal, hbl]; omega, by simp⟩]
  have := takeWhile_cstr n c hn.1 hn.2
  have hq : (fun x : UInt8 => decide (x ≠ 0)) = (fun x => x != 0) := by
    funext x
    by_cases hx : x = 0 <;> simp [hx]
  rw [hq, this, utf8_ascii n hn.1]
  rfl

/-! ## Reading the load commands -/

/-- Section headers as read back. -/
def readSections (ps : List Part) (S : List SectionRef) : List Section64 :=
  (sectionsFrom 0 (cmdsEnd ps) (relocStart ps) S).map
    (fun s => { s with attrs := sortAttrs s.attrs })

theorem read_header (h : Endian) (ps : List Part) (S : List SectionRef) (rest : Bytes) :
    Header64.readFrom h (cmdBytes h ps S ++ rest) = .ok ((headerOf ps, h),
      segmentBytes h (segmentOf ps) ++
        ((sectionsFrom 0 (cmdsEnd ps) (relocStart ps) S).flatMap (sectionBytes h) ++
          symtabBytes h (symtabOf ps)) ++ rest) := by
  unfold cmdBytes
  rw [List.append_assoc]
  have := (header_reads h h (headerOf ps) (.inl rfl)).ok
  rw [this]
  have hm : (headerOf ps).magic.seen h h = .magic64 := by
    simp [Magic.seen, headerOf]
  rw [hm]
  rfl

theorem segment_loadOk (ps : List Part) (S : List SectionRef) (hl : ps.length = S.length)
    (hb : Bounds ps) : LoadOk (.segment64 (segmentOf ps)
      (sectionsFrom 0 (cmdsEnd ps) (relocStart ps) S)) := by
  have hf := hb.file
  unfold strStart symStart relocStart cmdsEnd at hf
  refine ⟨rfl, ?_, ⟨rfl, by simp [segmentOf], by simp [segmentOf]⟩, ?_, fun s hs => sectionsFrom_mem hs⟩
  · simp only [segmentOf]
    rw [u32_ofNat _ (by omega), u32_ofNat _ (by omega)]
  · simp only [segmentOf]
    rw [u32_ofNat _ (by omega), sectionsFrom_length, hl]

theorem read_loads (bd : Build) (h : Endian) (ps : List Part) (S : List SectionRef)
    (hl : ps.length = S.length) (hb : Bounds ps) (rest : Bytes) :
    readN (LoadCommand.readFromIn bd h) 2 (segmentBytes h (segmentOf ps) ++
      ((sectionsFrom 0 (cmdsEnd ps) (relocStart ps) S).flatMap (sectionBytes h) ++
          symtabBytes h (symtabOf ps)) ++ rest) =
      .ok ([.segment64 (segmentOf ps) (readSections ps S), .symtab (symtabOf ps)], rest) := by
  have := (Reads.seq (r := LoadCommand.readFromIn bd h) (enc := loadBytes h) (norm := normLoad)
    [.segment64 (segmentOf ps) (sectionsFrom 0 (cmdsEnd ps) (relocStart ps) S),
      .symtab (symtabOf ps)] (fun c hc => by
        apply load_reads
        simp only [List.mem_cons, List.not_mem_nil, or_false] at hc
        rcases hc with rfl | rfl
        · exact segment_loadOk ps S hl hb
        · exact ⟨rfl, rfl⟩)).ok rest
  simp only [List.flatMap_cons, List.flatMap_nil, loadBytes, List.append_nil, List.append_assoc,
    List.map_cons, List.map_nil, normLoad, List.length_cons, List.length_nil] at this ⊢
  exact this

theorem mem_sortAttrs (a : SectionAttr) (l : SectionAttrs) : a ∈ sortAttrs l ↔ a ∈ l := by
  have h : a ∈ allAttrs := by cases a <;> decide
  simp [sortAttrs, h]

theorem sectionFields_sort (s : Section64) :
    sectionFields { s with attrs := sortAttrs s.attrs } = sectionFields s := by
  unfold sectionFields attrWord
  simp only [mem_sortAttrs]

theorem mem_relocAttrs (a : SectionAttr) (l : List Reloc) :
    a ∈ relocAttrs l ↔ (a = .locReloc ∨ a = .extReloc) ∧ l ≠ [] := by
  unfold relocAttrs
  cases l <;> simp

/-- What each section header says. -/
structure SectionSays (ps : List Part) (i : Nat) (p : Part) (s : Section64) : Prop where
  sectname : s.sectname = p.sectname
  segname : s.segname = p.segname
  addr : s.addr.toNat = addrOf ps i
  size : s.size.toNat = p.vmsize
  offset : s.offset.toNat = if p.zerofill then 0 else cmdsEnd ps + dataLen (ps.take i)
  reloff : s.reloff.toNat = if p.zerofill then 0 else relocStart ps + 8 * relocCount (ps.take i)
  nreloc : s.nreloc.toNat = p.relocs.length
  type : s.type = if p.zerofill then .zerofill else .regular
  attrs : ∀ a, a ∈ s.attrs ↔
    (a = .someInstructions ∨ a = .pureInstructions) ∧ p.sectname = str% "__text" ∨
    (a = .locReloc ∨ a = .extReloc) ∧ p.relocs ≠ []
  filled : p.zerofill = false → p.bytes.length = p.vmsize
  bss : p.zerofill = true → p.bytes = [] ∧ p.relocs = []
  rest : s.align = 0 ∧ s.reserved1 = 0 ∧ s.reserved2 = 0 ∧ s.reserved3 = 0

theorem readSections_get {o : Object} (hf : Fits o) {i : Nat} {p : Part}
    (hi : (parts o)[i]? = some p) : ∃ s, (readSections (parts o) o.sections.iter)[i]? = some s ∧
      SectionSays (parts o) i p s := by
  have hp := parts_of_fits hf
  have hb := bounds_of hf
  generalize hps : parts o = ps at *
  have hf := hb.file
  have hv := hb.vm
  rw [hp, List.getElem?_map] at hi
  obtain ⟨s, hs, rfl⟩ := Option.map_eq_some_iff.1 hi
  have hi' : ps[i]? = some (toPart s) := by rw [hp, List.getElem?_map, hs]; rfl
  have hvt : vmLen (ps.take i) + (toPart s).vmsize ≤ vmLen ps := take_sum_le hi' (·.vmsize)
  have hdt : dataLen (ps.take i) + (toPart s).bytes.length ≤ dataLen ps :=
    take_sum_le hi' (·.bytes.length)
  have hrt : relocCount (ps.take i) + (toPart s).relocs.length ≤ relocCount ps :=
    take_sum_le hi' (·.relocs.length)
  have hle : dataLen ps ≤ roundUp8 (dataLen ps) := by unfold roundUp8; omega
  have e1 := hb.strs
  have e2 : strStart ps = symStart ps + 16 * symCount ps := rfl
  have e3 : symStart ps = relocStart ps + 8 * relocCount ps := rfl
  have e4 : relocStart ps = cmdsEnd ps + roundUp8 (dataLen ps) := rfl
  unfold readSections
  rw [List.getElem?_map, sectionsFrom_get _ _ _ _ _ _ hs, ← hp]
  refine ⟨_, rfl, ?_⟩
  unfold addrOf at *
  cases s with
  | text t =>
    simp only [toPart] at hvt hdt hrt
    constructor <;> simp only [genSection64, genSection64FromText, toPart, Bool.false_eq_true, if_false,
      Nat.zero_add]
    · exact u64_ofNat _ (by omega)
    · exact u64_ofNat _ (by omega)
    · exact u32_ofNat _ (by omega)
    · exact u32_ofNat _ (by omega)
    · exact u32_ofNat _ (by omega)
    · intro a
      rw [mem_sortAttrs, List.mem_append, mem_relocAttrs]
      simp
    · simp
    · simp
    · simp
  | data t =>
    simp only [toPart] at hvt hdt hrt
    constructor <;> simp only [genSection64, genSection64FromData, toPart, Bool.false_eq_true, if_false,
      Nat.zero_add]
    · exact u64_ofNat _ (by omega)
    · exact u64_ofNat _ (by omega)
    · exact u32_ofNat _ (by omega)
    · exact u32_ofNat _ (by omega)
    · exact u32_ofNat _ (by omega)
    · intro a
      rw [mem_sortAttrs, mem_relocAttrs]
      simp
    · simp
    · simp
    · simp
  | bss b =>
    simp only [toPart] at hvt hdt hrt
    constructor <;> simp only [genSection64, genSection64FromBss, toPart, if_true, Nat.zero_add]
    · exact u64_ofNat _ (by omega)
    · rfl
    · rfl
    · rfl
    · intro a
      rw [mem_sortAttrs]
      simp
    · simp
    · simp
    · simp

end AT.Obj
