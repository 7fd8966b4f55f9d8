import Verif.Proofs.ObjFile
import Verif.Spec.ObjWrap
/-!
# The object writer in a release build, for objects of any size

A release build computes modulo `2 ^ 32` and `2 ^ 64` (`Model/Obj.lean`: `addU32` …), so `UInt32.ofNat`
commutes with everything the writer does, and the file is the same `image` as without overflow.
-/

namespace AT.Obj
open AT.Mac AT.MachO AT.ObjSpec

theorem addU32_rel (a b : Nat) :
    addU32 .release (UInt32.ofNat a) (UInt32.ofNat b) = .ok (UInt32.ofNat (a + b)) := by
  unfold addU32
  rw [if_pos (.inr rfl), UInt32.ofNat_add]

theorem mulU32_rel (a b : Nat) :
    mulU32 .release (UInt32.ofNat a) (UInt32.ofNat b) = .ok (UInt32.ofNat (a * b)) := by
  unfold mulU32
  rw [if_pos (.inr rfl), UInt32.ofNat_mul]

theorem addU64_rel (a b : Nat) :
    addU64 .release (UInt64.ofNat a) (UInt64.ofNat b) = .ok (UInt64.ofNat (a + b)) := by
  unfold addU64
  rw [if_pos (.inr rfl), UInt64.ofNat_add]

theorem foldlM_rel32 (l : List Nat) (a : Nat) :
    (l.map UInt32.ofNat).foldlM (addU32 .release) (UInt32.ofNat a) = .ok (UInt32.ofNat (a + l.sum)) := by
  induction l generalizing a with
  | nil => rfl
  | cons x l ih =>
    rw [List.map_cons, List.foldlM_cons, addU32_rel]
    simp only [bind, Except.bind]
    rw [ih (a + x), List.sum_cons, Nat.add_assoc]

theorem foldlM_rel64 (l : List Nat) (a : Nat) :
    (l.map UInt64.ofNat).foldlM (addU64 .release) (UInt64.ofNat a) = .ok (UInt64.ofNat (a + l.sum)) := by
  induction l generalizing a with
  | nil => rfl
  | cons x l ih =>
    rw [List.map_cons, List.foldlM_cons, addU64_rel]
    simp only [bind, Except.bind]
    rw [ih (a + x), List.sum_cons, Nat.add_assoc]

theorem sumU32_rel (l : List Nat) : sumU32 .release (l.map UInt32.ofNat) = .ok (UInt32.ofNat l.sum) := by
  have := foldlM_rel32 l 0
  rw [Nat.zero_add] at this
  exact this

theorem sumU64_rel (l : List Nat) : sumU64 .release (l.map UInt64.ofNat) = .ok (UInt64.ofNat l.sum) := by
  have := foldlM_rel64 l 0
  rw [Nat.zero_add] at this
  exact this

/-- Rounding up to a multiple of 8 commutes with reduction modulo `2 ^ 32`. -/
theorem alignedU32_rel (n : Nat) :
    alignedU32 .release (UInt32.ofNat n) 8 = .ok (UInt32.ofNat (roundUp8 n)) := by
  have hgt : UInt32.ofNat n % 8 > 0 ↔ n % 2 ^ 32 % 8 > 0 := by
    rw [gt_iff_lt, UInt32.lt_iff_toNat_lt, UInt32.toNat_mod, UInt32.toNat_ofNat']; rfl
  have hq : (if UInt32.ofNat n % 8 > 0 then (1 : UInt32) else 0) =
      UInt32.ofNat (if n % 2 ^ 32 % 8 > 0 then 1 else 0) := by
    by_cases hc : UInt32.ofNat n % 8 > 0
    · rw [if_pos hc, if_pos (hgt.1 hc)]; rfl
    · rw [if_neg hc, if_neg (fun hh => hc (hgt.2 hh))]; rfl
  have hd : UInt32.ofNat n / 8 = UInt32.ofNat (n % 2 ^ 32 / 8) := by
    apply UInt32.toNat.inj
    rw [UInt32.toNat_div, UInt32.toNat_ofNat', u32_ofNat _ (by omega)]
    rfl
  unfold alignedU32
  rw [show ((8 : UInt32) != 0) = true from rfl, hq, hd]
  simp only [rassert, if_true, bind, Except.bind]
  rw [addU32_rel]
  simp only
  rw [show (8 : UInt32) = UInt32.ofNat 8 from rfl, mulU32_rel]
  congr 1
  apply UInt32.toNat.inj
  rw [UInt32.toNat_ofNat', UInt32.toNat_ofNat']
  unfold roundUp8
  split <;> omega

variable {o : Object} {ps : List Part}

theorem secs_mul_rel (hp : ps = o.sections.iter.map toPart) :
    mulU32 .release o.sections.len Section64.SIZE = .ok (UInt32.ofNat (80 * ps.length)) := by
  have hl : ps.length = o.sections.iter.length := by rw [hp, List.length_map]
  unfold Sections.len
  rw [u32_const.2.2.1, ← hl, mulU32_rel, Nat.mul_comm]

theorem genHeader64_rel (hp : ps = o.sections.iter.map toPart) :
    genHeader64 .release o = .ok (headerOf ps) := by
  unfold genHeader64
  rw [secs_mul_rel hp, u32_const.2.1, u32_const.2.2.2.1]
  simp only [bind, Except.bind]
  rw [addU32_rel]
  simp only
  rw [addU32_rel]
  rfl

theorem dataStart_rel (hp : ps = o.sections.iter.map toPart) :
    dataStart .release o = .ok (UInt32.ofNat (cmdsEnd ps)) := by
  unfold dataStart
  rw [secs_mul_rel hp, u32_const.1, u32_const.2.1, u32_const.2.2.2.1]
  rw [addU32_rel]
  simp only [bind, Except.bind]
  rw [addU32_rel]
  simp only
  rw [addU32_rel]
  rfl

theorem fileSum_rel (hp : ps = o.sections.iter.map toPart) :
    sumU32 .release (o.sections.iter.map SectionRef.fileSize) = .ok (UInt32.ofNat (dataLen ps)) := by
  rw [fileSizes_eq hp, sumU32_rel]
  rfl

theorem alignedFileSize_rel (hp : ps = o.sections.iter.map toPart) :
    alignedFileSize .release o = .ok (UInt32.ofNat (roundUp8 (dataLen ps))) := by
  unfold alignedFileSize
  rw [fileSum_rel hp]
  exact alignedU32_rel _

theorem vmSum_rel (hp : ps = o.sections.iter.map toPart) :
    sumU64 .release (o.sections.iter.map SectionRef.vmSize) = .ok (UInt64.ofNat (vmLen ps)) := by
  have : o.sections.iter.map SectionRef.vmSize = (ps.map (·.vmsize)).map UInt64.ofNat := by
    rw [hp, List.map_map, List.map_map]
    apply List.map_congr_left
    intro s _
    simp [vmSize_eq]
  rw [this, sumU64_rel]
  rfl

theorem toUInt64_mod (n : Nat) : (UInt32.ofNat n).toUInt64 = UInt64.ofNat (n % 2 ^ 32) := by
  apply UInt64.toNat.inj
  rw [UInt32.toNat_toUInt64, UInt32.toNat_ofNat', u64_ofNat _ (by omega)]

/-- An object has at most three sections. -/
theorem cmdsEnd_lt (hp : ps = o.sections.iter.map toPart) : cmdsEnd ps < 369 := by
  have hl : ps.length = o.sections.iter.length := by rw [hp, List.length_map]
  have : o.sections.iter.length ≤ 3 := List.length_filter_le _ _
  unfold cmdsEnd
  omega

theorem genSegmentCommand64_rel (hp : ps = o.sections.iter.map toPart) :
    genSegmentCommand64 .release o = .ok (segmentOf ps) := by
  have hc := cmdsEnd_lt hp
  have hl : ps.length = o.sections.iter.length := by rw [hp, List.length_map]
  unfold genSegmentCommand64
  rw [secs_mul_rel hp, vmSum_rel hp, dataStart_rel hp, alignedFileSize_rel hp, u32_const.2.1]
  simp only [bind, Except.bind]
  rw [addU32_rel]
  simp only [pure, Except.pure, segmentOf, Sections.len, ← hl]
  rw [toUInt64_mod, toUInt64_mod, Nat.mod_eq_of_lt (a := cmdsEnd ps) (by omega)]
  rfl

theorem genSection64sGo_rel (S : List SectionRef) (vm ds rs : Nat) :
    genSection64sGo .release (UInt64.ofNat vm) (UInt32.ofNat ds) (UInt32.ofNat rs) S =
      .ok (sectionsFrom vm ds rs S) := by
  induction S generalizing vm ds rs with
  | nil => rfl
  | cons s S ih =>
    unfold genSection64sGo sectionsFrom
    have hlen : s.relocs.length = (toPart s).relocs.length := by rw [toPart_relocs]
    have hfs : s.fileSize = UInt32.ofNat (toPart s).bytes.length := by
      rw [toPart_bytes]; rfl
    rw [vmSize_eq, hfs, hlen, addU64_rel]
    simp only [bind, Except.bind]
    rw [addU32_rel]
    simp only
    rw [u32_const.2.2.2.2.1, mulU32_rel]
    simp only
    rw [addU32_rel]
    simp only
    rw [ih]
    rfl

theorem genSection64s_rel (hp : ps = o.sections.iter.map toPart) :
    genSection64s .release o = .ok (sectionsFrom 0 (cmdsEnd ps) (relocStart ps) o.sections.iter) := by
  unfold genSection64s
  rw [dataStart_rel hp, alignedFileSize_rel hp]
  simp only [bind, Except.bind]
  rw [addU32_rel]
  simp only
  exact genSection64sGo_rel _ 0 _ _

theorem sectStrSize_rel (s : SectionRef) :
    sectStrSize .release s = .ok (UInt32.ofNat (namesLen (toPart s))) := by
  unfold sectStrSize
  unfold namesLen
  rw [toPart_symbols]
  rw [mapM_ok' (nameSize .release) (fun x => UInt32.ofNat (utf8Len x.name + 1))]
  · simp only [bind, Except.bind]
    rw [show (s.symbols.map fun x => UInt32.ofNat (utf8Len x.name + 1)) =
      (s.symbols.map (fun x => utf8Len x.name + 1)).map UInt32.ofNat by rw [List.map_map]; rfl]
    rw [sumU32_rel]
  · intro x hx
    unfold nameSize
    rw [show (1 : UInt32) = UInt32.ofNat 1 from rfl, addU32_rel]

theorem genSymtabCommand_rel (hp : ps = o.sections.iter.map toPart) :
    genSymtabCommand .release o = .ok (symtabOf ps) := by
  have e2 : strStart ps = symStart ps + 16 * symCount ps := rfl
  have e3 : symStart ps = relocStart ps + 8 * relocCount ps := rfl
  have e4 : relocStart ps = cmdsEnd ps + roundUp8 (dataLen ps) := rfl
  have e5 := strLen_eq ps
  have hrel : o.sections.iter.map (fun s => UInt32.ofNat s.relocs.length) =
      (ps.map (·.relocs.length)).map UInt32.ofNat := by
    rw [hp, List.map_map, List.map_map]
    apply List.map_congr_left
    intro s _
    simp [toPart_relocs]
  have hsym : o.sections.iter.map (fun s => UInt32.ofNat s.symbols.length) =
      (ps.map (·.symbols.length)).map UInt32.ofNat := by
    rw [hp, List.map_map, List.map_map]
    apply List.map_congr_left
    intro s _
    simp [toPart_symbols]
  have hstr : o.sections.iter.mapM (sectStrSize .release) = .ok ((ps.map namesLen).map UInt32.ofNat) := by
    rw [mapM_ok' (sectStrSize .release) (fun s => UInt32.ofNat (namesLen (toPart s)))
      _ (fun s _ => sectStrSize_rel s), hp, List.map_map, List.map_map]
    rfl
  unfold genSymtabCommand
  rw [dataStart_rel hp, alignedFileSize_rel hp, hrel, hsym, hstr]
  simp only [bind, Except.bind]
  rw [addU32_rel]
  simp only
  rw [sumU32_rel]
  simp only
  have e6 : (ps.map (·.relocs.length)).sum = relocCount ps := rfl
  have e7 : (ps.map (·.symbols.length)).sum = symCount ps := rfl
  rw [e6, u32_const.2.2.2.2.1, mulU32_rel]
  simp only
  rw [addU32_rel]
  simp only
  rw [sumU32_rel, e7]
  simp only
  rw [u32_const.2.2.2.2.2, mulU32_rel]
  simp only
  rw [addU32_rel]
  simp only
  rw [sumU32_rel]
  simp only
  rw [show (1 : UInt32) = UInt32.ofNat 1 from rfl, addU32_rel]
  simp only [symtabOf, pure, Except.pure]
  rw [e5, e2, e3, e4, Nat.mul_comm (relocCount ps), Nat.mul_comm (symCount ps), Nat.add_comm _ 1]
  rfl

theorem writeSectionData_rel (hp : ps = o.sections.iter.map toPart) :
    Writes (writeSectionDataInto .release o) (dataBytes ps) := by
  rw [writeSectionData_sum (fileSum_rel hp)]
  unfold dataBytes
  have hsub : (UInt32.ofNat (roundUp8 (dataLen ps)) - UInt32.ofNat (dataLen ps)).toNat =
      roundUp8 (dataLen ps) - dataLen ps := by
    rw [UInt32.toNat_sub, UInt32.toNat_ofNat', UInt32.toNat_ofNat']
    unfold roundUp8
    omega
  have hpad : paddingU32 .release (UInt32.ofNat (dataLen ps)) 8 =
      .ok (UInt32.ofNat (roundUp8 (dataLen ps)) - UInt32.ofNat (dataLen ps)) := by
    unfold paddingU32
    rw [alignedU32_rel]
    simp only [bind, Except.bind, subU32]
    rw [if_pos (.inr trivial)]
  have hlt : roundUp8 (dataLen ps) < dataLen ps + 8 := by unfold roundUp8; omega
  rw [hpad]
  simp only [wr_lift_ok]
  rw [rassert_true (by
    rw [decide_eq_true_eq, UInt32.le_iff_toNat_le, hsub]
    show _ ≤ 7
    omega)]
  simp only [wr_lift_ok]
  rw [hsub, ← flatMap_bytes hp]
  exact Writes.bind (Writes.seq _ (fun s _ => Writes.emit _)) (Writes.emit _)

theorem writeInto_after_rel (h : Endian) (hp : ps = o.sections.iter.map toPart) :
    After (writeInto .release h o) (cmdBytes h ps o.sections.iter ++ dataBytes ps)
      (tailWr .release h o (sectionsFrom 0 (cmdsEnd ps) (relocStart ps) o.sections.iter)) := by
  unfold writeInto
  rw [genHeader64_rel hp]
  simp only [wr_lift_ok]
  rw [genSegmentCommand64_rel hp]
  simp only [wr_lift_ok]
  rw [genSection64s_rel hp]
  simp only [wr_lift_ok]
  rw [genSymtabCommand_rel hp]
  simp only [wr_lift_ok]
  simp only [cmdBytes, List.append_assoc]
  refine After.bind (header_writes h _) ?_
  refine After.bind (segment_writes h _ rfl (by simp [segmentOf])) ?_
  refine After.bind (Writes.seq _ (fun x hx => section_writes h x (sectionsFrom_mem hx).1.ascii
    (sectionsFrom_mem hx).1.len (sectionsFrom_mem hx).2.ascii (sectionsFrom_mem hx).2.len)) ?_
  refine After.bind (symtab_writes h _) ?_
  exact After.last (writeSectionData_rel hp)

theorem getStrxGo_rel (n : Str) (l : List Str) (idx : Nat) (hl : ∀ s ∈ l, strIsAscii s = true) :
    getStrxGo .release n (UInt32.ofNat idx) (l.map nameRaw ++ [[]]) =
      .ok (UInt32.ofNat (idx + posIn l n)) := by
  induction l generalizing idx with
  | nil =>
    simp only [List.map_nil, List.nil_append, getStrxGo]
    rw [show fromUtf8 [] = some [] from rfl]
    simp only [runwrap, bind, Except.bind]
    rw [show (1 : UInt32) = UInt32.ofNat 1 from rfl, addU32_rel]
    simp only
    split
    · simp [posIn, pure, Except.pure]
    · rw [show utf8Len [] = 0 from rfl, addU32_rel]
      simp [posIn, pure, Except.pure]
  | cons s l ih =>
    have hs := hl s (by simp)
    simp only [List.map_cons, List.cons_append, getStrxGo]
    rw [show fromUtf8 (nameRaw s) = some s from fromUtf8_ascii s hs]
    simp only [runwrap, bind, Except.bind]
    rw [show (1 : UInt32) = UInt32.ofNat 1 from rfl, addU32_rel]
    simp only
    by_cases he : s = n
    · rw [if_pos he]
      simp [posIn, he, pure, Except.pure]
    · rw [if_neg he, utf8Len_ascii s hs, addU32_rel]
      simp only
      rw [ih (idx + 1 + s.length) (fun s hs => hl s (by simp [hs]))]
      congr 2
      unfold posIn
      rw [List.takeWhile_cons, if_pos (by simpa using he)]
      simp only [List.map_cons, List.sum_cons]
      omega

theorem getStrx_rel (n : Str) (names : List Str) (hp : ∀ s ∈ names, strIsAscii s = true) :
    getStrx .release ⟨0 :: cstrs names⟩ n = .ok (UInt32.ofNat (strPos names n)) := by
  unfold getStrx
  rw [← cstrs_chunks, rawIter_cstrs _ (chunks_mem hp), show (0 : UInt32) = UInt32.ofNat 0 from rfl,
    getStrxGo_rel n _ 0 (fun s hs => (chunks_mem hp s hs).1), Nat.zero_add]
  rfl

theorem u64_add_rel (a : Nat) (b : UInt64) :
    addU64 .release (UInt64.ofNat a) b = .ok (UInt64.ofNat (a + b.toNat)) := by
  have := addU64_rel a b.toNat
  rwa [UInt64.ofNat_toNat] at this

theorem genNList64_rel (S : List SectionRef) (ds rs : Nat) (names : List Str)
    (i : Nat) (sym : Symbol) (hi : i < S.length) (hp : ∀ s ∈ names, strIsAscii s = true) :
    genNList64 .release (sectionsFrom 0 ds rs S) ⟨0 :: cstrs names⟩ i sym =
      .ok (entryOf names (S.map toPart) (i, sym)) := by
  unfold genNList64
  cases sym with
  | undef name => simp only; rw [getStrx_rel name names hp]; rfl
  | abs name val ext => simp only; rw [getStrx_rel name names hp]; rfl
  | ref name addr ext =>
    simp only
    rw [getStrx_rel name names hp]
    obtain ⟨s, hs⟩ : ∃ s, S[i]? = some s := ⟨S[i], List.getElem?_eq_getElem hi⟩
    rw [sectionsFrom_get S 0 ds rs i s hs]
    simp only [runwrap, bind, Except.bind, genSection64_addr, Nat.zero_add]
    rw [u64_add_rel]
    rfl

theorem genNList64s_rel (hp : ps = o.sections.iter.map toPart) (ds rs : Nat)
    (hn : ∀ s ∈ (placed ps).map (·.2.name), strIsAscii s = true) :
    genNList64s .release o (sectionsFrom 0 ds rs o.sections.iter)
      ⟨0 :: cstrs ((placed ps).map (·.2.name))⟩ =
      .ok ((placed ps).map (entryOf ((placed ps).map (·.2.name)) ps)) := by
  unfold genNList64s
  have key : ∀ p ∈ placed ps, genNList64 .release (sectionsFrom 0 ds rs o.sections.iter)
      ⟨0 :: cstrs ((placed ps).map (·.2.name))⟩ p.1 p.2 =
      .ok (entryOf ((placed ps).map (·.2.name)) ps p) := by
    intro p hpp
    obtain ⟨q, hq, _⟩ := placed_mem hpp
    obtain ⟨hi, _⟩ := List.getElem?_eq_some_iff.1 hq
    have := genNList64_rel o.sections.iter ds rs ((placed ps).map (·.2.name)) p.1 p.2
      (by rw [hp, List.length_map] at hi; exact hi) hn
    rw [this, ← hp]
  have := genNList64sGo_eq .release (sectionsFrom 0 ds rs o.sections.iter)
    ⟨0 :: cstrs ((placed ps).map (·.2.name))⟩ (entryOf ((placed ps).map (·.2.name)) ps)
    o.sections.iter 0 (by rw [← hp]; exact key)
  rw [this, ← hp]
  rfl

theorem split0_chunk (s : Str) : split0 s = chunk s := by
  induction s with
  | nil => rfl
  | cons c s ih =>
    have hc : c.toNat = 0 ↔ c = Char.ofNat 0 := by
      constructor
      · intro h
        rw [← Char.ofNat_toNat c, h]
      · rintro rfl
        decide
    unfold split0 chunk
    rw [ih]
    by_cases h : c = Char.ofNat 0
    · rw [if_pos h, if_pos (hc.2 h)]
    · rw [if_neg h, if_neg (fun hh => h (hc.1 hh))]
      cases chunk s <;> rfl

theorem tableStrings_chunks (names : List Str) : tableStrings names = chunks names := by
  unfold tableStrings chunks
  congr 1
  funext s
  exact split0_chunk s

theorem strPos_table {names : List Str} (ha : ∀ s ∈ names, strIsAscii s = true) (n : Str) :
    strPos names n = nameOff (tableStrings names) n := by
  unfold strPos posIn nameOff
  rw [tableStrings_chunks]
  congr 2
  apply List.map_congr_left
  intro s hs
  rw [utf8Len_ascii s (chunks_mem ha s (List.takeWhile_subset _ hs)).1]

/-! ## Names found through the reduced offsets -/

theorem tableBytes_cstrs {names : List Str} (ha : ∀ s ∈ names, strIsAscii s = true) :
    tableBytes names = 0 :: cstrs names := by
  unfold tableBytes cstrs
  congr 1
  induction names with
  | nil => rfl
  | cons s l ih =>
    rw [List.flatMap_cons, List.flatMap_cons, ih (fun s hs => ha s (by simp [hs])),
      utf8_ascii s (ha s (by simp))]
    rfl

/-- The name of a symbol as a string. -/
def foundStr (names : List Str) (n : Str) : Str := (nameFound names n).map (fun b => Char.ofNat b.toNat)

theorem small_chars : ∀ n < 128, strIsAscii [Char.ofNat n] = true ∧
    (Char.ofNat n).toNat = n := by decide +kernel

theorem fromUtf8_small (b : Bytes) (h : ∀ x ∈ b, x.toNat < 128) :
    fromUtf8 b = some (b.map (fun x => Char.ofNat x.toNat)) := by
  have ha : strIsAscii (b.map (fun x => Char.ofNat x.toNat)) = true := by
    rw [strIsAscii, List.all_eq_true]
    intro c hc
    obtain ⟨x, hx, rfl⟩ := List.mem_map.1 hc
    have := (small_chars x.toNat (h x hx)).1
    simpa [strIsAscii] using this
  have := fromUtf8_ascii _ ha
  rw [List.map_map] at this
  rw [← this]
  congr 1
  conv => lhs; rw [← List.map_id b]
  apply List.map_congr_left
  intro x hx
  simp only [Function.comp, id, (small_chars x.toNat (h x hx)).2]
  simp

theorem cstrs_small {names : List Str} (ha : ∀ s ∈ names, strIsAscii s = true) :
    ∀ x ∈ 0 :: cstrs names, x.toNat < 128 := by
  intro x hx
  rcases List.mem_cons.1 hx with rfl | hx
  · decide
  obtain ⟨s, hs, hx⟩ := List.mem_flatMap.1 hx
  rcases List.mem_append.1 hx with hx | hx
  · obtain ⟨c, hc, rfl⟩ := List.mem_map.1 hx
    have := ha s hs
    simp only [strIsAscii, charIsAscii, List.all_eq_true, decide_eq_true_eq] at this
    have := this c hc
    simp only [Nat.toUInt8, UInt8.toNat_ofNat']
    omega
  · simp only [List.mem_cons, List.not_mem_nil, or_false] at hx
    subst hx
    decide

theorem nameFound_eq {names : List Str} (ha : ∀ s ∈ names, strIsAscii s = true) (n : Str) :
    nameFound names n = ((0 :: cstrs names).drop (UInt32.ofNat (strPos names n)).toNat).takeWhile (· != 0) := by
  unfold nameFound
  rw [tableBytes_cstrs ha, UInt32.toNat_ofNat', strPos_table ha]
  congr 1
  funext b
  by_cases hb : b = 0 <;> simp [hb]

theorem fromUtf8_found {names : List Str} (ha : ∀ s ∈ names, strIsAscii s = true) (n : Str) :
    fromUtf8 (nameFound names n) = some (foundStr names n) := by
  apply fromUtf8_small
  intro x hx
  rw [nameFound_eq ha] at hx
  exact cstrs_small ha x (List.mem_of_mem_drop (List.takeWhile_subset _ hx))

theorem utf8_found {names : List Str} (ha : ∀ s ∈ names, strIsAscii s = true) (n : Str) :
    utf8 (foundStr names n) = nameFound names n := utf8_of_fromUtf8 (fromUtf8_found ha n)

theorem get_found {names : List Str} (ha : ∀ s ∈ names, strIsAscii s = true) {n : Str} (hn : n ∈ names) :
    StringTable.get ⟨0 :: cstrs names⟩ (UInt32.ofNat (strPos names n)).toNat = .ok (foundStr names n) := by
  have h1 := strPos_le names n ha hn
  have h2 : (UInt32.ofNat (strPos names n)).toNat ≤ (0 :: cstrs names).length := by
    rw [UInt32.toNat_ofNat', List.length_cons, length_cstrs]
    have := Nat.mod_le (strPos names n) (2 ^ 32)
    omega
  unfold StringTable.get
  rw [rassert_true (by simpa using h2)]
  simp only [bind, Except.bind]
  rw [← nameFound_eq ha, fromUtf8_found ha]
  rfl

/-- In a table shorter than `2 ^ 32` every symbol has the name it was given. -/
theorem found_seen {names : List Str} (ha : ∀ s ∈ names, strIsAscii s = true) {n : Str} (hn : n ∈ names)
    (hb : 1 + (names.map (fun s => s.length + 1)).sum < 2 ^ 32) : foundStr names n = seen n := by
  have h1 := strPos_le names n ha hn
  have h2 := get_found ha hn
  rw [u32_ofNat _ (by omega), get_strPos names n ha hn] at h2
  exact (Except.ok.inj h2).symm

theorem idxOf_map_inj {α β : Type} [BEq α] [LawfulBEq α] [BEq β] [LawfulBEq β] (f : α → β)
    (hf : ∀ x y, f x = f y → x = y) (l : List α) (a : α) : (l.map f).idxOf (f a) = l.idxOf a := by
  induction l with
  | nil => rfl
  | cons x l ih =>
    rw [List.map_cons, List.idxOf_cons, List.idxOf_cons, ih]
    by_cases hx : x = a
    · simp [hx]
    · have h1 : (f x == f a) = false := by simpa using fun h => hx (hf _ _ h)
      have h2 : (x == a) = false := by simpa using hx
      rw [h1, h2]

theorem map_found {names : List Str} (ha : ∀ s ∈ names, strIsAscii s = true) (l : List Str) :
    l.map (nameFound names) = (l.map (foundStr names)).map utf8 := by
  rw [List.map_map]
  apply List.map_congr_left
  intro n _
  exact (utf8_found ha n).symm

theorem mem_found {names : List Str} (ha : ∀ s ∈ names, strIsAscii s = true) (n : Str) :
    utf8 n ∈ names.map (nameFound names) ↔ n ∈ names.map (foundStr names) := by
  rw [map_found ha]
  constructor
  · intro h
    obtain ⟨m, hm, he⟩ := List.mem_map.1 h
    rw [← utf8_injective he]
    exact hm
  · exact fun h => List.mem_map.2 ⟨n, h, rfl⟩

theorem idxOf_found {names : List Str} (ha : ∀ s ∈ names, strIsAscii s = true) (n : Str) :
    (names.map (nameFound names)).idxOf (utf8 n) = (names.map (foundStr names)).idxOf n := by
  rw [map_found ha]
  exact idxOf_map_inj utf8 (fun _ _ => utf8_injective) _ _

/-- The entry of a relocation. -/
def relocEntry (names : List Str) (r : Reloc) : RelocationInfo :=
  ⟨r.addr, UInt32.ofNat ((names.map (nameFound names)).idxOf (utf8 r.symbol)), r.pcrel, lenOf r.len, true, 0⟩

/-- The relocation has an entry. -/
def EntryOk (names : List Str) (r : Reloc) : Prop :=
  utf8 r.symbol ∈ names.map (nameFound names) ∧ r.len.toNat ≤ 3

open Classical in
theorem genRelocationInfo_rel {ps : List Part}
    (hp : ∀ s ∈ (placed ps).map (·.2.name), strIsAscii s = true) (r : Reloc) :
    genRelocationInfo ((placed ps).map (entryOf ((placed ps).map (·.2.name)) ps))
      ⟨0 :: cstrs ((placed ps).map (·.2.name))⟩ r =
      if EntryOk ((placed ps).map (·.2.name)) r then .ok (relocEntry ((placed ps).map (·.2.name)) r)
      else .error .panic := by
  have hok : EntryOk ((placed ps).map (·.2.name)) r ↔
      r.symbol ∈ ((placed ps).map (·.2.name)).map (foundStr ((placed ps).map (·.2.name))) ∧ r.len.toNat ≤ 3 := by
    unfold EntryOk
    rw [mem_found hp]
  unfold genRelocationInfo getSymIdx
  rw [getSymIdxGo_eq _ r.symbol (foundStr ((placed ps).map (·.2.name)))
    (fun s => UInt32.ofNat (strPos ((placed ps).map (·.2.name)) s)) _ ((placed ps).map (·.2.name)) 0]
  · rw [lenOf_eq]
    by_cases h1 : r.symbol ∈ ((placed ps).map (·.2.name)).map (foundStr ((placed ps).map (·.2.name)))
    · rw [if_pos h1]
      by_cases h2 : r.len.toNat ≤ 3
      · rw [if_pos h2, if_pos (hok.2 ⟨h1, h2⟩)]
        simp only [bind, Except.bind, runwrap, pure, Except.pure, relocEntry, Nat.zero_add,
          X86_64RelocType.toU8, idxOf_found hp]
      · rw [if_neg h2, if_neg (fun h => h2 (hok.1 h).2)]
        rfl
    · rw [if_neg h1, if_neg (fun h => h1 (hok.1 h).1)]
      rfl
  · rw [List.map_map, List.map_map]
    apply List.map_congr_left
    intro p _
    exact entryOf_strx _ _ _
  · exact fun s hs => get_found hp hs

/-- The file: `image` with the entries above. -/
def imageMod (h : Endian) (ps : List Part) (S : List SectionRef) : Bytes :=
  cmdBytes h ps S ++ dataBytes ps ++
    (((ps.flatMap (·.relocs)).map (relocEntry ((placed ps).map (·.2.name)))).flatMap (relocBytes h) ++
    (((placed ps).map (entryOf ((placed ps).map (·.2.name)) ps)).flatMap (nlistBytes h) ++
      (0 :: cstrs ((placed ps).map (·.2.name)))))

theorem length_relocEntries (h : Endian) (ps : List Part) (g : Reloc → RelocationInfo) :
    (((ps.flatMap (·.relocs)).map g).flatMap (relocBytes h)).length = 8 * relocCount ps := by
  rw [flatMap_len _ _ 8 (fun x _ => length_relocBytes h x), List.length_map, length_relocs]

theorem length_imageMod (h : Endian) (ps : List Part) (S : List SectionRef)
    (hl : ps.length = S.length)
    (ha : ∀ n ∈ (placed ps).map (·.2.name), strIsAscii n = true) :
    (imageMod h ps S).length = fileLen ps := by
  unfold imageMod
  simp only [List.length_append, length_cmdBytes h ps S hl, length_dataBytes, length_relocEntries,
    length_symTable, length_strtab ps ha]
  unfold fileLen strStart symStart relocStart
  omega

theorem imageMod_at (h : Endian) {ps : List Part} {S : List SectionRef} (hl : ps.length = S.length)
    {f : Bytes} : At f 0 (imageMod h ps S) ↔
      At f 0 (cmdBytes h ps S ++ dataBytes ps) ∧
      At f (relocStart ps) (((ps.flatMap (·.relocs)).map (relocEntry ((placed ps).map (·.2.name)))).flatMap
        (relocBytes h)) ∧
      At f (symStart ps) (((placed ps).map (entryOf ((placed ps).map (·.2.name)) ps)).flatMap
        (nlistBytes h)) ∧
      At f (strStart ps) (0 :: cstrs ((placed ps).map (·.2.name))) := by
  unfold imageMod
  rw [at_append (b := cmdBytes h ps S ++ dataBytes ps), at_append (b := List.flatMap (relocBytes h) _),
    at_append (b := List.flatMap (nlistBytes h) _), List.length_append,
    length_cmdBytes h ps S hl, length_dataBytes, length_relocEntries, length_symTable]
  have e2 : 0 + (cmdsEnd ps + roundUp8 (dataLen ps)) = relocStart ps := Nat.zero_add _
  have e3 : relocStart ps + 8 * relocCount ps = symStart ps := rfl
  have e4 : symStart ps + 16 * symCount ps = strStart ps := rfl
  simp only [e2, e3, e4]

theorem genRelocationInfos_rel (hp : ps = o.sections.iter.map toPart)
    (hn : ∀ s ∈ (placed ps).map (·.2.name), strIsAscii s = true) :
    ((∀ r ∈ ps.flatMap (·.relocs), EntryOk ((placed ps).map (·.2.name)) r) →
      genRelocationInfos o ((placed ps).map (entryOf ((placed ps).map (·.2.name)) ps))
        ⟨0 :: cstrs ((placed ps).map (·.2.name))⟩ =
        .ok ((ps.flatMap (·.relocs)).map (relocEntry ((placed ps).map (·.2.name))))) ∧
    ((¬ ∀ r ∈ ps.flatMap (·.relocs), EntryOk ((placed ps).map (·.2.name)) r) →
      genRelocationInfos o ((placed ps).map (entryOf ((placed ps).map (·.2.name)) ps))
        ⟨0 :: cstrs ((placed ps).map (·.2.name))⟩ = .error .panic) := by
  unfold genRelocationInfos
  rw [flatMap_relocs hp]
  have key := genRelocationInfo_rel hn
  generalize (placed ps).map (·.2.name) = names at key ⊢
  exact mapM_if _ (relocEntry names) (EntryOk names) _ (fun r _ => key r)

theorem writeInto_writes_rel (h : Endian) (hp : parts o = o.sections.iter.map toPart)
    (hw : Expressible o) : Writes (writeInto .release h o) (imageMod h (parts o) o.sections.iter) := by
  have hpl := names_ascii hw.ascii
  refine (writeInto_after_rel h hp).writes ?_
  unfold tailWr
  rw [genStringTable_ok hp hpl]
  simp only [wr_lift_ok]
  rw [genNList64s_rel hp _ _ hpl]
  simp only [wr_lift_ok]
  rw [(genRelocationInfos_rel hp hpl).1 (fun r hr => ⟨hw.defined r hr, hw.lens r hr⟩)]
  simp only [wr_lift_ok]
  exact Writes.bind (Writes.seq _ (fun x _ => reloc_writes h x))
    (Writes.bind (Writes.seq _ (fun x _ => nlist_writes h x)) (Writes.emit _))

theorem writeInto_panics_rel (h : Endian) (hp : parts o = o.sections.iter.map toPart)
    (hw : ¬ Expressible o) : (writeInto .release h o).res = .error .panic ∧
      (writeInto .release h o).out = cmdBytes h (parts o) o.sections.iter ++ dataBytes (parts o) := by
  have hA := writeInto_after_rel h hp
  have key : ∃ w : Wr Unit, tailWr .release h o
      (sectionsFrom 0 (cmdsEnd (parts o)) (relocStart (parts o)) o.sections.iter) = w ∧
      w = ⟨[], .error .panic⟩ := by
    refine ⟨_, rfl, ?_⟩
    unfold tailWr
    by_cases ha : ∀ n ∈ symNames o, ∀ c ∈ n, c.toNat < 128
    · have hpl := names_ascii ha
      rw [genStringTable_ok hp hpl]
      simp only [wr_lift_ok]
      rw [genNList64s_rel hp _ _ hpl]
      simp only [wr_lift_ok]
      rw [(genRelocationInfos_rel hp hpl).2 (fun hall =>
        hw ⟨ha, fun r hr => (hall r hr).1, fun r hr => (hall r hr).2⟩)]
      rfl
    · rw [genStringTable_panic hp (fun hall => ha (fun n hn c hc => by
        have := hall n hn
        simp only [strIsAscii, charIsAscii, List.all_eq_true, decide_eq_true_eq] at this
        exact this c hc))]
      rfl
  obtain ⟨w, h1, rfl⟩ := key
  rw [h1] at hA
  exact ⟨hA.res, by rw [hA.out]; simp [Wr.out]⟩

/-! ## Objects with a short string table -/

/-- With a string table shorter than `2 ^ 32`, relocations find symbols by the names given to them. -/
theorem found_small (ha : ∀ n ∈ symNames o, ∀ c ∈ n, c.toNat < 128) (hs : strLen (parts o) < 2 ^ 32) :
    (symNames o).map (nameFound (symNames o)) = ((symNames o).map seen).map utf8 := by
  have hpl : ∀ s ∈ symNames o, strIsAscii s = true := names_ascii ha
  rw [map_found hpl]
  congr 1
  apply List.map_congr_left
  intro n hn
  have hsum : 1 + ((symNames o).map (fun s => s.length + 1)).sum = strLen (parts o) :=
    names_sum (parts o) hpl
  exact found_seen hpl hn (by rw [hsum]; exact hs)

theorem expressible_iff (hs : strLen (parts o) < 2 ^ 32) : Expressible o ↔ Writable o := by
  constructor
  · intro h
    refine ⟨h.ascii, fun r hr => ?_, h.lens⟩
    have := h.defined r hr
    rw [found_small h.ascii hs] at this
    obtain ⟨m, hm, he⟩ := List.mem_map.1 this
    rw [← utf8_injective he]
    exact hm
  · intro h
    refine ⟨h.ascii, fun r hr => ?_, h.lens⟩
    rw [found_small h.ascii hs]
    exact List.mem_map.2 ⟨_, h.defined r hr, rfl⟩

theorem symNumber_small (ha : ∀ n ∈ symNames o, ∀ c ∈ n, c.toNat < 128) (hs : strLen (parts o) < 2 ^ 32)
    (n : Str) : symNumber o n = ((symNames o).map seen).idxOf n := by
  unfold symNumber
  rw [found_small ha hs]
  exact idxOf_map_inj utf8 (fun _ _ => utf8_injective) _ _

end AT.Obj
