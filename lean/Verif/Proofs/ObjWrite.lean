import Verif.Proofs.ObjSyms
/-!
# The file written by the object writer
-/

namespace AT.Obj
open AT.Mac AT.MachO AT.ObjSpec

/-- `w` writes `b` and then behaves as `w'`. -/
structure After (w : Wr Unit) (b : Bytes) (w' : Wr Unit) : Prop where
  out : w.out = b ++ w'.out
  res : w.res = w'.res

theorem After.refl (w : Wr Unit) : After w [] w := ⟨rfl, rfl⟩

theorem After.bind {w₁ w₂ w' : Wr Unit} {b₁ b₂ : Bytes} (h₁ : Writes w₁ b₁) (h₂ : After w₂ b₂ w') :
    After (w₁ >>= fun _ => w₂) (b₁ ++ b₂) w' := by
  obtain ⟨c, r⟩ := w₁
  obtain ⟨hr, ho⟩ := h₁
  simp only at hr
  subst hr
  constructor
  · have := h₂.out
    simp only [Wr.out] at *
    show (c ++ w₂.chunks).flatten = _
    rw [List.flatten_append, ho, this, List.append_assoc]
  · exact h₂.res

theorem After.last {w w' : Wr Unit} {b : Bytes} (h : Writes w b) : After (w >>= fun _ => w') b w' := by
  have := After.bind h (After.refl w')
  rwa [List.append_nil] at this

theorem wr_lift_ok {α β : Type} (x : α) (f : α → Wr β) : (Wr.lift (.ok x) >>= f) = f x := rfl

theorem wr_lift_err {α β : Type} (e : Stop) (f : α → Wr β) :
    (Wr.lift (.error e) >>= f) = ⟨[], .error e⟩ := rfl

theorem After.writes {w w' : Wr Unit} {b b' : Bytes} (h : After w b w') (h' : Writes w' b') :
    Writes w (b ++ b') := ⟨h.res.trans h'.res, by rw [h.out, h'.out]⟩

theorem genSection64_nameOk (s : SectionRef) (a : UInt64) (d r : UInt32) :
    SectionOk (genSection64 s a d r) := by
  have h1 : NameOk 16 (str% "__text") := ⟨by decide, by decide, by decide⟩
  have h2 : NameOk 16 (str% "__TEXT") := ⟨by decide, by decide, by decide⟩
  have h3 : NameOk 16 (str% "__data") := ⟨by decide, by decide, by decide⟩
  have h4 : NameOk 16 (str% "__DATA") := ⟨by decide, by decide, by decide⟩
  have h5 : NameOk 16 (str% "__bss") := ⟨by decide, by decide, by decide⟩
  cases s
  · exact ⟨h1, h2⟩
  · exact ⟨h3, h4⟩
  · exact ⟨h5, h4⟩

theorem sectionsFrom_mem {S : List SectionRef} {vm ds rs : Nat} {x : Section64}
    (h : x ∈ sectionsFrom vm ds rs S) : SectionOk x := by
  induction S generalizing vm ds rs with
  | nil => simp [sectionsFrom] at h
  | cons s S ih =>
    unfold sectionsFrom at h
    rcases List.mem_cons.1 h with rfl | h
    · exact genSection64_nameOk _ _ _ _
    · exact ih h

/-- Section contents and padding. -/
def dataBytes (ps : List Part) : Bytes :=
  ps.flatMap (·.bytes) ++ List.replicate (roundUp8 (dataLen ps) - dataLen ps) 0

theorem flatMap_bytes {o : Object} {ps : List Part} (hp : ps = o.sections.iter.map toPart) :
    o.sections.iter.flatMap SectionRef.fileData = ps.flatMap (·.bytes) := by
  rw [hp, List.flatMap_map]
  congr 1
  funext s
  exact (toPart_bytes s).symm

theorem writeSectionDataGo_eq (bd : Build) (S : List SectionRef) (a r : UInt32)
    (h : (S.map SectionRef.fileSize).foldlM (addU32 bd) a = .ok r) :
    writeSectionDataGo bd a S = ⟨(forWr (fun s => emit s.fileData) S).chunks, .ok r⟩ ∧
    (forWr (fun s : SectionRef => emit s.fileData) S).res = .ok () := by
  induction S generalizing a with
  | nil => cases h; exact ⟨rfl, rfl⟩
  | cons s S ih =>
    rw [List.map_cons, List.foldlM_cons] at h
    cases hs : addU32 bd a s.fileSize with
    | error e => rw [hs] at h; cases h
    | ok b =>
      rw [hs] at h
      obtain ⟨h1, h2⟩ := ih b h
      refine ⟨?_, h2⟩
      unfold writeSectionDataGo
      rw [hs, wr_lift_ok, h1]
      rfl

/-- If the sizes can be added, the loop writes the contents and has the sum. -/
theorem writeSectionData_sum {bd : Build} {o : Object} {r : UInt32}
    (h : sumU32 bd (o.sections.iter.map SectionRef.fileSize) = .ok r) :
    writeSectionDataInto bd o = (do
      forWr (fun s => emit s.fileData) o.sections.iter
      let nPadding ← Wr.lift (paddingU32 bd r 8)
      Wr.lift (rassert (nPadding ≤ 7))
      emit (List.replicate nPadding.toNat 0)) := by
  obtain ⟨h1, h2⟩ := writeSectionDataGo_eq bd o.sections.iter 0 r h
  unfold writeSectionDataInto
  rw [h1]
  cases hw : forWr (fun s : SectionRef => emit s.fileData) o.sections.iter with
  | mk c res =>
    rw [hw] at h2
    simp only at h2
    subst h2
    rfl

theorem writeSectionData_writes (bd : Build) {o : Object} {ps : List Part}
    (hp : ps = o.sections.iter.map toPart) (hb : Bounds ps) :
    Writes (writeSectionDataInto bd o) (dataBytes ps) := by
  have hf := hb.file
  unfold strStart symStart relocStart at hf
  have hle : dataLen ps ≤ roundUp8 (dataLen ps) := by unfold roundUp8; omega
  have hlt : roundUp8 (dataLen ps) < dataLen ps + 8 := by unfold roundUp8; omega
  rw [writeSectionData_sum (fileSum_eq bd hp hb)]
  unfold dataBytes
  have h8 : (8 : UInt32).toNat = 8 := rfl
  have hn : (UInt32.ofNat (dataLen ps)).toNat = dataLen ps := u32_ofNat _ (by omega)
  have hal : alignedU32 bd (UInt32.ofNat (dataLen ps)) 8 =
      .ok (UInt32.ofNat (roundUp8 (dataLen ps))) := by
    rw [alignedU32_eq bd _ _ (by rw [h8]; omega)
      (by rw [h8, hn, nextMul_8]; unfold roundUp8 at hf; omega), h8, hn, nextMul_8]
    rfl
  have hm : (UInt32.ofNat (roundUp8 (dataLen ps))).toNat = roundUp8 (dataLen ps) :=
    u32_ofNat _ (by omega)
  have hsub : (UInt32.ofNat (roundUp8 (dataLen ps)) - UInt32.ofNat (dataLen ps)).toNat =
      roundUp8 (dataLen ps) - dataLen ps := by
    rw [UInt32.toNat_sub_of_le _ _ (by rw [UInt32.le_iff_toNat_le, hn, hm]; exact hle), hn, hm]
  have hpad : paddingU32 bd (UInt32.ofNat (dataLen ps)) 8 =
      .ok (UInt32.ofNat (roundUp8 (dataLen ps)) - UInt32.ofNat (dataLen ps)) := by
    unfold paddingU32
    rw [hal]
    simp only [bind, Except.bind, subU32]
    rw [if_pos (.inl (by rw [hn, hm]; exact hle))]
  rw [hpad]
  simp only [wr_lift_ok]
  rw [rassert_true (by
    rw [decide_eq_true_eq, UInt32.le_iff_toNat_le, hsub]
    show _ ≤ 7
    omega)]
  simp only [wr_lift_ok]
  rw [hsub, ← flatMap_bytes hp]
  exact Writes.bind (Writes.seq _ (fun s _ => Writes.emit _)) (Writes.emit _)

/-- Header and load commands. -/
def cmdBytes (h : Endian) (ps : List Part) (S : List SectionRef) : Bytes :=
  headerBytes h (headerOf ps) ++ (segmentBytes h (segmentOf ps) ++
    ((sectionsFrom 0 (cmdsEnd ps) (relocStart ps) S).flatMap (sectionBytes h) ++
      symtabBytes h (symtabOf ps)))

/-- What the writer does after the section data. -/
def tailWr (bd : Build) (h : Endian) (o : Object) (secs : List Section64) : Wr Unit := do
  let stab ← Wr.lift (genStringTable o)
  let symbols ← Wr.lift (genNList64s bd o secs stab)
  let relocs ← Wr.lift (genRelocationInfos o symbols stab)
  forWr (RelocationInfo.writeInto h) relocs
  forWr (NList64.writeInto h) symbols
  emit stab.data

theorem writeInto_after (bd : Build) (h : Endian) {o : Object} {ps : List Part}
    (hp : ps = o.sections.iter.map toPart) (hb : Bounds ps) :
    After (writeInto bd h o) (cmdBytes h ps o.sections.iter ++ dataBytes ps)
      (tailWr bd h o (sectionsFrom 0 (cmdsEnd ps) (relocStart ps) o.sections.iter)) := by
  unfold writeInto
  rw [genHeader64_eq bd hp hb]
  simp only [wr_lift_ok]
  rw [genSegmentCommand64_eq bd hp hb]
  simp only [wr_lift_ok]
  rw [genSection64s_eq bd hp hb]
  simp only [wr_lift_ok]
  rw [genSymtabCommand_eq bd hp hb]
  simp only [wr_lift_ok]
  simp only [cmdBytes, List.append_assoc]
  refine After.bind (header_writes h _) ?_
  refine After.bind (segment_writes h _ rfl (by simp [segmentOf])) ?_
  refine After.bind (Writes.seq _ (fun x hx => section_writes h x (sectionsFrom_mem hx).1.ascii
    (sectionsFrom_mem hx).1.len (sectionsFrom_mem hx).2.ascii (sectionsFrom_mem hx).2.len)) ?_
  refine After.bind (symtab_writes h _) ?_
  exact After.last (writeSectionData_writes bd hp hb)

theorem genNList64s_eq (bd : Build) {o : Object} {ps : List Part}
    (hp : ps = o.sections.iter.map toPart) (hb : Bounds ps)
    (hr : ∀ i name addr ext, (i, Symbol.ref name addr ext) ∈ placed ps →
      addrOf ps i + addr.toNat < 2 ^ 64) (ds rs : Nat)
    (hn : ∀ s ∈ (placed ps).map (·.2.name), strIsAscii s = true) :
    genNList64s bd o (sectionsFrom 0 ds rs o.sections.iter)
      ⟨0 :: cstrs ((placed ps).map (·.2.name))⟩ =
      .ok ((placed ps).map (entryOf ((placed ps).map (·.2.name)) ps)) := by
  have hf := hb.file
  have e1 := hb.strs
  have hns := names_sum ps hn
  unfold genNList64s
  have key : ∀ p ∈ placed ps, genNList64 bd (sectionsFrom 0 ds rs o.sections.iter)
      ⟨0 :: cstrs ((placed ps).map (·.2.name))⟩ p.1 p.2 =
      .ok (entryOf ((placed ps).map (·.2.name)) ps p) := by
    intro p hpp
    obtain ⟨q, hq, _⟩ := placed_mem hpp
    obtain ⟨hi, _⟩ := List.getElem?_eq_some_iff.1 hq
    have := genNList64_eq bd o.sections.iter ds rs ((placed ps).map (·.2.name)) p.1 p.2
      (by rw [hp, List.length_map] at hi; exact hi) hn (by omega)
      (fun name addr ext he => by rw [← hp]; exact hr p.1 name addr ext (by rw [← he]; exact hpp))
    rw [this, ← hp]
  have := genNList64sGo_eq bd (sectionsFrom 0 ds rs o.sections.iter)
    ⟨0 :: cstrs ((placed ps).map (·.2.name))⟩ (entryOf ((placed ps).map (·.2.name)) ps)
    o.sections.iter 0 (by rw [← hp]; exact key)
  rw [this, ← hp]
  rfl

theorem genRelocationInfos_eq {o : Object} {ps : List Part}
    (hp : ps = o.sections.iter.map toPart) (hb : strLen ps < 2 ^ 32)
    (hn : ∀ s ∈ (placed ps).map (·.2.name), strIsAscii s = true) :
    ((∀ r ∈ ps.flatMap (·.relocs), relocOk ps r) →
      genRelocationInfos o ((placed ps).map (entryOf ((placed ps).map (·.2.name)) ps))
        ⟨0 :: cstrs ((placed ps).map (·.2.name))⟩ =
        .ok ((ps.flatMap (·.relocs)).map (fun r => relocOf ps (lenOf r.len) r))) ∧
    ((¬ ∀ r ∈ ps.flatMap (·.relocs), relocOk ps r) →
      genRelocationInfos o ((placed ps).map (entryOf ((placed ps).map (·.2.name)) ps))
        ⟨0 :: cstrs ((placed ps).map (·.2.name))⟩ = .error .panic) := by
  unfold genRelocationInfos
  rw [flatMap_relocs hp]
  exact mapM_if _ (fun r => relocOf ps (lenOf r.len) r) (relocOk ps) _
    (fun r _ => genRelocationInfo_eq hb hn r)

/-- Relocations, symbols, strings. -/
def tailBytes (h : Endian) (ps : List Part) : Bytes :=
  ((ps.flatMap (·.relocs)).map (fun r => relocOf ps (lenOf r.len) r)).flatMap (relocBytes h) ++
    (((placed ps).map (entryOf ((placed ps).map (·.2.name)) ps)).flatMap (nlistBytes h) ++
      (0 :: cstrs ((placed ps).map (·.2.name))))

/-- The whole file. -/
def image (h : Endian) (ps : List Part) (S : List SectionRef) : Bytes :=
  cmdBytes h ps S ++ dataBytes ps ++ tailBytes h ps

theorem not_nul {n : Str} (h : ∀ c ∈ n, c.toNat ≠ 0) : Char.ofNat 0 ∉ n :=
  fun hm => h _ hm (by decide)

theorem seen_plain {n : Str} (h : ∀ c ∈ n, c.toNat ≠ 0) : seen n = n := if_neg (not_nul h)

theorem seen_names {o : Object} (hn : NulFree o) : (symNames o).map seen = symNames o := by
  have : ∀ l : List Str, (∀ n ∈ l, ∀ c ∈ n, c.toNat ≠ 0) → l.map seen = l := by
    intro l h
    induction l with
    | nil => rfl
    | cons a l ih => rw [List.map_cons, seen_plain (h a (by simp)), ih (fun n hn => h n (by simp [hn]))]
  exact this _ hn

theorem _root_.AT.ObjSpec.Writable.names {o : Object} (hw : Writable o) (hn : NulFree o) :
    ∀ r ∈ allRelocs o, r.symbol ∈ symNames o := by
  intro r hr
  have := hw.defined r hr
  rwa [seen_names hn] at this

theorem names_ascii {o : Object} (ha : ∀ n ∈ symNames o, ∀ c ∈ n, c.toNat < 128) :
    ∀ s ∈ (placed (parts o)).map (·.2.name), strIsAscii s = true :=
  fun s hs => by simpa [strIsAscii, charIsAscii] using ha s hs

theorem bounds_of {o : Object} (h : Fits o) : Bounds (parts o) := ⟨h.file, h.strs, h.vm⟩

theorem writeInto_writes (bd : Build) (h : Endian) {o : Object} (hf : Fits o)
    (hw : Writable o) : Writes (writeInto bd h o) (image h (parts o) o.sections.iter) := by
  have hp := parts_of_fits hf
  have hb := bounds_of hf
  have hpl := names_ascii hw.ascii
  refine (writeInto_after bd h hp hb).writes ?_
  unfold tailWr tailBytes
  rw [genStringTable_ok hp hpl]
  simp only [wr_lift_ok]
  rw [genNList64s_eq bd hp hb hf.refs _ _ hpl]
  simp only [wr_lift_ok]
  rw [(genRelocationInfos_eq hp hb.strs hpl).1 (fun r hr => ⟨hw.defined r hr, hw.lens r hr⟩)]
  simp only [wr_lift_ok]
  exact Writes.bind (Writes.seq _ (fun x _ => reloc_writes h x))
    (Writes.bind (Writes.seq _ (fun x _ => nlist_writes h x)) (Writes.emit _))

theorem writeInto_panics (bd : Build) (h : Endian) {o : Object} (hf : Fits o)
    (hw : ¬ Writable o) : (writeInto bd h o).res = .error .panic ∧
      (writeInto bd h o).out = cmdBytes h (parts o) o.sections.iter ++ dataBytes (parts o) := by
  have hp := parts_of_fits hf
  have hb := bounds_of hf
  have hA := writeInto_after bd h hp hb
  have key : ∃ w : Wr Unit, tailWr bd h o
      (sectionsFrom 0 (cmdsEnd (parts o)) (relocStart (parts o)) o.sections.iter) = w ∧
      w = ⟨[], .error .panic⟩ := by
    refine ⟨_, rfl, ?_⟩
    unfold tailWr
    by_cases ha : ∀ n ∈ symNames o, ∀ c ∈ n, c.toNat < 128
    · have hpl := names_ascii ha
      rw [genStringTable_ok hp hpl]
      simp only [wr_lift_ok]
      rw [genNList64s_eq bd hp hb hf.refs _ _ hpl]
      simp only [wr_lift_ok]
      rw [(genRelocationInfos_eq hp hb.strs hpl).2 (fun hall =>
        hw ⟨ha, fun r hr => (hall r hr).1, fun r hr => (hall r hr).2⟩)]
      rfl
    · rw [genStringTable_panic hp (fun hall => ha (fun n hn c hc => by
        have := hall n hn
        simp only [strIsAscii, charIsAscii, List.all_eq_true, decide_eq_true_eq] at this
        exact this c hc))]
      rfl
  obtain ⟨w, h1, rfl⟩ := key
  rw [h1] at hA
  exact ⟨hA.res, by rw [hA.out]; simp [Wr.out]⟩

end AT.Obj
