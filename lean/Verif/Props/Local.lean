import Verif.Props.Linear
import Verif.Props.ObjChecks
import Verif.Spec.Local
/-!
# A change in some lines changes only their bytes in the file (C104)
-/

namespace AT.Props
open AT AT.Asm AT.AsmSpec AT.Obj AT.Mac AT.MachO AT.ObjSpec

/-! ## Objects that differ only in the bytes of their sections -/

structure AlikeObj (o o' : Object) : Prop where
  text : o.sections.text.bytes.length = o'.sections.text.bytes.length
  data : o.sections.data.bytes.length = o'.sections.data.bytes.length
  textSyms : o.sections.text.symbols = o'.sections.text.symbols
  dataSyms : o.sections.data.symbols = o'.sections.data.symbols
  textRels : o.sections.text.relocs = o'.sections.text.relocs
  dataRels : o.sections.data.relocs = o'.sections.data.relocs
  bss : o.sections.bss = o'.sections.bss

/-- A part with zeros for its bytes. -/
def bare (p : Part) : Part := { p with bytes := List.replicate p.bytes.length 0 }

variable {o o' : Object}

theorem parts_bare (hs : AlikeObj o o') : (parts o).map bare = (parts o').map bare := by
  have e1 : o.sections.text.bytes = [] ↔ o'.sections.text.bytes = [] := by
    rw [← List.length_eq_zero_iff, ← List.length_eq_zero_iff, hs.text]
  have e2 : o.sections.data.bytes = [] ↔ o'.sections.data.bytes = [] := by
    rw [← List.length_eq_zero_iff, ← List.length_eq_zero_iff, hs.data]
  have e3 := hs.bss
  unfold parts
  simp only [List.map_append]
  congr 1
  · congr 1
    · by_cases h : o.sections.text.bytes = []
      · rw [if_pos h, if_pos (e1.1 h)]
      · rw [if_neg h, if_neg fun h' => h (e1.2 h')]
        simp [bare, hs.text, hs.textSyms, hs.textRels]
    · by_cases h : o.sections.data.bytes = []
      · rw [if_pos h, if_pos (e2.1 h)]
      · rw [if_neg h, if_neg fun h' => h (e2.2 h')]
        simp [bare, hs.data, hs.dataSyms, hs.dataRels]
  · rw [e3]

theorem of_bare {α : Type} (g : List Part → α) (hg : ∀ ps, g (ps.map bare) = g ps) (hs : AlikeObj o o') :
    g (parts o) = g (parts o') := by
  rw [← hg (parts o), parts_bare hs, hg]

theorem length_bare (ps : List Part) : (ps.map bare).length = ps.length := by simp
theorem dataLen_bare (ps : List Part) : dataLen (ps.map bare) = dataLen ps := by
  simp [dataLen, bare, Function.comp_def]
theorem relocCount_bare (ps : List Part) : relocCount (ps.map bare) = relocCount ps := by
  simp [relocCount, bare, Function.comp_def]
theorem symCount_bare (ps : List Part) : symCount (ps.map bare) = symCount ps := by
  simp [symCount, bare, Function.comp_def]
theorem strLen_bare (ps : List Part) : strLen (ps.map bare) = strLen ps := by
  simp [strLen, bare, Function.comp_def]
theorem vmLen_bare (ps : List Part) : vmLen (ps.map bare) = vmLen ps := by
  simp [vmLen, bare, Function.comp_def]
theorem placed_bare (ps : List Part) : ObjSpec.placed (ps.map bare) = ObjSpec.placed ps := by
  simp [ObjSpec.placed, bare, List.zipIdx_map, List.flatMap_map]
theorem cmdsEnd_bare (ps : List Part) : cmdsEnd (ps.map bare) = cmdsEnd ps := by
  simp [cmdsEnd]
theorem relocStart_bare (ps : List Part) : relocStart (ps.map bare) = relocStart ps := by
  simp [relocStart, cmdsEnd_bare, dataLen_bare]
theorem symStart_bare (ps : List Part) : symStart (ps.map bare) = symStart ps := by
  simp [symStart, relocStart_bare, relocCount_bare]
theorem strStart_bare (ps : List Part) : strStart (ps.map bare) = strStart ps := by
  simp [strStart, symStart_bare, symCount_bare]
theorem fileLen_bare (ps : List Part) : fileLen (ps.map bare) = fileLen ps := by
  simp [fileLen, strStart_bare, strLen_bare]
theorem addrOf_bare (ps : List Part) : addrOf (ps.map bare) = addrOf ps := by
  funext i
  rw [addrOf, addrOf, ← List.map_take, vmLen_bare]
theorem relocs_bare (ps : List Part) : (ps.map bare).flatMap (·.relocs) = ps.flatMap (·.relocs) := by
  simp [List.flatMap_map, bare]
theorem headerOf_bare (ps : List Part) : headerOf (ps.map bare) = headerOf ps := by simp [headerOf]
theorem segmentOf_bare (ps : List Part) : segmentOf (ps.map bare) = segmentOf ps := by
  simp [segmentOf, vmLen_bare, cmdsEnd_bare, dataLen_bare]
theorem symtabOf_bare (ps : List Part) : symtabOf (ps.map bare) = symtabOf ps := by
  simp [symtabOf, symStart_bare, symCount_bare, strStart_bare, strLen_bare]
theorem castSymStart_bare (ps : List Part) : castSymStart (ps.map bare) = castSymStart ps := by
  simp [castSymStart, castData, castSum, cmdsEnd, bare, Function.comp_def]
theorem castData_bare (ps : List Part) : castData (ps.map bare) = castData ps := by
  simp [castData, castSum, bare, Function.comp_def]
theorem castStrStart_bare (ps : List Part) : castStrStart (ps.map bare) = castStrStart ps := by
  simp [castStrStart, castSymStart_bare, castSum, bare, Function.comp_def]

theorem symNames_shape (hs : AlikeObj o o') : symNames o = symNames o' := by
  unfold symNames
  rw [of_bare ObjSpec.placed placed_bare hs]

theorem allRelocs_shape (hs : AlikeObj o o') : allRelocs o = allRelocs o' :=
  of_bare (fun ps : List Part => ps.flatMap (fun p : Part => p.relocs)) relocs_bare hs

theorem relocs_shape (hs : AlikeObj o o') :
    (parts o).flatMap (fun p => p.relocs) = (parts o').flatMap (fun p => p.relocs) := allRelocs_shape hs

theorem AlikeObj.symm (hs : AlikeObj o o') : AlikeObj o' o :=
  ⟨hs.text.symm, hs.data.symm, hs.textSyms.symm, hs.dataSyms.symm, hs.textRels.symm, hs.dataRels.symm, hs.bss.symm⟩

theorem expressible_shape (hs : AlikeObj o o') (hx : Expressible o) : Expressible o' := by
  obtain ⟨h1, h2, h3⟩ := hx
  rw [symNames_shape hs] at h1 h2
  rw [allRelocs_shape hs] at h2 h3
  exact ⟨h1, h2, h3⟩

theorem segmentFits_shape (hs : AlikeObj o o') (hx : SegmentFits o) : SegmentFits o' := by
  obtain ⟨h1, h2⟩ := hx
  rw [of_bare _ vmLen_bare hs] at h1
  rw [of_bare _ castData_bare hs] at h2
  exact ⟨h1, h2⟩

theorem symtabFits_shape (hs : AlikeObj o o') (hx : SymtabFits o) : SymtabFits o' := by
  obtain ⟨h1, h2⟩ := hx
  rw [of_bare _ castStrStart_bare hs] at h1
  rw [symNames_shape hs] at h2
  exact ⟨h1, h2⟩

theorem symbolsFit_shape (hs : AlikeObj o o') (hx : SymbolsFit o) : SymbolsFit o' := by
  obtain ⟨h1, h2⟩ := hx
  rw [symNames_shape hs] at h1
  rw [of_bare ObjSpec.placed placed_bare hs, of_bare addrOf addrOf_bare hs] at h2
  exact ⟨h1, h2⟩

theorem ite_alike {p q : Prop} {_ : Decidable p} {_ : Decidable q} (h : p ↔ q) {a b a' b' : Nat} (ha : a = a') (hb : b = b') :
    (if p then a else b) = if q then a' else b' := by
  by_cases hp : p
  · rw [if_pos hp, if_pos (h.1 hp), ha]
  · rw [if_neg hp, if_neg fun hq => hp (h.2 hq), hb]

theorem checkedLen_shape (hs : AlikeObj o o') : checkedLen o = checkedLen o' := by
  have a1 : SegmentFits o ↔ SegmentFits o' := ⟨segmentFits_shape hs, segmentFits_shape hs.symm⟩
  have a2 : SymtabFits o ↔ SymtabFits o' := ⟨symtabFits_shape hs, symtabFits_shape hs.symm⟩
  have a3 : SymbolsFit o ↔ SymbolsFit o' := ⟨symbolsFit_shape hs, symbolsFit_shape hs.symm⟩
  have a4 : Expressible o ↔ Expressible o' := ⟨expressible_shape hs, expressible_shape hs.symm⟩
  have e5 : (parts o).length = (parts o').length := of_bare _ length_bare hs
  unfold checkedLen
  simp only [of_bare _ castSymStart_bare hs, e5, of_bare _ relocStart_bare hs,
    of_bare _ fileLen_bare hs]
  exact ite_alike (not_congr a1) rfl (ite_alike Iff.rfl rfl (ite_alike (not_congr a2) rfl
    (ite_alike (not_congr (and_congr a4 a3)) rfl rfl)))

/-! ## What is written of them -/

/-- What the header of a section is made of. -/
def refKey (s : SectionRef) :=
  (genSection64 s, (toPart s).vmsize, (toPart s).bytes.length, (toPart s).relocs)

theorem sectionsFrom_same {S S' : List SectionRef} (hs : S.map refKey = S'.map refKey) :
    ∀ vm ds rs, sectionsFrom vm ds rs S = sectionsFrom vm ds rs S' := by
  induction S generalizing S' with
  | nil =>
    cases S' with
    | nil => exact fun _ _ _ => rfl
    | cons a S' => cases hs
  | cons a S ih =>
    cases S' with
    | nil => cases hs
    | cons a' S' =>
      intro vm ds rs
      rw [List.map_cons, List.map_cons] at hs
      injection hs with h1 h2
      unfold refKey at h1
      injection h1 with e1 e2
      injection e2 with e2 e3
      injection e3 with e3 e4
      rw [sectionsFrom, sectionsFrom, e1, e2, e3, e4, ih h2]

theorem iter_same (hs : AlikeObj o o') : o.sections.iter.map refKey = o'.sections.iter.map refKey := by
  have t : refKey (.text o.sections.text) = refKey (.text o'.sections.text) := by
    have hg : genSection64 (.text o.sections.text) = genSection64 (.text o'.sections.text) := by
      funext a d r
      simp only [genSection64, genSection64FromText, hs.text, hs.textRels]
    simp only [refKey, toPart, hs.text, hs.textRels, hg]
  have d : refKey (.data o.sections.data) = refKey (.data o'.sections.data) := by
    have hg : genSection64 (.data o.sections.data) = genSection64 (.data o'.sections.data) := by
      funext a d r
      simp only [genSection64, genSection64FromData, hs.data, hs.dataRels]
    simp only [refKey, toPart, hs.data, hs.dataRels, hg]
  have et : (SectionRef.text o.sections.text).isEmpty = (SectionRef.text o'.sections.text).isEmpty := by
    simp only [SectionRef.isEmpty, SectionRef.vmSize, hs.text]
  have ed : (SectionRef.data o.sections.data).isEmpty = (SectionRef.data o'.sections.data).isEmpty := by
    simp only [SectionRef.isEmpty, SectionRef.vmSize, hs.data]
  unfold Sections.iter
  rw [hs.bss]
  simp only [List.filter_cons, List.filter_nil, et, ed]
  cases (SectionRef.text o'.sections.text).isEmpty <;> cases (SectionRef.data o'.sections.data).isEmpty <;>
    cases (SectionRef.bss o'.sections.bss).isEmpty <;> simp [t, d]

theorem cmdBytes_shape (h : Endian) (hs : AlikeObj o o') :
    cmdBytes h (parts o) o.sections.iter = cmdBytes h (parts o') o'.sections.iter := by
  unfold cmdBytes
  rw [of_bare _ headerOf_bare hs, of_bare _ segmentOf_bare hs, of_bare _ symtabOf_bare hs,
    of_bare _ cmdsEnd_bare hs, of_bare _ relocStart_bare hs, sectionsFrom_same (iter_same hs)]

theorem parts_bytes (o : Object) : (parts o).flatMap (·.bytes) = o.sections.text.bytes ++ o.sections.data.bytes := by
  unfold parts
  by_cases h1 : o.sections.text.bytes = [] <;> by_cases h2 : o.sections.data.bytes = [] <;>
    by_cases h3 : o.sections.bss.size = 0 <;> simp [h1, h2, h3]

/-- The bytes before and after the contents of the sections are the same. -/
theorem release_shape (h : Endian) (hs : AlikeObj o o') (ht : o.sections.text.bytes.length < 2 ^ 64)
    (hd : o.sections.data.bytes.length < 2 ^ 64) :
    (writeInto .release h o).res = (writeInto .release h o').res ∧
    ∃ pre post, pre.length = cmdsEnd (parts o) ∧
      (writeInto .release h o).out = pre ++ (o.sections.text.bytes ++ o.sections.data.bytes) ++ post ∧
      (writeInto .release h o').out = pre ++ (o'.sections.text.bytes ++ o'.sections.data.bytes) ++ post := by
  have ht' : o'.sections.text.bytes.length < 2 ^ 64 := by rw [← hs.text]; exact ht
  have hd' : o'.sections.data.bytes.length < 2 ^ 64 := by rw [← hs.data]; exact hd
  have hp := parts_eq o ht hd
  have hp' := parts_eq o' ht' hd'
  have hl : (parts o).length = o.sections.iter.length := by rw [hp, List.length_map]
  by_cases hx : Expressible o
  · have w := writeInto_writes_rel h hp hx
    have w' := writeInto_writes_rel h hp' (expressible_shape hs hx)
    have he : ∀ names, Obj.entryOf names (parts o) = Obj.entryOf names (parts o') := by
      intro names
      funext p
      unfold Obj.entryOf
      rw [of_bare addrOf addrOf_bare hs]
    refine ⟨by rw [w.res, w'.res], cmdBytes h (parts o) o.sections.iter,
      List.replicate (roundUp8 (dataLen (parts o)) - dataLen (parts o)) 0 ++
      ((((parts o).flatMap (·.relocs)).map (relocEntry ((ObjSpec.placed (parts o)).map (·.2.name)))).flatMap (relocBytes h) ++
      (((ObjSpec.placed (parts o)).map (Obj.entryOf ((ObjSpec.placed (parts o)).map (·.2.name)) (parts o))).flatMap
        (nlistBytes h) ++ (0 :: cstrs ((ObjSpec.placed (parts o)).map (·.2.name))))),
      length_cmdBytes h _ _ hl, ?_, ?_⟩
    · rw [w.out]
      unfold imageMod dataBytes
      rw [parts_bytes]
      simp only [List.append_assoc]
    · rw [w'.out]
      unfold imageMod dataBytes
      rw [parts_bytes, ← cmdBytes_shape h hs, of_bare dataLen dataLen_bare hs,
        of_bare ObjSpec.placed placed_bare hs, relocs_shape hs, he]
      simp only [List.append_assoc]
  · have w := writeInto_panics_rel h hp hx
    have w' := writeInto_panics_rel h hp' (fun hx' => hx (expressible_shape hs.symm hx'))
    refine ⟨by rw [w.1, w'.1], cmdBytes h (parts o) o.sections.iter,
      List.replicate (roundUp8 (dataLen (parts o)) - dataLen (parts o)) 0, length_cmdBytes h _ _ hl, ?_, ?_⟩
    · rw [w.2]
      unfold dataBytes
      rw [parts_bytes]
      simp
    · rw [w'.2]
      unfold dataBytes
      rw [parts_bytes, ← cmdBytes_shape h hs, of_bare dataLen dataLen_bare hs]
      simp

theorem writeInto_shape (bd : Build) (h : Endian) (hs : AlikeObj o o') (ht : o.sections.text.bytes.length < 2 ^ 64)
    (hd : o.sections.data.bytes.length < 2 ^ 64) :
    (writeInto bd h o).res = (writeInto bd h o').res ∧
    ∃ pre post n, pre.length = cmdsEnd (parts o) ∧
      (writeInto bd h o).out = (pre ++ (o.sections.text.bytes ++ o.sections.data.bytes) ++ post).take n ∧
      (writeInto bd h o').out = (pre ++ (o'.sections.text.bytes ++ o'.sections.data.bytes) ++ post).take n := by
  obtain ⟨h1, pre, post, h2, h3, h4⟩ := release_shape h hs ht hd
  have ht' : o'.sections.text.bytes.length < 2 ^ 64 := by rw [← hs.text]; exact ht
  have hd' : o'.sections.data.bytes.length < 2 ^ 64 := by rw [← hs.data]; exact hd
  cases bd with
  | release =>
    refine ⟨h1, pre, post, (pre ++ (o.sections.text.bytes ++ o.sections.data.bytes) ++ post).length, h2, ?_, ?_⟩
    · rw [h3, List.take_length]
    · rw [h4, List.take_of_length_le]
      simp only [List.length_append, hs.text, hs.data]
      exact Nat.le_refl _
  | debug =>
    refine ⟨?_, pre, post, checkedLen o, h2, ?_, ?_⟩
    · obtain ⟨c1, c2⟩ := C82_result h o ht hd
      obtain ⟨c1', c2'⟩ := C82_result h o' ht' hd'
      by_cases hx : SegmentFits o ∧ SymtabFits o ∧ SymbolsFit o ∧ Expressible o
      · rw [c1.2 hx, c1'.2 ⟨segmentFits_shape hs hx.1, symtabFits_shape hs hx.2.1, symbolsFit_shape hs hx.2.2.1,
          expressible_shape hs hx.2.2.2⟩]
      · rw [c2.2 hx, c2'.2 fun hx' => hx ⟨segmentFits_shape hs.symm hx'.1, symtabFits_shape hs.symm hx'.2.1,
          symbolsFit_shape hs.symm hx'.2.2.1, expressible_shape hs.symm hx'.2.2.2⟩]
    · rw [(C82_output h o ht hd).1, h3]
    · rw [(C82_output h o' ht' hd').1, h4, checkedLen_shape hs]

/-! ## Programs that differ only in the bytes of their lines -/

section Programs

variable {ls ls' : List Line}

theorem alike_map {α : Type} (g : Line → α) (hg : ∀ l l', Alike l l' → g l = g l') (ha : OneByOne Alike ls ls') :
    ls.map g = ls'.map g := by
  apply List.ext_getElem?
  intro k
  rw [List.getElem?_map, List.getElem?_map]
  cases h : ls[k]? with
  | none =>
    rw [List.getElem?_eq_none_iff, ha.length, ← List.getElem?_eq_none_iff] at h
    rw [h]
  | some l =>
    have hlt := (List.getElem?_eq_some_iff.1 h).1
    rw [ha.length] at hlt
    have h' := List.getElem?_eq_getElem hlt
    rw [h']
    exact congrArg some (hg _ _ (ha.each k _ _ h h'))

theorem alike_get (ha : OneByOne Alike ls ls') (k : Nat) :
    (ls[k]? = none ∧ ls'[k]? = none) ∨ ∃ l l', ls[k]? = some l ∧ ls'[k]? = some l' ∧ Alike l l' := by
  by_cases hlt : k < ls.length
  · have h := List.getElem?_eq_getElem hlt
    have h' := List.getElem?_eq_getElem (ha.length ▸ hlt)
    exact .inr ⟨_, _, h, h', ha.each k _ _ h h'⟩
  · have hl := ha.length
    exact .inl ⟨List.getElem?_eq_none_iff.2 (by omega), List.getElem?_eq_none_iff.2 (by omega)⟩

theorem sectAt_alike (ha : OneByOne Alike ls ls') (k : Nat) : sectAt ls k = sectAt ls' k := by
  have h := alike_map switches (fun _ _ h => h.switches) ha
  have e : ∀ l : List Line, (l.take k).filterMap switches = ((l.map switches).take k).filterMap id := by
    intro l
    rw [← List.map_take, List.filterMap_map]
    rfl
  unfold sectAt
  rw [e, e, h]

theorem emitsAt_alike (ha : OneByOne Alike ls ls') (x : Section) (k : Nat) :
    (emitsAt ls x k).length = (emitsAt ls' x k).length := by
  unfold emitsAt
  rcases alike_get ha k with ⟨h, h'⟩ | ⟨l, l', h, h', hl⟩ <;> rw [h, h']
  simp only
  rw [sectAt_alike ha k]
  split
  · exact hl.size
  · rfl

theorem content_alike (ha : OneByOne Alike ls ls') (x : Section) (k : Nat) :
    (content ls x k).length = (content ls' x k).length := by
  induction k with
  | zero => rfl
  | succ k ih => rw [content_succ, content_succ, List.length_append, List.length_append, ih, emitsAt_alike ha]

theorem stored_alike (ha : OneByOne Alike ls ls') : stored ls = stored ls' := by
  unfold stored
  congr 1
  funext x
  rw [← ha.length]
  have := content_alike ha x ls.length
  refine decide_eq_decide.2 (not_congr ?_)
  rw [← List.length_eq_zero_iff, ← List.length_eq_zero_iff, this]

theorem labels_alike (ha : OneByOne Alike ls ls') (x : Section) : labels ls x = labels ls' x := by
  unfold labels
  rw [ha.length]
  congr 1
  funext k
  unfold labelAt
  rw [sectAt_alike ha, content_alike ha]
  rcases alike_get ha k with ⟨h, h'⟩ | ⟨l, l', h, h', hl⟩ <;> rw [h, h']
  simp only
  rw [hl.defines]

theorem relocations_alike (ha : OneByOne Alike ls ls') (x : Section) : relocations ls x = relocations ls' x := by
  unfold relocations
  rw [ha.length]
  congr 1
  funext k
  unfold relocAt
  rw [sectAt_alike ha, content_alike ha]
  rcases alike_get ha k with ⟨h, h'⟩ | ⟨l, l', h, h', hl⟩ <;> rw [h, h']
  simp only
  rw [hl.relocates]

theorem global_alike (ha : OneByOne Alike ls ls') (n : Str) : Global ls n ↔ Global ls' n := by
  unfold Global
  rw [List.mem_iff_getElem?, List.mem_iff_getElem?]
  refine exists_congr fun k => ?_
  rcases alike_get ha k with ⟨h, h'⟩ | ⟨l, l', h, h', hl⟩ <;> rw [h, h']
  simpa using hl.global n

theorem noBss_alike (ha : OneByOne Alike ls ls') (hb : NoBssContent ls) : NoBssContent ls' := by
  intro k l' hk hs hst
  rw [← sectAt_alike ha] at hs
  rcases alike_get ha k with ⟨_, h'⟩ | ⟨l, m, h, h', hl⟩
  · rw [h'] at hk; cases hk
  · rw [h'] at hk
    cases hk
    exact hb k l h hs (hl.stores.2 hst)

theorem within_alike {bd : Build} (ha : OneByOne Alike ls ls') (hw : Within bd ls) : Within bd ls' :=
  ⟨fun hd => ha.length ▸ hw.lines hd, fun hd x p hp => hw.relocs hd x p (by rw [relocations_alike ha]; exact hp)⟩

theorem object_alike (ha : OneByOne Alike ls ls') (hb : NoBssContent ls) :
    AlikeObj (objectOf ls) (objectOf ls') := by
  have o1 := objOf_objectOf ls hb
  have o2 := objOf_objectOf ls' (noBss_alike ha hb)
  have hbytes : ∀ x, (bytesOf (objectOf ls) x).length = (bytesOf (objectOf ls') x).length := by
    intro x
    rw [o1.bytes, o2.bytes, ← ha.length, content_alike ha]
  have hsyms : ∀ x, symbolsOf (objectOf ls) x = symbolsOf (objectOf ls') x := by
    intro x
    rw [o1.symbols, o2.symbols]
    unfold finalSyms
    rw [labels_alike ha]
    congr 1
    funext p
    rw [decide_eq_decide.2 (global_alike ha p.1)]
  have hrels : ∀ x, relocsOf (objectOf ls) x = relocsOf (objectOf ls') x := by
    intro x
    rw [o1.relocs, o2.relocs]
    unfold relsOf
    rw [relocations_alike ha]
  refine ⟨hbytes .text, hbytes .data, hsyms .text, hsyms .data, hrels .text, hrels .data, ?_⟩
  have e1 : (objectOf ls).sections.bss = ⟨(objectOf ls).sections.bss.size, symbolsOf (objectOf ls) .bss⟩ := rfl
  have e2 : (objectOf ls').sections.bss = ⟨(objectOf ls').sections.bss.size, symbolsOf (objectOf ls') .bss⟩ := rfl
  rw [e1, e2, o1.bss, o2.bss, hsyms]

/-- Every byte of a section comes from a line. -/
theorem content_cover (ls : List Line) (x : Section) (n j : Nat) (hj : j < (content ls x n).length) :
    ∃ k l i, ls[k]? = some l ∧ sectAt ls k = x ∧ i < (emits l).length ∧ j = (content ls x k).length + i := by
  induction n with
  | zero => simp [content] at hj
  | succ n ih =>
    rw [content_succ, List.length_append] at hj
    by_cases h : j < (content ls x n).length
    · exact ih h
    · have h1 : j - (content ls x n).length < (emitsAt ls x n).length := by omega
      unfold emitsAt at h1
      split at h1
      · rename_i l hl
        split at h1
        · rename_i hs
          exact ⟨n, l, _, hl, hs, h1, by omega⟩
        · simp at h1
      · simp at h1

/-- Where in the contents of both sections a line has its bytes. -/
theorem content_at (hb : NoBssContent ls) {k : Nat} {l : Line} (hk : ls[k]? = some l) {i : Nat} (hi : i < (emits l).length) :
    (content ls .text ls.length ++ content ls .data ls.length)[
      (if sectAt ls k = .data then (content ls .text ls.length).length else 0) +
        (content ls (sectAt ls k) k).length + i]? = (emits l)[i]? := by
  obtain ⟨r, hr⟩ := content_split ls (sectAt ls k) k l hk rfl
  cases hs : sectAt ls k with
  | text =>
    rw [hs] at hr
    rw [if_neg (by decide), hr, List.append_assoc, List.append_assoc, Nat.zero_add,
      List.getElem?_append_right (by omega), List.getElem?_append_left (by omega)]
    congr 1
    omega
  | data =>
    rw [hs] at hr
    rw [if_pos rfl, List.getElem?_append_right (by omega), hr, List.append_assoc,
      List.getElem?_append_right (by omega), List.getElem?_append_left (by omega)]
    congr 1
    omega
  | bss =>
    have := hb k l hk hs
    cases l <;> simp [Stores, emits] at this hi

end Programs

/-! ## C104 -/

theorem get_mid {pre mid post : Bytes} {p j : Nat} (hp : p = pre.length + j) (hj : j < mid.length) :
    (pre ++ mid ++ post)[p]? = mid[j]? := by
  rw [List.append_assoc, List.getElem?_append_right (by omega), List.getElem?_append_left (by omega)]
  congr 1
  omega

theorem get_off {pre mid mid' post : Bytes} (hl : mid.length = mid'.length) {p : Nat}
    (hp : ¬ (pre.length ≤ p ∧ p < pre.length + mid.length)) :
    (pre ++ mid ++ post)[p]? = (pre ++ mid' ++ post)[p]? := by
  by_cases h : p < pre.length
  · rw [List.append_assoc, List.append_assoc, List.getElem?_append_left h, List.getElem?_append_left h]
  · have h1 : (pre ++ mid).length ≤ p := by rw [List.length_append]; omega
    have h2 : (pre ++ mid').length ≤ p := by rw [List.length_append]; omega
    rw [List.getElem?_append_right h1, List.getElem?_append_right h2, List.length_append, List.length_append, hl]

/-- C104: let two sources differ line by line at most in the bytes the lines emit, not in their number.
Then both runs end in the same way, the two files have the same length, every line has its bytes at the
same place in both files, and all bytes that come from no line are the same in both. -/
theorem C104_local (bd : Build) (h : Endian) (c : Bytes → List Bytes) (hc : Splits c) (fs fs' : FS) (args : List Str)
    (inp out : Str) (src src' : Bytes) (ls ls' : List Line) (ha : Asks args inp out) (hs : Source fs inp out src)
    (hs' : Source fs' inp out src') (hsize : src.length < 2 ^ 60) (hp : Program bd src ls) (hp' : Program bd src' ls')
    (hb : NoBssContent ls) (hw : Within bd ls) (hl : OneByOne Alike ls ls') :
    (main bd h c fs args).2 = (main bd h c fs' args).2 ∧
    ∃ f f', (main bd h c fs args).1.content (fs.node out) = some f ∧
      (main bd h c fs' args).1.content (fs'.node out) = some f' ∧ f.length = f'.length ∧
      (∀ k l l' i, ls[k]? = some l → ls'[k]? = some l' → i < (emits l).length → placeOf ls k + i < f.length →
        f[placeOf ls k + i]? = (emits l)[i]? ∧ f'[placeOf ls k + i]? = (emits l')[i]?) ∧
      (∀ p, (∀ k l i, ls[k]? = some l → i < (emits l).length → p ≠ placeOf ls k + i) → f[p]? = f'[p]?) := by
  have hb' := noBss_alike hl hb
  obtain ⟨t1, d1⟩ := wrap_conditions hp hsize
  obtain ⟨hres, pre, post, n, hpre, hf, hf'⟩ := writeInto_shape bd h (object_alike hl hb) t1 d1
  have run : ∀ (fs : FS) (src : Bytes) (ls : List Line), Source fs inp out src → Program bd src ls → NoBssContent ls →
      Within bd ls → (main bd h c fs args).2 = (Obj.writeInto bd h (objectOf ls)).res ∧
        (main bd h c fs args).1.content (fs.node out) = some (Obj.writeInto bd h (objectOf ls)).out := by
    intro fs src ls hs hp hb hw
    rcases main_source bd h c fs args ((asks_iff ..).1 ha) with ⟨src', hs', hm⟩ | ⟨hno, -⟩
    · rw [source_unique hs' hs, written_program bd h c hc hp hb hw] at hm
      rw [hm]
      exact ⟨rfl, by simp [FS.set]⟩
    · exact absurd hs (hno _)
  obtain ⟨r1, r2⟩ := run fs src ls hs hp hb hw
  obtain ⟨r1', r2'⟩ := run fs' src' ls' hs' hp' hb' (within_alike hl hw)
  have e1 : (objectOf ls).sections.text.bytes ++ (objectOf ls).sections.data.bytes =
      content ls .text ls.length ++ content ls .data ls.length := rfl
  have e1' : (objectOf ls').sections.text.bytes ++ (objectOf ls').sections.data.bytes =
      content ls' .text ls'.length ++ content ls' .data ls'.length := rfl
  rw [e1] at hf
  rw [e1'] at hf'
  have hlen : (content ls .text ls.length ++ content ls .data ls.length).length =
      (content ls' .text ls'.length ++ content ls' .data ls'.length).length := by
    rw [List.length_append, List.length_append, ← hl.length, content_alike hl, content_alike hl]
  have hpre2 : pre.length = 128 + 80 * (stored ls).length := by
    rw [hpre, cmdsEnd, (objOf_objectOf ls hb).partsEq, List.length_map]
    omega
  have place : ∀ k, placeOf ls' k = placeOf ls k := by
    intro k
    unfold placeOf
    rw [stored_alike hl, ← hl.length, sectAt_alike hl, content_alike hl, content_alike hl]
  have inMid : ∀ k l i, ls[k]? = some l → i < (emits l).length →
      (if sectAt ls k = .data then (content ls .text ls.length).length else 0) +
        (content ls (sectAt ls k) k).length + i < (content ls .text ls.length ++ content ls .data ls.length).length := by
    intro k l i hk hi
    have := content_at hb hk hi
    rw [List.getElem?_eq_getElem hi] at this
    exact (List.getElem?_eq_some_iff.1 this).1
  refine ⟨by rw [r1, r1', hres], _, _, r2, r2', ?_, ?_, ?_⟩
  · have e : ∀ m : Bytes, ((pre ++ m ++ post).take n).length = min n (pre.length + m.length + post.length) := by
      intro m
      rw [List.length_take, List.length_append, List.length_append]
    rw [hf, hf', e, e, hlen]
  · intro k l l' i hk hk' hi hpl
    have hal := hl.each k l l' hk hk'
    have hn : placeOf ls k + i < n := by
      rw [hf, List.length_take] at hpl
      omega
    have hi' : i < (emits l').length := by rw [← hal.size]; exact hi
    have m := inMid k l i hk hi
    rw [hf, hf', List.getElem?_take_of_lt hn, List.getElem?_take_of_lt hn]
    constructor
    · rw [get_mid (j := _) (by unfold placeOf; rw [hpre2]; simp only [Nat.add_assoc]; rfl) (by simpa only [Nat.add_assoc] using m)]
      rw [← content_at hb hk hi]
      simp only [Nat.add_assoc]
    · rw [get_mid (j := (if sectAt ls k = .data then (content ls .text ls.length).length else 0) +
        (content ls (sectAt ls k) k).length + i) (by unfold placeOf; omega) (by rw [← hlen]; exact m),
        ← content_at hb' hk' hi', ← sectAt_alike hl, ← content_alike hl, ← hl.length, ← content_alike hl]
  · intro p hno
    rw [hf, hf']
    by_cases hn : p < n
    · rw [List.getElem?_take_of_lt hn, List.getElem?_take_of_lt hn]
      refine get_off hlen fun ⟨h1, h2⟩ => ?_
      rw [List.length_append] at h2
      by_cases ht : p - pre.length < (content ls .text ls.length).length
      · obtain ⟨k, l, i, hk, hsx, hi, he⟩ := content_cover ls .text _ _ ht
        refine hno k l i hk hi ?_
        unfold placeOf
        rw [hsx, if_neg (by decide)]
        omega
      · obtain ⟨k, l, i, hk, hsx, hi, he⟩ := content_cover ls .data ls.length
          (p - pre.length - (content ls .text ls.length).length) (by omega)
        refine hno k l i hk hi ?_
        unfold placeOf
        rw [hsx, if_pos rfl]
        omega
    · rw [List.getElem?_eq_none (by rw [List.length_take]; omega), List.getElem?_eq_none (by rw [List.length_take]; omega)]

/-- What is written of an object without failure is as long as its file. -/
theorem written_full (bd : Build) (h : Endian) (o : Object) (ht : o.sections.text.bytes.length < 2 ^ 64)
    (hd : o.sections.data.bytes.length < 2 ^ 64) (hok : (writeInto bd h o).res = .ok ()) :
    (writeInto bd h o).out.length = fileLen (parts o) := by
  cases bd with
  | release =>
    obtain ⟨r1, -, r3⟩ := C78_release h o ht hd
    exact ((r3 (r1.1 hok) _).2 rfl).length
  | debug =>
    obtain ⟨h1, h2, h3, h4⟩ := (C82_result h o ht hd).1.1 hok
    have h5 : castSymStart (parts o) < 2 ^ 32 := by
      have := h2.file
      unfold castStrStart at this
      omega
    rw [(C82_output h o ht hd).2]
    unfold checkedLen
    rw [if_neg (fun k => k h1), if_neg (fun k => k h5), if_neg (fun k => k h2), if_neg (fun k => k ⟨h4, h3⟩)]

/-- C104, runs that succeed: the two files differ exactly at the places of the bytes in which the lines
differ. -/
theorem C104_differs (bd : Build) (h : Endian) (c : Bytes → List Bytes) (hc : Splits c) (fs fs' : FS) (args : List Str)
    (inp out : Str) (src src' : Bytes) (ls ls' : List Line) (ha : Asks args inp out) (hs : Source fs inp out src)
    (hs' : Source fs' inp out src') (hsize : src.length < 2 ^ 60) (hp : Program bd src ls) (hp' : Program bd src' ls')
    (hl : OneByOne Alike ls ls') (hok : (main bd h c fs args).2 = .ok ()) :
    (main bd h c fs' args).2 = .ok () ∧
    ∃ f f', (main bd h c fs args).1.content (fs.node out) = some f ∧
      (main bd h c fs' args).1.content (fs'.node out) = some f' ∧ f.length = f'.length ∧
      ∀ p, f[p]? ≠ f'[p]? ↔ ∃ k l l' i, ls[k]? = some l ∧ ls'[k]? = some l' ∧ i < (emits l).length ∧
        (emits l)[i]? ≠ (emits l')[i]? ∧ p = placeOf ls k + i := by
  have hm : main bd h c fs args = (fs.set (fs.node out) (written bd h (c src)).1, (written bd h (c src)).2) := by
    rcases main_source bd h c fs args ((asks_iff ..).1 ha) with ⟨src', hs', hm⟩ | ⟨hno, -⟩
    · rw [source_unique hs' hs] at hm
      exact hm
    · exact absurd hs (hno _)
  obtain ⟨hb, hw, hwr⟩ : NoBssContent ls ∧ Within bd ls ∧ written bd h (c src) =
      ((Obj.writeInto bd h (objectOf ls)).out, (Obj.writeInto bd h (objectOf ls)).res) := by
    rcases written_kinds bd h c hc src with ⟨e, -, hwr⟩ | ⟨ls₁, hp₁, hb, hw, hwr⟩
    · rw [hm, hwr] at hok
      cases hok
    · cases Program.det hp hp₁
      exact ⟨hb, hw, hwr⟩
  obtain ⟨h1, f, f', h2, h3, h4, h5, h6⟩ := C104_local bd h c hc fs fs' args inp out src src' ls ls' ha hs hs' hsize hp hp' hb hw hl
  refine ⟨by rw [← h1, hok], f, f', h2, h3, h4, fun p => ⟨fun hne => ?_, ?_⟩⟩
  · apply Classical.byContradiction
    intro hno
    refine hne (h6 p fun k l i hk hi he => ?_)
    obtain ⟨l', hk'⟩ : ∃ l', ls'[k]? = some l' := by
      rcases alike_get hl k with ⟨h, -⟩ | ⟨_, l', -, h, -⟩
      · rw [h] at hk; cases hk
      · exact ⟨l', h⟩
    have hlt : p < f.length := by
      apply Classical.byContradiction
      intro hge
      exact hne (by rw [List.getElem?_eq_none (by omega), List.getElem?_eq_none (by omega)])
    obtain ⟨g1, g2⟩ := h5 k l l' i hk hk' hi (he ▸ hlt)
    exact hno ⟨k, l, l', i, hk, hk', hi, by rw [← g1, ← g2, ← he]; exact hne, he⟩
  · rintro ⟨k, l, l', i, hk, hk', hi, hne, rfl⟩
    have hlt : placeOf ls k + i < f.length := by
      obtain ⟨w1, w2⟩ := wrap_conditions hp hsize
      have hf : f = (Obj.writeInto bd h (objectOf ls)).out := by
        rw [hm, hwr] at h2
        simpa [FS.set] using h2.symm
      have hres : (Obj.writeInto bd h (objectOf ls)).res = .ok () := by
        rw [hm, hwr] at hok
        exact hok
      rw [hf, written_full bd h _ w1 w2 hres]
      have g1 : dataLen (parts (objectOf ls)) = (content ls .text ls.length ++ content ls .data ls.length).length := by
        have : dataLen (parts (objectOf ls)) = ((parts (objectOf ls)).flatMap (·.bytes)).length := by
          rw [List.length_flatMap]; rfl
        rw [this, parts_bytes]
        rfl
      have g2 := content_at hb hk hi
      rw [List.getElem?_eq_getElem hi] at g2
      have g3 := (List.getElem?_eq_some_iff.1 g2).1
      have g4 : (parts (objectOf ls)).length = (stored ls).length := by
        rw [(objOf_objectOf ls hb).partsEq, List.length_map]
      have g5 : dataLen (parts (objectOf ls)) ≤ roundUp8 (dataLen (parts (objectOf ls))) := by unfold roundUp8; omega
      rw [← g1] at g3
      unfold placeOf fileLen strStart symStart relocStart cmdsEnd
      rw [g4]
      omega
    obtain ⟨g1, g2⟩ := h5 k l l' i hk hk' hi hlt
    rw [g1, g2]
    exact hne

/-- Two versions of a source: the second line differs, and so does the last. -/
def oldSrc : Bytes := utf8 (str% "m:\nmov rax, 1\nret\nsection .data\nx db 1, 2")
def newSrc : Bytes := utf8 (str% "m:\nmov rax, 7 ; more\nret\nsection .data\nx db 1, 3")

def srcFs (src : Bytes) : FS := {
  node := fun p => if p = str% "a.s" then 0 else 1
  content := fun n => if n = 0 then some src else none
  canRead := fun _ => true
  canWrite := fun _ => true }

def oldLines : List Line := [.symbol (str% "m"), .instruction (assembled (.plain (.movReg64Imm .RAX 1))),
  .instruction (assembled (.plain .ret)), .sect .data, .data ⟨some (str% "x"), [1, 2]⟩]
def newLines : List Line := [.symbol (str% "m"), .instruction (assembled (.plain (.movReg64Imm .RAX 7))),
  .instruction (assembled (.plain .ret)), .sect .data, .data ⟨some (str% "x"), [1, 3]⟩]

theorem oldLines_program (bd : Build) : Program bd oldSrc oldLines ∧ Program bd newSrc newLines := by
  constructor
  · exact program_iff.2 ⟨[str% "m:\n", str% "mov rax, 1\n", str% "ret\n", str% "section .data\n", str% "x db 1, 2"],
      ⟨by decide +kernel, by decide +kernel, by decide +kernel, by decide +kernel⟩, by cases bd <;> decide +kernel⟩
  · exact program_iff.2 ⟨[str% "m:\n", str% "mov rax, 7 ; more\n", str% "ret\n", str% "section .data\n", str% "x db 1, 3"],
      ⟨by decide +kernel, by decide +kernel, by decide +kernel, by decide +kernel⟩, by cases bd <;> decide +kernel⟩

theorem oldLines_alike : OneByOne Alike oldLines newLines := by
  refine ⟨rfl, fun p a b ha hb => ?_⟩
  match p with
  | 0 | 1 | 2 | 3 | 4 =>
    cases ha
    cases hb
    exact ⟨by decide +kernel, rfl, rfl, rfl, fun n => by simp, Iff.rfl⟩
  | p + 5 => simp [oldLines] at ha

/-- The file that a release build makes of a source. -/
def madeOf (src : Bytes) : Bytes := ((main .release .little (fun b => if b = [] then [] else [b]) (srcFs src)
  [str% "as", str% "a.s"]).1.content 1).getD []

/-- C104 applies to them: the files are 341 bytes long and differ at the bytes 290 and 300. -/
example (bd : Build) : Source (srcFs oldSrc) (str% "a.s") (str% "a.o") oldSrc ∧
    Source (srcFs newSrc) (str% "a.s") (str% "a.o") newSrc ∧
    Program bd oldSrc oldLines ∧ Program bd newSrc newLines ∧ OneByOne Alike oldLines newLines ∧
    (main .release .little (fun b => if b = [] then [] else [b]) (srcFs oldSrc) [str% "as", str% "a.s"]).2 = .ok () ∧
    placeOf oldLines 1 + 2 = 290 ∧ placeOf oldLines 4 + 1 = 300 ∧
    (madeOf oldSrc).length = 341 ∧ (List.range 341).filter (fun p => (madeOf oldSrc)[p]? ≠ (madeOf newSrc)[p]?) = [290, 300] :=
  ⟨⟨rfl, rfl, oldSrc, by decide, .inr ⟨by decide, rfl⟩⟩, ⟨rfl, rfl, newSrc, by decide, .inr ⟨by decide, rfl⟩⟩,
    (oldLines_program bd).1, (oldLines_program bd).2, oldLines_alike, by decide +kernel, by decide +kernel,
    by decide +kernel, by decide +kernel, by decide +kernel⟩

end AT.Props
