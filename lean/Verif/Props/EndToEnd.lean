import Verif.Proofs.Link
import Verif.Props.Obj
import Verif.Props.Main
/-!
# From the source to the linked program (C53, C54)
-/

namespace AT.Props
open AT.Asm AT.AsmSpec AT.X64 AT.Obj AT.Mac AT.MachO AT.ObjSpec
open X86 (num64 num32 PushFits)

/-! ## The object of a program -/

/-- Segment name of a section. -/
def segName : Section → Str
  | .text => str% "__TEXT"
  | _ => str% "__DATA"

/-- The part of the file for section `x`. -/
def partOf (ls : List Line) (x : Section) : Part :=
  ⟨fileName x, segName x, content ls x ls.length, (content ls x ls.length).length, false, finalSyms ls x,
    relsOf ls x⟩

/-- `o` is the object of the program `ls`. -/
structure ObjOf (ls : List Line) (o : Object) : Prop where
  bytes : ∀ x, bytesOf o x = content ls x ls.length
  symbols : ∀ x, symbolsOf o x = finalSyms ls x
  relocs : ∀ x, relocsOf o x = relsOf ls x
  bss : o.sections.bss.size = 0

theorem ObjOf.partsEq {ls : List Line} {o : Object} (h : ObjOf ls o) : ObjSpec.parts o = (stored ls).map (partOf ls) := by
  have b1 : o.sections.text.bytes = content ls .text ls.length := h.bytes .text
  have b2 : o.sections.data.bytes = content ls .data ls.length := h.bytes .data
  have s1 : o.sections.text.symbols = finalSyms ls .text := h.symbols .text
  have s2 : o.sections.data.symbols = finalSyms ls .data := h.symbols .data
  have r1 : o.sections.text.relocs = relsOf ls .text := h.relocs .text
  have r2 : o.sections.data.relocs = relsOf ls .data := h.relocs .data
  unfold ObjSpec.parts stored
  rw [b1, b2, s1, s2, r1, r2, h.bss]
  by_cases e1 : content ls .text ls.length = [] <;> by_cases e2 : content ls .data ls.length = [] <;>
    simp [e1, e2, partOf, fileName, segName]

/-- The four possibilities. -/
theorem stored_cases (ls : List Line) :
    stored ls = [] ∨ stored ls = [.text] ∨ stored ls = [.data] ∨ stored ls = [.text, .data] := by
  unfold stored
  by_cases e1 : content ls .text ls.length = [] <;> by_cases e2 : content ls .data ls.length = [] <;>
    simp [e1, e2]

/-- The symbol of a definition. -/
def symOf (ls : List Line) (e : Def) : Symbol := .ref e.name (UInt64.ofNat e.off) (decide (Global ls e.name))

theorem ObjOf.placedEq {ls : List Line} {o : Object} (h : ObjOf ls o) :
    ObjSpec.placed (ObjSpec.parts o) = (table ls).map (fun e => ((stored ls).idxOf e.sect, symOf ls e)) := by
  rw [h.partsEq]
  unfold ObjSpec.placed table
  rcases stored_cases ls with e | e | e | e <;> rw [e] <;>
    simp [partOf, finalSyms, symOf, Function.comp_def]
  intro _ _ _
  decide

theorem mem_labels_le {ls : List Line} {x : Section} {p : Str × Nat} (h : p ∈ labels ls x) :
    p.2 ≤ (content ls x ls.length).length := by
  unfold labels at h
  rw [List.mem_filterMap] at h
  obtain ⟨k, hk, hl⟩ := h
  rw [List.mem_range] at hk
  unfold labelAt at hl
  cases hls : ls[k]? with
  | none => rw [hls] at hl; simp at hl
  | some l =>
    rw [hls] at hl
    simp only at hl
    split at hl
    · cases hd : defines l with
      | none => rw [hd] at hl; simp at hl
      | some m =>
        rw [hd] at hl
        simp only [Option.map_some, Option.some.injEq] at hl
        rw [← hl]
        obtain ⟨r, hr⟩ := content_mono ls x k (ls.length - k)
        rw [show k + (ls.length - k) = ls.length by omega] at hr
        rw [hr, List.length_append]
        exact Nat.le_add_right _ _
    · simp at hl

theorem mem_table {ls : List Line} {e : Def} (h : e ∈ table ls) :
    e.sect ∈ stored ls ∧ (e.name, e.off) ∈ labels ls e.sect := by
  unfold table at h
  rw [List.mem_flatMap] at h
  obtain ⟨x, hx, he⟩ := h
  rw [List.mem_map] at he
  obtain ⟨p, hp, rfl⟩ := he
  exact ⟨hx, hp⟩

theorem sum_stored {ls : List Line} (f : Section → Nat) :
    ((stored ls).map f).sum ≤ f .text + f .data := by
  rcases stored_cases ls with e | e | e | e <;> rw [e] <;> simp

theorem off_le {ls : List Line} {e : Def} (h : e ∈ table ls) : e.off ≤ (content ls .text ls.length).length +
    (content ls .data ls.length).length := by
  obtain ⟨h1, h2⟩ := mem_table h
  have := mem_labels_le h2
  simp only at this
  rcases stored_cases ls with e' | e' | e' | e' <;> rw [e'] at h1 <;> simp at h1
  · rw [h1] at this; omega
  · rw [h1] at this; omega
  · rcases h1 with h1 | h1 <;> rw [h1] at this <;> omega

theorem ObjOf.fits {ls : List Line} {o : Object} (h : ObjOf ls o)
    (hsz : 300 + (content ls .text ls.length).length + (content ls .data ls.length).length +
      8 * ((relocations ls .text).length + (relocations ls .data).length) +
      ((table ls).map (fun e => 17 + utf8Len e.name)).sum < 2 ^ 32) : Fits o := by
  have hlen : (ObjSpec.parts o).length ≤ 2 := by
    rw [h.partsEq, List.length_map]
    rcases stored_cases ls with e | e | e | e <;> rw [e] <;> simp
  have hdata : dataLen (ObjSpec.parts o) ≤ (content ls .text ls.length).length + (content ls .data ls.length).length := by
    unfold dataLen
    rw [h.partsEq, List.map_map]
    exact sum_stored _
  have hvm : ∀ n, vmLen ((ObjSpec.parts o).take n) ≤ (content ls .text ls.length).length + (content ls .data ls.length).length := by
    intro n
    refine Nat.le_trans ?_ hdata
    unfold vmLen dataLen
    rw [h.partsEq, ← List.map_take, List.map_map, List.map_map]
    have : ∀ (l : List Section) (n : Nat) (f : Section → Nat), ((l.take n).map f).sum ≤ (l.map f).sum := by
      intro l n f
      conv => rhs; rw [← List.take_append_drop n l, List.map_append, List.sum_append]
      omega
    exact this _ n (fun x => (content ls x ls.length).length)
  have hrel : relocCount (ObjSpec.parts o) ≤ (relocations ls .text).length + (relocations ls .data).length := by
    unfold relocCount
    rw [h.partsEq, List.map_map]
    have := sum_stored (ls := ls) (fun x => (relsOf ls x).length)
    simp only [relsOf, List.length_map] at this
    simpa [partOf, relsOf, Function.comp_def] using this
  have hsym : symCount (ObjSpec.parts o) = (table ls).length := by
    rw [← length_placed, h.placedEq, List.length_map]
  have hstr : strLen (ObjSpec.parts o) = 1 + ((table ls).map (fun e => utf8Len e.name + 1)).sum := by
    unfold strLen table
    rw [h.partsEq, List.map_map]
    rcases stored_cases ls with e | e | e | e <;> rw [e] <;>
      simp [partOf, finalSyms, Function.comp_def, Symbol.name]
  have hsum : ((table ls).map (fun e => 17 + utf8Len e.name)).sum =
      16 * (table ls).length + ((table ls).map (fun e => utf8Len e.name + 1)).sum := by
    generalize table ls = l
    induction l with
    | nil => rfl
    | cons e l ih => simp only [List.map_cons, List.sum_cons, List.length_cons, ih]; omega
  refine ⟨?_, ?_, ?_, ?_⟩
  · unfold strStart symStart relocStart cmdsEnd roundUp8
    omega
  · omega
  · have := hvm (ObjSpec.parts o).length
    rw [List.take_length] at this
    omega
  · intro i name addr ext hm
    rw [h.placedEq, List.mem_map] at hm
    obtain ⟨e, he, heq⟩ := hm
    simp only [symOf, Prod.mk.injEq, Symbol.ref.injEq] at heq
    obtain ⟨_, _, rfl, _⟩ := heq
    have h1 := hvm i
    have h2 := off_le he
    unfold addrOf
    rw [UInt64.toNat_ofNat', Nat.mod_eq_of_lt (by omega)]
    omega

theorem ObjOf.names {ls : List Line} {o : Object} (h : ObjOf ls o) : symNames o = (table ls).map (·.name) := by
  unfold symNames
  rw [h.placedEq, List.map_map]
  rfl

theorem ObjOf.nulFree {ls : List Line} {o : Object} (h : ObjOf ls o) (ok : Acceptable ls) : NulFree o := by
  intro n hn c hc
  rw [h.names, List.mem_map] at hn
  obtain ⟨e, he, rfl⟩ := hn
  have := ok.ascii e he c hc
  omega

theorem ObjOf.relocFrom {ls : List Line} {o : Object} (h : ObjOf ls o) {r : Reloc} (hr : r ∈ ObjSpec.allRelocs o) :
    ∃ x p, p ∈ relocations ls x ∧ r = ⟨Int32.ofNat p.1, p.2.symbol, p.2.pcrel, p.2.len⟩ := by
  unfold ObjSpec.allRelocs at hr
  rw [h.partsEq, List.mem_flatMap] at hr
  obtain ⟨q, hq, hr⟩ := hr
  rw [List.mem_map] at hq
  obtain ⟨x, _, rfl⟩ := hq
  simp only [partOf, relsOf, List.mem_map] at hr
  obtain ⟨p, hp, rfl⟩ := hr
  exact ⟨x, p, hp, rfl⟩

theorem reloc_ok {ls : List Line} (h : RelocsOk ls) {x : Section} {p : Nat × LocalReloc}
    (hp : p ∈ relocations ls x) : p.2.pcrel = false ∧ p.2.len.toNat ≤ 3 := by
  unfold relocations at hp
  rw [List.mem_filterMap] at hp
  obtain ⟨k, _, hk⟩ := hp
  obtain ⟨i, hi, hrel, _, _⟩ := relocAt_some (off := p.1) (lr := p.2) hk
  exact (h k i hi _ hrel).2

theorem ObjOf.writable {ls : List Line} {o : Object} (h : ObjOf ls o) (ok : Acceptable ls) (hr : RelocsOk ls) :
    Writable o := by
  refine ⟨?_, ?_, ?_⟩
  · intro n hn c hc
    rw [h.names, List.mem_map] at hn
    obtain ⟨e, he, rfl⟩ := hn
    exact (ok.ascii e he c hc).2
  · intro r hm
    obtain ⟨x, p, hp, rfl⟩ := h.relocFrom hm
    rw [seen_names (h.nulFree ok), h.names]
    obtain ⟨e, he, hn⟩ := ok.defined x p hp
    exact List.mem_map.2 ⟨e, he, hn⟩
  · intro r hm
    obtain ⟨x, p, hp, rfl⟩ := h.relocFrom hm
    exact (reloc_ok hr hp).2

/-- Every acceptable program is assembled into its object. -/
theorem assembles {bd : Build} {chunks : List Bytes} {ss : List Str} {ls : List Line} (hne : ∀ c ∈ chunks, c ≠ [])
    (hc : Cut chunks.flatten (ss.map utf8)) (hp : ReadsAll bd ss ls) (ok : Acceptable ls) :
    ∃ a, Assembler.new.readFrom bd chunks = .ok a ∧ ObjOf ls a.obj := by
  obtain ⟨a, ha⟩ := C45_succeeds bd chunks ls hne ⟨ss, hc, hp⟩ (ok.small.within bd) ok.noBss
  obtain ⟨ss', ls', h1, h2, _, h4, h5, h6, h7⟩ := readFrom_new hne ha
  cases utf8_map_inj (Cut.det h1 hc)
  cases parses_det h2 hp
  exact ⟨a, ha, h4, h5, h6, h7⟩

/-! ## The file of a program -/

/-- Entries of the symbol table. -/
def symbolEntries (h : Endian) (f : Bytes) (v : View) : Res (List NList64) := do
  let (l, _) ← readN (NList64.readFromIn h) v.symtab.nsyms.toNat (f.drop v.symtab.symoff.toNat)
  pure l

/-- Relocation entries of a section. -/
def relocEntries (h : Endian) (f : Bytes) (s : Section64) : Res (List RelocationInfo) := do
  let (l, _) ← readN (RelocationInfo.readFromIn h) s.nreloc.toNat (f.drop s.reloff.toNat)
  pure l

/-- The symbol table entry `t` of the file says `e`: its name, external exactly if some line declares
it global, and defined in the section of `e` at its offset. -/
structure EntryFor (f : Bytes) (v : View) (ls : List Line) (e : Def) (t : NList64) : Prop where
  name : cstrAt f (v.symtab.stroff.toNat + t.nStrx.toNat) = some (utf8 e.name)
  type : t.nType = .norm false .sect (decide (Global ls e.name))
  place : 1 ≤ t.nSect.toNat ∧ ∃ s, v.sections[t.nSect.toNat - 1]? = some s ∧ s.sectname = fileName e.sect ∧
    t.nValue.toNat = s.addr.toNat + e.off

/-- The relocation entry `e` says `p`: absolute, at that address and of that length, and for the
symbol table entry of the first definition of the symbol. -/
structure RelocFor (f : Bytes) (v : View) (ls : List Line) (syms : List NList64) (p : Nat × LocalReloc)
    (e : RelocationInfo) : Prop where
  addr : e.rAddress.toInt = p.1
  len : lenCode e.rLength = p.2.len.toNat
  kind : e.rPcrel = false ∧ e.rExtern = true ∧ e.rType = 0
  symbol : ∃ d t, (table ls).find? (·.name = p.2.symbol) = some d ∧ syms[e.rSymbolnum.toNat]? = some t ∧
    EntryFor f v ls d t

/-- `f`, seen as `v`, is the object file of `ls`. -/
structure FileOf (h : Endian) (ls : List Line) (f : Bytes) (v : View) : Prop where
  sections : v.sections.map (·.sectname) = (stored ls).map fileName
  bytes : ∀ (i : Nat) s x, v.sections[i]? = some s → (stored ls)[i]? = some x →
    bytesAt f s.offset.toNat s.size.toNat = some (content ls x ls.length)
  symbols : ∃ syms, symbolEntries h f v = .ok syms ∧ OneByOne (EntryFor f v ls) (table ls) syms ∧
    ∀ (i : Nat) s x, v.sections[i]? = some s → (stored ls)[i]? = some x →
      ∃ es, relocEntries h f s = .ok es ∧ OneByOne (RelocFor f v ls syms) (relocations ls x) es

theorem find_idxOf (l : List Def) (n : Str) : l[(l.map (·.name)).idxOf n]? = l.find? (·.name = n) := by
  induction l with
  | nil => rfl
  | cons e l ih =>
    rw [List.map_cons, List.idxOf_cons, List.find?_cons]
    by_cases he : e.name = n
    · simp [he]
    · rw [show (e.name == n) = false by simpa using he]
      simp [he, ih]

theorem idxOf_stored {ls : List Line} {x : Section} (h : x ∈ stored ls) :
    (stored ls)[(stored ls).idxOf x]? = some x := by
  have hlt := List.idxOf_lt_length_iff.2 h
  rw [List.getElem?_eq_getElem hlt, List.getElem_idxOf hlt]

theorem view_section {ls : List Line} {o : Object} (h : ObjOf ls o) (hf : Fits o) {i : Nat} {s : Section64}
    {x : Section} (hs : (viewOf o).sections[i]? = some s) (hx : (stored ls)[i]? = some x) :
    (ObjSpec.parts o)[i]? = some (partOf ls x) ∧ SectionSays (ObjSpec.parts o) i (partOf ls x) s := by
  obtain ⟨p, hp, hsay⟩ := sections_get hf hs
  have : (ObjSpec.parts o)[i]? = some (partOf ls x) := by rw [h.partsEq, List.getElem?_map, hx]; rfl
  rw [this] at hp
  cases hp
  exact ⟨this, hsay⟩

theorem entry_for (bd : Build) (h : Endian) {ls : List Line} {o : Object} (ho : ObjOf ls o) (ok : Acceptable ls)
    (hr : RelocsOk ls) {e : Def} (he : e ∈ table ls) :
    EntryFor (writeInto bd h o).out (viewOf o) ls e (entryOf ((ObjSpec.placed (ObjSpec.parts o)).map (·.2.name))
      (ObjSpec.parts o) ((stored ls).idxOf e.sect, symOf ls e)) := by
  have hf := ho.fits ok.size
  have hm : ((stored ls).idxOf e.sect, symOf ls e) ∈ ObjSpec.placed (ObjSpec.parts o) := by
    rw [ho.placedEq]
    exact List.mem_map.2 ⟨e, he, rfl⟩
  have hsay := entry_says bd h hf (ho.writable ok hr) hm
  obtain ⟨h1, h2, s, h3, h4⟩ := hsay.ref _ _ _ rfl
  refine ⟨hsay.name (ho.nulFree ok _ (List.mem_map.2 ⟨_, hm, rfl⟩)), h1, by omega, s, ?_, ?_, ?_⟩
  · rw [h2]; exact h3
  · exact (view_section ho hf h3 (idxOf_stored (mem_table he).1)).2.sectname
  · have := off_le he
    have := ok.size
    rw [h4, UInt64.toNat_ofNat', Nat.mod_eq_of_lt (by omega)]

theorem file_of (bd bd' : Build) (h : Endian) {ls : List Line} {o : Object} (ho : ObjOf ls o) (ok : Acceptable ls)
    (hr : RelocsOk ls) : (writeInto bd h o).res = .ok () ∧
    ∃ v rest, view bd' h (writeInto bd h o).out = .ok (v, rest) ∧ FileOf h ls (writeInto bd h o).out v := by
  have hf := ho.fits ok.size
  have hn := ho.nulFree ok
  have hw := ho.writable ok hr
  obtain ⟨rest, hv, -, -⟩ := view_out bd bd' h hf
  refine ⟨((C34_write_ok_iff bd h o hf).1).2 hw, viewOf o, rest, hv, ?_, ?_, ?_⟩
  · rw [sections_map hf (·.sectname) (·.sectname) (fun _ _ _ _ h => h.sectname), ho.partsEq, List.map_map]
    rfl
  · intro i s x hs hx
    obtain ⟨v', rest', hv', _, hb, _, _⟩ := C27_section_bytes bd bd' h o hf
    rw [hv] at hv'
    cases hv'
    obtain ⟨hp, _⟩ := view_section ho hf hs hx
    exact (hb i _ s hp hs).2.1 rfl
  · obtain ⟨rest', hsyms⟩ := symbols_read bd h hf hw
    refine ⟨_, by unfold symbolEntries; rw [hsyms]; rfl, ⟨by rw [ho.placedEq]; simp, ?_⟩, ?_⟩
    · intro k e t he ht
      rw [ho.placedEq, List.map_map, List.getElem?_map, he] at ht
      cases ht
      rw [← ho.placedEq]
      exact entry_for bd h ho ok hr (List.mem_of_getElem? he)
    · intro i s x hs hx
      obtain ⟨hp, hsay⟩ := view_section ho hf hs hx
      have h24 : (symNames o).length < 2 ^ 24 := by
        rw [ho.names, List.length_map]; exact ok.symbols
      obtain ⟨rest'', hl⟩ := relocs_read bd h hf hw h24 hp hs
      refine ⟨_, by unfold relocEntries; rw [hl]; rfl, by simp [partOf, relsOf], ?_⟩
      intro k p e hpk hek
      simp only [partOf, relsOf, List.map_map, List.getElem?_map, hpk, Option.map_some, Option.some.injEq] at hek
      subst hek
      have hmem := List.mem_of_getElem? hpk
      obtain ⟨hpc, hlen⟩ := reloc_ok hr hmem
      have hsmall := ok.small.relocs x p hmem
      refine ⟨?_, lenCode_lenOf _ hlen, ⟨hpc, rfl, rfl⟩, ?_⟩
      · simp only [Function.comp, relocOf]
        rw [Int32.toInt_ofNat', Int.bmod_eq_of_le] <;> simp only [Int32.size] <;> omega
      · obtain ⟨d, hd, hdn⟩ := ok.defined x p hmem
        have hname : p.2.symbol ∈ (table ls).map (·.name) := List.mem_map.2 ⟨d, hd, hdn⟩
        have hidx : (relocOf (ObjSpec.parts o) (lenOf p.2.len) ⟨Int32.ofNat p.1, p.2.symbol, p.2.pcrel, p.2.len⟩).rSymbolnum.toNat =
            ((table ls).map (·.name)).idxOf p.2.symbol := by
          have hlt := List.idxOf_lt_length_iff.2 hname
          have hsy := ok.symbols
          rw [List.length_map] at hlt
          have hnm := seen_names hn
          rw [ho.names] at hnm
          have hnm' := ho.names
          unfold symNames at hnm'
          simp only [relocOf, symIdx]
          rw [hnm', hnm, UInt32.toNat_ofNat', Nat.mod_eq_of_lt (by omega)]
        have hfind := find_idxOf (table ls) p.2.symbol
        cases hfd : (table ls).find? (·.name = p.2.symbol) with
        | none =>
          rw [List.find?_eq_none] at hfd
          exact absurd hdn (by simpa using hfd d hd)
        | some d' =>
          rw [hfd] at hfind
          refine ⟨d', _, rfl, ?_, entry_for bd h ho ok hr (List.mem_of_getElem? hfind)⟩
          simp only [Function.comp]
          rw [hidx]
          conv => lhs; rw [ho.placedEq]
          rw [List.map_map, List.getElem?_map, hfind, ← ho.placedEq]
          rfl

/-! ## C53 -/

/-- The bytes of a section of the file disassemble to the instructions of the source. -/
theorem code_of {bd : Build} {ss : List Str} {ls : List Line} (hp : ReadsAll bd ss ls)
    (hpure : PureText ls) (hpush : PushesFit bd ss) (val : Str → Nat)
    (hval : ∀ p ∈ relocations ls .text, val p.2.symbol < 256 ^ 2 ^ p.2.len.toNat) (j : Nat) (hj : j ≤ ls.length) :
    ∃ cis, X86.Disasm ((linkedTo val ls .text ls.length).drop (content ls .text j).length) cis ∧
      OneByOne (AsksFor bd ss val) (codeLines ls j) cis := by
  rw [linkedTo_drop (relocsOk_of hp) val .text (show j + (ls.length - j) = ls.length by omega)]
  exact disasm_lines hp hpure hpush val hval _ j (by omega)

theorem linkedTo_zero {ls : List Line} (h : RelocsOk ls) (x : Section) (k : Nat) :
    linkedTo (fun _ => 0) ls x k = content ls x k := by
  unfold linkedTo content
  exact flatMap_congr' fun j _ => linkedAt_zero h x j

/-- C53 (part): for an acceptable program, whatever the build profile, the byte order of the host and
the chunking of the input: assembling and writing succeed; the file's sections are `__text` and
`__data` as far as something is stored in them; the symbol table lists exactly the labels, each with
its section, offset and visibility.  If `.text` has only instructions and every `push` constant is
representable, the bytes of `__text` disassemble to exactly the instruction lines in source order
(addresses not yet resolved being zero), and from the offset of a label on to those after the label.
Missing: `push` of other constants (wrong, C04), labels in sections that stay empty (dropped, C33),
names that are not ASCII and symbols not defined in the program (writing panics). -/
theorem C53_end_to_end_partial (bd bd' : Build) (h : Endian) (chunks : List Bytes) (ss : List Str)
    (ls : List Line) (hne : ∀ c ∈ chunks, c ≠ []) (hc : Cut chunks.flatten (ss.map utf8))
    (hp : ReadsAll bd ss ls) (ok : Acceptable ls) :
    ∃ a, Assembler.new.readFrom bd chunks = .ok a ∧ (a.writeInto bd h).res = .ok () ∧
    ∃ v rest, view bd' h (a.writeInto bd h).out = .ok (v, rest) ∧ FileOf h ls (a.writeInto bd h).out v ∧
      (PureText ls → PushesFit bd ss → ∀ (i : Nat) s, v.sections[i]? = some s → s.sectname = str% "__text" →
        ∃ bs, bytesAt (a.writeInto bd h).out s.offset.toNat s.size.toNat = some bs ∧
          (∃ cis, X86.Disasm bs cis ∧ OneByOne (AsksFor bd ss (fun _ => 0)) (codeLines ls 0) cis) ∧
          ∀ j n off, labelAt ls .text j = some (n, off) →
            ∃ cis, X86.Disasm (bs.drop off) cis ∧ OneByOne (AsksFor bd ss (fun _ => 0)) (codeLines ls j) cis) := by
  obtain ⟨a, ha, ho⟩ := assembles hne hc hp ok
  have hr := relocsOk_of hp
  obtain ⟨h1, v, rest, hv, hfile⟩ := file_of bd bd' h ho ok hr
  refine ⟨a, ha, h1, v, rest, hv, hfile, ?_⟩
  intro hpure hpush i s hs hname
  have hx : (stored ls)[i]? = some .text := by
    have := congrArg (·[i]?) hfile.sections
    simp only [List.getElem?_map, hs, Option.map_some, hname] at this
    cases hg : (stored ls)[i]? with
    | none => rw [hg] at this; simp at this
    | some x =>
      rw [hg] at this
      have := Option.some.inj this
      cases x with
      | text => rfl
      | data => simp [fileName] at this
      | bss => simp [fileName] at this
  refine ⟨_, hfile.bytes i s .text hs hx, ?_, ?_⟩
  · have := code_of hp hpure hpush (fun _ => 0) (fun p _ => Nat.pow_pos (by decide)) 0 (by omega)
    rw [linkedTo_zero hr] at this
    exact this
  · intro j n off hl
    have hj : j < ls.length ∧ off = (content ls .text j).length := by
      unfold labelAt at hl
      cases hg : ls[j]? with
      | none => rw [hg] at hl; simp at hl
      | some l =>
        rw [hg] at hl
        refine ⟨(List.getElem?_eq_some_iff.1 hg).1, ?_⟩
        simp only at hl
        split at hl
        · cases hd : defines l with
          | none => rw [hd] at hl; simp at hl
          | some m => rw [hd] at hl; simp at hl; exact hl.2.symm
        · simp at hl
    have := code_of hp hpure hpush (fun _ => 0) (fun p _ => Nat.pow_pos (by decide)) j (by omega)
    rw [linkedTo_zero hr, ← hj.2] at this
    exact this

/-! ## C54 -/

/-- Address of the symbol of entry `t` when the section named `n` is loaded at `base n`. -/
def symbolAddress (v : View) (base : Str → Nat) (t : NList64) : Option Nat :=
  v.sections[t.nSect.toNat - 1]?.map fun s => base s.sectname + (t.nValue.toNat - s.addr.toNat)

/-- What a linker does with a relocation entry of type `X86_64_RELOC_UNSIGNED`: add the address of
the symbol to the little-endian number in place.  No other kind is accepted. -/
def applyReloc (v : View) (syms : List NList64) (base : Str → Nat) (bs : Bytes) (e : RelocationInfo) :
    Option Bytes :=
  if e.rPcrel = false ∧ e.rExtern = true ∧ e.rType = 0 then do
    let t ← syms[e.rSymbolnum.toNat]?
    let a ← symbolAddress v base t
    let old ← bytesAt bs e.rAddress.toInt.toNat (2 ^ lenCode e.rLength)
    pure (patch bs e.rAddress.toInt.toNat (2 ^ lenCode e.rLength) (X86.leNat old + a))
  else none

/-- The contents of section `s` of the file after applying all its relocation entries. -/
def linkSection (h : Endian) (f : Bytes) (v : View) (base : Str → Nat) (s : Section64) : Option Bytes :=
  match bytesAt f s.offset.toNat s.size.toNat, symbolEntries h f v, relocEntries h f s with
  | some bs, .ok syms, .ok es => es.foldlM (applyReloc v syms base) bs
  | _, _, _ => none

/-- The address of every symbol, 0 if not defined. -/
def valOf (ls : List Line) (base : Str → Nat) (n : Str) : Nat := (addressOf ls base n).getD 0

theorem apply_eq {f : Bytes} {v : View} {ls : List Line} {syms : List NList64} {p : Nat × LocalReloc}
    {e : RelocationInfo} (h : RelocFor f v ls syms p e) (base : Str → Nat) (bs : Bytes) :
    applyReloc v syms base bs e = storeAt (valOf ls base) bs p := by
  obtain ⟨d, t, hd, ht, hent⟩ := h.symbol
  obtain ⟨_, s, hs, hn, hval⟩ := hent.place
  have ha : symbolAddress v base t = some (valOf ls base p.2.symbol) := by
    unfold symbolAddress valOf addressOf
    rw [hs, hd]
    simp only [Option.map_some, Option.getD_some, hn, hval]
    congr 2
    omega
  unfold applyReloc storeAt
  rw [if_pos h.kind, ht, h.len, h.addr]
  simp only [Option.bind_eq_bind, Option.bind_some, ha, Int.toNat_natCast]
  cases bytesAt bs p.1 (2 ^ p.2.len.toNat) <;> rfl

theorem foldl_eq {f : Bytes} {v : View} {ls : List Line} {syms : List NList64} (base : Str → Nat) :
    ∀ (ps : List (Nat × LocalReloc)) (es : List RelocationInfo), OneByOne (RelocFor f v ls syms) ps es →
      ∀ bs, es.foldlM (applyReloc v syms base) bs = ps.foldlM (storeAt (valOf ls base)) bs
  | [], [], _, _ => rfl
  | [], e :: es, h, _ => by have := h.length; simp at this
  | p :: ps, [], h, _ => by have := h.length; simp at this
  | p :: ps, e :: es, h, bs => by
    rw [List.foldlM_cons, List.foldlM_cons, apply_eq (h.each 0 p e rfl rfl)]
    have ht : OneByOne (RelocFor f v ls syms) ps es :=
      ⟨by simpa using h.length, fun k a b ha hb => h.each (k + 1) a b (by simpa using ha) (by simpa using hb)⟩
    cases storeAt (valOf ls base) bs p with
    | none => rfl
    | some bs' => exact foldl_eq base ps es ht bs'

theorem link_eq {h : Endian} {ls : List Line} {f : Bytes} {v : View} (hfile : FileOf h ls f v) (hr : RelocsOk ls)
    (base : Str → Nat) {i : Nat} {s : Section64} {x : Section} (hs : v.sections[i]? = some s)
    (hx : (stored ls)[i]? = some x) : linkSection h f v base s = some (linkedTo (valOf ls base) ls x ls.length) := by
  obtain ⟨syms, h1, _, h3⟩ := hfile.symbols
  obtain ⟨es, h4, h5⟩ := h3 i s x hs hx
  unfold linkSection
  rw [hfile.bytes i s x hs hx, h1, h4]
  simp only
  rw [foldl_eq base _ _ h5]
  have := storeAll hr (valOf ls base) x ls.length []
  rw [List.append_nil, List.append_nil] at this
  exact this

/-- The address of every symbol used fits the size of the move that uses it. -/
def AddressesFit (ls : List Line) (base : Str → Nat) : Prop :=
  ∀ x p, p ∈ relocations ls x → ∀ adr, addressOf ls base p.2.symbol = some adr → adr < 256 ^ 2 ^ p.2.len.toNat

theorem AddressesFit.val {ls : List Line} {base : Str → Nat} (h : AddressesFit ls base) {x : Section}
    {p : Nat × LocalReloc} (hp : p ∈ relocations ls x) : valOf ls base p.2.symbol < 256 ^ 2 ^ p.2.len.toNat := by
  unfold valOf
  cases ha : addressOf ls base p.2.symbol with
  | none => exact Nat.pow_pos (by decide)
  | some adr => exact h x p hp adr ha

theorem address_defined {ls : List Line} (ok : Acceptable ls) (base : Str → Nat) {x : Section} {p : Nat × LocalReloc}
    (hp : p ∈ relocations ls x) : addressOf ls base p.2.symbol = some (valOf ls base p.2.symbol) := by
  obtain ⟨d, hd, hn⟩ := ok.defined x p hp
  unfold valOf addressOf
  cases hf : (table ls).find? (·.name = p.2.symbol) with
  | none =>
    rw [List.find?_eq_none] at hf
    exact absurd hn (by simpa using hf d hd)
  | some e => rfl

/-- C54: apply all relocations of the written file, the sections loaded at any addresses `base` that
the moves can hold.  Each section is then, line by line, what the lines of the source emit, except
that each `mov reg, symbol` moves the address of the symbol (section base + offset of its first
definition) into the register. -/
theorem C54_link (bd bd' : Build) (h : Endian) (chunks : List Bytes) (ss : List Str)
    (ls : List Line) (hne : ∀ c ∈ chunks, c ≠ []) (hc : Cut chunks.flatten (ss.map utf8))
    (hp : ReadsAll bd ss ls) (ok : Acceptable ls) (base : Str → Nat)
    (hbase : AddressesFit ls base) :
    ∃ a, Assembler.new.readFrom bd chunks = .ok a ∧ (a.writeInto bd h).res = .ok () ∧
    ∃ v rest, view bd' h (a.writeInto bd h).out = .ok (v, rest) ∧
      v.sections.map (·.sectname) = (stored ls).map fileName ∧
      ∀ (i : Nat) sec x, v.sections[i]? = some sec → (stored ls)[i]? = some x →
        ∃ pieces : List Bytes, linkSection h (a.writeInto bd h).out v base sec = some pieces.flatten ∧
          pieces.length = ls.length ∧
          ∀ (k : Nat) l b s c, ls[k]? = some l → pieces[k]? = some b → ss[k]? = some s → Code s c →
            (sectAt ls k ≠ x → b = []) ∧
            (sectAt ls k = x → relocates l = none → b = emits l) ∧
            (sectAt ls k = x → ∀ (d : Reg64) name, InstLine bd c (.sym64 d name) →
              ∃ adr, addressOf ls base name = some adr ∧
                ∀ r, X86.decode (b ++ r) = some (.movRegImm .w64 (num64 d) adr, r)) ∧
            (sectAt ls k = x → ∀ (d : Reg32) name, InstLine bd c (.sym32 d name) →
              ∃ adr, addressOf ls base name = some adr ∧
                ∀ r, X86.decode (b ++ r) = some (.movRegImm .w32 (num32 d) adr, r)) := by
  obtain ⟨a, ha, ho⟩ := assembles hne hc hp ok
  have hr := relocsOk_of hp
  obtain ⟨h1, v, rest, hv, hfile⟩ := file_of bd bd' h ho ok hr
  refine ⟨a, ha, h1, v, rest, hv, hfile.sections, ?_⟩
  intro i sec x hs hx
  refine ⟨(List.range ls.length).map (linkedAt (valOf ls base) ls x), ?_, by simp, ?_⟩
  · rw [show Assembler.writeInto bd h a = writeInto bd h a.obj from rfl, link_eq hfile hr base hs hx]
    unfold linkedTo
    rw [List.flatMap_def]
  · intro k l b s c hl hb hss hcode
    have hlt : k < ls.length := (List.getElem?_eq_some_iff.1 hl).1
    rw [List.getElem?_map, List.getElem?_range hlt] at hb
    simp only [Option.map_some, Option.some.injEq] at hb
    obtain ⟨s', hs', hparse⟩ := map_eq_get hp hl
    rw [hss] at hs'
    cases hs'
    have key : ∀ (d : SrcInst) i, parseLine bd s = .ok (.instruction i) → sectAt ls k = x → (∀ j, d ≠ .plain j) →
        ¬ IsData c → InstLine bd c d → Yields d i → ∀ q, i.reloc = some q → addressOf ls base q.symbol =
          some (valOf ls base q.symbol) ∧ ∀ r, X86.decode (b ++ r) = some (srcMeaning (valOf ls base) d, r) := by
      intro d i hpi hsect hnp hnd hx' hy q hq
      rw [hparse] at hpi
      cases hpi
      have hmem : ((content ls x k).length + q.offset.toNat, q) ∈ relocations ls x := by
        refine List.mem_filterMap.2 ⟨k, List.mem_range.2 hlt, ?_⟩
        unfold relocAt
        rw [hl]
        simp [hsect, relocates, hq]
      refine ⟨address_defined ok base hmem, fun r => ?_⟩
      have := decode_patched hcode hnd hx' hy (fun j hj => absurd hj (hnp j)) (val := valOf ls base) (by
        intro q' hq'
        rw [hq] at hq'
        cases hq'
        exact hbase.val hmem) r
      rw [← hb]
      unfold linkedAt
      rw [hl]
      simpa [hsect] using this
    refine ⟨?_, ?_, ?_, ?_⟩
    · intro hne
      rw [← hb]
      unfold linkedAt
      rw [hl]
      simp [hne]
    · intro hsect hnone
      rw [← hb]
      unfold linkedAt
      rw [hl]
      simp only [hsect, if_true]
      cases l with
      | instruction i =>
        simp only [relocates] at hnone
        simp only [patched, hnone, emits, BytesAtMost.asRef]
      | _ => rfl
    · intro hsect d name hx'
      have hx2 := hx'
      cases hx2 with
      | mov64Sym _ _ hm hn hrr =>
        obtain ⟨bs, ⟨b', hb', rfl⟩, hz, _⟩ := C09_offset_64 d 0 0
        have hpi := (inst_lines bd s ⟨b', some ⟨movReg64ImmOffset d, name, false, 3⟩⟩).2
          ⟨c, _, hcode, mov64_notData hm, hx', hb', rfl⟩
        obtain ⟨g1, g2⟩ := key _ _ hpi hsect (by simp) (mov64_notData hm) hx' ⟨hb', rfl⟩ _ rfl
        exact ⟨_, g1, g2⟩
    · intro hsect d name hx'
      have hx2 := hx'
      cases hx2 with
      | mov32Sym _ _ hm hn hrr =>
        obtain ⟨bs, ⟨b', hb', rfl⟩, hz, _⟩ := C09_offset_32 d 0 0
        have hpi := (inst_lines bd s ⟨b', some ⟨movReg32ImmOffset d, name, false, 2⟩⟩).2
          ⟨c, _, hcode, mov32_notData hm, hx', hb', rfl⟩
        obtain ⟨g1, g2⟩ := key _ _ hpi hsect (by simp) (mov32_notData hm) hx' ⟨hb', rfl⟩ _ rfl
        exact ⟨_, g1, g2⟩

/-- C54 for code: the linked `__text` disassembles to the instruction lines of the source with the
addresses of their symbols. -/
theorem C54_disassembly (bd bd' : Build) (h : Endian) (chunks : List Bytes) (ss : List Str)
    (ls : List Line) (hne : ∀ c ∈ chunks, c ≠ []) (hc : Cut chunks.flatten (ss.map utf8))
    (hp : ReadsAll bd ss ls) (ok : Acceptable ls) (base : Str → Nat)
    (hbase : AddressesFit ls base) (hpure : PureText ls) (hpush : PushesFit bd ss)
    (htext : content ls .text ls.length ≠ []) :
    ∃ a, Assembler.new.readFrom bd chunks = .ok a ∧ (a.writeInto bd h).res = .ok () ∧
    ∃ v rest, view bd' h (a.writeInto bd h).out = .ok (v, rest) ∧
      ∃ s bs cis, v.sections[0]? = some s ∧ s.sectname = str% "__text" ∧
        linkSection h (a.writeInto bd h).out v base s = some bs ∧ X86.Disasm bs cis ∧
        OneByOne (AsksFor bd ss (fun n => (addressOf ls base n).getD 0)) (codeLines ls 0) cis := by
  obtain ⟨a, ha, ho⟩ := assembles hne hc hp ok
  have hr := relocsOk_of hp
  obtain ⟨h1, v, rest, hv, hfile⟩ := file_of bd bd' h ho ok hr
  have hx : (stored ls)[0]? = some .text := by
    unfold stored
    simp [htext]
  have hs : ∃ s, v.sections[0]? = some s ∧ s.sectname = str% "__text" := by
    have := congrArg (·[0]?) hfile.sections
    simp only [List.getElem?_map, hx, Option.map_some] at this
    cases hg : v.sections[0]? with
    | none => rw [hg] at this; simp at this
    | some s => rw [hg] at this; exact ⟨s, rfl, Option.some.inj this⟩
  obtain ⟨s, hs, hn⟩ := hs
  obtain ⟨cis, hd, hone⟩ := code_of hp hpure hpush (valOf ls base) (fun p hp => hbase.val hp) 0 (by omega)
  exact ⟨a, ha, h1, v, rest, hv, s, _, cis, hs, hn, link_eq hfile hr base hs hx, hd, hone⟩

/-- If no name is defined twice, the address of a label is that of its place. -/
theorem C54_address (ls : List Line) (base : Str → Nat) (hu : ((table ls).map (·.name)).Nodup) (e : Def)
    (he : e ∈ table ls) : addressOf ls base e.name = some (base (fileName e.sect) + e.off) := by
  have key : ∀ l : List Def, (l.map (·.name)).Nodup → e ∈ l → l.find? (·.name = e.name) = some e := by
    intro l
    induction l with
    | nil => simp
    | cons d l ih =>
      intro hn hm
      rw [List.map_cons, List.nodup_cons] at hn
      rw [List.find?_cons]
      by_cases hd : d.name = e.name
      · rcases List.mem_cons.1 hm with rfl | hm
        · simp
        · exact absurd (List.mem_map.2 ⟨e, hm, hd.symm⟩) hn.1
      · simp only [hd, decide_false]
        rcases List.mem_cons.1 hm with rfl | hm
        · exact absurd rfl hd
        · exact ih hn.2 hm
  unfold addressOf
  rw [key _ hu he]
  rfl

/-! ## The whole program -/

/-- C53 for the command line program: if the input is an acceptable program, the run succeeds and the
output file is the object file of it; no other file changes. -/
theorem C53_run (bd bd' : Build) (h : Endian) (chunking : Bytes → List Bytes) (fs : FS) (args : List Str)
    (out inp : Str) (src : Bytes) (ls : List Line) (hcfg : Config.init args = .ok ⟨out, inp⟩)
    (hd : fs.node inp ≠ fs.node out) (hs : fs.content (fs.node inp) = some src)
    (hrd : fs.canRead (fs.node inp) = true) (hwr : fs.canWrite (fs.node out) = true)
    (hch : (chunking src).flatten = src ∧ ∀ c ∈ chunking src, c ≠ [])
    (hprog : Program bd src ls) (ok : Acceptable ls) :
    (main bd h chunking fs args).2 = .ok () ∧
    (∀ n, n ≠ fs.node out → (main bd h chunking fs args).1.content n = fs.content n) ∧
    ∃ f v rest, (main bd h chunking fs args).1.content (fs.node out) = some f ∧
      view bd' h f = .ok (v, rest) ∧ FileOf h ls f v := by
  obtain ⟨ss, hc, hp⟩ := hprog
  rw [← hch.1] at hc
  obtain ⟨a, ha, hres, v, rest, hv, hfile, _⟩ := C53_end_to_end_partial bd bd' h _ ss ls hch.2 hc hp ok
  obtain ⟨h1, h2⟩ := (C52_result bd h chunking fs args out inp src hcfg hd hs hrd hwr).2 a ha
  refine ⟨by rw [h1, hres], ?_, _, v, rest, h2, hv, hfile⟩
  exact ((C52_only_output_changes_partial bd h chunking fs args).2 out inp hcfg).1

/-! ## Where C53 fails -/

/-- What assembling `src` and writing the object gives, `f` applied to result and file. -/
def assembleWith {α : Type} (src : Str) (f : Res Unit → Bytes → α) : Res α := do
  let a ← Assembler.new.readFrom .debug [utf8 src]
  pure (f (a.writeInto .debug .little).res (a.writeInto .debug .little).out)

/-- `push 200` is assembled and written, but `__text` disassembles to `push -56`. -/
theorem C53_push_counterexample : assembleWith (str% "push 200\n") (fun r f =>
      (r, (view .debug .little f).map fun v =>
        v.1.sections.map fun s => bytesAt f s.offset.toNat s.size.toNat)) =
        .ok (.ok (), .ok [some [0x6A, 200]]) ∧
    X86.Disasm [0x6A, 200] [.pushImm .w64 (-56)] :=
  ⟨by decide +kernel, .cons (rest := []) (by decide +kernel) .nil⟩

/-- The label of a section without contents is not in the symbol table. -/
theorem C53_label_counterexample : assembleWith (str% "global a\na:\n") (fun r f =>
    (r, (view .debug .little f).map fun v => v.1.symtab.nsyms)) = .ok (.ok (), .ok 0) := by decide +kernel

/-- An undefined symbol is accepted, but writing the file panics. -/
theorem C53_undefined_counterexample : assembleWith (str% "mov rax, foo\n") (fun r _ => r) =
    .ok (.error .panic) := by decide +kernel

/-! ## The sample program meets the hypotheses -/

theorem sample_table : table sampleLines =
    [⟨.text, str% "start", 10⟩, ⟨.data, str% "x", 0⟩, ⟨.data, str% "msg", 2⟩] := by decide +kernel

theorem sample_relocations (x : Section) (p : Nat × LocalReloc) (hp : p ∈ relocations sampleLines x) :
    p = (12, ⟨2, str% "msg", false, 3⟩) := by
  have h1 : relocations sampleLines .text = [(12, ⟨2, str% "msg", false, 3⟩)] := by decide +kernel
  have h2 : relocations sampleLines .data = [] := by decide +kernel
  have h3 : relocations sampleLines .bss = [] := by decide +kernel
  cases x
  · rw [h1] at hp; exact List.mem_singleton.1 hp
  · rw [h2] at hp; simp at hp
  · rw [h3] at hp; simp at hp

theorem sample_acceptable : Acceptable sampleLines := by
  refine ⟨sample_small, sample_noBss, ?_, ?_, ?_, ?_⟩
  · rw [sample_table]; decide +kernel
  · intro x p hp
    rw [sample_relocations x p hp, sample_table]
    exact ⟨⟨.data, str% "msg", 2⟩, by simp, rfl⟩
  · rw [sample_table]; decide
  · rw [sample_table]; decide +kernel

theorem sample_pure : PureText sampleLines := by
  intro k d hk
  have h : ∀ k < sampleLines.length, sectAt sampleLines k = .text → k ≠ 8 ∧ k ≠ 9 := by decide +kernel
  have h' : ∀ k < sampleLines.length, (∃ d, sampleLines[k]? = some (.data d)) → k = 8 ∨ k = 9 := by
    intro k hk ⟨d, hd⟩
    match k, hk with
    | 8, _ => exact .inl rfl
    | 9, _ => exact .inr rfl
    | 0, _ | 1, _ | 2, _ | 3, _ | 4, _ | 5, _ | 6, _ | 7, _ | 10, _ | 11, _ => cases hd
    | n + 12, hk => simp [sampleLines] at hk; omega
  have hlt := (List.getElem?_eq_some_iff.1 hk).1
  intro hs
  have h1 := h k hlt hs
  have h2 := h' k hlt ⟨d, hk⟩
  omega

theorem pushFits_of_tokens {bd : Build} {s c : Str} {i : Inst} {ts : List Str} (ht : splitWs (stripComment s) = ts)
    (hn : ts.head? ≠ some (str% "push")) (hc : Code s c) (hx : InstLine bd c (.plain i)) : PushFits i := by
  rw [stripComment_eq hc] at ht
  have ht := splitWs_iff.1 ht
  cases hx with
  | pushU8 op n extra h _ => rw [ht.det h] at hn; simp at hn
  | pushU32 op n extra h _ => rw [ht.det h] at hn; simp at hn
  | _ => trivial

theorem sample_pushes (bd : Build) : PushesFit bd sampleStrs := by
  intro s hs c i hc hx
  have h : ∀ s ∈ sampleStrs, (splitWs (stripComment s)).head? ≠ some (str% "push") := by decide +kernel
  exact pushFits_of_tokens rfl (h s hs) hc hx

theorem sample_parses (bd : Build) : ReadsAll bd sampleStrs sampleLines := by
  cases bd <;> decide +kernel

/-- Loaded at 0x1000 and 0x2000, the sample's `mov rsi, msg` moves 0x2002. -/
example (bd : Build) : ∃ a v rest s bs,
    Assembler.new.readFrom bd [utf8 sampleSource] = .ok a ∧
    view bd .little (a.writeInto bd .little).out = .ok (v, rest) ∧ v.sections[0]? = some s ∧
    linkSection .little (a.writeInto bd .little).out v (fun n => if n = str% "__text" then 0x1000 else 0x2000) s =
      some bs ∧
    X86.Disasm bs [.movRegImm .w64 0 1, .movRegImm .w64 6 0x2002, .syscall] := by
  have hb : AddressesFit sampleLines (fun n => if n = str% "__text" then 0x1000 else 0x2000) := by
    intro x p hp adr ha
    rw [sample_relocations x p hp] at ha ⊢
    rw [show addressOf sampleLines (fun n => if n = str% "__text" then 0x1000 else 0x2000) (str% "msg") = some 0x2002 by
      decide +kernel] at ha
    cases ha
    decide
  obtain ⟨a, ha, ho⟩ := assembles (bd := bd) (chunks := [utf8 sampleSource]) (by decide +kernel)
    (by rw [List.flatten_singleton]; exact sample_cut) (sample_parses bd) sample_acceptable
  obtain ⟨_, v, rest, hv, hfile⟩ := file_of bd bd .little ho sample_acceptable (relocsOk_of (sample_parses bd))
  obtain ⟨s, hs⟩ : ∃ s, v.sections[0]? = some s := by
    have := congrArg (·[0]?) hfile.sections
    rw [show (stored sampleLines) = [.text, .data] by decide +kernel] at this
    cases hg : v.sections[0]? with
    | none => simp [hg] at this
    | some s => exact ⟨s, rfl⟩
  have hl := link_eq hfile (relocsOk_of (sample_parses bd)) (fun n => if n = str% "__text" then 0x1000 else 0x2000) hs
    (show (stored sampleLines)[0]? = some .text by decide +kernel)
  refine ⟨a, v, rest, s, _, ha, hv, hs, hl, ?_⟩
  rw [show linkedTo (valOf sampleLines (fun n => if n = str% "__text" then 0x1000 else 0x2000)) sampleLines .text
    sampleLines.length = [0x48, 0xB8, 1, 0, 0, 0, 0, 0, 0, 0, 0x48, 0xBE, 2, 0x20, 0, 0, 0, 0, 0, 0, 0x0F, 0x05] by
      decide +kernel]
  exact .cons (rest := [0x48, 0xBE, 2, 0x20, 0, 0, 0, 0, 0, 0, 0x0F, 0x05]) (by decide +kernel)
    (.cons (rest := [0x0F, 0x05]) (by decide +kernel) (.cons (rest := []) (by decide +kernel) .nil))

/-- All hypotheses of C53 and C54 hold of the sample. -/
example (bd : Build) : (∀ c ∈ [utf8 sampleSource], c ≠ []) ∧ Cut [utf8 sampleSource].flatten (sampleStrs.map utf8) ∧
    ReadsAll bd sampleStrs sampleLines ∧ Acceptable sampleLines ∧ PureText sampleLines ∧
    PushesFit bd sampleStrs ∧ content sampleLines .text sampleLines.length ≠ [] ∧
    ((table sampleLines).map (·.name)).Nodup :=
  ⟨by decide +kernel, by rw [List.flatten_singleton]; exact sample_cut, sample_parses bd, sample_acceptable,
    sample_pure, sample_pushes bd, by decide +kernel, by decide +kernel⟩

end AT.Props
