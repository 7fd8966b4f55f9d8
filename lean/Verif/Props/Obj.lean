import Verif.Proofs.ObjView
import Verif.Props.Mac
/-!
# Properties of the object writer (C25-C36)

`writeInto bd h o` is `at_obj::macho::write_into(&o, ..)` built with cargo profile `bd` on a host of
byte order `h`: `.out` is everything handed to the sink, `.res` how it ended.  `parts`, `placed`,
`Fits`, `NulFree`, `Writable` are defined in `Spec/ObjSpec.lean` from the object alone.
-/

namespace AT.Props
open AT.Mac AT.MachO AT.ObjSpec AT.Obj

/-! ## C25 -/

/-- C25, `u32`: `aligned` is the least multiple not below `n`, `padding` the distance to it,
whenever some multiple of `a` not below `n` fits the type. -/
theorem C25_aligned_u32 (bd : Build) (n a : UInt32) (ha : a ≠ 0)
    (hfit : ∃ m, a.toNat ∣ m ∧ n.toNat ≤ m ∧ m < 2 ^ 32) :
    ∃ r p, alignedU32 bd n a = .ok r ∧ paddingU32 bd n a = .ok p ∧
      a.toNat ∣ r.toNat ∧ n.toNat ≤ r.toNat ∧
      (∀ m, a.toNat ∣ m → n.toNat ≤ m → r.toNat ≤ m) ∧
      p.toNat = r.toNat - n.toNat ∧ p.toNat < a.toNat := by
  have ha' : a.toNat ≠ 0 := fun h => ha (UInt32.toNat.inj h)
  obtain ⟨m, hm, hnm, hlt⟩ := hfit
  have hl := nextMul_least n.toNat a.toNat m (by omega) hm hnm
  obtain ⟨h1, h2, h3⟩ := nextMul_spec n.toNat a.toNat (by omega)
  have he := alignedU32_eq bd n a ha' (by omega)
  have hr : (UInt32.ofNat (nextMul n.toNat a.toNat)).toNat = nextMul n.toNat a.toNat :=
    u32_ofNat _ (by omega)
  have hs : (UInt32.ofNat (nextMul n.toNat a.toNat) - n).toNat =
      nextMul n.toNat a.toNat - n.toNat := by
    rw [UInt32.toNat_sub_of_le _ _ (by rw [UInt32.le_iff_toNat_le, hr]; exact h2), hr]
  refine ⟨_, UInt32.ofNat (nextMul n.toNat a.toNat) - n, he, ?_, ?_, ?_, ?_, ?_, ?_⟩
  · unfold paddingU32
    rw [he]
    simp only [bind, Except.bind, subU32]
    rw [if_pos (.inl (by rw [hr]; exact h2))]
  · rw [hr]; exact h1
  · rw [hr]; exact h2
  · intro k hk hnk
    rw [hr]
    exact nextMul_least _ _ _ (by omega) hk hnk
  · rw [hs, hr]
  · rw [hs]; omega

/-- C25, `u64` and `usize`. -/
theorem C25_aligned_u64 (bd : Build) (n a : UInt64) (ha : a ≠ 0)
    (hfit : ∃ m, a.toNat ∣ m ∧ n.toNat ≤ m ∧ m < 2 ^ 64) :
    ∃ r p, alignedU64 bd n a = .ok r ∧ paddingU64 bd n a = .ok p ∧
      a.toNat ∣ r.toNat ∧ n.toNat ≤ r.toNat ∧
      (∀ m, a.toNat ∣ m → n.toNat ≤ m → r.toNat ≤ m) ∧
      p.toNat = r.toNat - n.toNat ∧ p.toNat < a.toNat := by
  have ha' : a.toNat ≠ 0 := fun h => ha (UInt64.toNat.inj h)
  obtain ⟨m, hm, hnm, hlt⟩ := hfit
  have hl := nextMul_least n.toNat a.toNat m (by omega) hm hnm
  obtain ⟨h1, h2, h3⟩ := nextMul_spec n.toNat a.toNat (by omega)
  have he := alignedU64_eq bd n a ha' (by omega)
  have hr : (UInt64.ofNat (nextMul n.toNat a.toNat)).toNat = nextMul n.toNat a.toNat :=
    u64_ofNat _ (by omega)
  have hs : (UInt64.ofNat (nextMul n.toNat a.toNat) - n).toNat =
      nextMul n.toNat a.toNat - n.toNat := by
    rw [UInt64.toNat_sub_of_le _ _ (by rw [UInt64.le_iff_toNat_le, hr]; exact h2), hr]
  refine ⟨_, UInt64.ofNat (nextMul n.toNat a.toNat) - n, he, ?_, ?_, ?_, ?_, ?_, ?_⟩
  · unfold paddingU64
    rw [he]
    simp only [bind, Except.bind, subU64]
    rw [if_pos (.inl (by rw [hr]; exact h2))]
  · rw [hr]; exact h1
  · rw [hr]; exact h2
  · intro k hk hnk
    rw [hr]
    exact nextMul_least _ _ _ (by omega) hk hnk
  · rw [hs, hr]
  · rw [hs]; omega

/-- C25, `u32`, past the end: when no multiple of `a` not below `n` fits the type, a debug build
panics in both functions; in a release build `aligned` is the least such multiple less `2 ^ 32`, so
below `n`, and `padding` is still the distance to the multiple itself. -/
theorem C25_past_u32 (n a : UInt32) (ha : a ≠ 0)
    (hno : ¬ ∃ m, a.toNat ∣ m ∧ n.toNat ≤ m ∧ m < 2 ^ 32) :
    alignedU32 .debug n a = .error .panic ∧ paddingU32 .debug n a = .error .panic ∧
    ∃ r p m, alignedU32 .release n a = .ok r ∧ paddingU32 .release n a = .ok p ∧
      a.toNat ∣ m ∧ n.toNat ≤ m ∧ (∀ k, a.toNat ∣ k → n.toNat ≤ k → m ≤ k) ∧
      r.toNat + 2 ^ 32 = m ∧ r < n ∧ n.toNat + p.toNat = m ∧ p < a := by
  have ha' : a.toNat ≠ 0 := fun h => ha (UInt32.toNat.inj h)
  obtain ⟨h1, h2, h3⟩ := nextMul_spec n.toNat a.toNat (by omega)
  have hge : 2 ^ 32 ≤ nextMul n.toNat a.toNat :=
    Nat.le_of_not_lt (fun hlt => hno ⟨_, h1, h2, hlt⟩)
  have hn := n.toNat_lt
  have hal := a.toNat_lt
  have hd := alignedU32_over .debug n a ha' hge
  have hr := alignedU32_over .release n a ha' hge
  rw [if_neg (by decide)] at hd
  rw [if_pos rfl] at hr
  -- the multiple before the least one is below `n`
  have hprev : nextMul n.toNat a.toNat - a.toNat < n.toNat := by omega
  have hrn : (UInt32.ofNat (nextMul n.toNat a.toNat)).toNat = nextMul n.toNat a.toNat - 2 ^ 32 := by
    rw [UInt32.toNat_ofNat']; omega
  have hs : (UInt32.ofNat (nextMul n.toNat a.toNat) - n).toNat =
      nextMul n.toNat a.toNat - n.toNat := by
    rw [UInt32.toNat_sub, hrn]; omega
  refine ⟨hd, ?_, _, UInt32.ofNat (nextMul n.toNat a.toNat) - n, _, hr, ?_, h1, h2,
    fun k hk hnk => nextMul_least _ _ _ (by omega) hk hnk, ?_, ?_, ?_, ?_⟩
  · unfold paddingU32
    rw [hd]
    rfl
  · unfold paddingU32
    rw [hr]
    simp only [bind, Except.bind, subU32]
    rw [if_pos (.inr trivial)]
  · rw [hrn]; omega
  · rw [UInt32.lt_iff_toNat_lt, hrn]; omega
  · rw [hs]; omega
  · rw [UInt32.lt_iff_toNat_lt, hs]; omega

/-- C25, `u64`, past the end: when no multiple of `a` not below `n` fits the type, a debug build
panics in both functions; in a release build `aligned` is the least such multiple less `2 ^ 64`, so
below `n`, and `padding` is still the distance to the multiple itself. -/
theorem C25_past_u64 (n a : UInt64) (ha : a ≠ 0)
    (hno : ¬ ∃ m, a.toNat ∣ m ∧ n.toNat ≤ m ∧ m < 2 ^ 64) :
    alignedU64 .debug n a = .error .panic ∧ paddingU64 .debug n a = .error .panic ∧
    ∃ r p m, alignedU64 .release n a = .ok r ∧ paddingU64 .release n a = .ok p ∧
      a.toNat ∣ m ∧ n.toNat ≤ m ∧ (∀ k, a.toNat ∣ k → n.toNat ≤ k → m ≤ k) ∧
      r.toNat + 2 ^ 64 = m ∧ r < n ∧ n.toNat + p.toNat = m ∧ p < a := by
  have ha' : a.toNat ≠ 0 := fun h => ha (UInt64.toNat.inj h)
  obtain ⟨h1, h2, h3⟩ := nextMul_spec n.toNat a.toNat (by omega)
  have hge : 2 ^ 64 ≤ nextMul n.toNat a.toNat :=
    Nat.le_of_not_lt (fun hlt => hno ⟨_, h1, h2, hlt⟩)
  have hn := n.toNat_lt
  have hal := a.toNat_lt
  have hd := alignedU64_over .debug n a ha' hge
  have hr := alignedU64_over .release n a ha' hge
  rw [if_neg (by decide)] at hd
  rw [if_pos rfl] at hr
  -- the multiple before the least one is below `n`
  have hprev : nextMul n.toNat a.toNat - a.toNat < n.toNat := by omega
  have hrn : (UInt64.ofNat (nextMul n.toNat a.toNat)).toNat = nextMul n.toNat a.toNat - 2 ^ 64 := by
    rw [UInt64.toNat_ofNat']; omega
  have hs : (UInt64.ofNat (nextMul n.toNat a.toNat) - n).toNat =
      nextMul n.toNat a.toNat - n.toNat := by
    rw [UInt64.toNat_sub, hrn]; omega
  refine ⟨hd, ?_, _, UInt64.ofNat (nextMul n.toNat a.toNat) - n, _, hr, ?_, h1, h2,
    fun k hk hnk => nextMul_least _ _ _ (by omega) hk hnk, ?_, ?_, ?_, ?_⟩
  · unfold paddingU64
    rw [hd]
    rfl
  · unfold paddingU64
    rw [hr]
    simp only [bind, Except.bind, subU64]
    rw [if_pos (.inr trivial)]
  · rw [hrn]; omega
  · rw [UInt64.lt_iff_toNat_lt, hrn]; omega
  · rw [hs]; omega
  · rw [UInt64.lt_iff_toNat_lt, hs]; omega

/-- C25: alignment 0 panics, in both profiles. -/
theorem C25_zero_panics (bd : Build) (n : UInt32) (m : UInt64) :
    alignedU32 bd n 0 = .error .panic ∧ paddingU32 bd n 0 = .error .panic ∧
    alignedU64 bd m 0 = .error .panic ∧ paddingU64 bd m 0 = .error .panic := ⟨rfl, rfl, rfl, rfl⟩

example : alignedU32 .debug 13 8 = .ok 16 ∧ paddingU32 .debug 13 8 = .ok 3 ∧
    alignedU64 .release 16 8 = .ok 16 := by decide +kernel

-- the next multiple may lie past the end of the type
example : alignedU64 .debug 0xfffffffffffffff9 8 = .error .panic ∧
    alignedU64 .release 0xfffffffffffffff9 8 = .ok 0 ∧
    paddingU64 .release 0xfffffffffffffff9 8 = .ok 7 ∧
    alignedU32 .release 0xfffffffd 12 = .ok 8 ∧
    paddingU32 .release 0xfffffffd 12 = .ok 11 := by decide +kernel

/-! ## A reader of the written file

Header and load commands as the at-mac readers (C13-C17) report them. -/

/-- Header and load commands of an object file. -/
structure View where
  header : Header64
  segment : SegmentCommand64
  sections : List Section64
  symtab : SymtabCommand

/-- Parse the header and its load commands; the load commands must be one segment and one symtab. -/
def view (bd : Build) (h : Endian) (f : Bytes) : Res (View × Bytes) := do
  let ((hdr, e), r) ← Header64.readFrom h f
  let (cs, rest) ← readN (LoadCommand.readFromIn bd e) hdr.nCmds.toNat r
  match cs with
  | [.segment64 seg sects, .symtab st] => pure (⟨hdr, seg, sects, st⟩, rest)
  | _ => .error .panic

theorem iter_length {o : Object} (hf : Fits o) : (parts o).length = o.sections.iter.length := by
  rw [parts_of_fits hf, List.length_map]

/-- The view of a file starting with the writer's header and load commands. -/
def viewOf (o : Object) : View :=
  ⟨headerOf (parts o), segmentOf (parts o), readSections (parts o) o.sections.iter,
    symtabOf (parts o)⟩

theorem view_cmd (bd : Build) (h : Endian) {o : Object} (hf : Fits o) (rest : Bytes) :
    view bd h (cmdBytes h (parts o) o.sections.iter ++ rest) = .ok (viewOf o, rest) := by
  unfold view
  rw [read_header]
  show (do
    let (cs, rest) ← readN (LoadCommand.readFromIn bd h) 2 _
    match cs with
    | [.segment64 seg sects, .symtab st] => pure (⟨_, seg, sects, st⟩, rest)
    | _ => .error .panic : Res (View × Bytes)) = _
  rw [read_loads bd h _ _ (iter_length hf) (bounds_of hf)]
  rfl

theorem out_eq (bd : Build) (h : Endian) {o : Object} (hf : Fits o) :
    ∃ rest, (writeInto bd h o).out =
      cmdBytes h (parts o) o.sections.iter ++ dataBytes (parts o) ++ rest :=
  ⟨_, (writeInto_after bd h (parts_of_fits hf) (bounds_of hf)).out⟩

theorem view_out (bd bd' : Build) (h : Endian) {o : Object} (hf : Fits o) :
    ∃ rest, view bd' h (writeInto bd h o).out = .ok (viewOf o, rest) ∧
      rest = (writeInto bd h o).out.drop (cmdsEnd (parts o)) ∧
      cmdsEnd (parts o) ≤ (writeInto bd h o).out.length := by
  obtain ⟨r, hr⟩ := out_eq bd h hf
  rw [hr, List.append_assoc]
  have hl := length_cmdBytes h _ _ (iter_length hf)
  refine ⟨_, view_cmd bd' h hf _, ?_, ?_⟩
  · rw [← hl, List.drop_left]
  · rw [List.length_append, hl]; omega

/-! ### Sums over the section headers -/

theorem map_eq_of_get {α β γ : Type} {l : List α} {m : List β} {f : α → γ} {g : β → γ}
    (hl : l.length = m.length) (h : ∀ (i : Nat) x, m[i]? = some x → ∃ y, l[i]? = some y ∧ f y = g x) :
    l.map f = m.map g := by
  apply List.ext_getElem?
  intro i
  rw [List.getElem?_map, List.getElem?_map]
  by_cases hi : i < m.length
  · have hx := List.getElem?_eq_getElem hi
    obtain ⟨y, hy, he⟩ := h i _ hx
    rw [hy, hx]
    simp [he]
  · rw [List.getElem?_eq_none (by omega), List.getElem?_eq_none (by omega)]
    rfl

theorem sections_length {o : Object} (hf : Fits o) :
    (viewOf o).sections.length = (parts o).length := by
  simp only [viewOf, readSections, List.length_map, sectionsFrom_length]
  exact (iter_length hf).symm

theorem sections_map {o : Object} (hf : Fits o) {γ : Type} (f : Section64 → γ) (g : Part → γ)
    (h : ∀ i p s, (parts o)[i]? = some p → SectionSays (parts o) i p s → f s = g p) :
    (viewOf o).sections.map f = (parts o).map g :=
  map_eq_of_get (sections_length hf) (fun i p hi => by
    obtain ⟨s, hs, hsay⟩ := readSections_get hf hi
    exact ⟨s, hs, h i p s hi hsay⟩)

theorem sections_get {o : Object} (hf : Fits o) {i : Nat} {s : Section64}
    (hs : (viewOf o).sections[i]? = some s) :
    ∃ p, (parts o)[i]? = some p ∧ SectionSays (parts o) i p s := by
  obtain ⟨hi, _⟩ := List.getElem?_eq_some_iff.1 hs
  rw [sections_length hf] at hi
  obtain ⟨s', hs', hsay⟩ := readSections_get hf (List.getElem?_eq_getElem hi)
  have : s' = s := Option.some.inj (hs'.symm.trans hs)
  exact ⟨_, List.getElem?_eq_getElem hi, this ▸ hsay⟩

theorem sizes_take {o : Object} (hf : Fits o) (i : Nat) :
    (((viewOf o).sections.take i).map (·.size.toNat)).sum = vmLen ((parts o).take i) := by
  unfold vmLen
  rw [List.map_take, List.map_take, sections_map hf (·.size.toNat) (·.vmsize) (fun _ _ _ _ h => h.size)]

theorem nreloc_take {o : Object} (hf : Fits o) (i : Nat) :
    (((viewOf o).sections.take i).map (·.nreloc.toNat)).sum = relocCount ((parts o).take i) := by
  unfold relocCount
  rw [List.map_take, List.map_take,
    sections_map hf (·.nreloc.toNat) (·.relocs.length) (fun _ _ _ _ h => h.nreloc)]

/-- File-backed size of a section as its header tells it. -/
def fileBytes (s : Section64) : Nat := if s.type = .zerofill then 0 else s.size.toNat

theorem fileBytes_eq {ps : List Part} {i : Nat} {p : Part} {s : Section64}
    (h : SectionSays ps i p s) : fileBytes s = p.bytes.length := by
  unfold fileBytes
  rw [h.type]
  cases hz : p.zerofill with
  | true => simp [(h.bss hz).1]
  | false => simp [h.size, h.filled hz]

theorem fileBytes_take {o : Object} (hf : Fits o) (i : Nat) :
    (((viewOf o).sections.take i).map fileBytes).sum = dataLen ((parts o).take i) := by
  unfold dataLen
  rw [List.map_take, List.map_take,
    sections_map hf fileBytes (·.bytes.length) (fun _ _ _ _ h => fileBytes_eq h)]

theorem parts_le (o : Object) : (parts o).length ≤ 3 := by
  unfold parts
  by_cases h1 : o.sections.text.bytes = [] <;> by_cases h2 : o.sections.data.bytes = [] <;>
    by_cases h3 : o.sections.bss.size = 0 <;> simp [h1, h2, h3]

/-- Numbers of the format, for objects that fit. -/
structure Nums (o : Object) : Prop where
  sizeOfCmds : (viewOf o).header.sizeOfCmds.toNat = 72 + 80 * (parts o).length + 24
  nsects : (viewOf o).segment.nsects.toNat = (parts o).length
  vmsize : (viewOf o).segment.vmsize.toNat = vmLen (parts o)
  fileoff : (viewOf o).segment.fileoff.toNat = cmdsEnd (parts o)
  filesize : (viewOf o).segment.filesize.toNat = roundUp8 (dataLen (parts o))
  symoff : (viewOf o).symtab.symoff.toNat = symStart (parts o)
  nsyms : (viewOf o).symtab.nsyms.toNat = symCount (parts o)
  stroff : (viewOf o).symtab.stroff.toNat = strStart (parts o)
  strsize : (viewOf o).symtab.strsize.toNat = strLen (parts o)

theorem nums {o : Object} (hf : Fits o) : Nums o := by
  have h := hf.file
  have e1 := hf.strs
  have e2 : strStart (parts o) = symStart (parts o) + 16 * symCount (parts o) := rfl
  have e3 : symStart (parts o) = relocStart (parts o) + 8 * relocCount (parts o) := rfl
  have e4 : relocStart (parts o) = cmdsEnd (parts o) + roundUp8 (dataLen (parts o)) := rfl
  have e5 : cmdsEnd (parts o) = 32 + 72 + 80 * (parts o).length + 24 := rfl
  have hv := hf.vm
  constructor <;> simp only [viewOf, headerOf, segmentOf, symtabOf]
  · exact u32_ofNat _ (by omega)
  · exact u32_ofNat _ (by omega)
  · exact u64_ofNat _ (by omega)
  · exact u64_ofNat _ (by omega)
  · rw [Nat.mod_eq_of_lt (by omega)]; exact u64_ofNat _ (by omega)
  · exact u32_ofNat _ (by omega)
  · exact u32_ofNat _ (by omega)
  · exact u32_ofNat _ (by omega)
  · exact u32_ofNat _ (by omega)

/-! ## C26 -/

theorem hasFields_at {e : Endian} {l : List Field} {img f : Bytes}
    (hi : img = l.flatMap (fieldBytes e)) (hc : Consec 0 l) (a c : Bytes) (off : Nat)
    (hl : a.length = off) (hf : f = a ++ (img ++ c)) : HasFields e f off l := by
  subst hf hl
  exact hasFields_image hi hc a c

theorem raw_fields (bd : Build) (h : Endian) {o : Object} (hf : Fits o) :
    HasFields h (writeInto bd h o).out 0 (headerFields (headerOf (parts o))) ∧
    HasFields h (writeInto bd h o).out 32 (segmentFields (segmentOf (parts o))) ∧
    (∀ (i : Nat) (s : Section64), (readSections (parts o) o.sections.iter)[i]? = some s →
      HasFields h (writeInto bd h o).out (104 + 80 * i) (sectionFields s)) ∧
    HasFields h (writeInto bd h o).out (104 + 80 * (parts o).length)
      (symtabFields (symtabOf (parts o))) := by
  refine ⟨?_, ?_, ?_, ?_⟩
  all_goals
    obtain ⟨r, hr⟩ := out_eq bd h hf
    rw [hr]
    unfold cmdBytes
  · have hi := header_image h (headerOf (parts o))
    refine hasFields_at hi.1 hi.2 [] (segmentBytes h (segmentOf (parts o)) ++
      ((sectionsFrom 0 (cmdsEnd (parts o))
        (relocStart (parts o)) o.sections.iter).flatMap (sectionBytes h) ++
        (symtabBytes h (symtabOf (parts o)) ++ (dataBytes (parts o) ++ r)))) 0 List.length_nil ?_
    rw [List.nil_append, List.append_assoc, List.append_assoc, List.append_assoc, List.append_assoc]
  · have hi := segment_image h (segmentOf (parts o)) (by simp [segmentOf])
    refine hasFields_at hi.1 hi.2 (headerBytes h (headerOf (parts o)))
      ((sectionsFrom 0 (cmdsEnd (parts o))
        (relocStart (parts o)) o.sections.iter).flatMap (sectionBytes h) ++
        (symtabBytes h (symtabOf (parts o)) ++ (dataBytes (parts o) ++ r))) 32 ?_ ?_
    · exact length_headerBytes _ _
    · simp only [List.append_assoc]
  · intro i s hs
    simp only [readSections] at hs
    rw [List.getElem?_map] at hs
    obtain ⟨t, ht, rfl⟩ := Option.map_eq_some_iff.1 hs
    rw [sectionFields_sort]
    have hok := sectionsFrom_mem (List.mem_of_getElem? ht)
    have hi := section_image h t hok.1.len hok.2.len
    refine hasFields_at hi.1 hi.2 (headerBytes h (headerOf (parts o)) ++
      (segmentBytes h (segmentOf (parts o)) ++ ((sectionsFrom 0 (cmdsEnd (parts o))
        (relocStart (parts o)) o.sections.iter).take i).flatMap (sectionBytes h)))
      (((sectionsFrom 0 (cmdsEnd (parts o)) (relocStart (parts o)) o.sections.iter).drop
        (i + 1)).flatMap (sectionBytes h) ++ (symtabBytes h (symtabOf (parts o)) ++
          (dataBytes (parts o) ++ r))) _ ?_ ?_
    · rw [List.length_append, List.length_append, length_headerBytes,
        length_segmentBytes h (segmentOf (parts o)) (by simp [segmentOf]),
        flatMap_len _ _ 80 (fun x hx => length_sectionBytes h x
          (sectionsFrom_mem (List.mem_of_mem_take hx)).1.len
          (sectionsFrom_mem (List.mem_of_mem_take hx)).2.len), List.length_take,
        Nat.min_eq_left (by
          obtain ⟨hi, _⟩ := List.getElem?_eq_some_iff.1 ht
          exact Nat.le_of_lt hi)]
      omega
    · conv => lhs; rw [split_at ht]
      rw [List.flatMap_append, List.flatMap_cons]
      simp only [List.append_assoc]
  · have hi := symtab_image h (symtabOf (parts o))
    refine hasFields_at hi.1 hi.2 (headerBytes h (headerOf (parts o)) ++
      (segmentBytes h (segmentOf (parts o)) ++ (sectionsFrom 0 (cmdsEnd (parts o))
        (relocStart (parts o)) o.sections.iter).flatMap (sectionBytes h)))
      (dataBytes (parts o) ++ r) _ ?_ ?_
    · rw [List.length_append, List.length_append, length_headerBytes,
        length_segmentBytes h (segmentOf (parts o)) (by simp [segmentOf]), length_sections,
        ← iter_length hf]
      omega
    · simp only [List.append_assoc]

/-- C26.  The file parses as an x86-64 object file with two load commands; `size_of_cmds` is exactly
their size; the segment lists exactly the non-empty sections, in order, with their names, kind and
attributes; and the same fields are at their documented offsets in the file. -/
theorem C26_headers (bd bd' : Build) (h : Endian) (o : Object) (hf : Fits o) :
    ∃ v rest, view bd' h (writeInto bd h o).out = .ok (v, rest) ∧
      v.header.magic = .magic64 ∧ v.header.cpuType = .x86_64 .all ∧ v.header.fileType = .object ∧
      v.header.nCmds = 2 ∧ v.header.flags = [] ∧
      32 + v.header.sizeOfCmds.toNat ≤ (writeInto bd h o).out.length ∧
      rest = (writeInto bd h o).out.drop (32 + v.header.sizeOfCmds.toNat) ∧
      v.segment.segname = [] ∧ v.segment.nsects.toNat = (parts o).length ∧
      v.segment.maxprot = 7 ∧ v.segment.initprot = 7 ∧
      v.sections.map (fun s => (s.sectname, s.segname)) =
        (parts o).map (fun p => (p.sectname, p.segname)) ∧
      v.sections.map (·.type) =
        (parts o).map (fun p => if p.zerofill then .zerofill else .regular) ∧
      (∀ (i : Nat) (s : Section64) (p : Part), v.sections[i]? = some s → (parts o)[i]? = some p → ∀ a, a ∈ s.attrs ↔
        (a = .someInstructions ∨ a = .pureInstructions) ∧ p.sectname = str% "__text" ∨
        (a = .locReloc ∨ a = .extReloc) ∧ p.relocs ≠ []) ∧
      (∀ s ∈ v.sections, s.align = 0 ∧ s.reserved1 = 0 ∧ s.reserved2 = 0 ∧ s.reserved3 = 0) ∧
      HasFields h (writeInto bd h o).out 0 (headerFields v.header) ∧
      HasFields h (writeInto bd h o).out 32 (segmentFields v.segment) ∧
      (∀ (i : Nat) (s : Section64), v.sections[i]? = some s →
        HasFields h (writeInto bd h o).out (104 + 80 * i) (sectionFields s)) ∧
      HasFields h (writeInto bd h o).out (104 + 80 * (parts o).length) (symtabFields v.symtab) := by
  obtain ⟨rest, hv, hr, hle⟩ := view_out bd bd' h hf
  have hn := nums hf
  have he : 32 + (viewOf o).header.sizeOfCmds.toNat = cmdsEnd (parts o) := by
    rw [hn.sizeOfCmds]; unfold cmdsEnd; omega
  refine ⟨viewOf o, rest, hv, rfl, rfl, rfl, rfl, rfl, by rw [he]; exact hle, by rw [he]; exact hr,
    rfl, hn.nsects, rfl, rfl, ?_, ?_, ?_, ?_, ?_, ?_, ?_, ?_⟩
  · exact sections_map hf _ _ (fun _ _ _ _ hs => by rw [hs.sectname, hs.segname])
  · exact sections_map hf _ _ (fun _ _ _ _ hs => hs.type)
  · intro i s p hs hp
    obtain ⟨p', hp', hsay⟩ := sections_get hf hs
    rw [hp] at hp'
    cases hp'
    exact hsay.attrs
  · intro s hs
    obtain ⟨i, hi⟩ := List.getElem?_of_mem hs
    obtain ⟨p', hp', hsay⟩ := sections_get hf hi
    exact hsay.rest
  · exact (raw_fields bd h hf).1
  · exact (raw_fields bd h hf).2.1
  · exact (raw_fields bd h hf).2.2.1
  · exact (raw_fields bd h hf).2.2.2

/-! ## C27 -/

/-- C27.  The bytes a section header points at are the bytes of that section of the object (a
zero-fill section has none), and the segment's file range is exactly the section contents followed
by fewer than 8 zero bytes up to a multiple of 8. -/
theorem C27_section_bytes (bd bd' : Build) (h : Endian) (o : Object) (hf : Fits o) :
    ∃ v rest, view bd' h (writeInto bd h o).out = .ok (v, rest) ∧
      v.sections.length = (parts o).length ∧
      (∀ (i : Nat) (p : Part) (s : Section64), (parts o)[i]? = some p → v.sections[i]? = some s →
        s.size.toNat = p.vmsize ∧
        (p.zerofill = false →
          bytesAt (writeInto bd h o).out s.offset.toNat s.size.toNat = some p.bytes) ∧
        (p.zerofill = true → s.offset = 0 ∧ s.type = .zerofill)) ∧
      v.segment.filesize.toNat % 8 = 0 ∧
      ∃ k, k < 8 ∧ bytesAt (writeInto bd h o).out v.segment.fileoff.toNat v.segment.filesize.toNat =
        some ((parts o).flatMap (·.bytes) ++ List.replicate k 0) := by
  obtain ⟨rest, hv, -, -⟩ := view_out bd bd' h hf
  obtain ⟨r, hr⟩ := out_eq bd h hf
  have hn := nums hf
  refine ⟨viewOf o, rest, hv, sections_length hf, ?_, ?_, ?_⟩
  · intro i p s hp hs
    obtain ⟨p', hp', hsay⟩ := sections_get hf hs
    rw [hp] at hp'
    cases hp'
    refine ⟨hsay.size, fun hz => ?_, fun hz => ⟨?_, ?_⟩⟩
    · rw [hr, hsay.offset, hz, if_neg (by decide), hsay.size, ← hsay.filled hz]
      exact section_bytes h _ _ (iter_length hf) r hp
    · apply UInt32.toNat.inj
      rw [hsay.offset, hz]; rfl
    · rw [hsay.type, hz]; rfl
  · rw [hn.filesize]; unfold roundUp8; omega
  · refine ⟨roundUp8 (dataLen (parts o)) - dataLen (parts o), by unfold roundUp8; omega, ?_⟩
    rw [hn.fileoff, hn.filesize, hr]
    exact data_bytes h _ _ (iter_length hf) r

/-! ## C28, C30 -/

/-- Length code of a relocation entry. -/
def lenCode : RelocLength → Nat
  | .byte => 0 | .word => 1 | .long => 2 | .quad => 3

theorem lenCode_tab : ∀ n ≤ 3, lenCode (lenOf (UInt8.ofNat n)) = n := by decide

theorem lenCode_lenOf (n : UInt8) (h : n.toNat ≤ 3) : lenCode (lenOf n) = n.toNat := by
  have := lenCode_tab n.toNat h
  rwa [UInt8.ofNat_toNat] at this

theorem relocOk_of {o : Object} (hw : Writable o) :
    ∀ r ∈ (parts o).flatMap (·.relocs), relocOk (parts o) r :=
  fun r hr => ⟨hw.defined r hr, hw.lens r hr⟩

/-- Entry `k` of section `i`'s relocation table: the entries are read at the section header's
`reloff`, `nreloc` of them. -/
theorem relocs_read (bd : Build) (h : Endian) {o : Object} (hf : Fits o)
    (hw : Writable o) (h24 : (symNames o).length < 2 ^ 24) {i : Nat} {p : Part} {s : Section64}
    (hp : (parts o)[i]? = some p) (hs : (viewOf o).sections[i]? = some s) :
    ∃ rest, readN (RelocationInfo.readFromIn h) s.nreloc.toNat
      ((writeInto bd h o).out.drop s.reloff.toNat) =
      .ok (p.relocs.map (fun r => relocOf (parts o) (lenOf r.len) r), rest) := by
  obtain ⟨p', hp', hsay⟩ := sections_get hf hs
  rw [hp] at hp'
  cases hp'
  rw [(writeInto_writes bd h hf hw).out, hsay.nreloc, hsay.reloff]
  have h24' : symCount (parts o) < 2 ^ 24 := by
    rw [← length_placed]
    simpa [symNames] using h24
  cases hz : p.zerofill with
  | false =>
    exact section_relocs h _ _ (iter_length hf) h24' (relocOk_of hw) hp
  | true =>
    rw [(hsay.bss hz).2]
    exact ⟨_, rfl⟩

/-- C28.  For every section, the `nreloc` entries at `reloff` are that section's relocations, one
for one and in order: same address, pc-relative flag and length; all external, all of type
`X86_64_RELOC_UNSIGNED` (0). -/
theorem C28_relocations (bd bd' : Build) (h : Endian) (o : Object) (hf : Fits o)
    (hw : Writable o) (h24 : (symNames o).length < 2 ^ 24) :
    ∃ v rest, view bd' h (writeInto bd h o).out = .ok (v, rest) ∧
      v.sections.length = (parts o).length ∧
      ∀ (i : Nat) (p : Part) (s : Section64), (parts o)[i]? = some p → v.sections[i]? = some s →
        ∃ l rest', readN (RelocationInfo.readFromIn h) s.nreloc.toNat
            ((writeInto bd h o).out.drop s.reloff.toNat) = .ok (l, rest') ∧
          l.length = p.relocs.length ∧
          ∀ (k : Nat) (r : Reloc) (e : RelocationInfo), p.relocs[k]? = some r → l[k]? = some e →
            e.rAddress = r.addr ∧ e.rPcrel = r.pcrel ∧ lenCode e.rLength = r.len.toNat ∧
            e.rExtern = true ∧ e.rType = 0 := by
  obtain ⟨rest, hv, -, -⟩ := view_out bd bd' h hf
  refine ⟨viewOf o, rest, hv, sections_length hf, fun i p s hp hs => ?_⟩
  obtain ⟨rest', hr⟩ := relocs_read bd h hf hw h24 hp hs
  refine ⟨_, rest', hr, by simp, fun k r e hr he => ?_⟩
  rw [List.getElem?_map, hr] at he
  cases he
  have hm : r ∈ allRelocs o := List.mem_flatMap.2
    ⟨p, List.mem_of_getElem? hp, List.mem_of_getElem? hr⟩
  exact ⟨rfl, rfl, lenCode_lenOf _ (hw.lens r hm), rfl, rfl⟩

/-! ## C29 -/

/-- What the symbol table entry of a symbol of section number `i` (from 0) must say. -/
structure EntrySays (f : Bytes) (v : View) (i : Nat) (sym : Symbol) (e : NList64) : Prop where
  /-- the name, found in the string table -/
  name : (∀ c ∈ sym.name, c.toNat ≠ 0) →
    cstrAt f (v.symtab.stroff.toNat + e.nStrx.toNat) = some (utf8 sym.name)
  inside : (∀ c ∈ sym.name, c.toNat ≠ 0) → e.nStrx.toNat < v.symtab.strsize.toNat
  /-- a name with a NUL has no place there: the entry points to the end of the table -/
  nul : (∃ c ∈ sym.name, c.toNat = 0) → e.nStrx.toNat = v.symtab.strsize.toNat
  desc : e.nDesc = 0
  undef : ∀ n, sym = .undef n → e.nType = .norm false .undf true ∧ e.nSect = 0 ∧ e.nValue = 0
  abs : ∀ n val ext, sym = .abs n val ext → e.nType = .norm false .abs ext ∧ e.nValue = val
  ref : ∀ n addr ext, sym = .ref n addr ext → e.nType = .norm false .sect ext ∧
    e.nSect.toNat = i + 1 ∧
    ∃ s, v.sections[i]? = some s ∧ e.nValue.toNat = s.addr.toNat + addr.toNat

theorem symbols_read (bd : Build) (h : Endian) {o : Object} (hf : Fits o)
    (hw : Writable o) : ∃ rest, readN (NList64.readFromIn h) (viewOf o).symtab.nsyms.toNat
      ((writeInto bd h o).out.drop (viewOf o).symtab.symoff.toNat) =
      .ok ((placed (parts o)).map (entryOf ((placed (parts o)).map (·.2.name)) (parts o)), rest) := by
  have hnum := nums hf
  rw [hnum.nsyms, hnum.symoff, (writeInto_writes bd h hf hw).out]
  exact symbol_entries h _ _ (iter_length hf)

theorem strx_nat {o : Object} (hf : Fits o) (hw : Writable o) {n : Str}
    (hm : n ∈ symNames o) : (UInt32.ofNat (strPos (symNames o) n)).toNat = strPos (symNames o) n ∧
      ((∀ c ∈ n, c.toNat ≠ 0) → strPos (symNames o) n < strLen (parts o)) ∧
      ((∃ c ∈ n, c.toNat = 0) → strPos (symNames o) n = strLen (parts o)) := by
  have hpl := names_ascii hw.ascii
  have hle := strPos_le (symNames o) n hpl hm
  have hns := names_sum (parts o) hpl
  have e1 := hf.strs
  have hle' : strPos (symNames o) n ≤ strLen (parts o) := by rw [← hns]; exact hle
  refine ⟨u32_ofNat _ (by omega), fun h0 => ?_, ?_⟩
  · rw [← hns]; exact strPos_lt _ n hm (not_nul h0)
  · rintro ⟨c, hc, h0⟩
    rw [← hns]
    have : c = Char.ofNat 0 := by
      apply Char.ext
      apply UInt32.toNat.inj
      exact h0
    exact strPos_nul _ n hpl (this ▸ hc)

theorem entry_says (bd : Build) (h : Endian) {o : Object} (hf : Fits o)
    (hw : Writable o) {i : Nat} {sym : Symbol} (hm : (i, sym) ∈ placed (parts o)) :
    EntrySays (writeInto bd h o).out (viewOf o) i sym
      (entryOf ((placed (parts o)).map (·.2.name)) (parts o) (i, sym)) := by
  have hnum := nums hf
  have hpl := names_ascii hw.ascii
  have hnm : sym.name ∈ symNames o := List.mem_map.2 ⟨(i, sym), hm, rfl⟩
  have hx := strx_nat hf hw hnm
  obtain ⟨q, hq, -⟩ := placed_mem hm
  obtain ⟨hi, -⟩ := List.getElem?_eq_some_iff.1 hq
  have h3 := parts_le o
  constructor
  · intro h0
    rw [entryOf_strx, hnum.stroff, (writeInto_writes bd h hf hw).out]
    have := cstr_in_image h _ _ (iter_length hf) sym.name hnm ⟨hpl _ hnm, not_nul h0⟩
    rw [← this, show (UInt32.ofNat (strPos ((placed (parts o)).map (·.2.name)) sym.name)).toNat =
      strPos ((placed (parts o)).map (·.2.name)) sym.name from hx.1]
  · intro h0
    rw [entryOf_strx, hnum.strsize]
    show (UInt32.ofNat (strPos (symNames o) sym.name)).toNat < _
    rw [hx.1]; exact hx.2.1 h0
  · intro h0
    rw [entryOf_strx, hnum.strsize]
    show (UInt32.ofNat (strPos (symNames o) sym.name)).toNat = _
    rw [hx.1]; exact hx.2.2 h0
  · cases sym <;> rfl
  · rintro n rfl
    exact ⟨rfl, rfl, rfl⟩
  · rintro n val ext rfl
    exact ⟨rfl, rfl⟩
  · rintro n addr ext rfl
    obtain ⟨s, hs, hsay⟩ := readSections_get hf hq
    refine ⟨rfl, ?_, s, hs, ?_⟩
    · show (UInt8.ofNat (i + 1)).toNat = i + 1
      have hi' : i < (parts o).length := hi
      rw [UInt8.toNat_ofNat', Nat.mod_eq_of_lt (by omega)]
    · show (UInt64.ofNat (addrOf (parts o) i + addr.toNat)).toNat = _
      rw [u64_ofNat _ (hf.refs i n addr ext hm), hsay.addr]

/-- C29.  The `nsyms` entries at `symoff` are, one for one and in order, the symbols of the
non-empty sections (section order, then definition order), each with its name, external bit, and
for a `Ref` symbol the ordinal of its section and value = section address + offset.  (A name with a
NUL in it is not found: the entry points to the end of the table.) -/
theorem C29_symbol_table (bd bd' : Build) (h : Endian) (o : Object) (hf : Fits o)
    (hw : Writable o) :
    ∃ v rest, view bd' h (writeInto bd h o).out = .ok (v, rest) ∧
      ∃ l rest', readN (NList64.readFromIn h) v.symtab.nsyms.toNat
          ((writeInto bd h o).out.drop v.symtab.symoff.toNat) = .ok (l, rest') ∧
        l.length = (placed (parts o)).length ∧
        ∀ (k i : Nat) (sym : Symbol) (e : NList64), (placed (parts o))[k]? = some (i, sym) →
          l[k]? = some e → EntrySays (writeInto bd h o).out v i sym e := by
  obtain ⟨rest, hv, -, -⟩ := view_out bd bd' h hf
  obtain ⟨rest', hr⟩ := symbols_read bd h hf hw
  refine ⟨viewOf o, rest, hv, _, rest', hr, by simp, fun k i sym e hk he => ?_⟩
  rw [List.getElem?_map, hk] at he
  cases he
  exact entry_says bd h hf hw (List.mem_of_getElem? hk)

theorem idxOf_get (l : List Str) (n : Str) (h : n ∈ l) : l[l.idxOf n]? = some n := by
  have hlt := List.idxOf_lt_length_iff.2 h
  rw [List.getElem?_eq_getElem hlt, List.getElem_idxOf hlt]

theorem idxOf_first (l : List Str) (n : Str) (j : Nat) (hj : j < l.idxOf n) : l[j]? ≠ some n := by
  intro h
  induction l generalizing j with
  | nil => simp at h
  | cons a l ih =>
    rw [List.idxOf_cons] at hj
    by_cases ha : a = n
    · simp [ha] at hj
    · rw [show (a == n) = false by simpa using ha] at hj
      simp only [cond_false] at hj
      cases j with
      | zero => exact ha (by simpa using h)
      | succ j => exact ih j (by omega) (by simpa using h)

/-- C30.  Every relocation entry's symbol number selects a symbol table entry whose name is the
relocation's symbol, and no earlier symbol has that name. -/
theorem C30_relocation_targets (bd bd' : Build) (h : Endian) (o : Object) (hf : Fits o)
    (hn : NulFree o) (hw : Writable o) (h24 : (symNames o).length < 2 ^ 24) :
    ∃ v rest, view bd' h (writeInto bd h o).out = .ok (v, rest) ∧
      ∃ syms rest', readN (NList64.readFromIn h) v.symtab.nsyms.toNat
          ((writeInto bd h o).out.drop v.symtab.symoff.toNat) = .ok (syms, rest') ∧
      ∀ (i : Nat) (p : Part) (s : Section64), (parts o)[i]? = some p → v.sections[i]? = some s →
        ∃ l rest', readN (RelocationInfo.readFromIn h) s.nreloc.toNat
            ((writeInto bd h o).out.drop s.reloff.toNat) = .ok (l, rest') ∧
          ∀ (k : Nat) (r : Reloc) (e : RelocationInfo), p.relocs[k]? = some r → l[k]? = some e →
            ∃ t, syms[e.rSymbolnum.toNat]? = some t ∧
              cstrAt (writeInto bd h o).out (v.symtab.stroff.toNat + t.nStrx.toNat) =
                some (utf8 r.symbol) ∧
              ∀ (j : Nat) (u : NList64), j < e.rSymbolnum.toNat → syms[j]? = some u →
                cstrAt (writeInto bd h o).out (v.symtab.stroff.toNat + u.nStrx.toNat) ≠
                  some (utf8 r.symbol) := by
  obtain ⟨rest, hv, -, -⟩ := view_out bd bd' h hf
  obtain ⟨rest', hr⟩ := symbols_read bd h hf hw
  refine ⟨viewOf o, rest, hv, _, rest', hr, fun i p s hp hs => ?_⟩
  obtain ⟨rest'', hl⟩ := relocs_read bd h hf hw h24 hp hs
  refine ⟨_, rest'', hl, fun k r e hk he => ?_⟩
  rw [List.getElem?_map, hk] at he
  cases he
  have hm : r ∈ allRelocs o := List.mem_flatMap.2
    ⟨p, List.mem_of_getElem? hp, List.mem_of_getElem? hk⟩
  have hd : r.symbol ∈ symNames o := hw.names hn r hm
  have hidx : (relocOf (parts o) (lenOf r.len) r).rSymbolnum.toNat = (symNames o).idxOf r.symbol := by
    have := symIdx_lt (ps := parts o) (hw.defined r hm)
    simp only [relocOf]
    rw [← length_placed] at this
    have h24' : (placed (parts o)).length < 2 ^ 24 := by simpa [symNames] using h24
    rw [u32_ofNat _ (by omega)]
    exact congrArg (List.idxOf r.symbol) (seen_names hn)
  have hg := idxOf_get _ _ hd
  unfold symNames at hg hidx
  rw [List.getElem?_map] at hg
  obtain ⟨⟨i', sym⟩, hsym, hname⟩ := Option.map_eq_some_iff.1 hg
  simp only at hname
  refine ⟨entryOf ((placed (parts o)).map (·.2.name)) (parts o) (i', sym), ?_, ?_, ?_⟩
  · rw [hidx, List.getElem?_map, hsym]; rfl
  · have := (entry_says bd h hf hw (List.mem_of_getElem? hsym)).name
      (hn _ (List.mem_map.2 ⟨_, List.mem_of_getElem? hsym, rfl⟩))
    rw [this, hname]
  · intro j u hj hu hc
    rw [hidx] at hj
    rw [List.getElem?_map] at hu
    obtain ⟨⟨i₂, sym₂⟩, hsym₂, rfl⟩ := Option.map_eq_some_iff.1 hu
    have := (entry_says bd h hf hw (List.mem_of_getElem? hsym₂)).name
      (hn _ (List.mem_map.2 ⟨_, List.mem_of_getElem? hsym₂, rfl⟩))
    rw [this] at hc
    have hinj := utf8_injective (Option.some.inj hc)
    apply idxOf_first _ _ _ hj
    rw [List.getElem?_map, hsym₂]
    simp [hinj]

/-! ## C31 -/

theorem getLast_cstrs (l : List Str) : (0 :: cstrs l).getLast? = some 0 := by
  induction l with
  | nil => rfl
  | cons s l ih =>
    rw [cstrs_cons, ← List.cons_append, List.getLast?_append, ih]
    rfl

/-- C31.  The regions tile the file: load commands directly after the header, section data directly
after them with every section directly after the one before, relocation tables directly after the
(padded) data and directly after one another, then the symbol entries, then the string table, which
ends the file and starts and ends with NUL. -/
theorem C31_tiling (bd bd' : Build) (h : Endian) (o : Object) (hf : Fits o)
    (hw : Writable o) :
    ∃ v rest, view bd' h (writeInto bd h o).out = .ok (v, rest) ∧
      v.header.sizeOfCmds.toNat = v.segment.cmdsize.toNat + v.symtab.cmdsize.toNat ∧
      v.segment.cmdsize.toNat = 72 + 80 * v.sections.length ∧ v.symtab.cmdsize.toNat = 24 ∧
      v.segment.fileoff.toNat = 32 + v.header.sizeOfCmds.toNat ∧
      (∀ (i : Nat) (s : Section64), v.sections[i]? = some s → s.type ≠ .zerofill →
        s.offset.toNat = v.segment.fileoff.toNat + ((v.sections.take i).map fileBytes).sum ∧
        s.reloff.toNat = v.segment.fileoff.toNat + v.segment.filesize.toNat +
          8 * ((v.sections.take i).map (·.nreloc.toNat)).sum) ∧
      (v.sections.map fileBytes).sum ≤ v.segment.filesize.toNat ∧
      v.segment.filesize.toNat < (v.sections.map fileBytes).sum + 8 ∧
      v.symtab.symoff.toNat = v.segment.fileoff.toNat + v.segment.filesize.toNat +
        8 * (v.sections.map (·.nreloc.toNat)).sum ∧
      v.symtab.stroff.toNat = v.symtab.symoff.toNat + 16 * v.symtab.nsyms.toNat ∧
      (writeInto bd h o).out.length = v.symtab.stroff.toNat + v.symtab.strsize.toNat ∧
      (writeInto bd h o).out[v.symtab.stroff.toNat]? = some 0 ∧
      (writeInto bd h o).out.getLast? = some 0 := by
  obtain ⟨rest, hv, -, -⟩ := view_out bd bd' h hf
  have hnum := nums hf
  have hpl := names_ascii hw.ascii
  have hfl := hf.file
  have e1 := hf.strs
  have e2 : strStart (parts o) = symStart (parts o) + 16 * symCount (parts o) := rfl
  have e3 : symStart (parts o) = relocStart (parts o) + 8 * relocCount (parts o) := rfl
  have e4 : relocStart (parts o) = cmdsEnd (parts o) + roundUp8 (dataLen (parts o)) := rfl
  have e5 : cmdsEnd (parts o) = 32 + 72 + 80 * (parts o).length + 24 := rfl
  have hall : ∀ (f : Section64 → Nat), ((viewOf o).sections.map f).sum =
      (((viewOf o).sections.take (parts o).length).map f).sum := by
    intro f
    rw [← sections_length hf, List.take_length]
  have hcs : (viewOf o).segment.cmdsize.toNat = 72 + 80 * (parts o).length := by
    simp only [viewOf, segmentOf]
    exact u32_ofNat _ (by omega)
  have hsc : (viewOf o).symtab.cmdsize.toNat = 24 := rfl
  have hle : dataLen (parts o) ≤ roundUp8 (dataLen (parts o)) := by unfold roundUp8; omega
  have hlt : roundUp8 (dataLen (parts o)) < dataLen (parts o) + 8 := by unfold roundUp8; omega
  obtain ⟨a, ha, hal⟩ := image_strtab h (parts o) o.sections.iter (iter_length hf)
  refine ⟨viewOf o, rest, hv, ?_, ?_, rfl, ?_, ?_, ?_, ?_, ?_, ?_, ?_, ?_, ?_⟩
  · rw [hnum.sizeOfCmds, hcs, hsc]
  · rw [hcs, sections_length hf]
  · rw [hnum.fileoff, hnum.sizeOfCmds]; omega
  · intro i s hs hz
    obtain ⟨p, hp, hsay⟩ := sections_get hf hs
    have hpz : p.zerofill = false := by
      cases hpz : p.zerofill with
      | false => rfl
      | true => exact absurd (by rw [hsay.type, hpz]; rfl) hz
    rw [hsay.offset, hsay.reloff, hpz, hnum.fileoff, hnum.filesize, fileBytes_take hf,
      nreloc_take hf]
    exact ⟨rfl, rfl⟩
  · rw [hall, fileBytes_take hf, List.take_length, hnum.filesize]; exact hle
  · rw [hall, fileBytes_take hf, List.take_length, hnum.filesize]; exact hlt
  · rw [hall, nreloc_take hf, List.take_length, hnum.symoff, hnum.fileoff, hnum.filesize]
    omega
  · rw [hnum.stroff, hnum.symoff, hnum.nsyms]; exact e2
  · rw [(writeInto_writes bd h hf hw).out,
      length_image h _ _ (iter_length hf) hpl, hnum.stroff, hnum.strsize]
    rfl
  · rw [(writeInto_writes bd h hf hw).out, ha, hnum.stroff, ← hal,
      List.getElem?_append_right (Nat.le_refl _)]
    simp
  · rw [(writeInto_writes bd h hf hw).out, ha, List.getLast?_append, getLast_cstrs]
    rfl

/-! ## C32 -/

/-- C32.  Section addresses start at 0, are contiguous and aligned as the section header says,
sections are non-empty and occupy disjoint address ranges inside `[0, vmsize)`, and the segment's size is their total. -/
theorem C32_addresses (bd bd' : Build) (h : Endian) (o : Object) (hf : Fits o) :
    ∃ v rest, view bd' h (writeInto bd h o).out = .ok (v, rest) ∧
      v.segment.vmaddr = 0 ∧
      (∀ (i : Nat) (s : Section64), v.sections[i]? = some s → 0 < s.size.toNat ∧
        s.addr.toNat = ((v.sections.take i).map (·.size.toNat)).sum ∧
        s.addr.toNat + s.size.toNat ≤ v.segment.vmsize.toNat ∧ s.addr.toNat % 2 ^ s.align.toNat = 0) ∧
      (∀ (i j : Nat) (s t : Section64), i < j → v.sections[i]? = some s → v.sections[j]? = some t →
        s.addr.toNat + s.size.toNat ≤ t.addr.toNat) ∧
      v.segment.vmsize.toNat = (v.sections.map (·.size.toNat)).sum := by
  obtain ⟨rest, hv, -, -⟩ := view_out bd bd' h hf
  have hnum := nums hf
  refine ⟨viewOf o, rest, hv, rfl, ?_, ?_, ?_⟩
  · intro i s hs
    obtain ⟨p, hp, hsay⟩ := sections_get hf hs
    rw [hsay.addr, sizes_take hf, hsay.size, hnum.vmsize]
    refine ⟨?_, rfl, take_sum_le hp (·.vmsize), by rw [hsay.rest.1]; exact Nat.mod_one _⟩
    have hm := List.mem_of_getElem? hp
    have hpos : ∀ b : Bytes, b ≠ [] → 0 < b.length := fun b hb => List.length_pos_iff.2 hb
    have hnz : ∀ n : UInt64, n ≠ 0 → 0 < n.toNat := fun n hn =>
      Nat.pos_of_ne_zero (fun h => hn (UInt64.toNat.inj h))
    unfold parts at hm
    rw [List.mem_append, List.mem_append] at hm
    rcases hm with (hm | hm) | hm
    all_goals
      split at hm
      · simp at hm
      · rw [List.mem_singleton] at hm
        subst hm
        first | exact hpos _ (by assumption) | exact hnz _ (by assumption)
  · intro i j s t hij hs ht
    obtain ⟨p, hp, hsay⟩ := sections_get hf hs
    obtain ⟨q, hq, hsayq⟩ := sections_get hf ht
    rw [hsay.addr, hsay.size, hsayq.addr]
    have hp' : ((parts o).take j)[i]? = some p := by
      rw [List.getElem?_take, if_pos hij]; exact hp
    have := take_sum_le hp' (·.vmsize)
    rw [List.take_take, Nat.min_eq_left (by omega)] at this
    exact this
  · rw [hnum.vmsize]
    have := sizes_take hf (parts o).length
    rw [List.take_length, ← sections_length hf, List.take_length] at this
    exact this.symm

/-! ## A concrete object meeting the hypotheses of C26-C32 -/

/-- `text` with a code label, an absolute and an undefined symbol and two relocations, `data` with a
label, a zero-fill section with a label. -/
def sampleObject : Object where
  sections :=
    { text := { bytes := [0x48, 0xb8, 0, 0, 0, 0, 0, 0, 0, 0, 0xc3]
                symbols := [.ref (str% "_main") 0 true, .undef (str% "_puts"), .abs (str% "N") 7 false]
                relocs := [⟨2, str% "msg", false, 3⟩, ⟨2, str% "_puts", false, 2⟩] }
      data := { bytes := [104, 105, 0], symbols := [.ref (str% "msg") 0 false], relocs := [] }
      bss := { size := 16, symbols := [.ref (str% "buf") 4 false] } }

/-- Decidable form of `Fits.refs`. -/
def refsFit (o : Object) : Bool := (placed (parts o)).all fun p =>
  match p.2 with
  | .ref _ addr _ => decide (addrOf (parts o) p.1 + addr.toNat < 2 ^ 64)
  | _ => true

theorem Fits.of_dec {o : Object} (h1 : fileLen (parts o) < 2 ^ 32) (h2 : vmLen (parts o) < 2 ^ 64)
    (h3 : refsFit o = true) : Fits o := by
  unfold fileLen at h1
  refine ⟨by omega, by omega, h2, fun i name addr ext hm => ?_⟩
  have := (List.all_eq_true.1 h3) _ hm
  simpa using this

theorem sample_fits : Fits sampleObject :=
  Fits.of_dec (by decide +kernel) (by decide +kernel) (by decide +kernel)

theorem sample_nulFree : NulFree sampleObject := by
  unfold NulFree; decide +kernel

theorem sample_writable : Writable sampleObject :=
  ⟨by decide +kernel, by decide +kernel, by decide +kernel⟩

/-- C26-C32 apply to `sampleObject`; its file has 503 bytes, three sections and five symbols. -/
example : (writeInto .debug .little sampleObject).res = .ok () ∧
    (writeInto .debug .little sampleObject).out.length = 503 ∧
    ((view .debug .little (writeInto .debug .little sampleObject).out).map
      (fun v => (v.1.sections.length, v.1.symtab.nsyms))) = .ok (3, 5) := by decide +kernel

/-! ## C34 -/

/-- C34.  For an object that fits the format, writing succeeds iff every emitted symbol name is ASCII
and every relocation names an emitted symbol and has a length code of at most 3; otherwise it panics.
In both profiles.  A symbol whose name contains a NUL cannot be named by a relocation; it is taken for
a symbol with the empty name. -/
theorem C34_write_ok_iff (bd : Build) (h : Endian) (o : Object) (hf : Fits o) :
    ((writeInto bd h o).res = .ok () ↔ Writable o) ∧
    ((writeInto bd h o).res = .error .panic ↔ ¬ Writable o) := by
  by_cases hw : Writable o
  · have := (writeInto_writes bd h hf hw).res
    simp [this, hw]
  · have := (writeInto_panics bd h hf hw).1
    simp [this, hw]

/-- Hypotheses of C34 with a relocation to a symbol that is not emitted. -/
example : ∃ o : Object, Fits o ∧ ¬ Writable o ∧
    (writeInto .release .little o).res = .error .panic :=
  ⟨{ sections := { text := { bytes := [0xc3], relocs := [⟨0, str% "x", false, 2⟩] } } },
    Fits.of_dec (by decide +kernel) (by decide +kernel) (by decide +kernel),
    fun h => absurd (h.defined ⟨0, str% "x", false, 2⟩ (by decide +kernel)) (by decide +kernel),
    by decide +kernel⟩

/-- A symbol with a NUL in its name: a relocation to that name is refused, one to the empty name is
taken for it. -/
def nulObject (n : Str) : Object :=
  { sections := { text := { bytes := [0xc3], symbols := [.ref ['a', Char.ofNat 0, 'b'] 0 false],
                            relocs := [⟨0, n, false, 2⟩] } } }

example : Fits (nulObject []) ∧ Writable (nulObject []) ∧
    (writeInto .debug .little (nulObject [])).res = .ok () ∧
    Fits (nulObject ['a', Char.ofNat 0, 'b']) ∧ ¬ Writable (nulObject ['a', Char.ofNat 0, 'b']) ∧
    (writeInto .debug .little (nulObject ['a', Char.ofNat 0, 'b'])).res = .error .panic :=
  ⟨Fits.of_dec (by decide +kernel) (by decide +kernel) (by decide +kernel),
    ⟨by decide +kernel, by decide +kernel, by decide +kernel⟩, by decide +kernel,
    Fits.of_dec (by decide +kernel) (by decide +kernel) (by decide +kernel),
    fun h => absurd (h.defined ⟨0, ['a', Char.ofNat 0, 'b'], false, 2⟩ (by decide +kernel))
      (by decide +kernel), by decide +kernel⟩

/-! ## C33 -/

/-- Names in the symbol table of a file: entries read at `symoff`, names at `stroff + n_strx`. -/
def tableNames (bd : Build) (h : Endian) (f : Bytes) : Res (List (Option Bytes)) := do
  let (v, _) ← view bd h f
  let (l, _) ← readN (NList64.readFromIn h) v.symtab.nsyms.toNat (f.drop v.symtab.symoff.toNat)
  pure (l.map (fun e => cstrAt f (v.symtab.stroff.toNat + e.nStrx.toNat)))

/-- C29, names: the name `"a\0b"` is written, but its entry points past the end of the file. -/
theorem C29_nul_counterexample : ∃ o : Object, Fits o ∧ Writable o ∧
    (writeInto .debug .little o).res = .ok () ∧
    tableNames .debug .little (writeInto .debug .little o).out = .ok [none] :=
  ⟨{ sections := { text := { bytes := [0xc3], symbols := [.ref ['a', Char.ofNat 0, 'b'] 0 true] } } },
    Fits.of_dec (by decide +kernel) (by decide +kernel) (by decide +kernel),
    ⟨by decide +kernel, by decide +kernel, by decide +kernel⟩, by decide +kernel,
    by decide +kernel⟩

/-- C33 is false: a symbol of a section without contents does not appear in the file.  (An assembly
source consisting of a label only produces this object.) -/
theorem C33_counterexample : ∃ (o : Object) (sym : Symbol), sym ∈ o.symbols ∧ Fits o ∧ NulFree o ∧
    (writeInto .debug .little o).res = .ok () ∧
    tableNames .debug .little (writeInto .debug .little o).out = .ok [] :=
  ⟨{ sections := { text := { symbols := [.ref (str% "_main") 0 true] } } },
    .ref (str% "_main") 0 true, by decide,
    Fits.of_dec (by decide +kernel) (by decide +kernel) (by decide +kernel),
    by unfold NulFree; decide +kernel, by decide +kernel, by decide +kernel⟩

/-- C33, what holds: every symbol of a section with contents appears, under its name if that has no
NUL.  Missing: the symbols of empty sections, which are dropped (see the counterexample). -/
theorem C33_no_symbol_lost_partial (bd bd' : Build) (h : Endian) (o : Object) (hf : Fits o)
    (hw : Writable o) (p : Part) (hp : p ∈ parts o) (sym : Symbol)
    (hs : sym ∈ p.symbols) (h0 : ∀ c ∈ sym.name, c.toNat ≠ 0) :
    ∃ l, tableNames bd' h (writeInto bd h o).out = .ok l ∧ some (utf8 sym.name) ∈ l := by
  obtain ⟨rest, hv, -, -⟩ := view_out bd bd' h hf
  obtain ⟨rest', hr⟩ := symbols_read bd h hf hw
  unfold tableNames
  rw [hv]
  simp only [bind, Except.bind]
  rw [hr]
  refine ⟨_, rfl, ?_⟩
  have hmem : sym ∈ (placed (parts o)).map (·.2) := by
    rw [placed_symbols]
    exact List.mem_flatMap.2 ⟨p, hp, hs⟩
  obtain ⟨⟨i, sym'⟩, hm, rfl⟩ := List.mem_map.1 hmem
  rw [List.map_map]
  refine List.mem_map.2 ⟨(i, sym'), hm, ?_⟩
  exact (entry_says bd h hf hw hm).name h0

/-! ## C35 -/

theorem runSinkGo_take {α : Type} (res : Res α) (l : List Bytes) (k : Nat) :
    (runSinkGo k res l).1 = l.flatten.take k ∧
    (runSinkGo k res l).2 = if l.flatten.length ≤ k then res else .error .panic := by
  induction l generalizing k with
  | nil => simp [runSinkGo]
  | cons c cs ih =>
    unfold runSinkGo sinkWrite
    by_cases hc : c.length ≤ k
    · rw [if_pos hc]
      obtain ⟨h1, h2⟩ := ih (k - c.length)
      simp only [h1, h2, List.flatten_cons, List.length_append]
      constructor
      · rw [List.take_append, List.take_of_length_le hc]
      · by_cases hl : cs.flatten.length ≤ k - c.length
        · rw [if_pos hl, if_pos (by omega)]
        · rw [if_neg hl, if_neg (by omega)]
    · rw [if_neg hc]
      simp only [List.flatten_cons, List.length_append]
      constructor
      · rw [List.take_append_of_le_length (by omega)]
      · rw [if_neg (by omega)]

/-- C35, failing sink.  Against a sink that accepts only `k` bytes, exactly the first `k` bytes of
the intended output are stored, and the writer panics iff that is not everything.  For every
object, profile and `k`. -/
theorem C35_sink_failure (bd : Build) (h : Endian) (o : Object) (k : Nat) :
    ((writeInto bd h o).runSink k).1 = (writeInto bd h o).out.take k ∧
    ((writeInto bd h o).runSink k).2 =
      if (writeInto bd h o).out.length ≤ k then (writeInto bd h o).res else .error .panic :=
  runSinkGo_take _ _ _

/-- Two objects whose files have the same layout: same section contents, same number of
relocations per section, same number of symbols, same total length of names. -/
structure SameShape (o o' : Object) : Prop where
  text : o.sections.text.bytes = o'.sections.text.bytes
  data : o.sections.data.bytes = o'.sections.data.bytes
  bss : o.sections.bss.size = o'.sections.bss.size
  textRelocs : o.sections.text.relocs.length = o'.sections.text.relocs.length
  dataRelocs : o.sections.data.relocs.length = o'.sections.data.relocs.length
  symbols : (placed (parts o)).length = (placed (parts o')).length
  names : strLen (parts o) = strLen (parts o')

theorem isEmpty_congr {α β : Type} {l : List α} {m : List β} (h : l.length = m.length) :
    l.isEmpty = m.isEmpty := by
  cases l <;> cases m <;> simp at h ⊢

theorem relocAttrs_congr {l m : List Reloc} (h : l.length = m.length) :
    relocAttrs l = relocAttrs m := by
  unfold relocAttrs
  rw [isEmpty_congr h]

theorem sectionsFrom_congr {S S' : List SectionRef} (vm ds rs : Nat)
    (h : S.map (fun s => fun a d r => genSection64 s a d r) =
      S'.map (fun s => fun a d r => genSection64 s a d r))
    (h' : S.map (fun s => ((toPart s).vmsize, (toPart s).bytes.length, (toPart s).relocs.length)) =
      S'.map (fun s => ((toPart s).vmsize, (toPart s).bytes.length, (toPart s).relocs.length))) :
    sectionsFrom vm ds rs S = sectionsFrom vm ds rs S' := by
  induction S generalizing vm ds rs S' with
  | nil => cases S' with
    | nil => rfl
    | cons => simp at h
  | cons s S ih => cases S' with
    | nil => simp at h
    | cons s' S' =>
      simp only [List.map_cons, List.cons.injEq, Prod.mk.injEq] at h h'
      unfold sectionsFrom
      rw [ih (S' := S') _ _ _ h.2 h'.2, h'.1.1, h'.1.2.1, h'.1.2.2]
      congr 1
      have := h.1
      exact congrFun (congrFun (congrFun this _) _) _

theorem prefix_congr (h : Endian) {o o' : Object} (hs : SameShape o o') (hf : Fits o)
    (hf' : Fits o') : cmdBytes h (parts o) o.sections.iter ++ dataBytes (parts o) =
      cmdBytes h (parts o') o'.sections.iter ++ dataBytes (parts o') := by
  have htg : ∀ a d r, genSection64 (.text o.sections.text) a d r =
      genSection64 (.text o'.sections.text) a d r := by
    intro a d r
    simp only [genSection64, genSection64FromText, hs.text, hs.textRelocs,
      relocAttrs_congr hs.textRelocs]
  have hdg : ∀ a d r, genSection64 (.data o.sections.data) a d r =
      genSection64 (.data o'.sections.data) a d r := by
    intro a d r
    simp only [genSection64, genSection64FromData, hs.data, hs.dataRelocs,
      relocAttrs_congr hs.dataRelocs]
  have hbg : ∀ a d r, genSection64 (.bss o.sections.bss) a d r =
      genSection64 (.bss o'.sections.bss) a d r := by
    intro a d r
    simp only [genSection64, genSection64FromBss, hs.bss]
  have hiter : ∀ {γ : Type} (f : SectionRef → γ),
      f (.text o.sections.text) = f (.text o'.sections.text) →
      f (.data o.sections.data) = f (.data o'.sections.data) →
      f (.bss o.sections.bss) = f (.bss o'.sections.bss) →
      o.sections.iter.map f = o'.sections.iter.map f := by
    intro γ f h1 h2 h3
    unfold Sections.iter
    simp only [List.filter_cons, List.filter_nil, SectionRef.isEmpty, SectionRef.vmSize, hs.text,
      hs.data, hs.bss]
    split <;> split <;> split <;> simp [h1, h2, h3]
  have hp := parts_of_fits hf
  have hp' := parts_of_fits hf'
  have hpm : ∀ {γ : Type} (f : Part → γ),
      f (toPart (.text o.sections.text)) = f (toPart (.text o'.sections.text)) →
      f (toPart (.data o.sections.data)) = f (toPart (.data o'.sections.data)) →
      f (toPart (.bss o.sections.bss)) = f (toPart (.bss o'.sections.bss)) →
      (parts o).map f = (parts o').map f := by
    intro γ f h1 h2 h3
    rw [hp, hp', List.map_map, List.map_map]
    exact hiter (f ∘ toPart) h1 h2 h3
  have hbytes : (parts o).map (·.bytes) = (parts o').map (·.bytes) :=
    hpm _ (by simp [toPart, hs.text]) (by simp [toPart, hs.data]) rfl
  have hlen : (parts o).length = (parts o').length := by
    have := congrArg List.length hbytes
    simpa using this
  have hdl : dataLen (parts o) = dataLen (parts o') := by
    unfold dataLen
    rw [hpm (·.bytes.length) (by simp [toPart, hs.text]) (by simp [toPart, hs.data]) rfl]
  have hvl : vmLen (parts o) = vmLen (parts o') := by
    unfold vmLen
    rw [hpm (·.vmsize) (by simp [toPart, hs.text]) (by simp [toPart, hs.data])
      (by simp [toPart, hs.bss])]
  have hrl : relocCount (parts o) = relocCount (parts o') := by
    unfold relocCount
    rw [hpm (·.relocs.length) (by simp [toPart, hs.textRelocs]) (by simp [toPart, hs.dataRelocs]) rfl]
  have hsl : symCount (parts o) = symCount (parts o') := by
    rw [← length_placed, ← length_placed]; exact hs.symbols
  have hce : cmdsEnd (parts o) = cmdsEnd (parts o') := by unfold cmdsEnd; rw [hlen]
  have hrs : relocStart (parts o) = relocStart (parts o') := by
    unfold relocStart; rw [hce, hdl]
  have hss : symStart (parts o) = symStart (parts o') := by unfold symStart; rw [hrs, hrl]
  have hst : strStart (parts o) = strStart (parts o') := by unfold strStart; rw [hss, hsl]
  have hsec : sectionsFrom 0 (cmdsEnd (parts o)) (relocStart (parts o)) o.sections.iter =
      sectionsFrom 0 (cmdsEnd (parts o')) (relocStart (parts o')) o'.sections.iter := by
    rw [hce, hrs]
    apply sectionsFrom_congr
    · exact hiter _ (by funext a d r; exact htg a d r) (by funext a d r; exact hdg a d r)
        (by funext a d r; exact hbg a d r)
    · exact hiter _ (by simp [toPart, hs.text, hs.textRelocs])
        (by simp [toPart, hs.data, hs.dataRelocs]) (by simp [toPart, hs.bss])
  have hfm : (parts o).flatMap (·.bytes) = (parts o').flatMap (·.bytes) := by
    rw [List.flatMap_def, List.flatMap_def, hbytes]
  unfold cmdBytes dataBytes headerOf segmentOf symtabOf
  rw [hsec, hlen, hdl, hvl, hce, hss, hst, hs.names, hsl, hfm]

/-- C35, panicking writer.  When the writer panics on an object that fits the format, what it has
written is a prefix of the file of every writable object of the same shape: the header, the load
commands and all section data, nothing after them. -/
theorem C35_panic_prefix (bd bd' : Build) (h : Endian) (o o' : Object) (hf : Fits o)
    (hp : (writeInto bd h o).res = .error .panic) (hs : SameShape o o')
    (hf' : Fits o') (hw' : Writable o') :
    (writeInto bd h o).out <+: (writeInto bd' h o').out := by
  have hw : ¬ Writable o := (C34_write_ok_iff bd h o hf).2.1 hp
  rw [(writeInto_panics bd h hf hw).2, (writeInto_writes bd' h hf' hw').out,
    prefix_congr h hs hf hf']
  exact ⟨_, rfl⟩

/-- C35 on a concrete pair: a relocation to an undefined name stops the writer; the file of the
object with the name corrected starts with the bytes already written. -/
example : ∃ o o' : Object, SameShape o o' ∧ Fits o ∧ Fits o' ∧
    Writable o' ∧ (writeInto .debug .little o).res = .error .panic ∧
    (writeInto .debug .little o).out.length = 216 ∧
    (writeInto .debug .little o').out.length = 243 :=
  ⟨{ sections := { text := { bytes := [0xc3], symbols := [.ref (str% "y") 0 false],
                             relocs := [⟨0, str% "x", false, 2⟩] } } },
   { sections := { text := { bytes := [0xc3], symbols := [.ref (str% "y") 0 false],
                             relocs := [⟨0, str% "y", false, 2⟩] } } },
   ⟨rfl, rfl, rfl, rfl, rfl, by decide +kernel, by decide +kernel⟩,
   Fits.of_dec (by decide +kernel) (by decide +kernel) (by decide +kernel),
   Fits.of_dec (by decide +kernel) (by decide +kernel) (by decide +kernel),
   ⟨by decide +kernel, by decide +kernel, by decide +kernel⟩,
   by decide +kernel, by decide +kernel, by decide +kernel⟩

/-! ## C36 -/

/-- Entries of the symbol table of a file. -/
def tableEntries (bd : Build) (h : Endian) (f : Bytes) : Res (List NList64) := do
  let (v, _) ← view bd h f
  let (l, _) ← readN (NList64.readFromIn h) v.symtab.nsyms.toNat (f.drop v.symtab.symoff.toNat)
  pure l

/-- C36, what holds: an `Abs` symbol of an emitted section is written with type `N_ABS`, its external
bit and its value.  Missing (and false for every object): `n_sect = NO_SECT`; it is always the
ordinal of the section, which is never `NO_SECT`. -/
theorem C36_abs_entry_partial (bd bd' : Build) (h : Endian) (o : Object) (hf : Fits o)
    (hw : Writable o) (k i : Nat) (n : Str) (val : UInt64) (ext : Bool)
    (hk : (placed (parts o))[k]? = some (i, .abs n val ext)) :
    ∃ l e, tableEntries bd' h (writeInto bd h o).out = .ok l ∧ l[k]? = some e ∧
      e.nType = .norm false .abs ext ∧ e.nValue = val ∧
      e.nSect.toNat = i + 1 ∧ e.nSect ≠ NList64.NO_SECT := by
  obtain ⟨rest, hv, -, -⟩ := view_out bd bd' h hf
  obtain ⟨rest', hr⟩ := symbols_read bd h hf hw
  unfold tableEntries
  rw [hv]
  simp only [bind, Except.bind]
  rw [hr]
  obtain ⟨q, hq, -⟩ := placed_mem (List.mem_of_getElem? hk)
  obtain ⟨hi, -⟩ := List.getElem?_eq_some_iff.1 hq
  have h3 := parts_le o
  have hi' : i < (parts o).length := hi
  have he : (UInt8.ofNat (i + 1)).toNat = i + 1 := by
    rw [UInt8.toNat_ofNat', Nat.mod_eq_of_lt (by omega)]
  refine ⟨_, entryOf ((placed (parts o)).map (·.2.name)) (parts o) (i, .abs n val ext), rfl, ?_,
    rfl, rfl, he, ?_⟩
  · rw [List.getElem?_map, hk]; rfl
  · intro hz
    have : (UInt8.ofNat (i + 1)).toNat = 0 := congrArg UInt8.toNat hz
    omega

/-- C36, counterexample: the absolute symbol `N` of `sampleObject` gets section 1. -/
theorem C36_counterexample : ∃ (o : Object) (n : Str) (val : UInt64) (ext : Bool),
    Symbol.abs n val ext ∈ o.symbols ∧ Fits o ∧ NulFree o ∧ Writable o ∧
    ∃ l e, tableEntries .debug .little (writeInto .debug .little o).out = .ok l ∧ e ∈ l ∧
      e.nType = .norm false .abs ext ∧ e.nValue = val ∧ e.nSect = 1 := by
  refine ⟨sampleObject, str% "N", 7, false, by decide, sample_fits, sample_nulFree,
    sample_writable, ?_⟩
  exact ⟨[⟨1, .norm false .sect true, 1, 0, 0⟩, ⟨7, .norm false .undf true, 0, 0, 0⟩,
    ⟨13, .norm false .abs false, 1, 0, 7⟩, ⟨15, .norm false .sect false, 2, 0, 11⟩,
    ⟨19, .norm false .sect false, 3, 0, 18⟩], ⟨13, .norm false .abs false, 1, 0, 7⟩,
    by decide +kernel, by decide, rfl, rfl, rfl⟩

end AT.Props
