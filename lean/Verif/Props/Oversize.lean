import Verif.Props.Obj
/-!
# C73: objects that do not fit the number fields of the format
-/

namespace AT.Props
open AT.Obj AT.Mac AT.MachO AT.ObjSpec

/-! ### Arithmetic of debug builds that did not stop -/

theorem add32_inv {a b c : UInt32} (h : addU32 .debug a b = .ok c) : c.toNat = a.toNat + b.toNat := by
  unfold addU32 at h
  split at h
  · rename_i hc
    obtain rfl := Except.ok.inj h
    rw [UInt32.toNat_add, Nat.mod_eq_of_lt (by simpa using hc)]
  · cases h

theorem mul32_inv {a b c : UInt32} (h : mulU32 .debug a b = .ok c) : c.toNat = a.toNat * b.toNat := by
  unfold mulU32 at h
  split at h
  · rename_i hc
    obtain rfl := Except.ok.inj h
    rw [UInt32.toNat_mul, Nat.mod_eq_of_lt (by simpa using hc)]
  · cases h

theorem add64_inv {a b c : UInt64} (h : addU64 .debug a b = .ok c) : c.toNat = a.toNat + b.toNat := by
  unfold addU64 at h
  split at h
  · rename_i hc
    obtain rfl := Except.ok.inj h
    rw [UInt64.toNat_add, Nat.mod_eq_of_lt (by simpa using hc)]
  · cases h

theorem bind_inv {α β : Type} {r : Res α} {f : α → Res β} {b : β} (h : (r >>= f) = .ok b) :
    ∃ a, r = .ok a ∧ f a = .ok b := by
  cases r with
  | error e => cases h
  | ok a => exact ⟨a, rfl, h⟩

theorem fold32_inv {l : List UInt32} {a c : UInt32} (h : l.foldlM (addU32 .debug) a = .ok c) :
    c.toNat = a.toNat + (l.map (·.toNat)).sum := by
  induction l generalizing a with
  | nil => obtain rfl := Except.ok.inj h; simp
  | cons x l ih =>
    rw [List.foldlM_cons] at h
    obtain ⟨d, hd, h⟩ := bind_inv h
    rw [ih h, add32_inv hd, List.map_cons, List.sum_cons, Nat.add_assoc]

theorem fold64_inv {l : List UInt64} {a c : UInt64} (h : l.foldlM (addU64 .debug) a = .ok c) :
    c.toNat = a.toNat + (l.map (·.toNat)).sum := by
  induction l generalizing a with
  | nil => obtain rfl := Except.ok.inj h; simp
  | cons x l ih =>
    rw [List.foldlM_cons] at h
    obtain ⟨d, hd, h⟩ := bind_inv h
    rw [ih h, add64_inv hd, List.map_cons, List.sum_cons, Nat.add_assoc]

theorem sum32_inv {l : List UInt32} {c : UInt32} (h : sumU32 .debug l = .ok c) :
    c.toNat = (l.map (·.toNat)).sum := by
  have := fold32_inv h
  simpa using this

theorem sum64_inv {l : List UInt64} {c : UInt64} (h : sumU64 .debug l = .ok c) :
    c.toNat = (l.map (·.toNat)).sum := by
  have := fold64_inv h
  simpa using this

theorem aligned_inv {n m : UInt32} (h : alignedU32 .debug n 8 = .ok m) : m.toNat = roundUp8 n.toNat := by
  unfold alignedU32 at h
  obtain ⟨_, _, h⟩ := bind_inv h
  obtain ⟨q, hq, h⟩ := bind_inv h
  rw [mul32_inv h, add32_inv hq, UInt32.toNat_div]
  unfold roundUp8
  have h8 : (8 : UInt32).toNat = 8 := rfl
  have hgt : n % 8 > 0 ↔ n.toNat % 8 > 0 := by
    rw [gt_iff_lt, UInt32.lt_iff_toNat_lt, UInt32.toNat_mod]; rfl
  rw [h8]
  by_cases hc : n % 8 > 0
  · rw [if_pos hc]
    have := hgt.1 hc
    have : (1 : UInt32).toNat = 1 := rfl
    omega
  · rw [if_neg hc]
    have h0 : ¬ n.toNat % 8 > 0 := fun hh => hc (hgt.2 hh)
    have : (0 : UInt32).toNat = 0 := rfl
    omega

theorem mapM_inv {α β : Type} {f : α → Res β} {l : List α} {m : List β} (h : l.mapM f = .ok m) :
    ∀ x ∈ l, ∃ y ∈ m, f x = .ok y := by
  induction l generalizing m with
  | nil => simp
  | cons x l ih =>
    rw [List.mapM_cons] at h
    obtain ⟨y, hy, h⟩ := bind_inv h
    obtain ⟨ys, hys, h⟩ := bind_inv h
    obtain rfl := Except.ok.inj h
    intro z hz
    rcases List.mem_cons.1 hz with rfl | hz
    · exact ⟨y, List.mem_cons_self, hy⟩
    · obtain ⟨w, hw, h⟩ := ih hys z hz
      exact ⟨w, List.mem_cons_of_mem _ hw, h⟩

theorem mapM_sum {α : Type} {f : α → Res UInt32} {g : α → Nat} {l : List α} {m : List UInt32}
    (h : l.mapM f = .ok m) (hf : ∀ x ∈ l, ∀ y, f x = .ok y → y.toNat = g x) :
    (m.map (·.toNat)).sum = (l.map g).sum := by
  induction l generalizing m with
  | nil => obtain rfl := Except.ok.inj h; rfl
  | cons x l ih =>
    rw [List.mapM_cons] at h
    obtain ⟨y, hy, h⟩ := bind_inv h
    obtain ⟨ys, hys, h⟩ := bind_inv h
    obtain rfl := Except.ok.inj h
    rw [List.map_cons, List.sum_cons, List.map_cons, List.sum_cons,
      hf x List.mem_cons_self y hy, ih hys (fun x hx => hf x (List.mem_cons_of_mem _ hx))]

theorem lift_inv {α : Type} {r : Res α} {f : α → Wr Unit} (h : (Wr.lift r >>= f).res = .ok ()) :
    ∃ a, r = .ok a ∧ (f a).res = .ok () := by
  cases r with
  | error e => cases h
  | ok a => exact ⟨a, rfl, h⟩

theorem seq_inv {w w' : Wr Unit} (h : (w >>= fun _ => w').res = .ok ()) : w'.res = .ok () :=
  (res_bind_ok.1 h).2

theorem parts_of_counts {o : Object} (hc : CountsFit o) : parts o = o.sections.iter.map toPart := by
  apply parts_eq
  · by_cases h : o.sections.text.bytes = []
    · rw [h]; decide
    · have := (hc _ (by unfold parts; rw [if_neg h]; simp only [List.mem_append]; exact .inl (.inl (List.mem_singleton.2 rfl)))).1
      simp only at this
      omega
  · by_cases h : o.sections.data.bytes = []
    · rw [h]; decide
    · have := (hc _ (by
        unfold parts; rw [if_neg (c := o.sections.data.bytes = []) h]; simp only [List.mem_append]
        exact .inl (.inr (List.mem_singleton.2 rfl)))).1
      simp only at this
      omega

theorem sum_eq {o : Object} (hp : parts o = o.sections.iter.map toPart) {f : SectionRef → Nat} {g : Part → Nat}
    (h : ∀ p ∈ parts o, ∀ s, p = toPart s → f s = g p) : (o.sections.iter.map f).sum = ((parts o).map g).sum := by
  rw [hp, List.map_map]
  congr 1
  apply List.map_congr_left
  intro s hs
  exact h (toPart s) (by rw [hp]; exact List.mem_map.2 ⟨s, hs, rfl⟩) s rfl

theorem dataStart_inv {o : Object} (hp : parts o = o.sections.iter.map toPart) {d : UInt32}
    (h : dataStart .debug o = .ok d) : d.toNat = cmdsEnd (parts o) := by
  unfold dataStart at h
  obtain ⟨a, ha, h⟩ := bind_inv h
  obtain ⟨b, hb, h⟩ := bind_inv h
  obtain ⟨c, hc, h⟩ := bind_inv h
  rw [add32_inv h, add32_inv hc, add32_inv ha, mul32_inv hb]
  have hl : o.sections.iter.length ≤ 3 := by
    unfold Sections.iter
    exact List.length_filter_le _ _
  unfold Sections.len
  rw [u32_ofNat _ (by omega)]
  have h1 : Header64.SIZE.toNat = 32 := rfl
  have h2 : SegmentCommand64.SIZE.toNat = 72 := rfl
  have h3 : Section64.SIZE.toNat = 80 := rfl
  have h4 : SymtabCommand.SIZE.toNat = 24 := rfl
  have h5 : (parts o).length = o.sections.iter.length := by rw [hp, List.length_map]
  rw [h1, h2, h3, h4]
  unfold cmdsEnd
  omega

theorem fileSize_inv {o : Object} (hc : CountsFit o) {d : UInt32}
    (h : alignedFileSize .debug o = .ok d) : d.toNat = roundUp8 (dataLen (parts o)) := by
  have hp := parts_of_counts hc
  unfold alignedFileSize at h
  obtain ⟨a, ha, h⟩ := bind_inv h
  rw [aligned_inv h, sum32_inv ha, List.map_map]
  unfold dataLen
  rw [sum_eq hp (g := fun p => p.bytes.length)]
  rintro p hpp s rfl
  have := (hc _ hpp).1
  rw [toPart_bytes] at this ⊢
  exact u32_ofNat _ this

theorem symtab_inv {o : Object} (hc : CountsFit o) {c : SymtabCommand}
    (h : genSymtabCommand .debug o = .ok c) :
    strStart (parts o) < 2 ^ 32 ∧ strLen (parts o) < 2 ^ 32 := by
  have hp := parts_of_counts hc
  unfold genSymtabCommand at h
  obtain ⟨ds, hds, h⟩ := bind_inv h
  obtain ⟨fs, hfs, h⟩ := bind_inv h
  obtain ⟨a, ha, h⟩ := bind_inv h
  obtain ⟨nrel, hnrel, h⟩ := bind_inv h
  obtain ⟨rsz, hrsz, h⟩ := bind_inv h
  obtain ⟨symoff, hsymoff, h⟩ := bind_inv h
  obtain ⟨nsyms, hnsyms, h⟩ := bind_inv h
  obtain ⟨ssz, hssz, h⟩ := bind_inv h
  obtain ⟨stroff, hstroff, h⟩ := bind_inv h
  obtain ⟨l, hl, h⟩ := bind_inv h
  obtain ⟨total, htotal, h⟩ := bind_inv h
  obtain ⟨strsize, hstrsize, h⟩ := bind_inv h
  have e1 := dataStart_inv hp hds
  have e2 := fileSize_inv hc hfs
  have e3 : nrel.toNat = relocCount (parts o) := by
    rw [sum32_inv hnrel, List.map_map]
    refine sum_eq hp ?_
    rintro p hpp s rfl
    have := (hc _ hpp).2.1
    rw [toPart_relocs] at this ⊢
    exact u32_ofNat _ this
  have e4 : nsyms.toNat = symCount (parts o) := by
    rw [sum32_inv hnsyms, List.map_map]
    refine sum_eq hp ?_
    rintro p hpp s rfl
    have := (hc _ hpp).2.2.1
    rw [toPart_symbols] at this ⊢
    exact u32_ofNat _ this
  have e5 : 1 + total.toNat = strLen (parts o) := by
    rw [sum32_inv htotal, mapM_sum (g := fun s => (s.symbols.map (fun x => utf8Len x.name + 1)).sum) hl]
    · unfold strLen
      rw [sum_eq hp (g := fun p => (p.symbols.map (fun x => utf8Len x.name + 1)).sum)]
      rintro p hpp s rfl
      rw [toPart_symbols]
    · intro s hs y hy
      unfold sectStrSize at hy
      obtain ⟨m, hm, hy⟩ := bind_inv hy
      rw [sum32_inv hy]
      refine mapM_sum hm ?_
      intro x hx z hz
      have := (hc (toPart s) (by rw [hp]; exact List.mem_map.2 ⟨s, hs, rfl⟩)).2.2.2 x
        (by rw [toPart_symbols]; exact hx)
      unfold nameSize at hz
      rw [add32_inv hz, u32_ofNat _ this]
      rfl
  have h1 := add32_inv ha
  have h2 := mul32_inv hrsz
  have h3 := add32_inv hsymoff
  have h4 := mul32_inv hssz
  have h5 := add32_inv hstroff
  have h6 := add32_inv hstrsize
  have hr : RelocationInfo.SIZE.toNat = 8 := rfl
  have hn : NList64.SIZE.toNat = 16 := rfl
  have hone : (1 : UInt32).toNat = 1 := rfl
  rw [hr] at h2
  rw [hn] at h4
  have := stroff.toNat_lt
  have := strsize.toNat_lt
  unfold strStart symStart relocStart
  omega

theorem vm_inv {o : Object} (hc : CountsFit o) {c : SegmentCommand64}
    (h : genSegmentCommand64 .debug o = .ok c) : vmLen (parts o) < 2 ^ 64 := by
  have hp := parts_of_counts hc
  unfold genSegmentCommand64 at h
  obtain ⟨_, _, h⟩ := bind_inv h
  obtain ⟨_, _, h⟩ := bind_inv h
  obtain ⟨v, hv, h⟩ := bind_inv h
  have e : v.toNat = vmLen (parts o) := by
    rw [sum64_inv hv, List.map_map]
    refine sum_eq hp ?_
    rintro p hpp s rfl
    show s.vmSize.toNat = _
    have hlt := (hc _ hpp).1
    cases s with
    | text t => exact u64_ofNat _ (by simp only [toPart] at hlt; omega)
    | data d => exact u64_ofNat _ (by simp only [toPart] at hlt; omega)
    | bss b => rfl
  have := v.toNat_lt
  omega

theorem nlists_inv {secs : List Section64} {stab : StringTable} {S : List SectionRef} {k : Nat} {l : List NList64}
    (h : genNList64sGo .debug secs stab k S = .ok l) {i : Nat} {s : SectionRef} (hs : S[i]? = some s)
    {sym : Symbol} (hsym : sym ∈ s.symbols) : ∃ n, genNList64 .debug secs stab (k + i) sym = .ok n := by
  induction S generalizing k l i with
  | nil => simp at hs
  | cons x S ih =>
    unfold genNList64sGo at h
    obtain ⟨a, ha, h⟩ := bind_inv h
    obtain ⟨b, hb, h⟩ := bind_inv h
    cases i with
    | zero =>
      simp only [List.getElem?_cons_zero, Option.some.injEq] at hs
      subst hs
      obtain ⟨y, _, hy⟩ := mapM_inv ha sym hsym
      exact ⟨y, hy⟩
    | succ i =>
      simp only [List.getElem?_cons_succ] at hs
      obtain ⟨n, hn⟩ := ih hb hs
      exact ⟨n, by rw [← hn]; congr 1; omega⟩

/-- **C73 (part).** In a debug build, for an object none of whose counts is cut by a cast, a file is
written only if every offset and size of the file fits its field and every address fits 64 bits.
Missing: counts of 2^32 and more, and release builds (`C73_cast_counterexample`,
`C73_release_counterexample`). -/
theorem C73_debug_partial (h : Endian) (o : Object) (hc : CountsFit o)
    (hok : (writeInto .debug h o).res = .ok ()) : Fits o := by
  have hp := parts_of_counts hc
  have key : strStart (parts o) < 2 ^ 32 ∧ strLen (parts o) < 2 ^ 32 ∧ vmLen (parts o) < 2 ^ 64 := by
    unfold writeInto at hok
    obtain ⟨_, _, hok⟩ := lift_inv hok
    obtain ⟨_, hseg, hok⟩ := lift_inv (seq_inv hok)
    obtain ⟨_, _, hok⟩ := lift_inv (seq_inv hok)
    obtain ⟨_, hst, hok⟩ := lift_inv (seq_inv hok)
    exact ⟨(symtab_inv hc hst).1, (symtab_inv hc hst).2, vm_inv hc hseg⟩
  obtain ⟨h1, h2, h3⟩ := key
  refine ⟨h1, h2, h3, ?_⟩
  intro i name addr ext hm
  rw [(writeInto_after .debug h hp ⟨h1, h2, h3⟩).res] at hok
  unfold tailWr at hok
  obtain ⟨stab, _, hok⟩ := lift_inv hok
  obtain ⟨syms, hsyms, _⟩ := lift_inv hok
  obtain ⟨q, hq, hqs⟩ := placed_mem hm
  simp only at hq hqs
  have hq' := hq
  rw [hp, List.getElem?_map] at hq
  obtain ⟨s, hs, rfl⟩ := Option.map_eq_some_iff.1 hq
  rw [toPart_symbols] at hqs
  obtain ⟨n, hn⟩ := nlists_inv hsyms hs hqs
  unfold genNList64 at hn
  obtain ⟨_, _, hn⟩ := bind_inv hn
  obtain ⟨sect, hsect, hn⟩ := bind_inv hn
  obtain ⟨v, hv, _⟩ := bind_inv hn
  rw [Nat.zero_add, sectionsFrom_get _ _ _ _ _ _ hs] at hsect
  obtain rfl := Except.ok.inj hsect
  have e := add64_inv hv
  rw [genSection64_addr, Nat.zero_add, ← hp] at e
  have hle : vmLen ((parts o).take i) + (toPart s).vmsize ≤ vmLen (parts o) := take_sum_le hq' (·.vmsize)
  rw [u64_ofNat _ (by omega)] at e
  have := v.toNat_lt
  unfold addrOf
  omega

/-- **C73 (part), exact.** In a debug build, for an object none of whose counts is cut by a cast: it
is written iff it fits the format and all its names are ASCII and all its relocations are
expressible. -/
theorem C73_debug_exact_partial (h : Endian) (o : Object) (hc : CountsFit o) :
    (writeInto .debug h o).res = .ok () ↔ Fits o ∧ Writable o := by
  constructor
  · intro hok
    have hf := C73_debug_partial h o hc hok
    refine ⟨hf, Classical.byContradiction fun hw => ?_⟩
    rw [(writeInto_panics .debug h hf hw).1] at hok
    cases hok
  · rintro ⟨hf, hw⟩
    exact (writeInto_writes .debug h hf hw).res

/-- Two sections that together take 2^64 bytes of address space: debug builds panic. -/
def fullMemory : Object := { sections := {
  text := { bytes := [0xC3], symbols := [], relocs := [] }
  data := { bytes := [], symbols := [], relocs := [] }
  bss := { size := 0xFFFFFFFFFFFFFFFF, symbols := [] } } }

/-- A symbol whose address is beyond 64 bits. -/
def farSymbol : Object := { sections := {
  text := { bytes := [0xC3], symbols := [], relocs := [] }
  data := { bytes := [7], symbols := [.ref (str% "x") 0xFFFFFFFFFFFFFFFF false], relocs := [] }
  bss := { size := 0, symbols := [] } } }

/-- Both are within `CountsFit` and refused by debug builds. -/
example : CountsFit fullMemory ∧ ¬ Fits fullMemory ∧ (writeInto .debug .little fullMemory).res = .error .panic ∧
    CountsFit farSymbol ∧ ¬ Fits farSymbol ∧ (writeInto .debug .little farSymbol).res = .error .panic := by
  refine ⟨?_, fun h => absurd h.vm (by decide +kernel), by decide +kernel, ?_,
    fun h => absurd (h.refs 1 (str% "x") 0xFFFFFFFFFFFFFFFF false (by decide +kernel)) (by decide +kernel),
    by decide +kernel⟩ <;> (unfold CountsFit; decide +kernel)

/-- `CountsFit` is met by an ordinary object, which is written. -/
example : CountsFit sampleObject ∧ (writeInto .debug .little sampleObject).res = .ok () := by
  refine ⟨?_, by decide +kernel⟩
  unfold CountsFit
  decide +kernel

/-- Address of the first symbol of a file, as a reader finds it. -/
def firstAddress (f : Bytes) : Res UInt64 := do
  let (v, _) ← view .debug .little f
  let (e, _) ← NList64.readFromIn .little (f.drop v.symtab.symoff.toNat)
  pure e.nValue

/-- **C73 is false of release builds**: with the same small objects they write a file, in which the
segment has size 0 and the symbol has address 0. -/
theorem C73_release_counterexample :
    (CountsFit fullMemory ∧ ¬ Fits fullMemory ∧ (writeInto .release .little fullMemory).res = .ok () ∧
      (view .debug .little (writeInto .release .little fullMemory).out).map (fun v => v.1.segment.vmsize) =
        .ok 0) ∧
    (CountsFit farSymbol ∧ ¬ Fits farSymbol ∧ (writeInto .release .little farSymbol).res = .ok () ∧
      firstAddress (writeInto .release .little farSymbol).out = .ok 0) := by
  refine ⟨⟨?_, fun h => absurd h.vm (by decide +kernel), by decide +kernel, by decide +kernel⟩, ?_,
    fun h => absurd (h.refs 1 (str% "x") 0xFFFFFFFFFFFFFFFF false (by decide +kernel)) (by decide +kernel),
    by decide +kernel, by decide +kernel⟩ <;> (unfold CountsFit; decide +kernel)

/-! ### Casts that cut -/

/-- An object with nothing but code. -/
def codeOnly (b : Bytes) : Object := { sections := {
  text := { bytes := b, symbols := [], relocs := [] }
  data := { bytes := [], symbols := [], relocs := [] }
  bss := { size := 0, symbols := [] } } }

theorem iter_codeOnly {b : Bytes} (h0 : b ≠ []) (h : b.length < 2 ^ 64) :
    (codeOnly b).sections.iter = [.text { bytes := b, symbols := [], relocs := [] }] := by
  have h1 : (SectionRef.text { bytes := b, symbols := [], relocs := [] }).isEmpty = false := by
    unfold SectionRef.isEmpty SectionRef.vmSize
    have : 0 < b.length := List.length_pos_iff.2 h0
    simp only [beq_eq_false_iff_ne]
    intro he
    have := congrArg UInt64.toNat he
    rw [u64_ofNat _ h] at this
    have h0 : (0 : UInt64).toNat = 0 := rfl
    omega
  unfold Sections.iter codeOnly
  simp only [List.filter_cons, h1]
  rfl

/-- Header of a file with one section. -/
def cutHeader : Header64 :=
  { magic := .magic64, cpuType := .x86_64 .all, fileType := .object, nCmds := 2, sizeOfCmds := 176,
    flags := [], reserved := 0 }

/-- Segment command written for `2 ^ 32 + n` bytes of code. -/
def cutSegment (n : Nat) : SegmentCommand64 :=
  { cmd := SegmentCommand64.TYPE, cmdsize := 152, segname := [], vmaddr := 0,
    vmsize := UInt64.ofNat (2 ^ 32 + n), fileoff := 208, filesize := UInt64.ofNat (roundUp8 n),
    maxprot := 7, initprot := 7, nsects := 1, flags := 0 }

/-- Section header written for `2 ^ 32 + n` bytes of code. -/
def cutSection (b : Bytes) (n : Nat) : Section64 :=
  genSection64FromText { bytes := b, symbols := [], relocs := [] } 0 208 (UInt32.ofNat (208 + roundUp8 n))

/-- Symbol table command written for `2 ^ 32 + n` bytes of code. -/
def cutSymtab (n : Nat) : SymtabCommand :=
  ⟨SymtabCommand.TYPE, SymtabCommand.SIZE, UInt32.ofNat (208 + roundUp8 n), 0,
    UInt32.ofNat (208 + roundUp8 n), 1⟩

section
variable {b : Bytes} {n : Nat} (hb : b.length = 2 ^ 32 + n) (hn : n < 2 ^ 31)
include hb hn

theorem iter_cut : (codeOnly b).sections.iter = [.text { bytes := b, symbols := [], relocs := [] }] :=
  iter_codeOnly (by rintro rfl; simp at hb; omega) (by omega)

theorem len_cut : (codeOnly b).sections.len = 1 := by
  unfold Sections.len
  rw [iter_cut hb hn]
  rfl

theorem header_cut (bd : Build) : genHeader64 bd (codeOnly b) = .ok cutHeader := by
  unfold genHeader64
  rw [len_cut hb hn]
  cases bd <;> rfl

theorem dataStart_cut (bd : Build) : dataStart bd (codeOnly b) = .ok 208 := by
  unfold dataStart
  rw [len_cut hb hn]
  cases bd <;> rfl

omit hn in
theorem cast_cut : UInt32.ofNat b.length = UInt32.ofNat n := by
  apply UInt32.toNat.inj
  rw [UInt32.toNat_ofNat', UInt32.toNat_ofNat', hb]
  omega

theorem sum_cut (bd : Build) :
    sumU32 bd ((codeOnly b).sections.iter.map SectionRef.fileSize) = .ok (UInt32.ofNat n) := by
  rw [iter_cut hb hn]
  have := sumU32_nat bd [n] (by simp; omega)
  simp only [List.map_cons, List.map_nil, SectionRef.fileSize, SectionRef.fileData, cast_cut hb]
  simpa using this

omit hb in
theorem aligned_cut (bd : Build) : alignedU32 bd (UInt32.ofNat n) 8 = .ok (UInt32.ofNat (roundUp8 n)) := by
  have h8 : (8 : UInt32).toNat = 8 := rfl
  rw [alignedU32_eq bd _ _ (by decide) (by rw [u32_ofNat _ (by omega), h8, nextMul_8]; omega),
    u32_ofNat _ (by omega), h8, nextMul_8]
  rfl

theorem alignedFileSize_cut (bd : Build) :
    alignedFileSize bd (codeOnly b) = .ok (UInt32.ofNat (roundUp8 n)) := by
  unfold alignedFileSize
  rw [sum_cut hb hn]
  exact aligned_cut hn bd

theorem segment_cut (bd : Build) : genSegmentCommand64 bd (codeOnly b) = .ok (cutSegment n) := by
  have hv : sumU64 bd ((codeOnly b).sections.iter.map SectionRef.vmSize) = .ok (UInt64.ofNat (2 ^ 32 + n)) := by
    rw [iter_cut hb hn]
    have := sumU64_nat bd [2 ^ 32 + n] (by simp; omega)
    simp only [List.map_cons, List.map_nil, SectionRef.vmSize, hb]
    simpa using this
  unfold genSegmentCommand64
  rw [len_cut hb hn, hv, dataStart_cut hb hn, alignedFileSize_cut hb hn]
  have h1 : mulU32 bd 1 Section64.SIZE = .ok 80 := by cases bd <;> rfl
  have h2 : addU32 bd SegmentCommand64.SIZE 80 = .ok 152 := by cases bd <;> rfl
  rw [h1]
  simp only [bind, Except.bind]
  rw [h2]
  simp only [pure, Except.pure, cutSegment]
  rw [toUInt64_ofNat _ (by unfold roundUp8; omega)]
  rfl

omit hb in
theorem start_cut (bd : Build) :
    addU32 bd 208 (UInt32.ofNat (roundUp8 n)) = .ok (UInt32.ofNat (208 + roundUp8 n)) :=
  addU32_nat bd (a := 208) (by unfold roundUp8; omega)

theorem sections_cut (bd : Build) : genSection64s bd (codeOnly b) = .ok [cutSection b n] := by
  unfold genSection64s
  rw [dataStart_cut hb hn, alignedFileSize_cut hb hn]
  simp only [bind, Except.bind]
  rw [start_cut hn, iter_cut hb hn]
  have h1 : addU64 bd 0 (UInt64.ofNat b.length) = .ok (UInt64.ofNat b.length) := by
    have := addU64_nat bd (a := 0) (b := b.length) (by omega)
    rwa [Nat.zero_add] at this
  have h2 : addU32 bd 208 (UInt32.ofNat n) = .ok (UInt32.ofNat (208 + n)) := addU32_nat bd (a := 208) (by omega)
  have h3 : mulU32 bd RelocationInfo.SIZE 0 = .ok 0 := by cases bd <;> rfl
  have h4 : addU32 bd (UInt32.ofNat (208 + roundUp8 n)) 0 = .ok (UInt32.ofNat (208 + roundUp8 n)) := by
    have := addU32_nat bd (a := 208 + roundUp8 n) (b := 0) (by unfold roundUp8; omega)
    rwa [Nat.add_zero] at this
  have h5 : UInt32.ofNat ([] : List Reloc).length = 0 := rfl
  simp only [genSection64sGo, SectionRef.vmSize, SectionRef.fileSize, SectionRef.fileData, SectionRef.relocs,
    cast_cut hb, h1, h2, h5, h3, h4, bind, Except.bind, pure, Except.pure]
  rfl

theorem symtab_cut (bd : Build) : genSymtabCommand bd (codeOnly b) = .ok (cutSymtab n) := by
  unfold genSymtabCommand
  rw [dataStart_cut hb hn, alignedFileSize_cut hb hn]
  simp only [bind, Except.bind]
  rw [start_cut hn, iter_cut hb hn]
  have h3 : mulU32 bd 0 RelocationInfo.SIZE = .ok 0 := by cases bd <;> rfl
  have h3' : mulU32 bd 0 NList64.SIZE = .ok 0 := by cases bd <;> rfl
  have h4 : addU32 bd (UInt32.ofNat (208 + roundUp8 n)) 0 = .ok (UInt32.ofNat (208 + roundUp8 n)) := by
    have := addU32_nat bd (a := 208 + roundUp8 n) (b := 0) (by unfold roundUp8; omega)
    rwa [Nat.add_zero] at this
  have h5 : sumU32 bd [0] = .ok 0 := by cases bd <;> rfl
  have h6 : [SectionRef.text { bytes := b, symbols := [], relocs := [] }].mapM (sectStrSize bd) = .ok [0] := by
    cases bd <;> rfl
  have h7 : addU32 bd 0 1 = .ok 1 := by cases bd <;> rfl
  have h8 : UInt32.ofNat ([] : List Reloc).length = 0 := rfl
  have h9 : UInt32.ofNat ([] : List Symbol).length = 0 := rfl
  simp only [List.map_cons, List.map_nil, SectionRef.relocs, SectionRef.symbols, h8, h9, h5, h3, h4, h3', h6, h7,
    pure, Except.pure, cutSymtab]

theorem data_cut (bd : Build) : Writes (writeSectionDataInto bd (codeOnly b))
    (b ++ List.replicate (roundUp8 n - n) 0) := by
  have hle : n ≤ roundUp8 n := by unfold roundUp8; omega
  have hlt : roundUp8 n < n + 8 := by unfold roundUp8; omega
  have e1 : (UInt32.ofNat n).toNat = n := u32_ofNat _ (by omega)
  have e2 : (UInt32.ofNat (roundUp8 n)).toNat = roundUp8 n := u32_ofNat _ (by omega)
  have hsub : (UInt32.ofNat (roundUp8 n) - UInt32.ofNat n).toNat = roundUp8 n - n := by
    rw [UInt32.toNat_sub_of_le _ _ (by rw [UInt32.le_iff_toNat_le, e1, e2]; exact hle), e1, e2]
  have hpad : paddingU32 bd (UInt32.ofNat n) 8 = .ok (UInt32.ofNat (roundUp8 n) - UInt32.ofNat n) := by
    unfold paddingU32
    rw [aligned_cut hn]
    simp only [bind, Except.bind, subU32]
    rw [if_pos (.inl (by rw [e1, e2]; exact hle))]
  rw [writeSectionData_sum (sum_cut hb hn bd), iter_cut hb hn]
  rw [hpad]
  simp only [wr_lift_ok]
  rw [rassert_true (by
    rw [decide_eq_true_eq, UInt32.le_iff_toNat_le, hsub]
    show _ ≤ 7
    omega)]
  simp only [wr_lift_ok]
  rw [hsub]
  refine Writes.bind ?_ (Writes.emit _)
  have := Writes.seq (w := fun s : SectionRef => emit s.fileData)
    [SectionRef.text { bytes := b, symbols := [], relocs := [] }] (fun s _ => Writes.emit s.fileData)
  simpa [SectionRef.fileData] using this

/-- The file written for `2 ^ 32 + n` bytes of code. -/
theorem file_cut (bd : Build) (h : Endian) : Writes (writeInto bd h (codeOnly b))
    (headerBytes h cutHeader ++ (segmentBytes h (cutSegment n) ++ (sectionBytes h (cutSection b n) ++
      (symtabBytes h (cutSymtab n) ++ ((b ++ List.replicate (roundUp8 n - n) 0) ++ [0]))))) := by
  unfold writeInto
  rw [header_cut hb hn]
  simp only [wr_lift_ok]
  rw [segment_cut hb hn]
  simp only [wr_lift_ok]
  rw [sections_cut hb hn]
  simp only [wr_lift_ok]
  rw [symtab_cut hb hn]
  simp only [wr_lift_ok]
  have h1 : genStringTable (codeOnly b) = .ok StringTable.withNull := by
    unfold genStringTable
    rw [iter_cut hb hn]
    rfl
  have h2 : ∀ secs stab, genNList64s bd (codeOnly b) secs stab = .ok [] := by
    intro secs stab
    unfold genNList64s
    rw [iter_cut hb hn]
    rfl
  have h3 : ∀ syms stab, genRelocationInfos (codeOnly b) syms stab = .ok [] := by
    intro syms stab
    unfold genRelocationInfos
    rw [iter_cut hb hn]
    rfl
  rw [h1]
  simp only [wr_lift_ok]
  rw [h2]
  simp only [wr_lift_ok]
  rw [h3]
  simp only [wr_lift_ok]
  refine Writes.bind (header_writes h _) (Writes.bind (segment_writes h _ rfl (by simp [cutSegment])) (Writes.bind ?_
    (Writes.bind (symtab_writes h _) (Writes.bind (data_cut hb hn bd) ?_))))
  · have hok : SectionOk (cutSection b n) := genSection64_nameOk (.text _) _ _ _
    have := Writes.seq (w := Section64.writeInto h) (enc := sectionBytes h) [cutSection b n] (fun x hx => by
      obtain rfl := List.mem_singleton.1 hx
      exact section_writes h _ hok.1.ascii hok.1.len hok.2.ascii hok.2.len)
    simpa using this
  · have := Writes.bind Writes.pure (Writes.bind Writes.pure (Writes.emit (StringTable.withNull).data))
    exact this

/-- **C73 is false of the casts**: for code of `2 ^ 32 + n` bytes every build writes a file. Its
section header has the true size, but the segment is said to have the size of `n` bytes and the
symbol table to begin right behind `n` bytes. -/
theorem C73_cast_counterexample (bd bd' : Build) (h : Endian) :
    ¬ Fits (codeOnly b) ∧ (writeInto bd h (codeOnly b)).res = .ok () ∧
    ∃ v rest, view bd' h (writeInto bd h (codeOnly b)).out = .ok (v, rest) ∧
      v.sections.map (·.size.toNat) = [2 ^ 32 + n] ∧ v.segment.filesize.toNat = roundUp8 n ∧
      v.symtab.symoff.toNat = 208 + roundUp8 n ∧ 2 ^ 32 + n < rest.length := by
  have hw := file_cut hb hn bd h
  have hru : roundUp8 n < 2 ^ 31 + 8 := by unfold roundUp8; omega
  refine ⟨fun hf => ?_, hw.res, ?_⟩
  · have := hf.file
    have e : dataLen (parts (codeOnly b)) = 2 ^ 32 + n := by
      have hne : b ≠ [] := by rintro rfl; simp at hb; omega
      unfold parts codeOnly dataLen
      simp [hne, hb]
    unfold strStart symStart relocStart at this
    rw [e] at this
    unfold roundUp8 at this
    omega
  · rw [hw.out]
    refine ⟨⟨cutHeader, cutSegment n, [{ cutSection b n with attrs := sortAttrs (cutSection b n).attrs }],
      cutSymtab n⟩, (b ++ List.replicate (roundUp8 n - n) 0) ++ [0], ?_, ?_, ?_, ?_, ?_⟩
    · unfold view
      rw [(header_reads h h cutHeader (.inl rfl)).ok]
      have hm : cutHeader.magic.seen h h = .magic64 := by simp [Magic.seen, cutHeader]
      rw [hm]
      show (do
        let (cs, rest) ← readN (LoadCommand.readFromIn bd' h) 2 _
        match cs with
        | [.segment64 seg sects, .symtab st] => pure (⟨_, seg, sects, st⟩, rest)
        | _ => .error .panic : Res (View × Bytes)) = _
      have := (Reads.seq (r := LoadCommand.readFromIn bd' h) (enc := loadBytes h) (norm := normLoad)
        [.segment64 (cutSegment n) [cutSection b n], .symtab (cutSymtab n)] (fun c hc => by
          apply load_reads
          simp only [List.mem_cons, List.not_mem_nil, or_false] at hc
          rcases hc with rfl | rfl
          · exact ⟨rfl, rfl, ⟨rfl, by simp [cutSegment], by simp [cutSegment]⟩, rfl, fun s hs => by
              obtain rfl := List.mem_singleton.1 hs
              exact genSection64_nameOk (.text _) _ _ _⟩
          · exact ⟨rfl, rfl⟩)).ok ((b ++ List.replicate (roundUp8 n - n) 0) ++ [0])
      simp only [List.flatMap_cons, List.flatMap_nil, loadBytes, List.append_nil, List.append_assoc,
        List.map_cons, List.map_nil, normLoad, List.length_cons, List.length_nil] at this ⊢
      rw [this]
      rfl
    · show [(UInt64.ofNat b.length).toNat] = _
      rw [u64_ofNat _ (by omega), hb]
    · exact u64_ofNat _ (by omega)
    · exact u32_ofNat _ (by omega)
    · simp only [List.length_append, List.length_replicate, List.length_cons, List.length_nil, hb]
      omega

end

/-- There are such objects: one byte more than the 32-bit fields can count. -/
example : (List.replicate (2 ^ 32 + 1) (0xC3 : UInt8)).length = 2 ^ 32 + 1 ∧ 1 < 2 ^ 31 :=
  ⟨List.length_replicate, by decide⟩

end AT.Props
