import Verif.Spec.LinkMany
import Verif.Props.ObjRead
import Verif.Proofs.X64Basic
/-!
# Object files written separately, linked together (C92)
-/

namespace AT.Props
open AT.Mac AT.MachO AT.ObjSpec AT.Obj

/-- The object can be written and read back. -/
structure Linkable (o : Object) : Prop where
  fits : Fits o
  nul : NulFree o
  writable : Writable o
  few : (symNames o).length < 2 ^ 24

/-- The symbol table of the file of an object. -/
def symsOf (o : Object) : List (NList64 × Str) :=
  (placed (parts o)).map fun p => (entryOf ((placed (parts o)).map (·.2.name)) (parts o) p, p.2.name)

/-- What the file of an object says. -/
def rawOf (o : Object) : Raw :=
  ⟨(viewOf o).sections, symsOf o, (parts o).map fun p => p.relocs.map fun r => relocOf (parts o) (lenOf r.len) r,
    (parts o).map (·.bytes)⟩

theorem readRaw_out (bd bd' : Build) (h h' : Endian) {o : Object} (hl : Linkable o) :
    readRaw bd' h' (writeInto bd h o).out = .ok (rawOf o) := by
  obtain ⟨hf, hn, hw, h24⟩ := hl
  obtain ⟨rest, hr⟩ := out_eq bd h hf
  obtain ⟨srest, hsr⟩ := symbols_read bd h hf hw
  have hhead : ∃ m rest', Header64.readFrom h' (writeInto bd h o).out =
      .ok (({ headerOf (parts o) with magic := m }, h), rest') ∧
      ∃ rest'', readN (LoadCommand.readFromIn bd' h) 2 rest' =
        .ok ([.segment64 (viewOf o).segment (viewOf o).sections, .symtab (viewOf o).symtab], rest'') := by
    rw [hr]
    unfold cmdBytes
    simp only [List.append_assoc]
    rw [(header_reads h h' (headerOf (parts o)) (.inl rfl)).ok]
    refine ⟨_, _, rfl, dataBytes (parts o) ++ rest, ?_⟩
    have := read_loads bd' h _ _ (iter_length hf) (bounds_of hf) (dataBytes (parts o) ++ rest)
    simp only [List.append_assoc] at this
    rw [this]
    rfl
  obtain ⟨m, rest', hh, rest'', hl⟩ := hhead
  unfold readRaw
  rw [hh]
  simp only [bind, Except.bind]
  rw [show ({ headerOf (parts o) with magic := m } : Header64).nCmds.toNat = 2 from rfl, hl]
  simp only
  rw [hsr]
  simp only
  have hnames : ((placed (parts o)).map (entryOf ((placed (parts o)).map (·.2.name)) (parts o))).mapM
      (fun t => nameAt (writeInto bd h o).out ((viewOf o).symtab.stroff.toNat + t.nStrx.toNat)) =
      .ok ((placed (parts o)).map (·.2.name)) := by
    rw [List.mapM_map]
    apply mapM_ok
    rintro ⟨i, sym⟩ hm
    simp only [Function.comp_apply, nameAt, (entry_says bd h hf hw hm).name
      (hn _ (List.mem_map.2 ⟨_, hm, rfl⟩)), fromUtf8_utf8, runwrap]
  rw [hnames]
  simp only
  rw [List.zip_map']
  have hrel : (viewOf o).sections.mapM (entriesOf h (writeInto bd h o).out) = .ok (rawOf o).relocs := by
    apply mapM_get
    · simp [rawOf, sections_length hf]
    · intro i s y hs hy
      obtain ⟨p, hp, hsay⟩ := sections_get hf hs
      obtain ⟨rr, hrr⟩ := relocs_read bd h hf hw h24 hp hs
      simp only [rawOf, List.getElem?_map, hp, Option.map_some, Option.some.injEq] at hy
      unfold entriesOf
      rw [hrr]
      simp only [bind, Except.bind, pure, Except.pure, hy]
  have hdata : (viewOf o).sections.mapM (contentsAt (writeInto bd h o).out) = .ok (rawOf o).data := by
    apply mapM_get
    · simp [rawOf, sections_length hf]
    · intro i s y hs hy
      obtain ⟨p, hp, hsay⟩ := sections_get hf hs
      simp only [rawOf, List.getElem?_map, hp, Option.map_some, Option.some.injEq] at hy
      subst hy
      unfold contentsAt
      rw [hsay.type]
      cases hz : p.zerofill with
      | true => rw [(hsay.bss hz).1]; rfl
      | false =>
        have : bytesAt (writeInto bd h o).out s.offset.toNat s.size.toNat = some p.bytes := by
          rw [hr, hsay.offset, hz, if_neg (by decide), hsay.size, ← hsay.filled hz]
          exact section_bytes h _ _ (iter_length hf) rest hp
        rw [this]
        rfl
  rw [hrel]
  simp only
  rw [hdata]
  rfl

theorem entryAddress_eq {o : Object} (hf : Fits o) (base : Str → Nat) {s : Nat × Symbol} (hs : s ∈ placed (parts o)) :
    entryAddress (rawOf o) base (entryOf ((placed (parts o)).map (·.2.name)) (parts o) s) = ownAddress o base s := by
  obtain ⟨i, sym⟩ := s
  obtain ⟨q, hq, -⟩ := placed_mem hs
  simp only at hq
  have hi : i < (parts o).length := (List.getElem?_eq_some_iff.1 hq).1
  have h3 := parts_le o
  have ho : (UInt8.ofNat (i + 1)).toNat = i + 1 := by
    rw [UInt8.toNat_ofNat', Nat.mod_eq_of_lt (by omega)]
  cases sym with
  | undef n => rfl
  | abs n v e => rfl
  | ref n a e =>
    obtain ⟨s, hs', hsay⟩ := readSections_get hf hq
    have hs' : (viewOf o).sections[i]? = some s := hs'
    have hz : UInt8.ofNat (i + 1) ≠ 0 := by
      intro h
      rw [h] at ho
      simp at ho
    simp only [entryAddress, entryOf, ownAddress, if_neg hz, ho, Nat.add_sub_cancel, rawOf, hs', hq, Option.map_some,
      hsay.sectname]
    rw [u64_ofNat _ (hf.refs i n a e hs), hsay.addr, Nat.add_sub_cancel_left]

theorem entryExternal_eq (names : List Str) (ps : List Part) (s : Nat × Symbol) :
    entryExternal (entryOf names ps s) = true ↔ isExternal s.2 = true ∨ ∃ n, s.2 = .undef n := by
  obtain ⟨i, sym⟩ := s
  cases sym <;> simp [entryExternal, entryOf, isExternal]

theorem entryUndefined_eq (names : List Str) (ps : List Part) (s : Nat × Symbol) :
    entryUndefined (entryOf names ps s) = true ↔ ∃ n, s.2 = .undef n := by
  obtain ⟨i, sym⟩ := s
  cases sym <;> simp [entryUndefined, entryOf]

theorem zipIdx_map_fst {α β : Type} (f : α → β) (l : List α) (k : Nat) :
    (l.map f).zipIdx k = (l.zipIdx k).map fun x => (f x.1, x.2) := by
  induction l generalizing k with
  | nil => rfl
  | cons x l ih => simp [List.zipIdx_cons, ih]

theorem flatMap_mem_congr {α β : Type} {f g : α → List β} {l : List α} (h : ∀ x ∈ l, f x = g x) :
    l.flatMap f = l.flatMap g := by
  induction l with
  | nil => rfl
  | cons x l ih =>
    rw [List.flatMap_cons, List.flatMap_cons, h x (by simp), ih (fun y hy => h y (by simp [hy]))]

theorem mem_zipIdx {α : Type} {l : List α} {x : α × Nat} (h : x ∈ l.zipIdx) : x.1 ∈ l ∧ l[x.2]? = some x.1 := by
  have := List.mem_zipIdx_iff_getElem?.1 h
  exact ⟨List.mem_of_getElem? this, this⟩

theorem exports_eq {os : List Object} (hl : ∀ o ∈ os, Fits o) (base : Nat → Str → Nat) :
    fileExports (os.map rawOf) base = exports os base := by
  unfold fileExports exports
  rw [zipIdx_map_fst, List.flatMap_map]
  apply flatMap_mem_congr
  intro x hx
  simp only [rawOf, symsOf]
  rw [List.filterMap_map]
  apply filterMap_congr_mem
  intro s hs
  have ha := entryAddress_eq (hl _ (mem_zipIdx hx).1) (base x.2) hs
  have he := entryExternal_eq ((placed (parts x.1)).map (·.2.name)) (parts x.1) s
  simp only [Function.comp_apply]
  simp only [rawOf, symsOf] at ha
  rw [ha]
  by_cases hi : isExternal s.2 = true
  · rw [if_pos hi, if_pos (he.2 (.inl hi))]
  · rw [if_neg hi]
    split
    · rename_i h
      rcases he.1 h with h | ⟨n, h⟩
      · exact absurd h hi
      · obtain ⟨i, sym⟩ := s
        simp only at h
        subst h
        rfl
    · rfl

theorem find_at (l : List (Nat × Symbol)) (n : Str) :
    l.find? (·.2.name = n) = l[(l.map (·.2.name)).idxOf n]? := by
  induction l with
  | nil => rfl
  | cons x l ih =>
    rw [List.find?_cons, List.map_cons, List.idxOf_cons]
    by_cases h : x.2.name = n
    · simp [h]
    · rw [show (x.2.name == n) = false by simpa using h]
      simp [h, ih]

theorem applyEntry_eq {os : List Object} (hall : ∀ o ∈ os, Fits o) (base : Nat → Str → Nat) {x : Object × Nat}
    (hl : Linkable x.1) {r : Reloc} (hr : r ∈ allRelocs x.1) (bs : Bytes) :
    applyEntry (resolveEntry (os.map rawOf) base (rawOf x.1, x.2)) (rawOf x.1).syms bs
      (relocOf (parts x.1) (lenOf r.len) r) = applyOne (meaning os base x) bs r := by
  obtain ⟨hf, hn, hw, h24⟩ := hl
  have hd := hw.names hn r hr
  have hlt := List.idxOf_lt_length_iff.2 hd
  have hnat : (relocOf (parts x.1) (lenOf r.len) r).rSymbolnum.toNat = (symNames x.1).idxOf r.symbol :=
    (u32_ofNat (symIdx (parts x.1) r.symbol) (by
      show ((symNames x.1).map seen).idxOf r.symbol < _
      rw [seen_names hn]; omega)).trans (congrArg (List.idxOf r.symbol) (seen_names hn))
  unfold applyEntry applyOne
  rw [hnat]
  simp only [relocOf, true_and, lenByte_lenOf _ (hw.lens r hr)]
  by_cases hc : r.pcrel = false ∧ 0 ≤ r.addr.toInt
  · rw [if_pos hc, if_pos hc]
    have hsym : ((rawOf x.1).syms[(symNames x.1).idxOf r.symbol]? >>= resolveEntry (os.map rawOf) base (rawOf x.1, x.2)) =
        meaning os base x r.symbol := by
      unfold meaning
      rw [find_at]
      have e : (symNames x.1) = (placed (parts x.1)).map (·.2.name) := rfl
      rw [← e]
      simp only [rawOf, symsOf, List.getElem?_map]
      cases hg : (placed (parts x.1))[(symNames x.1).idxOf r.symbol]? with
      | none => rfl
      | some s =>
        have hm := List.mem_of_getElem? hg
        simp only [Option.map_some, Option.bind_eq_bind, Option.bind_some, resolveEntry]
        have ha := entryAddress_eq hf (base x.2) hm
        simp only [rawOf, symsOf] at ha
        have hu := entryUndefined_eq ((placed (parts x.1)).map (·.2.name)) (parts x.1) s
        have hname : s.2.name = r.symbol := by
          have := idxOf_get _ _ hd
          rw [e, List.getElem?_map, ← e, hg] at this
          simpa using this
        rw [exports_eq hall, ha]
        obtain ⟨i, sym⟩ := s
        cases sym with
        | undef n =>
          rw [if_pos (hu.2 ⟨n, rfl⟩)]
          rw [hname]
        | abs n v e =>
          rw [if_neg (fun h => by obtain ⟨m, h⟩ := hu.1 h; cases h)]
        | ref n v e =>
          rw [if_neg (fun h => by obtain ⟨m, h⟩ := hu.1 h; cases h)]
    rw [← hsym]
    simp only [Option.bind_eq_bind, Option.bind_assoc]
  · rw [if_neg hc, if_neg hc]

theorem foldlM_map_mem {α β γ : Type} (f : α → β → Option α) (g : α → γ → Option α) (m : γ → β) (l : List γ)
    (h : ∀ c ∈ l, ∀ a, f a (m c) = g a c) (a : α) : (l.map m).foldlM f a = l.foldlM g a := by
  induction l generalizing a with
  | nil => rfl
  | cons c l ih =>
    rw [List.map_cons, List.foldlM_cons, List.foldlM_cons, h c (by simp)]
    cases g a c with
    | none => rfl
    | some b => exact ih (fun d hd => h d (by simp [hd])) b

theorem mapM_mem_congr {α β : Type} {f g : α → Option β} {l : List α} (h : ∀ x ∈ l, f x = g x) :
    l.mapM f = l.mapM g := by
  induction l with
  | nil => rfl
  | cons x l ih =>
    rw [List.mapM_cons, List.mapM_cons, h x (by simp), ih (fun y hy => h y (by simp [hy]))]

theorem linkFiles_eq {os : List Object} (hl : ∀ o ∈ os, Linkable o) (base : Nat → Str → Nat) :
    linkFiles (os.map rawOf) base = linkObjects os base := by
  have hf : ∀ o ∈ os, Fits o := fun o ho => (hl o ho).fits
  unfold linkFiles linkObjects
  rw [exports_eq hf]
  congr 1
  rw [zipIdx_map_fst, List.mapM_map]
  apply mapM_mem_congr
  intro x hx
  have hx := (mem_zipIdx hx).1
  simp only [Function.comp_apply]
  rw [show (rawOf x.1).data.zip (rawOf x.1).relocs = (parts x.1).map fun p =>
    (p.bytes, p.relocs.map fun r => relocOf (parts x.1) (lenOf r.len) r) from List.zip_map' .., List.mapM_map]
  apply mapM_mem_congr
  intro p hp
  simp only [Function.comp_apply]
  exact foldlM_map_mem _ _ _ _ (fun r hr bs =>
    applyEntry_eq hf base (hl _ hx) (List.mem_flatMap.2 ⟨p, hp, hr⟩) bs) _

/-- Each file was written from the object of the same number, by some build on some host. -/
def FilesOf (os : List Object) (files : List Bytes) : Prop :=
  files.length = os.length ∧ ∀ (i : Nat) o f, os[i]? = some o → files[i]? = some f →
    ∃ bd h, f = (writeInto bd h o).out

/-- C92: linking the files is linking the objects: for every list of objects, wherever each was written, and
wherever the sections are loaded. -/
theorem C92_link (bd : Build) (h : Endian) (os : List Object) (files : List Bytes) (hl : ∀ o ∈ os, Linkable o)
    (hw : FilesOf os files) : ∃ xs, files.mapM (readRaw bd h) = .ok xs ∧
      ∀ base : Nat → Str → Nat, linkFiles xs base = linkObjects os base := by
  refine ⟨os.map rawOf, ?_, linkFiles_eq hl⟩
  apply mapM_get
  · rw [List.length_map, hw.1]
  · intro i f y hf hy
    rw [List.getElem?_map] at hy
    obtain ⟨o, ho, rfl⟩ := Option.map_eq_some_iff.1 hy
    obtain ⟨bd', h', rfl⟩ := hw.2 i o f ho hf
    exact readRaw_out bd' bd h' h (hl o (List.mem_of_getElem? ho))

/-! ## What is in the linked sections -/

/-- Byte `k` of the section belongs to the place of relocation `r`. -/
def Covers (r : Reloc) (k : Nat) : Prop :=
  r.addr.toInt.toNat ≤ k ∧ k < r.addr.toInt.toNat + 2 ^ r.len.toNat

theorem bytesAt_congr {a b : Bytes} {off n : Nat} (hl : a.length = b.length)
    (h : ∀ k, off ≤ k → k < off + n → a[k]? = b[k]?) : bytesAt a off n = bytesAt b off n := by
  unfold bytesAt
  rw [hl]
  congr 1
  · congr 1
    apply List.ext_getElem?
    intro j
    rw [List.getElem?_take, List.getElem?_take]
    split
    · rw [List.getElem?_drop, List.getElem?_drop]
      exact h _ (by omega) (by omega)
    · rfl

theorem addAt_iff {bs bs' : Bytes} {off k v : Nat} : addAt bs off k v = some bs' ↔
    ∃ old, bytesAt bs off k = some old ∧ bs.take off ++ leBytes k (X86.leNat old + v) ++ bs.drop (off + k) = bs' := by
  unfold addAt
  rw [Option.map_eq_some_iff]

theorem addAt_spec {bs bs' : Bytes} {off k v : Nat} (h : addAt bs off k v = some bs') :
    bs'.length = bs.length ∧ (∀ j, ¬(off ≤ j ∧ j < off + k) → bs'[j]? = bs[j]?) ∧
    ∃ old, bytesAt bs off k = some old ∧ bytesAt bs' off k = some (leBytes k (X86.leNat old + v)) := by
  obtain ⟨old, ho, rfl⟩ := addAt_iff.1 h
  have hle : off + k ≤ bs.length := by
    unfold bytesAt at ho
    split at ho
    · assumption
    · cases ho
  have h1 : (bs.take off).length = off := by rw [List.length_take]; omega
  have h2 := length_leBytes k (X86.leNat old + v)
  refine ⟨?_, ?_, old, ho, ?_⟩
  · simp only [List.length_append, h1, h2, List.length_drop]; omega
  · intro j hj
    by_cases c : j < off
    · rw [List.append_assoc, List.getElem?_append_left (by omega), List.getElem?_take, if_pos c]
    · rw [List.getElem?_append_right (by simp only [List.length_append, h1, h2]; omega), List.getElem?_drop]
      simp only [List.length_append, h1, h2]
      congr 1
      omega
  · rw [List.append_assoc]
    exact bytesAt_mid _ _ _ _ _ h1.symm h2.symm

theorem applyOne_iff {val : Str → Option Nat} {bs bs' : Bytes} {r : Reloc} : applyOne val bs r = some bs' ↔
    r.pcrel = false ∧ 0 ≤ r.addr.toInt ∧ ∃ v, val r.symbol = some v ∧
      addAt bs r.addr.toInt.toNat (2 ^ r.len.toNat) v = some bs' := by
  unfold applyOne
  split
  · rename_i h
    rw [Option.bind_eq_bind, Option.bind_eq_some_iff]
    exact ⟨fun hv => ⟨h.1, h.2, hv⟩, fun hv => hv.2.2⟩
  · rename_i h
    exact ⟨fun h' => (by cases h'), fun h' => absurd ⟨h'.1, h'.2.1⟩ h⟩

theorem fold_keeps {val : Str → Option Nat} {l : List Reloc} {bs bs' : Bytes}
    (h : l.foldlM (applyOne val) bs = some bs') :
    bs'.length = bs.length ∧ ∀ k, (∀ r ∈ l, ¬ Covers r k) → bs'[k]? = bs[k]? := by
  induction l generalizing bs with
  | nil => cases h; exact ⟨rfl, fun _ _ => rfl⟩
  | cons r l ih =>
    rw [List.foldlM_cons, Option.bind_eq_bind, Option.bind_eq_some_iff] at h
    obtain ⟨b1, h1, h2⟩ := h
    obtain ⟨-, -, v, -, ha⟩ := applyOne_iff.1 h1
    obtain ⟨s1, s2, -⟩ := addAt_spec ha
    obtain ⟨i1, i2⟩ := ih h2
    exact ⟨i1.trans s1, fun k hk => (i2 k fun r' hr' => hk r' (by simp [hr'])).trans (s2 k (hk r (by simp)))⟩

theorem fold_site {val : Str → Option Nat} {l l' : List Reloc} {r : Reloc} {bs bs' : Bytes}
    (h : (l ++ r :: l').foldlM (applyOne val) bs = some bs')
    (hd : ∀ r' ∈ l ++ l', ∀ k, Covers r k → ¬ Covers r' k) :
    r.pcrel = false ∧ 0 ≤ r.addr.toInt ∧ ∃ v old, val r.symbol = some v ∧
      bytesAt bs r.addr.toInt.toNat (2 ^ r.len.toNat) = some old ∧
      bytesAt bs' r.addr.toInt.toNat (2 ^ r.len.toNat) = some (leBytes (2 ^ r.len.toNat) (X86.leNat old + v)) := by
  rw [List.foldlM_append, Option.bind_eq_bind, Option.bind_eq_some_iff] at h
  obtain ⟨b1, h1, h⟩ := h
  rw [List.foldlM_cons, Option.bind_eq_bind, Option.bind_eq_some_iff] at h
  obtain ⟨b2, h2, h3⟩ := h
  obtain ⟨p1, p2, v, hv, ha⟩ := applyOne_iff.1 h2
  obtain ⟨-, -, old, ho, hn⟩ := addAt_spec ha
  obtain ⟨k1, k2⟩ := fold_keeps h1
  obtain ⟨k3, k4⟩ := fold_keeps h3
  refine ⟨p1, p2, v, old, hv, ?_, ?_⟩
  · rw [← ho]
    exact bytesAt_congr k1.symm fun k h1 h2 => (k2 k fun r' hr' => hd r' (by simp [hr']) k ⟨h1, h2⟩).symm
  · rw [← hn]
    exact bytesAt_congr k3 fun k h1 h2 => k4 k fun r' hr' => hd r' (by simp [hr']) k ⟨h1, h2⟩

theorem fold_ok {val : Str → Option Nat} (l : List Reloc) (bs : Bytes) :
    (∃ bs', l.foldlM (applyOne val) bs = some bs') ↔ ∀ r ∈ l, r.pcrel = false ∧ 0 ≤ r.addr.toInt ∧
      r.addr.toInt.toNat + 2 ^ r.len.toNat ≤ bs.length ∧ ∃ v, val r.symbol = some v := by
  induction l generalizing bs with
  | nil => exact ⟨fun _ r hr => by simp at hr, fun _ => ⟨bs, rfl⟩⟩
  | cons r l ih =>
    constructor
    · rintro ⟨bs', h⟩
      rw [List.foldlM_cons, Option.bind_eq_bind, Option.bind_eq_some_iff] at h
      obtain ⟨b1, h1, h2⟩ := h
      obtain ⟨p1, p2, v, hv, ha⟩ := applyOne_iff.1 h1
      obtain ⟨hlen, -, old, ho, -⟩ := addAt_spec ha
      have hin : r.addr.toInt.toNat + 2 ^ r.len.toNat ≤ bs.length := by
        unfold bytesAt at ho
        split at ho
        · assumption
        · cases ho
      intro r' hr'
      rcases List.mem_cons.1 hr' with rfl | hr'
      · exact ⟨p1, p2, hin, v, hv⟩
      · have := (ih b1).1 ⟨bs', h2⟩ r' hr'
        rwa [hlen] at this
    · intro h
      obtain ⟨p1, p2, p3, v, hv⟩ := h r (by simp)
      have ha : ∃ b1, addAt bs r.addr.toInt.toNat (2 ^ r.len.toNat) v = some b1 := by
        unfold addAt bytesAt
        rw [if_pos p3]
        exact ⟨_, rfl⟩
      obtain ⟨b1, ha⟩ := ha
      obtain ⟨bs', hb⟩ := (ih b1).2 (fun r' hr' => by rw [(addAt_spec ha).1]; exact h r' (by simp [hr']))
      refine ⟨bs', ?_⟩
      rw [List.foldlM_cons, applyOne_iff.2 ⟨p1, p2, v, hv, ha⟩]
      exact hb

theorem mapM_some_iff {α β : Type} {f : α → Option β} {l : List α} {m : List β} :
    l.mapM f = some m ↔ l.length = m.length ∧ ∀ i : Nat, (∀ x, l[i]? = some x → ∃ y, m[i]? = some y ∧ f x = some y) := by
  induction l generalizing m with
  | nil =>
    cases m with
    | nil => simp
    | cons y m => simp
  | cons x l ih =>
    rw [List.mapM_cons, Option.bind_eq_bind, Option.bind_eq_some_iff]
    constructor
    · rintro ⟨y, hy, h⟩
      rw [Option.bind_eq_bind, Option.bind_eq_some_iff] at h
      obtain ⟨m', hm, h⟩ := h
      cases h
      obtain ⟨h1, h2⟩ := ih.1 hm
      refine ⟨by simp [h1], fun i z hz => ?_⟩
      cases i with
      | zero => cases hz; exact ⟨y, rfl, hy⟩
      | succ i => simpa using h2 i z (by simpa using hz)
    · rintro ⟨h1, h2⟩
      cases m with
      | nil => simp at h1
      | cons y m =>
        obtain ⟨y', hy', hf⟩ := h2 0 x rfl
        cases hy'
        refine ⟨y, hf, ?_⟩
        rw [ih.2 ⟨by simpa using h1, fun i z hz => by simpa using h2 (i + 1) z (by simpa using hz)⟩]
        rfl

theorem mapM_isSome {α β : Type} {f : α → Option β} {l : List α} :
    (∃ m, l.mapM f = some m) ↔ ∀ x ∈ l, ∃ y, f x = some y := by
  induction l with
  | nil => simp
  | cons x l ih =>
    rw [List.mapM_cons]
    constructor
    · rintro ⟨m, h⟩ z hz
      rw [Option.bind_eq_bind, Option.bind_eq_some_iff] at h
      obtain ⟨y, hy, h⟩ := h
      rw [Option.bind_eq_bind, Option.bind_eq_some_iff] at h
      obtain ⟨m', hm, -⟩ := h
      rcases List.mem_cons.1 hz with rfl | hz
      · exact ⟨y, hy⟩
      · exact ih.1 ⟨m', hm⟩ z hz
    · intro h
      obtain ⟨y, hy⟩ := h x (by simp)
      obtain ⟨m, hm⟩ := ih.2 fun z hz => h z (by simp [hz])
      exact ⟨y :: m, by rw [hy, hm]; rfl⟩

/-- C92, when the linker refuses: it links exactly if no external symbol is defined twice and every relocation is
absolute, lies in its section and names a symbol that is defined somewhere. -/
theorem C92_links_iff (os : List Object) (base : Nat → Str → Nat) :
    (∃ out, linkObjects os base = some out) ↔
      ((exports os base).map (·.1)).Nodup ∧
      ∀ (i : Nat) o, os[i]? = some o → ∀ p ∈ parts o, ∀ r ∈ p.relocs, r.pcrel = false ∧ 0 ≤ r.addr.toInt ∧
        r.addr.toInt.toNat + 2 ^ r.len.toNat ≤ p.bytes.length ∧ ∃ v, meaning os base (o, i) r.symbol = some v := by
  unfold linkObjects
  split
  · rename_i hn
    rw [mapM_isSome]
    constructor
    · intro h
      refine ⟨hn, fun i o ho p hp => ?_⟩
      have := h (o, i) (List.mem_zipIdx_iff_getElem?.2 ho)
      exact (fold_ok _ _).1 (mapM_isSome.1 this p hp)
    · rintro ⟨-, h⟩ ⟨o, i⟩ hx
      exact mapM_isSome.2 fun p hp => (fold_ok _ _).2 (h i o (mem_zipIdx hx).2 p hp)
  · rename_i hn
    exact ⟨fun ⟨_, h⟩ => (by cases h), fun h => absurd h.1 hn⟩

/-- C92, what the linker makes of a section: as many bytes as it had; those that belong to no relocation as they
were; and at the place of each relocation that shares no byte with another, the number that was there
plus the address of its symbol. -/
theorem C92_sections (os : List Object) (base : Nat → Str → Nat) (out : List (List Bytes))
    (h : linkObjects os base = some out) :
    out.length = os.length ∧ ∀ (i : Nat) o, os[i]? = some o →
      ∃ secs, out[i]? = some secs ∧ secs.length = (parts o).length ∧
        ∀ (j : Nat) p, (parts o)[j]? = some p →
          ∃ bs, secs[j]? = some bs ∧ bs.length = p.bytes.length ∧
            (∀ k : Nat, (∀ r ∈ p.relocs, ¬ Covers r k) → bs[k]? = p.bytes[k]?) ∧
            ∀ (a : Nat) r, p.relocs[a]? = some r →
              (∀ (b : Nat) r', p.relocs[b]? = some r' → b ≠ a → ∀ k, Covers r k → ¬ Covers r' k) →
              ∃ v old, meaning os base (o, i) r.symbol = some v ∧
                bytesAt p.bytes r.addr.toInt.toNat (2 ^ r.len.toNat) = some old ∧
                bytesAt bs r.addr.toInt.toNat (2 ^ r.len.toNat) =
                  some (leBytes (2 ^ r.len.toNat) (X86.leNat old + v)) := by
  unfold linkObjects at h
  split at h
  · obtain ⟨h1, h2⟩ := mapM_some_iff.1 h
    refine ⟨by rw [← h1, List.length_zipIdx], fun i o ho => ?_⟩
    obtain ⟨secs, hs, hm⟩ := h2 i (o, i) (by rw [List.getElem?_zipIdx, ho]; simp)
    obtain ⟨h3, h4⟩ := mapM_some_iff.1 hm
    refine ⟨secs, hs, h3.symm, fun j p hp => ?_⟩
    obtain ⟨bs, hb, hfold⟩ := h4 j p hp
    obtain ⟨k1, k2⟩ := fold_keeps hfold
    refine ⟨bs, hb, k1, k2, fun a r ha hd => ?_⟩
    have hlt : a < p.relocs.length := (List.getElem?_eq_some_iff.1 ha).1
    have hsplit : p.relocs = p.relocs.take a ++ r :: p.relocs.drop (a + 1) := by
      have e : p.relocs[a] = r := (List.getElem?_eq_some_iff.1 ha).2
      rw [← e, ← List.drop_eq_getElem_cons hlt, List.take_append_drop]
    rw [hsplit] at hfold
    obtain ⟨-, -, res⟩ := fold_site hfold (fun r' hr' => by
      rcases List.mem_append.1 hr' with hr' | hr'
      · obtain ⟨b, hb⟩ := List.getElem?_of_mem hr'
        rw [List.getElem?_take] at hb
        split at hb
        · exact hd b r' hb (by omega)
        · cases hb
      · obtain ⟨b, hb⟩ := List.getElem?_of_mem hr'
        rw [List.getElem?_drop] at hb
        exact hd _ r' hb (by omega))
    exact res
  · cases h

/-- C92, what a name stands for: the first symbol of the object with that name, if it is defined, at the address of
its section plus its offset; and if it is undefined, the external symbol of that name of whichever object
defines it. -/
theorem C92_meaning (os : List Object) (base : Nat → Str → Nat) (hn : ((exports os base).map (·.1)).Nodup)
    (i : Nat) (o : Object) :
    (∀ k name a ext p, (placed (parts o)).find? (·.2.name = name) = some (k, .ref name a ext) →
      (parts o)[k]? = some p → meaning os base (o, i) name = some (base i p.sectname + a.toNat)) ∧
    (∀ k name v ext, (placed (parts o)).find? (·.2.name = name) = some (k, .abs name v ext) →
      meaning os base (o, i) name = some v.toNat) ∧
    (∀ k name, (placed (parts o)).find? (·.2.name = name) = some (k, .undef name) →
      ∀ (j : Nat) o', os[j]? = some o' →
        (∀ p s a, p ∈ (parts o').zipIdx → s ∈ p.1.symbols → s = .ref name a true →
          meaning os base (o, i) name = some (base j p.1.sectname + a.toNat)) ∧
        (∀ p s v, p ∈ parts o' → s ∈ p.symbols → s = .abs name v true →
          meaning os base (o, i) name = some v.toNat)) := by
  have hlook : ∀ n v, (n, v) ∈ exports os base → (exports os base).lookup n = some v := by
    generalize exports os base = l at hn
    induction l with
    | nil => intro n v h; simp at h
    | cons x l ih =>
      intro n v h
      rw [List.map_cons, List.nodup_cons] at hn
      rw [List.lookup_cons]
      rcases List.mem_cons.1 h with rfl | h
      · simp
      · have : n ≠ x.1 := fun e => hn.1 (e ▸ List.mem_map.2 ⟨_, h, rfl⟩)
        rw [show (n == x.1) = false by simpa using this]
        exact ih hn.2 n v h
  refine ⟨fun k name a ext p h hp => ?_, fun k name v ext h => ?_, fun k name h j o' ho' => ⟨?_, ?_⟩⟩
  · simp [meaning, h, ownAddress, hp]
  · simp [meaning, h, ownAddress]
  · rintro ⟨p, q⟩ s a hp hs rfl
    have hm : (q, Symbol.ref name a true) ∈ placed (parts o') :=
      List.mem_flatMap.2 ⟨(p, q), hp, List.mem_map.2 ⟨_, hs, rfl⟩⟩
    have := hlook name (base j p.sectname + a.toNat) (List.mem_flatMap.2 ⟨(o', j), List.mem_zipIdx_iff_getElem?.2 ho',
      List.mem_filterMap.2 ⟨_, hm, by simp [isExternal, ownAddress, (mem_zipIdx hp).2, Symbol.name]⟩⟩)
    simp [meaning, h, this]
  · rintro p s v hp hs rfl
    obtain ⟨q, hq⟩ := List.getElem?_of_mem hp
    have hm : (q, Symbol.abs name v true) ∈ placed (parts o') :=
      List.mem_flatMap.2 ⟨(p, q), List.mem_zipIdx_iff_getElem?.2 hq, List.mem_map.2 ⟨_, hs, rfl⟩⟩
    have := hlook name v.toNat (List.mem_flatMap.2 ⟨(o', j), List.mem_zipIdx_iff_getElem?.2 ho',
      List.mem_filterMap.2 ⟨_, hm, by simp [isExternal, ownAddress, Symbol.name]⟩⟩)
    simp [meaning, h, this]

/-! ## A case -/

/-- `mov rax, _puts` with `_puts` defined elsewhere. -/
def callerObject : Object where
  sections := { text := { bytes := [0x48, 0xb8, 0, 0, 0, 0, 0, 0, 0, 0]
                          symbols := [.ref (str% "_main") 0 true, .undef (str% "_puts")]
                          relocs := [⟨2, str% "_puts", false, 3⟩] } }

/-- `_puts` at offset 1 of the code, and a pointer to it plus 2 in the data. -/
def calleeObject : Object where
  sections := { text := { bytes := [0x90, 0xc3], symbols := [.ref (str% "_puts") 1 true] }
                data := { bytes := [7, 2, 0, 0, 0], relocs := [⟨1, str% "_puts", false, 2⟩] } }

theorem caller_linkable : Linkable callerObject :=
  ⟨Fits.of_dec (by decide +kernel) (by decide +kernel) (by decide +kernel), by unfold NulFree; decide +kernel,
    ⟨by decide +kernel, by decide +kernel, by decide +kernel⟩, by decide +kernel⟩

theorem callee_linkable : Linkable calleeObject :=
  ⟨Fits.of_dec (by decide +kernel) (by decide +kernel) (by decide +kernel), by unfold NulFree; decide +kernel,
    ⟨by decide +kernel, by decide +kernel, by decide +kernel⟩, by decide +kernel⟩

/-- The two objects, the first written on a big-endian host, the second on a little-endian one: the code of the
second loaded at 0x1000 (and that of the first at 0). -/
example : (∃ xs, [(writeInto .debug .big callerObject).out, (writeInto .release .little calleeObject).out].mapM
      (readRaw .debug .little) = .ok xs ∧
      linkFiles xs (fun i n => if i = 1 ∧ n = str% "__text" then 0x1000 else 0) =
        some [[[0x48, 0xb8, 0x01, 0x10, 0, 0, 0, 0, 0, 0]], [[0x90, 0xc3], [7, 0x03, 0x10, 0, 0]]]) := by
  obtain ⟨xs, h1, h2⟩ := C92_link .debug .little [callerObject, calleeObject]
    [(writeInto .debug .big callerObject).out, (writeInto .release .little calleeObject).out]
    (by
      intro o ho
      rcases List.mem_cons.1 ho with rfl | ho
      · exact caller_linkable
      · rw [List.mem_singleton.1 ho]; exact callee_linkable)
    ⟨rfl, fun i o f ho hf => by
      match i with
      | 0 => cases ho; cases hf; exact ⟨_, _, rfl⟩
      | 1 => cases ho; cases hf; exact ⟨_, _, rfl⟩
      | n + 2 => simp at ho⟩
  refine ⟨xs, h1, ?_⟩
  rw [h2]
  decide +kernel

end AT.Props
