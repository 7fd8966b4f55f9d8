import Verif.Proofs.ObjImage
/-!
# String table, symbol entries and relocation entries of the object writer
-/

namespace AT.Obj
open AT.Mac AT.MachO AT.ObjSpec

theorem plain_of {s : Str} (ha : ∀ c ∈ s, c.toNat < 128) (hn : ∀ c ∈ s, c.toNat ≠ 0) :
    strIsAscii s = true ∧ Char.ofNat 0 ∉ s :=
  ⟨by simpa [strIsAscii, charIsAscii] using ha, fun hm => hn _ hm (by decide)⟩

theorem placed_from (ps : List Part) (k : Nat) :
    ((ps.zipIdx k).flatMap (fun p => p.1.symbols.map (fun s => (p.2, s)))).map (·.2) =
      ps.flatMap (·.symbols) := by
  induction ps generalizing k with
  | nil => rfl
  | cons p ps ih =>
    simp only [List.zipIdx_cons, List.flatMap_cons, List.map_append, ih, List.map_map]
    congr 1
    exact List.map_id _

theorem placed_symbols (ps : List Part) : (placed ps).map (·.2) = ps.flatMap (·.symbols) :=
  placed_from ps 0

theorem placed_names (ps : List Part) :
    (placed ps).map (·.2.name) = (ps.flatMap (·.symbols)).map Symbol.name := by
  rw [← placed_symbols, List.map_map]; rfl

theorem flatMap_symbols {o : Object} {ps : List Part} (hp : ps = o.sections.iter.map toPart) :
    o.sections.iter.flatMap SectionRef.symbols = ps.flatMap (·.symbols) := by
  rw [hp, List.flatMap_map]
  congr 1
  funext s
  exact (toPart_symbols s).symm

theorem flatMap_relocs {o : Object} {ps : List Part} (hp : ps = o.sections.iter.map toPart) :
    o.sections.iter.flatMap SectionRef.relocs = ps.flatMap (·.relocs) := by
  rw [hp, List.flatMap_map]
  congr 1
  funext s
  exact (toPart_relocs s).symm

theorem genStringTable_names {o : Object} {ps : List Part} (hp : ps = o.sections.iter.map toPart) :
    genStringTable o = ((placed ps).map (·.2.name)).foldlM (fun t s => t.pushWithNull s)
      StringTable.withNull := by
  unfold genStringTable
  rw [flatMap_symbols hp, placed_names, List.foldlM_map]

theorem genStringTable_ok {o : Object} {ps : List Part} (hp : ps = o.sections.iter.map toPart)
    (ha : ∀ n ∈ (placed ps).map (·.2.name), strIsAscii n = true) :
    genStringTable o = .ok ⟨0 :: cstrs ((placed ps).map (·.2.name))⟩ := by
  rw [genStringTable_names hp, pushAll_ok _ _ ha]
  rfl

theorem genStringTable_panic {o : Object} {ps : List Part} (hp : ps = o.sections.iter.map toPart)
    (ha : ¬ ∀ n ∈ (placed ps).map (·.2.name), strIsAscii n = true) :
    genStringTable o = .error .panic := by
  rw [genStringTable_names hp]
  exact pushAll_panic _ _ ha

/-- The pieces between the NULs of a name. -/
def chunk : Str → List Str
  | [] => [[]]
  | c :: s => if c = Char.ofNat 0 then [] :: chunk s else
      match chunk s with
      | [] => [[c]]
      | p :: ps => (c :: p) :: ps

/-- The strings a reader finds in the table of `names`. -/
def chunks (names : List Str) : List Str := names.flatMap chunk

theorem chunk_ne (s : Str) : chunk s ≠ [] := by
  cases s with
  | nil => simp [chunk]
  | cons c s =>
    unfold chunk
    split
    · simp
    · split <;> simp

theorem chunk_plain (s : Str) (h : Char.ofNat 0 ∉ s) : chunk s = [s] := by
  induction s with
  | nil => rfl
  | cons c s ih =>
    simp only [List.mem_cons, not_or] at h
    unfold chunk
    rw [if_neg (Ne.symm h.1), ih h.2]

theorem cstrs_chunk (s : Str) : cstrs (chunk s) = nameRaw s ++ [0] := by
  induction s with
  | nil => rfl
  | cons c s ih =>
    unfold chunk
    split
    · rename_i hc
      subst hc
      rw [cstrs_cons, ih]
      rfl
    · cases hs : chunk s with
      | nil => exact absurd hs (chunk_ne s)
      | cons p ps =>
        rw [hs, cstrs_cons] at ih
        simp only [cstrs_cons]
        show c.toNat.toUInt8 :: (nameRaw p ++ 0 :: cstrs ps) = _
        rw [ih]
        rfl

theorem chunk_mem (s : Str) (ha : strIsAscii s = true) :
    ∀ p ∈ chunk s, strIsAscii p = true ∧ Char.ofNat 0 ∉ p := by
  induction s with
  | nil => simp [chunk, strIsAscii]
  | cons c s ih =>
    simp only [strIsAscii, List.all_cons, Bool.and_eq_true] at ha ih
    have ih := ih ha.2
    unfold chunk
    split
    · intro p hp
      rcases List.mem_cons.1 hp with rfl | hp
      · simp [strIsAscii]
      · exact ih p hp
    · rename_i hc
      cases hs : chunk s with
      | nil => exact absurd hs (chunk_ne s)
      | cons q qs =>
        rw [hs] at ih
        intro p hp
        rcases List.mem_cons.1 hp with rfl | hp
        · have hq := ih q (by simp)
          refine ⟨?_, ?_⟩
          · simp only [strIsAscii, List.all_cons, Bool.and_eq_true]
            exact ⟨ha.1, hq.1⟩
          · simp only [List.mem_cons, not_or]
            exact ⟨Ne.symm hc, hq.2⟩
        · exact ih p (by simp [hp])

theorem cstrs_chunks (names : List Str) : cstrs (chunks names) = cstrs names := by
  induction names with
  | nil => rfl
  | cons s l ih =>
    unfold chunks at ih ⊢
    rw [List.flatMap_cons, cstrs_append, ih, cstrs_chunk, cstrs_cons]
    simp

theorem chunks_mem {names : List Str} (ha : ∀ s ∈ names, strIsAscii s = true) :
    ∀ p ∈ chunks names, strIsAscii p = true ∧ Char.ofNat 0 ∉ p := by
  intro p hp
  obtain ⟨s, hs, hp⟩ := List.mem_flatMap.1 hp
  exact chunk_mem s (ha s hs) p hp

theorem mem_chunks {names : List Str} {n : Str} (h : n ∈ names) (hn : Char.ofNat 0 ∉ n) :
    n ∈ chunks names :=
  List.mem_flatMap.2 ⟨n, h, by rw [chunk_plain n hn]; simp⟩

theorem chunks_sum (names : List Str) :
    ((chunks names).map (fun s => s.length + 1)).sum = (names.map (fun s => s.length + 1)).sum := by
  rw [← length_cstrs, ← length_cstrs, cstrs_chunks]

/-- Offset of the first occurrence of `n` among the strings `l`; the end of the table if there is
none. -/
def posIn (l : List Str) (n : Str) : Nat :=
  1 + ((l.takeWhile (· ≠ n)).map (fun s => s.length + 1)).sum

/-- Offset given to the name `n` in the table of `names`. -/
def strPos (names : List Str) (n : Str) : Nat := posIn (chunks names) n

theorem takeWhile_split {α : Type} [DecidableEq α] (l : List α) (n : α) (h : n ∈ l) :
    ∃ rest, l = l.takeWhile (· ≠ n) ++ n :: rest := by
  induction l with
  | nil => simp at h
  | cons x l ih =>
    by_cases hx : x = n
    · exact ⟨l, by simp [hx]⟩
    · have : n ∈ l := by
        rcases List.mem_cons.1 h with h | h
        · exact absurd h.symm hx
        · exact h
      obtain ⟨r, hr⟩ := ih this
      refine ⟨r, ?_⟩
      rw [List.takeWhile_cons, if_pos (by simpa using hx), List.cons_append, ← hr]

theorem takeWhile_length {α : Type} [BEq α] [LawfulBEq α] [DecidableEq α] (l : List α) (n : α) :
    (l.takeWhile (· ≠ n)).length = l.idxOf n := by
  induction l with
  | nil => rfl
  | cons x l ih =>
    rw [List.takeWhile_cons, List.idxOf_cons]
    by_cases hx : x = n
    · simp [hx]
    · have : (x == n) = false := by simpa using hx
      rw [if_pos (by simpa using hx), this, List.length_cons, ih]
      simp

theorem takeWhile_none {α : Type} [DecidableEq α] (l : List α) (n : α) (h : n ∉ l) :
    l.takeWhile (· ≠ n) = l := by
  induction l with
  | nil => rfl
  | cons x l ih =>
    simp only [List.mem_cons, not_or] at h
    rw [List.takeWhile_cons, if_pos (by simpa using Ne.symm h.1), ih h.2]

theorem getStrxGo_eq (bd : Build) (n : Str) (l : List Str) (idx : Nat)
    (hl : ∀ s ∈ l, strIsAscii s = true)
    (hb : idx + 1 + (l.map (fun s => s.length + 1)).sum < 2 ^ 32) :
    getStrxGo bd n (UInt32.ofNat idx) (l.map nameRaw ++ [[]]) =
      .ok (UInt32.ofNat (idx + posIn l n)) := by
  induction l generalizing idx with
  | nil =>
    simp only [List.map_nil, List.sum_nil] at hb
    simp only [List.map_nil, List.nil_append, getStrxGo]
    rw [show fromUtf8 [] = some [] from rfl]
    simp only [runwrap, bind, Except.bind]
    rw [show (1 : UInt32) = UInt32.ofNat 1 from rfl, addU32_nat bd (by omega)]
    simp only
    split
    · simp [posIn, pure, Except.pure]
    · rw [show utf8Len [] = 0 from rfl, addU32_nat bd (by omega)]
      simp [posIn, pure, Except.pure]
  | cons s l ih =>
    have hs := hl s (by simp)
    simp only [List.map_cons, List.sum_cons] at hb
    simp only [List.map_cons, List.cons_append, getStrxGo]
    rw [show fromUtf8 (nameRaw s) = some s from fromUtf8_ascii s hs]
    simp only [runwrap, bind, Except.bind]
    rw [show (1 : UInt32) = UInt32.ofNat 1 from rfl, addU32_nat bd (by omega)]
    simp only
    by_cases he : s = n
    · rw [if_pos he]
      simp [posIn, he, pure, Except.pure]
    · rw [if_neg he, utf8Len_ascii s hs, addU32_nat bd (by omega)]
      simp only
      rw [ih (idx + 1 + s.length) (fun s hs => hl s (by simp [hs])) (by omega)]
      congr 2
      unfold posIn
      rw [List.takeWhile_cons, if_pos (by simpa using he)]
      simp only [List.map_cons, List.sum_cons]
      omega

theorem getStrx_eq (bd : Build) (n : Str) (names : List Str)
    (hp : ∀ s ∈ names, strIsAscii s = true)
    (hb : 1 + (names.map (fun s => s.length + 1)).sum < 2 ^ 32) :
    getStrx bd ⟨0 :: cstrs names⟩ n = .ok (UInt32.ofNat (strPos names n)) := by
  unfold getStrx
  rw [← cstrs_chunks, rawIter_cstrs _ (chunks_mem hp), show (0 : UInt32) = UInt32.ofNat 0 from rfl,
    getStrxGo_eq bd n _ 0 (fun s hs => (chunks_mem hp s hs).1) (by rw [chunks_sum]; omega),
    Nat.zero_add]
  rfl

theorem strPos_split (names : List Str) (n : Str) (hn : n ∈ names) (h0 : Char.ofNat 0 ∉ n) :
    ∃ a b, 0 :: cstrs names = a ++ (nameRaw n ++ 0 :: b) ∧ a.length = strPos names n := by
  obtain ⟨r, hr⟩ := takeWhile_split (chunks names) n (mem_chunks hn h0)
  refine ⟨0 :: cstrs ((chunks names).takeWhile (· ≠ n)), cstrs r, ?_, ?_⟩
  · rw [← cstrs_chunks]
    conv => lhs; rw [hr]
    rw [cstrs_append, cstrs_cons]
    rfl
  · rw [List.length_cons, length_cstrs, strPos, posIn]
    omega

/-- A name with a NUL is not in the table; its offset is the end of the table. -/
theorem strPos_nul (names : List Str) (n : Str) (ha : ∀ s ∈ names, strIsAscii s = true)
    (h0 : Char.ofNat 0 ∈ n) :
    strPos names n = 1 + (names.map (fun s => s.length + 1)).sum := by
  unfold strPos posIn
  rw [takeWhile_none _ _ (fun h => (chunks_mem ha n h).2 h0), chunks_sum]

theorem get_strPos (names : List Str) (n : Str)
    (hp : ∀ s ∈ names, strIsAscii s = true) (hn : n ∈ names) :
    StringTable.get ⟨0 :: cstrs names⟩ (strPos names n) = .ok (seen n) := by
  unfold seen
  by_cases h0 : Char.ofNat 0 ∈ n
  · rw [strPos_nul names n hp h0, if_pos h0]
    have e : 1 + (names.map (fun s => s.length + 1)).sum = (0 :: cstrs names).length := by
      rw [List.length_cons, length_cstrs]; omega
    rw [e]
    unfold StringTable.get
    rw [rassert_true (by simp)]
    simp only [List.drop_length]
    rfl
  · rw [if_neg h0]
    obtain ⟨a, b, h, hl⟩ := strPos_split names n hn h0
    rw [h, ← hl]
    exact get_at a b n (hp n hn) h0

theorem strPos_le (names : List Str) (n : Str) (hp : ∀ s ∈ names, strIsAscii s = true)
    (hn : n ∈ names) : strPos names n ≤ 1 + (names.map (fun s => s.length + 1)).sum := by
  by_cases h0 : Char.ofNat 0 ∈ n
  · rw [strPos_nul names n hp h0]
    omega
  · obtain ⟨a, b, h, hl⟩ := strPos_split names n hn h0
    have := congrArg List.length h
    simp only [List.length_cons, length_cstrs, List.length_append] at this
    omega

theorem strPos_lt (names : List Str) (n : Str) (hn : n ∈ names) (h0 : Char.ofNat 0 ∉ n) :
    strPos names n < 1 + (names.map (fun s => s.length + 1)).sum := by
  obtain ⟨a, b, h, hl⟩ := strPos_split names n hn h0
  have := congrArg List.length h
  simp only [List.length_cons, length_cstrs, List.length_append] at this
  omega

/-! ## Symbol entries -/

/-- The entry of a symbol of section `i`. -/
def entryOf (names : List Str) (ps : List Part) (p : Nat × Symbol) : NList64 :=
  match p.2 with
  | .undef name => ⟨UInt32.ofNat (strPos names name), .norm false .undf true, 0, 0, 0⟩
  | .abs name val ext =>
    ⟨UInt32.ofNat (strPos names name), .norm false .abs ext, UInt8.ofNat (p.1 + 1), 0, val⟩
  | .ref name addr ext =>
    ⟨UInt32.ofNat (strPos names name), .norm false .sect ext, UInt8.ofNat (p.1 + 1), 0,
      UInt64.ofNat (addrOf ps p.1 + addr.toNat)⟩

theorem entryOf_strx (names : List Str) (ps : List Part) (p : Nat × Symbol) :
    (entryOf names ps p).nStrx = UInt32.ofNat (strPos names p.2.name) := by
  obtain ⟨i, s⟩ := p
  cases s <;> rfl

theorem genSection64_addr (s : SectionRef) (a : UInt64) (d r : UInt32) :
    (genSection64 s a d r).addr = a := by cases s <;> rfl

theorem sectionsFrom_get (S : List SectionRef) (vm ds rs i : Nat) (s : SectionRef)
    (h : S[i]? = some s) : (sectionsFrom vm ds rs S)[i]? =
      some (genSection64 s (UInt64.ofNat (vm + vmLen ((S.map toPart).take i)))
        (UInt32.ofNat (ds + dataLen ((S.map toPart).take i)))
        (UInt32.ofNat (rs + 8 * relocCount ((S.map toPart).take i)))) := by
  induction S generalizing vm ds rs i with
  | nil => simp at h
  | cons x S ih =>
    cases i with
    | zero =>
      simp only [List.getElem?_cons_zero, Option.some.injEq] at h
      subst h
      simp [sectionsFrom, vmLen, dataLen, relocCount]
    | succ i =>
      simp only [List.getElem?_cons_succ] at h
      unfold sectionsFrom
      rw [List.getElem?_cons_succ, ih _ _ _ _ h]
      simp only [List.map_cons, List.take_succ_cons, vmLen, dataLen, relocCount, List.sum_cons]
      congr 3 <;> omega

theorem sectionsFrom_length (S : List SectionRef) (vm ds rs : Nat) :
    (sectionsFrom vm ds rs S).length = S.length := by
  induction S generalizing vm ds rs with
  | nil => rfl
  | cons x S ih => simp [sectionsFrom, ih]

theorem u64_add (a : Nat) (b : UInt64) (bd : Build) (h : a + b.toNat < 2 ^ 64) :
    addU64 bd (UInt64.ofNat a) b = .ok (UInt64.ofNat (a + b.toNat)) := by
  have := addU64_nat bd (a := a) (b := b.toNat) h
  rwa [UInt64.ofNat_toNat] at this

theorem genNList64_eq (bd : Build) (S : List SectionRef) (ds rs : Nat) (names : List Str)
    (i : Nat) (sym : Symbol) (hi : i < S.length)
    (hp : ∀ s ∈ names, strIsAscii s = true)
    (hb : 1 + (names.map (fun s => s.length + 1)).sum < 2 ^ 32)
    (hr : ∀ name addr ext, sym = .ref name addr ext →
      addrOf (S.map toPart) i + addr.toNat < 2 ^ 64) :
    genNList64 bd (sectionsFrom 0 ds rs S) ⟨0 :: cstrs names⟩ i sym =
      .ok (entryOf names (S.map toPart) (i, sym)) := by
  unfold genNList64
  cases sym with
  | undef name => simp only; rw [getStrx_eq bd name names hp hb]; rfl
  | abs name val ext => simp only; rw [getStrx_eq bd name names hp hb]; rfl
  | ref name addr ext =>
    simp only
    rw [getStrx_eq bd name names hp hb]
    obtain ⟨s, hs⟩ : ∃ s, S[i]? = some s := ⟨S[i], List.getElem?_eq_getElem hi⟩
    rw [sectionsFrom_get S 0 ds rs i s hs]
    simp only [runwrap, bind, Except.bind, genSection64_addr, Nat.zero_add]
    have := u64_add (addrOf (S.map toPart) i) addr bd (hr name addr ext rfl)
    unfold addrOf at this
    rw [this]
    rfl

theorem genNList64sGo_eq (bd : Build) (secs : List Section64) (stab : StringTable)
    (f : Nat × Symbol → NList64) (S : List SectionRef) (i : Nat)
    (h : ∀ p ∈ ((S.map toPart).zipIdx i).flatMap (fun p => p.1.symbols.map (fun s => (p.2, s))),
      genNList64 bd secs stab p.1 p.2 = .ok (f p)) :
    genNList64sGo bd secs stab i S = .ok
      ((((S.map toPart).zipIdx i).flatMap (fun p => p.1.symbols.map (fun s => (p.2, s)))).map f) := by
  induction S generalizing i with
  | nil => rfl
  | cons s S ih =>
    simp only [List.map_cons, List.zipIdx_cons, List.flatMap_cons] at h ⊢
    unfold genNList64sGo
    rw [mapM_ok' (genNList64 bd secs stab i) (fun x => f (i, x)) _ (fun x hx => h (i, x)
      (List.mem_append_left _ (List.mem_map.2 ⟨x, by rw [toPart_symbols]; exact hx, rfl⟩)))]
    simp only [bind, Except.bind]
    rw [ih (i + 1) (fun p hp => h p (List.mem_append_right _ hp))]
    simp [toPart_symbols, pure, Except.pure]

theorem placed_mem {ps : List Part} {p : Nat × Symbol} (h : p ∈ placed ps) :
    ∃ q, ps[p.1]? = some q ∧ p.2 ∈ q.symbols := by
  obtain ⟨⟨q, k⟩, hq, hp⟩ := List.mem_flatMap.1 h
  obtain ⟨s, hs, rfl⟩ := List.mem_map.1 hp
  exact ⟨q, (List.mem_zipIdx_iff_getElem?).1 hq, hs⟩

/-! ## Relocation entries -/

theorem getSymIdxGo_eq (stab : StringTable) (n : Str) (a : Str → Str) (g : Str → UInt32) (l : List NList64)
    (names : List Str) (i : Nat)
    (hg : l.map (·.nStrx) = names.map g)
    (hs : ∀ s ∈ names, stab.get (g s).toNat = .ok (a s)) :
    getSymIdxGo stab n i l =
      if n ∈ names.map a then .ok (UInt32.ofNat (i + (names.map a).idxOf n))
      else .error .panic := by
  induction l generalizing names i with
  | nil =>
    cases names with
    | nil => rfl
    | cons => simp at hg
  | cons x l ih =>
    cases names with
    | nil => simp at hg
    | cons m names =>
      simp only [List.map_cons, List.cons.injEq] at hg
      unfold getSymIdxGo
      rw [hg.1, hs m (by simp)]
      simp only [bind, Except.bind]
      by_cases hm : a m = n
      · simp [hm, pure, Except.pure]
      · rw [if_neg hm, ih names (i + 1) hg.2 (fun s hs' => hs s (by simp [hs']))]
        have hbe : (a m == n) = false := by simpa using hm
        have : (n ∈ a m :: names.map a) = (n ∈ names.map a) := by
          simp [Ne.symm hm]
        simp only [List.map_cons, this, List.idxOf_cons, hbe, cond_false]
        split
        · congr 2; omega
        · rfl

theorem symNames_fit (ps : List Part) : (((placed ps).map (·.2.name)).map utf8Len).sum +
    ((placed ps).map (·.2.name)).length = (ps.map namesLen).sum := by
  rw [placed_names]
  induction ps with
  | nil => rfl
  | cons p ps ih =>
    have hq : ∀ l : List Symbol, ((l.map Symbol.name).map utf8Len).sum + l.length =
        (l.map (fun s => utf8Len s.name + 1)).sum := by
      intro l
      induction l with
      | nil => rfl
      | cons x l ih => simp only [List.map_cons, List.sum_cons, List.length_cons]; omega
    have := hq p.symbols
    simp only [List.flatMap_cons, List.map_append, List.sum_append, List.length_append,
      List.map_cons, List.sum_cons, namesLen] at ih ⊢
    simp only [List.length_map] at ih ⊢
    omega

theorem names_sum (ps : List Part)
    (ha : ∀ n ∈ (placed ps).map (·.2.name), strIsAscii n = true) :
    1 + (((placed ps).map (·.2.name)).map (fun s => s.length + 1)).sum = strLen ps := by
  rw [strLen_eq, ← symNames_fit]
  generalize (placed ps).map (·.2.name) = l at ha
  congr 1
  induction l with
  | nil => rfl
  | cons x l ih =>
    have := ih (fun n hn => ha n (by simp [hn]))
    simp only [List.map_cons, List.sum_cons, List.length_cons, utf8Len_ascii x (ha x (by simp))]
    omega

/-- The number of a symbol: position of the first symbol with that name. -/
def symIdx (ps : List Part) (n : Str) : Nat := (((placed ps).map (·.2.name)).map seen).idxOf n

/-- The entry of a relocation with an allowed length. -/
def relocOf (ps : List Part) (len : RelocLength) (r : Reloc) : RelocationInfo :=
  ⟨r.addr, UInt32.ofNat (symIdx ps r.symbol), r.pcrel, len, true, 0⟩

/-- Length codes. -/
def lenOf (n : UInt8) : RelocLength :=
  if n = 0 then .byte else if n = 1 then .word else if n = 2 then .long else .quad

theorem lenOf_tab : ∀ n < 256, RelocLength.fromU32? (UInt8.ofNat n).toUInt32 =
    if n ≤ 3 then some (lenOf (UInt8.ofNat n)) else none := by decide +kernel

theorem lenOf_eq (n : UInt8) : RelocLength.fromU32? n.toUInt32 =
    if n.toNat ≤ 3 then some (lenOf n) else none := by
  have := lenOf_tab n.toNat n.toNat_lt
  rwa [UInt8.ofNat_toNat] at this

/-- The relocation is acceptable. -/
def relocOk (ps : List Part) (r : Reloc) : Prop :=
  r.symbol ∈ ((placed ps).map (·.2.name)).map seen ∧ r.len.toNat ≤ 3

open Classical in
theorem genRelocationInfo_eq {ps : List Part} (e1 : strLen ps < 2 ^ 32)
    (hp : ∀ s ∈ (placed ps).map (·.2.name), strIsAscii s = true) (r : Reloc) :
    genRelocationInfo ((placed ps).map (entryOf ((placed ps).map (·.2.name)) ps))
      ⟨0 :: cstrs ((placed ps).map (·.2.name))⟩ r =
      if relocOk ps r then .ok (relocOf ps (lenOf r.len) r) else .error .panic := by
  unfold genRelocationInfo getSymIdx relocOk
  have hns := names_sum ps hp
  rw [getSymIdxGo_eq _ r.symbol seen (fun s => UInt32.ofNat (strPos ((placed ps).map (·.2.name)) s))
    _ ((placed ps).map (·.2.name)) 0]
  · by_cases h1 : r.symbol ∈ ((placed ps).map (·.2.name)).map seen
    · rw [if_pos h1, lenOf_eq]
      by_cases h2 : r.len.toNat ≤ 3
      · rw [if_pos h2, if_pos ⟨h1, h2⟩]
        simp [bind, Except.bind, runwrap, pure, Except.pure, relocOf, symIdx,
          X86_64RelocType.toU8]
      · rw [if_neg h2, if_neg (fun h => h2 h.2)]
        rfl
    · rw [if_neg h1, if_neg (fun h => h1 h.1)]
      rfl
  · rw [List.map_map, List.map_map]
    apply List.map_congr_left
    intro p _
    exact entryOf_strx _ _ _
  · intro s hs
    have := strPos_le _ s hp hs
    rw [u32_ofNat _ (by omega)]
    exact get_strPos _ s hp hs

open Classical in
theorem mapM_if {α β : Type} (f : α → Res β) (g : α → β) (P : α → Prop) (l : List α)
    (h : ∀ x ∈ l, f x = if P x then .ok (g x) else .error .panic) :
    ((∀ x ∈ l, P x) → l.mapM f = .ok (l.map g)) ∧
    ((¬ ∀ x ∈ l, P x) → l.mapM f = .error .panic) := by
  constructor
  · intro hall
    exact mapM_ok' f g l (fun x hx => by rw [h x hx, if_pos (hall x hx)])
  · intro hne
    induction l with
    | nil => exact absurd (by simp) hne
    | cons x l ih =>
      rw [List.mapM_cons, h x (by simp)]
      by_cases h1 : P x
      · rw [if_pos h1]
        simp only [bind, Except.bind]
        rw [ih (fun y hy => h y (by simp [hy])) (fun hall => hne (by
          intro y hy
          rcases List.mem_cons.1 hy with rfl | hy
          · exact h1
          · exact hall y hy))]
      · rw [if_neg h1]
        rfl

end AT.Obj
