import Verif.Proofs.AsmProg
import Verif.Proofs.Decimal
import Verif.Props.AsmStops
import Verif.Props.AsmReads
import Verif.Spec.MachO
/-!
# Properties of the assembler (C45 - C50, C55)

`Assembler.readFrom` is the modelled API; `chunks` is what the successive `read` calls of the input
deliver, none of them empty before the end.
-/

namespace AT.Props
open AT.Asm AT.AsmSpec AT.X64 AT.Obj

/-! ## C55 -/

/-- The result of the `k`-th call (from 0) of `next_line`. -/
def nthLine : Nat → Reader → Res (Option Str)
  | 0, r => match r.nextLine with
    | .error e => .error e
    | .ok (s, _) => .ok s
  | k + 1, r => match r.nextLine with
    | .error e => .error e
    | .ok (_, r') => nthLine k r'

theorem nthLine_eq (ls : List Bytes) (k : Nat) (r : Reader) (hs : r.Steady) (hc : Cut r.input ls)
    (ht : ∀ (j : Nat) (b : Bytes), j < k → ls[j]? = some b → ∃ s, b = utf8 s) :
    nthLine k r = match ls[k]? with
      | none => .ok none
      | some b => match fromUtf8 b with
        | none => .error .panic
        | some s => .ok (some s) := by
  induction k generalizing ls r with
  | zero =>
    cases ls with
    | nil =>
      obtain ⟨r', hn, _⟩ := nextLine_nil r hs hc.all.symm
      simp only [nthLine, hn]; rfl
    | cons l ls =>
      obtain ⟨r', hn, _, _⟩ := nextLine_cons r hs hc
      simp only [nthLine, hn, List.getElem?_cons_zero]
      cases fromUtf8 l <;> rfl
  | succ k ih =>
    cases ls with
    | nil =>
      obtain ⟨r', hn, hs', hi'⟩ := nextLine_nil r hs hc.all.symm
      simp only [nthLine, hn]
      rw [ih [] r' hs' (by rw [hi']; exact ⟨rfl, by simp, by simp, by simp⟩) (by simp)]
      rfl
    | cons l ls =>
      obtain ⟨r', hn, hs', hc'⟩ := nextLine_cons r hs hc
      obtain ⟨s, rfl⟩ := ht 0 l (by omega) rfl
      rw [fromUtf8_utf8] at hn
      simp only [nthLine, hn, List.getElem?_cons_succ]
      show nthLine k r' = _
      exact ih ls r' hs' hc' (fun j b hj hb => ht (j + 1) b (by omega) hb)

/-- C55: the input has exactly one list of lines, cut after each newline; the `k`-th `next_line`
returns the `k`-th of them (`None` after the last), however the input arrives in chunks; a line that
is not UTF-8 panics. -/
theorem C55_lines (chunks : List Bytes) (hne : ∀ c ∈ chunks, c ≠ []) :
    ∃ ls, Cut chunks.flatten ls ∧ (∀ ms, Cut chunks.flatten ms → ms = ls) ∧
      ∀ k, (∀ (j : Nat) (b : Bytes), j < k → ls[j]? = some b → ∃ s, b = utf8 s) →
        (ls[k]? = none → nthLine k (Reader.new chunks) = .ok none) ∧
        (∀ s, ls[k]? = some (utf8 s) → nthLine k (Reader.new chunks) = .ok (some s)) ∧
        (∀ b, ls[k]? = some b → (∀ s, b ≠ utf8 s) → nthLine k (Reader.new chunks) = .error .panic) := by
  obtain ⟨ls, hls⟩ := Cut.exists chunks.flatten
  refine ⟨ls, hls, fun ms hms => Cut.det hms hls, fun k hk => ?_⟩
  have hc : Cut (Reader.new chunks).input ls := by simpa [Reader.new, Reader.input] using hls
  rw [nthLine_eq ls k (Reader.new chunks) (steady_new hne) hc hk]
  refine ⟨fun h => by rw [h], fun s h => by rw [h]; simp [fromUtf8_utf8], fun b h hb => ?_⟩
  rw [h]
  cases hu : fromUtf8 b with
  | none => simp [hu]
  | some s => exact absurd (utf8_of_fromUtf8 hu).symm (hb s)

/-- C55: the result of assembling does not depend on the chunking. -/
theorem C55_chunking (bd : Build) (a : Assembler) (cs ds : List Bytes) (hc : ∀ c ∈ cs, c ≠ [])
    (hd : ∀ c ∈ ds, c ≠ []) (h : cs.flatten = ds.flatten) : a.readFrom bd cs = a.readFrom bd ds := by
  obtain ⟨ls, hls⟩ := Cut.exists cs.flatten
  rw [readFrom_eq bd a cs ls hc hls, readFrom_eq bd a ds ls hd (by rw [← h]; exact hls)]

example : Cut [97, 10, 10, 98] [[97, 10], [10], [98]] := ⟨rfl, by decide, by decide, by decide⟩

example : nthLine 1 (Reader.new [[97, 10, 0xC3], [0xA9], [10]]) = .ok (some (str% "é\n")) := by
  decide +kernel

/-! ## C45, C46 -/

/-- Name, address and visibility of a symbol defined in a section. -/
def symView : Symbol → Option (Str × Nat × Bool)
  | .ref n addr ext => some (n, addr.toNat, ext)
  | _ => none

theorem symbolsOf_markExt (a : Assembler) (x : Section) :
    symbolsOf a.markExt.obj x = (symbolsOf a.obj x).map (markSym a.extSymbols) := by
  cases x <;> rfl

theorem bytesOf_markExt (a : Assembler) (x : Section) : bytesOf a.markExt.obj x = bytesOf a.obj x := by
  cases x <;> rfl

theorem relocsOf_markExt (a : Assembler) (x : Section) : relocsOf a.markExt.obj x = relocsOf a.obj x := by
  cases x <;> rfl

theorem markSym_ref (ext : List Str) (n : Str) (v : UInt64) :
    markSym ext (.ref n v false) = .ref n v (decide (n ∈ ext)) := by
  unfold markSym
  by_cases h : n ∈ ext
  · rw [if_pos]
    · simp [setExt, h]
    · simp only [List.any_eq_true, beq_iff_eq, Symbol.name]
      exact ⟨n, h, rfl⟩
  · rw [if_neg]
    · simp [h]
    · simp only [List.any_eq_true, beq_iff_eq, Symbol.name, not_exists, not_and]
      rintro m hm rfl
      exact h hm

/-- The symbols of section `x` as the assembler leaves them. -/
def finalSyms (ls : List Line) (x : Section) : List Symbol :=
  (labels ls x).map (fun p => .ref p.1 (UInt64.ofNat p.2) (decide (Global ls p.1)))

theorem readFrom_new {bd : Build} {chunks : List Bytes} {a : Assembler} (hne : ∀ c ∈ chunks, c ≠ [])
    (h : Assembler.new.readFrom bd chunks = .ok a) :
    ∃ (ss : List Str) (ls : List Line), Cut chunks.flatten (ss.map utf8) ∧
      ReadsAll bd ss ls ∧ NoBssContent ls ∧
      (∀ x, bytesOf a.obj x = content ls x ls.length) ∧ (∀ x, symbolsOf a.obj x = finalSyms ls x) ∧
      (∀ x, relocsOf a.obj x = relsOf ls x) ∧ a.obj.sections.bss.size = 0 := by
  obtain ⟨bs, hbs⟩ := Cut.exists chunks.flatten
  rw [readFrom_eq bd _ chunks bs hne hbs] at h
  cases hr : runLines bd Assembler.new bs with
  | error e => rw [hr] at h; simp [bind, Except.bind] at h
  | ok a0 =>
    rw [hr] at h
    simp only [bind, Except.bind, pure, Except.pure, Except.ok.injEq] at h
    subst h
    obtain ⟨ss, ls, h1, h2, h3⟩ := runLines_ok state_new hr
    rw [List.nil_append] at h3
    refine ⟨ss, ls, by rw [← h1]; exact hbs, readsAll_iff.2 h2, h3.noBss, fun x => ?_, fun x => ?_, fun x => ?_, h3.bss⟩
    · rw [bytesOf_markExt, h3.bytes]
    · rw [symbolsOf_markExt, h3.syms]
      unfold symsOf finalSyms
      rw [List.map_map]
      apply List.map_congr_left
      intro p _
      simp only [Function.comp, markSym_ref]
      congr 1
      exact decide_eq_decide.2 (h3.ext p.1)
    · rw [relocsOf_markExt, h3.rels]

theorem parses_det {bd : Build} {ss : List Str} {ls ms : List Line} (h : ReadsAll bd ss ls)
    (h' : ReadsAll bd ss ms) : ls = ms := by
  replace h' := readsAll_iff.1 h'
  rw [readsAll_iff.1 h] at h'
  exact List.map_inj_right (fun _ _ h => Except.ok.inj h) |>.1 h'

theorem utf8_map_inj {ss ts : List Str} (h : ss.map utf8 = ts.map utf8) : ss = ts :=
  List.map_inj_right (fun _ _ h => utf8_injective h) |>.1 h

/-- An input is read as at most one program. -/
theorem Program.det {bd : Build} {input : Bytes} {ls ms : List Line} (h : Program bd input ls)
    (h' : Program bd input ms) : ls = ms := by
  obtain ⟨ss, hc, hp⟩ := h
  obtain ⟨ts, hc', hp'⟩ := h'
  cases utf8_map_inj (Cut.det hc hc')
  exact parses_det hp hp'

/-- C45, C46: if assembling succeeds, the input is a program `ls`; each section contains exactly what
its lines emit, in order, and its symbols are exactly the labels defined in it, in order, each with
the number of bytes emitted into the section before it, and external exactly if some line - before
or after - declares it global. -/
theorem C45_sections_and_labels (bd : Build) (chunks : List Bytes) (a : Assembler)
    (hne : ∀ c ∈ chunks, c ≠ []) (h : Assembler.new.readFrom bd chunks = .ok a) :
    ∃ ls, Program bd chunks.flatten ls ∧
      (∀ x, bytesOf a.obj x = content ls x ls.length) ∧
      (∀ x, (content ls x ls.length).length < 2 ^ 64 → (symbolsOf a.obj x).map symView =
        (labels ls x).map (fun p => some (p.1, p.2, decide (Global ls p.1)))) := by
  obtain ⟨ss, ls, h1, h2, _, h4, h5, _, _⟩ := readFrom_new hne h
  refine ⟨ls, ⟨ss, h1, h2⟩, h4, fun x hx => ?_⟩
  rw [h5]
  unfold finalSyms
  rw [List.map_map]
  apply List.map_congr_left
  rintro ⟨n, off⟩ hp
  have hoff : off ≤ (content ls x ls.length).length := by
    unfold labels at hp
    rw [List.mem_filterMap] at hp
    obtain ⟨k, hk, hl⟩ := hp
    rw [List.mem_range] at hk
    unfold labelAt at hl
    cases hls : ls[k]? with
    | none => rw [hls] at hl; simp at hl
    | some l =>
      rw [hls] at hl
      simp only at hl
      split at hl
      · cases hd : defines l with
        | none => rw [hd] at hl; simp at hl
        | some m =>
          rw [hd] at hl
          simp only [Option.map_some, Option.some.injEq, Prod.mk.injEq] at hl
          rw [← hl.2]
          have : ∀ d, (content ls x k).length ≤ (content ls x (k + d)).length := by
            intro d
            induction d with
            | zero => exact Nat.le_refl _
            | succ d ih =>
              rw [← Nat.add_assoc, content_succ, List.length_append]
              omega
          have := this (ls.length - k)
          rwa [show k + (ls.length - k) = ls.length by omega] at this
      · simp at hl
  simp only [Function.comp, symView]
  rw [UInt64.toNat_ofNat', Nat.mod_eq_of_lt (by omega)]

/-- C45: every program that stores nothing in `.bss` and stays within the counters is assembled. -/
theorem C45_succeeds (bd : Build) (chunks : List Bytes) (ls : List Line) (hne : ∀ c ∈ chunks, c ≠ [])
    (hp : Program bd chunks.flatten ls) (hs : Within bd ls) (hb : NoBssContent ls) :
    ∃ a, Assembler.new.readFrom bd chunks = .ok a := by
  obtain ⟨ss, hc, hp⟩ := hp
  rw [readFrom_eq bd _ chunks _ hne hc]
  obtain ⟨a, _, hr⟩ := runLines_append (ss := ss) (ms := ls) [] state_new (readsAll_iff.1 hp) (by simpa using hs) (by simpa using hb)
  rw [List.append_nil] at hr
  rw [hr]
  exact ⟨_, rfl⟩

/-- C74: assembling ends normally exactly for the inputs all of whose lines parse, that store nothing
in `.bss` and that pass the overflow checks of the build, however large they are. -/
theorem C74_exact (bd : Build) (chunks : List Bytes) (hne : ∀ c ∈ chunks, c ≠ []) :
    (∃ a, Assembler.new.readFrom bd chunks = .ok a) ↔
      ∃ ls, Program bd chunks.flatten ls ∧ NoBssContent ls ∧ Within bd ls := by
  constructor
  · rintro ⟨a, ha⟩
    obtain ⟨ss, ls, h1, h2, h3, _⟩ := readFrom_new hne ha
    refine ⟨ls, ⟨ss, h1, h2⟩, h3, ?_⟩
    rw [readFrom_eq bd _ chunks _ hne h1] at ha
    cases hr : runLines bd .new (ss.map utf8) with
    | error e => rw [hr] at ha; simp [bind, Except.bind] at ha
    | ok a' =>
      have := runLines_within state_new (readsAll_iff.1 h2) hr ⟨fun _ => by decide, fun _ x p hp => by simp [relocations] at hp⟩
      simpa using this
  · rintro ⟨ls, hp, hb, hw⟩
    exact C45_succeeds bd chunks ls hne hp hw hb

/-- C46: a symbol of the result is external exactly if some `global` line anywhere names it. -/
theorem C46_global (bd : Build) (chunks : List Bytes) (a : Assembler) (ls : List Line)
    (hne : ∀ c ∈ chunks, c ≠ []) (h : Assembler.new.readFrom bd chunks = .ok a)
    (hp : Program bd chunks.flatten ls) (s : Symbol) (hs : s ∈ a.obj.symbols) :
    ∃ n addr, s = .ref n addr (decide (Line.globalSymbol n ∈ ls)) := by
  obtain ⟨ss, ms, h1, h2, _, _, h5, _, _⟩ := readFrom_new hne h
  have := Program.det hp ⟨ss, h1, h2⟩
  subst this
  have hmem : ∃ x, s ∈ symbolsOf a.obj x := by
    unfold Object.symbols at hs
    rcases List.mem_append.1 hs with hs | hs
    · rcases List.mem_append.1 hs with hs | hs
      · exact ⟨.text, hs⟩
      · exact ⟨.data, hs⟩
    · exact ⟨.bss, hs⟩
  obtain ⟨x, hx⟩ := hmem
  rw [h5] at hx
  unfold finalSyms at hx
  rw [List.mem_map] at hx
  obtain ⟨p, _, rfl⟩ := hx
  exact ⟨p.1, _, rfl⟩

/-- C46: and every label is such a symbol. -/
theorem C46_defined (bd : Build) (chunks : List Bytes) (a : Assembler) (ls : List Line)
    (hne : ∀ c ∈ chunks, c ≠ []) (h : Assembler.new.readFrom bd chunks = .ok a)
    (hp : Program bd chunks.flatten ls) (l : Line) (hl : l ∈ ls) (n : Str) (hd : defines l = some n) :
    ∃ addr, Symbol.ref n addr (decide (Line.globalSymbol n ∈ ls)) ∈ a.obj.symbols := by
  obtain ⟨ss, ms, h1, h2, _, _, h5, _, _⟩ := readFrom_new hne h
  have := Program.det hp ⟨ss, h1, h2⟩
  subst this
  obtain ⟨k, hk, hkl⟩ := List.getElem_of_mem hl
  have hmem : (n, (content ls (sectAt ls k) k).length) ∈ labels ls (sectAt ls k) := by
    unfold labels
    rw [List.mem_filterMap]
    refine ⟨k, List.mem_range.2 hk, ?_⟩
    unfold labelAt
    rw [List.getElem?_eq_getElem hk, hkl]
    simp [hd]
  have hs : Symbol.ref n (UInt64.ofNat (content ls (sectAt ls k) k).length) (decide (Global ls n)) ∈
      symbolsOf a.obj (sectAt ls k) := by
    rw [h5]
    unfold finalSyms
    exact List.mem_map.2 ⟨_, hmem, rfl⟩
  refine ⟨UInt64.ofNat (content ls (sectAt ls k) k).length, ?_⟩
  unfold Object.symbols
  revert hs
  cases sectAt ls k <;> intro hs
  · exact List.mem_append.2 (.inl (List.mem_append.2 (.inl hs)))
  · exact List.mem_append.2 (.inl (List.mem_append.2 (.inr hs)))
  · exact List.mem_append.2 (.inr hs)

/-! ## C47 -/

/-- The relocation of an accepted line, and where it is in the instruction. -/
theorem reloc_line {bd : Build} {s : Str} {i : Instruction} {lr : LocalReloc}
    (h : parseLine bd s = .ok (.instruction i)) (hr : i.reloc = some lr) :
    lr.pcrel = false ∧ (∃ c, Code s c ∧
      ((∃ d : Reg64, MovLine c d.asmName lr.symbol) ∧ lr.len = 3 ∨
       (∃ d : Reg32, MovLine c d.asmName lr.symbol) ∧ lr.len = 2)) ∧
    i.bytes.asRef.drop lr.offset.toNat = List.replicate (2 ^ lr.len.toNat) 0 := by
  obtain ⟨c, x, hc, _, hx, hy⟩ := (inst_lines bd s i).1 h
  cases x with
  | plain j => rw [hy.2] at hr; simp at hr
  | sym64 d name =>
    obtain ⟨hb, hrel⟩ := hy
    rw [hrel] at hr
    cases hr
    cases hx with
    | mov64Sym _ _ hm _ _ =>
      refine ⟨rfl, ⟨c, hc, .inl ⟨⟨d, hm⟩, rfl⟩⟩, ?_⟩
      obtain ⟨bs, he, hz, _⟩ := C09_offset_64 d 0 0
      rw [Encodes.unique he ⟨_, hb, rfl⟩] at hz
      rw [hz]; rfl
  | sym32 d name =>
    obtain ⟨hb, hrel⟩ := hy
    rw [hrel] at hr
    cases hr
    cases hx with
    | mov32Sym _ _ hm _ _ =>
      refine ⟨rfl, ⟨c, hc, .inr ⟨⟨d, hm⟩, rfl⟩⟩, ?_⟩
      obtain ⟨bs, he, hz, _⟩ := C09_offset_32 d 0 0
      rw [Encodes.unique he ⟨_, hb, rfl⟩] at hz
      rw [hz]; rfl

theorem content_mono (ls : List Line) (x : Section) (k d : Nat) :
    ∃ r, content ls x (k + d) = content ls x k ++ r := by
  induction d with
  | zero => exact ⟨[], by simp⟩
  | succ d ih =>
    obtain ⟨r, hr⟩ := ih
    exact ⟨r ++ emitsAt ls x (k + d), by rw [← Nat.add_assoc, content_succ, hr, List.append_assoc]⟩

theorem content_split (ls : List Line) (x : Section) (k : Nat) (l : Line) (hk : ls[k]? = some l)
    (hs : sectAt ls k = x) : ∃ r, content ls x ls.length = content ls x k ++ emits l ++ r := by
  have hlt : k < ls.length := (List.getElem?_eq_some_iff.1 hk).1
  obtain ⟨r, hr⟩ := content_mono ls x (k + 1) (ls.length - (k + 1))
  rw [show k + 1 + (ls.length - (k + 1)) = ls.length by omega] at hr
  refine ⟨r, ?_⟩
  rw [hr, content_succ]
  unfold emitsAt
  rw [hk]
  simp [hs]

theorem map_eq_get {bd : Build} {ss : List Str} {ls : List Line} (h : ReadsAll bd ss ls)
    {k : Nat} {l : Line} (hk : ls[k]? = some l) : ∃ s, ss[k]? = some s ∧ parseLine bd s = .ok l := by
  have : (ss.map (parseLine bd))[k]? = some (.ok l) := by rw [readsAll_iff.1 h, List.getElem?_map, hk]; rfl
  rw [List.getElem?_map] at this
  cases hs : ss[k]? with
  | none => rw [hs] at this; simp at this
  | some s => rw [hs] at this; exact ⟨s, rfl, by simpa using this⟩

theorem relocAt_some {ls : List Line} {x : Section} {k off : Nat} {lr : LocalReloc}
    (h : relocAt ls x k = some (off, lr)) : ∃ i, ls[k]? = some (.instruction i) ∧ i.reloc = some lr ∧
      sectAt ls k = x ∧ off = (content ls x k).length + lr.offset.toNat := by
  unfold relocAt at h
  cases hl : ls[k]? with
  | none => rw [hl] at h; simp at h
  | some l =>
    rw [hl] at h
    simp only at h
    split at h
    · rename_i hs
      cases l with
      | instruction i =>
        simp only [relocates] at h
        cases hr : i.reloc with
        | none => rw [hr] at h; simp at h
        | some r =>
          rw [hr] at h
          simp only [Option.map_some, Option.some.injEq, Prod.mk.injEq] at h
          obtain ⟨h1, rfl⟩ := h
          exact ⟨i, rfl, hr, hs, h1.symm⟩
      | _ => simp [relocates] at h
    · simp at h

/-- C47: every relocation of the result belongs to a line `mov reg, symbol` of its section: it names
that symbol, is absolute, has the size of the register, and its address is that of the last bytes
emitted by the line, which are the zero immediate. -/
theorem C47_relocations (bd : Build) (chunks : List Bytes) (a : Assembler) (ss : List Str) (ls : List Line)
    (hne : ∀ c ∈ chunks, c ≠ []) (h : Assembler.new.readFrom bd chunks = .ok a)
    (hc : Cut chunks.flatten (ss.map utf8)) (hp : ReadsAll bd ss ls)
    (x : Section) (hlen : (content ls x ls.length).length < 2 ^ 31) (r : Reloc) (hr : r ∈ relocsOf a.obj x) :
    ∃ (k : Nat) (s c : Str), ss[k]? = some s ∧ Code s c ∧ sectAt ls k = x ∧ r.pcrel = false ∧
      ((∃ d : Reg64, MovLine c d.asmName r.symbol) ∧ r.len = 3 ∨
       (∃ d : Reg32, MovLine c d.asmName r.symbol) ∧ r.len = 2) ∧
      (content ls x k).length < r.addr.toInt ∧
      r.addr.toInt + 2 ^ r.len.toNat = (content ls x (k + 1)).length ∧
      MachO.bytesAt (bytesOf a.obj x) r.addr.toInt.toNat (2 ^ r.len.toNat) =
        some (List.replicate (2 ^ r.len.toNat) 0) := by
  obtain ⟨ss', ls', h1, h2, _, h4, _, h6, _⟩ := readFrom_new hne h
  cases utf8_map_inj (Cut.det h1 hc)
  cases parses_det h2 hp
  rw [h6] at hr
  unfold relsOf relocations at hr
  rw [List.mem_map] at hr
  obtain ⟨⟨off, lr⟩, hm, rfl⟩ := hr
  rw [List.mem_filterMap] at hm
  obtain ⟨k, hk, hrk⟩ := hm
  obtain ⟨i, hi, hrel, hs, hoff⟩ := relocAt_some hrk
  obtain ⟨s, hss, hparse⟩ := map_eq_get hp hi
  obtain ⟨hpc, ⟨c, hcode, hmov⟩, hz⟩ := reloc_line hparse hrel
  obtain ⟨rest, hcont⟩ := content_split ls x k _ hi hs
  have hlen2 : lr.offset.toNat + 2 ^ lr.len.toNat = i.bytes.asRef.length ∧ 0 < lr.offset.toNat := by
    have := congrArg List.length hz
    rw [List.length_drop, List.length_replicate] at this
    have hpos : 0 < 2 ^ lr.len.toNat := Nat.two_pow_pos _
    refine ⟨by omega, ?_⟩
    obtain ⟨c', x', _, _, hx, hy⟩ := (inst_lines bd s i).1 hparse
    cases x' with
    | plain j => rw [hy.2] at hrel; simp at hrel
    | sym64 d n =>
      rw [hy.2] at hrel
      cases hrel
      exact (show 0 < (movReg64ImmOffset d).toNat by cases d <;> decide)
    | sym32 d n =>
      rw [hy.2] at hrel
      cases hrel
      exact (show 0 < (movReg32ImmOffset d).toNat by cases d <;> decide)
  have hpow : 0 < 2 ^ lr.len.toNat := Nat.two_pow_pos _
  have hemit : emits (.instruction i) = i.bytes.asRef := rfl
  have htot := congrArg List.length hcont
  rw [List.length_append, List.length_append, hemit] at htot
  have haddr : (Int32.ofNat off).toInt = off := by
    rw [Int32.toInt_ofNat', Int.bmod_eq_of_le] <;> simp only [Int32.size] <;> omega
  refine ⟨k, s, c, hss, hcode, hs, hpc, hmov, ?_, ?_, ?_⟩
  · simp only [haddr]; omega
  · simp only [haddr]
    rw [content_succ]
    unfold emitsAt
    rw [hi]
    simp only [hs, if_true, hemit, List.length_append]
    have : ((2 : Int) ^ lr.len.toNat) = ((2 ^ lr.len.toNat : Nat) : Int) := by simp
    rw [this]
    omega
  · simp only [haddr, Int.toNat_natCast]
    unfold MachO.bytesAt
    rw [h4, if_pos (by omega), hcont, hoff]
    congr 1
    rw [List.append_assoc, ← List.drop_drop, List.drop_left, hemit,
      List.drop_append_of_le_length (by omega), hz,
      List.take_append_of_le_length (by simp), List.take_of_length_le (by simp)]

/-- C47: and every line `mov reg, symbol` has its relocation. -/
theorem C47_complete (bd : Build) (chunks : List Bytes) (a : Assembler) (ss : List Str) (ls : List Line)
    (hne : ∀ c ∈ chunks, c ≠ []) (h : Assembler.new.readFrom bd chunks = .ok a)
    (hc : Cut chunks.flatten (ss.map utf8)) (hp : ReadsAll bd ss ls)
    (k : Nat) (s c name : Str) (hs : ss[k]? = some s) (hcode : Code s c) (hn : NotConst name)
    (hm : (∃ d : Reg64, MovLine c d.asmName name) ∧ (∀ r : Reg64, name ≠ r.asmName) ∨
      (∃ d : Reg32, MovLine c d.asmName name) ∧ (∀ r : Reg32, name ≠ r.asmName)) :
    ∃ r ∈ relocsOf a.obj (sectAt ls k), r.symbol = name := by
  obtain ⟨ss', ls', h1, h2, _, h4, _, h6, _⟩ := readFrom_new hne h
  cases utf8_map_inj (Cut.det h1 hc)
  cases parses_det h2 hp
  have hline : ∃ i lr, parseLine bd s = .ok (.instruction i) ∧ i.reloc = some lr ∧ lr.symbol = name := by
    rcases hm with ⟨⟨d, hd⟩, hr⟩ | ⟨⟨d, hd⟩, hr⟩
    · obtain ⟨i, off, hi, hrel, _⟩ := (C43_mov_sym bd s c name hcode hn).1 d hd hr
      exact ⟨i, _, hi, hrel, rfl⟩
    · obtain ⟨i, off, hi, hrel, _⟩ := (C43_mov_sym bd s c name hcode hn).2 d hd hr
      exact ⟨i, _, hi, hrel, rfl⟩
  obtain ⟨i, lr, hi, hrel, rfl⟩ := hline
  have hlk : ls[k]? = some (.instruction i) := by
    have : (ls.map Except.ok)[k]? = some (.ok (.instruction i) : Res Line) := by
      rw [← readsAll_iff.1 hp, List.getElem?_map, hs, Option.map_some, hi]
    rw [List.getElem?_map] at this
    cases hl : ls[k]? with
    | none => rw [hl] at this; simp at this
    | some l => rw [hl] at this; simpa using this
  rw [h6]
  unfold relsOf relocations
  refine ⟨_, List.mem_map.2 ⟨((content ls (sectAt ls k) k).length + lr.offset.toNat, lr),
    List.mem_filterMap.2 ⟨k, List.mem_range.2 (List.getElem?_eq_some_iff.1 hlk).1, ?_⟩, rfl⟩, rfl⟩
  unfold relocAt
  rw [hlk]
  simp [relocates, hrel]

/-- C47: in order, one per line that asks for a relocation. -/
theorem C47_in_order (bd : Build) (chunks : List Bytes) (a : Assembler) (ls : List Line)
    (hne : ∀ c ∈ chunks, c ≠ []) (h : Assembler.new.readFrom bd chunks = .ok a)
    (hp : Program bd chunks.flatten ls) (x : Section) (hlen : (content ls x ls.length).length < 2 ^ 31) :
    (relocsOf a.obj x).map (fun r => (r.addr.toInt, r.symbol, r.pcrel, r.len)) =
      (relocations ls x).map (fun p => ((p.1 : Int), p.2.symbol, p.2.pcrel, p.2.len)) := by
  obtain ⟨ss, ms, h1, h2, _, _, _, h6, _⟩ := readFrom_new hne h
  cases Program.det hp ⟨ss, h1, h2⟩
  rw [h6]
  unfold relsOf
  rw [List.map_map]
  apply List.map_congr_left
  rintro ⟨off, lr⟩ hm
  unfold relocations at hm
  rw [List.mem_filterMap] at hm
  obtain ⟨k, hk, hrk⟩ := hm
  obtain ⟨i, hi, hrel, hs, hoff⟩ := relocAt_some hrk
  obtain ⟨s, hss, hparse⟩ := map_eq_get h2 hi
  obtain ⟨_, _, hz⟩ := reloc_line hparse hrel
  obtain ⟨rest, hcont⟩ := content_split ls x k _ hi hs
  have htot := congrArg List.length hcont
  rw [List.length_append, List.length_append, show emits (.instruction i) = i.bytes.asRef from rfl] at htot
  have := congrArg List.length hz
  rw [List.length_drop, List.length_replicate] at this
  have hpow : 0 < 2 ^ lr.len.toNat := Nat.two_pow_pos _
  have haddr : (Int32.ofNat off).toInt = off := by
    rw [Int32.toInt_ofNat', Int.bmod_eq_of_le] <;> simp only [Int32.size] <;> omega
  simp only [Function.comp, haddr]

/-- C74: whatever the size of its section, a relocation is recorded with the low 32 bits of its
offset, read with sign. -/
theorem C74_addresses (bd : Build) (chunks : List Bytes) (a : Assembler) (ls : List Line)
    (hne : ∀ c ∈ chunks, c ≠ []) (h : Assembler.new.readFrom bd chunks = .ok a)
    (hp : Program bd chunks.flatten ls) (x : Section) :
    (relocsOf a.obj x).map (fun r => (r.addr.toInt, r.symbol, r.pcrel, r.len)) =
      (relocations ls x).map (fun p => ((p.1 : Int).bmod (2 ^ 32), p.2.symbol, p.2.pcrel, p.2.len)) := by
  obtain ⟨ss, ms, h1, h2, _, _, _, h6, _⟩ := readFrom_new hne h
  cases Program.det hp ⟨ss, h1, h2⟩
  rw [h6]
  unfold relsOf
  rw [List.map_map]
  apply List.map_congr_left
  rintro ⟨off, lr⟩ _
  have : (Int32.ofNat off).toInt = (off : Int).bmod (2 ^ 32) := Int32.toInt_ofNat'
  simp only [Function.comp, this]

/-! ## C50 -/

/-- C50: if assembling succeeds, no data line or instruction stands in `.bss`, its size is 0, and its
symbols have address 0. -/
theorem C50_bss_empty (bd : Build) (chunks : List Bytes) (a : Assembler)
    (hne : ∀ c ∈ chunks, c ≠ []) (h : Assembler.new.readFrom bd chunks = .ok a) :
    a.obj.sections.bss.size = 0 ∧
    (∀ s ∈ a.obj.sections.bss.symbols, ∃ n ext, s = .ref n 0 ext) ∧
    ∃ ls, Program bd chunks.flatten ls ∧ NoBssContent ls := by
  obtain ⟨ss, ls, h1, h2, h3, h4, h5, _, h7⟩ := readFrom_new hne h
  refine ⟨h7, ?_, ls, ⟨ss, h1, h2⟩, h3⟩
  intro s hs
  have hs' : s ∈ symbolsOf a.obj .bss := hs
  rw [h5] at hs'
  unfold finalSyms at hs'
  rw [List.mem_map] at hs'
  obtain ⟨⟨n, off⟩, hm, rfl⟩ := hs'
  refine ⟨n, decide (Global ls n), ?_⟩
  have : off = 0 := by
    unfold labels at hm
    rw [List.mem_filterMap] at hm
    obtain ⟨k, _, hl⟩ := hm
    unfold labelAt at hl
    cases hls : ls[k]? with
    | none => rw [hls] at hl; simp at hl
    | some l =>
      rw [hls, content_bss ls h3] at hl
      simp only at hl
      split at hl
      · cases hd : defines l with
        | none => rw [hd] at hl; simp at hl
        | some m => rw [hd] at hl; simp at hl; exact hl.2.symm
      · simp at hl
  rw [this]
  rfl

theorem after_prefix {bd : Build} {chunks : List Bytes} {ss : List Str} {ls : List Line} {b : Bytes}
    {rest : List Bytes} (hne : ∀ c ∈ chunks, c ≠ []) (hc : Cut chunks.flatten (ss.map utf8 ++ b :: rest))
    (hp : ReadsAll bd ss ls) (hs : Within bd ls) (hb : NoBssContent ls) :
    ∃ a, State ls a ∧ Assembler.new.readFrom bd chunks =
      (runLines bd a (b :: rest) >>= fun a => pure a.markExt) := by
  rw [readFrom_eq bd _ chunks _ hne hc]
  obtain ⟨a, h1, h2⟩ := runLines_append (ls := []) (b :: rest) state_new (readsAll_iff.1 hp) (by simpa using hs) (by simpa using hb)
  exact ⟨a, by simpa using h1, by rw [h2]⟩

/-- C50: the first line that stores something in `.bss` stops the assembler, whatever follows: with
an error message, or a panic if it has a relocation. -/
theorem C50_stops (bd : Build) (chunks : List Bytes) (ss : List Str) (ls : List Line) (s : Str) (l : Line)
    (rest : List Bytes) (hne : ∀ c ∈ chunks, c ≠ [])
    (hc : Cut chunks.flatten (ss.map utf8 ++ utf8 s :: rest))
    (hp : ReadsAll bd ss ls) (hsmall : Within bd ls) (hlen : ls.length + 1 < 2 ^ 32)
    (hb : NoBssContent ls) (hl : Reads bd s l) (hbss : sectAt ls ls.length = .bss) (hst : Stores l) :
    Assembler.new.readFrom bd chunks = .error (if relocates l = none then
      .exit 1 (str% "error: can't write data to .bss section\n") else .panic) := by
  replace hl := (reads_iff bd s l).2 hl
  obtain ⟨a, ha, he⟩ := after_prefix hne hc hp hsmall hb
  rw [he, runLines, fromUtf8_utf8]
  simp only
  cases hd : a.doLine bd s with
  | ok a' => exact absurd hst (((noBss_snoc ls l).1 (state_doLine ha hl hd).noBss).2 hbss)
  | error e =>
    simp only [bind, Except.bind]
    have hf := doLine_err ha hd
    congr 1
    cases hf with
    | notText h => exact absurd rfl (h s)
    | count _ h => omega
    | parse s' msg hs' hp' => cases utf8_injective hs'; rw [hl] at hp'; simp at hp'
    | parsePanic s' e hs' hp' => cases utf8_injective hs'; rw [hl] at hp'; simp at hp'
    | bss s' l' hs' hp' _ _ hr =>
      cases utf8_injective hs'
      rw [hl] at hp'
      cases hp'
      rw [if_pos hr]
    | bssReloc s' l' hs' hp' _ hr =>
      cases utf8_injective hs'
      rw [hl] at hp'
      cases hp'
      rw [if_neg hr]
    | address s' l' r hs' hp' hr _ hge =>
      cases utf8_injective hs'
      rw [hl] at hp'
      cases hp'
      rw [if_neg (by rw [hr]; simp)]

/-! ## C49 -/

/-- C49: the first line that does not parse is reported by its number and its message, whatever
follows it. -/
theorem C49_reported (bd : Build) (chunks : List Bytes) (ss : List Str) (ls : List Line) (s msg : Str)
    (rest : List Bytes) (hne : ∀ c ∈ chunks, c ≠ [])
    (hc : Cut chunks.flatten (ss.map utf8 ++ utf8 s :: rest))
    (hp : ReadsAll bd ss ls) (hsmall : Within bd ls) (hlen : ss.length + 1 < 2 ^ 32)
    (hb : NoBssContent ls) (hl : parseLine bd s = .error (.parseErr msg)) :
    ∃ num, Decimal (ss.length + 1) num ∧ Assembler.new.readFrom bd chunks =
      .error (.exit 1 (str% "error at line " ++ num ++ str% ": " ++ msg ++ str% "\n")) := by
  obtain ⟨a, ha, he⟩ := after_prefix hne hc hp hsmall hb
  have hlen' : ss.length = ls.length := hp.1
  refine ⟨showNat (ss.length + 1), showNat_decimal _, ?_⟩
  rw [he, runLines, fromUtf8_utf8]
  simp only
  have hd : a.doLine bd s = .error (.exit 1 (str% "error at line " ++ showNat (ss.length + 1) ++ str% ": " ++
      msg ++ str% "\n")) := by
    unfold Assembler.doLine
    rw [ha.line, addU32_count bd _ (by omega)]
    simp only [bind, Except.bind, parseOrExit, hl, reportAt]
    rw [UInt32.toNat_ofNat', Nat.mod_eq_of_lt (by omega), hlen']
  rw [hd]
  rfl

/-- C49: conversely, if assembling stops with a message, then with exit code 1, and after some lines that are all read
and assembled comes one that does not parse, and the message reports it, or one that stores
something in `.bss`. -/
theorem C49_only (bd : Build) (chunks : List Bytes) (code : Int32) (m : Str) (hne : ∀ c ∈ chunks, c ≠ [])
    (h : Assembler.new.readFrom bd chunks = .error (.exit code m)) (hlines : chunks.flatten.length < 2 ^ 32 - 1) :
    code = 1 ∧ ∃ (ss : List Str) (ls : List Line) (s : Str) (rest : List Bytes),
      Cut chunks.flatten (ss.map utf8 ++ utf8 s :: rest) ∧ ReadsAll bd ss ls ∧
      NoBssContent ls ∧
      ((∃ num msg, Decimal (ss.length + 1) num ∧ parseLine bd s = .error (.parseErr msg) ∧
          m = str% "error at line " ++ num ++ str% ": " ++ msg ++ str% "\n") ∨
       (∃ l, Reads bd s l ∧ sectAt ls ls.length = .bss ∧ Stores l ∧ relocates l = none ∧
          m = str% "error: can't write data to .bss section\n")) := by
  obtain ⟨bs, hbs⟩ := Cut.exists chunks.flatten
  rw [readFrom_eq bd _ chunks bs hne hbs] at h
  cases hr : runLines bd Assembler.new bs with
  | ok a => rw [hr] at h; simp [bind, Except.bind, pure, Except.pure] at h
  | error e =>
    rw [hr] at h
    simp only [bind, Except.bind, Except.error.injEq] at h
    subst h
    obtain ⟨ss, ls, b, rest, h1, h2, h3, h4, _⟩ := runLines_err state_new hr
    rw [List.nil_append] at h3 h4
    have hlen' : ss.length = ls.length := by have := congrArg List.length h2; simpa using this
    have hcount : ss.length + 1 < 2 ^ 32 := by
      have : ∀ l : List Bytes, (∀ x ∈ l, x ≠ []) → l.length ≤ l.flatten.length := by
        intro l hl
        induction l with
        | nil => simp
        | cons x l ih =>
          have h1 := ih (fun y hy => hl y (by simp [hy]))
          have h2 := List.length_pos_iff.2 (hl x (by simp))
          simp only [List.length_cons, List.flatten_cons, List.length_append]
          omega
      have := this bs hbs.nonempty
      rw [hbs.all, h1] at this
      simp only [List.length_append, List.length_map, List.length_cons] at this
      omega
    cases h4 with
    | parse s msg hs hp =>
      subst hs
      refine ⟨rfl, ss, ls, s, rest, by rw [← h1]; exact hbs, readsAll_iff.2 h2, h3, .inl ⟨showNat (ss.length + 1), msg,
        showNat_decimal _, hp, ?_⟩⟩
      rw [UInt32.toNat_ofNat', Nat.mod_eq_of_lt (by omega), hlen']
    | parsePanic s _ hs hp =>
      subst hs
      rcases C61_never_exits bd s with ⟨l, h⟩ | ⟨msg, h⟩ | ⟨_, h⟩ <;> rw [hp] at h <;> simp at h
    | bss s l hs hp hsect hst hrel =>
      subst hs
      exact ⟨rfl, ss, ls, s, rest, by rw [← h1]; exact hbs, readsAll_iff.2 h2, h3, .inr ⟨l, (reads_iff bd s l).1 hp, hsect, hst, hrel, rfl⟩⟩

/-! ## C48 -/

theorem name_markSym (ext : List Str) (s : Symbol) : (markSym ext s).name = s.name := by
  unfold markSym
  split
  · cases s <;> rfl
  · rfl

theorem markSym_append (e f : List Str) (s : Symbol) : markSym (e ++ f) s = markSym f (markSym e s) := by
  show _ = if f.any (· == (markSym e s).name) then _ else _
  rw [name_markSym]
  unfold markSym
  rw [List.any_append]
  cases he : e.any (· == s.name) <;> cases hf : f.any (· == s.name) <;> simp
  cases s <;> rfl

theorem markSym_idem (e : List Str) (s : Symbol) : markSym e (markSym e s) = markSym e s := by
  show (if e.any (· == (markSym e s).name) then _ else _) = _
  rw [name_markSym]
  unfold markSym
  split
  · cases s <;> rfl
  · rfl

theorem map_markSym_idem (e : List Str) (l : List Symbol) :
    (l.map (markSym e)).map (markSym e) = l.map (markSym e) := by
  rw [List.map_map]
  exact List.map_congr_left fun s _ => markSym_idem e s

theorem markExt_idem (a : Assembler) : a.markExt.markExt = a.markExt := by
  unfold Assembler.markExt Object.symbolsMut
  simp only [map_markSym_idem]

theorem map_mark_more {e : List Str} (n : Str) {l m : List Symbol} (h : l.map (markSym e) = m.map (markSym e)) :
    l.map (markSym (e ++ [n])) = m.map (markSym (e ++ [n])) := by
  have : ∀ k : List Symbol, k.map (markSym (e ++ [n])) = (k.map (markSym e)).map (markSym [n]) := by
    intro k
    rw [List.map_map]
    exact List.map_congr_left fun s _ => markSym_append e [n] s
  rw [this, this, h]

theorem map_mark_snoc {e : List Str} (s : Symbol) {l m : List Symbol} (h : l.map (markSym e) = m.map (markSym e)) :
    (l ++ [s]).map (markSym e) = (m ++ [s]).map (markSym e) := by
  rw [List.map_append, List.map_append, h]

/-- Two outcomes that differ at most in flags that will be set anyway. -/
def SameEnd : Res Assembler → Res Assembler → Prop
  | .ok a, .ok b => a.markExt = b.markExt
  | .error e, .error f => e = f
  | _, _ => False

theorem markExt_inj {a b : Assembler} (h : a.markExt = b.markExt) :
    a.curSect = b.curSect ∧ a.curLine = b.curLine ∧ a.extSymbols = b.extSymbols ∧
    a.obj.sections.text.bytes = b.obj.sections.text.bytes ∧
    a.obj.sections.text.relocs = b.obj.sections.text.relocs ∧
    a.obj.sections.data.bytes = b.obj.sections.data.bytes ∧
    a.obj.sections.data.relocs = b.obj.sections.data.relocs ∧
    a.obj.sections.bss.size = b.obj.sections.bss.size ∧
    a.obj.sections.text.symbols.map (markSym a.extSymbols) = b.obj.sections.text.symbols.map (markSym a.extSymbols) ∧
    a.obj.sections.data.symbols.map (markSym a.extSymbols) = b.obj.sections.data.symbols.map (markSym a.extSymbols) ∧
    a.obj.sections.bss.symbols.map (markSym a.extSymbols) = b.obj.sections.bss.symbols.map (markSym a.extSymbols) := by
  have he : a.extSymbols = b.extSymbols := congrArg (·.extSymbols) h
  refine ⟨congrArg (·.curSect) h, congrArg (·.curLine) h, he, congrArg (·.obj.sections.text.bytes) h,
    congrArg (·.obj.sections.text.relocs) h, congrArg (·.obj.sections.data.bytes) h,
    congrArg (·.obj.sections.data.relocs) h, congrArg (·.obj.sections.bss.size) h, ?_, ?_, ?_⟩
  · have := congrArg (·.obj.sections.text.symbols) h
    simpa only [Assembler.markExt, Object.symbolsMut, ← he] using this
  · have := congrArg (·.obj.sections.data.symbols) h
    simpa only [Assembler.markExt, Object.symbolsMut, ← he] using this
  · have := congrArg (·.obj.sections.bss.symbols) h
    simpa only [Assembler.markExt, Object.symbolsMut, ← he] using this

theorem SameEnd.bind {r q : Res Assembler} {f : Assembler → Res Assembler} (h : SameEnd r q)
    (hf : ∀ a b, a.markExt = b.markExt → SameEnd (f a) (f b)) : SameEnd (r >>= f) (q >>= f) := by
  cases r with
  | error e => cases q with
    | error e' => exact h
    | ok b => exact h.elim
  | ok a => cases q with
    | error e' => exact h.elim
    | ok b => exact hf a b h

/-- Building equality after marking from the parts. -/
theorem mark_eq {cs : Section} {cl : UInt32} {e : List Str} {tb db : Bytes} {tr dr : List Reloc}
    {sz : UInt64} {ts ts' ds ds' bs bs' : List Symbol} (h1 : ts.map (markSym e) = ts'.map (markSym e))
    (h2 : ds.map (markSym e) = ds'.map (markSym e)) (h3 : bs.map (markSym e) = bs'.map (markSym e)) :
    (Assembler.mk cs cl ⟨⟨⟨tb, ts, tr⟩, ⟨db, ds, dr⟩, ⟨sz, bs⟩⟩⟩ e).markExt =
    (Assembler.mk cs cl ⟨⟨⟨tb, ts', tr⟩, ⟨db, ds', dr⟩, ⟨sz, bs'⟩⟩⟩ e).markExt := by
  simp only [Assembler.markExt, Object.symbolsMut, h1, h2, h3]

theorem markExt_parts {a b : Assembler} (h : a.markExt = b.markExt) :
    ∃ (cs : Section) (cl : UInt32) (e : List Str) (tb db : Bytes) (tr dr : List Reloc) (sz : UInt64)
      (ts ts' ds ds' bs bs' : List Symbol), ts.map (markSym e) = ts'.map (markSym e) ∧
      ds.map (markSym e) = ds'.map (markSym e) ∧ bs.map (markSym e) = bs'.map (markSym e) ∧
      a = ⟨cs, cl, ⟨⟨⟨tb, ts, tr⟩, ⟨db, ds, dr⟩, ⟨sz, bs⟩⟩⟩, e⟩ ∧
      b = ⟨cs, cl, ⟨⟨⟨tb, ts', tr⟩, ⟨db, ds', dr⟩, ⟨sz, bs'⟩⟩⟩, e⟩ := by
  obtain ⟨h1, h2, h3, h4, h5, h6, h7, h8, h9, h10, h11⟩ := markExt_inj h
  obtain ⟨cs, cl, ⟨⟨⟨tb, ts, tr⟩, ⟨db, ds, dr⟩, ⟨sz, bs⟩⟩⟩, e⟩ := a
  obtain ⟨cs', cl', ⟨⟨⟨tb', ts', tr'⟩, ⟨db', ds', dr'⟩, ⟨sz', bs'⟩⟩⟩, e'⟩ := b
  simp only at h1 h2 h3 h4 h5 h6 h7 h8 h9 h10 h11
  subst h1 h2 h3 h4 h5 h6 h7 h8
  exact ⟨_, _, _, _, _, _, _, _, _, _, _, _, _, _, h9, h10, h11, rfl, rfl⟩

theorem curSize_same {a b : Assembler} (h : a.markExt = b.markExt) : a.curSize = b.curSize := by
  obtain ⟨cs, cl, e, tb, db, tr, dr, sz, ts, ts', ds, ds', bs, bs', h1, h2, h3, rfl, rfl⟩ := markExt_parts h
  cases cs <;> rfl

theorem pushSymbol_same {a b : Assembler} (h : a.markExt = b.markExt) (s : Symbol) :
    (a.pushSymbol s).markExt = (b.pushSymbol s).markExt := by
  obtain ⟨cs, cl, e, tb, db, tr, dr, sz, ts, ts', ds, ds', bs, bs', h1, h2, h3, rfl, rfl⟩ := markExt_parts h
  cases cs
  · exact mark_eq (map_mark_snoc s h1) h2 h3
  · exact mark_eq h1 (map_mark_snoc s h2) h3
  · exact mark_eq h1 h2 (map_mark_snoc s h3)

theorem writeBytes_same {a b : Assembler} (h : a.markExt = b.markExt) (x : Bytes) :
    SameEnd (a.writeBytes x) (b.writeBytes x) := by
  obtain ⟨cs, cl, e, tb, db, tr, dr, sz, ts, ts', ds, ds', bs, bs', h1, h2, h3, rfl, rfl⟩ := markExt_parts h
  cases cs
  · exact mark_eq h1 h2 h3
  · exact mark_eq h1 h2 h3
  · rfl

theorem pushReloc_same {a b : Assembler} (h : a.markExt = b.markExt) (x : Reloc) :
    SameEnd (a.pushReloc x) (b.pushReloc x) := by
  obtain ⟨cs, cl, e, tb, db, tr, dr, sz, ts, ts', ds, ds', bs, bs', h1, h2, h3, rfl, rfl⟩ := markExt_parts h
  cases cs
  · exact mark_eq h1 h2 h3
  · exact mark_eq h1 h2 h3
  · rfl

theorem step_same (bd : Build) {a b : Assembler} (h : a.markExt = b.markExt) (l : Line) :
    SameEnd (a.step bd l) (b.step bd l) := by
  cases l with
  | empty => exact h
  | sect s =>
    obtain ⟨cs, cl, e, tb, db, tr, dr, sz, ts, ts', ds, ds', bs, bs', h1, h2, h3, rfl, rfl⟩ := markExt_parts h
    exact mark_eq h1 h2 h3
  | globalSymbol n =>
    obtain ⟨cs, cl, e, tb, db, tr, dr, sz, ts, ts', ds, ds', bs, bs', h1, h2, h3, rfl, rfl⟩ := markExt_parts h
    exact mark_eq (map_mark_more n h1) (map_mark_more n h2) (map_mark_more n h3)
  | symbol n =>
    show (a.pushSymbol _).markExt = (b.pushSymbol _).markExt
    rw [curSize_same h]
    exact pushSymbol_same h _
  | data d =>
    obtain ⟨lab, bytes⟩ := d
    cases lab with
    | none => exact writeBytes_same h _
    | some n =>
      show SameEnd ((a.pushSymbol (.ref n a.curSize false)).writeBytes bytes)
        ((b.pushSymbol (.ref n b.curSize false)).writeBytes bytes)
      rw [curSize_same h]
      exact writeBytes_same (pushSymbol_same h _) _
  | instruction i =>
    obtain ⟨bytes, rel⟩ := i
    cases rel with
    | none => exact writeBytes_same h _
    | some lr =>
      unfold Assembler.step
      simp only
      rw [curSize_same h]
      cases addI32 bd b.curSize.toUInt32.toInt32 lr.offset.toUInt32.toInt32 with
      | error e => rfl
      | ok addr => exact SameEnd.bind (pushReloc_same h _) fun a b h => writeBytes_same h _

theorem doLine_same (bd : Build) {a b : Assembler} (h : a.markExt = b.markExt) (s : Str) :
    SameEnd (a.doLine bd s) (b.doLine bd s) := by
  unfold Assembler.doLine
  rw [(markExt_inj h).2.1]
  cases addU32 bd b.curLine 1 with
  | error e => rfl
  | ok n =>
    simp only [bind, Except.bind]
    cases parseOrExit bd n s with
    | error e => rfl
    | ok l =>
      refine step_same bd ?_ l
      obtain ⟨cs, cl, e, tb, db, tr, dr, sz, ts, ts', ds, ds', bs, bs', h1, h2, h3, rfl, rfl⟩ := markExt_parts h
      exact mark_eq h1 h2 h3

theorem runLines_same (bd : Build) (bs : List Bytes) {a b : Assembler} (h : a.markExt = b.markExt) :
    SameEnd (runLines bd a bs) (runLines bd b bs) := by
  induction bs generalizing a b with
  | nil => exact h
  | cons x bs ih =>
    unfold runLines
    cases fromUtf8 x with
    | none => rfl
    | some s =>
      have := doLine_same bd h s
      simp only
      cases h1 : a.doLine bd s <;> cases h2 : b.doLine bd s <;> rw [h1, h2] at this
      · exact this
      · exact this.elim
      · exact this.elim
      · exact ih this

theorem runLines_two (bd : Build) (bs cs : List Bytes) (a : Assembler) :
    runLines bd a (bs ++ cs) = (runLines bd a bs >>= fun a => runLines bd a cs) := by
  induction bs generalizing a with
  | nil => rfl
  | cons x bs ih =>
    rw [List.cons_append, runLines, runLines]
    cases fromUtf8 x with
    | none => rfl
    | some s =>
      simp only
      cases a.doLine bd s with
      | error e => rfl
      | ok a' => exact ih a'

/-- C48: assembling two inputs one after the other is assembling their concatenation, if the first
ends with a newline (or is empty): same result, same errors. -/
theorem C48_two_inputs (bd : Build) (a : Assembler) (cs ds : List Bytes) (hc : ∀ c ∈ cs, c ≠ [])
    (hd : ∀ c ∈ ds, c ≠ []) (hn : cs.flatten = [] ∨ cs.flatten.getLast? = some 10) :
    (a.readFrom bd cs >>= fun a => a.readFrom bd ds) = a.readFrom bd (cs ++ ds) := by
  obtain ⟨ls, hls⟩ := Cut.exists cs.flatten
  obtain ⟨ms, hms⟩ := Cut.exists ds.flatten
  have happ : Cut (cs ++ ds).flatten (ls ++ ms) := by
    rw [List.flatten_append]; exact Cut.append hls hms hn
  rw [readFrom_eq bd a cs ls hc hls, readFrom_eq bd a (cs ++ ds) _ (by
    intro c h; exact (List.mem_append.1 h).elim (hc c) (hd c)) happ, runLines_two]
  cases runLines bd a ls with
  | error e => rfl
  | ok a1 =>
    show a1.markExt.readFrom bd ds = (runLines bd a1 ms >>= fun a => pure a.markExt)
    rw [readFrom_eq bd _ ds ms hd hms]
    have := runLines_same bd ms (markExt_idem a1)
    cases h1 : runLines bd a1.markExt ms <;> cases h2 : runLines bd a1 ms <;> rw [h1, h2] at this
    · cases this; rfl
    · exact this.elim
    · exact this.elim
    · show Except.ok _ = Except.ok _
      rw [this]

/-! ## A concrete program -/

/-- A source text with both kinds of sections, a forward `global`, labels, a relocation and data. -/
def sampleSource : Str := str% "; demo\nglobal start\nsection .text\nmov rax, 1\nstart:\nmov rsi, msg\nsyscall\nsection .data\nx db 1, 2\nmsg dw \"hi!\"\nsection .bss\nend:\n"

/-- What its lines are. -/
def sampleLines : List Line :=
  [.empty, .globalSymbol (str% "start"), .sect .text,
   .instruction ⟨⟨[0x48, 0xB8, 1, 0, 0, 0, 0, 0, 0, 0, 0, 0, 0, 0, 0], 10⟩, none⟩,
   .symbol (str% "start"),
   .instruction ⟨⟨[0x48, 0xBE, 0, 0, 0, 0, 0, 0, 0, 0, 0, 0, 0, 0, 0], 10⟩, some ⟨2, str% "msg", false, 3⟩⟩,
   .instruction ⟨⟨[0x0F, 0x05, 0, 0, 0, 0, 0, 0, 0, 0, 0, 0, 0, 0, 0], 2⟩, none⟩,
   .sect .data, .data ⟨some (str% "x"), [1, 2]⟩, .data ⟨some (str% "msg"), [104, 105, 33, 0]⟩,
   .sect .bss, .symbol (str% "end")]

/-- Its lines as text. -/
def sampleStrs : List Str :=
  [str% "; demo\n", str% "global start\n", str% "section .text\n", str% "mov rax, 1\n", str% "start:\n",
   str% "mov rsi, msg\n", str% "syscall\n", str% "section .data\n", str% "x db 1, 2\n",
   str% "msg dw \"hi!\"\n", str% "section .bss\n", str% "end:\n"]

theorem sample_cut : Cut (utf8 sampleSource) (sampleStrs.map utf8) :=
  ⟨by decide +kernel, by decide +kernel, by decide +kernel, by decide +kernel⟩

theorem sample_program (bd : Build) : Program bd (utf8 sampleSource) sampleLines :=
  ⟨sampleStrs, sample_cut, by cases bd <;> decide +kernel⟩

theorem sample_small : Small sampleLines := by
  refine ⟨by decide, ?_⟩
  have h1 : relocations sampleLines .text = [(12, ⟨2, str% "msg", false, 3⟩)] := by decide +kernel
  have h2 : relocations sampleLines .data = [] := by decide +kernel
  have h3 : relocations sampleLines .bss = [] := by decide +kernel
  intro x p hp
  cases x
  · rw [h1] at hp
    have hp := List.mem_singleton.1 hp
    subst hp; decide
  · rw [h2] at hp; simp at hp
  · rw [h3] at hp; simp at hp

theorem sample_noBss : NoBssContent sampleLines := by
  intro k l hl hs
  have h : ∀ k < sampleLines.length, sectAt sampleLines k = .bss →
      sampleLines[k]? = some (.symbol (str% "end")) := by decide +kernel
  rw [h k (List.getElem?_eq_some_iff.1 hl).1 hs] at hl
  cases hl
  exact id

/-- The right side of C74 for the sample, in both builds. -/
example (bd : Build) : ∃ ls, Program bd (utf8 sampleSource) ls ∧ NoBssContent ls ∧ Within bd ls ∧
    ls ≠ [] := ⟨sampleLines, sample_program bd, sample_noBss, sample_small.within bd, by decide⟩

/-- A symbol operand that crosses 2 GiB: the instruction starts at 2^31 - 1.  One byte earlier or two
bytes later it does not. -/
example : Crosses (2 ^ 31 + 1, ⟨2, str% "msg", false, 3⟩) ∧ ¬ Crosses (2 ^ 31 - 1, ⟨2, str% "msg", false, 3⟩) ∧
    ¬ Crosses (2 ^ 31 + 2, ⟨2, str% "msg", false, 3⟩) := by
  unfold Crosses; decide

/-- The hypotheses of C45 - C47 and C50 hold of the sample, delivered in any way, and this is what
they say about it. -/
theorem sample_assembled (bd : Build) (chunks : List Bytes) (hne : ∀ c ∈ chunks, c ≠ [])
    (hc : chunks.flatten = utf8 sampleSource) : ∃ a, Assembler.new.readFrom bd chunks = .ok a ∧
      bytesOf a.obj .text = [0x48, 0xB8, 1, 0, 0, 0, 0, 0, 0, 0, 0x48, 0xBE, 0, 0, 0, 0, 0, 0, 0, 0, 0x0F, 0x05] ∧
      bytesOf a.obj .data = [1, 2, 104, 105, 33, 0] ∧
      (symbolsOf a.obj .text).map symView = [some (str% "start", 10, true)] ∧
      (symbolsOf a.obj .data).map symView = [some (str% "x", 0, false), some (str% "msg", 2, false)] ∧
      (symbolsOf a.obj .bss).map symView = [some (str% "end", 0, false)] ∧
      (relocsOf a.obj .text).map (fun r => (r.addr.toInt, r.symbol)) = [(12, str% "msg")] := by
  have hp : Program bd chunks.flatten sampleLines := by rw [hc]; exact sample_program bd
  obtain ⟨a, ha⟩ := C45_succeeds bd chunks sampleLines hne hp (sample_small.within bd) sample_noBss
  obtain ⟨ls, hp', hb, hsym⟩ := C45_sections_and_labels bd chunks a hne ha
  cases Program.det hp hp'
  have hr := C47_in_order bd chunks a _ hne ha hp .text (by decide +kernel)
  refine ⟨a, ha, ?_, ?_, ?_, ?_, ?_, ?_⟩
  · rw [hb]; decide +kernel
  · rw [hb]; decide +kernel
  · rw [hsym _ (by decide +kernel)]; decide +kernel
  · rw [hsym _ (by decide +kernel)]; decide +kernel
  · rw [hsym _ (by decide +kernel)]; decide +kernel
  · have := congrArg (List.map fun q : Int × Str × Bool × UInt8 => (q.1, q.2.1)) hr
    rw [List.map_map] at this
    refine Eq.trans this ?_
    decide +kernel

/-- The input is read in two pieces. -/
example (bd : Build) : ∃ a, Assembler.new.readFrom bd [(utf8 sampleSource).take 30, (utf8 sampleSource).drop 30] = .ok a :=
  let ⟨a, h, _⟩ := sample_assembled bd [(utf8 sampleSource).take 30, (utf8 sampleSource).drop 30]
    (by decide +kernel) (by simp)
  ⟨a, h⟩

/-- C49 on a concrete input: line 3 is wrong. -/
example (bd : Build) : ∃ num, Decimal 3 num ∧
    Assembler.new.readFrom bd [utf8 (str% "ret\n\nfoo\nbar\n")] =
      .error (.exit 1 (str% "error at line " ++ num ++ str% ": " ++ str% "unrecognized line" ++ str% "\n")) :=
  C49_reported bd [utf8 (str% "ret\n\nfoo\nbar\n")] [str% "ret\n", str% "\n"]
    [.instruction ⟨⟨[0xC3, 0, 0, 0, 0, 0, 0, 0, 0, 0, 0, 0, 0, 0, 0], 1⟩, none⟩, .empty]
    (str% "foo\n") (str% "unrecognized line") [utf8 (str% "bar\n")] (by decide +kernel)
    ⟨by decide +kernel, by decide +kernel, by decide +kernel, by decide +kernel⟩
    (by cases bd <;> decide +kernel)
    ⟨fun _ => by decide, by
      have h : ∀ x, relocations [.instruction ⟨⟨[0xC3, 0, 0, 0, 0, 0, 0, 0, 0, 0, 0, 0, 0, 0, 0], 1⟩, none⟩, .empty] x = [] := by
        intro x; cases x <;> decide +kernel
      intro _ x p hp; rw [h] at hp; simp at hp⟩
    (by decide)
    (by
      intro k l hl hs
      have h : ∀ k < 2, sectAt [Line.instruction ⟨⟨[0xC3, 0, 0, 0, 0, 0, 0, 0, 0, 0, 0, 0, 0, 0, 0], 1⟩, none⟩, .empty] k = .text := by
        decide +kernel
      rw [h k (List.getElem?_eq_some_iff.1 hl).1] at hs
      simp at hs)
    (by cases bd <;> decide +kernel)

/-- C50 on a concrete input: the first instruction in `.bss` stops the assembler, even before a line
that does not parse. -/
example (bd : Build) : Assembler.new.readFrom bd [utf8 (str% "section .bss\nret\nfoo\n")] =
    .error (.exit 1 (str% "error: can't write data to .bss section\n")) :=
  C50_stops bd [utf8 (str% "section .bss\nret\nfoo\n")] [str% "section .bss\n"] [.sect .bss] (str% "ret\n")
    (.instruction ⟨⟨[0xC3, 0, 0, 0, 0, 0, 0, 0, 0, 0, 0, 0, 0, 0, 0], 1⟩, none⟩) [utf8 (str% "foo\n")]
    (by decide +kernel) ⟨by decide +kernel, by decide +kernel, by decide +kernel, by decide +kernel⟩
    (by cases bd <;> decide +kernel)
    ⟨fun _ => by decide, by
      have h : ∀ x, relocations [.sect .bss] x = [] := by intro x; cases x <;> decide +kernel
      intro _ x p hp; rw [h] at hp; simp at hp⟩
    (by decide)
    (by
      intro k l hl _
      have : k = 0 := by have := (List.getElem?_eq_some_iff.1 hl).1; simpa using this
      subst this
      cases hl
      exact id)
    (by cases bd <;> decide +kernel) (by decide +kernel) trivial

/-- C48 on a concrete input. -/
example (bd : Build) : (Assembler.new.readFrom bd [utf8 (str% "a:\n")] >>= fun a =>
    a.readFrom bd [utf8 (str% "global a")]) = Assembler.new.readFrom bd [utf8 (str% "a:\n"), utf8 (str% "global a")] :=
  C48_two_inputs bd .new [utf8 (str% "a:\n")] [utf8 (str% "global a")] (by decide +kernel) (by decide +kernel)
    (.inr (by decide +kernel))

end AT.Props
