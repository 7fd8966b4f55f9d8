import Verif.Props.Success
/-!
# Layout and order of sections do not matter (C65)
-/

namespace AT.Props
open AT.Asm AT.AsmSpec AT.X64 AT.Obj AT.Mac

/-- The line stores something or defines a label. -/
def Places : Line → Bool
  | .data _ => true
  | .instruction _ => true
  | .symbol _ => true
  | _ => false

/-- What the lines of section `x` are, in order: those that store something or define a label. -/
def linesIn (ls : List Line) (x : Section) : List Line :=
  (List.range ls.length).filterMap fun k =>
    ls[k]?.bind fun l => if sectAt ls k = x ∧ Places l = true then some l else none

/-- The programs have the same lines in each section and declare the same names global. -/
structure SameParts (ls ms : List Line) : Prop where
  lines : ∀ x, linesIn ls x = linesIn ms x
  globals : ∀ n, Line.globalSymbol n ∈ ls ↔ Line.globalSymbol n ∈ ms

theorem linesIn_snoc (ls : List Line) (l : Line) (x : Section) :
    linesIn (ls ++ [l]) x = linesIn ls x ++ if sectAt ls ls.length = x ∧ Places l = true then [l] else [] := by
  unfold linesIn
  rw [List.length_append, List.length_singleton, List.range_succ, List.filterMap_append]
  congr 1
  · apply filterMap_congr'
    intro k hk
    have hk := List.mem_range.1 hk
    rw [List.getElem?_append_left hk, sectAt_append ls [l] k (by omega)]
  · simp only [List.filterMap_cons, List.filterMap_nil, List.getElem?_append_right (Nat.le_refl _), Nat.sub_self,
      List.getElem?_cons_zero, Option.bind_some, sectAt_append ls [l] _ (Nat.le_refl _)]
    by_cases hc : sectAt ls ls.length = x ∧ Places l = true <;> simp [hc]

/-! ### Everything in the object is a function of these lines -/

/-- Each line with the length of what the lines before it emit. -/
def placed : Nat → List Line → List (Nat × Line)
  | _, [] => []
  | n, l :: m => (n, l) :: placed (n + (emits l).length) m

theorem placed_append (n : Nat) (a b : List Line) :
    placed n (a ++ b) = placed n a ++ placed (n + (a.flatMap emits).length) b := by
  induction a generalizing n with
  | nil => simp [placed]
  | cons l a ih => simp [placed, ih, Nat.add_assoc]

theorem emits_of_not_places {l : Line} (h : Places l = false) : emits l = [] := by
  cases l <;> simp_all [emits, Places]

theorem defines_of_not_places {l : Line} (h : Places l = false) : defines l = none := by
  cases l <;> simp_all [defines, Places]

theorem relocates_of_not_places {l : Line} (h : Places l = false) : relocates l = none := by
  cases l <;> simp_all [relocates, Places]

theorem list_snoc_induction {α : Type} {P : List α → Prop} (h0 : P []) (h : ∀ l a, P l → P (l ++ [a])) : ∀ l, P l := by
  intro l
  rw [← List.reverse_reverse l]
  induction l.reverse with
  | nil => exact h0
  | cons a m ih => rw [List.reverse_cons]; exact h _ _ ih

theorem content_linesIn (ls : List Line) (x : Section) : content ls x ls.length = (linesIn ls x).flatMap emits := by
  induction ls using list_snoc_induction with
  | h0 => rfl
  | h ls l ih =>
    rw [List.length_append, List.length_singleton, content_snoc, linesIn_snoc, List.flatMap_append, ih]
    congr 1
    by_cases hs : sectAt ls ls.length = x
    · cases hp : Places l
      · simp [emits_of_not_places hp]
      · simp [hs]
    · simp [hs]

theorem labels_linesIn (ls : List Line) (x : Section) :
    labels ls x = (placed 0 (linesIn ls x)).filterMap fun p => (defines p.2).map fun n => (n, p.1) := by
  induction ls using list_snoc_induction with
  | h0 => rfl
  | h ls l ih =>
    rw [labels_snoc, linesIn_snoc, placed_append, List.filterMap_append, ih, content_linesIn]
    congr 1
    by_cases hs : sectAt ls ls.length = x
    · cases hp : Places l
      · simp [defines_of_not_places hp, placed]
      · cases hd : defines l <;> simp [hs, placed, hd]
    · simp [hs, placed]

theorem relocations_linesIn (ls : List Line) (x : Section) :
    relocations ls x = (placed 0 (linesIn ls x)).filterMap fun p =>
      (relocates p.2).map fun r => (p.1 + r.offset.toNat, r) := by
  induction ls using list_snoc_induction with
  | h0 => rfl
  | h ls l ih =>
    rw [relocations_snoc, linesIn_snoc, placed_append, List.filterMap_append, ih, content_linesIn]
    congr 1
    by_cases hs : sectAt ls ls.length = x
    · cases hp : Places l
      · simp [relocates_of_not_places hp, placed]
      · cases hd : relocates l <;> simp [hs, placed, hd]
    · simp [hs, placed]

theorem noBss_linesIn (ls : List Line) : NoBssContent ls ↔ ∀ l ∈ linesIn ls .bss, ¬ Stores l := by
  constructor
  · intro h l hl
    unfold linesIn at hl
    rw [List.mem_filterMap] at hl
    obtain ⟨k, _, hk⟩ := hl
    cases hg : ls[k]? with
    | none => simp [hg] at hk
    | some l' =>
      rw [hg, Option.bind_some] at hk
      split at hk
      · rename_i hc
        cases hk
        exact h k _ hg hc.1
      · simp at hk
  · intro h k l hk hs hst
    refine h l ?_ hst
    unfold linesIn
    rw [List.mem_filterMap]
    refine ⟨k, List.mem_range.2 (List.getElem?_eq_some_iff.1 hk).1, ?_⟩
    have hp : Places l = true := by cases l <;> first | rfl | exact hst.elim
    rw [hk, Option.bind_some, if_pos ⟨hs, hp⟩]

theorem SameParts.content {ls ms : List Line} (h : SameParts ls ms) (x : Section) :
    content ls x ls.length = content ms x ms.length := by
  rw [content_linesIn, content_linesIn, h.lines]

theorem SameParts.labels {ls ms : List Line} (h : SameParts ls ms) (x : Section) : labels ls x = labels ms x := by
  rw [labels_linesIn, labels_linesIn, h.lines]

theorem SameParts.relocations {ls ms : List Line} (h : SameParts ls ms) (x : Section) :
    relocations ls x = relocations ms x := by
  rw [relocations_linesIn, relocations_linesIn, h.lines]

theorem ObjOf.same {ls ms : List Line} {o o' : Object} (h : SameParts ls ms) (ho : ObjOf ls o) (ho' : ObjOf ms o') :
    o = o' := by
  have hg : ∀ n, decide (Global ls n) = decide (Global ms n) := fun n => decide_eq_decide.2 (h.globals n)
  have hs : ∀ x, symbolsOf o x = symbolsOf o' x := by
    intro x
    rw [ho.symbols, ho'.symbols]
    unfold finalSyms
    rw [h.labels x]
    simp only [hg]
  have hb : ∀ x, bytesOf o x = bytesOf o' x := by
    intro x
    rw [ho.bytes, ho'.bytes, h.content x]
  have hr : ∀ x, relocsOf o x = relocsOf o' x := by
    intro x
    rw [ho.relocs, ho'.relocs]
    unfold relsOf
    rw [h.relocations x]
  have h0 := ho.bss.trans ho'.bss.symm
  obtain ⟨⟨⟨tb, ts, tr⟩, ⟨db, ds, dr⟩, ⟨sz, bs⟩⟩⟩ := o
  obtain ⟨⟨⟨tb', ts', tr'⟩, ⟨db', ds', dr'⟩, ⟨sz', bs'⟩⟩⟩ := o'
  have e1 := hs .text; have e2 := hs .data; have e3 := hs .bss
  have e4 := hb .text; have e5 := hb .data
  have e6 := hr .text; have e7 := hr .data
  simp only [symbolsOf, bytesOf, relocsOf] at e1 e2 e3 e4 e5 e6 e7 h0
  rw [e1, e2, e3, e4, e5, e6, e7, h0]

/-! ## C65 -/

/-- C65 for the assembler: sources with the same lines in each section and the same names declared
global give the same object. -/
theorem C65_same_object (bd : Build) (chunks chunks' : List Bytes) (a : Assembler) (ls ms : List Line)
    (hne : ∀ c ∈ chunks, c ≠ []) (hne' : ∀ c ∈ chunks', c ≠ []) (hlines : bd = .debug → ms.length < 2 ^ 32)
    (hp : Program bd chunks.flatten ls) (hp' : Program bd chunks'.flatten ms) (hsame : SameParts ls ms)
    (ha : Assembler.new.readFrom bd chunks = .ok a) :
    ∃ a', Assembler.new.readFrom bd chunks' = .ok a' ∧ a'.obj = a.obj := by
  obtain ⟨ss, ls', h1, h2, h3, h4, h5, h6, h7⟩ := readFrom_new hne ha
  cases Program.det hp ⟨ss, h1, h2⟩
  have hnb : NoBssContent ms := by
    rw [noBss_linesIn] at h3 ⊢
    rw [← hsame.lines]
    exact h3
  obtain ⟨_, hp0, _, hw⟩ := (C74_exact bd chunks hne).1 ⟨a, ha⟩
  cases Program.det hp hp0
  have hsm : Within bd ms := ⟨hlines, fun hbd x p hm => hw.relocs hbd x p (by rw [hsame.relocations x]; exact hm)⟩
  obtain ⟨a', ha'⟩ := C45_succeeds bd chunks' ms hne' hp' hsm hnb
  obtain ⟨ts, ms', g1, g2, g3, g4, g5, g6, g7⟩ := readFrom_new hne' ha'
  cases Program.det hp' ⟨ts, g1, g2⟩
  exact ⟨a', ha', (ObjOf.same hsame ⟨h4, h5, h6, h7⟩ ⟨g4, g5, g6, g7⟩).symm⟩

/-- C65 for the program: if a run on one source succeeds, so does a run on the other, and they write
the same file. -/
theorem C65_same_file (bd : Build) (h : Endian) (chunking : Bytes → List Bytes) (fs fs' : FS) (args args' : List Str)
    (out inp out' inp' : Str) (src src' : Bytes) (ls ms : List Line)
    (hcfg : Config.init args = .ok ⟨out, inp⟩) (hcfg' : Config.init args' = .ok ⟨out', inp'⟩)
    (hd : fs.node inp ≠ fs.node out) (hd' : fs'.node inp' ≠ fs'.node out')
    (hs : fs.content (fs.node inp) = some src) (hs' : fs'.content (fs'.node inp') = some src')
    (hrd : fs.canRead (fs.node inp) = true) (hrd' : fs'.canRead (fs'.node inp') = true)
    (hwr : fs.canWrite (fs.node out) = true) (hwr' : fs'.canWrite (fs'.node out') = true)
    (hch : ∀ b, (chunking b).flatten = b ∧ ∀ c ∈ chunking b, c ≠ []) (hlines : bd = .debug → ms.length < 2 ^ 32)
    (hp : Program bd src ls) (hp' : Program bd src' ms) (hsame : SameParts ls ms)
    (hok : (main bd h chunking fs args).2 = .ok ()) :
    (main bd h chunking fs' args').2 = .ok () ∧
    (main bd h chunking fs' args').1.content (fs'.node out') = (main bd h chunking fs args).1.content (fs.node out) := by
  obtain ⟨h1, h2⟩ := C52_result bd h chunking fs args out inp src hcfg hd hs hrd hwr
  obtain ⟨_, g2⟩ := C52_result bd h chunking fs' args' out' inp' src' hcfg' hd' hs' hrd' hwr'
  cases ha : Assembler.new.readFrom bd (chunking src) with
  | error e => rw [(h1 e ha).1] at hok; simp at hok
  | ok a =>
    obtain ⟨a', ha', ho⟩ := C65_same_object bd (chunking src) (chunking src') a ls ms (hch src).2 (hch src').2
      hlines (by rw [(hch src).1]; exact hp) (by rw [(hch src').1]; exact hp') hsame ha
    obtain ⟨e1, e2⟩ := h2 a ha
    obtain ⟨e3, e4⟩ := g2 a' ha'
    have hw : a'.writeInto bd h = a.writeInto bd h := by unfold Assembler.writeInto; rw [ho]
    rw [e3, e4, e2, hw, ← e1]
    exact ⟨hok, rfl⟩

/-- Not empty. -/
def NotEmpty (l : Line) : Bool := l ≠ .empty

theorem sectAt_filter (ls : List Line) :
    sectAt (ls.filter NotEmpty) (ls.filter NotEmpty).length = sectAt ls ls.length := by
  unfold sectAt
  rw [List.take_length, List.take_length, List.filterMap_filter]
  congr 2
  apply filterMap_congr'
  intro l _
  cases l <;> rfl

theorem linesIn_filter (ls : List Line) (x : Section) : linesIn (ls.filter NotEmpty) x = linesIn ls x := by
  induction ls using list_snoc_induction with
  | h0 => rfl
  | h ls l ih =>
    rw [List.filter_append, linesIn_snoc]
    cases hl : NotEmpty l
    · have : l = .empty := by simpa [NotEmpty] using hl
      subst this
      simp [hl, ih, Places]
    · rw [List.filter_cons, if_pos hl, List.filter_nil, linesIn_snoc, ih, sectAt_filter]

/-- C65 in particular: empty lines (blank lines, comments) may be added and removed. -/
theorem C65_empty_lines (ls ms : List Line) (h : ls.filter NotEmpty = ms.filter NotEmpty) : SameParts ls ms := by
  refine ⟨fun x => by rw [← linesIn_filter ls, h, linesIn_filter], fun n => ?_⟩
  have : ∀ l : List Line, Line.globalSymbol n ∈ l ↔ Line.globalSymbol n ∈ l.filter NotEmpty := by
    intro l
    rw [List.mem_filter]
    exact ⟨fun h => ⟨h, rfl⟩, And.left⟩
  rw [this ls, this ms, h]

/-- A source and another one with the same parts: sections in the other order and interleaved, a
comment, a blank line, `global` at the end. -/
def layoutA : List Str :=
  [str% "global f\n", str% "f:\n", str% "mov rax, v\n", str% "ret\n", str% "section .data\n", str% "v dq 7\n",
    str% "db 1\n"]

def layoutB : List Str :=
  [str% "section .data\n", str% "  v dq 7 ; seven\n", str% "\n", str% "section .text\n", str% "f:\n",
    str% "section .data\n", str% "db 1\n", str% "section .text\n", str% "mov rax, v\r\n", str% "ret\n",
    str% "global f"]

/-- The lines as read. -/
def readAs (s : List Str) : List Line := s.map fun t => match parseLine .debug t with | .ok l => l | _ => .empty

example : Program .debug (utf8 layoutA.flatten) (readAs layoutA) :=
  ⟨layoutA, ⟨by decide +kernel, by decide +kernel, by decide +kernel, by decide +kernel⟩, by decide +kernel⟩

example : Program .debug (utf8 layoutB.flatten) (readAs layoutB) :=
  ⟨layoutB, ⟨by decide +kernel, by decide +kernel, by decide +kernel, by decide +kernel⟩, by decide +kernel⟩

theorem globals_iff (ls : List Line) (n : Str) : Line.globalSymbol n ∈ ls ↔
    n ∈ ls.filterMap fun l => match l with | .globalSymbol m => some m | _ => none := by
  rw [List.mem_filterMap]
  constructor
  · intro h
    exact ⟨_, h, rfl⟩
  · rintro ⟨l, h, e⟩
    cases l <;> simp at e
    rw [← e]
    exact h

example : SameParts (readAs layoutA) (readAs layoutB) where
  lines x := by cases x <;> decide +kernel
  globals n := by
    rw [globals_iff, globals_iff]
    rw [show (readAs layoutA).filterMap (fun l => match l with | .globalSymbol m => some m | _ => none) =
      (readAs layoutB).filterMap (fun l => match l with | .globalSymbol m => some m | _ => none) by decide +kernel]

example : linesIn (readAs layoutB) .data =
    [.data ⟨some (str% "v"), [7, 0, 0, 0, 0, 0, 0, 0]⟩, .data ⟨none, [1]⟩] := by decide +kernel

example : Complete (readAs layoutA) where
  noBss := by rw [noBss_linesIn, show linesIn (readAs layoutA) .bss = [] by decide +kernel]; simp
  ascii := by decide +kernel
  defined x p hp := by
    revert p
    cases x <;> decide +kernel

end AT.Props
