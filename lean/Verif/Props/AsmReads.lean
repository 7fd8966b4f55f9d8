import Verif.Spec.AsmProg
import Verif.Props.AsmInst
import Verif.Props.X64Code
/-!
# C80: what every line of source text is read as, down to the bytes of the instruction
-/

namespace AT.AsmSpec
open AT.Asm AT.X64

theorem buffer_eq (l : Bytes) : buf15 l = buffer l := rfl

theorem yields_iff {x : SrcInst} (i : Instruction) (h : ∀ j, x = .plain j → X86.OperandsOk j) :
    Yields x i ↔ i = assembled x := by
  cases x with
  | plain j =>
    simp only [Yields, assembled]
    rw [Props.bytecode_eq j (h j rfl), buffer_eq]
    cases i
    simp only [Except.ok.injEq, Instruction.mk.injEq, eq_comm]
  | sym64 d name =>
    simp only [Yields, assembled]
    rw [Props.bytecode_eq _ (by simp [X86.OperandsOk]), buffer_eq]
    cases i
    simp only [Except.ok.injEq, Instruction.mk.injEq]
    rw [eq_comm]; rfl
  | sym32 d name =>
    simp only [Yields, assembled]
    rw [Props.bytecode_eq _ (by simp [X86.OperandsOk]), buffer_eq]
    have e : movReg32ImmOffset d = if X86.high (X86.num32 d) then 2 else 1 := by cases d <;> rfl
    rw [e]
    cases i
    simp only [Except.ok.injEq, Instruction.mk.injEq]
    rw [eq_comm]

theorem instLine_ok {bd : Build} {c : Str} {x : SrcInst} (h : InstLine bd c x) :
    ∀ j, x = .plain j → X86.OperandsOk j := by
  rintro j rfl
  cases h <;> trivial

theorem reads_iff (bd : Build) (s : Str) (l : Line) : parseLine bd s = .ok l ↔ Reads bd s l := by
  constructor
  · intro h
    cases l with
    | empty => obtain ⟨c, h1, h2⟩ := (Props.C41_empty bd s).1 h; exact .empty c h1 h2
    | sect x => obtain ⟨c, h1, h2⟩ := (Props.C41_section bd s x).1 h; exact .sect c x h1 h2
    | globalSymbol n => obtain ⟨c, h1, h2⟩ := (Props.C41_global bd s n).1 h; exact .globalSymbol c n h1 h2
    | symbol n => obtain ⟨h0, c, k, h1, h2⟩ := (Props.C41_label bd s n).1 h; exact .symbol c n k h1 h0 h2
    | data d =>
      obtain ⟨c, w, txt, its, h1, h2, h3, h4⟩ := (Props.C42_data bd s d).1 h
      exact .data c d w txt its h1 h2 h3 h4
    | instruction i =>
      obtain ⟨c, x, h1, h2, h3, h4⟩ := (Props.inst_lines bd s i).1 h
      rw [(yields_iff i (instLine_ok h3)).1 h4]
      exact .instruction c x h1 (fun lab w txt hd => h2 ⟨lab, w, txt, hd⟩) h3
  · intro h
    cases h with
    | empty c h1 h2 => exact (Props.C41_empty bd s).2 ⟨c, h1, h2⟩
    | sect c x h1 h2 => exact (Props.C41_section bd s x).2 ⟨c, h1, h2⟩
    | globalSymbol c n h1 h2 => exact (Props.C41_global bd s n).2 ⟨c, h1, h2⟩
    | symbol c n k h1 h0 h2 => exact (Props.C41_label bd s n).2 ⟨h0, c, k, h1, h2⟩
    | data c d w txt its h1 h2 h3 h4 => exact (Props.C42_data bd s d).2 ⟨c, w, txt, its, h1, h2, h3, h4⟩
    | instruction c x h1 h2 h3 =>
      exact (Props.inst_lines bd s _).2 ⟨c, x, h1, fun ⟨lab, w, txt, hd⟩ => h2 lab w txt hd, h3,
        (yields_iff _ (instLine_ok h3)).2 rfl⟩

theorem readsAll_iff {bd : Build} {ss : List Str} {ls : List Line} :
    ReadsAll bd ss ls ↔ ss.map (parseLine bd) = ls.map Except.ok := by
  constructor
  · rintro ⟨hl, h⟩
    apply List.ext_getElem?
    intro k
    rw [List.getElem?_map, List.getElem?_map]
    by_cases hk : k < ss.length
    · rw [List.getElem?_eq_getElem hk, List.getElem?_eq_getElem (hl ▸ hk)]
      exact congrArg some ((reads_iff bd _ _).2 (h k _ _ (List.getElem?_eq_getElem hk)
        (List.getElem?_eq_getElem (hl ▸ hk))))
    · rw [List.getElem?_eq_none (by omega), List.getElem?_eq_none (by omega)]; rfl
  · intro h
    refine ⟨by simpa using congrArg List.length h, fun k s l hs hl => (reads_iff bd s l).1 ?_⟩
    have := congrArg (·[k]?) h
    simpa [hs, hl] using this

instance (bd : Build) (s : Str) (l : Line) : Decidable (Reads bd s l) := decidable_of_iff _ (reads_iff bd s l)

instance (bd : Build) (ss : List Str) (ls : List Line) : Decidable (ReadsAll bd ss ls) :=
  decidable_of_iff _ readsAll_iff.symm

theorem program_iff {bd : Build} {input : Bytes} {ls : List Line} : Program bd input ls ↔
    ∃ ss : List Str, Cut input (ss.map utf8) ∧ ss.map (parseLine bd) = ls.map Except.ok := by
  simp only [Program, readsAll_iff]

end AT.AsmSpec

namespace AT.Props
open AT.Asm AT.AsmSpec

/-- C43, C44: exactly which lines are instructions, and which: the line is not a data line, it
spells `x`, and the result is the encoding of `x`. -/
theorem C43_instruction_lines (bd : Build) (s : Str) (i : Instruction) :
    parseLine bd s = .ok (.instruction i) ↔
      ∃ c x, Code s c ∧ ¬ IsData c ∧ InstLine bd c x ∧ i = assembled x := by
  rw [inst_lines]
  constructor
  · rintro ⟨c, x, h1, h2, h3, h4⟩
    exact ⟨c, x, h1, h2, h3, (yields_iff i (instLine_ok h3)).1 h4⟩
  · rintro ⟨c, x, h1, h2, h3, h4⟩
    exact ⟨c, x, h1, h2, h3, (yields_iff i (instLine_ok h3)).2 h4⟩

/-- C56 (part): apart from `Ignored` lines, an accepted line has no meaningless text.  Missing: the
`Ignored` lines, of which the claim is false (`C56_counterexample`). -/
theorem C56_no_extra_text_partial (bd : Build) (s c : Str) (l : Line) (hc : Code s c)
    (h : parseLine bd s = .ok l) (hi : ¬ Ignored c) :
    match l with
    | .empty => Tokens c []
    | .sect x => Tokens c [str% "section", sectName x]
    | .globalSymbol n => Tokens c [str% "global", n]
    | .symbol n => ∃ k, Tokens c [n ++ List.replicate (k + 1) ':']
    | .data d => ∃ w txt its, DataLine c d.label w txt ∧ Items txt its ∧ Stored w its d.bytes
    | .instruction i => ∃ x, Strict bd c x ∧ i = assembled x := by
  have := no_extra_text bd s c l hc h hi
  cases l with
  | instruction i =>
    obtain ⟨x, h1, h2⟩ := this
    refine ⟨x, h1, (yields_iff i ?_).1 h2⟩
    rintro j rfl
    cases h1 <;> trivial
  | _ => exact this

/-- C80: a line is read as `l` exactly if it says `l`. -/
theorem C80_lines (bd : Build) (s : Str) (l : Line) : parseLine bd s = .ok l ↔ Reads bd s l := reads_iff bd s l

/-- The address of a symbol: REX.W+B8, eight zeros, and a relocation at offset 2. -/
example (bd : Build) : Reads bd (str% "  mov  r9 ,msg ; x\n") (.instruction
    ⟨⟨[0x49, 0xb9, 0, 0, 0, 0, 0, 0, 0, 0, 0, 0, 0, 0, 0], 10⟩, some ⟨2, str% "msg", false, 3⟩⟩) :=
  (C80_lines bd _ _).1 (by cases bd <;> decide +kernel)

/-- A data line is not read as anything else. -/
example (bd : Build) : Reads bd (str% "a db 1,\"b\"") (.data ⟨some (str% "a"), [1, 98]⟩) ∧
    ¬ Reads bd (str% "a db 1,\"b\"") .empty :=
  ⟨(C80_lines bd _ _).1 (by cases bd <;> decide +kernel),
    fun h => absurd ((C80_lines bd _ _).2 h) (by cases bd <;> decide +kernel)⟩

end AT.Props
