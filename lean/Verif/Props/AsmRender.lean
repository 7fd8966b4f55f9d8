import Verif.Spec.AsmRender
import Verif.Props.Layout
import Verif.Proofs.Decimal
/-!
# Everything that can be read can be written in one canonical way (C71)
-/

namespace AT.Props
open AT.Asm AT.AsmSpec AT.X64 AT.Obj AT.Mac

/-- The line a statement stands for. -/
def Means : Stmt → Line → Prop
  | .blank, l => l = .empty
  | .label n, l => l = .symbol n
  | .sect x, l => l = .sect x
  | .global n, l => l = .globalSymbol n
  | .data lab _ w its, l => ∃ bs, l = .data ⟨lab, bs⟩ ∧ Stored w its bs
  | .inst x, l => l = .instruction (assembled x)

/-! ## UTF-8 -/

theorem or_high_ne (x y : UInt8) (hy : y.toNat.testBit 7 = true) : (10 : UInt8) ≠ x ||| y := by
  intro h
  have := congrArg (fun z : UInt8 => z.toNat.testBit 7) h
  simp [UInt8.toNat_or, Nat.testBit_or, hy] at this
  exact absurd this (by decide)

theorem newline_of_mem {c : Char} (h : (10 : UInt8) ∈ String.utf8EncodeChar c) : c = '\n' := by
  have hs := c.utf8Size_pos
  have hs' := c.utf8Size_le_four
  by_cases h1 : c.utf8Size = 1
  · rw [String.utf8EncodeChar_eq_singleton h1, List.mem_singleton] at h
    rw [Char.utf8Size_eq_one_iff] at h1
    have h2 := congrArg UInt8.toNat h
    have h3 : c.val.toNat ≤ 127 := by simpa [UInt32.le_iff_toNat_le] using h1
    rw [UInt32.toNat_toUInt8] at h2
    have h4 : (10 : UInt8).toNat = 10 := rfl
    rw [h4] at h2
    apply Char.toNat_inj.1
    show c.val.toNat = 10
    omega
  by_cases h2 : c.utf8Size = 2
  · rw [String.utf8EncodeChar_eq_cons_cons h2] at h
    simp only [List.mem_cons, List.not_mem_nil, or_false] at h
    rcases h with h | h <;> exact absurd h (or_high_ne _ _ (by decide))
  by_cases h3 : c.utf8Size = 3
  · rw [String.utf8EncodeChar_eq_cons_cons_cons h3] at h
    simp only [List.mem_cons, List.not_mem_nil, or_false] at h
    rcases h with h | h | h <;> exact absurd h (or_high_ne _ _ (by decide))
  · rw [String.utf8EncodeChar_eq_cons_cons_cons_cons (by omega)] at h
    simp only [List.mem_cons, List.not_mem_nil, or_false] at h
    rcases h with h | h | h | h <;> exact absurd h (or_high_ne _ _ (by decide))

theorem newline_mem_utf8 {s : Str} : (10 : UInt8) ∈ utf8 s ↔ '\n' ∈ s := by
  induction s with
  | nil => simp [utf8_nil]
  | cons c s ih =>
    rw [utf8_cons, List.mem_append, ih, List.mem_cons]
    constructor
    · rintro (h | h)
      · exact .inl (newline_of_mem h).symm
      · exact .inr h
    · rintro (rfl | h)
      · exact .inl (by decide)
      · exact .inr h

theorem utf8_newline (s : Str) : utf8 (s ++ ['\n']) = utf8 s ++ [10] := by
  rw [utf8_append]; rfl

/-- Lines that end with a newline and have none inside are the lines of their concatenation. -/
theorem cut_lines (ss : List Str) (h : ∀ s ∈ ss, '\n' ∉ s) :
    Cut (utf8 (ss.flatMap fun s => s ++ ['\n'])) ((ss.map fun s => s ++ ['\n']).map utf8) := by
  refine ⟨?_, ?_, ?_, ?_⟩
  · clear h
    induction ss with
    | nil => rfl
    | cons s ss ih => simp only [List.map_cons, List.flatten_cons, List.flatMap_cons, utf8_append] at ih ⊢; rw [ih]
  · intro l hl
    simp only [List.map_map, List.mem_map, Function.comp] at hl
    obtain ⟨s, _, rfl⟩ := hl
    rw [utf8_newline]; simp
  · intro l hl
    simp only [List.map_map, List.mem_map, Function.comp] at hl
    obtain ⟨s, hs, rfl⟩ := hl
    rw [utf8_newline, List.dropLast_concat, newline_mem_utf8]
    exact h s hs
  · intro l hl
    have := List.dropLast_subset _ hl
    simp only [List.map_map, List.mem_map, Function.comp] at this
    obtain ⟨s, _, rfl⟩ := this
    rw [utf8_newline]; simp

/-! ## Characters of rendered text -/

theorem dec_number (n : Nat) : Number (dec n) n := .inl (.dec _ _ (showNat_digits n))

theorem dec_chars (n : Nat) : ∀ c ∈ dec n, c ≠ ';' ∧ c ≠ '\n' := by
  intro c hc
  have h := (digits_chars (showNat_digits n)).2 c hc
  constructor <;> rintro rfl <;> simp [decDigit] at h

theorem solid_ends {s : Str} (h : Solid s) : StartsSolid s ∧ EndsSolid s :=
  ⟨fun c r hs => h c (by simp [hs]), fun c r hs => h c (by simp [hs])⟩

theorem solid_no_newline {s : Str} (h : Solid s) : '\n' ∉ s := by
  intro hm; have := h _ hm; revert this; decide

theorem blank_space : Blank [' '] := by intro c hc; rw [List.mem_singleton.1 hc]; decide
theorem blank_newline : Blank ['\n'] := by intro c hc; rw [List.mem_singleton.1 hc]; decide
theorem broken_newline : Broken ['\n'] := by intro c r h; simp only [List.cons.injEq] at h; rw [← h.1]; decide

theorem token_line {t : Str} (ht : t ≠ []) (hs : Solid t) : Tokens (t ++ ['\n']) [t] := by
  have := Tokens.cons [] t ['\n'] [] (by simp [Blank]) ht hs broken_newline (.nil _ blank_newline)
  simpa using this

theorem token_line2 {t u : Str} (ht : t ≠ []) (hs : Solid t) (hu : u ≠ []) (hus : Solid u) :
    Tokens (t ++ ' ' :: (u ++ ['\n'])) [t, u] := by
  have h := Tokens.cons [' '] u ['\n'] [] blank_space hu hus broken_newline (.nil _ blank_newline)
  have := Tokens.cons [] t _ _ (by simp [Blank]) ht hs (by
    intro c r h; simp only [List.cons_append, List.cons.injEq] at h; rw [← h.1]; decide) h
  simpa using this

theorem movLine_render {dst src : Str} (hc : ',' ∉ dst) (hd : Solid dst) (hs : StartsSolid src) (he : EndsSolid src) :
    MovLine (renderMov dst src ++ ['\n']) dst src := by
  refine ⟨[], [], [], [' '], ['\n'], by simp [Blank], by simp [Blank], by simp [Blank], blank_space, blank_newline,
    hc, (solid_ends hd).1, (solid_ends hd).2, hs, he, ?_⟩
  simp [renderMov]

theorem reg64_chars (r : Reg64) : ∀ c ∈ r.asmName, c ≠ ';' ∧ c ≠ ',' := by cases r <;> decide
theorem reg32_chars (r : Reg32) : ∀ c ∈ r.asmName, c ≠ ';' ∧ c ≠ ',' := by cases r <;> decide
theorem reg16_chars (r : Reg16) : ∀ c ∈ r.asmName, c ≠ ';' ∧ c ≠ ',' := by cases r <;> decide

theorem clean_mov {dst src : Str} (hd : ∀ c ∈ dst, c ≠ ';' ∧ c ≠ ',') (hs : Solid dst) (h1 : ';' ∉ src)
    (h2 : '\n' ∉ src) : ';' ∉ renderMov dst src ∧ '\n' ∉ renderMov dst src := by
  have e1 : ';' ∉ dst := fun h => (hd _ h).1 rfl
  have e2 := solid_no_newline hs
  unfold renderMov
  simp only [List.mem_append, not_or]
  exact ⟨⟨⟨⟨by decide, e1⟩, by decide⟩, h1⟩, ⟨⟨⟨by decide, e2⟩, by decide⟩, h2⟩⟩

theorem const_dec (bd : Build) (n : UInt64) : Const bd (dec n.toNat) n := by
  refine ⟨[dec n.toNat], n.toNat, .inl (number_tokens (dec_number _)), .num _ _ (dec_number _) n.toNat_lt, ?_, .inr ?_⟩
  · have := n.toNat_lt
    omega
  · intro h; cases h

/-- What is needed of the text of an instruction. -/
def Good (bd : Build) (x : SrcInst) (s : Str) : Prop :=
  InstLine bd (s ++ ['\n']) x ∧ ¬ IsData (s ++ ['\n']) ∧ ';' ∉ s ∧ '\n' ∉ s

theorem inst_good (bd : Build) (x : SrcInst) (h : InstOk x) : Good bd x (renderInst x) := by
  have hd : ∀ n, ';' ∉ dec n ∧ '\n' ∉ dec n := fun n =>
    ⟨fun hm => (dec_chars n _ hm).1 rfl, fun hm => (dec_chars n _ hm).2 rfl⟩
  have hds : ∀ n, StartsSolid (dec n) ∧ EndsSolid (dec n) := fun n => solid_ends (number_solid (dec_number n)).2
  have h64 : ∀ (d : Reg64) src, ';' ∉ src → '\n' ∉ src → StartsSolid src → EndsSolid src →
      MovLine (renderMov d.asmName src ++ ['\n']) d.asmName src ∧ ¬ IsData (renderMov d.asmName src ++ ['\n']) ∧
      ';' ∉ renderMov d.asmName src ∧ '\n' ∉ renderMov d.asmName src := by
    intro d src h1 h2 h3 h4
    have hm := movLine_render (dst := d.asmName) (fun h => (reg64_chars d _ h).2 rfl) (reg64_solid d).2 h3 h4
    exact ⟨hm, mov64_notData hm, clean_mov (reg64_chars d) (reg64_solid d).2 h1 h2⟩
  have h32 : ∀ (d : Reg32) src, ';' ∉ src → '\n' ∉ src → StartsSolid src → EndsSolid src →
      MovLine (renderMov d.asmName src ++ ['\n']) d.asmName src ∧ ¬ IsData (renderMov d.asmName src ++ ['\n']) ∧
      ';' ∉ renderMov d.asmName src ∧ '\n' ∉ renderMov d.asmName src := by
    intro d src h1 h2 h3 h4
    have hm := movLine_render (dst := d.asmName) (fun h => (reg32_chars d _ h).2 rfl) (reg32_solid d).2 h3 h4
    exact ⟨hm, mov32_notData hm, clean_mov (reg32_chars d) (reg32_solid d).2 h1 h2⟩
  have h16 : ∀ (d : Reg16) src, ';' ∉ src → '\n' ∉ src → StartsSolid src → EndsSolid src →
      MovLine (renderMov d.asmName src ++ ['\n']) d.asmName src ∧ ¬ IsData (renderMov d.asmName src ++ ['\n']) ∧
      ';' ∉ renderMov d.asmName src ∧ '\n' ∉ renderMov d.asmName src := by
    intro d src h1 h2 h3 h4
    have hm := movLine_render (dst := d.asmName) (fun h => (reg16_chars d _ h).2 rfl) (reg16_solid d).2 h3 h4
    exact ⟨hm, mov16_notData hm, clean_mov (reg16_chars d) (reg16_solid d).2 h1 h2⟩
  have r64 : ∀ r : Reg64, ';' ∉ r.asmName ∧ '\n' ∉ r.asmName := fun r =>
    ⟨fun h => (reg64_chars r _ h).1 rfl, solid_no_newline (reg64_solid r).2⟩
  have r32 : ∀ r : Reg32, ';' ∉ r.asmName ∧ '\n' ∉ r.asmName := fun r =>
    ⟨fun h => (reg32_chars r _ h).1 rfl, solid_no_newline (reg32_solid r).2⟩
  have r16 : ∀ r : Reg16, ';' ∉ r.asmName ∧ '\n' ∉ r.asmName := fun r =>
    ⟨fun h => (reg16_chars r _ h).1 rfl, solid_no_newline (reg16_solid r).2⟩
  have hpush : ∀ op, op ≠ [] → Solid op → Tokens (str% "push " ++ op ++ ['\n']) [str% "push", op] := by
    intro op h1 h2
    have := token_line2 (t := str% "push") (u := op) (by simp) (by simp [Solid]; decide) h1 h2
    simpa using this
  have hpc : ∀ op : Str, ';' ∉ op → '\n' ∉ op → ';' ∉ str% "push " ++ op ∧ '\n' ∉ str% "push " ++ op := by
    intro op h1 h2
    simp only [List.mem_append, not_or]
    exact ⟨⟨by decide, h1⟩, by decide, h2⟩
  cases x with
  | sym64 d name =>
    obtain ⟨⟨h1, h2, h3, h4, h5⟩, h6⟩ := h
    obtain ⟨g1, g2, g3, g4⟩ := h64 d name h3 h4 h1 h2
    exact ⟨.mov64Sym d name g1 h5 h6, g2, g3, g4⟩
  | sym32 d name =>
    obtain ⟨⟨h1, h2, h3, h4, h5⟩, h6⟩ := h
    obtain ⟨g1, g2, g3, g4⟩ := h32 d name h3 h4 h1 h2
    exact ⟨.mov32Sym d name g1 h5 h6, g2, g3, g4⟩
  | plain i =>
    cases i with
    | movReg64Reg64 d r =>
      obtain ⟨g1, g2, g3, g4⟩ := h64 d _ (r64 r).1 (r64 r).2 (solid_ends (reg64_solid r).2).1 (solid_ends (reg64_solid r).2).2
      exact ⟨.mov64Reg d r g1, g2, g3, g4⟩
    | movReg32Reg32 d r =>
      obtain ⟨g1, g2, g3, g4⟩ := h32 d _ (r32 r).1 (r32 r).2 (solid_ends (reg32_solid r).2).1 (solid_ends (reg32_solid r).2).2
      exact ⟨.mov32Reg d r g1, g2, g3, g4⟩
    | movReg16Reg16 d r =>
      obtain ⟨g1, g2, g3, g4⟩ := h16 d _ (r16 r).1 (r16 r).2 (solid_ends (reg16_solid r).2).1 (solid_ends (reg16_solid r).2).2
      exact ⟨.mov16Reg d r g1, g2, g3, g4⟩
    | movReg64Imm d n =>
      obtain ⟨g1, g2, g3, g4⟩ := h64 d _ (hd n.toNat).1 (hd n.toNat).2 (hds _).1 (hds _).2
      exact ⟨.mov64Const d _ n g1 (const_dec bd n), g2, g3, g4⟩
    | movReg32Imm d n =>
      obtain ⟨g1, g2, g3, g4⟩ := h32 d _ (hd n.toNat).1 (hd n.toNat).2 (hds _).1 (hds _).2
      have hc := const_dec bd n.toUInt64
      rw [show n.toUInt64.toNat = n.toNat by simp] at hc
      exact ⟨.mov32Const d _ n.toUInt64 n g1 hc (by simp), g2, g3, g4⟩
    | movReg16Imm d n =>
      obtain ⟨g1, g2, g3, g4⟩ := h16 d _ (hd n.toNat).1 (hd n.toNat).2 (hds _).1 (hds _).2
      have hc := const_dec bd n.toUInt64
      rw [show n.toUInt64.toNat = n.toNat by simp] at hc
      exact ⟨.mov16Const d _ n.toUInt64 n g1 hc (by simp), g2, g3, g4⟩
    | pushReg64 r =>
      have ht := hpush _ (reg64_solid r).1 (reg64_solid r).2
      exact ⟨.pushReg r [] ht, push_notData ht (fun w => by simpa using reg64_not_directive r [] w), hpc _ (r64 r).1 (r64 r).2⟩
    | pushU8 n =>
      have hn := number_solid (dec_number n.toNat)
      have ht := hpush _ hn.1 hn.2
      exact ⟨.pushU8 _ n [] ht (dec_number _), push_notData ht (number_not_directive (dec_number _)), hpc _ (hd _).1 (hd _).2⟩
    | pushU32 n =>
      have hn := number_solid (dec_number n.toNat)
      have ht := hpush _ hn.1 hn.2
      exact ⟨.pushU32 _ n [] ht (dec_number _) h, push_notData ht (number_not_directive (dec_number _)), hpc _ (hd _).1 (hd _).2⟩
    | ret =>
      have ht := token_line (t := str% "ret") (by simp) (by simp [Solid]; decide)
      exact ⟨.ret [] ht, single_notData ht, by decide, by decide⟩
    | syscall =>
      have ht := token_line (t := str% "syscall") (by simp) (by simp [Solid]; decide)
      exact ⟨.syscall [] ht, single_notData ht, by decide, by decide⟩
    | _ => exact h.elim

/-! ## Data -/

theorem renderItem_ends (it : Item) : StartsSolid (renderItem it) ∧ EndsSolid (renderItem it) ∧ renderItem it ≠ [] := by
  cases it with
  | num n =>
    have := number_solid (dec_number n)
    exact ⟨(solid_ends this.2).1, (solid_ends this.2).2, this.1⟩
  | str s =>
    refine ⟨?_, ?_, by simp [renderItem]⟩
    · intro c r h; simp only [renderItem, List.cons.injEq] at h; rw [← h.1]; decide
    · intro c r h
      simp only [renderItem, ← List.cons_append] at h
      have := (List.append_inj' h rfl).2
      simp only [List.cons.injEq, and_true] at this
      rw [← this]; decide

theorem startsSolid_append {a b : Str} (ha : a ≠ []) (h : StartsSolid a) : StartsSolid (a ++ b) := by
  intro c r hs
  cases a with
  | nil => exact absurd rfl ha
  | cons x a => simp only [List.cons_append, List.cons.injEq] at hs; rw [← hs.1]; exact h x a rfl

theorem endsSolid_append {a b : Str} (hb : b ≠ []) (h : EndsSolid b) : EndsSolid (a ++ b) := by
  intro c r hs
  rcases List.eq_nil_or_concat b with rfl | ⟨b', x, rfl⟩
  · exact absurd rfl hb
  · rw [List.concat_eq_append, ← List.append_assoc] at hs
    have := (List.append_inj' hs rfl).2
    simp only [List.cons.injEq, and_true] at this
    rw [← this]; exact h x b' (by simp)

theorem renderItems_ends (its : List Item) (h : its ≠ []) :
    StartsSolid (renderItems its) ∧ EndsSolid (renderItems its) ∧ renderItems its ≠ [] := by
  induction its with
  | nil => exact absurd rfl h
  | cons it its ih =>
    obtain ⟨h1, h2, h3⟩ := renderItem_ends it
    cases its with
    | nil => exact ⟨h1, h2, h3⟩
    | cons it' its =>
      obtain ⟨g1, g2, g3⟩ := ih (by simp)
      simp only [renderItems]
      refine ⟨?_, endsSolid_append g3 g2, by simp [h3]⟩
      rw [List.append_assoc]
      exact startsSolid_append h3 h1

theorem renderItems_chars (w : Nat) (its : List Item) (h : ∀ it ∈ its, ItemOk w it) :
    ';' ∉ renderItems its ∧ '\n' ∉ renderItems its := by
  have h1 : ∀ it, ItemOk w it → ';' ∉ renderItem it ∧ '\n' ∉ renderItem it := by
    intro it hi
    cases it with
    | num n => exact ⟨fun hm => (dec_chars n _ hm).1 rfl, fun hm => (dec_chars n _ hm).2 rfl⟩
    | str s =>
      obtain ⟨_, e1, e2⟩ := hi
      simp only [renderItem, List.mem_cons, List.mem_append, List.not_mem_nil, or_false, not_or]
      exact ⟨⟨by decide, e1, by decide⟩, ⟨by decide, e2, by decide⟩⟩
  induction its with
  | nil => simp [renderItems]
  | cons it its ih =>
    have e1 := h1 it (h it (by simp))
    have e2 := ih (fun it' h' => h it' (by simp [h']))
    cases its with
    | nil => exact e1
    | cons it' its =>
      simp only [renderItems, List.mem_append, not_or] at e2 ⊢
      exact ⟨⟨⟨e1.1, by decide⟩, e2.1⟩, ⟨⟨e1.2, by decide⟩, e2.2⟩⟩

theorem width_le {dir : Str} {w : Nat} (h : (dir, w) ∈ directives) : 1 ≤ w ∧ w ≤ 8 := by
  simp only [directives, List.mem_cons, Prod.mk.injEq, List.not_mem_nil, or_false] at h
  omega

theorem num_lt {w n : Nat} (hw : w ≤ 8) (h : n < 256 ^ w) : n < 2 ^ 64 :=
  Nat.lt_of_lt_of_le h (Nat.le_trans (Nat.pow_le_pow_right (by decide) hw) (by decide))

theorem renderItems_items (w : Nat) (hw : w ≤ 8) (its : List Item) (h : ∀ it ∈ its, ItemOk w it) :
    Items (renderItems its) its := by
  induction its with
  | nil => exact .nil
  | cons it its ih =>
    have hi := h it (by simp)
    have ih := ih (fun it' h' => h it' (by simp [h']))
    cases its with
    | nil =>
      cases it with
      | num n => exact .last _ n (dec_number n) (num_lt hw hi)
      | str s =>
        have := Items.str s [] [] [] hi.1 (by simp) .nil
        simpa [renderItems, renderItem] using this
    | cons it' its =>
      cases it with
      | num n =>
        have := Items.num _ n ',' [' '] _ _ (dec_number n) (num_lt hw hi) (.inr rfl) blank_space ih
        simpa [renderItems, renderItem] using this
      | str s =>
        have := Items.str s [',', ' '] _ _ hi.1 (by
          intro c hc
          simp only [List.mem_cons, List.not_mem_nil, or_false] at hc
          rcases hc with rfl | rfl
          · exact .inr rfl
          · exact .inl (by decide)) ih
        simpa [renderItems, renderItem] using this

theorem stored_exists {w : Nat} (hw : 1 ≤ w) (its : List Item) (h : ∀ it ∈ its, ItemOk w it) :
    ∃ bs, Stored w its bs := by
  induction its with
  | nil => exact ⟨[], .nil⟩
  | cons it its ih =>
    obtain ⟨bs, hb⟩ := ih (fun it' h' => h it' (by simp [h']))
    have hi := h it (by simp)
    cases it with
    | num n => exact ⟨_, .cons _ _ (leBytes w n) bs ⟨length_leBytes w n, leVal_leBytes w n hi⟩ hb⟩
    | str s =>
      refine ⟨_, .cons _ _ (utf8 s ++ List.replicate ((w - (utf8 s).length % w) % w) 0) bs
        ⟨_, rfl, Nat.mod_lt _ (by omega), ?_⟩ hb⟩
      simp only [List.length_append, List.length_replicate]
      have := Nat.mod_lt (utf8 s).length (show 0 < w by omega)
      have e := Nat.div_add_mod (utf8 s).length w
      by_cases h0 : (utf8 s).length % w = 0
      · rw [h0, Nat.sub_zero, Nat.mod_self, Nat.add_zero]; exact h0
      · rw [Nat.mod_eq_of_lt (show w - (utf8 s).length % w < w by omega)]
        rw [show (utf8 s).length + (w - (utf8 s).length % w) = w * ((utf8 s).length / w + 1) by
          rw [Nat.mul_add, Nat.mul_one]; omega]
        exact Nat.mul_mod_right _ _

/-! ## C71: lines -/

theorem render_clean (st : Stmt) (h : st.Ok) : ';' ∉ st.render ∧ '\n' ∉ st.render := by
  cases st with
  | blank => exact ⟨by simp [Stmt.render], by simp [Stmt.render]⟩
  | label n =>
    obtain ⟨h1, h2, _⟩ := h
    simp only [Stmt.render, List.mem_append, not_or]
    exact ⟨⟨h2, by decide⟩, solid_no_newline h1, by decide⟩
  | sect x => cases x <;> exact ⟨by decide, by decide⟩
  | global n =>
    obtain ⟨_, h1, h2⟩ := h
    simp only [Stmt.render, List.mem_append, not_or]
    exact ⟨⟨by decide, h2⟩, by decide, solid_no_newline h1⟩
  | data lab dir w its =>
    obtain ⟨h1, h2, h3, h4⟩ := h
    obtain ⟨e1, e2⟩ := renderItems_chars w its h4
    have hd : ';' ∉ dir ∧ '\n' ∉ dir := by
      simp only [directives, List.mem_cons, Prod.mk.injEq, List.not_mem_nil, or_false] at h2
      rcases h2 with ⟨rfl, _⟩ | ⟨rfl, _⟩ | ⟨rfl, _⟩ | ⟨rfl, _⟩ <;> exact ⟨by decide, by decide⟩
    cases lab with
    | none =>
      simp only [Stmt.render, List.mem_append, not_or]
      exact ⟨⟨⟨hd.1, by decide⟩, e1⟩, ⟨hd.2, by decide⟩, e2⟩
    | some l =>
      obtain ⟨g1, g2⟩ := h1 l rfl
      simp only [Stmt.render, List.mem_append, not_or]
      exact ⟨⟨⟨⟨⟨g2, by decide⟩, hd.1⟩, by decide⟩, e1⟩, ⟨⟨⟨solid_no_newline g1.2.1, by decide⟩, hd.2⟩, by decide⟩, e2⟩
  | inst x => exact (inst_good .debug x h).2.2

/-- C71: the text written for a statement is read back as that statement, in either build. -/
theorem C71_line (bd : Build) (st : Stmt) (l : Line) (h : st.Ok) (hm : Means st l) :
    parseLine bd (st.render ++ ['\n']) = .ok l := by
  have hcode : Code (st.render ++ ['\n']) (st.render ++ ['\n']) :=
    ⟨by simp only [List.mem_append, not_or]; exact ⟨(render_clean st h).1, by decide⟩, .inl rfl⟩
  cases st with
  | blank => cases hm; exact (C41_empty bd _).2 ⟨_, hcode, blank_newline⟩
  | label n =>
    cases hm
    obtain ⟨h1, _, h3⟩ := h
    refine (C41_label bd _ n).2 ⟨h3, _, 0, hcode, ?_⟩
    exact token_line (t := n ++ [':']) (by simp) (by
      intro c hc
      rcases List.mem_append.1 hc with hc | hc
      · exact h1 c hc
      · rw [List.mem_singleton.1 hc]; decide)
  | sect x =>
    cases hm
    refine (C41_section bd _ x).2 ⟨_, hcode, ?_⟩
    have := token_line2 (t := str% "section") (u := sectName x) (by simp) (by simp [Solid]; decide)
      (by cases x <;> simp [sectName]) (by cases x <;> simp [sectName, Solid] <;> decide)
    simpa [Stmt.render] using this
  | global n =>
    cases hm
    refine (C41_global bd _ n).2 ⟨_, hcode, ?_⟩
    have := token_line2 (t := str% "global") (u := n) (by simp) (by simp [Solid]; decide) h.1 h.2.1
    simpa [Stmt.render] using this
  | data lab dir w its =>
    obtain ⟨bs, rfl, hs⟩ := hm
    obtain ⟨h1, h2, h3, h4⟩ := h
    obtain ⟨e1, e2, e3⟩ := renderItems_ends its h3
    refine (C42_data bd _ _).2 ⟨_, w, renderItems its, its, hcode, ?_, renderItems_items w (width_le h2).2 its h4, hs⟩
    cases lab with
    | none =>
      have := DataLine.plain [] dir [' '] (renderItems its) ['\n'] w h2 (by simp [Blank]) (by simp) blank_space
        e3 e1 e2 blank_newline
      simpa [Stmt.render] using this
    | some l =>
      have := DataLine.labelled [] l [' '] dir [' '] (renderItems its) ['\n'] w (h1 l rfl).1 h2 (by simp [Blank])
        (by simp) blank_space (by simp) blank_space e3 e1 e2 blank_newline
      simpa [Stmt.render] using this
  | inst x =>
    cases hm
    obtain ⟨g1, g2, _⟩ := inst_good bd x h
    exact (C43_instruction_lines bd _ _).2 ⟨_, x, hcode, g2, g1, rfl⟩

/-- C71: every statement that can be written stands for a line. -/
theorem C71_defined (st : Stmt) (h : st.Ok) : ∃ l, Means st l := by
  cases st with
  | data lab dir w its =>
    obtain ⟨_, h2, _, h4⟩ := h
    obtain ⟨bs, hb⟩ := stored_exists (width_le h2).1 its h4
    exact ⟨_, bs, rfl, hb⟩
  | _ => exact ⟨_, rfl⟩

/-! ## C71: every line has a canonical spelling -/

theorem tokens_sub {s : Str} {ts : List Str} (h : Tokens s ts) : ∀ t ∈ ts, ∀ c ∈ t, c ∈ s := by
  induction h with
  | nil => simp
  | cons w t rest ts _ _ _ _ _ ih =>
    intro u hu c hc
    rcases List.mem_cons.1 hu with rfl | hu
    · simp [hc]
    · simp [ih u hu c hc]

/-- A string among the items is followed by at least its closing quote. -/
theorem items_sub {txt : Str} {its : List Item} (h : Items txt its) (b : Str) (hb : Item.str b ∈ its) :
    '"' ∉ b ∧ ∃ p q, txt = p ++ b ++ '"' :: q := by
  induction h with
  | nil => simp at hb
  | last => simp at hb
  | num a n c w rest its _ _ _ _ _ ih =>
    simp only [List.mem_cons, reduceCtorEq, false_or] at hb
    obtain ⟨h1, p, q, rfl⟩ := ih hb
    exact ⟨h1, a ++ c :: (w ++ p), q, by simp⟩
  | str body w rest its hq _ _ ih =>
    rcases List.mem_cons.1 hb with h | hb
    · cases h; exact ⟨hq, ['"'], w ++ rest, by simp⟩
    · obtain ⟨h1, p, q, rfl⟩ := ih hb
      exact ⟨h1, '"' :: (body ++ '"' :: (w ++ p)), q, by simp⟩

theorem stored_num {w : Nat} {its : List Item} {bs : Bytes} (h : Stored w its bs) (n : Nat) (hn : Item.num n ∈ its) :
    n < 256 ^ w := by
  induction h with
  | nil => simp at hn
  | cons it its b bs hi _ ih =>
    rcases List.mem_cons.1 hn with h | h
    · subst h
      obtain ⟨h1, h2⟩ := hi
      rw [← h1, ← h2]; exact leVal_lt b
    · exact ih h

theorem no_inner_newline {s p q : Str} (h : '\n' ∉ s.dropLast) (hs : s = p ++ q) (hq : q ≠ []) : '\n' ∉ p := by
  intro hm
  subst hs
  rw [List.dropLast_append_of_ne_nil hq] at h
  exact h (by simp [hm])

theorem code_no_newline {s c p q : Str} (h : '\n' ∉ s.dropLast) (hc : Code s c) (hs : c = p ++ q) (hq : q ≠ []) :
    '\n' ∉ p := by
  rcases hc.2 with rfl | ⟨r, rfl⟩
  · exact no_inner_newline h hs hq
  · exact no_inner_newline (q := q ++ ';' :: r) h (by rw [hs]; simp) (by simp)

theorem symName_of {s c dst name : Str} (hn : '\n' ∉ s.dropLast) (hc : Code s c) (hm : MovLine c dst name)
    (hk : NotConst name) : SymName name := by
  obtain ⟨w0, a, b, d, e, _, _, _, _, _, _, _, _, h1, h2, rfl⟩ := hm
  refine ⟨h1, h2, ?_, ?_, hk⟩
  · intro h; exact hc.1 (by simp [h])
  · rcases List.eq_nil_or_concat name with rfl | ⟨n', x, rfl⟩
    · simp
    · rw [List.concat_eq_append] at *
      have := h2 x n' rfl
      have hx : x ≠ '\n' := by rintro rfl; revert this; decide
      have hn' := code_no_newline (p := w0 ++ str% "mov" ++ ' ' :: (a ++ dst ++ b ++ ',' :: (d ++ n'))) (q := x :: e)
        hn hc (by simp) (by simp)
      intro hmem
      rcases List.mem_append.1 hmem with hmem | hmem
      · exact hn' (by simp [hmem])
      · exact hx (List.mem_singleton.1 hmem).symm

/-- C71: every line that is accepted has a canonical spelling: it is what some statement stands for. -/
theorem C71_complete (bd : Build) (s : Str) (l : Line) (hn : '\n' ∉ s.dropLast) (h : parseLine bd s = .ok l) :
    ∃ st : Stmt, st.Ok ∧ Means st l := by
  cases l with
  | empty => exact ⟨.blank, trivial, rfl⟩
  | sect x => exact ⟨.sect x, trivial, rfl⟩
  | symbol n =>
    obtain ⟨h1, c, k, hc, ht⟩ := (C41_label bd s n).1 h
    refine ⟨.label n, ⟨?_, ?_, h1⟩, rfl⟩
    · intro x hx; exact (ht.ne_nil _ (List.mem_singleton.2 rfl)).2 x (by simp [hx])
    · intro hx; exact hc.1 (tokens_sub ht _ (List.mem_singleton.2 rfl) _ (by simp [hx]))
  | globalSymbol n =>
    obtain ⟨c, hc, ht⟩ := (C41_global bd s n).1 h
    refine ⟨.global n, ⟨(ht.ne_nil _ (by simp)).1, (ht.ne_nil n (by simp)).2, ?_⟩, rfl⟩
    intro hx; exact hc.1 (tokens_sub ht n (by simp) _ hx)
  | data d =>
    obtain ⟨c, w, txt, its, hc, hl, hi, hs⟩ := (C42_data bd s d).1 h
    have key : ∀ p q, c = p ++ txt ++ q → txt ≠ [] → its ≠ [] ∧ ∀ it ∈ its, ItemOk w it := by
      intro p q hcq hne
      refine ⟨?_, ?_⟩
      · rintro rfl
        cases hi; exact hne rfl
      · intro it hit
        cases it with
        | num n => exact stored_num hs n hit
        | str b =>
          obtain ⟨hq, x, y, rfl⟩ := items_sub hi b hit
          refine ⟨hq, ?_, ?_⟩
          · intro hb; exact hc.1 (by simp [hcq, hb])
          · intro hb
            exact code_no_newline (p := p ++ x ++ b) (q := '"' :: y ++ q) hn hc (by rw [hcq]; simp) (by simp)
              (by simp [hb])
    obtain ⟨lab, bs⟩ := d
    cases hl with
    | plain w0 dir w1 txt w2 w hd h0 hn1 h1 hnt hst he h2 =>
      obtain ⟨k1, k2⟩ := key (w0 ++ dir ++ w1) w2 (by simp) hnt
      exact ⟨.data none dir w its, ⟨by simp, hd, k1, k2⟩, bs, rfl, hs⟩
    | labelled w0 l w1 dir w2 txt w3 w hlab hd h0 hn1 h1 hn2 h2 hnt hst he h3 =>
      obtain ⟨k1, k2⟩ := key (w0 ++ l ++ w1 ++ dir ++ w2) w3 (by simp) hnt
      refine ⟨.data (some l) dir w its, ⟨?_, hd, k1, k2⟩, bs, rfl, hs⟩
      intro l' hl'
      cases hl'
      exact ⟨hlab, fun hx => hc.1 (by simp [hx])⟩
  | instruction i =>
    obtain ⟨c, x, hc, hnd, hx, hy⟩ := (C43_instruction_lines bd s i).1 h
    refine ⟨.inst x, ?_, congrArg _ hy⟩
    cases hx with
    | mov64Sym d name hm hk hr => exact ⟨symName_of hn hc hm hk, hr⟩
    | mov32Sym d name hm hk hr => exact ⟨symName_of hn hc hm hk, hr⟩
    | pushU32 op n extra ht hN hge => exact hge
    | _ => exact trivial

/-! ## C71: whole sources -/

/-- `ls` are the lines that the statements `sts` stand for, one for one. -/
def StandFor (sts : List Stmt) (ls : List Line) : Prop :=
  sts.length = ls.length ∧ (∀ st ∈ sts, st.Ok) ∧ ∀ p ∈ sts.zip ls, Means p.1 p.2

theorem StandFor.cons {st : Stmt} {l : Line} {sts : List Stmt} {ls : List Line} :
    StandFor (st :: sts) (l :: ls) ↔ (st.Ok ∧ Means st l) ∧ StandFor sts ls := by
  unfold StandFor
  simp only [List.length_cons, List.mem_cons, List.zip_cons_cons, Nat.add_right_cancel_iff]
  constructor
  · rintro ⟨h1, h2, h3⟩
    exact ⟨⟨h2 _ (.inl rfl), h3 _ (.inl rfl)⟩, h1, fun s hs => h2 s (.inr hs), fun p hp => h3 p (.inr hp)⟩
  · rintro ⟨⟨h1, h2⟩, h3, h4, h5⟩
    refine ⟨h3, ?_, ?_⟩
    · rintro s (rfl | hs)
      · exact h1
      · exact h4 s hs
    · rintro p (rfl | hp)
      · exact h2
      · exact h5 p hp

theorem standFor_parses (bd : Build) : ∀ (sts : List Stmt) (ls : List Line), StandFor sts ls →
    (sts.map fun st => st.render ++ ['\n']).map (parseLine bd) = ls.map Except.ok
  | [], [], _ => rfl
  | [], _ :: _, h => by simp [StandFor] at h
  | _ :: _, [], h => by simp [StandFor] at h
  | st :: sts, l :: ls, h => by
    obtain ⟨⟨h1, h2⟩, h3⟩ := StandFor.cons.1 h
    simp only [List.map_cons, C71_line bd st l h1 h2, standFor_parses bd sts ls h3]

/-- C71: a source written from statements is read, line by line, as those statements. -/
theorem C71_program (bd : Build) (sts : List Stmt) (ls : List Line) (h : StandFor sts ls) :
    Program bd (utf8 (render sts)) ls := by
  refine ⟨_, ?_, readsAll_iff.2 (standFor_parses bd sts ls h)⟩
  have := cut_lines (sts.map Stmt.render) (by
    intro s hs
    obtain ⟨st, hst, rfl⟩ := List.mem_map.1 hs
    exact (render_clean st (h.2.1 st hst)).2)
  simp only [List.flatMap_map, List.map_map] at this
  rw [List.map_map]
  exact this

/-- C71: any list of statements that can be written is a program. -/
theorem C71_any_statements (sts : List Stmt) (h : ∀ st ∈ sts, st.Ok) : ∃ ls, StandFor sts ls := by
  induction sts with
  | nil => exact ⟨[], rfl, by simp, by simp⟩
  | cons st sts ih =>
    obtain ⟨ls, hls⟩ := ih (fun s hs => h s (by simp [hs]))
    obtain ⟨l, hl⟩ := C71_defined st (h st (by simp))
    exact ⟨l :: ls, StandFor.cons.2 ⟨⟨h st (by simp), hl⟩, hls⟩⟩

theorem standFor_of_parses {bd : Build} : ∀ (ss : List Str) (ls : List Line), (∀ s ∈ ss, '\n' ∉ s.dropLast) →
    ss.map (parseLine bd) = ls.map Except.ok → ∃ sts, StandFor sts ls
  | [], [], _, _ => ⟨[], rfl, by simp, by simp⟩
  | [], _ :: _, _, h => by simp at h
  | _ :: _, [], _, h => by simp at h
  | s :: ss, l :: ls, hn, h => by
    simp only [List.map_cons, List.cons.injEq] at h
    obtain ⟨st, h1, h2⟩ := C71_complete bd s l (hn s (by simp)) h.1
    obtain ⟨sts, h3⟩ := standFor_of_parses ss ls (fun s hs => hn s (by simp [hs])) h.2
    exact ⟨st :: sts, StandFor.cons.2 ⟨⟨h1, h2⟩, h3⟩⟩

/-- C71: every source that is read has a canonical form, which both builds read as the same lines. -/
theorem C71_normal_form (bd : Build) (input : Bytes) (ls : List Line) (h : Program bd input ls) :
    ∃ sts, StandFor sts ls ∧ ∀ bd', Program bd' (utf8 (render sts)) ls := by
  obtain ⟨ss, hc, hp⟩ := h
  obtain ⟨sts, hst⟩ := standFor_of_parses ss ls (by
    intro s hs hm
    have hin := hc.inner (utf8 s) (List.mem_map.2 ⟨s, hs, rfl⟩)
    rcases List.eq_nil_or_concat s with rfl | ⟨s', x, rfl⟩
    · simp at hm
    · rw [List.concat_eq_append] at *
      rw [List.dropLast_concat] at hm
      rw [utf8_append, List.dropLast_append_of_ne_nil (by
        rw [utf8_cons]; simp [String.utf8EncodeChar_ne_nil])] at hin
      exact hin (List.mem_append_left _ (newline_mem_utf8.2 hm))) (readsAll_iff.1 hp)
  exact ⟨sts, hst, fun bd' => C71_program bd' sts ls hst⟩

/-- C71 for the assembler: the canonical form of a source gives the same object, in either build. -/
theorem C71_same_object (bd bd' : Build) (chunks : List Bytes) (a : Assembler) (hne : ∀ c ∈ chunks, c ≠ [])
    (ha : Assembler.new.readFrom bd chunks = .ok a) :
    ∃ sts : List Stmt, (∀ st ∈ sts, st.Ok) ∧ ∀ chunks' : List Bytes, (∀ c ∈ chunks', c ≠ []) →
      chunks'.flatten = utf8 (render sts) → (bd' = bd ∨ bd' = .release ∨ (utf8 (render sts)).length < 2 ^ 28) →
      ∃ a', Assembler.new.readFrom bd' chunks' = .ok a' ∧ a'.obj = a.obj := by
  obtain ⟨ss, ls, h1, h2, h3, h4, h5, h6, h7⟩ := readFrom_new hne ha
  obtain ⟨sts, hst, hp⟩ := C71_normal_form bd _ ls ⟨ss, h1, h2⟩
  refine ⟨sts, hst.2.1, fun chunks' hne' hfl hsize => ?_⟩
  have hp' : Program bd' chunks'.flatten ls := by rw [hfl]; exact hp bd'
  obtain ⟨_, hp0, _, hw⟩ := (C74_exact bd chunks hne).1 ⟨a, ha⟩
  cases Program.det ⟨ss, h1, h2⟩ hp0
  have hsm : Within bd' ls := by
    rcases hsize with rfl | rfl | hsize
    · exact hw
    · exact ⟨(by simp), (by simp)⟩
    refine Small.within ?_ bd'
    obtain ⟨ss', hc, hp''⟩ := hp'
    have hz := sizes hc hp''
    have e1 := hz.lines
    have e2 := hz.content
    rw [← hfl] at hsize
    refine ⟨by omega, fun x p hm => ?_⟩
    have := reloc_lt (relocsOk_of hp'') hm
    cases x with
    | text => omega
    | data => omega
    | bss => rw [content_bss ls h3] at this; simp at this
  obtain ⟨a', ha'⟩ := C45_succeeds bd' chunks' ls hne' hp' hsm h3
  obtain ⟨ts, ms', g1, g2, g3, g4, g5, g6, g7⟩ := readFrom_new hne' ha'
  cases Program.det hp' ⟨ts, g1, g2⟩
  exact ⟨a', ha', (ObjOf.same ⟨fun _ => rfl, fun _ => Iff.rfl⟩ ⟨h4, h5, h6, h7⟩ ⟨g4, g5, g6, g7⟩).symm⟩

/-! ## C71: any contents -/

/-- A `db` line for the bytes, if there are any. -/
def dbLine (bs : Bytes) : List Stmt :=
  if bs = [] then [] else [.data none (str% "db") 1 (bs.map fun b => .num b.toNat)]

def dbLines (bs : Bytes) : List Line := if bs = [] then [] else [.data ⟨none, bs⟩]

theorem stored_bytes (bs : Bytes) : Stored 1 (bs.map fun b => .num b.toNat) bs := by
  induction bs with
  | nil => exact .nil
  | cons b bs ih =>
    have := Stored.cons (.num b.toNat) _ [b] bs (w := 1) ⟨rfl, by simp [leVal]⟩ ih
    simpa using this

theorem StandFor.append {a b : List Stmt} {la lb : List Line} (ha : StandFor a la) (hb : StandFor b lb) :
    StandFor (a ++ b) (la ++ lb) := by
  obtain ⟨h1, h2, h3⟩ := ha
  obtain ⟨g1, g2, g3⟩ := hb
  refine ⟨by simp [h1, g1], ?_, ?_⟩
  · intro st hst
    rcases List.mem_append.1 hst with h | h
    · exact h2 st h
    · exact g2 st h
  · intro p hp
    rw [List.zip_append h1] at hp
    rcases List.mem_append.1 hp with h | h
    · exact h3 p h
    · exact g3 p h

theorem standFor_one {st : Stmt} {l : Line} (h : st.Ok) (hm : Means st l) : StandFor [st] [l] :=
  StandFor.cons.2 ⟨⟨h, hm⟩, rfl, by simp, by simp⟩

theorem standFor_db (bs : Bytes) : StandFor (dbLine bs) (dbLines bs) := by
  unfold dbLine dbLines
  split
  · exact ⟨rfl, by simp, by simp⟩
  · rename_i h
    refine standFor_one ⟨by simp, by simp [directives], by simpa using h, ?_⟩ ⟨bs, rfl, stored_bytes bs⟩
    intro it hit
    obtain ⟨b, _, rfl⟩ := List.mem_map.1 hit
    exact b.toNat_lt

/-- A source with the contents `t` of the text section and `d` of the data section. -/
def contentsSource (t d : Bytes) : List Stmt :=
  [.sect .text] ++ dbLine t ++ ([.sect .data] ++ dbLine d)

theorem dbLines_emits (bs : Bytes) : (dbLines bs).flatMap emits = bs := by
  unfold dbLines
  split
  · rename_i h; simp [h]
  · simp [emits]

theorem mem_dbLines {bs : Bytes} {l : Line} (h : l ∈ dbLines bs) : l = .data ⟨none, bs⟩ := by
  unfold dbLines at h
  split at h
  · simp at h
  · simpa using h

theorem contentsLines_small (t d : Bytes) : Small ([.sect .text] ++ dbLines t ++ ([.sect .data] ++ dbLines d)) := by
  have hlen : ∀ bs, (dbLines bs).length ≤ 1 := by intro bs; unfold dbLines; split <;> simp
  refine ⟨?_, ?_⟩
  · have := hlen t
    have := hlen d
    simp only [List.length_append, List.length_cons, List.length_nil]
    omega
  · intro x p hp
    exfalso
    have hnone : ∀ l ∈ [Line.sect .text] ++ dbLines t ++ ([.sect .data] ++ dbLines d), relocates l = none := by
      intro l hl
      simp only [List.mem_append, List.mem_singleton] at hl
      rcases hl with (rfl | hl) | (rfl | hl)
      · rfl
      · rw [mem_dbLines hl]; rfl
      · rfl
      · rw [mem_dbLines hl]; rfl
    unfold relocations at hp
    rw [List.mem_filterMap] at hp
    obtain ⟨k, _, hk⟩ := hp
    unfold relocAt at hk
    split at hk
    · rename_i l hl
      rw [hnone l (List.mem_of_getElem? hl)] at hk
      split at hk <;> simp at hk
    · simp at hk

theorem contentsLines_in (t d : Bytes) :
    linesIn ([.sect .text] ++ dbLines t ++ ([.sect .data] ++ dbLines d)) .text = dbLines t ∧
    linesIn ([.sect .text] ++ dbLines t ++ ([.sect .data] ++ dbLines d)) .data = dbLines d ∧
    linesIn ([.sect .text] ++ dbLines t ++ ([.sect .data] ++ dbLines d)) .bss = [] := by
  unfold dbLines
  split <;> split <;> exact ⟨rfl, rfl, rfl⟩

/-- C71: there are no contents that cannot be written: for all byte strings `t` and `d` there is a
source whose text section is `t` and whose data section is `d`. -/
theorem C71_any_contents (bd : Build) (t d : Bytes) (chunks : List Bytes) (hne : ∀ c ∈ chunks, c ≠ [])
    (hfl : chunks.flatten = utf8 (render (contentsSource t d))) :
    ∃ a, Assembler.new.readFrom bd chunks = .ok a ∧ bytesOf a.obj .text = t ∧ bytesOf a.obj .data = d := by
  have hst : StandFor (contentsSource t d) ([.sect .text] ++ dbLines t ++ ([.sect .data] ++ dbLines d)) :=
    ((standFor_one (st := .sect .text) trivial rfl).append (standFor_db t)).append
      ((standFor_one (st := .sect .data) trivial rfl).append (standFor_db d))
  have hp := C71_program bd _ _ hst
  rw [← hfl] at hp
  have hsmall := contentsLines_small t d
  have hlines := contentsLines_in t d
  have hnb : NoBssContent ([.sect .text] ++ dbLines t ++ ([.sect .data] ++ dbLines d)) := by
    rw [noBss_linesIn, hlines.2.2]
    simp
  obtain ⟨a, ha⟩ := C45_succeeds bd chunks _ hne hp (hsmall.within bd) hnb
  obtain ⟨ls, hp', hb, _⟩ := C45_sections_and_labels bd chunks a hne ha
  cases Program.det hp hp'
  refine ⟨a, ha, ?_, ?_⟩
  · rw [hb, content_linesIn, hlines.1, dbLines_emits]
  · rw [hb, content_linesIn, hlines.2.1, dbLines_emits]

/-! ## Instances -/

/-- A source, and its canonical form. -/
def fancy : List Str :=
  [str% "  section   .data ; here\n", str% "msg  db \"hi, there\" , 0x0a,1\n", str% "\tglobal f\n", str% "section .text\n",
    str% "f::\n", str% "mov  eax ,0x10 + 2\n", str% "  mov rdi, msg ; address\n", str% "push 0x1ff rubbish\n",
    str% "ret"]

def plain : List Stmt :=
  [.sect .data, .data (some (str% "msg")) (str% "db") 1 [.str (str% "hi, there"), .num 10, .num 1],
    .global (str% "f"), .sect .text, .label (str% "f"), .inst (.plain (.movReg32Imm .EAX 18)),
    .inst (.sym64 .RDI (str% "msg")), .inst (.plain (.pushU32 511)), .inst (.plain .ret)]

example : render plain =
    str% "section .data\nmsg db \"hi, there\", 10, 1\nglobal f\nsection .text\nf:\nmov eax, 18\nmov rdi, msg\npush 511\nret\n" := by
  decide +kernel

/-- The two are read as the same lines. -/
example : fancy.map (parseLine .debug) = (plain.map fun st => st.render ++ ['\n']).map (parseLine .debug) ∧
    (fancy.map (parseLine .debug)).all (fun r => match r with | .ok _ => true | _ => false) = true := by
  decide +kernel

example : Program .debug (utf8 fancy.flatten) (readAs fancy) :=
  ⟨fancy, ⟨by decide +kernel, by decide +kernel, by decide +kernel, by decide +kernel⟩, by decide +kernel⟩

example : render (contentsSource [0x90, 0xc3] [255]) =
    str% "section .text\ndb 144, 195\nsection .data\ndb 255\n" := by decide +kernel

end AT.Props
