import Verif.Proofs.AsmInst
import Verif.Props.X64
import Verif.Props.AsmData
import Verif.Props.AsmLine
/-!
# Properties of instruction lines (C43, C44, C56, C57)
-/

namespace AT.Props
open AT.Asm AT.AsmSpec AT.X64
open X86 (Width num64 num32 num16 OperandsOk)

/-! ## When a line is not a data line -/

/-- `c` has the form of a data line. -/
def IsData (c : Str) : Prop := ∃ lab w txt, DataLine c lab w txt

theorem tokens_glue {w l y : Str} (hw : Blank w) (hl : l ≠ []) (hs : Solid l) :
    ∃ z ts, Tokens (w ++ l ++ y) ((l ++ z) :: ts) := by
  obtain ⟨ts, ht⟩ := tokens_exists (y.dropWhile (fun c => !isWs c))
  refine ⟨y.takeWhile (fun c => !isWs c), ts, ?_⟩
  have hsolid : Solid (l ++ y.takeWhile (fun c => !isWs c)) := by
    intro c hc
    rcases List.mem_append.1 hc with hc | hc
    · exact hs c hc
    · have := List.all_eq_true.1 (List.all_takeWhile (p := fun c => !isWs c) (l := y)) c hc
      simpa using this
  have := Tokens.cons w (l ++ y.takeWhile (fun c => !isWs c)) (y.dropWhile (fun c => !isWs c)) ts hw
    (by simp [hl]) hsolid (broken_dropWhile y) ht
  have e : w ++ (l ++ y.takeWhile (fun c => !isWs c)) ++ y.dropWhile (fun c => !isWs c) = w ++ l ++ y := by
    rw [List.append_assoc, List.append_assoc, List.takeWhile_append_dropWhile, ← List.append_assoc]
  rw [e] at this
  exact this

/-- One of the first two tokens of a data line is its directive. -/
theorem data_tokens {c : Str} (h : IsData c) : ∃ t u ts, Tokens c (t :: u :: ts) ∧
    ((∃ w, (t, w) ∈ directives) ∨ ∃ w, (u, w) ∈ directives) := by
  obtain ⟨lab, w, txt, h⟩ := h
  cases h with
  | plain w0 dir w1 txt w2 w hd h0 hn1 h1 hnt hs he h2 =>
    obtain ⟨hdn, hds⟩ := solid_directive hd
    obtain ⟨x, txt', rfl⟩ : ∃ x txt', txt = x :: txt' := by
      cases txt with
      | nil => exact absurd rfl hnt
      | cons x txt' => exact ⟨x, txt', rfl⟩
    obtain ⟨z, ts, ht⟩ := tokens_glue (w := w1) (l := [x]) (y := txt' ++ w2) h1 (by simp)
      (by intro c hc; rw [List.mem_singleton.1 hc]; exact hs x txt' rfl)
    refine ⟨dir, [x] ++ z, ts, ?_, .inl ⟨w, hd⟩⟩
    have := Tokens.cons w0 dir _ _ h0 hdn hds ?_ ht
    · simpa using this
    · intro c q hq
      cases w1 with
      | nil => exact absurd rfl hn1
      | cons y w1 =>
        simp only [List.cons_append, List.cons.injEq] at hq
        rw [← hq.1]; exact h1 y (by simp)
  | labelled w0 l w1 dir w2 txt w3 w hl hd h0 hn1 h1 hn2 h2 hnt hs he h3 =>
    obtain ⟨hdn, hds⟩ := solid_directive hd
    obtain ⟨hln, hls, _⟩ := hl
    obtain ⟨ts, ht⟩ := tokens_cons_of (r := txt ++ w3) h1 hdn hds hn2 h2
    refine ⟨l, dir, ts, ?_, .inr ⟨w, hd⟩⟩
    have := Tokens.cons w0 l _ _ h0 hln hls ?_ ht
    · simpa using this
    · intro c q hq
      cases w1 with
      | nil => exact absurd rfl hn1
      | cons y w1 =>
        simp only [List.cons_append, List.cons.injEq] at hq
        rw [← hq.1]; exact h1 y (by simp)

theorem notData_of {c t : Str} {us : List Str} (ht : Tokens c (t :: us))
    (h1 : ∀ w, (t, w) ∉ directives) (h2 : ∀ u ts, us = u :: ts → ∀ w, (u, w) ∉ directives) :
    ¬ IsData c := by
  intro h
  obtain ⟨t', u, ts, ht', hd⟩ := data_tokens h
  have := ht.det ht'
  simp only [List.cons.injEq] at this
  obtain ⟨rfl, rfl⟩ := this
  rcases hd with ⟨w, hw⟩ | ⟨w, hw⟩
  · exact h1 w hw
  · exact h2 u ts rfl w hw

theorem not_directive_mov (w : Nat) : (str% "mov", w) ∉ directives := by simp [directives]
theorem not_directive_push (w : Nat) : (str% "push", w) ∉ directives := by simp [directives]
theorem not_directive_ret (w : Nat) : (str% "ret", w) ∉ directives := by simp [directives]
theorem not_directive_syscall (w : Nat) : (str% "syscall", w) ∉ directives := by simp [directives]

/-- A mov line whose destination is at least two solid characters that start no directive. -/
theorem mov_notData {c dst src : Str} (h : MovLine c dst src) (hne : dst ≠ []) (hs : Solid dst)
    (hd : ∀ z w, (dst ++ z, w) ∉ directives) : ¬ IsData c := by
  obtain ⟨w0, a, b, d, e, h0, ha, hb, hd', he, hc, hs1, he1, hs2, he2, rfl⟩ := h
  obtain ⟨z, ts, ht⟩ := tokens_glue (w := ' ' :: a) (l := dst) (y := b ++ ',' :: (d ++ src ++ e))
    (by
      intro x hx
      rcases List.mem_cons.1 hx with rfl | hx
      · decide
      · exact ha x hx) hne hs
  have : Tokens (w0 ++ str% "mov" ++ ' ' :: (a ++ dst ++ b ++ ',' :: (d ++ src ++ e)))
      (str% "mov" :: (dst ++ z) :: ts) := by
    have := Tokens.cons w0 (str% "mov") _ _ h0 (by simp) (by simp [Solid]; decide) ?_ ht
    · simpa using this
    · intro c q hq
      simp only [List.cons_append, List.cons.injEq] at hq
      rw [← hq.1]; decide
  refine notData_of this not_directive_mov ?_
  intro u us hu
  simp only [List.cons.injEq] at hu
  rw [← hu.1]
  exact hd z

theorem reg64_not_directive (r : Reg64) : ∀ z w, (r.asmName ++ z, w) ∉ directives := by
  intro z w; cases r <;> simp [directives, Reg64.asmName, X86.names64, X86.num64]
theorem reg32_not_directive (r : Reg32) : ∀ z w, (r.asmName ++ z, w) ∉ directives := by
  intro z w; cases r <;> simp [directives, Reg32.asmName, X86.names32, X86.num32]
theorem reg16_not_directive (r : Reg16) : ∀ z w, (r.asmName ++ z, w) ∉ directives := by
  intro z w; cases r <;> simp [directives, Reg16.asmName, X86.names16, X86.num16]

theorem reg64_solid (r : Reg64) : r.asmName ≠ [] ∧ Solid r.asmName := by
  cases r <;> simp [Reg64.asmName, X86.names64, X86.num64, Solid] <;> decide
theorem reg32_solid (r : Reg32) : r.asmName ≠ [] ∧ Solid r.asmName := by
  cases r <;> simp [Reg32.asmName, X86.names32, X86.num32, Solid] <;> decide
theorem reg16_solid (r : Reg16) : r.asmName ≠ [] ∧ Solid r.asmName := by
  cases r <;> simp [Reg16.asmName, X86.names16, X86.num16, Solid] <;> decide

theorem mov64_notData {c src : Str} {d : Reg64} (h : MovLine c d.asmName src) : ¬ IsData c :=
  mov_notData h (reg64_solid d).1 (reg64_solid d).2 (reg64_not_directive d)
theorem mov32_notData {c src : Str} {d : Reg32} (h : MovLine c d.asmName src) : ¬ IsData c :=
  mov_notData h (reg32_solid d).1 (reg32_solid d).2 (reg32_not_directive d)
theorem mov16_notData {c src : Str} {d : Reg16} (h : MovLine c d.asmName src) : ¬ IsData c :=
  mov_notData h (reg16_solid d).1 (reg16_solid d).2 (reg16_not_directive d)

theorem number_not_directive {s : Str} {n : Nat} (h : Number s n) : ∀ w, (s, w) ∉ directives := by
  intro w hw
  have hne : ∀ t : Str, tryParseNum (n + 1) t = none → s ≠ t := by
    rintro t ht rfl
    rw [tryParseNum_some (Nat.lt_succ_self n) h] at ht; simp at ht
  have hstart : ∀ c r, s = c :: r → c ≠ 'd' := by
    rintro c r rfl rfl
    rcases h with h | h
    · generalize hq : 'd' :: r = q at h
      cases h with
      | dec _ _ h => subst hq; have := (digits_chars h).2 'd' (by simp); simp [decDigit] at this
      | hex => simp at hq
    · generalize hq : 'd' :: r = q at h
      cases h with
      | plusDec => simp at hq
      | plusHex => simp [zeroXs] at hq
      | again => simp [zeroXs] at hq
  simp only [directives, List.mem_cons, Prod.mk.injEq, List.not_mem_nil, or_false] at hw
  rcases hw with ⟨h, _⟩ | ⟨h, _⟩ | ⟨h, _⟩ | ⟨h, _⟩ <;> exact hstart _ _ h rfl

/-! ## The whole line -/

theorem splitParts_none {c t : Str} {ts : List Str} (ht : Tokens c (t :: ts)) (h1 : t ≠ str% "section")
    (h2 : t ≠ str% "global") (h3 : endsWithChar ':' t = false) : splitParts c = none ↔ ¬ IsData c := by
  constructor
  · rintro h ⟨lab, w, txt, hl⟩
    obtain ⟨a, _, hp⟩ := parts_of_line hl
    rw [h] at hp; simp at hp
  · intro h
    cases hp : splitParts c with
    | none => rfl
    | some p =>
      obtain ⟨lab, a, txt⟩ := p
      exact absurd ⟨lab, _, txt, line_of_parts ht h1 h2 h3 hp⟩ h

/-- The first token of an instruction line. -/
theorem inst_first {bd : Build} {c : Str} {x : SrcInst} (h : InstLine bd c x) :
    ∃ t ts, Tokens c (t :: ts) ∧ t ≠ str% "section" ∧ t ≠ str% "global" ∧ endsWithChar ':' t = false := by
  have hm : ∀ {dst src : Str}, MovLine c dst src → ∃ t ts, Tokens c (t :: ts) ∧ t ≠ str% "section" ∧
      t ≠ str% "global" ∧ endsWithChar ':' t = false := by
    intro dst src h
    obtain ⟨ts, ht⟩ := mov_tokens h
    exact ⟨_, ts, ht, by decide, by decide, by decide⟩
  cases h
  all_goals first
    | exact hm ‹MovLine _ _ _›
    | exact ⟨_, _, ‹Tokens _ _›, by decide, by decide, by decide⟩

/-- Exactly which lines are instructions. -/
theorem inst_lines (bd : Build) (s : Str) (i : Instruction) :
    parseLine bd s = .ok (.instruction i) ↔
      ∃ c x, Code s c ∧ ¬ IsData c ∧ InstLine bd c x ∧ Yields x i := by
  constructor
  · intro h
    have hc := code_strip s
    rw [parseLine_eq] at h
    obtain ⟨ts, ht⟩ := tokens_exists (stripComment s)
    have hts := splitWs_of_tokens ht
    cases ts with
    | nil => rw [code_nil hts] at h; simp at h
    | cons t args =>
      by_cases h1 : t = str% "section"
      · subst h1
        by_cases hx : ∃ x, args = [sectName x]
        · obtain ⟨x, hx⟩ := hx
          rw [(code_section hts).1 x hx] at h; simp at h
        · obtain ⟨msg, he⟩ := (code_section (bd := bd) hts).2 (fun x hx' => hx ⟨x, hx'⟩)
          rw [he] at h; simp at h
      by_cases h2 : t = str% "global"
      · subst h2
        by_cases hx : ∃ n, args = [n]
        · obtain ⟨n, hx⟩ := hx
          rw [(code_global hts).1 n hx] at h; simp at h
        · obtain ⟨msg, he⟩ := (code_global (bd := bd) hts).2 (fun x hx' => hx ⟨x, hx'⟩)
          rw [he] at h; simp at h
      cases h3 : endsWithChar ':' t with
      | true =>
        rw [code_label hts h3] at h
        split at h <;> simp [perr] at h
      | false =>
        rw [code_body hts h1 h2 h3] at h
        rcases body_kinds h with ⟨d', hd, hpd⟩ | ⟨i', hi, hnd, hpi⟩
        · simp at hd
        · cases hi
          obtain ⟨x, hx, hy⟩ := (inst_iff bd _ i).1 hpi
          refine ⟨_, x, hc, ?_, hx, hy⟩
          rw [← splitParts_none ht h1 h2 h3]
          cases hp : splitParts (stripComment s) with
          | none => rfl
          | some p =>
            obtain ⟨lab, a, txt⟩ := p
            unfold tryParseData at hnd
            rw [hp] at hnd
            simp only at hnd
            cases hl : dataLoop a txt.length txt <;> rw [hl] at hnd <;>
              simp [bind, Except.bind, pure, Except.pure] at hnd
  · rintro ⟨c, x, hc, hnd, hx, hy⟩
    obtain ⟨t, ts, ht, h1, h2, h3⟩ := inst_first hx
    have hts := splitWs_of_tokens ht
    rw [parseLine_eq, stripComment_eq hc, code_body hts h1 h2 h3]
    unfold parseBody tryParseData
    rw [(splitParts_none ht h1 h2 h3).2 hnd, (inst_iff bd c i).2 ⟨x, hx, hy⟩]
    rfl

/-! ## C43 -/

/-- The line is accepted as an instruction without relocation, and whatever bytes follow, the
processor reads exactly `ci`. -/
def LineIs (bd : Build) (s : Str) (ci : X86.Inst) : Prop :=
  ∃ i, parseLine bd s = .ok (.instruction i) ∧ i.reloc = none ∧
    ∀ rest, X86.decode (i.bytes.asRef ++ rest) = some (ci, rest)

theorem lineIs_of {bd : Build} {s c : Str} {x : Inst} {ci : X86.Inst} (hc : Code s c) (hnd : ¬ IsData c)
    (hx : InstLine bd c (.plain x)) (he : EncodesAs x ci) : LineIs bd s ci := by
  obtain ⟨bs, ⟨b, hb, rfl⟩, hdec⟩ := he
  exact ⟨⟨b, none⟩, (inst_lines bd s _).2 ⟨c, _, hc, hnd, hx, hb, rfl⟩, rfl, hdec⟩

/-- C43, registers: `mov d, r` with registers of one width is that move. -/
theorem C43_mov_reg (bd : Build) (s c : Str) (hc : Code s c) :
    (∀ d r : Reg64, MovLine c d.asmName r.asmName → LineIs bd s (.movRegReg .w64 (num64 d) (num64 r))) ∧
    (∀ d r : Reg32, MovLine c d.asmName r.asmName → LineIs bd s (.movRegReg .w32 (num32 d) (num32 r))) ∧
    (∀ d r : Reg16, MovLine c d.asmName r.asmName → LineIs bd s (.movRegReg .w16 (num16 d) (num16 r))) :=
  ⟨fun d r h => lineIs_of hc (mov64_notData h) (.mov64Reg d r h) (C01_mov_reg_reg.2.2 d r),
   fun d r h => lineIs_of hc (mov32_notData h) (.mov32Reg d r h) (C01_mov_reg_reg.2.1 d r),
   fun d r h => lineIs_of hc (mov16_notData h) (.mov16Reg d r h) (C01_mov_reg_reg.1 d r)⟩

/-- C43, constants: `mov d, x` with a constant that fits is the move of that constant. -/
theorem C43_mov_const (bd : Build) (s c src : Str) (n : UInt64) (hc : Code s c) (hn : Const bd src n) :
    (∀ d : Reg64, MovLine c d.asmName src → LineIs bd s (.movRegImm .w64 (num64 d) n.toNat)) ∧
    (∀ d : Reg32, MovLine c d.asmName src → n.toNat < 2 ^ 32 →
      LineIs bd s (.movRegImm .w32 (num32 d) n.toNat)) ∧
    (∀ d : Reg16, MovLine c d.asmName src → n.toNat < 2 ^ 16 →
      LineIs bd s (.movRegImm .w16 (num16 d) n.toNat)) := by
  refine ⟨fun d h => lineIs_of hc (mov64_notData h) (.mov64Const d src n h hn) (C02_mov_reg_imm.2.2 d n),
    fun d h hlt => ?_, fun d h hlt => ?_⟩
  · have he : (UInt32.ofNat n.toNat).toNat = n.toNat := by
      rw [UInt32.toNat_ofNat', Nat.mod_eq_of_lt hlt]
    have := C02_mov_reg_imm.2.1 d (UInt32.ofNat n.toNat)
    rw [he] at this
    exact lineIs_of hc (mov32_notData h) (.mov32Const d src n _ h hn he) this
  · have he : (UInt16.ofNat n.toNat).toNat = n.toNat := by
      rw [UInt16.toNat_ofNat', Nat.mod_eq_of_lt hlt]
    have := C02_mov_reg_imm.1 d (UInt16.ofNat n.toNat)
    rw [he] at this
    exact lineIs_of hc (mov16_notData h) (.mov16Const d src n _ h hn he) this

/-- The line is accepted as an instruction with an absolute relocation of the `2^len` bytes at
offset `off` for the symbol `name`; those bytes are the last of the instruction and zero; with any
value `v` of that size stored there, the processor reads `ci v`. -/
def LineIsReloc (bd : Build) (s name : Str) (len : UInt8) (ci : Nat → X86.Inst) : Prop :=
  ∃ i off, parseLine bd s = .ok (.instruction i) ∧ i.reloc = some ⟨off, name, false, len⟩ ∧
    i.bytes.asRef.drop off.toNat = List.replicate (2 ^ len.toNat) 0 ∧
    ∀ v, v < 256 ^ 2 ^ len.toNat → ∀ rest,
      X86.decode (patch i.bytes.asRef off.toNat (2 ^ len.toNat) v ++ rest) = some (ci v, rest)

/-- C43, symbols: `mov d, name` is a move of zero with an absolute relocation of the immediate. -/
theorem C43_mov_sym (bd : Build) (s c name : Str) (hc : Code s c) (hn : NotConst name) :
    (∀ d : Reg64, MovLine c d.asmName name → (∀ r : Reg64, name ≠ r.asmName) →
      LineIsReloc bd s name 3 (.movRegImm .w64 (num64 d))) ∧
    (∀ d : Reg32, MovLine c d.asmName name → (∀ r : Reg32, name ≠ r.asmName) →
      LineIsReloc bd s name 2 (.movRegImm .w32 (num32 d))) := by
  constructor
  · intro d h hr
    obtain ⟨bs, ⟨b, hb, rfl⟩, hz, _⟩ := C09_offset_64 d 0 0
    refine ⟨⟨b, some ⟨movReg64ImmOffset d, name, false, 3⟩⟩, _,
      (inst_lines bd s _).2 ⟨c, _, hc, mov64_notData h, .mov64Sym d name h hn hr, hb, rfl⟩, rfl, ?_, ?_⟩
    · rw [hz]; rfl
    · intro v hv rest
      have hv' : v < 2 ^ 64 := by
        have e : (256 : Nat) ^ 2 ^ (3 : UInt8).toNat = 2 ^ 64 := by decide
        omega
      obtain ⟨bs', hb', hz', henc⟩ := C09_offset_64 d 0 (UInt64.ofNat v)
      cases Encodes.unique hb' ⟨b, hb, rfl⟩
      obtain ⟨bs2, hb2, hdec⟩ := C02_mov_reg_imm.2.2 d (UInt64.ofNat v)
      rw [Encodes.unique hb2 henc] at hdec
      rw [UInt64.toNat_ofNat', Nat.mod_eq_of_lt hv'] at hdec
      exact hdec rest
  · intro d h hr
    obtain ⟨bs, ⟨b, hb, rfl⟩, hz, _⟩ := C09_offset_32 d 0 0
    refine ⟨⟨b, some ⟨movReg32ImmOffset d, name, false, 2⟩⟩, _,
      (inst_lines bd s _).2 ⟨c, _, hc, mov32_notData h, .mov32Sym d name h hn hr, hb, rfl⟩, rfl, ?_, ?_⟩
    · rw [hz]; rfl
    · intro v hv rest
      have hv' : v < 2 ^ 32 := by
        have e : (256 : Nat) ^ 2 ^ (2 : UInt8).toNat = 2 ^ 32 := by decide
        omega
      obtain ⟨bs', hb', hz', henc⟩ := C09_offset_32 d 0 (UInt32.ofNat v)
      cases Encodes.unique hb' ⟨b, hb, rfl⟩
      obtain ⟨bs2, hb2, hdec⟩ := C02_mov_reg_imm.2.1 d (UInt32.ofNat v)
      rw [Encodes.unique hb2 henc] at hdec
      rw [UInt32.toNat_ofNat', Nat.mod_eq_of_lt hv'] at hdec
      exact hdec rest

theorem mov_line_eq {bd : Build} {s c dst src : Str} (hc : Code s c) (h : MovLine c dst src)
    (hnd : ¬ IsData c) : parseLine bd s = (movArgs bd dst src >>= fun i => pure (.instruction i)) := by
  obtain ⟨ts, ht⟩ := mov_tokens h
  have hts := splitWs_of_tokens ht
  rw [parseLine_eq, stripComment_eq hc, code_body hts (by decide) (by decide) (by decide)]
  unfold parseBody tryParseData
  rw [(splitParts_none ht (by decide) (by decide) (by decide)).2 hnd]
  unfold tryParseInstruction
  rw [hts]
  simp only [if_true, parseMov_eq h]
  cases movArgs bd dst src <;> rfl

/-- C43, errors: a constant too large for the register, a symbol or another register's name as
source of a 16-bit move, and a destination that is no register are reported. -/
theorem C43_errors (bd : Build) (s c dst src : Str) (hc : Code s c) (h : MovLine c dst src) :
    (∀ (d : Reg32) n, dst = d.asmName → Const bd src n → 2 ^ 32 ≤ n.toNat →
      ∃ msg, parseLine bd s = .error (.parseErr msg)) ∧
    (∀ (d : Reg16) n, dst = d.asmName → Const bd src n → 2 ^ 16 ≤ n.toNat →
      ∃ msg, parseLine bd s = .error (.parseErr msg)) ∧
    (∀ d : Reg16, dst = d.asmName → NotConst src → (∀ r : Reg16, src ≠ r.asmName) →
      ∃ msg, parseLine bd s = .error (.parseErr msg)) ∧
    ((∀ r : Reg64, dst ≠ r.asmName) → (∀ r : Reg32, dst ≠ r.asmName) → (∀ r : Reg16, dst ≠ r.asmName) →
      ¬ IsData c → ∃ msg, parseLine bd s = .error (.parseErr msg)) := by
  refine ⟨?_, ?_, ?_, ?_⟩
  · rintro d n rfl hn hle
    rw [mov_line_eq hc h (mov32_notData h), movArgs_32]
    have hu : exprAsU32 n = none := by rw [exprAsU32, if_neg (by omega)]
    unfold parseMov32
    rw [(const_iff bd src n).2 hn]
    simp only [bind, Except.bind, hu]
    exact ⟨_, rfl⟩
  · rintro d n rfl hn hle
    rw [mov_line_eq hc h (mov16_notData h), movArgs_16]
    have hu : exprAsU16 n = none := by rw [exprAsU16, if_neg (by omega)]
    unfold parseMov16
    rw [(const_iff bd src n).2 hn]
    simp only [bind, Except.bind, hu]
    exact ⟨_, rfl⟩
  · rintro d rfl hn hr
    rw [mov_line_eq hc h (mov16_notData h), movArgs_16]
    unfold parseMov16
    rw [(notConst_iff bd src).2 hn]
    simp only [bind, Except.bind, reg16_none.2 hr]
    exact ⟨_, rfl⟩
  · intro h1 h2 h3 hnd
    rw [mov_line_eq hc h hnd]
    simp only [movArgs, reg64_none.2 h1, reg32_none.2 h2, reg16_none.2 h3]
    exact ⟨_, rfl⟩

/-- The blank after the mnemonic must be a space: with a tab the line is rejected. -/
theorem C43_tab_counterexample :
    parseLine .release (str% "mov\trax, rbx") =
      .error (.parseErr (str% "not mov opcode")) ∧
    (parseLine .release (str% "mov \trax, rbx")).isOk = true := by
  constructor <;> decide +kernel

theorem mov_sample (a b d e : Str) (ha : Blank a) (hb : Blank b) (hd : Blank d) (he : Blank e) :
    MovLine (str% "mov" ++ ' ' :: (a ++ str% "r9" ++ b ++ ',' :: (d ++ str% "msg" ++ e))) (str% "r9") (str% "msg") :=
  ⟨[], a, b, d, e, Blank.nil, ha, hb, hd, he, by decide, Solid.starts (by simp [Solid]; decide),
    Solid.ends (by simp [Solid]; decide), Solid.starts (by simp [Solid]; decide),
    Solid.ends (by simp [Solid]; decide), by simp⟩

example : (∀ r : Reg64, str% "msg" ≠ r.asmName) ∧ NotConst (str% "msg") :=
  ⟨fun r => by cases r <;> decide, (notConst_iff .debug _).1 (by decide +kernel)⟩

example : parseLine .debug (str% "  mov  r9 ,msg ; x\n") = .ok (.instruction
    ⟨⟨[0x49, 0xB9, 0, 0, 0, 0, 0, 0, 0, 0, 0, 0, 0, 0, 0], 10⟩, some ⟨2, str% "msg", false, 3⟩⟩) := by
  decide +kernel

/-! ## C44 -/

theorem push_notData {c op : Str} {extra : List Str} (ht : Tokens c (str% "push" :: op :: extra))
    (h : ∀ w, (op, w) ∉ directives) : ¬ IsData c :=
  notData_of ht not_directive_push (fun u ts hu => by
    simp only [List.cons.injEq] at hu
    rw [← hu.1]; exact h)

theorem single_notData {c t : Str} (ht : Tokens c [t]) : ¬ IsData c := by
  intro h
  obtain ⟨t', u, ts, ht', _⟩ := data_tokens h
  have := ht.det ht'
  simp at this

/-- C44: `push r64`, `push n`, `ret` and `syscall` lines are those instructions.  A constant below
256 is pushed as a sign-extended byte, a larger one as a sign-extended 32-bit word. -/
theorem C44_lines (bd : Build) (s c : Str) (hc : Code s c) :
    (∀ r : Reg64, Tokens c [str% "push", r.asmName] → LineIs bd s (.pushReg .w64 (num64 r))) ∧
    (∀ op n, Tokens c [str% "push", op] → Number op n → n < 256 →
      LineIs bd s (.pushImm .w64 (X86.signed 8 n))) ∧
    (∀ op n, Tokens c [str% "push", op] → Number op n → 256 ≤ n → n < 2 ^ 32 →
      LineIs bd s (.pushImm .w64 (X86.signed 32 n))) ∧
    (Tokens c [str% "ret"] → LineIs bd s .ret) ∧
    (Tokens c [str% "syscall"] → LineIs bd s .syscall) := by
  refine ⟨fun r ht => ?_, fun op n ht hN hn => ?_, fun op n ht hN hle hn => ?_, fun ht => ?_, fun ht => ?_⟩
  · refine lineIs_of hc (push_notData ht ?_) (.pushReg r [] ht) (encodesAs_of (.pushReg64 r) trivial)
    intro w
    have := reg64_not_directive r [] w
    simpa using this
  · have he : (UInt8.ofNat n).toNat = n := by rw [UInt8.toNat_ofNat', Nat.mod_eq_of_lt hn]
    have := encodesAs_of (.pushU8 (UInt8.ofNat n)) trivial
    rw [cpuInst, he] at this
    exact lineIs_of hc (push_notData ht (number_not_directive hN))
      (.pushU8 op (UInt8.ofNat n) [] ht (by rw [he]; exact hN)) this
  · have he : (UInt32.ofNat n).toNat = n := by rw [UInt32.toNat_ofNat', Nat.mod_eq_of_lt hn]
    have := encodesAs_of (.pushU32 (UInt32.ofNat n)) trivial
    rw [cpuInst, he] at this
    exact lineIs_of hc (push_notData ht (number_not_directive hN))
      (.pushU32 op (UInt32.ofNat n) [] ht (by rw [he]; exact hN) (by rw [he]; exact hle)) this
  · exact lineIs_of hc (single_notData ht) (.ret [] ht) (encodesAs_of .ret trivial)
  · exact lineIs_of hc (single_notData ht) (.syscall [] ht) (encodesAs_of .syscall trivial)

/-- Executing the instruction of the line pushes the 64-bit word `n`. -/
def LinePushes (bd : Build) (s : Str) (n : Nat) : Prop :=
  ∃ x i, parseLine bd s = .ok (.instruction i) ∧ Encodes x i.bytes.asRef ∧ Pushes x .w64 n

/-- C44: the number pushed by `push n` is `n` exactly when `n < 128` or `256 ≤ n < 2^31`. -/
theorem C44_push_value (bd : Build) (s c op : Str) (n : Nat) (hc : Code s c)
    (ht : Tokens c [str% "push", op]) (hN : Number op n) (hn : n < 2 ^ 32) :
    LinePushes bd s n ↔ n < 128 ∨ (256 ≤ n ∧ n < 2 ^ 31) := by
  have hnd : ¬ IsData c := push_notData ht (number_not_directive hN)
  have key : ∀ x : Inst, InstLine bd c (.plain x) → OperandsOk x →
      (LinePushes bd s n ↔ Pushes x .w64 n) := by
    intro x hx hok
    obtain ⟨bs, ⟨b, hb, rfl⟩, _⟩ := encodesAs_of x hok
    have hp := (inst_lines bd s ⟨b, none⟩).2 ⟨c, _, hc, hnd, hx, hb, rfl⟩
    constructor
    · rintro ⟨y, i, hi, hy, hpush⟩
      rw [hp] at hi
      cases hi
      obtain ⟨bs, ci, he, hdec, hex⟩ := hpush
      cases Encodes.unique he hy
      exact ⟨_, ci, ⟨b, hb, rfl⟩, hdec, hex⟩
    · intro h
      exact ⟨x, _, hp, ⟨b, hb, rfl⟩, h⟩
  by_cases h256 : n < 256
  · have he : (UInt8.ofNat n).toNat = n := by rw [UInt8.toNat_ofNat', Nat.mod_eq_of_lt h256]
    rw [key (.pushU8 (UInt8.ofNat n)) (.pushU8 op (UInt8.ofNat n) [] ht (by rw [he]; exact hN)) trivial]
    have := C04_push_u8_iff (UInt8.ofNat n)
    rw [he] at this
    rw [this]; omega
  · have he : (UInt32.ofNat n).toNat = n := by rw [UInt32.toNat_ofNat', Nat.mod_eq_of_lt hn]
    rw [key (.pushU32 (UInt32.ofNat n))
      (.pushU32 op (UInt32.ofNat n) [] ht (by rw [he]; exact hN) (by rw [he]; omega)) trivial]
    have := C04_push_u32_iff (UInt32.ofNat n)
    rw [he] at this
    rw [this]; omega

/-- C44, errors: `push` without operand, or with one that is neither a 64-bit register nor a number
below 2^32, is reported. -/
theorem C44_errors (bd : Build) (s c : Str) (hc : Code s c) :
    (Tokens c [str% "push"] → ∃ msg, parseLine bd s = .error (.parseErr msg)) ∧
    (∀ op extra, Tokens c (str% "push" :: op :: extra) → (∀ w, (op, w) ∉ directives) →
      (∀ r : Reg64, op ≠ r.asmName) → (∀ n, Number op n → 2 ^ 32 ≤ n) →
      ∃ msg, parseLine bd s = .error (.parseErr msg)) := by
  have key : ∀ ts, Tokens c (str% "push" :: ts) → ¬ IsData c →
      parseLine bd s = (parsePush c >>= fun i => pure (.instruction i)) := by
    intro ts ht hnd
    have hts := splitWs_of_tokens ht
    rw [parseLine_eq, stripComment_eq hc, code_body hts (by decide) (by decide) (by decide)]
    unfold parseBody tryParseData
    rw [(splitParts_none ht (by decide) (by decide) (by decide)).2 hnd]
    unfold tryParseInstruction
    rw [hts]
    simp only [if_true, show ¬ str% "push" = str% "mov" by decide, if_false]
    cases parsePush c <;> rfl
  constructor
  · intro ht
    rw [key [] ht (single_notData ht)]
    unfold parsePush
    rw [splitWs_of_tokens ht]
    exact ⟨_, rfl⟩
  · intro op extra ht hd hr hN
    rw [key _ ht (push_notData ht hd)]
    have h8 : tryParseU8 op = none := by
      cases h : tryParseU8 op with
      | none => rfl
      | some n =>
        have := hN _ ((tryParseU8_iff op n).1 h)
        have := n.toNat_lt
        omega
    have h32 : tryParseU32 op = none := by
      cases h : tryParseU32 op with
      | none => rfl
      | some n =>
        have := hN _ ((tryParseU32_iff op n).1 h)
        have := n.toNat_lt
        omega
    unfold parsePush
    rw [splitWs_of_tokens ht]
    simp only [ne_eq, not_true_eq_false, if_false, reg64_none.2 hr, h8, h32]
    exact ⟨_, rfl⟩

/-- `push 200` pushes `2^64 - 56`, not 200. -/
theorem C44_push_200_counterexample (bd : Build) : ¬ LinePushes bd (str% "push 200") 200 := by
  have hN : Number (str% "200") 200 :=
    ((tryParseNum_iff (bound := 512) (by decide) (str% "200") 200).1 (by decide +kernel)).2
  have ht : Tokens (str% "push 200") [str% "push", str% "200"] := splitWs_iff.1 (by decide)
  rw [C44_push_value bd _ _ _ 200 ⟨by decide, .inl rfl⟩ ht hN (by decide)]
  decide

example : parseLine .debug (str% "push 0x1000") =
      .ok (.instruction ⟨⟨[0x68, 0, 0x10, 0, 0, 0, 0, 0, 0, 0, 0, 0, 0, 0, 0], 5⟩, none⟩) ∧
    parseLine .debug (str% "push eax") = .error (.parseErr (str% "error: invalid push operand : eax")) := by
  constructor <;> decide +kernel

/-! ## C56 -/

/-- The tokens of the line, its comment removed. -/
def LineTokens (s : Str) (ts : List Str) : Prop := ∃ c, Code s c ∧ Tokens c ts

/-- C56 is false of the code: text after the operand of `push`, after `ret` and `syscall`, and after
the third token of a sum is accepted and has no effect. -/
theorem C56_counterexample (bd : Build) :
    (∃ l, parseLine bd (str% "ret foo") = .ok l ∧ parseLine bd (str% "ret") = .ok l) ∧
    (∃ l, parseLine bd (str% "push rax, rbx") = .error (.parseErr l)) ∧
    (∃ l, parseLine bd (str% "push rax rbx") = .ok l ∧ parseLine bd (str% "push rax") = .ok l) ∧
    (∃ l, parseLine bd (str% "syscall 4") = .ok l ∧ parseLine bd (str% "syscall") = .ok l) ∧
    (∃ l, parseLine bd (str% "mov rax, 1 + 2 + 3") = .ok l ∧
      parseLine bd (str% "mov rax, 3") = .ok l) := by
  cases bd <;>
  · refine ⟨⟨_, rfl, by decide +kernel⟩, ⟨_, rfl⟩, ⟨_, rfl, by decide +kernel⟩,
      ⟨_, rfl, by decide +kernel⟩, ⟨_, rfl, by decide +kernel⟩⟩

/-- The instruction lines all of whose text is meaningful. -/
inductive Strict (bd : Build) (c : Str) : SrcInst → Prop
  | regs64 (d r : Reg64) : MovLine c d.asmName r.asmName → Strict bd c (.plain (.movReg64Reg64 d r))
  | regs32 (d r : Reg32) : MovLine c d.asmName r.asmName → Strict bd c (.plain (.movReg32Reg32 d r))
  | regs16 (d r : Reg16) : MovLine c d.asmName r.asmName → Strict bd c (.plain (.movReg16Reg16 d r))
  | sym64 (d : Reg64) (name : Str) : MovLine c d.asmName name → Strict bd c (.sym64 d name)
  | sym32 (d : Reg32) (name : Str) : MovLine c d.asmName name → Strict bd c (.sym32 d name)
  | const64 (d : Reg64) (src : Str) (ts : List Str) (n : UInt64) (v : Int) : MovLine c d.asmName src →
      Tokens src ts → Operand ts v → (n.toNat : Int) = v % 2 ^ 64 → Strict bd c (.plain (.movReg64Imm d n))
  | const32 (d : Reg32) (src : Str) (ts : List Str) (m : UInt32) (v : Int) : MovLine c d.asmName src →
      Tokens src ts → Operand ts v → (m.toNat : Int) = v % 2 ^ 64 → Strict bd c (.plain (.movReg32Imm d m))
  | const16 (d : Reg16) (src : Str) (ts : List Str) (m : UInt16) (v : Int) : MovLine c d.asmName src →
      Tokens src ts → Operand ts v → (m.toNat : Int) = v % 2 ^ 64 → Strict bd c (.plain (.movReg16Imm d m))
  | pushReg (r : Reg64) : Tokens c [str% "push", r.asmName] → Strict bd c (.plain (.pushReg64 r))
  | pushU8 (op : Str) (n : UInt8) : Tokens c [str% "push", op] → Number op n.toNat →
      Strict bd c (.plain (.pushU8 n))
  | pushU32 (op : Str) (n : UInt32) : Tokens c [str% "push", op] → Number op n.toNat →
      Strict bd c (.plain (.pushU32 n))
  | ret : Tokens c [str% "ret"] → Strict bd c (.plain .ret)
  | syscall : Tokens c [str% "syscall"] → Strict bd c (.plain .syscall)

/-- The two places where text is ignored: tokens after a complete `push`, `ret` or `syscall`, and
tokens after the third one of a sum or difference. -/
def Ignored (c : Str) : Prop :=
  (∃ op t extra, Tokens c (str% "push" :: op :: t :: extra)) ∨
  (∃ t extra, Tokens c (str% "ret" :: t :: extra)) ∨
  (∃ t extra, Tokens c (str% "syscall" :: t :: extra)) ∨
  (∃ dst src a op b t extra, MovLine c dst src ∧ (op = ['+'] ∨ op = ['-']) ∧
    Tokens src (a :: op :: b :: t :: extra))

/-- Apart from `Ignored` lines, an accepted line has no meaningless text. -/
theorem no_extra_text (bd : Build) (s c : Str) (l : Line) (hc : Code s c)
    (h : parseLine bd s = .ok l) (hi : ¬ Ignored c) :
    match l with
    | .empty => Tokens c []
    | .sect x => Tokens c [str% "section", sectName x]
    | .globalSymbol n => Tokens c [str% "global", n]
    | .symbol n => ∃ k, Tokens c [n ++ List.replicate (k + 1) ':']
    | .data d => ∃ w txt its, DataLine c d.label w txt ∧ Items txt its ∧ Stored w its d.bytes
    | .instruction i => ∃ x, Strict bd c x ∧ Yields x i := by
  have huniq : ∀ c', Code s c' → c' = c := fun c' h' => by
    rw [← stripComment_eq hc, ← stripComment_eq h']
  cases l with
  | empty =>
    obtain ⟨c', hc', hb⟩ := (C41_empty bd s).1 h
    rw [huniq c' hc'] at hb
    exact .nil c hb
  | sect x =>
    obtain ⟨c', hc', ht⟩ := (C41_section bd s x).1 h
    rw [huniq c' hc'] at ht; exact ht
  | globalSymbol n =>
    obtain ⟨c', hc', ht⟩ := (C41_global bd s n).1 h
    rw [huniq c' hc'] at ht; exact ht
  | symbol n =>
    obtain ⟨_, c', k, hc', ht⟩ := (C41_label bd s n).1 h
    rw [huniq c' hc'] at ht; exact ⟨k, ht⟩
  | data d =>
    obtain ⟨c', w, txt, its, hc', hd⟩ := (C42_data bd s d).1 h
    rw [huniq c' hc'] at hd; exact ⟨w, txt, its, hd⟩
  | instruction i =>
    obtain ⟨c', x, hc', _, hx, hy⟩ := (inst_lines bd s i).1 h
    rw [huniq c' hc'] at hx
    refine ⟨x, ?_, hy⟩
    have hconst : ∀ {dst src : Str} {n : UInt64}, MovLine c dst src → Const bd src n →
        ∃ ts v, Tokens src ts ∧ Operand ts v ∧ (n.toNat : Int) = v % 2 ^ 64 := by
      rintro dst src n hm ⟨ts, v, hs, ho, hv, _⟩
      rcases hs with hs | ⟨a, op, b, t, extra, rfl, ht⟩
      · exact ⟨ts, v, hs, ho, hv⟩
      · refine absurd (.inr (.inr (.inr ⟨dst, src, a, op, b, t, extra, hm, ?_, ht⟩))) hi
        cases ho with
        | add => exact .inl rfl
        | sub => exact .inr rfl
    cases hx with
    | mov64Reg d r hm => exact .regs64 d r hm
    | mov32Reg d r hm => exact .regs32 d r hm
    | mov16Reg d r hm => exact .regs16 d r hm
    | mov64Sym d n hm => exact .sym64 d n hm
    | mov32Sym d n hm => exact .sym32 d n hm
    | mov64Const d src n hm hcst =>
      obtain ⟨ts, v, a, b, e⟩ := hconst hm hcst
      exact .const64 d src ts n v hm a b e
    | mov32Const d src n m hm hcst he =>
      obtain ⟨ts, v, a, b, e⟩ := hconst hm hcst
      exact .const32 d src ts m v hm a b (by rw [he]; exact e)
    | mov16Const d src n m hm hcst he =>
      obtain ⟨ts, v, a, b, e⟩ := hconst hm hcst
      exact .const16 d src ts m v hm a b (by rw [he]; exact e)
    | pushReg r extra ht =>
      cases extra with
      | nil => exact .pushReg r ht
      | cons t extra => exact absurd (.inl ⟨_, _, _, ht⟩) hi
    | pushU8 op n extra ht hn =>
      cases extra with
      | nil => exact .pushU8 op n ht hn
      | cons t extra => exact absurd (.inl ⟨_, _, _, ht⟩) hi
    | pushU32 op n extra ht hn hle =>
      cases extra with
      | nil => exact .pushU32 op n ht hn
      | cons t extra => exact absurd (.inl ⟨_, _, _, ht⟩) hi
    | ret extra ht =>
      cases extra with
      | nil => exact .ret ht
      | cons t extra => exact absurd (.inr (.inl ⟨_, _, ht⟩)) hi
    | syscall extra ht =>
      cases extra with
      | nil => exact .syscall ht
      | cons t extra => exact absurd (.inr (.inr (.inl ⟨_, _, ht⟩))) hi

/-! ## C57 -/

theorem number_solid {s : Str} {n : Nat} (h : Number s n) : s ≠ [] ∧ Solid s := by
  refine ⟨(number_chars h).1, fun c hc => ?_⟩
  have := numChar_range ((number_chars h).2 c hc)
  exact isWs_mid this.1 this.2.1

theorem number_tokens {s : Str} {n : Nat} (h : Number s n) : Tokens s [s] := by
  rw [← splitWs_iff]
  exact solid_reg (number_solid h).2 (number_solid h).1

theorem number_notConst {s : Str} {n : Nat} (h : Number s n) (hn : 2 ^ 64 ≤ n) : NotConst s := by
  intro a rest ht
  have := (number_tokens h).det ht
  simp only [List.cons.injEq] at this
  obtain ⟨rfl, rfl⟩ := this
  refine ⟨?_, ?_, fun m hm => by rw [hm.det h]; exact hn⟩
  · rintro rfl; exact number_plus n h
  · rintro rfl; exact number_minus n h

/-- C57 is false of the code: for *every* numeral `n ≥ 2^64`, `mov r64, n` is accepted, as a move of
the address of a symbol named like the numeral. -/
theorem C57_symbol_instead (bd : Build) (s c src : Str) (n : Nat) (d : Reg64) (hc : Code s c)
    (hm : MovLine c d.asmName src) (hN : Number src n) (hn : 2 ^ 64 ≤ n) :
    LineIsReloc bd s src 3 (.movRegImm .w64 (num64 d)) := by
  refine (C43_mov_sym bd s c src hc (number_notConst hN hn)).1 d hm ?_
  rintro r rfl
  exact (C39_not_number n).1 r hN

/-- The same for 32-bit registers. -/
theorem C57_symbol_instead_32 (bd : Build) (s c src : Str) (n : Nat) (d : Reg32) (hc : Code s c)
    (hm : MovLine c d.asmName src) (hN : Number src n) (hn : 2 ^ 64 ≤ n) :
    LineIsReloc bd s src 2 (.movRegImm .w32 (num32 d)) := by
  refine (C43_mov_sym bd s c src hc (number_notConst hN hn)).2 d hm ?_
  rintro r rfl
  exact (C39_not_number n).2.1 r hN

/-- The smallest such line. -/
theorem C57_counterexample (bd : Build) :
    (parseLine bd (str% "mov rax, 18446744073709551616")).isOk = true := by
  cases bd <;> decide +kernel

/-- C57 (part): a numeral too large is rejected by 16-bit moves, `push` and data directives (the
latter: `C42_too_large`), and by 32-bit moves if below 2^64.
Missing: 64-bit moves (false, `C57_symbol_instead`) and 32-bit moves of numerals `≥ 2^64` (false,
`C57_symbol_instead_32`). -/
theorem C57_rejected_partial (bd : Build) (s c src : Str) (n : Nat) (hc : Code s c) (hN : Number src n) :
    (∀ d : Reg16, MovLine c d.asmName src → 2 ^ 16 ≤ n → ∃ msg, parseLine bd s = .error (.parseErr msg)) ∧
    (∀ d : Reg32, MovLine c d.asmName src → 2 ^ 32 ≤ n → n < 2 ^ 64 →
      ∃ msg, parseLine bd s = .error (.parseErr msg)) ∧
    (Tokens c [str% "push", src] → 2 ^ 32 ≤ n → ∃ msg, parseLine bd s = .error (.parseErr msg)) := by
  have ht := number_tokens hN
  have hconst : n < 2 ^ 64 → Const bd src (UInt64.ofNat n) := by
    intro hlt
    refine ⟨[src], n, .inl ht, .num src n hN hlt, ?_, .inr (fun h => by cases h)⟩
    rw [UInt64.toNat_ofNat', Nat.mod_eq_of_lt hlt]
    omega
  refine ⟨fun d hm hn => ?_, fun d hm hn hlt => ?_, fun htc hn => ?_⟩
  · by_cases hlt : n < 2 ^ 64
    · refine (C43_errors bd s c _ src hc hm).2.1 d _ rfl (hconst hlt) ?_
      rw [UInt64.toNat_ofNat', Nat.mod_eq_of_lt hlt]; exact hn
    · refine (C43_errors bd s c _ src hc hm).2.2.1 d rfl (number_notConst hN (by omega)) ?_
      rintro r rfl
      exact (C39_not_number n).2.2 r hN
  · refine (C43_errors bd s c _ src hc hm).1 d _ rfl (hconst hlt) ?_
    rw [UInt64.toNat_ofNat', Nat.mod_eq_of_lt hlt]; exact hn
  · refine (C44_errors bd s c hc).2 src [] htc (number_not_directive hN) ?_ ?_
    · rintro r rfl
      exact (C39_not_number n).1 r hN
    · intro m hm
      rw [hm.det hN]; exact hn

end AT.Props
