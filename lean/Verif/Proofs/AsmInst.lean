import Verif.Proofs.AsmData
import Verif.Props.AsmExpr
/-!
# Lemmas: instruction lines
-/

namespace AT.AsmSpec
open AT.Asm AT.X64

/-- `parseMov` once the operands are separated. -/
def movArgs (bd : Build) (op1 op2 : Str) : Res Instruction :=
  match parseReg64 op1 with
  | some dst => parseMov64 bd dst op2
  | none =>
    match parseReg32 op1 with
    | some dst => parseMov32 bd dst op2
    | none =>
      match parseReg16 op1 with
      | some dst => parseMov16 bd dst op2
      | none => perr (str% "invalid first operand")

theorem starts_mov (x : Str) : StartsSolid (str% "mov" ++ x) :=
  starts_append (by simp) (by simp [Solid]; decide)

theorem mov_trim {c dst src : Str} (h : MovLine c dst src) : ∃ s1 s2, ',' ∉ s1 ∧
    trim c = str% "mov" ++ ' ' :: (s1 ++ ',' :: s2) ∧ trim s1 = dst ∧ trim s2 = src := by
  obtain ⟨w0, a, b, d, e, h0, ha, hb, hd, he, hc, hs1, he1, hs2, he2, rfl⟩ := h
  have hcomma : ∀ w, Blank w → ',' ∉ w := fun w hw h => by
    have := hw _ h; simp [isWs] at this
  have hns : ',' ∉ a ++ dst ++ b := by simp [hcomma a ha, hcomma b hb, hc]
  by_cases hn : src = []
  · subst hn
    refine ⟨a ++ dst ++ b, [], hns, ?_, trim_eq ha hb hs1 he1, rfl⟩
    have := trim_eq (w1 := w0) (w2 := d ++ e) (m := str% "mov" ++ ' ' :: (a ++ dst ++ b ++ [','])) h0
      (hd.append he) (starts_mov _)
      (by
        have : str% "mov" ++ ' ' :: (a ++ dst ++ b ++ [',']) =
            (str% "mov" ++ ' ' :: (a ++ dst ++ b)) ++ [','] := by simp
        rw [this]
        exact ends_append (by simp) (Solid.ends (by simp [Solid]; decide)))
    rw [← this]
    congr 1
    simp
  · refine ⟨a ++ dst ++ b, d ++ src, hns, ?_, trim_eq ha hb hs1 he1,
      by rw [trim_blank_left hd, trim_solid hs2 he2]⟩
    have := trim_eq (w1 := w0) (w2 := e) (m := str% "mov" ++ ' ' :: (a ++ dst ++ b ++ ',' :: (d ++ src))) h0
      he (starts_mov _)
      (by
        have : str% "mov" ++ ' ' :: (a ++ dst ++ b ++ ',' :: (d ++ src)) =
            (str% "mov" ++ ' ' :: (a ++ dst ++ b ++ ',' :: d)) ++ src := by simp
        rw [this]
        exact ends_append hn he2)
    rw [← this]
    congr 1
    simp

theorem parseMov_eq {bd : Build} {c dst src : Str} (h : MovLine c dst src) :
    parseMov bd c = movArgs bd dst src := by
  obtain ⟨s1, s2, hn, ht, h1, h2⟩ := mov_trim h
  unfold parseMov
  rw [ht, splitOnce_eq (a := str% "mov") (by decide) (by decide)]
  have hs : splitOnce (· == ',') (s1 ++ ',' :: s2) = some (s1, s2) := by
    apply splitOnce_eq (by decide)
    intro x hx
    have : x ≠ ',' := fun he => hn (he ▸ hx)
    simpa using this
  simp only [ne_eq, not_true_eq_false, if_false, hs, h1, h2]
  rfl

theorem mov_tokens {c dst src : Str} (h : MovLine c dst src) : ∃ ts, Tokens c (str% "mov" :: ts) := by
  obtain ⟨w0, a, b, d, e, h0, ha, hb, hd, he, hc, hs1, he1, hs2, he2, rfl⟩ := h
  obtain ⟨ts, ht⟩ := tokens_cons_of (l := str% "mov") (w1 := [' ']) (r := a ++ dst ++ b ++ ',' :: (d ++ src ++ e)) h0 (by simp)
    (by simp [Solid]; decide) (by simp) (by simp [Blank]; decide)
  exact ⟨ts, by simpa using ht⟩

theorem mov_inv' {bd : Build} {c : Str} {r : Res Instruction} (h : parseMov bd c = r)
    (hr : ∀ m, r ≠ .error (.parseErr m)) :
    ∃ dst src, MovLine c dst src ∧ movArgs bd dst src = r := by
  obtain ⟨w0, w3, hc, hb0, hb3, hss, hee⟩ := trim_split c
  unfold parseMov at h
  cases hsp : splitOnce (· == ' ') (trim c) with
  | none => rw [hsp] at h; exact absurd h.symm (hr _)
  | some p =>
    obtain ⟨opc, remain⟩ := p
    rw [hsp] at h
    simp only at h
    by_cases ho : opc = str% "mov"
    · subst ho
      simp only [ne_eq, not_true_eq_false, if_false] at h
      cases hsp2 : splitOnce (· == ',') remain with
      | none => rw [hsp2] at h; exact absurd h.symm (hr _)
      | some q =>
        obtain ⟨s1, s2⟩ := q
        rw [hsp2] at h
        simp only at h
        obtain ⟨c1, ht, hc1, _⟩ := splitOnce_some hsp
        have : c1 = ' ' := by simpa using hc1
        subst this
        obtain ⟨c2, hrem, hc2, hs1⟩ := splitOnce_some hsp2
        have : c2 = ',' := by simpa using hc2
        subst this
        obtain ⟨a, b, h1, ha, hb, hst1, hen1⟩ := trim_split s1
        obtain ⟨d, e, h2, hd, he, hst2, hen2⟩ := trim_split s2
        refine ⟨trim s1, trim s2, ⟨w0, a, b, d, e ++ w3, hb0, ha, hb, hd, he.append hb3, ?_, hst1, hen1,
          hst2, hen2, ?_⟩, h⟩
        · intro hm
          have : ',' ∈ s1 := by rw [h1]; simp [hm]
          have := hs1 _ this
          simp at this
        · have e1 : s1 ++ ',' :: s2 = a ++ trim s1 ++ b ++ ',' :: (d ++ trim s2 ++ e) := by
            rw [← h1, ← h2]
          have e2 : c = w0 ++ (str% "mov" ++ ' ' :: (s1 ++ ',' :: s2)) ++ w3 := by rw [← hrem, ← ht]; exact hc
          rw [e1] at e2
          have e3 : w0 ++ str% "mov" ++ ' ' :: (a ++ trim s1 ++ b ++ ',' :: (d ++ trim s2 ++ (e ++ w3))) =
              w0 ++ (str% "mov" ++ ' ' :: (a ++ trim s1 ++ b ++ ',' :: (d ++ trim s2 ++ e))) ++ w3 := by
            simp
          rw [e3]; exact e2
    · simp only [ne_eq, ho, not_false_eq_true, if_true] at h; exact absurd h.symm (hr _)

theorem mov_inv {bd : Build} {c : Str} {i : Instruction} (h : parseMov bd c = .ok i) :
    ∃ dst src, MovLine c dst src ∧ movArgs bd dst src = .ok i :=
  mov_inv' h (by simp)

theorem new_ok (x : Inst) (i : Instruction) :
    Instruction.new x = .ok i ↔ x.bytecode = .ok i.bytes ∧ i.reloc = none := by
  unfold Instruction.new
  cases hb : x.bytecode with
  | error e => simp [bind, Except.bind]
  | ok b =>
    simp only [bind, Except.bind, pure, Except.pure, Except.ok.injEq]
    constructor
    · rintro rfl; exact ⟨rfl, rfl⟩
    · rintro ⟨rfl, h⟩
      cases i; simp_all

/-- What an instruction of the source language assembles to. -/
def Yields : SrcInst → Instruction → Prop
  | .plain x, i => x.bytecode = .ok i.bytes ∧ i.reloc = none
  | .sym64 d name, i => (Inst.movReg64Imm d 0).bytecode = .ok i.bytes ∧
      i.reloc = some ⟨movReg64ImmOffset d, name, false, 3⟩
  | .sym32 d name, i => (Inst.movReg32Imm d 0).bytecode = .ok i.bytes ∧
      i.reloc = some ⟨movReg32ImmOffset d, name, false, 2⟩

theorem reg64_none {s : Str} : parseReg64 s = none ↔ ∀ r : Reg64, s ≠ r.asmName := by
  constructor
  · rintro h r rfl
    rw [(Props.parse_asmName).1 r] at h; simp at h
  · intro h
    cases hp : parseReg64 s with
    | none => rfl
    | some r => exact absurd (Props.reg64_name hp) (h r)

theorem reg32_none {s : Str} : parseReg32 s = none ↔ ∀ r : Reg32, s ≠ r.asmName := by
  constructor
  · rintro h r rfl
    rw [(Props.parse_asmName).2.1 r] at h; simp at h
  · intro h
    cases hp : parseReg32 s with
    | none => rfl
    | some r => exact absurd (Props.reg32_name hp) (h r)

theorem reg16_none {s : Str} : parseReg16 s = none ↔ ∀ r : Reg16, s ≠ r.asmName := by
  constructor
  · rintro h r rfl
    rw [(Props.parse_asmName).2.2 r] at h; simp at h
  · intro h
    cases hp : parseReg16 s with
    | none => rfl
    | some r => exact absurd (Props.reg16_name hp) (h r)

theorem const_iff (bd : Build) (s : Str) (n : UInt64) :
    tryParseExpr bd s = .ok (some n) ↔ Const bd s n := Props.C38_expressions bd s n

theorem notConst_iff (bd : Build) (s : Str) : tryParseExpr bd s = .ok none ↔ NotConst s :=
  Props.C38_not_constant bd s

theorem solid_reg {s : Str} (h : ∀ c ∈ s, isWs c = false) (hne : s ≠ []) : splitWs s = [s] := by
  have := splitWs_single (w1 := []) (w2 := []) Blank.nil Blank.nil hne h
  simpa using this

theorem notConst_of_not_number {s : Str} (hs : Solid s) (hne : s ≠ []) (h1 : s ≠ ['+']) (h2 : s ≠ ['-'])
    (hN : ∀ n, ¬ Number s n) : NotConst s := by
  intro a rest ht
  have e1 := splitWs_of_tokens ht
  rw [solid_reg hs hne] at e1
  simp only [List.cons.injEq] at e1
  obtain ⟨rfl, _⟩ := e1
  exact ⟨h1, h2, fun n h => absurd h (hN n)⟩

theorem reg64_notConst (r : Reg64) : NotConst r.asmName := by
  refine notConst_of_not_number ?_ ?_ ?_ ?_ (fun n => (Props.C39_not_number n).1 r) <;> cases r <;>
    simp [Reg64.asmName, X86.names64, X86.num64, Solid] <;> decide

theorem reg32_notConst (r : Reg32) : NotConst r.asmName := by
  refine notConst_of_not_number ?_ ?_ ?_ ?_ (fun n => (Props.C39_not_number n).2.1 r) <;> cases r <;>
    simp [Reg32.asmName, X86.names32, X86.num32, Solid] <;> decide

theorem reg16_notConst (r : Reg16) : NotConst r.asmName := by
  refine notConst_of_not_number ?_ ?_ ?_ ?_ (fun n => (Props.C39_not_number n).2.2 r) <;> cases r <;>
    simp [Reg16.asmName, X86.names16, X86.num16, Solid] <;> decide

theorem movArgs_64 (bd : Build) (d : Reg64) (src : Str) :
    movArgs bd d.asmName src = parseMov64 bd d src := by
  simp only [movArgs, (Props.parse_asmName).1 d]

theorem movArgs_32 (bd : Build) (d : Reg32) (src : Str) :
    movArgs bd d.asmName src = parseMov32 bd d src := by
  have h := (Props.parse_asmName).2.1 d
  have h64 := ((Props.C39_one_width d.asmName).2.1 (by rw [h]; rfl)).1
  simp only [movArgs, h, h64]

theorem movArgs_16 (bd : Build) (d : Reg16) (src : Str) :
    movArgs bd d.asmName src = parseMov16 bd d src := by
  have h := (Props.parse_asmName).2.2 d
  have h64 := ((Props.C39_one_width d.asmName).2.2 (by rw [h]; rfl))
  simp only [movArgs, h, h64.1, h64.2]

theorem withReloc_ok (x : Inst) (lr : LocalReloc) (i : Instruction) :
    (Instruction.new x >>= fun j => (pure (j.withReloc lr) : Res Instruction)) = .ok i ↔
      x.bytecode = .ok i.bytes ∧ i.reloc = some lr := by
  unfold Instruction.new
  cases hb : x.bytecode with
  | error e => simp [bind, Except.bind]
  | ok b =>
    simp only [bind, Except.bind, pure, Except.pure, Except.ok.injEq, Instruction.withReloc]
    constructor
    · rintro rfl; exact ⟨rfl, rfl⟩
    · rintro ⟨rfl, h⟩
      cases i; simp_all

theorem exclusive {bd : Build} {s : Str} {n : UInt64} (h : Const bd s n) (h' : NotConst s) : False := by
  rw [← const_iff] at h
  rw [← notConst_iff bd, h] at h'
  simp at h'

theorem const_det {bd : Build} {s : Str} {n m : UInt64} (h : Const bd s n) (h' : Const bd s m) : n = m := by
  rw [← const_iff] at h h'
  rw [h] at h'
  simpa using h'

theorem mov64_iff (bd : Build) (d : Reg64) (src : Str) (i : Instruction) :
    parseMov64 bd d src = .ok i ↔
      (∃ n, Const bd src n ∧ Yields (.plain (.movReg64Imm d n)) i) ∨
      (∃ r : Reg64, src = r.asmName ∧ Yields (.plain (.movReg64Reg64 d r)) i) ∨
      (NotConst src ∧ (∀ r : Reg64, src ≠ r.asmName) ∧ Yields (.sym64 d src) i) := by
  unfold parseMov64
  cases he : tryParseExpr bd src with
  | error e =>
    constructor
    · intro h; simp [bind, Except.bind] at h
    · rintro (⟨n, hc, _⟩ | ⟨r, rfl, _⟩ | ⟨hc, _⟩)
      · rw [← const_iff, he] at hc; simp at hc
      · have := (notConst_iff bd _).2 (reg64_notConst r)
        rw [he] at this; simp at this
      · rw [← notConst_iff bd, he] at hc; simp at hc
  | ok o =>
    cases o with
    | some n =>
      have hc := (const_iff bd src n).1 he
      constructor
      · intro h; exact .inl ⟨n, hc, (new_ok _ _).1 h⟩
      · rintro (⟨m, hc', hy⟩ | ⟨r, rfl, _⟩ | ⟨hc', _⟩)
        · rw [const_det hc hc']; exact (new_ok _ _).2 hy
        · exact (exclusive hc (reg64_notConst r)).elim
        · exact (exclusive hc hc').elim
    | none =>
      have hc := (notConst_iff bd src).1 he
      cases hr : parseReg64 src with
      | some r =>
        have hs := Props.reg64_name hr
        constructor
        · intro h
          exact .inr (.inl ⟨r, hs, (new_ok _ _).1 (by simpa [bind, Except.bind, hr] using h)⟩)
        · rintro (⟨m, hc', hy⟩ | ⟨r', hs', hy⟩ | ⟨_, hno, _⟩)
          · exact (exclusive hc' hc).elim
          · have : parseReg64 src = some r' := by rw [hs']; exact (Props.parse_asmName).1 r'
            rw [hr] at this
            cases this
            simpa [bind, Except.bind, hr] using (new_ok _ _).2 hy
          · exact absurd hs (hno r)
      | none =>
        have hno := reg64_none.1 hr
        constructor
        · intro h
          refine .inr (.inr ⟨hc, hno, ?_⟩)
          rw [Yields, ← withReloc_ok]
          simpa [bind, Except.bind, hr] using h
        · rintro (⟨m, hc', hy⟩ | ⟨r', hs', hy⟩ | ⟨_, _, hy⟩)
          · exact (exclusive hc' hc).elim
          · exact absurd hs' (hno r')
          · rw [Yields, ← withReloc_ok] at hy
            simpa [bind, Except.bind, hr] using hy

theorem asU32_some (n : UInt64) (m : UInt32) : exprAsU32 n = some m ↔ m.toNat = n.toNat := by
  unfold exprAsU32
  have := m.toNat_lt
  split
  · rename_i hn
    simp only [Option.some.injEq]
    rw [← UInt32.toNat_inj, UInt32.toNat_ofNat', Nat.mod_eq_of_lt hn]
    exact eq_comm
  · simp; omega

theorem asU16_some (n : UInt64) (m : UInt16) : exprAsU16 n = some m ↔ m.toNat = n.toNat := by
  unfold exprAsU16
  have := m.toNat_lt
  split
  · rename_i hn
    simp only [Option.some.injEq]
    rw [← UInt16.toNat_inj, UInt16.toNat_ofNat', Nat.mod_eq_of_lt hn]
    exact eq_comm
  · simp; omega

theorem mov32_iff (bd : Build) (d : Reg32) (src : Str) (i : Instruction) :
    parseMov32 bd d src = .ok i ↔
      (∃ n m, Const bd src n ∧ m.toNat = n.toNat ∧ Yields (.plain (.movReg32Imm d m)) i) ∨
      (∃ r : Reg32, src = r.asmName ∧ Yields (.plain (.movReg32Reg32 d r)) i) ∨
      (NotConst src ∧ (∀ r : Reg32, src ≠ r.asmName) ∧ Yields (.sym32 d src) i) := by
  unfold parseMov32
  cases he : tryParseExpr bd src with
  | error e =>
    constructor
    · intro h; simp [bind, Except.bind] at h
    · rintro (⟨n, m, hc, _⟩ | ⟨r, rfl, _⟩ | ⟨hc, _⟩)
      · rw [← const_iff, he] at hc; simp at hc
      · have := (notConst_iff bd _).2 (reg32_notConst r)
        rw [he] at this; simp at this
      · rw [← notConst_iff bd, he] at hc; simp at hc
  | ok o =>
    cases o with
    | some n =>
      have hc := (const_iff bd src n).1 he
      cases hu : exprAsU32 n with
      | none =>
        constructor
        · intro h; simp [bind, Except.bind, hu, perr] at h
        · rintro (⟨n', m, hc', hm, hy⟩ | ⟨r, rfl, _⟩ | ⟨hc', _⟩)
          · rw [← const_det hc hc', ← asU32_some, hu] at hm; simp at hm
          · exact (exclusive hc (reg32_notConst r)).elim
          · exact (exclusive hc hc').elim
      | some m =>
        constructor
        · intro h
          exact .inl ⟨n, m, hc, (asU32_some n m).1 hu,
            (new_ok _ _).1 (by simpa [bind, Except.bind, hu] using h)⟩
        · rintro (⟨n', m', hc', hm, hy⟩ | ⟨r, rfl, _⟩ | ⟨hc', _⟩)
          · rw [← const_det hc hc', ← asU32_some, hu] at hm
            cases hm
            simpa [bind, Except.bind, hu] using (new_ok _ _).2 hy
          · exact (exclusive hc (reg32_notConst r)).elim
          · exact (exclusive hc hc').elim
    | none =>
      have hc := (notConst_iff bd src).1 he
      cases hr : parseReg32 src with
      | some r =>
        have hs := Props.reg32_name hr
        constructor
        · intro h
          exact .inr (.inl ⟨r, hs, (new_ok _ _).1 (by simpa [bind, Except.bind, hr] using h)⟩)
        · rintro (⟨n', m, hc', _, hy⟩ | ⟨r', hs', hy⟩ | ⟨_, hno, _⟩)
          · exact (exclusive hc' hc).elim
          · have : parseReg32 src = some r' := by rw [hs']; exact (Props.parse_asmName).2.1 r'
            rw [hr] at this
            cases this
            simpa [bind, Except.bind, hr] using (new_ok _ _).2 hy
          · exact absurd hs (hno r)
      | none =>
        have hno := reg32_none.1 hr
        constructor
        · intro h
          refine .inr (.inr ⟨hc, hno, ?_⟩)
          rw [Yields, ← withReloc_ok]
          simpa [bind, Except.bind, hr] using h
        · rintro (⟨n', m, hc', _, hy⟩ | ⟨r', hs', hy⟩ | ⟨_, _, hy⟩)
          · exact (exclusive hc' hc).elim
          · exact absurd hs' (hno r')
          · rw [Yields, ← withReloc_ok] at hy
            simpa [bind, Except.bind, hr] using hy

theorem mov16_iff (bd : Build) (d : Reg16) (src : Str) (i : Instruction) :
    parseMov16 bd d src = .ok i ↔
      (∃ n m, Const bd src n ∧ m.toNat = n.toNat ∧ Yields (.plain (.movReg16Imm d m)) i) ∨
      (∃ r : Reg16, src = r.asmName ∧ Yields (.plain (.movReg16Reg16 d r)) i) := by
  unfold parseMov16
  cases he : tryParseExpr bd src with
  | error e =>
    constructor
    · intro h; simp [bind, Except.bind] at h
    · rintro (⟨n, m, hc, _⟩ | ⟨r, rfl, _⟩)
      · rw [← const_iff, he] at hc; simp at hc
      · have := (notConst_iff bd _).2 (reg16_notConst r)
        rw [he] at this; simp at this
  | ok o =>
    cases o with
    | some n =>
      have hc := (const_iff bd src n).1 he
      cases hu : exprAsU16 n with
      | none =>
        constructor
        · intro h; simp [bind, Except.bind, hu, perr] at h
        · rintro (⟨n', m, hc', hm, hy⟩ | ⟨r, rfl, _⟩)
          · rw [← const_det hc hc', ← asU16_some, hu] at hm; simp at hm
          · exact (exclusive hc (reg16_notConst r)).elim
      | some m =>
        constructor
        · intro h
          exact .inl ⟨n, m, hc, (asU16_some n m).1 hu,
            (new_ok _ _).1 (by simpa [bind, Except.bind, hu] using h)⟩
        · rintro (⟨n', m', hc', hm, hy⟩ | ⟨r, rfl, _⟩)
          · rw [← const_det hc hc', ← asU16_some, hu] at hm
            cases hm
            simpa [bind, Except.bind, hu] using (new_ok _ _).2 hy
          · exact (exclusive hc (reg16_notConst r)).elim
    | none =>
      have hc := (notConst_iff bd src).1 he
      cases hr : parseReg16 src with
      | some r =>
        have hs := Props.reg16_name hr
        constructor
        · intro h
          exact .inr ⟨r, hs, (new_ok _ _).1 (by simpa [bind, Except.bind, hr] using h)⟩
        · rintro (⟨n', m, hc', _, hy⟩ | ⟨r', hs', hy⟩)
          · exact (exclusive hc' hc).elim
          · have : parseReg16 src = some r' := by rw [hs']; exact (Props.parse_asmName).2.2 r'
            rw [hr] at this
            cases this
            simpa [bind, Except.bind, hr] using (new_ok _ _).2 hy
      | none =>
        have hno := reg16_none.1 hr
        constructor
        · intro h; simp [bind, Except.bind, perr] at h
        · rintro (⟨n', m, hc', _, hy⟩ | ⟨r', hs', hy⟩)
          · exact (exclusive hc' hc).elim
          · exact absurd hs' (hno r')

theorem push_iff (c op : Str) (extra : List Str) (ht : Tokens c (str% "push" :: op :: extra))
    (i : Instruction) : parsePush c = .ok i ↔
      (∃ r : Reg64, op = r.asmName ∧ Yields (.plain (.pushReg64 r)) i) ∨
      (∃ n : UInt8, Number op n.toNat ∧ Yields (.plain (.pushU8 n)) i) ∨
      (∃ n : UInt32, Number op n.toNat ∧ 256 ≤ n.toNat ∧ Yields (.plain (.pushU32 n)) i) := by
  unfold parsePush
  rw [splitWs_of_tokens ht]
  simp only [ne_eq, not_true_eq_false, if_false]
  cases hr : parseReg64 op with
  | some r =>
    have hs := Props.reg64_name hr
    have hnn : ∀ n, ¬ Number op n := fun n => by rw [hs]; exact (Props.C39_not_number n).1 r
    simp only
    constructor
    · intro h; exact .inl ⟨r, hs, (new_ok _ _).1 h⟩
    · rintro (⟨r', hs', hy⟩ | ⟨n, hN, _⟩ | ⟨n, hN, _⟩)
      · have : parseReg64 op = some r' := by rw [hs']; exact (Props.parse_asmName).1 r'
        rw [hr] at this
        cases this
        exact (new_ok _ _).2 hy
      · exact absurd hN (hnn _)
      · exact absurd hN (hnn _)
  | none =>
    have hno := reg64_none.1 hr
    simp only
    cases h8 : tryParseU8 op with
    | some n =>
      have hN := (tryParseU8_iff op n).1 h8
      simp only
      constructor
      · intro h; exact .inr (.inl ⟨n, hN, (new_ok _ _).1 h⟩)
      · rintro (⟨r', hs', hy⟩ | ⟨m, hM, hy⟩ | ⟨m, hM, hle, _⟩)
        · exact absurd hs' (hno r')
        · rw [UInt8.toNat_inj.1 (hN.det hM)]; exact (new_ok _ _).2 hy
        · have := hN.det hM
          have := n.toNat_lt
          omega
    | none =>
      have h8' : ∀ n : UInt8, ¬ Number op n.toNat := fun n hN => by
        rw [(tryParseU8_iff op n).2 hN] at h8; simp at h8
      simp only
      cases h32 : tryParseU32 op with
      | some n =>
        have hN := (tryParseU32_iff op n).1 h32
        have hge : 256 ≤ n.toNat := by
          apply Nat.le_of_not_lt
          intro hlt
          refine h8' (UInt8.ofNat n.toNat) ?_
          rwa [UInt8.toNat_ofNat', Nat.mod_eq_of_lt hlt]
        simp only
        constructor
        · intro h; exact .inr (.inr ⟨n, hN, hge, (new_ok _ _).1 h⟩)
        · rintro (⟨r', hs', hy⟩ | ⟨m, hM, hy⟩ | ⟨m, hM, hle, hy⟩)
          · exact absurd hs' (hno r')
          · exact absurd hM (h8' m)
          · rw [UInt32.toNat_inj.1 (hN.det hM)]; exact (new_ok _ _).2 hy
      | none =>
        have h32' : ∀ n : UInt32, ¬ Number op n.toNat := fun n hN => by
          rw [(tryParseU32_iff op n).2 hN] at h32; simp at h32
        simp only
        constructor
        · intro h; simp [perr] at h
        · rintro (⟨r', hs', hy⟩ | ⟨m, hM, hy⟩ | ⟨m, hM, hle, hy⟩)
          · exact absurd hs' (hno r')
          · exact absurd hM (h8' m)
          · exact absurd hM (h32' m)

theorem some_ok {α : Type} {x : Res α} {i : α} : (some <$> x : Res (Option α)) = .ok (some i) ↔ x = .ok i := by
  cases x with
  | error e => simp [Functor.map, Except.map]
  | ok a => simp [Functor.map, Except.map]

/-- Exactly which lines are instructions, before data lines are told apart. -/
theorem inst_iff (bd : Build) (c : Str) (i : Instruction) :
    tryParseInstruction bd c = .ok (some i) ↔ ∃ x, InstLine bd c x ∧ Yields x i := by
  unfold tryParseInstruction
  obtain ⟨ts, ht⟩ := tokens_exists c
  have hts := splitWs_of_tokens ht
  rw [hts]
  have hmovtok : ∀ {dst src : Str}, MovLine c dst src → ∃ us, ts = str% "mov" :: us := by
    intro dst src h
    obtain ⟨us, hu⟩ := mov_tokens h
    exact ⟨us, ht.det hu⟩
  have htok : ∀ {us : List Str}, Tokens c us → ts = us := fun h => ht.det h
  cases ts with
  | nil =>
    constructor
    · intro h; simp [pure, Except.pure] at h
    · rintro ⟨x, hx, _⟩
      exfalso
      cases hx
      all_goals first
        | exact (hmovtok ‹MovLine _ _ _›).elim (fun us hu => by simp at hu)
        | (have hu := htok ‹Tokens _ _›; simp at hu; done)
  | cons t rest =>
    simp only
    by_cases h1 : t = str% "mov"
    · subst h1
      simp only [if_true, some_ok]
      constructor
      · intro h
        obtain ⟨dst, src, hm, ha⟩ := mov_inv h
        unfold movArgs at ha
        cases hr : parseReg64 dst with
        | some d =>
          have hd := Props.reg64_name hr
          subst hd
          rw [hr] at ha
          simp only at ha
          rcases (mov64_iff bd d src i).1 ha with ⟨n, hc, hy⟩ | ⟨r, rfl, hy⟩ | ⟨hc, hno, hy⟩
          · exact ⟨_, .mov64Const d src n hm hc, hy⟩
          · exact ⟨_, .mov64Reg d r hm, hy⟩
          · exact ⟨_, .mov64Sym d src hm hc hno, hy⟩
        | none =>
          rw [hr] at ha
          simp only at ha
          cases hr2 : parseReg32 dst with
          | some d =>
            have hd := Props.reg32_name hr2
            subst hd
            rw [hr2] at ha
            simp only at ha
            rcases (mov32_iff bd d src i).1 ha with ⟨n, m, hc, hm', hy⟩ | ⟨r, rfl, hy⟩ | ⟨hc, hno, hy⟩
            · exact ⟨_, .mov32Const d src n m hm hc hm', hy⟩
            · exact ⟨_, .mov32Reg d r hm, hy⟩
            · exact ⟨_, .mov32Sym d src hm hc hno, hy⟩
          | none =>
            rw [hr2] at ha
            simp only at ha
            cases hr3 : parseReg16 dst with
            | some d =>
              have hd := Props.reg16_name hr3
              subst hd
              rw [hr3] at ha
              simp only at ha
              rcases (mov16_iff bd d src i).1 ha with ⟨n, m, hc, hm', hy⟩ | ⟨r, rfl, hy⟩
              · exact ⟨_, .mov16Const d src n m hm hc hm', hy⟩
              · exact ⟨_, .mov16Reg d r hm, hy⟩
            | none => rw [hr3] at ha; simp [perr] at ha
      · rintro ⟨x, hx, hy⟩
        cases hx with
        | mov64Reg d r hm =>
          rw [parseMov_eq hm, movArgs_64, mov64_iff]; exact .inr (.inl ⟨r, rfl, hy⟩)
        | mov32Reg d r hm =>
          rw [parseMov_eq hm, movArgs_32, mov32_iff]; exact .inr (.inl ⟨r, rfl, hy⟩)
        | mov16Reg d r hm =>
          rw [parseMov_eq hm, movArgs_16, mov16_iff]; exact .inr ⟨r, rfl, hy⟩
        | mov64Const d src n hm hc =>
          rw [parseMov_eq hm, movArgs_64, mov64_iff]; exact .inl ⟨n, hc, hy⟩
        | mov32Const d src n m hm hc hm' =>
          rw [parseMov_eq hm, movArgs_32, mov32_iff]; exact .inl ⟨n, m, hc, hm', hy⟩
        | mov16Const d src n m hm hc hm' =>
          rw [parseMov_eq hm, movArgs_16, mov16_iff]; exact .inl ⟨n, m, hc, hm', hy⟩
        | mov64Sym d name hm hc hno =>
          rw [parseMov_eq hm, movArgs_64, mov64_iff]; exact .inr (.inr ⟨hc, hno, hy⟩)
        | mov32Sym d name hm hc hno =>
          rw [parseMov_eq hm, movArgs_32, mov32_iff]; exact .inr (.inr ⟨hc, hno, hy⟩)
        | pushReg r extra h => have hu := htok h; simp at hu
        | pushU8 op n extra h => have hu := htok h; simp at hu
        | pushU32 op n extra h => have hu := htok h; simp at hu
        | ret extra h => have hu := htok h; simp at hu
        | syscall extra h => have hu := htok h; simp at hu
    · rw [if_neg h1]
      have hnomov : ∀ {dst src : Str}, ¬ MovLine c dst src := by
        intro dst src h
        obtain ⟨us, hu⟩ := hmovtok h
        simp only [List.cons.injEq] at hu
        exact h1 hu.1
      by_cases h2 : t = str% "push"
      · subst h2
        simp only [if_true, some_ok]
        cases rest with
        | nil =>
          constructor
          · intro h; simp [parsePush, hts, perr] at h
          · rintro ⟨x, hx, _⟩
            exfalso
            cases hx
            all_goals first
              | exact hnomov ‹MovLine _ _ _›
              | (have hu := htok ‹Tokens _ _›; simp at hu; done)
        | cons op extra =>
          rw [push_iff c op extra ht]
          constructor
          · rintro (⟨r, rfl, hy⟩ | ⟨n, hN, hy⟩ | ⟨n, hN, hle, hy⟩)
            · exact ⟨_, .pushReg r extra ht, hy⟩
            · exact ⟨_, .pushU8 op n extra ht hN, hy⟩
            · exact ⟨_, .pushU32 op n extra ht hN hle, hy⟩
          · rintro ⟨x, hx, hy⟩
            cases hx with
            | pushReg r extra h =>
              have hu := htok h
              simp only [List.cons.injEq] at hu
              exact .inl ⟨r, hu.2.1, hy⟩
            | pushU8 op' n extra h hN =>
              have hu := htok h
              simp only [List.cons.injEq, true_and] at hu
              obtain ⟨rfl, rfl⟩ := hu
              exact .inr (.inl ⟨n, hN, hy⟩)
            | pushU32 op' n extra h hN hle =>
              have hu := htok h
              simp only [List.cons.injEq, true_and] at hu
              obtain ⟨rfl, rfl⟩ := hu
              exact .inr (.inr ⟨n, hN, hle, hy⟩)
            | ret extra h => have hu := htok h; simp at hu
            | syscall extra h => have hu := htok h; simp at hu
            | mov64Reg d r hm => exact (hnomov hm).elim
            | mov32Reg d r hm => exact (hnomov hm).elim
            | mov16Reg d r hm => exact (hnomov hm).elim
            | mov64Const d src n hm hc => exact (hnomov hm).elim
            | mov32Const d src n m hm hc hm' => exact (hnomov hm).elim
            | mov16Const d src n m hm hc hm' => exact (hnomov hm).elim
            | mov64Sym d name hm hc hno => exact (hnomov hm).elim
            | mov32Sym d name hm hc hno => exact (hnomov hm).elim
      · rw [if_neg h2]
        by_cases h3 : t = str% "ret"
        · subst h3
          simp only [if_true, some_ok, new_ok]
          constructor
          · intro h; exact ⟨_, .ret rest ht, h⟩
          · rintro ⟨x, hx, hy⟩
            cases hx
            case ret => exact hy
            all_goals first
              | exact (hnomov ‹MovLine _ _ _›).elim
              | (have hu := htok ‹Tokens _ _›; simp at hu; done)
        · rw [if_neg h3]
          by_cases h4 : t = str% "syscall"
          · subst h4
            simp only [if_true, some_ok, new_ok]
            constructor
            · intro h; exact ⟨_, .syscall rest ht, h⟩
            · rintro ⟨x, hx, hy⟩
              cases hx
              case syscall => exact hy
              all_goals first
                | exact (hnomov ‹MovLine _ _ _›).elim
                | (have hu := htok ‹Tokens _ _›; simp at hu; done)
          · rw [if_neg h4]
            constructor
            · intro h; simp [pure, Except.pure] at h
            · rintro ⟨x, hx, _⟩
              exfalso
              cases hx
              all_goals first
                | exact hnomov ‹MovLine _ _ _›
                | (have hu := htok ‹Tokens _ _›
                   simp only [List.cons.injEq] at hu
                   first | exact h2 hu.1 | exact h3 hu.1 | exact h4 hu.1)

end AT.AsmSpec
