import Verif.Props.X64
import Verif.Spec.X64Code
/-!
# The exact bytes of every instruction (C80)
-/

namespace AT.Props
open AT.X64
open X86 (num64 num32 num16 MemOk OperandsOk le fields233 dispMod dispCode memCode operandCode machineCode)

theorem le_eq (k n : Nat) : leBytes k n = le k n := by
  induction k generalizing n with
  | zero => rfl
  | succ k ih =>
    unfold le
    rw [List.range_succ_eq_map, List.map_cons, List.map_map, leBytes, ih]
    simp only [Nat.pow_zero, Nat.div_one, List.cons.injEq, true_and, le]
    apply List.map_congr_left
    intro j _
    simp only [Function.comp, Nat.pow_succ, Nat.div_div_eq_div_mul, Nat.mul_comm 256]

theorem pfx_bytes (p : Bool) : optByte id (p66 p) = if p then [0x66] else [] := by cases p <;> rfl

theorem fields_eq (a b c : Nat) : UInt8.ofNat (64 * a + 8 * (b % 8) + c % 8) = fields233 a b c := rfl

theorem encode_reg_reg_code {R RM : Type} [RegLike R] [RegMemLike RM] (p w : Bool) (op : UInt8) (rg : R) (rm : RM)
    {nr nm : Nat}
    (h1 : RegLike.reg rg = UInt8.ofNat (nr % 8)) (h2 : RegMemLike.mode rm = 3)
    (h3 : RegMemLike.rm rm = UInt8.ofNat (nm % 8)) (h5 : RegMemLike.sib rm = .ok none)
    (h6 : RegMemLike.dispBytes rm = BytesAtMost.withLen 4 0)
    (hx : RegMemLike.rexX rm = false) :
    (⟨p66 p, w, false, op1 op, some (rg, rm), noImm⟩ : Encoder R RM).encode = .ok (buf15
      ((if p then [0x66] else []) ++ X86.rexByte w (RegLike.rexR rg) false (RegMemLike.rexB rm) ++ [op] ++
        [fields233 3 nr nm])) := by
  have hnr : nr % 8 < 8 := Nat.mod_lt _ (by omega)
  have hnm : nm % 8 < 8 := Nat.mod_lt _ (by omega)
  have := encode_modRm_eq (⟨p66 p, w, false, op1 op, some (rg, rm), noImm⟩ : Encoder R RM) rfl
    (op1_full op) noImm_full h1 hnr h2 (by omega : 3 < 4) h3 hnm h5
    (by rw [h6, withLen_eq]; rfl) full_empty4
    ((if p then [0x66] else []) ++ X86.rexByte w (RegLike.rexR rg) false (RegMemLike.rexB rm) ++ [op] ++
        [fields233 3 nr nm])
    (by rw [hx, ← pfx_bytes]
        simp only [flatModRm, Bool.false_or, rexBytes_eq, optByte_none, List.append_nil, fields_eq, asRef_empty, noImm_asRef, op1_asRef])
  rw [this, if_neg (by simp [noImm]), if_pos]
  simp only [List.length_append, List.length_cons, List.length_nil]
  have := length_rexBytes w (RegLike.rexR rg) false (RegMemLike.rexB rm)
  rw [rexBytes_eq] at this
  cases p <;> simp <;> omega

/-- The parts of a memory operand, and the bytes they make. -/
structure MemCode (reg : Nat) (m : Mem64) where
  md : Nat
  rn : Nat
  sib : Option Sib
  disp : BytesAtMost 4
  mode_eq : m.mode = UInt8.ofNat md
  md_lt : md < 4
  rm_eq : m.rm = UInt8.ofNat rn
  rn_lt : rn < 8
  sib_eq : m.sibByte = .ok sib
  disp_eq : m.dispBytes = .ok disp
  full : disp.Full
  code : UInt8.ofNat (64 * md + 8 * (reg % 8) + rn) :: (optByte Sib.byte sib ++ disp.asRef) = memCode reg m

theorem encode_reg_mem_code (op : UInt8) (rg : Reg64) (m : Mem64) (S : MemCode (num64 rg) m) :
    (⟨p66 false, true, false, op1 op, some (rg, m), noImm⟩ : Encoder Reg64 Mem64).encode = .ok (buf15
      (X86.rexByte true rg.isExtended m.rexX m.rexB ++ [op] ++ memCode (num64 rg) m)) := by
  have hnr : num64 rg % 8 < 8 := Nat.mod_lt _ (by omega)
  have hl : (memCode (num64 rg) m).length ≤ 6 := by
    rw [← S.code]
    have := length_optByte_le Sib.byte S.sib
    have := S.full.2
    simp only [List.length_cons, List.length_append, BytesAtMost.length_asRef S.full]
    omega
  have := encode_modRm_eq (⟨p66 false, true, false, op1 op, some (rg, m), noImm⟩ : Encoder Reg64 Mem64) rfl
    (op1_full op) noImm_full (reg64_code rg) hnr S.mode_eq S.md_lt S.rm_eq S.rn_lt S.sib_eq
    S.disp_eq S.full (X86.rexByte true rg.isExtended m.rexX m.rexB ++ [op] ++ memCode (num64 rg) m)
    (by rw [← S.code]
        simp only [flatModRm, p66, Bool.false_eq_true, if_false, Bool.false_or, rexBytes_eq, optByte_none,
          List.append_nil, List.nil_append, noImm_asRef, op1_asRef, List.append_assoc, List.cons_append]
        rfl)
  rw [this, if_neg (by simp [noImm]), if_pos]
  simp only [List.length_append, List.length_cons, List.length_nil]
  have := length_rexBytes true rg.isExtended m.rexX m.rexB
  rw [rexBytes_eq] at this
  omega

theorem encode_plain_code (p w b : Bool) (op : UInt8) (imm : BytesAtMost 8) (hi : imm.Full)
    (h8 : imm.len = 8 → w = true) (ib : Bytes) (hib : imm.asRef = ib) :
    (⟨p66 p, w, b, op1 op, none, imm⟩ : Encoder Reg64 Mem64).encode = .ok (buf15
      ((if p then [0x66] else []) ++ X86.rexByte w false false b ++ [op] ++ ib)) := by
  subst hib
  have := encode_none_eq (⟨p66 p, w, b, op1 op, none, imm⟩ : Encoder Reg64 Mem64) rfl
    (op1_full op) hi ((if p then [0x66] else []) ++ X86.rexByte w false false b ++ [op] ++ imm.asRef)
    (by rw [← pfx_bytes]; rfl)
  rw [this, if_neg (fun h => by simp [h8 h.1] at h), if_pos]
  simp only [List.length_append, List.length_cons, List.length_nil, BytesAtMost.length_asRef hi]
  have := length_rexBytes w false false b
  rw [rexBytes_eq] at this
  have := hi.2
  cases p <;> simp <;> omega

theorem bp_mod (r : Reg64) : isBpLike r = decide (num64 r % 8 = 5) := by cases r <;> rfl
theorem sp_mod (r : Reg64) : isSpLike r = decide (num64 r % 8 = 4) := by cases r <;> rfl

theorem disp_code (r : Reg64) (d : UInt32) :
    (if isBpLike r && d == 0 then 0b01 else if d == 0 then 0b00
      else if 1 ≤ d ∧ d ≤ 256 then 0b01 else 0b10 : UInt8) = UInt8.ofNat (dispMod (num64 r) d.toNat) ∧
    ∃ b : BytesAtMost 4, (if isBpLike r && d == 0 then BytesAtMost.ofU8 4 0
      else if d == 0 then BytesAtMost.withLen 4 0
      else if 1 ≤ d ∧ d ≤ 256 then BytesAtMost.ofU8 4 d.toUInt8
      else BytesAtMost.ofU32 4 d) = .ok b ∧ b.Full ∧ b.asRef = dispCode (num64 r) d.toNat := by
  rw [bp_mod]
  unfold dispMod dispCode
  by_cases h0 : d = 0
  · subst h0
    by_cases h5 : num64 r % 8 = 5
    · simp only [h5, decide_true, beq_self_eq_true, Bool.and_self, if_true]
      exact ⟨rfl, _, rfl, ⟨rfl, by decide⟩, rfl⟩
    · simp only [h5, decide_false, Bool.false_and, Bool.false_eq_true, if_false, beq_self_eq_true, if_true]
      exact ⟨rfl, _, rfl, ⟨rfl, by decide⟩, rfl⟩
  · have h1 : 1 ≤ d := (one_le_iff d).2 h0
    have hn : d.toNat ≠ 0 := fun h => h0 (UInt32.toNat_inj.1 h)
    have he : (d == 0) = false := by simpa using h0
    simp only [he, Bool.and_false, Bool.false_eq_true, if_false, h1, true_and, hn]
    have hle : d ≤ 256 ↔ d.toNat ≤ 256 := UInt32.le_iff_toNat_le
    by_cases h : d.toNat ≤ 256
    · rw [if_pos (hle.2 h), if_pos (hle.2 h), if_pos h, if_pos h]
      refine ⟨rfl, _, rfl, ⟨rfl, by show 1 ≤ 4; omega⟩, ?_⟩
      show [d.toUInt8] = le 1 d.toNat
      rw [← le_eq]
      simp only [leBytes, List.cons.injEq, and_true]
      apply UInt8.toNat_inj.1
      simp [UInt8.toNat_ofNat']
    · rw [if_neg (fun hc => h (hle.1 hc)), if_neg (fun hc => h (hle.1 hc)), if_neg h, if_neg h]
      exact ⟨rfl, _, ofU32_4 d, ⟨length_leBytes _ _, by show 4 ≤ 4; omega⟩, by
        rw [← le_eq]; exact asRef_four _⟩

theorem memCode_of (reg : Nat) (m : Mem64) (hm : MemOk m) : Nonempty (MemCode reg m) := by
  have hmd : ∀ b d, dispMod b d < 4 := by intro b d; unfold dispMod; split <;> split <;> omega
  have h8 : ∀ n, n % 8 < 8 := fun n => Nat.mod_lt _ (by omega)
  cases m with
  | ripOffset d =>
    refine ⟨⟨0, 5, none, ⟨leBytes 4 d.toNat, 4⟩, rfl, by omega, rfl, by omega, rfl, ofU32_4 d,
      ⟨length_leBytes _ _, by show 4 ≤ 4; omega⟩, ?_⟩⟩
    rw [asRef_four, le_eq]; rfl
  | regOffset r d =>
    obtain ⟨hm1, b, hb1, hb2, hb3⟩ := disp_code r d
    by_cases h4 : num64 r % 8 = 4
    · have hsp : isSpLike r = true := by rw [sp_mod]; simpa using h4
      refine ⟨⟨dispMod (num64 r) d.toNat, num64 r % 8, some ⟨UInt8.ofNat (64 * 0 + 8 * 4 + 4)⟩, b, ?_, hmd _ _, ?_, h8 _,
        ?_, hb1, hb2, ?_⟩⟩
      · rw [regMode_eq, hm1]
      · simp only [Mem64.rm, RegMemLike.rm, reg64_code]
      · simp only [Mem64.sibByte, hsp, if_true]
        have := sib_tab 0 (by omega) 4 (by omega) 4 (by omega)
        simp at this
        simp only [this]; rfl
      · rw [hb3, memCode, if_pos h4]; rfl
    · have hsp : isSpLike r = false := by rw [sp_mod]; simpa using h4
      refine ⟨⟨dispMod (num64 r) d.toNat, num64 r % 8, none, b, ?_, hmd _ _, ?_, h8 _, ?_, hb1, hb2, ?_⟩⟩
      · rw [regMode_eq, hm1]
      · simp only [Mem64.rm, RegMemLike.rm, reg64_code]
      · simp [Mem64.sibByte, hsp]
      · rw [hb3, memCode, if_neg h4]; rfl
  | sib base d index scale =>
    have hs : scale.toNat < 4 := by simp only [MemOk] at hm; omega
    cases base with
    | none =>
      refine ⟨⟨0, 4, some ⟨UInt8.ofNat (64 * scale.toNat + 8 * (num64 index % 8) + 5)⟩,
        ⟨leBytes 4 d.toNat, 4⟩, rfl, by omega, rfl, by omega, ?_, ofU32_4 d,
        ⟨length_leBytes _ _, by show 4 ≤ 4; omega⟩, ?_⟩⟩
      · have := sibNew_reg scale (num64 index % 8) 5 hs (h8 _) (by omega)
        simp only [Mem64.sibByte, regBits_eq]
        rw [show (0b101 : UInt8) = UInt8.ofNat 5 from rfl, this]; rfl
      · rw [asRef_four, le_eq]; rfl
    | some b =>
      obtain ⟨hm1, c, hb1, hb2, hb3⟩ := disp_code b d
      refine ⟨⟨dispMod (num64 b) d.toNat, 4, some ⟨UInt8.ofNat (64 * scale.toNat + 8 * (num64 index % 8) + num64 b % 8)⟩,
        c, ?_, hmd _ _, rfl, by omega, ?_, hb1, hb2, ?_⟩⟩
      · rw [sibMode_eq, hm1]
      · have := sibNew_reg scale (num64 index % 8) (num64 b % 8) hs (h8 _) (h8 _)
        simp only [Mem64.sibByte, regBits_eq, this]
        rfl
      · rw [hb3]; rfl

/-- The bytes of every instruction value, and the rest of the buffer. -/
theorem bytecode_eq (i : Inst) (h : OperandsOk i) : i.bytecode = .ok (buf15 (machineCode i)) := by
  cases i with
  | movMemReg64 d s =>
    obtain ⟨S⟩ := memCode_of (num64 s) d h
    have := encode_reg_mem_code 0x89 s d S
    simp only [machineCode, X86.prefixes, operandCode, ← reg64_high, memB_eq, memX_eq]
    exact this
  | movReg16Reg16 d s =>
    have := encode_reg_reg_code true false 0x89 s d (reg16_code s) rfl (reg16_code d) rfl rfl rfl
    simp only [machineCode, X86.prefixes, operandCode, ← reg16_high]
    exact this
  | movReg32Reg32 d s =>
    have := encode_reg_reg_code false false 0x89 s d (reg32_code s) rfl (reg32_code d) rfl rfl rfl
    simp only [machineCode, X86.prefixes, operandCode, ← reg32_high]
    exact this
  | movReg64Reg64 d s =>
    have := encode_reg_reg_code false true 0x89 s d (reg64_code s) rfl (reg64_code d) rfl rfl rfl
    simp only [machineCode, X86.prefixes, operandCode, ← reg64_high]
    exact this
  | movReg16Imm d i =>
    have := encode_plain_code true false d.isExtended (UInt8.ofNat 0xB8 + UInt8.ofNat (num16 d % 8))
      ⟨leBytes 2 i.toNat ++ List.replicate (8 - 2) 0, 2⟩ (full_le 2 _ (by omega)) (by simp)
      (le 2 i.toNat) (by rw [asRef_le, le_eq])
    rw [← ofNat_add_code] at this
    simp only [machineCode, X86.prefixes, operandCode, ← reg16_high]
    refine Eq.trans ?_ this
    simp only [Inst.bytecode, movReg16Imm, new_eq, bind, Except.bind, Encoder.withPrefix, Encoder.withRexB, withOpcode1,
      ofU16_8, reg16_code, Encoder.withImm, ofNat_add_code]
    simp [p66]
  | movReg32Imm d i =>
    have := encode_plain_code false false d.isExtended (UInt8.ofNat 0xB8 + UInt8.ofNat (num32 d % 8))
      ⟨leBytes 4 i.toNat ++ List.replicate (8 - 4) 0, 4⟩ (full_le 4 _ (by omega)) (by simp)
      (le 4 i.toNat) (by rw [asRef_le, le_eq])
    rw [← ofNat_add_code] at this
    simp only [machineCode, X86.prefixes, operandCode, ← reg32_high]
    refine Eq.trans ?_ this
    simp only [Inst.bytecode, movReg32Imm, new_eq, bind, Except.bind, Encoder.withRexB, withOpcode1,
      ofU32_8, reg32_code, Encoder.withImm, ofNat_add_code]
    simp [p66]
  | movReg64Imm d i =>
    have := encode_plain_code false true d.isExtended (UInt8.ofNat 0xB8 + UInt8.ofNat (num64 d % 8))
      ⟨leBytes 8 i.toNat ++ List.replicate (8 - 8) 0, 8⟩ (full_le 8 _ (by omega)) (by simp)
      (le 8 i.toNat) (by rw [asRef_le, le_eq])
    rw [← ofNat_add_code] at this
    simp only [machineCode, X86.prefixes, operandCode, ← reg64_high]
    refine Eq.trans ?_ this
    simp only [Inst.bytecode, movReg64Imm, new_eq, bind, Except.bind, Encoder.withRexW, Encoder.withRexB, withOpcode1,
      ofU64_8, reg64_code, Encoder.withImm, ofNat_add_code]
    simp [p66]
  | leaReg64Mem d s =>
    obtain ⟨S⟩ := memCode_of (num64 d) s h
    have := encode_reg_mem_code 0x8D d s S
    simp only [machineCode, X86.prefixes, operandCode, ← reg64_high, memB_eq, memX_eq]
    exact this
  | pushU8 i =>
    have := encode_plain_code false false false 0x6A ⟨i :: List.replicate 7 0, 1⟩
      ⟨rfl, by show 1 ≤ 8; omega⟩ (by simp) (le 1 i.toNat) (by rw [← le_eq]; simp [leBytes, BytesAtMost.asRef])
    simp only [machineCode, X86.prefixes, operandCode]
    refine Eq.trans ?_ this
    simp only [Inst.bytecode, pushU8, new_eq, bind, Except.bind, withOpcode1, ofU8_8, Encoder.withImm]
    simp [p66]
  | pushU16 i =>
    have := encode_plain_code true false false 0x68 ⟨leBytes 2 i.toNat ++ List.replicate (8 - 2) 0, 2⟩
      (full_le 2 _ (by omega)) (by simp) (le 2 i.toNat) (by rw [asRef_le, le_eq])
    simp only [machineCode, X86.prefixes, operandCode]
    refine Eq.trans ?_ this
    simp only [Inst.bytecode, pushU16, new_eq, bind, Except.bind, Encoder.withPrefix, withOpcode1, ofU16_8,
      Encoder.withImm]
    simp [p66]
  | pushU32 i =>
    have := encode_plain_code false false false 0x68 ⟨leBytes 4 i.toNat ++ List.replicate (8 - 4) 0, 4⟩
      (full_le 4 _ (by omega)) (by simp) (le 4 i.toNat) (by rw [asRef_le, le_eq])
    simp only [machineCode, X86.prefixes, operandCode]
    refine Eq.trans ?_ this
    simp only [Inst.bytecode, pushU32, new_eq, bind, Except.bind, withOpcode1, ofU32_8, Encoder.withImm]
    simp [p66]
  | pushReg16 r => cases r <;> decide +kernel
  | pushReg64 r => cases r <;> decide +kernel
  | popReg16 r => cases r <;> decide +kernel
  | popReg64 r => cases r <;> decide +kernel
  | ret => decide +kernel
  | syscall => decide +kernel

/-- C80: the exact bytes of every instruction. -/
theorem C80_bytes (i : Inst) (h : OperandsOk i) (bs : Bytes) : Encodes i bs ↔ bs = machineCode i := by
  constructor
  · rintro ⟨b, h1, rfl⟩
    rw [bytecode_eq i h] at h1
    cases h1
    exact asRef_buf15 _
  · rintro rfl
    exact ⟨_, bytecode_eq i h, asRef_buf15 _⟩

theorem sib_panics (base : Option Reg64) (d : UInt32) (index : Reg64) (scale : UInt8) (h : ¬ scale.toNat ≤ 3) :
    (Mem64.sib base d index scale).sibByte = .error .panic := by
  have hs : ¬ scale ≤ 3 := fun hc => h (UInt8.le_iff_toNat_le.1 hc)
  cases base <;> simp [Mem64.sibByte, Sib.new, rassert, hs, bind, Except.bind] <;> rfl

theorem encode_sib_panics (op : UInt8) (rg : Reg64) (m : Mem64) (hm : m.sibByte = .error .panic) :
    (⟨none, true, false, op1 op, some (rg, m), noImm⟩ : Encoder Reg64 Mem64).encode = .error .panic := by
  have hreg : RegLike.reg rg ≤ (0b111 : UInt8) := by cases rg <;> decide
  have hmode : RegMemLike.mode m ≤ (0b11 : UInt8) := by
    have key : ∀ (b : Bool) (d : UInt32), (if b && d == 0 then 0b01 else if d == 0 then 0b00
        else if 1 ≤ d ∧ d ≤ 256 then 0b01 else 0b10 : UInt8) ≤ 3 := by
      intro b d
      split
      · decide
      · split
        · decide
        · split <;> decide
    cases m with
    | regOffset r d => exact key _ _
    | ripOffset d => show (0 : UInt8) ≤ 3; decide
    | sib base d i s => cases base with
      | none => show (0 : UInt8) ≤ 3; decide
      | some b => show (Mem64.sib (some b) d i s).mode ≤ 3; rw [sibMode_eq]; exact key _ _
  have hrm : RegMemLike.rm m ≤ (0b111 : UInt8) := by
    cases m with
    | regOffset r d => show RegMemLike.rm r ≤ _; cases r <;> decide
    | ripOffset d => show (0b101 : UInt8) ≤ _; decide
    | sib base d i s => show (0b100 : UInt8) ≤ _; decide
  have hs : RegMemLike.sib m = .error .panic := hm
  unfold Encoder.encode Encoder.encodeModRm
  simp [withLen_eq, ModRM.setReg, ModRM.setMode, ModRM.setRm, rassert, hreg, hmode, hrm, hs, bind, Except.bind,
    pure, Except.pure]

/-- C80: an operand with a scale above 3 (the public constructors build none) is the only cause of a
panic. -/
theorem C80_panics (i : Inst) : i.bytecode = .error .panic ↔ ¬ OperandsOk i := by
  constructor
  · intro h hok
    rw [bytecode_eq i hok] at h
    cases h
  · intro h
    cases i with
    | movMemReg64 d s =>
      cases d with
      | sib base d index scale => exact encode_sib_panics 0x89 s _ (sib_panics base d index scale h)
      | _ => exact absurd trivial h
    | leaReg64Mem d s =>
      cases s with
      | sib base o index scale => exact encode_sib_panics 0x8D d _ (sib_panics base o index scale h)
      | _ => exact absurd trivial h
    | _ => exact absurd trivial h

/-- Encodings from the Intel manual's and other assemblers' examples, one of each operand form. -/
example : machineCode (.movMemReg64 (.sib (some .R9) 0 .RBX 1) .R10) = [0x4D, 0x89, 0x14, 0x59] ∧
    machineCode (.leaReg64Mem .RAX (.ripOffset 0x12345678)) = [0x48, 0x8D, 0x05, 0x78, 0x56, 0x34, 0x12] ∧
    machineCode (.leaReg64Mem .RSI (.regOffset .RSP 8)) = [0x48, 0x8D, 0x74, 0x24, 0x08] ∧
    machineCode (.movMemReg64 (.regOffset .R13 0) .RDI) = [0x49, 0x89, 0x7D, 0x00] ∧
    machineCode (.leaReg64Mem .RCX (.sib none 0x1000 .RDX 3)) = [0x48, 0x8D, 0x0C, 0xD5, 0x00, 0x10, 0x00, 0x00] ∧
    machineCode (.movReg16Imm .R8W 0x1234) = [0x66, 0x41, 0xB8, 0x34, 0x12] ∧
    machineCode (.movReg32Reg32 .EAX .R15D) = [0x44, 0x89, 0xF8] ∧
    machineCode (.popReg16 .BX) = [0x66, 0x5B] ∧ machineCode .syscall = [0x0F, 0x05] := by
  decide +kernel

/-- An operand that makes the encoder panic. -/
example : ¬ OperandsOk (.leaReg64Mem .RAX (.sib none 0 .RCX 4)) := by
  simp [OperandsOk, MemOk]

end AT.Props
