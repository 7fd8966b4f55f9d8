import Verif.Proofs.X64Decode
/-!
Helper lemmas: for every instruction value, the bytes produced and what they decode to.
-/

namespace AT.X64
open X86 (Width MemRef num64 num32 num16 signed idxOf MemOk)

/-- The instruction the CPU will execute for each instruction value. -/
def cpuInst : Inst → X86.Inst
  | .movMemReg64 d s => .movMemReg .w64 (cpuMem d) (num64 s)
  | .movReg16Reg16 d s => .movRegReg .w16 (num16 d) (num16 s)
  | .movReg32Reg32 d s => .movRegReg .w32 (num32 d) (num32 s)
  | .movReg64Reg64 d s => .movRegReg .w64 (num64 d) (num64 s)
  | .movReg16Imm d i => .movRegImm .w16 (num16 d) i.toNat
  | .movReg32Imm d i => .movRegImm .w32 (num32 d) i.toNat
  | .movReg64Imm d i => .movRegImm .w64 (num64 d) i.toNat
  | .leaReg64Mem d s => .lea .w64 (num64 d) (cpuMem s)
  | .pushU8 i => .pushImm .w64 (signed 8 i.toNat)
  | .pushU16 i => .pushImm .w16 (signed 16 i.toNat)
  | .pushU32 i => .pushImm .w64 (signed 32 i.toNat)
  | .pushReg16 r => .pushReg .w16 (num16 r)
  | .pushReg64 r => .pushReg .w64 (num64 r)
  | .popReg16 r => .popReg .w16 (num16 r)
  | .popReg64 r => .popReg .w64 (num64 r)
  | .ret => .ret
  | .syscall => .syscall

/-- `a` yields bytes that decode to `ci`, whatever follows, and begin with the prefixes and opcode
of `pr`. -/
def Decodes (a : Res (BytesAtMost 15)) (ci : X86.Inst) (pr : X86.Prefixes) : Prop :=
  ∃ bs, a = .ok (buf15 bs) ∧ bs ≠ [] ∧ bs.length ≤ 15 ∧
    (∃ t, bs = optByte id (p66 pr.p66) ++ (X86.rexByte pr.w pr.r pr.x pr.b ++ (pr.opcode ++ t))) ∧
    ∀ rest, X86.decode (bs ++ rest) = some (ci, rest)

def op1 (b : UInt8) : BytesAtMost 3 := ⟨[b, 0, 0], 1⟩
def noImm : BytesAtMost 8 := ⟨List.replicate 8 0, 0⟩

theorem op1_full (b : UInt8) : (op1 b).Full := ⟨rfl, by show 1 ≤ 3; omega⟩
theorem op1_asRef (b : UInt8) : (op1 b).asRef = [b] := rfl
theorem noImm_full : noImm.Full := ⟨rfl, by decide⟩
theorem noImm_asRef : noImm.asRef = [] := rfl

theorem ofU8_8 (n : UInt8) : BytesAtMost.ofU8 8 n = .ok ⟨n :: List.replicate 7 0, 1⟩ := by
  simp [BytesAtMost.ofU8, BytesAtMost.ofArray, withLen_eq, overwrite_eq, rassert, bind, Except.bind,
    List.replicate]

theorem ofU16_8 (n : UInt16) : BytesAtMost.ofU16 8 n = .ok ⟨leBytes 2 n.toNat ++ List.replicate 6 0, 2⟩ := by
  simp [BytesAtMost.ofU16, withLen_eq, overwrite_eq, rassert, bind, Except.bind, length_leBytes]

theorem ofU32_8 (n : UInt32) : BytesAtMost.ofU32 8 n = .ok ⟨leBytes 4 n.toNat ++ List.replicate 4 0, 4⟩ := by
  simp [BytesAtMost.ofU32, withLen_eq, overwrite_eq, rassert, bind, Except.bind, length_leBytes]

theorem ofU64_8 (n : UInt64) : BytesAtMost.ofU64 8 n = .ok ⟨leBytes 8 n.toNat, 8⟩ := by
  simp [BytesAtMost.ofU64, withLen_eq, overwrite_eq, rassert, bind, Except.bind, length_leBytes]

theorem full_le (k n : Nat) (hk : k ≤ 8) :
    (⟨leBytes k n ++ List.replicate (8 - k) 0, k⟩ : BytesAtMost 8).Full :=
  ⟨by simp [length_leBytes]; omega, hk⟩

theorem asRef_le (k n : Nat) :
    (⟨leBytes k n ++ List.replicate (8 - k) 0, k⟩ : BytesAtMost 8).asRef = leBytes k n := by
  simp [BytesAtMost.asRef, length_leBytes]

theorem rexBytes_eq (w r x b : Bool) : rexBytes w r x b = X86.rexByte w r x b := rfl

theorem length_rexBytes (w r x b : Bool) : (rexBytes w r x b).length ≤ 1 := by
  unfold rexBytes; split <;> simp

theorem length_optByte_le {α : Type} (f : α → UInt8) (o : Option α) : (optByte f o).length ≤ 1 := by
  cases o <;> simp [optByte]

/-! ### ModRM instructions -/

theorem encode_reg_reg {R RM : Type} [RegLike R] [RegMemLike RM] (p w : Bool) (op : UInt8) (rg : R) (rm : RM)
    {nr nm : Nat} (h4 : op.toNat / 16 ≠ 4) (h66 : op.toNat ≠ 0x66)
    (h1 : RegLike.reg rg = UInt8.ofNat (nr % 8)) (h2 : RegMemLike.mode rm = 3)
    (h3 : RegMemLike.rm rm = UInt8.ofNat (nm % 8)) (h5 : RegMemLike.sib rm = .ok none)
    (h6 : RegMemLike.dispBytes rm = BytesAtMost.withLen 4 0)
    (hx : RegMemLike.rexX rm = false) :
    ∃ bs, (⟨p66 p, w, false, op1 op, some (rg, rm), noImm⟩ : Encoder R RM).encode = .ok (buf15 bs) ∧
      bs ≠ [] ∧ bs.length ≤ 15 ∧
      (∃ t, bs = optByte id (p66 p) ++ (X86.rexByte w (RegLike.rexR rg) false (RegMemLike.rexB rm) ++ ([op] ++ t))) ∧
      ∀ rest, X86.decode (bs ++ rest) = X86.decodeOp p
        ⟨w, RegLike.rexR rg, false, RegMemLike.rexB rm⟩
        (op :: UInt8.ofNat (64 * 3 + 8 * (nr % 8) + nm % 8) :: rest) := by
  have hnr : nr % 8 < 8 := Nat.mod_lt _ (by omega)
  have hnm : nm % 8 < 8 := Nat.mod_lt _ (by omega)
  have hlen : (flatModRm (p66 p) w (RegLike.rexR rg) false (false || RegMemLike.rexB rm)
      [op] 3 (nr % 8) (nm % 8) none [] []).length ≤ 15 := by
    simp only [flatModRm, List.length_append, List.length_cons, List.length_nil]
    have := length_optByte_le id (p66 p)
    have := length_rexBytes w (RegLike.rexR rg) false (false || RegMemLike.rexB rm)
    have := length_optByte_le Sib.byte none
    omega
  have := encode_modRm_eq (⟨p66 p, w, false, op1 op, some (rg, rm), noImm⟩ : Encoder R RM) rfl
    (op1_full op) noImm_full h1 hnr h2 (by omega : 3 < 4) h3 hnm h5
    (by rw [h6, withLen_eq]; rfl) full_empty4
    (flatModRm (p66 p) w (RegLike.rexR rg) false (false || RegMemLike.rexB rm)
      [op] 3 (nr % 8) (nm % 8) none [] []) (by rw [hx]; rfl)
  refine ⟨_, ?_, ?_, hlen, ?_, ?_⟩
  · rw [this, if_neg (by simp [noImm]), if_pos hlen]
  · simp [flatModRm]
  · exact ⟨_, by simp only [flatModRm, List.append_assoc, Bool.false_or, rexBytes_eq]; rfl⟩
  · intro rest
    simp only [flatModRm, optByte_none, List.append_assoc, List.nil_append, List.cons_append, Bool.false_or]
    rw [decode_pfx _ _ _ _ _ _ _ h4 h66]

theorem encode_reg_mem (p w : Bool) (op : UInt8) (rg : Reg64) (m : Mem64) (S : MemShape m)
    (h4 : op.toNat / 16 ≠ 4) (h66 : op.toNat ≠ 0x66) :
    ∃ bs, (⟨p66 p, w, false, op1 op, some (rg, m), noImm⟩ : Encoder Reg64 Mem64).encode = .ok (buf15 bs) ∧
      bs ≠ [] ∧ bs.length ≤ 15 ∧
      (∃ t, bs = optByte id (p66 p) ++ (X86.rexByte w rg.isExtended m.rexX m.rexB ++ ([op] ++ t))) ∧
      ∀ rest, X86.decode (bs ++ rest) = X86.decodeOp p ⟨w, rg.isExtended, m.rexX, m.rexB⟩
        (op :: UInt8.ofNat (64 * S.md + 8 * (num64 rg % 8) + S.rn) ::
          (optByte Sib.byte S.sib ++ (S.disp.asRef ++ rest))) := by
  have hnr : num64 rg % 8 < 8 := Nat.mod_lt _ (by omega)
  have hlen : (flatModRm (p66 p) w (RegLike.rexR rg) (RegMemLike.rexX m) (false || RegMemLike.rexB m)
      [op] S.md (num64 rg % 8) S.rn S.sib S.disp.asRef []).length ≤ 15 := by
    simp only [flatModRm, List.length_append, List.length_cons, List.length_nil,
      BytesAtMost.length_asRef S.full]
    have := length_optByte_le id (p66 p)
    have := length_rexBytes w (RegLike.rexR rg) (RegMemLike.rexX m) (false || RegMemLike.rexB m)
    have := length_optByte_le Sib.byte S.sib
    have := S.full.2
    omega
  have := encode_modRm_eq (⟨p66 p, w, false, op1 op, some (rg, m), noImm⟩ : Encoder Reg64 Mem64) rfl
    (op1_full op) noImm_full (reg64_code rg) hnr S.mode_eq (by have := S.md_lt; omega) S.rm_eq S.rn_lt S.sib_eq
    S.disp_eq S.full (flatModRm (p66 p) w (RegLike.rexR rg) (RegMemLike.rexX m) (false || RegMemLike.rexB m)
      [op] S.md (num64 rg % 8) S.rn S.sib S.disp.asRef []) rfl
  refine ⟨_, ?_, ?_, hlen, ?_, ?_⟩
  · rw [this, if_neg (by simp [noImm]), if_pos hlen]
  · simp [flatModRm]
  · exact ⟨_, by simp only [flatModRm, List.append_assoc, Bool.false_or, rexBytes_eq]; rfl⟩
  · intro rest
    simp only [flatModRm, List.append_assoc, List.nil_append, List.cons_append, Bool.false_or]
    rw [decode_pfx _ _ _ _ _ _ _ h4 h66]
    rfl

/-! ### Instructions without ModRM -/

theorem encode_plain (p w b : Bool) (op : UInt8) (imm : BytesAtMost 8) (hi : imm.Full)
    (h4 : op.toNat / 16 ≠ 4) (h66 : op.toNat ≠ 0x66) (h8 : imm.len = 8 → w = true) :
    ∃ bs, (⟨p66 p, w, b, op1 op, none, imm⟩ : Encoder Reg64 Mem64).encode = .ok (buf15 bs) ∧
      bs ≠ [] ∧ bs.length ≤ 15 ∧
      bs = optByte id (p66 p) ++ (X86.rexByte w false false b ++ ([op] ++ imm.asRef)) ∧
      ∀ rest, X86.decode (bs ++ rest) = X86.decodeOp p ⟨w, false, false, b⟩
        (op :: (imm.asRef ++ rest)) := by
  have hlen : (optByte id (p66 p) ++ rexBytes w false false b ++ [op] ++ imm.asRef).length ≤ 15 := by
    simp only [List.length_append, List.length_cons, List.length_nil, BytesAtMost.length_asRef hi]
    have := length_optByte_le id (p66 p)
    have := length_rexBytes w false false b
    have := hi.2
    omega
  have := encode_none_eq (⟨p66 p, w, b, op1 op, none, imm⟩ : Encoder Reg64 Mem64) rfl
    (op1_full op) hi (optByte id (p66 p) ++ rexBytes w false false b ++ [op] ++ imm.asRef) rfl
  refine ⟨_, ?_, ?_, hlen, ?_, ?_⟩
  · rw [this, if_neg (fun h => by simp [h8 h.1] at h), if_pos hlen]
  · simp
  · simp only [List.append_assoc, rexBytes_eq]
  · intro rest
    simp only [List.append_assoc, List.nil_append, List.cons_append]
    rw [decode_pfx _ _ _ _ _ _ _ h4 h66]

/-! ### The encoders built by each instruction -/

theorem withOpcode1 {R RM : Type} (e : Encoder R RM) (b : UInt8) :
    e.withOpcode [b] = .ok { e with opcode := op1 b } := rfl

theorem new_eq : Encoder.new = .ok ⟨none, false, false, ⟨List.replicate 3 0, 0⟩, none, noImm⟩ := rfl

theorem add_code (k n : Nat) (hk : k + 7 < 256) :
    (UInt8.ofNat k + UInt8.ofNat (n % 8)).toNat = k + n % 8 := by
  have : n % 8 < 8 := Nat.mod_lt _ (by omega)
  simp [UInt8.toNat_add, UInt8.toNat_ofNat']; omega

theorem decodeOp_immReg (p : Bool) (rex : X86.Rex) (op : UInt8) (n : Nat) (hop : op.toNat = 0xB8 + n % 8)
    (bs : Bytes) : X86.decodeOp p rex (op :: bs) =
      (X86.take (X86.opSize p rex).bytes bs).bind fun x =>
        some (.movRegImm (X86.opSize p rex) (n % 8 + X86.ext rex.b) (X86.leNat x.1), x.2) := by
  have : n % 8 < 8 := Nat.mod_lt _ (by omega)
  unfold X86.decodeOp
  simp only []
  rw [if_neg (by omega), if_neg (by omega), if_neg (by omega), if_pos (by omega),
    show op.toNat % 8 = n % 8 by omega]
  rfl

theorem decodeOp_push (p : Bool) (rex : X86.Rex) (op : UInt8) (n : Nat) (hop : op.toNat = 0x50 + n % 8)
    (bs : Bytes) : X86.decodeOp p rex (op :: bs) =
      some (.pushReg (X86.stackSize p rex) (n % 8 + X86.ext rex.b), bs) := by
  have : n % 8 < 8 := Nat.mod_lt _ (by omega)
  unfold X86.decodeOp
  simp only []
  rw [if_neg (by omega), if_neg (by omega), if_neg (by omega), if_neg (by omega), if_pos (by omega),
    show op.toNat % 8 = n % 8 by omega]

theorem decodeOp_pop (p : Bool) (rex : X86.Rex) (op : UInt8) (n : Nat) (hop : op.toNat = 0x58 + n % 8)
    (bs : Bytes) : X86.decodeOp p rex (op :: bs) =
      some (.popReg (X86.stackSize p rex) (n % 8 + X86.ext rex.b), bs) := by
  have : n % 8 < 8 := Nat.mod_lt _ (by omega)
  unfold X86.decodeOp
  simp only []
  rw [if_neg (by omega), if_neg (by omega), if_neg (by omega), if_neg (by omega), if_neg (by omega),
    if_pos (by omega), show op.toNat % 8 = n % 8 by omega]

theorem reg64_high (r : Reg64) : r.isExtended = X86.high (num64 r) := by cases r <;> rfl
theorem reg32_high (r : Reg32) : r.isExtended = X86.high (num32 r) := by cases r <;> rfl
theorem reg16_high (r : Reg16) : r.isExtended = X86.high (num16 r) := by cases r <;> rfl

theorem memB_eq (m : Mem64) : X86.memB m = m.rexB := by
  cases m with
  | regOffset r d => exact (reg64_high r).symm
  | ripOffset d => rfl
  | sib b d i s => cases b with
    | none => rfl
    | some b => exact (reg64_high b).symm

theorem memX_eq (m : Mem64) : X86.memX m = m.rexX := by
  cases m with
  | regOffset r d => rfl
  | ripOffset d => rfl
  | sib b d i s => exact (reg64_high i).symm

theorem ofNat_add_code (k n : Nat) : UInt8.ofNat (k + n % 8) = UInt8.ofNat k + UInt8.ofNat (n % 8) :=
  UInt8.ofNat_add _ _

/-! ### Every instruction -/

theorem decodes_movMemReg64 (d : Mem64) (s : Reg64) (h : MemOk d) :
    Decodes (movMemReg64 d s) (.movMemReg .w64 (cpuMem d) (num64 s)) (X86.prefixes (.movMemReg64 d s)) := by
  obtain ⟨S⟩ := memShape d h
  obtain ⟨bs, h1, h2, h3, h5, h4⟩ := encode_reg_mem false true 0x89 s d S (by decide) (by decide)
  refine ⟨bs, h1, h2, h3, by simpa only [X86.prefixes, ← reg64_high, memB_eq, memX_eq] using h5, fun rest => ?_⟩
  rw [h4]
  simp only [X86.decodeOp, show (0x89 : UInt8).toNat = 0x89 from rfl, if_true]
  rw [takeModRM_mem _ S.md_lt (Nat.mod_lt _ (by omega)) S.rn_lt _ rest (cpuMem d) (S.dec _ _ rest)]
  simp [X86.opSize, reg64_ext]

theorem decodes_lea (d : Reg64) (s : Mem64) (h : MemOk s) :
    Decodes (leaReg64Mem d s) (.lea .w64 (num64 d) (cpuMem s)) (X86.prefixes (.leaReg64Mem d s)) := by
  obtain ⟨S⟩ := memShape s h
  obtain ⟨bs, h1, h2, h3, h5, h4⟩ := encode_reg_mem false true 0x8D d s S (by decide) (by decide)
  refine ⟨bs, h1, h2, h3, by simpa only [X86.prefixes, ← reg64_high, memB_eq, memX_eq] using h5, fun rest => ?_⟩
  rw [h4]
  simp only [X86.decodeOp, show (0x8D : UInt8).toNat = 0x8D from rfl, if_true]
  rw [takeModRM_mem _ S.md_lt (Nat.mod_lt _ (by omega)) S.rn_lt _ rest (cpuMem s) (S.dec _ _ rest)]
  simp [X86.opSize, reg64_ext]

theorem decodes_movReg64Reg64 (d s : Reg64) :
    Decodes (movReg64Reg64 d s) (.movRegReg .w64 (num64 d) (num64 s)) (X86.prefixes (.movReg64Reg64 d s)) := by
  obtain ⟨bs, h1, h2, h3, h5, h4⟩ := encode_reg_reg false true 0x89 s d (by decide) (by decide)
    (reg64_code s) rfl (reg64_code d) rfl rfl rfl
  refine ⟨bs, h1, h2, h3, by simp only [X86.prefixes, ← reg64_high]; exact h5, fun rest => ?_⟩
  rw [h4]
  simp only [X86.decodeOp, show (0x89 : UInt8).toNat = 0x89 from rfl, if_true]
  rw [takeModRM_reg _ (Nat.mod_lt _ (by omega)) (Nat.mod_lt _ (by omega))]
  simp [X86.opSize, RegLike.rexR, RegMemLike.rexB, reg64_ext]

theorem decodes_movReg32Reg32 (d s : Reg32) :
    Decodes (movReg32Reg32 d s) (.movRegReg .w32 (num32 d) (num32 s)) (X86.prefixes (.movReg32Reg32 d s)) := by
  obtain ⟨bs, h1, h2, h3, h5, h4⟩ := encode_reg_reg false false 0x89 s d (by decide) (by decide)
    (reg32_code s) rfl (reg32_code d) rfl rfl rfl
  refine ⟨bs, h1, h2, h3, by simp only [X86.prefixes, ← reg32_high]; exact h5, fun rest => ?_⟩
  rw [h4]
  simp only [X86.decodeOp, show (0x89 : UInt8).toNat = 0x89 from rfl, if_true]
  rw [takeModRM_reg _ (Nat.mod_lt _ (by omega)) (Nat.mod_lt _ (by omega))]
  simp [X86.opSize, RegLike.rexR, RegMemLike.rexB, reg32_ext]

theorem decodes_movReg16Reg16 (d s : Reg16) :
    Decodes (movReg16Reg16 d s) (.movRegReg .w16 (num16 d) (num16 s)) (X86.prefixes (.movReg16Reg16 d s)) := by
  obtain ⟨bs, h1, h2, h3, h5, h4⟩ := encode_reg_reg true false 0x89 s d (by decide) (by decide)
    (reg16_code s) rfl (reg16_code d) rfl rfl rfl
  refine ⟨bs, h1, h2, h3, by simp only [X86.prefixes, ← reg16_high]; exact h5, fun rest => ?_⟩
  rw [h4]
  simp only [X86.decodeOp, show (0x89 : UInt8).toNat = 0x89 from rfl, if_true]
  rw [takeModRM_reg _ (Nat.mod_lt _ (by omega)) (Nat.mod_lt _ (by omega))]
  simp [X86.opSize, RegLike.rexR, RegMemLike.rexB, reg16_ext]

theorem code_div (k n : Nat) (hk : k + 7 < 256) (hk4 : ∀ i < 8, (k + i) / 16 ≠ 4) :
    (UInt8.ofNat k + UInt8.ofNat (n % 8)).toNat / 16 ≠ 4 := by
  rw [add_code k n hk]; exact hk4 _ (Nat.mod_lt _ (by omega))

theorem code_ne (k n : Nat) (hk : k + 7 < 256) (hk4 : ∀ i < 8, k + i ≠ 0x66) :
    (UInt8.ofNat k + UInt8.ofNat (n % 8)).toNat ≠ 0x66 := by
  rw [add_code k n hk]; exact hk4 _ (Nat.mod_lt _ (by omega))

theorem decodes_movReg64Imm (d : Reg64) (i : UInt64) :
    Decodes (movReg64Imm d i) (.movRegImm .w64 (num64 d) i.toNat) (X86.prefixes (.movReg64Imm d i)) := by
  obtain ⟨bs, h1, h2, h3, h5, h4⟩ := encode_plain false true d.isExtended
    (UInt8.ofNat 0xB8 + UInt8.ofNat (num64 d % 8)) ⟨leBytes 8 i.toNat ++ List.replicate (8 - 8) 0, 8⟩
    (full_le 8 _ (by omega)) (code_div _ _ (by omega) (by omega)) (code_ne _ _ (by omega) (by omega)) (by simp)
  refine ⟨bs, ?_, h2, h3, ⟨_, by rw [h5]; simp only [X86.prefixes, ← reg64_high, ofNat_add_code]; rfl⟩, fun rest => ?_⟩
  · simp only [movReg64Imm, new_eq, bind, Except.bind, Encoder.withRexW, Encoder.withRexB, withOpcode1,
      ofU64_8, reg64_code, Encoder.withImm]
    simpa [p66] using h1
  · rw [h4, decodeOp_immReg _ _ _ _ (add_code _ _ (by omega)), asRef_le]
    simp only [X86.opSize, if_true, Width.bytes, take_leBytes, leNat_leBytes, reg64_ext, Option.bind_some]
    rw [Nat.mod_eq_of_lt (by simpa using i.toNat_lt)]

theorem decodes_movReg32Imm (d : Reg32) (i : UInt32) :
    Decodes (movReg32Imm d i) (.movRegImm .w32 (num32 d) i.toNat) (X86.prefixes (.movReg32Imm d i)) := by
  obtain ⟨bs, h1, h2, h3, h5, h4⟩ := encode_plain false false d.isExtended
    (UInt8.ofNat 0xB8 + UInt8.ofNat (num32 d % 8)) ⟨leBytes 4 i.toNat ++ List.replicate (8 - 4) 0, 4⟩
    (full_le 4 _ (by omega)) (code_div _ _ (by omega) (by omega)) (code_ne _ _ (by omega) (by omega)) (by simp)
  refine ⟨bs, ?_, h2, h3, ⟨_, by rw [h5]; simp only [X86.prefixes, ← reg32_high, ofNat_add_code]; rfl⟩, fun rest => ?_⟩
  · simp only [movReg32Imm, new_eq, bind, Except.bind, Encoder.withRexB, withOpcode1,
      ofU32_8, reg32_code, Encoder.withImm]
    simpa [p66] using h1
  · rw [h4, decodeOp_immReg _ _ _ _ (add_code _ _ (by omega)), asRef_le]
    simp only [X86.opSize, Bool.false_eq_true, if_false, Width.bytes, take_leBytes, leNat_leBytes, reg32_ext,
      Option.bind_some]
    rw [Nat.mod_eq_of_lt (by simpa using i.toNat_lt)]

theorem decodes_movReg16Imm (d : Reg16) (i : UInt16) :
    Decodes (movReg16Imm d i) (.movRegImm .w16 (num16 d) i.toNat) (X86.prefixes (.movReg16Imm d i)) := by
  obtain ⟨bs, h1, h2, h3, h5, h4⟩ := encode_plain true false d.isExtended
    (UInt8.ofNat 0xB8 + UInt8.ofNat (num16 d % 8)) ⟨leBytes 2 i.toNat ++ List.replicate (8 - 2) 0, 2⟩
    (full_le 2 _ (by omega)) (code_div _ _ (by omega) (by omega)) (code_ne _ _ (by omega) (by omega)) (by simp)
  refine ⟨bs, ?_, h2, h3, ⟨_, by rw [h5]; simp only [X86.prefixes, ← reg16_high, ofNat_add_code]; rfl⟩, fun rest => ?_⟩
  · simp only [movReg16Imm, new_eq, bind, Except.bind, Encoder.withPrefix, Encoder.withRexB, withOpcode1,
      ofU16_8, reg16_code, Encoder.withImm]
    simpa [p66] using h1
  · rw [h4, decodeOp_immReg _ _ _ _ (add_code _ _ (by omega)), asRef_le]
    simp only [X86.opSize, Bool.false_eq_true, if_false, if_true, Width.bytes, take_leBytes, leNat_leBytes,
      reg16_ext, Option.bind_some]
    rw [Nat.mod_eq_of_lt (by simpa using i.toNat_lt)]

theorem decodes_pushReg64 (r : Reg64) : Decodes (pushReg64 r) (.pushReg .w64 (num64 r)) (X86.prefixes (.pushReg64 r)) := by
  obtain ⟨bs, h1, h2, h3, h5, h4⟩ := encode_plain false false r.isExtended
    (UInt8.ofNat 0x50 + UInt8.ofNat (num64 r % 8)) noImm noImm_full
    (code_div _ _ (by omega) (by omega)) (code_ne _ _ (by omega) (by omega)) (by simp [noImm])
  refine ⟨bs, ?_, h2, h3, ⟨_, by rw [h5]; simp only [X86.prefixes, ← reg64_high, ofNat_add_code]; rfl⟩, fun rest => ?_⟩
  · simp only [pushReg64, new_eq, bind, Except.bind, Encoder.withRexB, withOpcode1, reg64_code]
    simpa [p66] using h1
  · rw [h4, decodeOp_push _ _ _ _ (add_code _ _ (by omega))]
    simp [X86.stackSize, reg64_ext, noImm_asRef]

theorem decodes_pushReg16 (r : Reg16) : Decodes (pushReg16 r) (.pushReg .w16 (num16 r)) (X86.prefixes (.pushReg16 r)) := by
  obtain ⟨bs, h1, h2, h3, h5, h4⟩ := encode_plain true false r.isExtended
    (UInt8.ofNat 0x50 + UInt8.ofNat (num16 r % 8)) noImm noImm_full
    (code_div _ _ (by omega) (by omega)) (code_ne _ _ (by omega) (by omega)) (by simp [noImm])
  refine ⟨bs, ?_, h2, h3, ⟨_, by rw [h5]; simp only [X86.prefixes, ← reg16_high, ofNat_add_code]; rfl⟩, fun rest => ?_⟩
  · simp only [pushReg16, new_eq, bind, Except.bind, Encoder.withPrefix, Encoder.withRexB, withOpcode1, reg16_code]
    simpa [p66] using h1
  · rw [h4, decodeOp_push _ _ _ _ (add_code _ _ (by omega))]
    simp [X86.stackSize, reg16_ext, noImm_asRef]

theorem decodes_popReg64 (r : Reg64) : Decodes (popReg64 r) (.popReg .w64 (num64 r)) (X86.prefixes (.popReg64 r)) := by
  obtain ⟨bs, h1, h2, h3, h5, h4⟩ := encode_plain false false r.isExtended
    (UInt8.ofNat 0x58 + UInt8.ofNat (num64 r % 8)) noImm noImm_full
    (code_div _ _ (by omega) (by omega)) (code_ne _ _ (by omega) (by omega)) (by simp [noImm])
  refine ⟨bs, ?_, h2, h3, ⟨_, by rw [h5]; simp only [X86.prefixes, ← reg64_high, ofNat_add_code]; rfl⟩, fun rest => ?_⟩
  · simp only [popReg64, new_eq, bind, Except.bind, Encoder.withRexB, withOpcode1, reg64_code]
    simpa [p66] using h1
  · rw [h4, decodeOp_pop _ _ _ _ (add_code _ _ (by omega))]
    simp [X86.stackSize, reg64_ext, noImm_asRef]

theorem decodes_popReg16 (r : Reg16) : Decodes (popReg16 r) (.popReg .w16 (num16 r)) (X86.prefixes (.popReg16 r)) := by
  obtain ⟨bs, h1, h2, h3, h5, h4⟩ := encode_plain true false r.isExtended
    (UInt8.ofNat 0x58 + UInt8.ofNat (num16 r % 8)) noImm noImm_full
    (code_div _ _ (by omega) (by omega)) (code_ne _ _ (by omega) (by omega)) (by simp [noImm])
  refine ⟨bs, ?_, h2, h3, ⟨_, by rw [h5]; simp only [X86.prefixes, ← reg16_high, ofNat_add_code]; rfl⟩, fun rest => ?_⟩
  · simp only [popReg16, new_eq, bind, Except.bind, Encoder.withPrefix, Encoder.withRexB, withOpcode1, reg16_code]
    simpa [p66] using h1
  · rw [h4, decodeOp_pop _ _ _ _ (add_code _ _ (by omega))]
    simp [X86.stackSize, reg16_ext, noImm_asRef]

theorem decodes_pushU8 (i : UInt8) : Decodes (pushU8 i) (.pushImm .w64 (signed 8 i.toNat)) (X86.prefixes (.pushU8 i)) := by
  obtain ⟨bs, h1, h2, h3, h5, h4⟩ := encode_plain false false false 0x6A ⟨i :: List.replicate 7 0, 1⟩
    ⟨rfl, by show 1 ≤ 8; omega⟩ (by decide) (by decide) (by simp)
  refine ⟨bs, ?_, h2, h3, ⟨_, h5⟩, fun rest => ?_⟩
  · simp only [pushU8, new_eq, bind, Except.bind, withOpcode1, ofU8_8, Encoder.withImm]
    simpa [p66] using h1
  · rw [h4]
    simp [X86.decodeOp, BytesAtMost.asRef, X86.take, X86.leNat, X86.stackSize]

theorem decodes_pushU16 (i : UInt16) : Decodes (pushU16 i) (.pushImm .w16 (signed 16 i.toNat)) (X86.prefixes (.pushU16 i)) := by
  obtain ⟨bs, h1, h2, h3, h5, h4⟩ := encode_plain true false false 0x68
    ⟨leBytes 2 i.toNat ++ List.replicate (8 - 2) 0, 2⟩
    (full_le 2 _ (by omega)) (by decide) (by decide) (by simp)
  refine ⟨bs, ?_, h2, h3, ⟨_, h5⟩, fun rest => ?_⟩
  · simp only [pushU16, new_eq, bind, Except.bind, Encoder.withPrefix, withOpcode1, ofU16_8, Encoder.withImm]
    simpa [p66] using h1
  · rw [h4, asRef_le]
    have : i.toNat < 65536 := i.toNat_lt
    simp [X86.decodeOp, take_leBytes, leNat_leBytes, X86.stackSize, Nat.mod_eq_of_lt this]

theorem decodes_pushU32 (i : UInt32) : Decodes (pushU32 i) (.pushImm .w64 (signed 32 i.toNat)) (X86.prefixes (.pushU32 i)) := by
  obtain ⟨bs, h1, h2, h3, h5, h4⟩ := encode_plain false false false 0x68
    ⟨leBytes 4 i.toNat ++ List.replicate (8 - 4) 0, 4⟩
    (full_le 4 _ (by omega)) (by decide) (by decide) (by simp)
  refine ⟨bs, ?_, h2, h3, ⟨_, h5⟩, fun rest => ?_⟩
  · simp only [pushU32, new_eq, bind, Except.bind, withOpcode1, ofU32_8, Encoder.withImm]
    simpa [p66] using h1
  · rw [h4, asRef_le]
    have : i.toNat < 4294967296 := i.toNat_lt
    simp [X86.decodeOp, take_leBytes, leNat_leBytes, X86.stackSize, Nat.mod_eq_of_lt this]

theorem decodes_ret : Decodes ret .ret (X86.prefixes (.ret)) := by
  refine ⟨[0xC3], rfl, by simp, by simp, ⟨[], rfl⟩, fun rest => ?_⟩
  simp [X86.decode, X86.take66, X86.takeRex, X86.decodeOp]

theorem decodes_syscall : Decodes syscall .syscall (X86.prefixes (.syscall)) := by
  refine ⟨[0x0F, 0x05], rfl, by simp, by simp, ⟨[], rfl⟩, fun rest => ?_⟩
  simp [X86.decode, X86.take66, X86.takeRex, X86.decodeOp]

/-- Every instruction value yields bytes that decode to exactly `cpuInst`. -/
theorem decodes_all (i : Inst) (h : X86.OperandsOk i) : Decodes i.bytecode (cpuInst i) (X86.prefixes i) := by
  cases i with
  | movMemReg64 d s => exact decodes_movMemReg64 d s h
  | movReg16Reg16 d s => exact decodes_movReg16Reg16 d s
  | movReg32Reg32 d s => exact decodes_movReg32Reg32 d s
  | movReg64Reg64 d s => exact decodes_movReg64Reg64 d s
  | movReg16Imm d i => exact decodes_movReg16Imm d i
  | movReg32Imm d i => exact decodes_movReg32Imm d i
  | movReg64Imm d i => exact decodes_movReg64Imm d i
  | leaReg64Mem d s => exact decodes_lea d s h
  | pushU8 i => exact decodes_pushU8 i
  | pushU16 i => exact decodes_pushU16 i
  | pushU32 i => exact decodes_pushU32 i
  | pushReg16 r => exact decodes_pushReg16 r
  | pushReg64 r => exact decodes_pushReg64 r
  | popReg16 r => exact decodes_popReg16 r
  | popReg64 r => exact decodes_popReg64 r
  | ret => exact decodes_ret
  | syscall => exact decodes_syscall

end AT.X64
