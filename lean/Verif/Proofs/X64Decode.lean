import Verif.Proofs.X64Basic
/-!
Helper lemmas: the specification decoder applied to the bytes the encoder model produces.
-/

namespace AT.X64
open X86 (Width MemRef num64 num32 num16 signed idxOf MemOk)

/-! ## Registers -/

theorem reg64_code (r : Reg64) : r.registerCode = UInt8.ofNat (num64 r % 8) := by cases r <;> rfl
theorem reg32_code (r : Reg32) : r.registerCode = UInt8.ofNat (num32 r % 8) := by cases r <;> rfl
theorem reg16_code (r : Reg16) : r.registerCode = UInt8.ofNat (num16 r % 8) := by cases r <;> rfl

theorem reg64_ext (r : Reg64) : num64 r % 8 + X86.ext r.isExtended = num64 r := by cases r <;> rfl
theorem reg32_ext (r : Reg32) : num32 r % 8 + X86.ext r.isExtended = num32 r := by cases r <;> rfl
theorem reg16_ext (r : Reg16) : num16 r % 8 + X86.ext r.isExtended = num16 r := by cases r <;> rfl

/-! ## Prefixes -/

theorem takeRex_rexBytes (w r x b : Bool) (op : UInt8) (rest : Bytes) (h : op.toNat / 16 ≠ 4) :
    X86.takeRex (rexBytes w r x b ++ op :: rest) = (⟨w, r, x, b⟩, op :: rest) := by
  cases w <;> cases r <;> cases x <;> cases b <;> simp [rexBytes, X86.takeRex, h]

theorem take66_rexBytes (w r x b : Bool) (op : UInt8) (rest : Bytes) (h : op.toNat ≠ 0x66) :
    X86.take66 (rexBytes w r x b ++ op :: rest) = (false, rexBytes w r x b ++ op :: rest) := by
  cases w <;> cases r <;> cases x <;> cases b <;> simp [rexBytes, X86.take66, h]

/-- The optional operand-size prefix. -/
def p66 (b : Bool) : Option UInt8 := if b then some 0x66 else none

theorem decode_pfx (p w r x b : Bool) (op : UInt8) (rest : Bytes) (h4 : op.toNat / 16 ≠ 4)
    (h66 : op.toNat ≠ 0x66) :
    X86.decode (optByte id (p66 p) ++ (rexBytes w r x b ++ op :: rest)) =
      X86.decodeOp p ⟨w, r, x, b⟩ (op :: rest) := by
  unfold X86.decode
  cases p
  · simp only [p66, Bool.false_eq_true, if_false, optByte_none, List.nil_append, take66_rexBytes _ _ _ _ _ _ h66,
      takeRex_rexBytes _ _ _ _ _ _ h4]
  · simp only [p66, if_true, optByte_some, id, List.cons_append, List.nil_append]
    simp [X86.take66, takeRex_rexBytes _ _ _ _ _ _ h4]

/-! ## ModRM -/

theorem toNat_modrm {md reg rm : Nat} (h1 : md < 4) (h2 : reg < 8) (h3 : rm < 8) :
    (UInt8.ofNat (64 * md + 8 * reg + rm)).toNat = 64 * md + 8 * reg + rm := by
  simp [UInt8.toNat_ofNat']; omega

theorem takeModRM_reg (rex : X86.Rex) {reg rm : Nat} (h2 : reg < 8) (h3 : rm < 8) (rest : Bytes) :
    X86.takeModRM rex (UInt8.ofNat (64 * 3 + 8 * reg + rm) :: rest) =
      some (reg + X86.ext rex.r, .inl (rm + X86.ext rex.b), rest) := by
  simp only [X86.takeModRM, toNat_modrm (by omega : 3 < 4) h2 h3]
  have e1 : (64 * 3 + 8 * reg + rm) / 64 = 3 := by omega
  have e2 : (64 * 3 + 8 * reg + rm) / 8 % 8 = reg := by omega
  have e3 : (64 * 3 + 8 * reg + rm) % 8 = rm := by omega
  simp [e1, e2, e3]

theorem takeModRM_mem (rex : X86.Rex) {md reg rm : Nat} (h1 : md < 3) (h2 : reg < 8) (h3 : rm < 8)
    (tail rest : Bytes) (m : MemRef) (h : X86.takeMem rex md rm tail = some (m, rest)) :
    X86.takeModRM rex (UInt8.ofNat (64 * md + 8 * reg + rm) :: tail) =
      some (reg + X86.ext rex.r, .inr m, rest) := by
  simp only [X86.takeModRM, toNat_modrm (by omega : md < 4) h2 h3]
  have e1 : (64 * md + 8 * reg + rm) / 64 = md := by omega
  have e2 : (64 * md + 8 * reg + rm) / 8 % 8 = reg := by omega
  have e3 : (64 * md + 8 * reg + rm) % 8 = rm := by omega
  simp [e1, e2, e3, h]; omega

theorem takeDisp_zero (rest : Bytes) : X86.takeDisp 0 rest = some (0, rest) := rfl

theorem takeDisp_one (d : Nat) (rest : Bytes) :
    X86.takeDisp 1 (leBytes 1 d ++ rest) = some (signed 8 (d % 256), rest) := by
  simp [X86.takeDisp, take_leBytes, leNat_leBytes]

theorem takeDisp_four (d : UInt32) (rest : Bytes) :
    X86.takeDisp 4 (leBytes 4 d.toNat ++ rest) = some (signed 32 d.toNat, rest) := by
  have : d.toNat < 4294967296 := d.toNat_lt
  simp [X86.takeDisp, take_leBytes, leNat_leBytes, Nat.mod_eq_of_lt this]

/-! ## Memory operands -/

/-- The displacement the CPU will use for a base-register operand with displacement `d`. -/
def cpuDisp (d : UInt32) : Int :=
  if d.toNat ≤ 256 then signed 8 (d.toNat % 256) else signed 32 d.toNat

/-- The operand the CPU will use for `m`. -/
def cpuMem : Mem64 → MemRef
  | .regOffset r d => .sib (some (num64 r)) none (cpuDisp d)
  | .ripOffset d => .rip (signed 32 d.toNat)
  | .sib none d index scale => .sib none (idxOf index scale.toNat) (signed 32 d.toNat)
  | .sib (some b) d index scale =>
    .sib (some (num64 b)) (idxOf index scale.toNat) (cpuDisp d)

theorem ofU8_4 (n : UInt8) : BytesAtMost.ofU8 4 n = .ok ⟨[n, 0, 0, 0], 1⟩ := by
  simp [BytesAtMost.ofU8, BytesAtMost.ofArray, withLen_eq, overwrite_eq, rassert, bind, Except.bind,
    List.replicate]

theorem ofU32_4 (n : UInt32) : BytesAtMost.ofU32 4 n = .ok ⟨leBytes 4 n.toNat, 4⟩ := by
  simp [BytesAtMost.ofU32, withLen_eq, overwrite_eq, rassert, bind, Except.bind, length_leBytes]

/-- Number of displacement bytes of a base-register operand. -/
def dispLen (bp : Bool) (d : UInt32) : Nat :=
  if d = 0 then (if bp then 1 else 0) else if d.toNat ≤ 256 then 1 else 4

/-- Mode, displacement bytes and decoded displacement of a base-register operand. -/
structure DispShape (mode : UInt8) (disp : Res (BytesAtMost 4)) (d : UInt32) (nozero : Bool) where
  md : Nat
  bytes : BytesAtMost 4
  mode_eq : mode = UInt8.ofNat md
  md_lt : md < 3
  bytes_eq : disp = .ok bytes
  full : bytes.Full
  nz : nozero = true → md ≠ 0
  len_eq : bytes.len = dispLen nozero d
  dec : ∀ rest, X86.takeDisp (X86.dispSize md) (bytes.asRef ++ rest) = some (cpuDisp d, rest)

theorem asRef_one (n : UInt8) : (⟨[n, 0, 0, 0], 1⟩ : BytesAtMost 4).asRef = [n] := rfl
theorem asRef_four (n : Nat) : (⟨leBytes 4 n, 4⟩ : BytesAtMost 4).asRef = leBytes 4 n := by
  simp [BytesAtMost.asRef, List.take_of_length_le, length_leBytes]

theorem cpuDisp_zero : cpuDisp 0 = 0 := rfl

theorem u8_leBytes (d : UInt32) : [d.toUInt8] = leBytes 1 d.toNat := by
  simp [leBytes]
  apply UInt8.toNat_inj.mp
  simp [UInt8.toNat_ofNat']

theorem toNat_ne_zero {d : UInt32} (h : d ≠ 0) : d.toNat ≠ 0 := by
  intro h'; apply h; exact UInt32.toNat_inj.mp (by simpa using h')

theorem le256_iff (d : UInt32) : d ≤ 256 ↔ d.toNat ≤ 256 := by
  rw [UInt32.le_iff_toNat_le]; rfl

theorem one_le_iff (d : UInt32) : 1 ≤ d ↔ d ≠ 0 := by
  rw [UInt32.le_iff_toNat_le]
  constructor
  · rintro h rfl; simp at h
  · intro h; have := toNat_ne_zero h; simp; omega

def dispShape (bp : Bool) (d : UInt32) : DispShape
    (if bp && d == 0 then 0b01 else if d == 0 then 0b00 else if 1 ≤ d ∧ d ≤ 256 then 0b01 else 0b10)
    (if bp && d == 0 then BytesAtMost.ofU8 4 0 else if d == 0 then BytesAtMost.withLen 4 0
      else if 1 ≤ d ∧ d ≤ 256 then BytesAtMost.ofU8 4 d.toUInt8 else BytesAtMost.ofU32 4 d) d bp := by
  by_cases h0 : d = 0
  · subst h0
    cases bp
    · refine ⟨0, ⟨List.replicate 4 0, 0⟩, rfl, by omega, ?_, full_empty4, by simp, rfl, ?_⟩
      · simp [withLen_eq]
      · intro rest; simp [asRef_empty, X86.dispSize, takeDisp_zero, cpuDisp_zero]
    · refine ⟨1, ⟨[0, 0, 0, 0], 1⟩, rfl, by omega, ?_, ⟨rfl, by decide⟩, by simp, rfl, ?_⟩
      · simp [ofU8_4]
      · intro rest
        have := takeDisp_one 0 rest
        simpa [asRef_one, X86.dispSize, cpuDisp_zero, leBytes, signed] using this
  · have hb : (d == 0) = false := by simpa using h0
    have h1 : 1 ≤ d := (one_le_iff d).2 h0
    by_cases h256 : d ≤ 256
    · refine ⟨1, ⟨[d.toUInt8, 0, 0, 0], 1⟩, ?_, by omega, ?_, ⟨rfl, by show 1 ≤ 4; omega⟩, by simp,
        by simp [dispLen, h0, (le256_iff d).1 h256], ?_⟩
      · simp [hb, h1, h256]
      · simp [hb, h1, h256, ofU8_4]
      · intro rest
        rw [asRef_one, u8_leBytes]
        simp [X86.dispSize, takeDisp_one, cpuDisp, (le256_iff d).1 h256]
    · refine ⟨2, ⟨leBytes 4 d.toNat, 4⟩, ?_, by omega, ?_, ⟨length_leBytes _ _, by show 4 ≤ 4; omega⟩, by simp,
        by simp [dispLen, h0, ← le256_iff, h256], ?_⟩
      · simp [hb, h256]
      · simp [hb, h256, ofU32_4]
      · intro rest
        have : ¬ d.toNat ≤ 256 := fun h => h256 ((le256_iff d).2 h)
        simp [asRef_four, X86.dispSize, takeDisp_four, cpuDisp, this]

/-- Number of ModRM, SIB and displacement bytes of a memory operand. -/
def memLen : Mem64 → Nat
  | .regOffset r d => 1 + (if isSpLike r then 1 else 0) + dispLen (isBpLike r) d
  | .ripOffset _ => 5
  | .sib none _ _ _ => 6
  | .sib (some b) d _ _ => 2 + dispLen (isBpLike b) d

/-- What the encoder produces for a memory operand, and how it decodes. -/
structure MemShape (m : Mem64) where
  md : Nat
  rn : Nat
  sib : Option Sib
  disp : BytesAtMost 4
  mode_eq : m.mode = UInt8.ofNat md
  md_lt : md < 3
  rm_eq : m.rm = UInt8.ofNat rn
  rn_lt : rn < 8
  sib_eq : m.sibByte = .ok sib
  disp_eq : m.dispBytes = .ok disp
  full : disp.Full
  len_eq : 1 + optLen sib + disp.len = memLen m
  dec : ∀ (w r : Bool) (rest : Bytes),
    X86.takeMem ⟨w, r, m.rexX, m.rexB⟩ md rn (optByte Sib.byte sib ++ (disp.asRef ++ rest)) =
      some (cpuMem m, rest)

theorem sibMode_eq (b : Reg64) (d : UInt32) (i : Reg64) (s : UInt8) :
    (Mem64.sib (some b) d i s).mode =
      if isBpLike b && d == 0 then 0b01 else if d == 0 then 0b00
      else if 1 ≤ d ∧ d ≤ 256 then 0b01 else 0b10 := by
  simp only [Mem64.mode]
  by_cases h0 : d = 0
  · subst h0; cases isBpLike b <;> simp
  · have h1 : 1 ≤ d := (one_le_iff d).2 h0
    by_cases h : d ≤ 256 <;> cases isBpLike b <;> simp [h0, h1, h]

theorem regMode_eq (b : Reg64) (d : UInt32) :
    (Mem64.regOffset b d).mode =
      if isBpLike b && d == 0 then 0b01 else if d == 0 then 0b00
      else if 1 ≤ d ∧ d ≤ 256 then 0b01 else 0b10 := rfl

theorem regBits_eq (r : Reg64) : r.regBits = UInt8.ofNat (num64 r % 8) := by cases r <;> rfl

theorem index_dec (i : Reg64) (s : Nat) :
    (if num64 i = 4 then none else some (num64 i, s)) = idxOf i s := by
  cases i <;> simp [num64, idxOf]

theorem sib_toNat {s i b : Nat} (hs : s < 4) (hi : i < 8) (hb : b < 8) :
    (UInt8.ofNat (64 * s + 8 * i + b)).toNat = 64 * s + 8 * i + b := toNat_modrm hs hi hb

theorem takeMem_sib (rex : X86.Rex) (md s i b : Nat) (hs : s < 4) (hi : i < 8) (hb : b < 8)
    (tail rest : Bytes) (d : Int)
    (hd : X86.takeDisp (if b = 5 ∧ md = 0 then 4 else X86.dispSize md) tail = some (d, rest)) :
    X86.takeMem rex md 4 (UInt8.ofNat (64 * s + 8 * i + b) :: tail) =
      some (.sib (if b = 5 ∧ md = 0 then none else some (b + X86.ext rex.b))
        (if i + X86.ext rex.x = 4 then none else some (i + X86.ext rex.x, s)) d, rest) := by
  have e1 : (64 * s + 8 * i + b) / 64 = s := by omega
  have e2 : (64 * s + 8 * i + b) / 8 % 8 = i := by omega
  have e3 : (64 * s + 8 * i + b) % 8 = b := by omega
  simp only [X86.takeMem, sib_toNat hs hi hb, e1, e2, e3, if_true]
  by_cases h : b = 5 ∧ md = 0
  · simp only [h, and_self, if_true] at hd ⊢
    simp [hd]
  · simp only [h, if_false] at hd ⊢
    simp [hd]

theorem sibNew_reg (s : UInt8) (i b : Nat) (hs : s.toNat < 4) (hi : i < 8) (hb : b < 8) :
    Sib.new s (UInt8.ofNat i) (UInt8.ofNat b) =
      .ok ⟨UInt8.ofNat (64 * s.toNat + 8 * i + b)⟩ := by
  have := sib_tab s.toNat hs i hi b hb
  simpa using this

theorem bpLike_iff (r : Reg64) : isBpLike r = true ↔ num64 r % 8 = 5 := by
  cases r <;> simp [isBpLike, num64]

theorem spLike_iff (r : Reg64) : isSpLike r = true ↔ num64 r % 8 = 4 := by
  cases r <;> simp [isSpLike, num64]

theorem memShape (m : Mem64) (hm : MemOk m) : Nonempty (MemShape m) := by
  cases m with
  | ripOffset d =>
    refine ⟨⟨0, 5, none, ⟨leBytes 4 d.toNat, 4⟩, rfl, by omega, rfl, by omega, rfl, ofU32_4 d,
      ⟨length_leBytes _ _, by show 4 ≤ 4; omega⟩, rfl, ?_⟩⟩
    intro w r rest
    simp [X86.takeMem, optByte_none, asRef_four, takeDisp_four, cpuMem]
  | regOffset r d =>
    have S := dispShape (isBpLike r) d
    by_cases hsp : isSpLike r = true
    · have h4 := (spLike_iff r).1 hsp
      refine ⟨⟨S.md, 4, some ⟨UInt8.ofNat (64 * 0 + 8 * 4 + 4)⟩, S.bytes, S.mode_eq, S.md_lt, ?_, by omega,
        ?_, S.bytes_eq, S.full, by simp [memLen, hsp, S.len_eq, optLen], ?_⟩⟩
      · simp only [Mem64.rm, RegMemLike.rm, reg64_code, h4]
      · simp only [Mem64.sibByte, hsp, if_true]
        have := sib_tab 0 (by omega) 4 (by omega) 4 (by omega)
        simp at this
        simp only [this]; rfl
      · intro w rr rest
        simp only [optByte_some, List.cons_append, List.nil_append]
        rw [takeMem_sib (d := cpuDisp d) (rest := rest) _ _ _ _ _ (by omega) (by omega) (by omega)]
        · simp only [cpuMem, Mem64.rexB, Mem64.rexX, Reg64.rexBBit]
          have := reg64_ext r
          rw [h4] at this
          simp [this]; simp [X86.ext]
        · simpa using S.dec rest
    · have h4 : num64 r % 8 ≠ 4 := fun h => hsp ((spLike_iff r).2 h)
      have h8 : num64 r % 8 < 8 := Nat.mod_lt _ (by omega)
      refine ⟨⟨S.md, num64 r % 8, none, S.bytes, S.mode_eq, S.md_lt, ?_, h8,
        ?_, S.bytes_eq, S.full, by simp [memLen, hsp, S.len_eq, optLen], ?_⟩⟩
      · simp only [Mem64.rm, RegMemLike.rm, reg64_code]
      · simp [Mem64.sibByte, hsp]
      · intro w rr rest
        have h5 : ¬ (num64 r % 8 = 5 ∧ S.md = 0) := fun h => S.nz ((bpLike_iff r).2 h.1) h.2
        have hd := S.dec rest
        simp [X86.takeMem, h4, h5, optByte_none, hd, cpuMem, Mem64.rexB, Reg64.rexBBit, reg64_ext]
  | sib base d index scale =>
    have hs : scale.toNat < 4 := by simp only [MemOk] at hm; omega
    have h8 : num64 index % 8 < 8 := Nat.mod_lt _ (by omega)
    cases base with
    | none =>
      refine ⟨⟨0, 4, some ⟨UInt8.ofNat (64 * scale.toNat + 8 * (num64 index % 8) + 5)⟩,
        ⟨leBytes 4 d.toNat, 4⟩, rfl, by omega, rfl, by omega, ?_, ofU32_4 d,
        ⟨length_leBytes _ _, by show 4 ≤ 4; omega⟩, rfl, ?_⟩⟩
      · have := sibNew_reg scale (num64 index % 8) 5 hs h8 (by omega)
        simp only [Mem64.sibByte, regBits_eq]
        rw [show (0b101 : UInt8) = UInt8.ofNat 5 from rfl, this]; rfl
      · intro w rr rest
        simp only [optByte_some, List.cons_append, List.nil_append]
        rw [takeMem_sib (d := signed 32 d.toNat) (rest := rest) _ _ _ _ _ hs h8 (by omega)]
        · simp only [cpuMem, Mem64.rexX, reg64_ext, index_dec]
          simp
        · simp [asRef_four, takeDisp_four]
    | some b =>
      have S := dispShape (isBpLike b) d
      have hb8 : num64 b % 8 < 8 := Nat.mod_lt _ (by omega)
      refine ⟨⟨S.md, 4, some ⟨UInt8.ofNat (64 * scale.toNat + 8 * (num64 index % 8) + num64 b % 8)⟩,
        S.bytes, ?_, S.md_lt, rfl, by omega, ?_, S.bytes_eq, S.full,
        by simp [memLen, S.len_eq, optLen], ?_⟩⟩
      · rw [sibMode_eq]; exact S.mode_eq
      · have := sibNew_reg scale (num64 index % 8) (num64 b % 8) hs h8 hb8
        simp only [Mem64.sibByte, regBits_eq]
        simp only [this]; rfl
      · intro w rr rest
        have h5 : ¬ (num64 b % 8 = 5 ∧ S.md = 0) := fun h => S.nz ((bpLike_iff b).2 h.1) h.2
        simp only [optByte_some, List.cons_append, List.nil_append]
        rw [takeMem_sib (d := cpuDisp d) (rest := rest) _ _ _ _ _ hs h8 hb8]
        · simp only [cpuMem, Mem64.rexX, Mem64.rexB, Reg64.rexBBit, reg64_ext, index_dec, h5, if_false]
        · simp only [h5, if_false]; exact S.dec rest

end AT.X64
