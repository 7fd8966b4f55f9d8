import Verif.Props.X64
import Verif.Spec.X64EncoderSpec
/-!
# Properties of `BytesAtMost` and `Encoder` (C10, C12)
-/

namespace AT.Props
open AT.X64
open X86 (RegArg RmArg num64 num32 num16)

/-! ## C10 -/

/-- `r` returned the buffer holding exactly `bs`. -/
def Holds {M : Nat} (r : Res (BytesAtMost M)) (bs : Bytes) : Prop :=
  ∃ b, r = .ok b ∧ b.len = bs.length ∧ b.asRef = bs

theorem ofArray_eq (M : Nat) (a : Bytes) : BytesAtMost.ofArray M a =
    if a.length ≤ M then .ok ⟨a ++ List.replicate (M - a.length) 0, a.length⟩ else .error .panic := by
  unfold BytesAtMost.ofArray
  by_cases h : a.length ≤ M <;>
    simp [h, rassert, withLen_eq, overwrite_eq, bind, Except.bind]

/-- C10 for arrays: panic exactly when the array is longer than `MAX`, else it is stored. -/
theorem C10_array (M : Nat) (a : Bytes) :
    (a.length ≤ M → Holds (BytesAtMost.ofArray M a) a) ∧
    (M < a.length → BytesAtMost.ofArray M a = .error .panic) := by
  rw [ofArray_eq]
  constructor
  · intro h
    rw [if_pos h]
    exact ⟨_, rfl, rfl, by simp [BytesAtMost.asRef]⟩
  · intro h
    rw [if_neg (by omega)]

/-- C10 for `with_len`: `n` zero bytes, or a panic when `n > MAX`. -/
theorem C10_with_len (M n : Nat) :
    (n ≤ M → Holds (BytesAtMost.withLen M n) (List.replicate n 0)) ∧
    (M < n → BytesAtMost.withLen M n = .error .panic) := by
  rw [withLen_eq]
  constructor
  · intro h
    rw [if_pos h]
    exact ⟨_, rfl, by simp, by simp [BytesAtMost.asRef, List.take_replicate, Nat.min_eq_left h]⟩
  · intro h
    rw [if_neg (by omega)]

/-- C10 for the queries: `len` counts the stored bytes and `is_empty` tells whether there are any. -/
theorem C10_queries (M : Nat) (b : BytesAtMost M) (hb : b.Full) :
    b.len = b.asRef.length ∧ (b.isEmpty = true ↔ b.asRef = []) := by
  have h := BytesAtMost.length_asRef hb
  refine ⟨h.symm, ?_⟩
  rw [← List.length_eq_zero_iff, h]
  simp [BytesAtMost.isEmpty]

theorem ofInt_holds (M k n : Nat) (h : k ≤ M) :
    Holds ((BytesAtMost.withLen M k).bind fun b => b.overwrite (leBytes k n)) (leBytes k n) := by
  rw [withLen_eq, if_pos h]
  simp only [Except.bind, overwrite_eq, length_leBytes, Nat.le_refl, if_true]
  refine ⟨_, rfl, ?_, ?_⟩
  · simp [length_leBytes]
  · simp only [BytesAtMost.asRef]
    rw [List.take_append_of_le_length (by simp [length_leBytes]), List.take_of_length_le (by simp [length_leBytes])]

/-- C10 for integers: panic exactly when the integer needs more than `MAX` bytes, else its
little-endian bytes are stored. -/
theorem C10_integers (M : Nat) :
    (∀ n : UInt8, (1 ≤ M → Holds (BytesAtMost.ofU8 M n) (leBytes 1 n.toNat)) ∧
      (M < 1 → BytesAtMost.ofU8 M n = .error .panic)) ∧
    (∀ n : UInt16, (2 ≤ M → Holds (BytesAtMost.ofU16 M n) (leBytes 2 n.toNat)) ∧
      (M < 2 → BytesAtMost.ofU16 M n = .error .panic)) ∧
    (∀ n : UInt32, (4 ≤ M → Holds (BytesAtMost.ofU32 M n) (leBytes 4 n.toNat)) ∧
      (M < 4 → BytesAtMost.ofU32 M n = .error .panic)) ∧
    (∀ n : UInt64, (8 ≤ M → Holds (BytesAtMost.ofU64 M n) (leBytes 8 n.toNat)) ∧
      (M < 8 → BytesAtMost.ofU64 M n = .error .panic)) := by
  refine ⟨fun n => ⟨fun h => ?_, fun h => ?_⟩, fun n => ⟨fun h => ?_, fun h => ?_⟩,
    fun n => ⟨fun h => ?_, fun h => ?_⟩, fun n => ⟨fun h => ?_, fun h => ?_⟩⟩
  · have := (C10_array M [n]).1 h
    have e : leBytes 1 n.toNat = [n] := by simp [leBytes]
    rw [e]
    simpa [BytesAtMost.ofU8, rassert, h, bind, Except.bind] using this
  · simp [BytesAtMost.ofU8, rassert, bind, Except.bind, show ¬ 1 ≤ M by omega]
  · have := ofInt_holds M 2 n.toNat h
    simpa [BytesAtMost.ofU16, rassert, show 1 ≤ M by omega, bind, Except.bind] using this
  · by_cases h1 : 1 ≤ M
    · simp [BytesAtMost.ofU16, rassert, bind, Except.bind, h1, withLen_eq, show ¬ 2 ≤ M by omega]
    · simp [BytesAtMost.ofU16, rassert, bind, Except.bind, h1]
  · have := ofInt_holds M 4 n.toNat h
    simpa [BytesAtMost.ofU32, rassert, h, bind, Except.bind] using this
  · simp [BytesAtMost.ofU32, rassert, bind, Except.bind, show ¬ 4 ≤ M by omega]
  · have := ofInt_holds M 8 n.toNat h
    simpa [BytesAtMost.ofU64, rassert, h, bind, Except.bind] using this
  · simp [BytesAtMost.ofU64, rassert, bind, Except.bind, show ¬ 8 ≤ M by omega]

/-- The little-endian bytes of a number, spelled out. -/
example : Holds (BytesAtMost.ofU32 5 0x12345678) [0x78, 0x56, 0x34, 0x12] :=
  (C10_integers 5).2.2.1 0x12345678 |>.1 (by omega)

/-! ## C12 -/

/-- Running the encoder on any configuration: the builder methods only set these fields. -/
def runEncoder (pfx : Option UInt8) (w b : Bool) (op : BytesAtMost 3) (imm : BytesAtMost 8) :
    Option (RegArg × RmArg) → Res (BytesAtMost 15)
  | none => (⟨pfx, w, b, op, none, imm⟩ : Encoder Reg64 Mem64).encode
  | some (.r64 r, .r64 m) => (⟨pfx, w, b, op, some (r, m), imm⟩ : Encoder Reg64 Reg64).encode
  | some (.r64 r, .r32 m) => (⟨pfx, w, b, op, some (r, m), imm⟩ : Encoder Reg64 Reg32).encode
  | some (.r64 r, .r16 m) => (⟨pfx, w, b, op, some (r, m), imm⟩ : Encoder Reg64 Reg16).encode
  | some (.r64 r, .mem m) => (⟨pfx, w, b, op, some (r, m), imm⟩ : Encoder Reg64 Mem64).encode
  | some (.r32 r, .r64 m) => (⟨pfx, w, b, op, some (r, m), imm⟩ : Encoder Reg32 Reg64).encode
  | some (.r32 r, .r32 m) => (⟨pfx, w, b, op, some (r, m), imm⟩ : Encoder Reg32 Reg32).encode
  | some (.r32 r, .r16 m) => (⟨pfx, w, b, op, some (r, m), imm⟩ : Encoder Reg32 Reg16).encode
  | some (.r32 r, .mem m) => (⟨pfx, w, b, op, some (r, m), imm⟩ : Encoder Reg32 Mem64).encode
  | some (.r16 r, .r64 m) => (⟨pfx, w, b, op, some (r, m), imm⟩ : Encoder Reg16 Reg64).encode
  | some (.r16 r, .r32 m) => (⟨pfx, w, b, op, some (r, m), imm⟩ : Encoder Reg16 Reg32).encode
  | some (.r16 r, .r16 m) => (⟨pfx, w, b, op, some (r, m), imm⟩ : Encoder Reg16 Reg16).encode
  | some (.r16 r, .mem m) => (⟨pfx, w, b, op, some (r, m), imm⟩ : Encoder Reg16 Mem64).encode
  | some (.ext r, .r64 m) => (⟨pfx, w, b, op, some (r, m), imm⟩ : Encoder UInt8 Reg64).encode
  | some (.ext r, .r32 m) => (⟨pfx, w, b, op, some (r, m), imm⟩ : Encoder UInt8 Reg32).encode
  | some (.ext r, .r16 m) => (⟨pfx, w, b, op, some (r, m), imm⟩ : Encoder UInt8 Reg16).encode
  | some (.ext r, .mem m) => (⟨pfx, w, b, op, some (r, m), imm⟩ : Encoder UInt8 Mem64).encode

/-- The REX bits a configuration needs. -/
def rexBits (w b : Bool) : Option (RegArg × RmArg) → X86.Rex
  | none => ⟨w, false, false, b⟩
  | some (r, m) => ⟨w, r.high, m.x, b || m.b⟩

/-- Total number of bytes. -/
def totalLen (pfx : Option UInt8) (w b : Bool) (op imm : Nat) (rm : Option (RegArg × RmArg)) : Nat :=
  X86.bit pfx.isSome 1 +
  X86.bit ((rexBits w b rm).w || (rexBits w b rm).r || (rexBits w b rm).x || (rexBits w b rm).b) 1 +
  op + (match rm with | none => 0 | some (_, m) => m.size) + imm

/-- The configurations that panic. -/
def Misuse (pfx : Option UInt8) (w b : Bool) (op imm : Nat) (rm : Option (RegArg × RmArg)) : Prop :=
  (imm = 8 ∧ w = false) ∨ (∃ r m, rm = some (r, m) ∧ (¬ r.Fits ∨ ¬ m.Fits)) ∨
    15 < totalLen pfx w b op imm rm

/-- What is required of the ModRM/SIB/displacement part `addr`: its size, and (unless the caller
also forced REX.B on) that the processor reads exactly the requested operands from it. -/
def AddrOk (w b : Bool) (addr : Bytes) : Option (RegArg × RmArg) → Prop
  | none => addr = []
  | some (r, m) => addr.length = m.size ∧ (b = false →
      ∀ rest, X86.takeModRM ⟨w, r.high, m.x, m.b⟩ (addr ++ rest) = some (r.num, m.operand, rest))

/-- The class laws used below. -/
structure RegLaw {R : Type} [RegLike R] (rg : R) (a : RegArg) : Prop where
  high : RegLike.rexR rg = a.high
  reg : RegLike.reg rg = UInt8.ofNat (a.num % 8) ∨ 7 < (RegLike.reg rg).toNat
  fits : a.Fits ↔ (RegLike.reg rg).toNat ≤ 7
  num : a.Fits → a.num % 8 + X86.ext a.high = a.num

theorem regLaw64 (r : Reg64) : RegLaw r (.r64 r) :=
  ⟨reg64_high r, .inl (reg64_code r), by simp only [RegArg.Fits, true_iff]; cases r <;> decide,
    fun _ => by cases r <;> rfl⟩
theorem regLaw32 (r : Reg32) : RegLaw r (.r32 r) :=
  ⟨reg32_high r, .inl (reg32_code r), by simp only [RegArg.Fits, true_iff]; cases r <;> decide,
    fun _ => by cases r <;> rfl⟩
theorem regLaw16 (r : Reg16) : RegLaw r (.r16 r) :=
  ⟨reg16_high r, .inl (reg16_code r), by simp only [RegArg.Fits, true_iff]; cases r <;> decide,
    fun _ => by cases r <;> rfl⟩
theorem regLawExt (n : UInt8) : RegLaw n (.ext n) := by
  refine ⟨rfl, ?_, Iff.rfl, ?_⟩
  · by_cases h : n.toNat ≤ 7
    · left
      show n = _
      rw [RegArg.num, Nat.mod_eq_of_lt (by omega)]
      simp
    · right; show 7 < n.toNat; omega
  · intro h
    simp only [RegArg.Fits] at h
    simp only [RegArg.num, RegArg.high, X86.ext]
    simp; omega

structure RmGood {RM : Type} [RegMemLike RM] (rm : RM) (a : RmArg) where
  md : Nat
  rn : Nat
  sib : Option Sib
  disp : BytesAtMost 4
  mode_eq : RegMemLike.mode rm = UInt8.ofNat md
  md_lt : md < 4
  rm_eq : RegMemLike.rm rm = UInt8.ofNat rn
  rn_lt : rn < 8
  sib_eq : RegMemLike.sib rm = .ok sib
  disp_eq : RegMemLike.dispBytes rm = .ok disp
  full : disp.Full
  len_eq : 1 + optLen sib + disp.len = a.size
  dec : ∀ (w r : Bool) (reg : Nat) (_ : reg < 8) (rest : Bytes),
    X86.takeModRM ⟨w, r, a.x, a.b⟩ ([UInt8.ofNat (64 * md + 8 * reg + rn)] ++
      (optByte Sib.byte sib ++ (disp.asRef ++ rest))) = some (reg + X86.ext r, a.operand, rest)

structure RmLaw {RM : Type} [RegMemLike RM] (rm : RM) (a : RmArg) : Prop where
  rexB : RegMemLike.rexB rm = a.b
  rexX : RegMemLike.rexX rm = a.x
  good : a.Fits → Nonempty (RmGood rm a)
  bad : ¬ a.Fits → RegMemLike.sib rm = .error .panic

theorem rmLaw64 (r : Reg64) : RmLaw r (.r64 r) := by
  refine ⟨reg64_high r, rfl, fun _ => ⟨⟨3, num64 r % 8, none, ⟨List.replicate 4 0, 0⟩, rfl, by omega,
    reg64_code r, Nat.mod_lt _ (by omega), rfl, (withLen_eq 4 0).trans (if_pos (Nat.zero_le 4)),
    full_empty4, rfl, ?_⟩⟩, fun h => absurd trivial h⟩
  intro w rr reg hreg rest
  have := takeModRM_reg ⟨w, rr, false, X86.high (num64 r)⟩ hreg (Nat.mod_lt (num64 r) (by omega : 0 < 8)) rest
  simpa [optByte_none, asRef_empty, ← reg64_high, reg64_ext, RmArg.operand, RmArg.x, RmArg.b] using this

theorem rmLaw32 (r : Reg32) : RmLaw r (.r32 r) := by
  refine ⟨reg32_high r, rfl, fun _ => ⟨⟨3, num32 r % 8, none, ⟨List.replicate 4 0, 0⟩, rfl, by omega,
    reg32_code r, Nat.mod_lt _ (by omega), rfl, (withLen_eq 4 0).trans (if_pos (Nat.zero_le 4)),
    full_empty4, rfl, ?_⟩⟩, fun h => absurd trivial h⟩
  intro w rr reg hreg rest
  have := takeModRM_reg ⟨w, rr, false, X86.high (num32 r)⟩ hreg (Nat.mod_lt (num32 r) (by omega : 0 < 8)) rest
  simpa [optByte_none, asRef_empty, ← reg32_high, reg32_ext, RmArg.operand, RmArg.x, RmArg.b] using this

theorem rmLaw16 (r : Reg16) : RmLaw r (.r16 r) := by
  refine ⟨reg16_high r, rfl, fun _ => ⟨⟨3, num16 r % 8, none, ⟨List.replicate 4 0, 0⟩, rfl, by omega,
    reg16_code r, Nat.mod_lt _ (by omega), rfl, (withLen_eq 4 0).trans (if_pos (Nat.zero_le 4)),
    full_empty4, rfl, ?_⟩⟩, fun h => absurd trivial h⟩
  intro w rr reg hreg rest
  have := takeModRM_reg ⟨w, rr, false, X86.high (num16 r)⟩ hreg (Nat.mod_lt (num16 r) (by omega : 0 < 8)) rest
  simpa [optByte_none, asRef_empty, ← reg16_high, reg16_ext, RmArg.operand, RmArg.x, RmArg.b] using this

theorem dispLen_spec (r : Reg64) (d : UInt32) :
    dispLen (isBpLike r) d = X86.dispBytes (num64 r) d.toNat := by
  unfold dispLen X86.dispBytes
  by_cases h0 : d = 0
  · subst h0
    by_cases h : isBpLike r = true
    · simp [h, (bpLike_iff r).1 h]
    · have : ¬ num64 r % 8 = 5 := fun h' => h ((bpLike_iff r).2 h')
      simp [h, this]
  · simp [h0, toNat_ne_zero h0]

theorem memLen_spec (m : Mem64) : memLen m = (RmArg.mem m).size := by
  cases m with
  | regOffset r d =>
    simp only [memLen, RmArg.size, dispLen_spec]
    by_cases h : isSpLike r = true
    · simp [h, (spLike_iff r).1 h]
    · have : ¬ num64 r % 8 = 4 := fun h' => h ((spLike_iff r).2 h')
      simp [h, this]
  | ripOffset d => rfl
  | sib base d i s => cases base <;> simp [memLen, RmArg.size, dispLen_spec]

theorem cpuMem_spec (m : Mem64) : cpuMem m = X86.wireMem m := by
  cases m with
  | sib base d i s => cases base <;> rfl
  | _ => rfl

theorem sibNew_bad (s : UInt8) (i b : UInt8) (h : ¬ s.toNat ≤ 3) : Sib.new s i b = .error .panic := by
  have : ¬ s ≤ 3 := by rw [UInt8.le_iff_toNat_le]; exact h
  simp [Sib.new, rassert, this, bind, Except.bind]

theorem rmLawMem (m : Mem64) : RmLaw m (.mem m) := by
  refine ⟨(memB_eq m).symm, (memX_eq m).symm, fun h => ?_, fun h => ?_⟩
  · obtain ⟨S⟩ := memShape m h
    refine ⟨⟨S.md, S.rn, S.sib, S.disp, S.mode_eq, by have := S.md_lt; omega, S.rm_eq, S.rn_lt, S.sib_eq,
      S.disp_eq, S.full, by rw [S.len_eq, memLen_spec], ?_⟩⟩
    intro w r reg hreg rest
    have hd := S.dec w r rest
    rw [← memB_eq, ← memX_eq, cpuMem_spec] at hd
    exact takeModRM_mem _ S.md_lt hreg S.rn_lt _ rest _ hd
  · cases m with
    | regOffset r d => exact absurd trivial h
    | ripOffset d => exact absurd trivial h
    | sib base d i s =>
      have h' : ¬ s.toNat ≤ 3 := h
      show Mem64.sibByte _ = _
      cases base <;> simp only [Mem64.sibByte, sibNew_bad _ _ _ h'] <;> rfl

theorem encode_reg_bad {R RM : Type} [RegLike R] [RegMemLike RM] (e : Encoder R RM) {rg : R} {rm : RM}
    (hm : e.modRm = some (rg, rm)) (h : 7 < (RegLike.reg rg).toNat) : e.encode = .error .panic := by
  have : ¬ RegLike.reg rg ≤ 0b111 := by
    rw [UInt8.le_iff_toNat_le]
    have : (0b111 : UInt8).toNat = 7 := rfl
    omega
  simp [Encoder.encode, Encoder.encodeModRm, hm, ModRM.setReg, rassert, this, withLen_eq, bind, Except.bind]

theorem encode_rm_bad {R RM : Type} [RegLike R] [RegMemLike RM] (e : Encoder R RM) {rg : R} {rm : RM}
    (hm : e.modRm = some (rg, rm)) (h : RegMemLike.sib rm = .error .panic)  : e.encode = .error .panic := by
  have anyErr : ∀ (m : ModRM) (v : UInt8) s, m.setReg v = .error s → s = .panic := by
    intro m v s h
    simp only [ModRM.setReg, rassert, bind, Except.bind] at h
    split at h <;> rename_i h2 <;> split at h2 <;> simp_all [pure, Except.pure]
  have anyErr2 : ∀ (m : ModRM) (v : UInt8) s, m.setMode v = .error s → s = .panic := by
    intro m v s h
    simp only [ModRM.setMode, rassert, bind, Except.bind] at h
    split at h <;> rename_i h2 <;> split at h2 <;> simp_all [pure, Except.pure]
  have anyErr3 : ∀ (m : ModRM) (v : UInt8) s, m.setRm v = .error s → s = .panic := by
    intro m v s h
    simp only [ModRM.setRm, rassert, bind, Except.bind] at h
    split at h <;> rename_i h2 <;> split at h2 <;> simp_all [pure, Except.pure]
  simp only [Encoder.encode, Encoder.encodeModRm, hm, withLen_eq, bind, Except.bind, Nat.zero_le, if_true, h]
  cases h1 : ModRM.new.setReg (RegLike.reg rg) with
  | error s => simp [anyErr _ _ _ h1]
  | ok m1 =>
    simp only
    cases h2 : m1.setMode (RegMemLike.mode rm) with
    | error s => simp [anyErr2 _ _ _ h2]
    | ok m2 =>
      simp only
      cases h3 : m2.setRm (RegMemLike.rm rm) with
      | error s => simp [anyErr3 _ _ _ h3]
      | ok m3 => rfl

/-- The claim of C12 about one run. -/
def EncoderSpec (run : Res (BytesAtMost 15)) (pfx : Option UInt8) (w b : Bool) (op : BytesAtMost 3)
    (imm : BytesAtMost 8) (rm : Option (RegArg × RmArg)) : Prop :=
  (Misuse pfx w b op.len imm.len rm → run = .error .panic) ∧
  (¬ Misuse pfx w b op.len imm.len rm → ∃ addr out, run = .ok out ∧
    out.asRef = pfx.toList ++ X86.rexByte (rexBits w b rm).w (rexBits w b rm).r (rexBits w b rm).x
      (rexBits w b rm).b ++ op.asRef ++ addr ++ imm.asRef ∧
    AddrOk w b addr rm)

theorem optByte_id (p : Option UInt8) : optByte id p = p.toList := by cases p <;> rfl

theorem length_rexByte (w r x b : Bool) :
    (X86.rexByte w r x b).length = X86.bit (w || r || x || b) 1 := by
  cases w <;> cases r <;> cases x <;> cases b <;> rfl

theorem length_toList (p : Option UInt8) : p.toList.length = X86.bit p.isSome 1 := by
  cases p <;> rfl

theorem encoder_some {R RM : Type} [RegLike R] [RegMemLike RM] (pfx : Option UInt8) (w b : Bool)
    (op : BytesAtMost 3) (imm : BytesAtMost 8) (ho : op.Full) (hi : imm.Full) (rg : R) (rm : RM)
    (ar : RegArg) (am : RmArg) (lr : RegLaw rg ar) (lm : RmLaw rm am) :
    EncoderSpec (⟨pfx, w, b, op, some (rg, rm), imm⟩ : Encoder R RM).encode pfx w b op imm
      (some (ar, am)) := by
  by_cases hr : ar.Fits
  · by_cases hm : am.Fits
    · obtain ⟨G⟩ := lm.good hm
      have hreg : RegLike.reg rg = UInt8.ofNat (ar.num % 8) := by
        rcases lr.reg with h | h
        · exact h
        · have := lr.fits.1 hr; omega
      have h8 : ar.num % 8 < 8 := Nat.mod_lt _ (by omega)
      have key := encode_modRm_eq (⟨pfx, w, b, op, some (rg, rm), imm⟩ : Encoder R RM) rfl ho hi hreg h8
        G.mode_eq G.md_lt G.rm_eq G.rn_lt G.sib_eq G.disp_eq G.full
        (pfx.toList ++ X86.rexByte w ar.high am.x (b || am.b) ++ op.asRef ++
          ([UInt8.ofNat (64 * G.md + 8 * (ar.num % 8) + G.rn)] ++ (optByte Sib.byte G.sib ++ G.disp.asRef)) ++
          imm.asRef)
        (by simp only [flatModRm, optByte_id, rexBytes_eq, lr.high, lm.rexB, lm.rexX, List.append_assoc])
      have hlen : (pfx.toList ++ X86.rexByte w ar.high am.x (b || am.b) ++ op.asRef ++
          ([UInt8.ofNat (64 * G.md + 8 * (ar.num % 8) + G.rn)] ++ (optByte Sib.byte G.sib ++ G.disp.asRef)) ++
          imm.asRef).length = totalLen pfx w b op.len imm.len (some (ar, am)) := by
        simp only [List.length_append, length_toList, length_rexByte, BytesAtMost.length_asRef ho,
          BytesAtMost.length_asRef hi, BytesAtMost.length_asRef G.full, length_optByte, totalLen, rexBits,
          ← G.len_eq, List.length_cons, List.length_nil]
        omega
      rw [hlen] at key
      constructor
      · rintro (h | ⟨r, m, h, h'⟩ | h)
        · rw [key, if_pos h]
        · cases h
          rcases h' with h' | h'
          · exact absurd hr h'
          · exact absurd hm h'
        · rw [key]
          split
          · rfl
          · rw [if_neg (by omega)]
      · intro hn
        have n1 : ¬ (imm.len = 8 ∧ w = false) := fun h => hn (.inl h)
        have n2 : totalLen pfx w b op.len imm.len (some (ar, am)) ≤ 15 := by
          by_cases h : totalLen pfx w b op.len imm.len (some (ar, am)) ≤ 15
          · exact h
          · exact absurd (.inr (.inr (by omega))) hn
        rw [if_neg n1, if_pos n2] at key
        refine ⟨_, _, key, asRef_buf15 _, ?_, ?_⟩
        · simp only [List.length_append, List.length_cons, List.length_nil, length_optByte,
            BytesAtMost.length_asRef G.full, ← G.len_eq]
          omega
        · intro _ rest
          have := G.dec w ar.high (ar.num % 8) h8 rest
          rw [lr.num hr] at this
          simpa only [List.append_assoc] using this
    · have e := encode_rm_bad (⟨pfx, w, b, op, some (rg, rm), imm⟩ : Encoder R RM) rfl (lm.bad hm)
      exact ⟨fun _ => e, fun hn => absurd (.inr (.inl ⟨ar, am, rfl, .inr hm⟩)) hn⟩
  · have e := encode_reg_bad (⟨pfx, w, b, op, some (rg, rm), imm⟩ : Encoder R RM) rfl
      (by have := mt lr.fits.2 hr; omega)
    exact ⟨fun _ => e, fun hn => absurd (.inr (.inl ⟨ar, am, rfl, .inl hr⟩)) hn⟩

theorem encoder_none (pfx : Option UInt8) (w b : Bool)
    (op : BytesAtMost 3) (imm : BytesAtMost 8) (ho : op.Full) (hi : imm.Full) :
    EncoderSpec (⟨pfx, w, b, op, none, imm⟩ : Encoder Reg64 Mem64).encode pfx w b op imm none := by
  have key := encode_none_eq (⟨pfx, w, b, op, none, imm⟩ : Encoder Reg64 Mem64) rfl ho hi
    (pfx.toList ++ X86.rexByte w false false b ++ op.asRef ++ [] ++ imm.asRef)
    (by simp only [optByte_id, rexBytes_eq, List.append_nil])
  have hlen : (pfx.toList ++ X86.rexByte w false false b ++ op.asRef ++ [] ++ imm.asRef).length =
      totalLen pfx w b op.len imm.len none := by
    simp only [List.length_append, length_toList, length_rexByte, BytesAtMost.length_asRef ho,
      BytesAtMost.length_asRef hi, totalLen, rexBits, List.length_nil]
  rw [hlen] at key
  constructor
  · rintro (h | ⟨r, m, h, h'⟩ | h)
    · rw [key, if_pos h]
    · cases h
    · rw [key]
      split
      · rfl
      · rw [if_neg (by omega)]
  · intro hn
    have n1 : ¬ (imm.len = 8 ∧ w = false) := fun h => hn (.inl h)
    have n2 : totalLen pfx w b op.len imm.len none ≤ 15 := by
      by_cases h : totalLen pfx w b op.len imm.len none ≤ 15
      · exact h
      · exact absurd (.inr (.inr (by omega))) hn
    rw [if_neg n1, if_pos n2] at key
    exact ⟨_, _, key, asRef_buf15 _, rfl⟩

/-- C12: for every configuration (any prefix, REX.W, REX.B, opcode and immediate buffers, and any
ModRM operands) the encoder panics exactly on `Misuse`; otherwise the output is prefix, REX, opcode,
ModRM/SIB/displacement, immediate in that order, and the operands are the requested ones. -/
theorem C12_encoder (pfx : Option UInt8) (w b : Bool) (op : BytesAtMost 3) (imm : BytesAtMost 8)
    (rm : Option (RegArg × RmArg)) (ho : op.Full) (hi : imm.Full) :
    EncoderSpec (runEncoder pfx w b op imm rm) pfx w b op imm rm := by
  match rm with
  | none => exact encoder_none _ _ _ _ _ ho hi
  | some (.r64 r, .r64 m) => exact encoder_some _ _ _ _ _ ho hi _ _ _ _ (regLaw64 r) (rmLaw64 m)
  | some (.r64 r, .r32 m) => exact encoder_some _ _ _ _ _ ho hi _ _ _ _ (regLaw64 r) (rmLaw32 m)
  | some (.r64 r, .r16 m) => exact encoder_some _ _ _ _ _ ho hi _ _ _ _ (regLaw64 r) (rmLaw16 m)
  | some (.r64 r, .mem m) => exact encoder_some _ _ _ _ _ ho hi _ _ _ _ (regLaw64 r) (rmLawMem m)
  | some (.r32 r, .r64 m) => exact encoder_some _ _ _ _ _ ho hi _ _ _ _ (regLaw32 r) (rmLaw64 m)
  | some (.r32 r, .r32 m) => exact encoder_some _ _ _ _ _ ho hi _ _ _ _ (regLaw32 r) (rmLaw32 m)
  | some (.r32 r, .r16 m) => exact encoder_some _ _ _ _ _ ho hi _ _ _ _ (regLaw32 r) (rmLaw16 m)
  | some (.r32 r, .mem m) => exact encoder_some _ _ _ _ _ ho hi _ _ _ _ (regLaw32 r) (rmLawMem m)
  | some (.r16 r, .r64 m) => exact encoder_some _ _ _ _ _ ho hi _ _ _ _ (regLaw16 r) (rmLaw64 m)
  | some (.r16 r, .r32 m) => exact encoder_some _ _ _ _ _ ho hi _ _ _ _ (regLaw16 r) (rmLaw32 m)
  | some (.r16 r, .r16 m) => exact encoder_some _ _ _ _ _ ho hi _ _ _ _ (regLaw16 r) (rmLaw16 m)
  | some (.r16 r, .mem m) => exact encoder_some _ _ _ _ _ ho hi _ _ _ _ (regLaw16 r) (rmLawMem m)
  | some (.ext r, .r64 m) => exact encoder_some _ _ _ _ _ ho hi _ _ _ _ (regLawExt r) (rmLaw64 m)
  | some (.ext r, .r32 m) => exact encoder_some _ _ _ _ _ ho hi _ _ _ _ (regLawExt r) (rmLaw32 m)
  | some (.ext r, .r16 m) => exact encoder_some _ _ _ _ _ ho hi _ _ _ _ (regLawExt r) (rmLaw16 m)
  | some (.ext r, .mem m) => exact encoder_some _ _ _ _ _ ho hi _ _ _ _ (regLawExt r) (rmLawMem m)

/-- The buffers built by the `BytesAtMost` constructors satisfy the hypotheses of C12. -/
theorem C12_buffers (M : Nat) (a : Bytes) (b : BytesAtMost M) (h : BytesAtMost.ofArray M a = .ok b) :
    b.Full := by
  rw [ofArray_eq] at h
  split at h
  · cases h
    exact ⟨by simp; omega, by assumption⟩
  · cases h

/-- The fields of a ModRM byte. -/
def modRmFields (m : ModRM) : Nat × Nat × Nat := (m.byte.toNat / 64, m.byte.toNat / 8 % 8, m.byte.toNat % 8)

/-- C12 for the setters of the ModRM byte, from any byte: a setter replaces its own field and no other,
and panics exactly when the value does not fit. -/
theorem C12_modrm_setters (m : ModRM) (v : UInt8) :
    (∀ m', m.setMode v = .ok m' → modRmFields m' = (v.toNat, (modRmFields m).2)) ∧
    (∀ m', m.setReg v = .ok m' → modRmFields m' = ((modRmFields m).1, v.toNat, (modRmFields m).2.2)) ∧
    (∀ m', m.setRm v = .ok m' → modRmFields m' = ((modRmFields m).1, (modRmFields m).2.1, v.toNat)) ∧
    (m.setMode v = .error .panic ↔ 3 < v.toNat) ∧ (m.setReg v = .error .panic ↔ 7 < v.toNat) ∧
    (m.setRm v = .error .panic ↔ 7 < v.toNat) := by
  obtain ⟨m⟩ := m
  have hm : m = UInt8.ofNat m.toNat := by simp
  have hv : v = UInt8.ofNat v.toNat := by simp
  have lift : ∀ {k : Nat} {p : Nat → Nat → Prop}, (∀ (a : Fin 256) (b : Fin k), p a b) → v.toNat < k →
      p m.toNat v.toNat := fun {k} {p} h hk => h ⟨m.toNat, m.toNat_lt⟩ ⟨v.toNat, hk⟩
  have le : ∀ k : UInt8, v ≤ k ↔ v.toNat ≤ k.toNat := fun k => UInt8.le_iff_toNat_le
  have e3 : v ≤ 3 ↔ v.toNat ≤ 3 := le 3
  have e7 : v ≤ 7 ↔ v.toNat ≤ 7 := le 7
  refine ⟨fun m' h => ?_, fun m' h => ?_, fun m' h => ?_, ?_, ?_, ?_⟩
  · by_cases hf : v ≤ 3
    · have hn := e3.1 hf
      simp only [ModRM.setMode, rassert, hf, decide_true, if_true, bind, Except.bind, pure, Except.pure, Except.ok.injEq] at h
      subst h
      rw [hm, hv]
      exact lift (k := 4) (p := fun a b => modRmFields ⟨(UInt8.ofNat a &&& (0b00111111 : UInt8)) + (UInt8.ofNat b <<< (6 : UInt8))⟩ =
        ((UInt8.ofNat b).toNat, (modRmFields ⟨UInt8.ofNat a⟩).2)) (by decide +kernel) (by omega)
    · simp [ModRM.setMode, rassert, hf, bind, Except.bind] at h
  · by_cases hf : v ≤ 7
    · have hn := e7.1 hf
      simp only [ModRM.setReg, rassert, hf, decide_true, if_true, bind, Except.bind, pure, Except.pure, Except.ok.injEq] at h
      subst h
      rw [hm, hv]
      exact lift (k := 8) (p := fun a b => modRmFields ⟨(UInt8.ofNat a &&& (0b11000111 : UInt8)) + (UInt8.ofNat b <<< (3 : UInt8))⟩ =
        ((modRmFields ⟨UInt8.ofNat a⟩).1, (UInt8.ofNat b).toNat, (modRmFields ⟨UInt8.ofNat a⟩).2.2))
        (by decide +kernel) (by omega)
    · simp [ModRM.setReg, rassert, hf, bind, Except.bind] at h
  · by_cases hf : v ≤ 7
    · have hn := e7.1 hf
      simp only [ModRM.setRm, rassert, hf, decide_true, if_true, bind, Except.bind, pure, Except.pure, Except.ok.injEq] at h
      subst h
      rw [hm, hv]
      exact lift (k := 8) (p := fun a b => modRmFields ⟨(UInt8.ofNat a &&& (0b11111000 : UInt8)) + UInt8.ofNat b⟩ =
        ((modRmFields ⟨UInt8.ofNat a⟩).1, (modRmFields ⟨UInt8.ofNat a⟩).2.1, (UInt8.ofNat b).toNat))
        (by decide +kernel) (by omega)
    · simp [ModRM.setRm, rassert, hf, bind, Except.bind] at h
  · by_cases hf : v ≤ 3
    · have hn := e3.1 hf
      simp [ModRM.setMode, rassert, hf, bind, Except.bind, pure, Except.pure]
      omega
    · have hn : ¬ v.toNat ≤ 3 := fun h => hf (e3.2 h)
      simp [ModRM.setMode, rassert, hf, bind, Except.bind]
      omega
  · by_cases hf : v ≤ 7
    · have hn := e7.1 hf
      simp [ModRM.setReg, rassert, hf, bind, Except.bind, pure, Except.pure]
      omega
    · have hn : ¬ v.toNat ≤ 7 := fun h => hf (e7.2 h)
      simp [ModRM.setReg, rassert, hf, bind, Except.bind]
      omega
  · by_cases hf : v ≤ 7
    · have hn := e7.1 hf
      simp [ModRM.setRm, rassert, hf, bind, Except.bind, pure, Except.pure]
      omega
    · have hn : ¬ v.toNat ≤ 7 := fun h => hf (e7.2 h)
      simp [ModRM.setRm, rassert, hf, bind, Except.bind]
      omega

/-- Setting the register field of a byte that already has one. -/
example : (ModRM.mk 0b11111111).setReg 2 = .ok ⟨0b11010111⟩ := by decide

/-- C12 for the setters of the REX byte, from any byte: a setter replaces its own bit and no other. -/
theorem C12_rex_setters (r : Rex) (v : Bool) (i : Nat) :
    (r.setW v).byte.toNat.testBit i = (if i = 3 then v else r.byte.toNat.testBit i) ∧
    (r.setR v).byte.toNat.testBit i = (if i = 2 then v else r.byte.toNat.testBit i) ∧
    (r.setX v).byte.toNat.testBit i = (if i = 1 then v else r.byte.toNat.testBit i) ∧
    (r.setB v).byte.toNat.testBit i = (if i = 0 then v else r.byte.toNat.testBit i) ∧
    Rex.new.byte.toNat = 64 := by
  obtain ⟨b⟩ := r
  by_cases hi : i < 8
  · have h := (by decide +kernel : ∀ (a : Fin 256) (v : Bool) (i : Fin 8),
      (((Rex.mk (UInt8.ofNat a)).setW v).byte.toNat.testBit i = (if i.val = 3 then v else (UInt8.ofNat a).toNat.testBit i) ∧
      ((Rex.mk (UInt8.ofNat a)).setR v).byte.toNat.testBit i = (if i.val = 2 then v else (UInt8.ofNat a).toNat.testBit i) ∧
      ((Rex.mk (UInt8.ofNat a)).setX v).byte.toNat.testBit i = (if i.val = 1 then v else (UInt8.ofNat a).toNat.testBit i) ∧
      ((Rex.mk (UInt8.ofNat a)).setB v).byte.toNat.testBit i = (if i.val = 0 then v else (UInt8.ofNat a).toNat.testBit i) ∧
      Rex.new.byte.toNat = 64)) ⟨b.toNat, b.toNat_lt⟩ v ⟨i, hi⟩
    have hb : UInt8.ofNat b.toNat = b := by simp
    simp only [hb] at h
    exact h
  · have big : ∀ x : UInt8, x.toNat.testBit i = false := fun x =>
      Nat.testBit_lt_two_pow (Nat.lt_of_lt_of_le x.toNat_lt (Nat.pow_le_pow_right (by omega) (by omega)))
    simp only [big]
    refine ⟨?_, ?_, ?_, ?_, rfl⟩ <;> rw [if_neg (by omega)]

/-- Both cases occur: an 8-byte immediate without REX.W is misuse, with REX.W it is not. -/
example : Misuse none false false 1 8 none ∧ ¬ Misuse none true false 1 8 none := by
  constructor
  · exact .inl ⟨rfl, rfl⟩
  · rintro (h | ⟨r, m, h, _⟩ | h)
    · cases h.2
    · cases h
    · revert h; decide

/-- A 3-byte opcode, SIB, 4-byte displacement and 8-byte immediate exceed 15 bytes. -/
example : Misuse none true false 3 8 (some (.ext 0, .mem (.sib none 0 .RAX 0))) :=
  .inr (.inr (by decide))

end AT.Props
