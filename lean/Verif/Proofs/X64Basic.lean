import Verif.Spec.X86Meaning
/-!
Helper lemmas: little-endian bytes, decoder primitives, and the byte shapes of encodings.
-/

namespace AT

theorem length_leBytes (k n : Nat) : (leBytes k n).length = k := by
  induction k generalizing n with
  | zero => rfl
  | succ k ih => simp [leBytes, ih]

theorem toNat_ofNat_mod (n : Nat) : (UInt8.ofNat (n % 256)).toNat = n % 256 := by
  simp [UInt8.toNat_ofNat']

theorem leNat_leBytes (k n : Nat) : X86.leNat (leBytes k n) = n % 256 ^ k := by
  induction k generalizing n with
  | zero => simp [leBytes, X86.leNat, Nat.mod_one]
  | succ k ih =>
    simp only [leBytes, X86.leNat, ih, toNat_ofNat_mod]
    rw [Nat.pow_succ, Nat.mul_comm (256 ^ k) 256, Nat.mod_mul]

theorem take_append {k : Nat} {l rest : Bytes} (h : l.length = k) :
    X86.take k (l ++ rest) = some (l, rest) := by
  subst h
  simp [X86.take]

theorem take_leBytes (k n : Nat) (rest : Bytes) :
    X86.take k (leBytes k n ++ rest) = some (leBytes k n, rest) :=
  take_append (length_leBytes k n)

end AT

namespace AT.X64

/-- `a` runs normally and yields a byte buffer holding exactly `bs`. -/
def Yields (a : Res (BytesAtMost 15)) (bs : Bytes) : Prop := ∃ b, a = .ok b ∧ b.asRef = bs

/-! ## Shape of `Encoder::encode` -/

/-- Buffers whose backing array has full length (all values built by the API). -/
def BytesAtMost.Full {M : Nat} (b : BytesAtMost M) : Prop := b.buf.length = M ∧ b.len ≤ M

theorem BytesAtMost.length_asRef {M : Nat} {b : BytesAtMost M} (h : b.Full) :
    b.asRef.length = b.len := by
  simp [asRef, h.1, Nat.min_eq_left h.2]

theorem withLen_eq (M n : Nat) :
    BytesAtMost.withLen M n = if n ≤ M then .ok ⟨List.replicate M 0, n⟩ else .error .panic := by
  unfold BytesAtMost.withLen rassert
  by_cases h : n ≤ M <;> simp [h, bind, Except.bind, pure, Except.pure]

theorem overwrite_eq {M : Nat} (b : BytesAtMost M) (src : Bytes) :
    b.overwrite src = if src.length ≤ b.len then .ok { b with buf := src ++ b.buf.drop src.length }
      else .error .panic := by
  unfold BytesAtMost.overwrite rassert
  by_cases h : src.length ≤ b.len <;> simp [h, bind, Except.bind, pure, Except.pure]

/-- All the bytes of a `ByteCode`, in order. -/
def ByteCode.flat (b : ByteCode) : Bytes :=
  optByte id b.pfx ++ optByte Rex.byte b.rex ++ b.opcode.asRef ++ optByte ModRM.byte b.modRm ++
    optByte Sib.byte b.sib ++ b.addrDisp.asRef ++ b.imm.asRef

theorem length_optByte {α : Type} (f : α → UInt8) (o : Option α) :
    (optByte f o).length = optLen o := by cases o <;> rfl

theorem toBytes_eq (b : ByteCode) (ho : b.opcode.Full) (hd : b.addrDisp.Full) (hi : b.imm.Full) :
    b.toBytes = if b.flat.length ≤ 15 then
        .ok ⟨b.flat ++ List.replicate (15 - b.flat.length) 0, b.flat.length⟩
      else .error .panic := by
  have hlen : b.flat.length = optLen b.pfx + optLen b.rex + b.opcode.len + optLen b.modRm +
      optLen b.sib + b.addrDisp.len + b.imm.len := by
    simp only [ByteCode.flat, List.length_append, length_optByte, BytesAtMost.length_asRef, ho, hd, hi]
  unfold ByteCode.toBytes
  simp only [withLen_eq, ← hlen]
  by_cases h : b.flat.length ≤ 15
  · simp only [h, if_true, bind, Except.bind, overwrite_eq]
    change (if b.flat.length ≤ b.flat.length then _ else _) = _
    rw [if_pos (Nat.le_refl _), List.drop_replicate]
    rfl
  · simp [h, bind, Except.bind]

/-- The REX byte `0100WRXB` as a list: present iff some bit is set. -/
def rexBytes (w r x b : Bool) : Bytes :=
  if w || r || x || b then
    [UInt8.ofNat (0x40 + (if w then 8 else 0) + (if r then 4 else 0) + (if x then 2 else 0) +
      (if b then 1 else 0))]
  else []

/-- Bytes of an `encode` with ModRM, in order. -/
def flatModRm (pfx : Option UInt8) (w r x b : Bool) (op : Bytes) (md reg rm : Nat)
    (sib : Option Sib) (disp imm : Bytes) : Bytes :=
  optByte id pfx ++ rexBytes w r x b ++ op ++ [UInt8.ofNat (64 * md + 8 * reg + rm)] ++
    optByte Sib.byte sib ++ disp ++ imm

theorem modrm_tab : ∀ md < 4, ∀ reg < 8, ∀ rm < 8,
    ((ModRM.new.setReg (UInt8.ofNat reg)).bind fun m =>
      (m.setMode (UInt8.ofNat md)).bind fun m => m.setRm (UInt8.ofNat rm)) =
      .ok ⟨UInt8.ofNat (64 * md + 8 * reg + rm)⟩ := by decide +kernel

theorem sib_tab : ∀ s < 4, ∀ i < 8, ∀ b < 8,
    Sib.new (UInt8.ofNat s) (UInt8.ofNat i) (UInt8.ofNat b) = .ok ⟨UInt8.ofNat (64 * s + 8 * i + b)⟩ := by
  decide +kernel

/-- The REX value computed by `encode`. -/
def rexOf (w b1 r b2 x : Bool) : Option Rex :=
  let rex : Option Rex := none
  let rex := if w then some (Rex.new.setW true) else rex
  let rex := if b1 then some ((rex.getD Rex.new).setB true) else rex
  let rex := if r then some ((rex.getD Rex.new).setR true) else rex
  let rex := if b2 then some ((rex.getD Rex.new).setB true) else rex
  if x then some ((rex.getD Rex.new).setX true) else rex

theorem rexOf_bytes : ∀ w b1 r b2 x : Bool,
    optByte Rex.byte (rexOf w b1 r b2 x) = rexBytes w r x (b1 || b2) := by decide

theorem UInt8_lt_of_le7 {u : UInt8} : (u ≤ 7) ↔ u.toNat < 8 := by
  rw [UInt8.le_iff_toNat_le]; simp; omega

theorem optByte_none {A : Type} (f : A → UInt8) : optByte f none = [] := rfl

theorem optByte_some {A : Type} (f : A → UInt8) (a : A) : optByte f (some a) = [f a] := rfl

/-- A full `BytesAtMost<15>` holding `l`. -/
def buf15 (l : Bytes) : BytesAtMost 15 := ⟨l ++ List.replicate (15 - l.length) 0, l.length⟩

theorem asRef_buf15 (l : Bytes) : (buf15 l).asRef = l := by simp [buf15, BytesAtMost.asRef]

theorem toBytes_of_flat (b : ByteCode) (ho : b.opcode.Full) (hd : b.addrDisp.Full)
    (hi : b.imm.Full) {l : Bytes} (h : b.flat = l) :
    b.toBytes = if l.length ≤ 15 then .ok (buf15 l) else .error .panic := by
  rw [toBytes_eq b ho hd hi, h]; rfl

theorem full_empty4 : (⟨List.replicate 4 0, 0⟩ : BytesAtMost 4).Full := by
  constructor <;> simp

theorem asRef_empty {M : Nat} (l : Bytes) : (⟨l, 0⟩ : BytesAtMost M).asRef = [] := by
  simp [BytesAtMost.asRef]

theorem encode_none_eq {R RM : Type} [RegLike R] [RegMemLike RM] (e : Encoder R RM)
    (hm : e.modRm = none) (ho : e.opcode.Full) (hi : e.imm.Full) (l : Bytes)
    (hl : optByte id e.pfx ++ rexBytes e.rexW false false e.rexB ++ e.opcode.asRef ++ e.imm.asRef = l) :
    e.encode =
      if e.imm.len = 8 ∧ e.rexW = false then .error .panic
      else if l.length ≤ 15 then .ok (buf15 l) else .error .panic := by
  have hr : optByte Rex.byte (rexOf e.rexW e.rexB false false false) =
      rexBytes e.rexW false false e.rexB := by simp [rexOf_bytes]
  simp only [rexOf, Bool.false_eq_true, if_false] at hr
  unfold Encoder.encode
  simp only [withLen_eq, Nat.zero_le, if_true, hm, Encoder.encodeModRm, bind, Except.bind, pure,
    Except.pure, rassert]
  by_cases h8 : e.imm.len = 8 ∧ e.rexW = false
  · simp [h8]
  · have h8' : (!(e.imm.len == 8 && e.rexW == false)) = true := by
      rcases Nat.decEq e.imm.len 8 with h | h
      · simp [h]
      · have : e.rexW ≠ false := fun hw => h8 ⟨h, hw⟩
        simp [h]; simpa using this
    simp only [h8', if_true, if_neg h8]
    apply toBytes_of_flat _ ho full_empty4 hi
    rw [← hl]
    simp only [ByteCode.flat, hr, optByte_none, List.append_nil, asRef_empty]

theorem encode_modRm_eq {R RM : Type} [RegLike R] [RegMemLike RM] (e : Encoder R RM)
    {rg : R} {rm : RM} {md reg rn : Nat} {sib : Option Sib} {disp : BytesAtMost 4}
    (hm : e.modRm = some (rg, rm)) (ho : e.opcode.Full) (hi : e.imm.Full)
    (hreg : RegLike.reg rg = UInt8.ofNat reg) (hreg8 : reg < 8)
    (hmd : RegMemLike.mode rm = UInt8.ofNat md) (hmd4 : md < 4)
    (hrm : RegMemLike.rm rm = UInt8.ofNat rn) (hrn8 : rn < 8)
    (hs : RegMemLike.sib rm = .ok sib) (hd : RegMemLike.dispBytes rm = .ok disp) (hdf : disp.Full)
    (l : Bytes) (hl : flatModRm e.pfx e.rexW (RegLike.rexR rg) (RegMemLike.rexX rm)
        (e.rexB || RegMemLike.rexB rm) e.opcode.asRef md reg rn sib disp.asRef e.imm.asRef = l) :
    e.encode =
      if e.imm.len = 8 ∧ e.rexW = false then .error .panic
      else if l.length ≤ 15 then .ok (buf15 l) else .error .panic := by
  have hr := rexOf_bytes e.rexW e.rexB (RegLike.rexR rg) (RegMemLike.rexB rm) (RegMemLike.rexX rm)
  simp only [rexOf] at hr
  have hmod := modrm_tab md hmd4 reg hreg8 rn hrn8
  rw [← hreg, ← hmd, ← hrm] at hmod
  unfold Encoder.encode
  simp only [withLen_eq, Nat.zero_le, if_true, hm, Encoder.encodeModRm, bind, pure, Except.pure,
    rassert, Except.bind]
  simp only [Except.bind] at hmod
  cases h1 : ModRM.new.setReg (RegLike.reg rg) with
  | error x => rw [h1] at hmod; simp at hmod
  | ok m1 =>
  rw [h1] at hmod
  simp only at hmod ⊢
  cases h2 : m1.setMode (RegMemLike.mode rm) with
  | error x => rw [h2] at hmod; simp at hmod
  | ok m2 =>
  rw [h2] at hmod
  simp only at hmod ⊢
  rw [hmod]
  simp only [hs, hd]
  by_cases h8 : e.imm.len = 8 ∧ e.rexW = false
  · simp [h8]
  · have h8' : (!(e.imm.len == 8 && e.rexW == false)) = true := by
      rcases Nat.decEq e.imm.len 8 with h | h
      · simp [h]
      · have : e.rexW ≠ false := fun hw => h8 ⟨h, hw⟩
        simp [h]; simpa using this
    simp only [h8', if_true, if_neg h8]
    apply toBytes_of_flat _ ho hdf hi
    rw [← hl]
    simp only [ByteCode.flat, hr, flatModRm, optByte_some]

end AT.X64
