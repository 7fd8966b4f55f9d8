import Verif.Proofs.MacReads
import Verif.Proofs.MacInv
import Verif.Proofs.MacLayout
/-!
# Reading and writing back: the byte image of what was read is what was read
-/

namespace AT.Mac
open AT.MachO

/-- Whatever `r` returns on `s`, with the input it leaves, satisfies `P`. -/
def Wp {α : Type} (r : Rd α) (s : Bytes) (P : α → Bytes → Prop) : Prop :=
  ∀ x s', r s = .ok (x, s') → P x s'

theorem Wp.pure {α : Type} {x : α} {s : Bytes} {P : α → Bytes → Prop} (h : P x s) :
    Wp (Pure.pure x) s P := by
  intro y s' hy
  cases hy; exact h

theorem Wp.bind {α β : Type} {r : Rd α} {f : α → Rd β} {s : Bytes} {P : β → Bytes → Prop}
    (h : Wp r s (fun x s' => Wp (f x) s' P)) : Wp (r >>= f) s P := by
  intro y s' hy
  rw [rd_bind] at hy
  cases hr : r s with
  | error e => rw [hr] at hy; simp at hy
  | ok p => rw [hr] at hy; exact h p.1 p.2 hr _ _ hy

theorem Wp.lift {α β : Type} {r : Res α} {f : α → Rd β} {s : Bytes} {P : β → Bytes → Prop}
    (h : ∀ x, r = .ok x → Wp (f x) s P) : Wp (Rd.lift r >>= f) s P := by
  apply Wp.bind
  intro x s' hx
  cases r with
  | error e => simp [Rd.lift, Except.map] at hx
  | ok a =>
    simp only [Rd.lift, Except.map, Except.ok.injEq, Prod.mk.injEq] at hx
    obtain ⟨rfl, rfl⟩ := hx
    exact h a rfl

theorem wp_readExact {k : Nat} {s : Bytes} {P : Bytes → Bytes → Prop}
    (h : ∀ b s', b.length = k → s = b ++ s' → P b s') : Wp (readExact k) s P := by
  intro b s' hb
  unfold readExact at hb
  split at hb
  · rename_i hk
    simp only [Except.ok.injEq, Prod.mk.injEq] at hb
    obtain ⟨rfl, rfl⟩ := hb
    exact h _ _ (by simp; omega) (by simp)
  · simp at hb

theorem wp_num {α : Type} {k : Nat} {s : Bytes} (f : Bytes → α) {P : α → Bytes → Prop}
    (h : ∀ b s', b.length = k → s = b ++ s' → P (f b) s') :
    Wp (do let b ← readExact k; pure (f b) : Rd α) s P :=
  Wp.bind (wp_readExact fun b s' hb hs => Wp.pure (h b s' hb hs))

theorem Wp.u32 {β : Type} {e : Endian} {f : UInt32 → Rd β} {s : Bytes} {P : β → Bytes → Prop}
    (h : ∀ n s', s = intBytes e 4 n.toNat ++ s' → Wp (f n) s' P) : Wp (readU32 e >>= f) s P := by
  apply Wp.bind
  refine wp_num (k := 4) (fun b => UInt32.ofNat (intVal e b)) ?_
  intro b s' hb hs
  apply h
  have hv := intVal_lt e b
  rw [hb] at hv
  have : (UInt32.ofNat (intVal e b)).toNat = intVal e b := by
    rw [UInt32.toNat_ofNat']; omega
  have h2 := intBytes_intVal e b
  rw [hb] at h2
  rw [this, h2, hs]

theorem Wp.i32 {β : Type} {e : Endian} {f : Int32 → Rd β} {s : Bytes} {P : β → Bytes → Prop}
    (h : ∀ n s', s = intBytes e 4 n.toUInt32.toNat ++ s' → Wp (f n) s' P) :
    Wp (readI32 e >>= f) s P := by
  apply Wp.bind
  refine wp_num (k := 4) (fun b => (UInt32.ofNat (intVal e b)).toInt32) ?_
  intro b s' hb hs
  apply h
  have hv := intVal_lt e b
  rw [hb] at hv
  have : (UInt32.ofNat (intVal e b)).toInt32.toUInt32.toNat = intVal e b := by
    rw [UInt32.toUInt32_toInt32, UInt32.toNat_ofNat']; omega
  have h2 := intBytes_intVal e b
  rw [hb] at h2
  rw [this, h2, hs]

theorem Wp.u64 {β : Type} {e : Endian} {f : UInt64 → Rd β} {s : Bytes} {P : β → Bytes → Prop}
    (h : ∀ n s', s = intBytes e 8 n.toNat ++ s' → Wp (f n) s' P) : Wp (readU64 e >>= f) s P := by
  apply Wp.bind
  refine wp_num (k := 8) (fun b => UInt64.ofNat (intVal e b)) ?_
  intro b s' hb hs
  apply h
  have hv := intVal_lt e b
  rw [hb] at hv
  have : (UInt64.ofNat (intVal e b)).toNat = intVal e b := by
    rw [UInt64.toNat_ofNat']; omega
  have h2 := intBytes_intVal e b
  rw [hb] at h2
  rw [this, h2, hs]

theorem Wp.u16 {β : Type} {e : Endian} {f : UInt16 → Rd β} {s : Bytes} {P : β → Bytes → Prop}
    (h : ∀ n s', s = intBytes e 2 n.toNat ++ s' → Wp (f n) s' P) : Wp (readU16 e >>= f) s P := by
  apply Wp.bind
  refine wp_num (k := 2) (fun b => UInt16.ofNat (intVal e b)) ?_
  intro b s' hb hs
  apply h
  have hv := intVal_lt e b
  rw [hb] at hv
  have : (UInt16.ofNat (intVal e b)).toNat = intVal e b := by
    rw [UInt16.toNat_ofNat']; omega
  have h2 := intBytes_intVal e b
  rw [hb] at h2
  rw [this, h2, hs]

theorem Wp.u8 {β : Type} {f : UInt8 → Rd β} {s : Bytes} {P : β → Bytes → Prop}
    (h : ∀ n s', s = [n] ++ s' → Wp (f n) s' P) : Wp (readU8 >>= f) s P := by
  apply Wp.bind
  refine wp_num (k := 1) (fun b => UInt8.ofNat (leVal b)) ?_
  intro b s' hb hs
  apply h
  match b, hb with
  | [x], _ => simpa [leVal] using hs

theorem Wp.str {β : Type} {k : Nat} {f : Str → Rd β} {s : Bytes} {P : β → Bytes → Prop}
    (h : ∀ b n s', b.length = k → s = b ++ s' → fromUtf8 (b.takeWhile (· != 0)) = some n →
      Wp (f n) s' P) : Wp (readFixedStr k >>= f) s P := by
  apply Wp.bind
  apply Wp.bind
  apply wp_readExact
  intro b s' hb hs
  intro n s'' hn
  cases hu : fromUtf8 (b.takeWhile (· != 0)) with
  | none => rw [hu] at hn; simp [Rd.lift, runwrap, Except.map] at hn
  | some m =>
    rw [hu] at hn
    simp only [Rd.lift, runwrap, Except.map, Except.ok.injEq, Prod.mk.injEq] at hn
    obtain ⟨rfl, rfl⟩ := hn
    exact h b m s' hb hs hu

theorem runwrap_inv {α : Type} {o : Option α} {x : α} (h : runwrap o = .ok x) : o = some x := by
  cases o <;> simp [runwrap] at h
  rw [h]

theorem fileType_enc {n : UInt32} {t : FileType} (h : FileType.fromU32? n = some t) :
    t.toU32 = n := by
  unfold FileType.fromU32? at h
  simp only [beq_iff_eq] at h
  repeat' split at h
  all_goals first | (simp only [Option.some.injEq] at h; subst h; subst n; rfl) | simp at h

theorem magic_enc {n : UInt32} {t : Magic} (h : Magic.fromU32? n = some t) : t.toU32 = n := by
  unfold Magic.fromU32? at h
  simp only [beq_iff_eq] at h
  repeat' split at h
  all_goals first | (simp only [Option.some.injEq] at h; subst h; subst n; rfl) | simp at h

theorem platform_enc {n : UInt32} {t : Platform} (h : Platform.fromU32? n = some t) :
    t.toU32 = n := by
  unfold Platform.fromU32? at h
  simp only [beq_iff_eq] at h
  repeat' split at h
  all_goals first | (simp only [Option.some.injEq] at h; subst h; subst n; rfl) | simp at h

theorem tool_enc {n : UInt32} {t : Tool} (h : Tool.fromU32? n = some t) : t.toU32 = n := by
  unfold Tool.fromU32? at h
  simp only [beq_iff_eq] at h
  repeat' split at h
  all_goals first | (simp only [Option.some.injEq] at h; subst h; subst n; rfl) | simp at h

theorem sectionType_enc {n : UInt32} {t : SectionType} (h : SectionType.fromU32? n = some t) :
    t.toU32 = n := by
  unfold SectionType.fromU32? at h
  simp only [beq_iff_eq] at h
  repeat' split at h
  all_goals first | (simp only [Option.some.injEq] at h; subst h; subst n; rfl) | simp at h

theorem relocLength_enc {n : UInt32} {t : RelocLength} (h : RelocLength.fromU32? n = some t) :
    t.toU32 = n := by
  unfold RelocLength.fromU32? at h
  simp only [beq_iff_eq] at h
  repeat' split at h
  all_goals first | (simp only [Option.some.injEq] at h; subst h; subst n; rfl) | simp at h

theorem cpuSub_enc {n : Int32} {t : CpuSubType} (h : CpuSubType.fromI32? n = some t) :
    t.toI32 = n := by
  unfold CpuSubType.fromI32? at h
  simp only [beq_iff_eq] at h
  split at h
  · subst n; cases t; rfl
  · simp at h

theorem cpu_enc {a b : Int32} {c : CpuType} (h : CpuType.fromI32I32 a b = .ok c) :
    c.toI32I32 = (a, b) := by
  unfold CpuType.fromI32I32 at h
  simp only [beq_iff_eq] at h
  split at h
  · rename_i ha
    cases hs : CpuSubType.fromI32? b with
    | none => rw [hs] at h; simp [runwrap, Functor.map, Except.map] at h
    | some t =>
      rw [hs] at h
      simp only [runwrap, Functor.map, Except.map, Except.ok.injEq] at h
      subst h
      simp [CpuType.toI32I32, cpuSub_enc hs, ha]
  · split at h
    · rename_i ha
      cases hs : CpuSubType.fromI32? b with
      | none => rw [hs] at h; simp [runwrap, Functor.map, Except.map] at h
      | some t =>
        rw [hs] at h
        simp only [runwrap, Functor.map, Except.map, Except.ok.injEq] at h
        subst h
        simp [CpuType.toI32I32, cpuSub_enc hs, ha]
    · simp at h

theorem nType_tab : ∀ n < 256, (UInt8.ofNat n &&& nStabMask == 0) = true →
    (match NTypeField.fromU8 (UInt8.ofNat n) with
      | .ok t => t.toU8 == UInt8.ofNat n
      | .error _ => true) = true := by decide +kernel

theorem nType_enc {n : UInt8} {t : NTypeField} (h : NTypeField.fromU8 n = .ok t)
    (hs : ∀ s, t ≠ .stab s) : t.toU8 = n := by
  have hn : (n &&& nStabMask == 0) = true := by
    by_cases hc : (n &&& nStabMask == 0) = true
    · exact hc
    · exfalso
      unfold NTypeField.fromU8 at h
      rw [if_neg hc] at h
      cases hd : DebugSymbol.fromU8? (n &&& nStabMask) with
      | none => rw [hd] at h; simp [runwrap, Functor.map, Except.map] at h
      | some d =>
        rw [hd] at h
        simp only [runwrap, Functor.map, Except.map, Except.ok.injEq] at h
        exact hs d h.symm
  have := nType_tab n.toNat n.toNat_lt (by simpa using hn)
  rw [UInt8.ofNat_toNat, h] at this
  simpa using this

theorem u32_split (n : UInt32) : (n &&& SectionAttrs.BIT_MASK) ||| (n &&& SectionType.BIT_MASK) = n := by
  apply UInt32.toBitVec_inj.1
  apply BitVec.eq_of_getLsbD_eq
  intro j hj
  rw [UInt32.toBitVec_or, BitVec.getLsbD_or, mask_bit n j hj, mask_bit' n j hj]
  cases n.toBitVec.getLsbD j
  · simp
  · simp; omega

theorem header_canon (h : Endian) (s : Bytes) : Wp (Header64.readFrom h) s (fun x s' =>
    x.2 = h → headerBytes h x.1 ++ s' = s) := by
  unfold Header64.readFrom
  refine Wp.u32 fun mag s1 h1 => Wp.lift fun m hm => Wp.lift fun e he => Wp.i32 fun c s2 h2 =>
    Wp.i32 fun c' s3 h3 => Wp.lift fun cpu hc => Wp.u32 fun ft s4 h4 => Wp.lift fun f hf =>
    Wp.u32 fun nc s5 h5 => Wp.u32 fun sc s6 h6 => Wp.u32 fun fl s7 h7 => Wp.lift fun fs hfl =>
    Wp.u32 fun r s8 h8 => Wp.pure ?_
  intro hee
  simp only at hee
  subst hee
  have e1 := magic_enc (runwrap_inv hm)
  have e2 := fileType_enc (runwrap_inv hf)
  have e3 := flags_toU32_fromU32 hfl
  have e4 := cpu_enc hc
  simp only [headerBytes, e1, e2, e3, e4, List.append_assoc]
  rw [h1, h2, h3, h4, h5, h6, h7, h8]

theorem symtab_canon (e : Endian) (s : Bytes) : Wp (SymtabCommand.readFromIn e) s (fun x s' =>
    symtabBytes e x ++ s' = s) := by
  unfold SymtabCommand.readFromIn
  refine Wp.u32 fun _ s1 h1 => Wp.lift fun _ _ => Wp.u32 fun _ s2 h2 => Wp.lift fun _ _ =>
    Wp.u32 fun _ s3 h3 => Wp.u32 fun _ s4 h4 => Wp.u32 fun _ s5 h5 => Wp.u32 fun _ s6 h6 =>
    Wp.pure ?_
  simp only [symtabBytes, List.append_assoc]
  rw [h1, h2, h3, h4, h5, h6]

theorem dysymtab_canon (e : Endian) (s : Bytes) : Wp (DysymtabCommand.readFromIn e) s (fun x s' =>
    dysymtabBytes e x ++ s' = s) := by
  unfold DysymtabCommand.readFromIn
  refine Wp.u32 fun _ s1 h1 => Wp.lift fun _ _ => Wp.u32 fun _ s2 h2 => Wp.lift fun _ _ =>
    Wp.u32 fun _ s3 h3 => Wp.u32 fun _ s4 h4 => Wp.u32 fun _ s5 h5 => Wp.u32 fun _ s6 h6 =>
    Wp.u32 fun _ s7 h7 => Wp.u32 fun _ s8 h8 => Wp.u32 fun _ s9 h9 => Wp.u32 fun _ s10 h10 =>
    Wp.u32 fun _ s11 h11 => Wp.u32 fun _ s12 h12 => Wp.u32 fun _ s13 h13 =>
    Wp.u32 fun _ s14 h14 => Wp.u32 fun _ s15 h15 => Wp.u32 fun _ s16 h16 =>
    Wp.u32 fun _ s17 h17 => Wp.u32 fun _ s18 h18 => Wp.u32 fun _ s19 h19 =>
    Wp.u32 fun _ s20 h20 => Wp.pure ?_
  simp only [dysymtabBytes, List.append_assoc]
  rw [h1, h2, h3, h4, h5, h6, h7, h8, h9, h10, h11, h12, h13, h14, h15, h16, h17, h18, h19, h20]

theorem tool_canon (e : Endian) (s : Bytes) : Wp (BuildToolVersion.readFromIn e) s (fun x s' =>
    toolBytes e x ++ s' = s) := by
  unfold BuildToolVersion.readFromIn
  refine Wp.u32 fun _ s1 h1 => Wp.lift fun _ ht => Wp.u32 fun _ s2 h2 => Wp.pure ?_
  simp only [toolBytes, List.append_assoc, tool_enc (runwrap_inv ht)]
  rw [h1, h2]

theorem buildVersion_canon (bd : Build) (e : Endian) (s : Bytes) :
    Wp (BuildVersionCommand.readFromIn bd e) s (fun x s' => buildVersionBytes e x ++ s' = s) := by
  unfold BuildVersionCommand.readFromIn
  refine Wp.u32 fun _ s1 h1 => Wp.lift fun _ _ => Wp.u32 fun _ s2 h2 => Wp.u32 fun _ s3 h3 =>
    Wp.lift fun _ hp => Wp.u32 fun _ s4 h4 => Wp.u32 fun _ s5 h5 => Wp.u32 fun _ s6 h6 =>
    Wp.lift fun _ _ => Wp.lift fun _ _ => Wp.lift fun _ _ => Wp.pure ?_
  simp only [buildVersionBytes, List.append_assoc, platform_enc (runwrap_inv hp),
    version_roundtrip']
  rw [h1, h2, h3, h4, h5, h6]

theorem nlist_canon (e : Endian) (s : Bytes) : Wp (NList64.readFromIn e) s (fun x s' =>
    (∀ d, x.nType ≠ .stab d) → nlistBytes e x ++ s' = s) := by
  unfold NList64.readFromIn
  refine Wp.u32 fun _ s1 h1 => Wp.u8 fun _ s2 h2 => Wp.lift fun _ ht => Wp.u8 fun _ s3 h3 =>
    Wp.u16 fun _ s4 h4 => Wp.u64 fun _ s5 h5 => Wp.pure ?_
  intro hs
  simp only [nlistBytes, List.append_assoc, nType_enc ht hs]
  rw [h1, h2, h3, h4, h5]

/-! ## Relocation words -/

theorem and_bit_pos (n : UInt32) (i : Nat) (hi : i < 32) :
    decide (n &&& ((1 : UInt32) <<< UInt32.ofNat i) > 0) = n.toNat.testBit i := by
  rw [and_one_shl i hi n]
  have hb : n.toBitVec.getLsbD i = n.toNat.testBit i := rfl
  rw [hb]
  have h1 := one_shl_ne_zero i hi
  cases n.toNat.testBit i
  · simp
  · simp only [if_true, decide_eq_true_eq]
    apply UInt32.pos_iff_ne_zero.2 h1

theorem testBit_toNat (n i : Nat) : (n.testBit i).toNat = n / 2 ^ i % 2 := by
  rw [Nat.testBit_eq_decide_div_mod_eq]
  by_cases h : n / 2 ^ i % 2 = 1
  · simp [h]
  · simp [h]; omega

theorem relocLength_num {n : UInt32} {l : RelocLength} (h : RelocLength.fromU32? n = some l) :
    relocLengthNum l = n.toNat := by
  rw [relocLengthNum_eq, relocLength_enc h]

theorem shr_and (n m : UInt32) (k w : Nat) (hk : k < 32) (hm : m.toNat >>> k = 2 ^ w - 1) :
    ((n &&& m) >>> UInt32.ofNat k).toNat = n.toNat / 2 ^ k % 2 ^ w := by
  have e : (UInt32.ofNat k).toNat % 32 = k := by
    rw [UInt32.toNat_ofNat']; omega
  rw [UInt32.toNat_shiftRight, UInt32.toNat_and, e, Nat.shiftRight_and_distrib, hm,
    Nat.and_two_pow_sub_one_eq_mod, Nat.shiftRight_eq_div_pow]

theorem reloc_pack_unpack {h : Endian} {a : Int32} {n : UInt32} {x : RelocationInfo}
    (hx : RelocationInfo.unpack h a n = .ok x) : x.rAddress = a ∧ x.pack h = n := by
  have hf := reloc_unpack_fits hx
  have hw := relocWord_eq h x hf.1 hf.2
  have hn := n.toNat_lt
  refine ⟨?_, ?_⟩
  · cases h
    · simp only [RelocationInfo.unpack] at hx
      cases hl : RelocLength.fromU32? ((n &&& 0x06000000) >>> 25) with
      | none => rw [hl] at hx; simp [runwrap, bind, Except.bind] at hx
      | some l =>
        rw [hl] at hx
        simp only [runwrap, bind, Except.bind, pure, Except.pure, Except.ok.injEq] at hx
        subst hx; rfl
    · simp only [RelocationInfo.unpack] at hx
      cases hl : RelocLength.fromU32? ((n &&& 0x00000060) >>> 5) with
      | none => rw [hl] at hx; simp [runwrap, bind, Except.bind] at hx
      | some l =>
        rw [hl] at hx
        simp only [runwrap, bind, Except.bind, pure, Except.pure, Except.ok.injEq] at hx
        subst hx; rfl
  apply UInt32.toNat.inj
  rw [← hw]
  clear hw hf
  cases h
  · simp only [RelocationInfo.unpack] at hx
    cases hl : RelocLength.fromU32? ((n &&& 0x06000000) >>> 25) with
    | none => rw [hl] at hx; simp [runwrap, bind, Except.bind] at hx
    | some l =>
      rw [hl] at hx
      simp only [runwrap, bind, Except.bind, pure, Except.pure, Except.ok.injEq] at hx
      subst hx
      have hl' := relocLength_num hl
      have s1 := shr_and n 0x06000000 25 2 (by omega) (by decide)
      have s2 := shr_and n 0xF0000000 28 4 (by omega) (by decide)
      have s3 := shr_and n 0x00FFFFFF 0 24 (by omega) (by decide)
      have b1 := and_bit_pos n 24 (by omega)
      have b2 := and_bit_pos n 27 (by omega)
      have c1 : (1 : UInt32) <<< UInt32.ofNat 24 = 0x01000000 := by decide
      have c2 : (1 : UInt32) <<< UInt32.ofNat 27 = 0x08000000 := by decide
      have c3 : (n &&& 0x00FFFFFF) >>> UInt32.ofNat 0 = n &&& 0x00FFFFFF := UInt32.shiftRight_zero
      rw [c1] at b1
      rw [c2] at b2
      rw [c3] at s3
      have s1' : ((n &&& 0x06000000) >>> 25).toNat = n.toNat / 2 ^ 25 % 2 ^ 2 := s1
      have s2' : ((n &&& 0xF0000000) >>> 28).toNat = n.toNat / 2 ^ 28 % 2 ^ 4 := s2
      simp only [relocWord, hl', b1, b2, testBit_toNat, UInt32.toNat_toUInt8, s1', s2', s3]
      omega
  · simp only [RelocationInfo.unpack] at hx
    cases hl : RelocLength.fromU32? ((n &&& 0x00000060) >>> 5) with
    | none => rw [hl] at hx; simp [runwrap, bind, Except.bind] at hx
    | some l =>
      rw [hl] at hx
      simp only [runwrap, bind, Except.bind, pure, Except.pure, Except.ok.injEq] at hx
      subst hx
      have hl' := relocLength_num hl
      have s1 := shr_and n 0x00000060 5 2 (by omega) (by decide)
      have s2 := shr_and n 0x0000000F 0 4 (by omega) (by decide)
      have s3 := shr_and n 0xFFFFFF00 8 24 (by omega) (by decide)
      have b1 := and_bit_pos n 7 (by omega)
      have b2 := and_bit_pos n 4 (by omega)
      have c1 : (1 : UInt32) <<< UInt32.ofNat 7 = 0x00000080 := by decide
      have c2 : (1 : UInt32) <<< UInt32.ofNat 4 = 0x00000010 := by decide
      have c3 : (n &&& 0x0000000F) >>> UInt32.ofNat 0 = n &&& 0x0000000F := UInt32.shiftRight_zero
      rw [c1] at b1
      rw [c2] at b2
      rw [c3] at s2
      have s1' : ((n &&& 0x00000060) >>> 5).toNat = n.toNat / 2 ^ 5 % 2 ^ 2 := s1
      have s3' : ((n &&& 0xFFFFFF00) >>> 8).toNat = n.toNat / 2 ^ 8 % 2 ^ 24 := s3
      simp only [relocWord, hl', b1, b2, testBit_toNat, UInt32.toNat_toUInt8, s1', s2, s3']
      omega

theorem reloc_canon (e : Endian) (s : Bytes) : Wp (RelocationInfo.readFromIn e) s (fun x s' =>
    relocBytes e x ++ s' = s) := by
  unfold RelocationInfo.readFromIn
  refine Wp.i32 fun a s1 h1 => Wp.u32 fun n s2 h2 => ?_
  intro x s' hx
  cases hu : RelocationInfo.unpack e a n with
  | error e => rw [hu] at hx; simp [Rd.lift, Except.map] at hx
  | ok y =>
    rw [hu] at hx
    simp only [Rd.lift, Except.map, Except.ok.injEq, Prod.mk.injEq] at hx
    obtain ⟨rfl, rfl⟩ := hx
    obtain ⟨ha, hp⟩ := reloc_pack_unpack hu
    simp only [relocBytes, ha, hp, List.append_assoc]
    rw [h1, h2]

/-! ## Names -/

theorem name_canon {k : Nat} {a n : Str} (ha : NameOk k a)
    (hn : fromUtf8 ((nameBytes k a).takeWhile (· != 0)) = some n) : n = a := by
  rw [nameBytes, takeWhile_name a _ ha.ascii ha.nul, fromUtf8_ascii a ha.ascii] at hn
  exact (Option.some.inj hn).symm

theorem segment_canon (bd : Build) (e : Endian) (s : Bytes) (a : Str) (ha : NameOk 16 a)
    (hb : (s.drop 8).take 16 = nameBytes 16 a) :
    Wp (SegmentCommand64.readFromIn bd e) s (fun x s' =>
      x.segname = a ∧ segmentBytes e x ++ s' = s) := by
  unfold SegmentCommand64.readFromIn
  refine Wp.u32 fun c s1 h1 => Wp.lift fun _ _ => Wp.u32 fun _ s2 h2 =>
    Wp.str fun b n s3 hl h3 hn => Wp.u64 fun _ s4 h4 => Wp.u64 fun _ s5 h5 => Wp.u64 fun _ s6 h6 =>
    Wp.u64 fun _ s7 h7 => Wp.i32 fun _ s8 h8 => Wp.i32 fun _ s9 h9 => Wp.u32 fun _ s10 h10 =>
    Wp.u32 fun _ s11 h11 => Wp.lift fun _ _ => Wp.lift fun _ _ => Wp.lift fun _ _ => Wp.pure ?_
  have hbb : b = nameBytes 16 a := by
    rw [← hb, h1, h2, h3, ← List.append_assoc,
      List.drop_append_of_le_length (by simp [length_intBytes]),
      List.drop_of_length_le (by simp [length_intBytes]), List.nil_append,
      List.take_append_of_le_length (by omega), List.take_of_length_le (by omega)]
  have hna : n = a := name_canon ha (hbb ▸ hn)
  refine ⟨hna, ?_⟩
  simp only [segmentBytes, List.append_assoc, hna, ← hbb]
  rw [h1, h2, h3, h4, h5, h6, h7, h8, h9, h10, h11]

theorem section_canon (e : Endian) (s : Bytes) (a c : Str) (ha : NameOk 16 a) (hc : NameOk 16 c)
    (hb : s.take 16 = nameBytes 16 a) (hd : (s.drop 16).take 16 = nameBytes 16 c) :
    Wp (Section64.readFromIn e) s (fun x s' => x.sectname = a ∧ x.segname = c ∧
      sectionBytes e x ++ s' = s) := by
  unfold Section64.readFromIn
  refine Wp.str fun b n s1 hl h1 hn => Wp.str fun b' n' s2 hl' h2 hn' => Wp.u64 fun _ s4 h4 =>
    Wp.u64 fun _ s5 h5 => Wp.u32 fun _ s6 h6 => Wp.u32 fun _ s7 h7 => Wp.u32 fun _ s8 h8 =>
    Wp.u32 fun _ s9 h9 => Wp.u32 fun w s10 h10 => Wp.lift fun t ht => Wp.lift fun at' hat =>
    Wp.u32 fun _ s11 h11 => Wp.u32 fun _ s12 h12 => Wp.u32 fun _ s13 h13 => Wp.pure ?_
  have hbb : b = nameBytes 16 a := by
    rw [← hb, h1, List.take_append_of_le_length (by omega), List.take_of_length_le (by omega)]
  have hbb' : b' = nameBytes 16 c := by
    rw [← hd, h1, h2, List.drop_append_of_le_length (by omega),
      List.drop_of_length_le (by omega), List.nil_append,
      List.take_append_of_le_length (by omega), List.take_of_length_le (by omega)]
  have hna : n = a := name_canon ha (hbb ▸ hn)
  have hnc : n' = c := name_canon hc (hbb' ▸ hn')
  refine ⟨hna, hnc, ?_⟩
  have e1 := sectionType_enc (runwrap_inv ht)
  have e2 := attrs_toU32_fromU32 hat
  have e3 : (w &&& SectionAttrs.BIT_MASK) &&& SectionAttrs.BIT_MASK = w &&& SectionAttrs.BIT_MASK := by
    rw [UInt32.and_assoc, UInt32.and_self]
  rw [e3] at e2
  simp only [sectionBytes, List.append_assoc, hna, hnc, ← hbb, ← hbb', e1, e2, u32_split]
  rw [h1, h2, h4, h5, h6, h7, h8, h9, h10, h11, h12, h13]

end AT.Mac
