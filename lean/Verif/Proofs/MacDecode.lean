import Verif.Spec.MacDecode
import Verif.Proofs.MacCanon
import Verif.Proofs.MacLayout
import Verif.Proofs.MacReads
/-!
# Exact results of the at-mac readers on arbitrary input
-/

namespace AT.Mac
open AT.MachO

theorem readExact_drop {n k : Nat} {s b s' : Bytes} : readExact n (s.drop k) = .ok (b, s') ↔
    (n = 0 ∨ k + n ≤ s.length) ∧ ((s.drop k).take n = b ∧ s.drop (k + n) = s') := by
  unfold readExact
  rw [List.length_drop, List.drop_drop]
  split
  · rename_i h
    have h : n = 0 ∨ k + n ≤ s.length := by omega
    simp [h]
  · rename_i h
    have h : ¬ (n = 0 ∨ k + n ≤ s.length) := by omega
    simp [h]

theorem bind_ok {α β : Type} {r : Rd α} {f : α → Rd β} {s : Bytes} {p : β × Bytes} :
    (r >>= f) s = .ok p ↔ ∃ v s', r s = .ok (v, s') ∧ f v s' = .ok p := by
  rw [rd_bind]
  cases r s with
  | error e => simp
  | ok q => obtain ⟨v, s'⟩ := q; simp [and_assoc]

theorem lift_ok {α : Type} {r : Res α} {s s' : Bytes} {v : α} :
    Rd.lift r s = .ok (v, s') ↔ r = .ok v ∧ s = s' := by
  cases r <;> simp [Rd.lift, Except.map]

theorem lift_bind_ok {α β : Type} {r : Res α} {f : α → Rd β} {s : Bytes} {p : β × Bytes} :
    (Rd.lift r >>= f) s = .ok p ↔ ∃ v, r = .ok v ∧ f v s = .ok p := by
  simp [bind_ok, lift_ok, and_assoc]

theorem pure_ok {α : Type} {x y : α} {s s' : Bytes} :
    (pure x : Rd α) s = .ok (y, s') ↔ x = y ∧ s = s' := by
  show (Except.ok (x, s) : Res _) = _ ↔ _
  simp

theorem rassert_ok {c : Bool} {u : Unit} : rassert c = .ok u ↔ c = true := by
  cases c <;> simp [rassert]

theorem runwrap_ok {α : Type} {o : Option α} {x : α} : runwrap o = .ok x ↔ o = some x := by
  cases o <;> simp [runwrap]

theorem bytesAt_iff {f b : Bytes} {k n : Nat} :
    bytesAt f k n = some b ↔ k + n ≤ f.length ∧ (f.drop k).take n = b := by
  unfold bytesAt
  split <;> simp [*]

theorem numAt_iff {e : Endian} {f : Bytes} {k n v : Nat} :
    numAt e f k n = some v ↔ k + n ≤ f.length ∧ intVal e ((f.drop k).take n) = v := by
  simp [numAt, Option.map_eq_some_iff, bytesAt_iff, numOf_eq, and_assoc]

theorem intVal_take_lt (e : Endian) {f : Bytes} {k n : Nat} (h : k + n ≤ f.length) :
    intVal e ((f.drop k).take n) < 256 ^ n := by
  have := intVal_lt e ((f.drop k).take n)
  rwa [List.length_take, List.length_drop, Nat.min_eq_left (by omega)] at this

theorem u32_bind {β : Type} {e : Endian} {k : Nat} {f : UInt32 → Rd β} {s : Bytes} {p : β × Bytes} :
    (readU32 e >>= f) (s.drop k) = .ok p ↔
      ∃ v : UInt32, numAt e s k 4 = some v.toNat ∧ f v (s.drop (k + 4)) = .ok p := by
  simp only [readU32, bind_ok, pure_ok, readExact_drop, numAt_iff]
  constructor
  · rintro ⟨v, s', ⟨b, s1, ⟨h, rfl, rfl⟩, rfl, rfl⟩, h2⟩
    have hl : k + 4 ≤ s.length := by omega
    refine ⟨_, ⟨hl, ?_⟩, h2⟩
    rw [UInt32.toNat_ofNat_of_lt' (intVal_take_lt e hl)]
  · rintro ⟨v, ⟨hl, hv⟩, h2⟩
    refine ⟨v, _, ⟨_, _, ⟨.inr hl, rfl, rfl⟩, ?_, rfl⟩, h2⟩
    rw [hv, UInt32.ofNat_toNat]

theorem u64_bind {β : Type} {e : Endian} {k : Nat} {f : UInt64 → Rd β} {s : Bytes} {p : β × Bytes} :
    (readU64 e >>= f) (s.drop k) = .ok p ↔
      ∃ v : UInt64, numAt e s k 8 = some v.toNat ∧ f v (s.drop (k + 8)) = .ok p := by
  simp only [readU64, bind_ok, pure_ok, readExact_drop, numAt_iff]
  constructor
  · rintro ⟨v, s', ⟨b, s1, ⟨h, rfl, rfl⟩, rfl, rfl⟩, h2⟩
    have hl : k + 8 ≤ s.length := by omega
    refine ⟨_, ⟨hl, ?_⟩, h2⟩
    rw [UInt64.toNat_ofNat_of_lt' (intVal_take_lt e hl)]
  · rintro ⟨v, ⟨hl, hv⟩, h2⟩
    refine ⟨v, _, ⟨_, _, ⟨.inr hl, rfl, rfl⟩, ?_, rfl⟩, h2⟩
    rw [hv, UInt64.ofNat_toNat]

theorem u16_bind {β : Type} {e : Endian} {k : Nat} {f : UInt16 → Rd β} {s : Bytes} {p : β × Bytes} :
    (readU16 e >>= f) (s.drop k) = .ok p ↔
      ∃ v : UInt16, numAt e s k 2 = some v.toNat ∧ f v (s.drop (k + 2)) = .ok p := by
  simp only [readU16, bind_ok, pure_ok, readExact_drop, numAt_iff]
  constructor
  · rintro ⟨v, s', ⟨b, s1, ⟨h, rfl, rfl⟩, rfl, rfl⟩, h2⟩
    have hl : k + 2 ≤ s.length := by omega
    refine ⟨_, ⟨hl, ?_⟩, h2⟩
    rw [UInt16.toNat_ofNat_of_lt' (intVal_take_lt e hl)]
  · rintro ⟨v, ⟨hl, hv⟩, h2⟩
    refine ⟨v, _, ⟨_, _, ⟨.inr hl, rfl, rfl⟩, ?_, rfl⟩, h2⟩
    rw [hv, UInt16.ofNat_toNat]

theorem i32_bind {β : Type} {e : Endian} {k : Nat} {f : Int32 → Rd β} {s : Bytes} {p : β × Bytes} :
    (readI32 e >>= f) (s.drop k) = .ok p ↔
      ∃ v : Int32, numAt e s k 4 = some (i32Num v) ∧ f v (s.drop (k + 4)) = .ok p := by
  simp only [readI32, bind_ok, pure_ok, readExact_drop, numAt_iff, i32Num_eq]
  constructor
  · rintro ⟨v, s', ⟨b, s1, ⟨h, rfl, rfl⟩, rfl, rfl⟩, h2⟩
    have hl : k + 4 ≤ s.length := by omega
    refine ⟨_, ⟨hl, ?_⟩, h2⟩
    rw [UInt32.toUInt32_toInt32, UInt32.toNat_ofNat_of_lt' (intVal_take_lt e hl)]
  · rintro ⟨v, ⟨hl, hv⟩, h2⟩
    refine ⟨v, _, ⟨_, _, ⟨.inr hl, rfl, rfl⟩, ?_, rfl⟩, h2⟩
    rw [hv, UInt32.ofNat_toNat, Int32.toInt32_toUInt32]

theorem intVal_one (e : Endian) (b : Bytes) (h : b.length ≤ 1) : intVal e b = leVal b := by
  match b, h with
  | [], _ => cases e <;> rfl
  | [x], _ => cases e <;> rfl

theorem u8_bind {β : Type} (e : Endian) {k : Nat} {f : UInt8 → Rd β} {s : Bytes} {p : β × Bytes} :
    (readU8 >>= f) (s.drop k) = .ok p ↔
      ∃ v : UInt8, numAt e s k 1 = some v.toNat ∧ f v (s.drop (k + 1)) = .ok p := by
  have h1 : intVal e ((s.drop k).take 1) = leVal ((s.drop k).take 1) :=
    intVal_one e _ (by rw [List.length_take]; omega)
  simp only [readU8, bind_ok, pure_ok, readExact_drop, numAt_iff, h1]
  constructor
  · rintro ⟨v, s', ⟨b, s1, ⟨h, rfl, rfl⟩, rfl, rfl⟩, h2⟩
    have hl : k + 1 ≤ s.length := by omega
    refine ⟨_, ⟨hl, ?_⟩, h2⟩
    rw [UInt8.toNat_ofNat_of_lt' (h1 ▸ intVal_take_lt e hl)]
  · rintro ⟨v, ⟨hl, hv⟩, h2⟩
    refine ⟨v, _, ⟨_, _, ⟨.inr hl, rfl, rfl⟩, ?_, rfl⟩, h2⟩
    rw [hv, UInt8.ofNat_toNat]

theorem fromUtf8_iff {b : Bytes} {s : Str} : fromUtf8 b = some s ↔ utf8 s = b :=
  ⟨utf8_of_fromUtf8, fun h => h ▸ fromUtf8_utf8 s⟩

/-- What a reader takes for the name stored in the `n` bytes at `k`. -/
def NameAt (f : Bytes) (k n : Nat) (s : Str) : Prop :=
  ∃ b, bytesAt f k n = some b ∧ utf8 s = b.takeWhile (· ≠ 0)

theorem str_bind {β : Type} {k n : Nat} (hn : 0 < n) {f : Str → Rd β} {s : Bytes} {p : β × Bytes} :
    (readFixedStr n >>= f) (s.drop k) = .ok p ↔
      ∃ v : Str, NameAt s k n v ∧ f v (s.drop (k + n)) = .ok p := by
  have e : ∀ b : Bytes, b.takeWhile (fun x => decide (x ≠ 0)) = b.takeWhile (· != 0) := by
    intro b
    congr 1
    funext x
    by_cases hx : x = 0 <;> simp [hx]
  simp only [readFixedStr, bind_ok, lift_ok, readExact_drop, NameAt, bytesAt_iff, runwrap_ok,
    fromUtf8_iff, e]
  constructor
  · rintro ⟨v, s', ⟨b, s1, ⟨h, rfl, rfl⟩, h1, rfl⟩, h2⟩
    exact ⟨v, ⟨_, ⟨by omega, rfl⟩, h1⟩, h2⟩
  · rintro ⟨v, ⟨b, ⟨hl, rfl⟩, hv⟩, h2⟩
    exact ⟨v, _, ⟨_, _, ⟨.inr hl, rfl, rfl⟩, hv, rfl⟩, h2⟩

theorem str16_bind {β : Type} {k : Nat} {f : Str → Rd β} {s : Bytes} {p : β × Bytes} :
    (readFixedStr 16 >>= f) (s.drop k) = .ok p ↔
      ∃ v : Str, NameAt s k 16 v ∧ f v (s.drop (k + 16)) = .ok p := str_bind (by omega)

/-! ## The structures -/

theorem symtab_exact (e : Endian) (s : Bytes) (k : Nat) (x : SymtabCommand) (s' : Bytes) :
    SymtabCommand.readFromIn e (s.drop k) = .ok (x, s') ↔ SymtabAt e s k x ∧ s' = s.drop (k + 24) := by
  unfold SymtabCommand.readFromIn
  simp only [u32_bind, lift_bind_ok, rassert_ok, pure_ok, Nat.add_assoc, Nat.reduceAdd, beq_iff_eq,
    exists_const, SymtabCommand.TYPE, SymtabCommand.SIZE]
  constructor
  · rintro ⟨a, h1, rfl, b, h2, rfl, c, h3, d, h4, e, h5, f, h6, rfl, rfl⟩
    refine ⟨⟨rfl, rfl, ?_⟩, rfl⟩
    simp [Says, symtabFields, Field.says, h1, h2, h3, h4, h5, h6]
  · obtain ⟨a, b, c, d, f, g⟩ := x
    rintro ⟨⟨h1, h2, h⟩, rfl⟩
    simp [Says, symtabFields, Field.says] at h h1 h2
    subst h1 h2
    exact ⟨_, h.1, rfl, _, h.2.1, rfl, _, h.2.2.1, _, h.2.2.2.1, _, h.2.2.2.2.1, _, h.2.2.2.2.2, rfl, rfl⟩

theorem dysymtab_exact (e : Endian) (s : Bytes) (k : Nat) (x : DysymtabCommand) (s' : Bytes) :
    DysymtabCommand.readFromIn e (s.drop k) = .ok (x, s') ↔
      DysymtabAt e s k x ∧ s' = s.drop (k + 80) := by
  unfold DysymtabCommand.readFromIn
  simp only [u32_bind, lift_bind_ok, rassert_ok, pure_ok, Nat.add_assoc, Nat.reduceAdd, beq_iff_eq,
    exists_const, DysymtabCommand.TYPE, DysymtabCommand.SIZE]
  constructor
  · rintro ⟨a1, h1, rfl, a2, h2, rfl, a3, h3, a4, h4, a5, h5, a6, h6, a7, h7, a8, h8, a9, h9, a10, h10,
      a11, h11, a12, h12, a13, h13, a14, h14, a15, h15, a16, h16, a17, h17, a18, h18, a19, h19,
      a20, h20, rfl, rfl⟩
    refine ⟨⟨rfl, rfl, ?_⟩, rfl⟩
    simp [Says, dysymtabFields, Field.says, h1, h2, h3, h4, h5, h6, h7, h8, h9, h10, h11, h12, h13, h14,
      h15, h16, h17, h18, h19, h20]
  · obtain ⟨a1, a2, a3, a4, a5, a6, a7, a8, a9, a10, a11, a12, a13, a14, a15, a16, a17, a18, a19, a20⟩ := x
    rintro ⟨⟨h1, h2, h⟩, rfl⟩
    simp [Says, dysymtabFields, Field.says] at h h1 h2
    subst h1 h2
    obtain ⟨h1, h2, h3, h4, h5, h6, h7, h8, h9, h10, h11, h12, h13, h14, h15, h16, h17, h18, h19, h20⟩ := h
    exact ⟨_, h1, rfl, _, h2, rfl, _, h3, _, h4, _, h5, _, h6, _, h7, _, h8, _, h9, _, h10, _, h11,
      _, h12, _, h13, _, h14, _, h15, _, h16, _, h17, _, h18, _, h19, _, h20, rfl, rfl⟩

theorem code_iff {α : Type} {dec : UInt32 → Option α} {enc : α → UInt32} {num : α → Nat}
    (henc : ∀ {n t}, dec n = some t → enc t = n) (hdec : ∀ t, dec (enc t) = some t)
    (hnum : ∀ t, num t = (enc t).toNat) {n : UInt32} {t : α} : dec n = some t ↔ n.toNat = num t := by
  rw [hnum]
  constructor
  · intro h; rw [henc h]
  · intro h
    have : n = enc t := UInt32.toNat.inj h
    rw [this, hdec]

theorem fileType_iff {n : UInt32} {t : FileType} : FileType.fromU32? n = some t ↔ n.toNat = fileTypeNum t :=
  code_iff fileType_enc fileType_dec fileTypeNum_eq
theorem platform_iff {n : UInt32} {t : Platform} : Platform.fromU32? n = some t ↔ n.toNat = platformNum t :=
  code_iff platform_enc platform_dec platformNum_eq
theorem tool_iff {n : UInt32} {t : Tool} : Tool.fromU32? n = some t ↔ n.toNat = toolNum t :=
  code_iff tool_enc tool_dec toolNum_eq
theorem magic_iff {n : UInt32} {t : Magic} : Magic.fromU32? n = some t ↔ n.toNat = magicNum t :=
  code_iff magic_enc magic_dec magicNum_eq

theorem size_iff {bd : Build} {size n : UInt32} {c u : Nat} (hc : c < 2 ^ 32) (hu : u < 2 ^ 32) :
    (∃ a, mulU32 bd n (UInt32.ofNat u) = .ok a ∧ ∃ b, addU32 bd (UInt32.ofNat c) a = .ok b ∧ size = b) ↔
      SizeIs bd size (c + u * n.toNat) := by
  have hl := size.toNat_lt
  have huu : (UInt32.ofNat u).toNat = u := UInt32.toNat_ofNat_of_lt' hu
  have hcc : (UInt32.ofNat c).toNat = c := UInt32.toNat_ofNat_of_lt' hc
  have hcm : u * n.toNat = n.toNat * u := Nat.mul_comm _ _
  constructor
  · rintro ⟨a, ha, b, hb, rfl⟩
    obtain ⟨rfl, h1⟩ := mulU32_inv ha
    obtain ⟨rfl, h2⟩ := addU32_inv hb
    rw [huu] at h1
    rw [UInt32.toNat_mul, hcc, huu] at h2
    cases bd
    · have h1 := h1 rfl
      have h2 := h2 rfl
      rw [Nat.mod_eq_of_lt h1] at h2
      show UInt32.toNat _ = _
      rw [UInt32.toNat_add, UInt32.toNat_mul, hcc, huu, Nat.mod_eq_of_lt h1, Nat.mod_eq_of_lt h2, hcm]
    · show UInt32.toNat _ = _
      rw [UInt32.toNat_add, UInt32.toNat_mul, hcc, huu, Nat.add_mod_mod, hcm]
  · intro h
    cases bd
    · change size.toNat = _ at h
      have h1 : n.toNat * (UInt32.ofNat u).toNat < 2 ^ 32 := by rw [huu]; omega
      refine ⟨_, mulU32_ok _ h1, _, addU32_ok _ ?_, ?_⟩
      · rw [UInt32.toNat_mul, Nat.mod_eq_of_lt h1, huu, hcc]; omega
      · apply UInt32.toNat.inj
        rw [UInt32.toNat_add, UInt32.toNat_mul, Nat.mod_eq_of_lt h1, hcc, huu, Nat.mod_eq_of_lt (by omega)]
        omega
    · change size.toNat = _ at h
      refine ⟨n * UInt32.ofNat u, by simp [mulU32], UInt32.ofNat c + n * UInt32.ofNat u, by simp [addU32], ?_⟩
      apply UInt32.toNat.inj
      rw [UInt32.toNat_add, UInt32.toNat_mul, hcc, huu, Nat.add_mod_mod, h, hcm]

theorem version_iff {n : UInt32} {v : Version} : Version.fromU32 n = v ↔ n.toNat = versionNum v := by
  have hv : versionNum v = v.toU32.toNat := (version_toNat v).symm
  rw [hv]
  constructor
  · rintro rfl; rw [version_roundtrip']
  · intro h
    rw [UInt32.toNat.inj h, version_roundtrip]

theorem buildVersion_exact (bd : Build) (e : Endian) (s : Bytes) (k : Nat) (x : BuildVersionCommand)
    (s' : Bytes) : BuildVersionCommand.readFromIn bd e (s.drop k) = .ok (x, s') ↔
      BuildVersionAt bd e s k x ∧ s' = s.drop (k + 24) := by
  have hsz : ∀ size n : UInt32, (∃ a, mulU32 bd 8 n = .ok a ∧ ∃ b, addU32 bd 24 a = .ok b ∧ size = b) ↔
      SizeIs bd size (24 + 8 * n.toNat) := by
    intro size n
    rw [← size_iff (c := 24) (u := 8) (by omega) (by omega)]
    have : mulU32 bd 8 n = mulU32 bd n (UInt32.ofNat 8) := by
      have h8 : (8 : UInt32) = UInt32.ofNat 8 := rfl
      simp only [mulU32, Nat.mul_comm, UInt32.mul_comm, h8]
    rw [this]
    rfl
  unfold BuildVersionCommand.readFromIn
  simp only [u32_bind, lift_bind_ok, rassert_ok, runwrap_ok, pure_ok, Nat.add_assoc, Nat.reduceAdd,
    beq_iff_eq, exists_const, BuildVersionCommand.TYPE, BuildVersionCommand.SIZE, BuildToolVersion.SIZE]
  constructor
  · rintro ⟨a1, h1, rfl, a2, h2, a3, h3, p, hp, a4, h4, a5, h5, a6, h6, a, ha, b, hb, he, rfl, rfl⟩
    refine ⟨⟨rfl, (hsz _ _).1 ⟨a, ha, b, hb, he⟩, ?_⟩, rfl⟩
    simp [Says, buildVersionFields, Field.says, h1, h2, h3, h4, h5, h6, platform_iff.1 hp,
      (version_iff (n := a4)).1 rfl, (version_iff (n := a5)).1 rfl]
  · obtain ⟨a1, a2, a3, a4, a5, a6⟩ := x
    rintro ⟨⟨h1, hs, h⟩, rfl⟩
    simp [Says, buildVersionFields, Field.says] at h h1
    subst h1
    obtain ⟨h1, h2, h3, h4, h5, h6⟩ := h
    obtain ⟨a, ha, b, hb, he⟩ := (hsz _ _).2 hs
    have hv : ∀ v, versionNum v = v.toU32.toNat := fun v => (version_toNat v).symm
    rw [platformNum_eq] at h3
    rw [hv] at h4 h5
    exact ⟨_, h1, rfl, _, h2, _, h3, _, platform_dec _, _, h4, _, h5, _, h6, a, ha, b, hb, he,
      by simp only [version_roundtrip], rfl⟩

theorem tool_exact (e : Endian) (s : Bytes) (k : Nat) (x : BuildToolVersion) (s' : Bytes) :
    BuildToolVersion.readFromIn e (s.drop k) = .ok (x, s') ↔ ToolAt e s k x ∧ s' = s.drop (k + 8) := by
  unfold BuildToolVersion.readFromIn
  simp only [u32_bind, lift_bind_ok, runwrap_ok, pure_ok, Nat.add_assoc, Nat.reduceAdd]
  constructor
  · rintro ⟨a1, h1, t, ht, a2, h2, rfl, rfl⟩
    refine ⟨?_, rfl⟩
    simp [ToolAt, Says, toolFields, Field.says, h1, h2, tool_iff.1 ht]
  · obtain ⟨a1, a2⟩ := x
    rintro ⟨h, rfl⟩
    simp [ToolAt, Says, toolFields, Field.says] at h
    obtain ⟨h1, h2⟩ := h
    rw [toolNum_eq] at h1
    exact ⟨_, h1, _, tool_dec _, _, h2, rfl, rfl⟩

theorem segment_exact (bd : Build) (e : Endian) (s : Bytes) (k : Nat) (x : SegmentCommand64)
    (s' : Bytes) : SegmentCommand64.readFromIn bd e (s.drop k) = .ok (x, s') ↔
      SegmentAt bd e s k x ∧ s' = s.drop (k + 72) := by
  have hsz : ∀ size n : UInt32, (∃ a, mulU32 bd n 80 = .ok a ∧ ∃ b, addU32 bd 72 a = .ok b ∧ size = b) ↔
      SizeIs bd size (72 + 80 * n.toNat) := by
    intro size n
    rw [← size_iff (c := 72) (u := 80) (by omega) (by omega)]
    rfl
  unfold SegmentCommand64.readFromIn
  simp only [u32_bind, u64_bind, i32_bind, str16_bind, lift_bind_ok, rassert_ok, pure_ok,
    Nat.add_assoc, Nat.reduceAdd,
    beq_iff_eq, exists_const, SegmentCommand64.TYPE, SegmentCommand64.SIZE, Section64.SIZE]
  constructor
  · rintro ⟨a1, h1, rfl, a2, h2, a3, h3, a4, h4, a5, h5, a6, h6, a7, h7, a8, h8, a9, h9, a10, h10, a11, h11,
      a, ha, b, hb, he, rfl, rfl⟩
    refine ⟨⟨rfl, (hsz _ _).1 ⟨a, ha, b, hb, he⟩, ?_⟩, rfl⟩
    simp [Says, segmentFields, Field.says, h1, h2, h4, h5, h6, h7, h8, h9, h10, h11]
    simpa [NameAt] using h3
  · obtain ⟨a1, a2, a3, a4, a5, a6, a7, a8, a9, a10, a11⟩ := x
    rintro ⟨⟨h1, hs, h⟩, rfl⟩
    simp [Says, segmentFields, Field.says] at h h1
    subst h1
    obtain ⟨h1, h2, h3, h4, h5, h6, h7, h8, h9, h10, h11⟩ := h
    obtain ⟨a, ha, b, hb, he⟩ := (hsz _ _).2 hs
    exact ⟨_, h1, rfl, _, h2, _, by simpa [NameAt] using h3, _, h4, _, h5, _, h6, _, h7, _, h8, _, h9,
      _, h10, _, h11, a, ha, b, hb, he, rfl, rfl⟩

theorem section_word {n : UInt32} {t : SectionType} {l : SectionAttrs} :
    (SectionType.fromU32? (n &&& SectionType.BIT_MASK) = some t ∧
      SectionAttrs.fromU32 (n &&& SectionAttrs.BIT_MASK) = .ok l) ↔
    n.toNat = attrWord l + sectionTypeNum t ∧ sortAttrs l = l := by
  rw [sectionWord_eq]
  constructor
  · rintro ⟨h1, h2⟩
    have h3 := attrs_toU32_fromU32 h2
    have h4 : (n &&& SectionAttrs.BIT_MASK) &&& SectionAttrs.BIT_MASK = n &&& SectionAttrs.BIT_MASK := by
      rw [UInt32.and_assoc, UInt32.and_self]
    rw [h4] at h3
    refine ⟨by rw [h3, sectionType_enc h1, u32_split], ?_⟩
    have h5 := attrs_fromU32_toU32 l
    rw [h3, h2] at h5
    exact (Except.ok.inj h5).symm
  · rintro ⟨h1, h2⟩
    rw [UInt32.toNat.inj h1, sectionWord_type, sectionWord_attrs, type_dec, attrs_fromU32_toU32, h2]
    exact ⟨rfl, rfl⟩

theorem section_exact (e : Endian) (s : Bytes) (k : Nat) (x : Section64) (s' : Bytes) :
    Section64.readFromIn e (s.drop k) = .ok (x, s') ↔ SectionAt e s k x ∧ s' = s.drop (k + 80) := by
  unfold Section64.readFromIn
  simp only [u32_bind, u64_bind, str16_bind, lift_bind_ok, runwrap_ok, pure_ok, Nat.add_assoc,
    Nat.reduceAdd]
  constructor
  · rintro ⟨a1, h1, a2, h2, a3, h3, a4, h4, a5, h5, a6, h6, a7, h7, a8, h8, w, hw, t, ht, l, hl,
      a9, h9, a10, h10, a11, h11, rfl, rfl⟩
    obtain ⟨hn, hs⟩ := section_word.1 ⟨ht, hl⟩
    rw [hn] at hw
    refine ⟨⟨?_, hs⟩, rfl⟩
    simp only [NameAt] at h1 h2
    simp [Says, sectionFields, Field.says, h3, h4, h5, h6, h7, h8, h9, h10, h11, hw]
    exact ⟨by simpa using h1, by simpa using h2⟩
  · obtain ⟨a1, a2, a3, a4, a5, a6, a7, a8, a9, a10, a11, a12, a13⟩ := x
    rintro ⟨⟨h, hs⟩, rfl⟩
    simp [Says, sectionFields, Field.says] at h hs
    obtain ⟨h1, h2, h3, h4, h5, h6, h7, h8, h9, h10, h11, h12⟩ := h
    rw [sectionWord_eq] at h9
    obtain ⟨ht, hl⟩ := (section_word (n := SectionAttrs.toU32 a9 ||| a10.toU32) (t := a10) (l := a9)).2
      ⟨(sectionWord_eq _ _).symm, hs⟩
    exact ⟨_, by simpa [NameAt] using h1, _, by simpa [NameAt] using h2, _, h3, _, h4, _, h5, _, h6, _, h7,
      _, h8, _, h9, _, ht, _, hl, _, h10, _, h11, _, h12, rfl, rfl⟩

theorem nType_all : ∀ n < 256,
    (match NTypeField.fromU8 (UInt8.ofNat n) with
      | .ok (.norm p t x) => n == nTypeByte (.norm p t x)
      | .ok (.stab d) => n / 32 * 32 == debugSymbolNum d
      | .error _ => n % 16 / 2 * 2 != 0 && n % 16 / 2 * 2 != 2 && n % 16 / 2 * 2 != 14 &&
          n % 16 / 2 * 2 != 12 && n % 16 / 2 * 2 != 10 && n < 32 || 64 ≤ n) = true := by decide +kernel

theorem nTypeByte_lt (p : Bool) (t : NType) (x : Bool) : nTypeByte (.norm p t x) < 32 := by
  cases p <;> cases t <;> cases x <;> decide

theorem nType_iff {n : UInt8} {t : NTypeField} : NTypeField.fromU8 n = .ok t ↔ NTypeSays n.toNat t := by
  constructor
  · intro h
    have := nType_all n.toNat n.toNat_lt
    rw [UInt8.ofNat_toNat, h] at this
    cases t with
    | norm p t x => exact beq_iff_eq.1 this
    | stab d => exact beq_iff_eq.1 this
  · intro h
    cases t with
    | norm p t x =>
      have h : n.toNat = nTypeByte (.norm p t x) := h
      rw [nTypeByte_eq] at h
      rw [UInt8.toNat.inj h, nType_roundtrip]
    | stab d =>
      have h : n.toNat / 32 * 32 = 32 := by cases d; exact h
      have := nType_all n.toNat n.toNat_lt
      rw [UInt8.ofNat_toNat] at this
      cases hf : NTypeField.fromU8 n with
      | ok t =>
        cases t with
        | norm p t x =>
          rw [hf] at this
          have h1 := beq_iff_eq.1 this
          have := nTypeByte_lt p t x
          omega
        | stab d' => cases d; cases d'; rfl
      | error e =>
        rw [hf] at this
        simp only [Bool.or_eq_true, Bool.and_eq_true, decide_eq_true_eq] at this
        omega

theorem nlist_exact (e : Endian) (s : Bytes) (k : Nat) (x : NList64) (s' : Bytes) :
    NList64.readFromIn e (s.drop k) = .ok (x, s') ↔ NListAt e s k x ∧ s' = s.drop (k + 16) := by
  unfold NList64.readFromIn
  simp only [u32_bind, u64_bind, u16_bind, u8_bind e, lift_bind_ok, pure_ok, Nat.add_assoc,
    Nat.reduceAdd, nType_iff]
  constructor
  · rintro ⟨a1, h1, a2, h2, t, ht, a3, h3, a4, h4, a5, h5, rfl, rfl⟩
    refine ⟨⟨⟨_, h2, ht⟩, ?_⟩, rfl⟩
    simp [Says, nlistFields, Field.says, h1, h3, h4, h5]
  · obtain ⟨a1, a2, a3, a4, a5⟩ := x
    rintro ⟨⟨⟨n, h2, ht⟩, h⟩, rfl⟩
    simp [Says, nlistFields, Field.says] at h ht
    obtain ⟨h1, h3, h4, h5⟩ := h
    have hn : n < 256 := by
      rw [numAt_iff] at h2
      rw [← h2.2]
      exact intVal_take_lt e h2.1
    have hn' : (UInt8.ofNat n).toNat = n := UInt8.toNat_ofNat_of_lt' hn
    exact ⟨_, h1, UInt8.ofNat n, by rw [hn', h2], _, by rw [hn']; exact ht, _, h3, _, h4, _, h5, rfl, rfl⟩

theorem reloc_exact (e : Endian) (s : Bytes) (k : Nat) (x : RelocationInfo) (s' : Bytes) :
    RelocationInfo.readFromIn e (s.drop k) = .ok (x, s') ↔ RelocAt e s k x ∧ s' = s.drop (k + 8) := by
  unfold RelocationInfo.readFromIn
  simp only [u32_bind, i32_bind, lift_ok, Nat.add_assoc, Nat.reduceAdd]
  constructor
  · rintro ⟨a, h1, n, h2, hu, rfl⟩
    obtain ⟨hs, ht⟩ := reloc_unpack_fits hu
    obtain ⟨rfl, rfl⟩ := reloc_pack_unpack hu
    refine ⟨⟨hs, ht, ?_⟩, rfl⟩
    simp [Says, relocFields, Field.says, h1, h2, relocWord_eq e x hs ht]
  · rintro ⟨⟨hs, ht, h⟩, rfl⟩
    simp [Says, relocFields, Field.says] at h
    rw [relocWord_eq e x hs ht] at h
    exact ⟨_, h.1, _, h.2, reloc_unpack_pack e x hs ht, rfl⟩

theorem flags_iff {n : UInt32} {l : Flags} :
    Flags.fromU32 n = .ok l ↔ n.toNat = flagWord l ∧ sortFlags l = l := by
  rw [flagWord_eq]
  constructor
  · intro h
    have h3 := flags_toU32_fromU32 h
    have h5 := flags_fromU32_toU32 l
    rw [h3, h] at h5
    exact ⟨by rw [h3], (Except.ok.inj h5).symm⟩
  · rintro ⟨h1, h2⟩
    rw [UInt32.toNat.inj h1, flags_fromU32_toU32, h2]

theorem i32Num_inj {a b : Int32} (h : i32Num a = i32Num b) : a = b := by
  rw [i32Num_eq, i32Num_eq] at h
  rw [← Int32.toInt32_toUInt32 a, UInt32.toNat.inj h, Int32.toInt32_toUInt32]

theorem cpu_iff {a b : Int32} {c : CpuType} :
    CpuType.fromI32I32 a b = .ok c ↔ i32Num a = cpuNum c ∧ i32Num b = 3 := by
  have hc : i32Num c.toI32I32.1 = cpuNum c := by rw [i32Num_eq, cpuNum_eq]
  have hs : i32Num c.toI32I32.2 = 3 := by rw [i32Num_eq, ← cpuSub_eq]
  constructor
  · intro h
    have h := cpu_enc h
    rw [h] at hc hs
    exact ⟨hc, hs⟩
  · rintro ⟨h1, h2⟩
    rw [i32Num_inj (h1.trans hc.symm), i32Num_inj (h2.trans hs.symm), cpu_dec]

theorem announces_iff {h e : Endian} {m : Magic} : m.endian h = .ok e ↔ Announces h m e := by
  constructor
  · intro hm
    cases m <;> simp only [Magic.endian, Except.ok.injEq, reduceCtorEq] at hm
    · subst hm; exact .native64
    · subst hm; exact .swapped64 _ (by cases h <;> simp [Endian.reverse])
    · subst hm; exact .native
    · subst hm; exact .swapped _ (by cases h <;> simp [Endian.reverse])
  · intro hm
    cases hm with
    | native64 => rfl
    | native => rfl
    | swapped64 _ he => cases h <;> cases e <;> simp_all [Magic.endian, Endian.reverse]
    | swapped _ he => cases h <;> cases e <;> simp_all [Magic.endian, Endian.reverse]

theorem header_exact (h : Endian) (s : Bytes) (x : Header64) (e : Endian) (s' : Bytes) :
    Header64.readFrom h s = .ok ((x, e), s') ↔ HeaderAt h s x e ∧ s' = s.drop 32 := by
  rw [← List.drop_zero (l := s)]
  unfold Header64.readFrom
  simp only [u32_bind, i32_bind, lift_bind_ok, runwrap_ok, pure_ok, Nat.reduceAdd, flags_iff, cpu_iff,
    fileType_iff, magic_iff, announces_iff]
  simp only [List.drop_zero]
  constructor
  · rintro ⟨a1, h1, m, hm, e', he, c1, h2, c2, h3, c, ⟨hc1, hc2⟩, f, h4, ft, hf, a5, h5, a6, h6, a7, h7,
      fl, ⟨hfl, hso⟩, a8, h8, hx, rfl⟩
    obtain ⟨rfl, rfl⟩ := Prod.mk.inj hx
    refine ⟨⟨by rw [h1, hm], he, ?_, hso⟩, rfl⟩
    simp [Says, headerFields, Field.says, h2, h3, h4, h5, h6, h7, h8, hc1, hc2, hf, hfl]
  · obtain ⟨m, c, ft, a5, a6, fl, a8⟩ := x
    rintro ⟨⟨h1, he, h, hso⟩, rfl⟩
    simp [Says, headerFields, Field.says] at h h1 he hso
    obtain ⟨h2, h3, h4, h5, h6, h7, h8⟩ := h
    have hc : i32Num c.toI32I32.1 = cpuNum c := by rw [i32Num_eq, cpuNum_eq]
    have hs : i32Num c.toI32I32.2 = 3 := by rw [i32Num_eq, ← cpuSub_eq]
    rw [magicNum_eq] at h1
    rw [fileTypeNum_eq] at h4
    rw [flagWord_eq] at h7
    exact ⟨_, h1, _, (magicNum_eq _).symm, _, he, _, by rw [hc, h2], _, by rw [hs, h3], _, ⟨hc, hs⟩, _, h4, _,
      (fileTypeNum_eq _).symm, _, h5, _, h6, _, h7, _, ⟨(flagWord_eq _).symm, hso⟩, _, h8, rfl, rfl⟩

/-! ## Load commands -/

theorem readN_exact {α : Type} {r : Rd α} {s : Bytes} {w : Nat} {At : Nat → α → Prop}
    (hr : ∀ k x s', r (s.drop k) = .ok (x, s') ↔ At k x ∧ s' = s.drop (k + w)) (n k : Nat) (l : List α)
    (s' : Bytes) : readN r n (s.drop k) = .ok (l, s') ↔
      l.length = n ∧ (∀ (i : Nat) (x : α), l[i]? = some x → At (k + w * i) x) ∧ s' = s.drop (k + w * n) := by
  induction n generalizing k l s' with
  | zero =>
    simp only [readN, pure_ok, List.length_eq_zero_iff]
    constructor
    · rintro ⟨rfl, rfl⟩; simp
    · rintro ⟨rfl, _, rfl⟩; simp
  | succ n ih =>
    simp only [readN, bind_ok, pure_ok]
    constructor
    · rintro ⟨x, s1, hx, xs, s2, hxs, rfl, rfl⟩
      obtain ⟨ha, rfl⟩ := (hr _ _ _).1 hx
      obtain ⟨hl, hb, rfl⟩ := (ih _ _ _).1 hxs
      refine ⟨by simp [hl], ?_, ?_⟩
      · intro i y hy
        cases i with
        | zero => simp only [List.getElem?_cons_zero, Option.some.injEq] at hy; subst hy; simpa using ha
        | succ i =>
          have := hb i y (by simpa using hy)
          rwa [show k + w * (i + 1) = k + w + w * i by rw [Nat.mul_add]; omega]
      · congr 1
        rw [Nat.mul_add]; omega
    · rintro ⟨hl, ha, rfl⟩
      obtain ⟨x, xs, rfl⟩ := List.exists_cons_of_length_eq_add_one hl
      refine ⟨x, _, (hr _ _ _).2 ⟨by simpa using ha 0 x rfl, rfl⟩, xs, _,
        (ih _ _ _).2 ⟨by simpa using hl, ?_, rfl⟩, rfl, ?_⟩
      · intro i y hy
        have := ha (i + 1) y (by simpa using hy)
        rwa [show k + w * (i + 1) = k + w + w * i by rw [Nat.mul_add]; omega] at this
      · congr 1
        rw [Nat.mul_add]; omega

theorem unread_peek {α : Type} {e : Endian} {s : Bytes} {n : UInt32} {f : Unit → Rd α}
    (h : numAt e s 0 4 = some n.toNat) :
    (unread (intBytes e 4 n.toNat) >>= f) (s.drop 4) = f () s := by
  rw [numAt_iff] at h
  have hb : intBytes e 4 n.toNat = s.take 4 := by
    rw [← h.2, List.drop_zero]
    have := intBytes_intVal e (s.take 4)
    rwa [List.length_take, Nat.min_eq_left (by omega)] at this
  rw [rd_bind]
  show f () (intBytes e 4 n.toNat ++ s.drop 4) = _
  rw [hb, List.take_append_drop]

theorem says_cmd {e : Endian} {s : Bytes} {k v : Nat} {l : List Field} (h : Says e s k (.num 0 4 v :: l)) :
    numAt e s k 4 = some v := h _ (List.mem_cons_self ..)

theorem load_exact (bd : Build) (e : Endian) (s : Bytes) (c : LoadCommand) (s' : Bytes) :
    LoadCommand.readFromIn bd e s = .ok (c, s') ↔ ∃ n, CommandAt bd e s c n ∧ s' = s.drop n := by
  have hseg := fun x s' => segment_exact bd e s 0 x s'
  have hsym := fun x s' => symtab_exact e s 0 x s'
  have hdys := fun x s' => dysymtab_exact e s 0 x s'
  have hbv := fun x s' => buildVersion_exact bd e s 0 x s'
  simp only [List.drop_zero, Nat.zero_add] at hseg hsym hdys hbv
  have key : LoadCommand.readFromIn bd e s = .ok (c, s') ↔
      ∃ n : UInt32, numAt e s 0 4 = some n.toNat ∧ dispatch bd e n s = .ok (c, s') := by
    rw [load_readFromIn, ← List.drop_zero (l := s), u32_bind]
    simp only [List.drop_zero]
    constructor
    · rintro ⟨n, hn, h⟩
      rw [Nat.zero_add, unread_peek hn] at h
      exact ⟨n, hn, h⟩
    · rintro ⟨n, hn, h⟩
      exact ⟨n, hn, by rw [Nat.zero_add, unread_peek hn]; exact h⟩
  rw [key]
  constructor
  · rintro ⟨n, hn, h⟩
    unfold dispatch at h
    split at h
    · simp only [bind_ok, pure_ok, hseg] at h
      obtain ⟨x, _, ⟨hx, rfl⟩, l, _, hl, rfl, rfl⟩ := h
      rw [readN_exact (At := SectionAt e s) (fun k x s' => section_exact e s k x s')] at hl
      obtain ⟨hl, ha, rfl⟩ := hl
      exact ⟨_, .segment x l hx hl ha, by rw [hl]⟩
    split at h
    · simp only [bind_ok, pure_ok, hsym] at h
      obtain ⟨x, _, ⟨hx, rfl⟩, rfl, rfl⟩ := h
      exact ⟨_, .symtab x hx, rfl⟩
    split at h
    · simp only [bind_ok, pure_ok, hdys] at h
      obtain ⟨x, _, ⟨hx, rfl⟩, rfl, rfl⟩ := h
      exact ⟨_, .dysymtab x hx, rfl⟩
    split at h
    · simp only [bind_ok, pure_ok, hbv] at h
      obtain ⟨x, _, ⟨hx, rfl⟩, l, _, hl, rfl, rfl⟩ := h
      rw [readN_exact (At := ToolAt e s) (fun k x s' => tool_exact e s k x s')] at hl
      obtain ⟨hl, ha, rfl⟩ := hl
      exact ⟨_, .buildVersion x l hx hl ha, by rw [hl]⟩
    · simp [lift_ok] at h
  · rintro ⟨n, hc, rfl⟩
    cases hc with
    | segment x l hx hl ha =>
      have hn := says_cmd hx.fields
      rw [hx.cmd] at hn
      refine ⟨0x19, hn, ?_⟩
      unfold dispatch
      rw [if_pos (by rfl)]
      simp only [bind_ok, pure_ok, hseg]
      refine ⟨x, _, ⟨hx, rfl⟩, l, _, ?_, rfl, rfl⟩
      rw [readN_exact (At := SectionAt e s) (fun k x s' => section_exact e s k x s')]
      exact ⟨hl, ha, by rw [hl]⟩
    | symtab x hx =>
      have hn := says_cmd hx.fields
      rw [hx.cmd] at hn
      refine ⟨2, hn, ?_⟩
      unfold dispatch
      rw [if_neg (by decide), if_pos (by rfl)]
      simp only [bind_ok, pure_ok, hsym]
      exact ⟨x, _, ⟨hx, rfl⟩, rfl, rfl⟩
    | dysymtab x hx =>
      have hn := says_cmd hx.fields
      rw [hx.cmd] at hn
      refine ⟨0xB, hn, ?_⟩
      unfold dispatch
      rw [if_neg (by decide), if_neg (by decide), if_pos (by rfl)]
      simp only [bind_ok, pure_ok, hdys]
      exact ⟨x, _, ⟨hx, rfl⟩, rfl, rfl⟩
    | buildVersion x l hx hl ha =>
      have hn := says_cmd hx.fields
      rw [hx.cmd] at hn
      refine ⟨0x32, hn, ?_⟩
      unfold dispatch
      rw [if_neg (by decide), if_neg (by decide), if_neg (by decide), if_pos (by rfl)]
      simp only [bind_ok, pure_ok, hbv]
      refine ⟨x, _, ⟨hx, rfl⟩, l, _, ?_, rfl, rfl⟩
      rw [readN_exact (At := ToolAt e s) (fun k x s' => tool_exact e s k x s')]
      exact ⟨hl, ha, by rw [hl]⟩

/-- A reader that only ever panics when it does not return. -/
def OnlyPanics {α : Type} (r : Rd α) : Prop := ∀ s e, r s = .error e → e = .panic

theorem OnlyPanics.bind {α β : Type} {r : Rd α} {f : α → Rd β} (h : OnlyPanics r)
    (hf : ∀ x, OnlyPanics (f x)) : OnlyPanics (r >>= f) := by
  intro s e he
  rw [rd_bind] at he
  cases hr : r s with
  | error e' => rw [hr] at he; cases he; exact h _ _ hr
  | ok p => rw [hr] at he; exact hf _ _ _ he

theorem OnlyPanics.pure {α : Type} (x : α) : OnlyPanics (Pure.pure x : Rd α) := by
  intro s e h; cases h

theorem OnlyPanics.readN {α : Type} {r : Rd α} (h : OnlyPanics r) (n : Nat) : OnlyPanics (readN r n) := by
  induction n with
  | zero => exact .pure _
  | succ n ih => exact .bind h fun _ => .bind ih fun _ => .pure _

theorem load_panics (bd : Build) (e : Endian) : OnlyPanics (LoadCommand.readFromIn bd e) := by
  rw [load_readFromIn]
  refine .bind (fixed_u32 e).err fun n => .bind (fun s e h => by simp [unread] at h) fun _ => ?_
  unfold dispatch
  split
  · exact .bind (segment_fixed bd e).err fun _ => .bind (.readN (section_fixed e).err _) fun _ => .pure _
  split
  · exact .bind (symtab_fixed e).err fun _ => .pure _
  split
  · exact .bind (dysymtab_fixed e).err fun _ => .pure _
  split
  · exact .bind (buildVersion_fixed bd e).err fun _ => .bind (.readN (tool_fixed e).err _) fun _ => .pure _
  · exact (Fixed.lift (fun e h => by cases h; rfl)).err

/-! ## `Decodes` -/

theorem decodes_of {α : Type} {r : Rd α} {s : Bytes} {At : α → Nat → Prop}
    (hx : ∀ x s', r s = .ok (x, s') ↔ ∃ n, At x n ∧ s' = s.drop n) (hl : ∀ x n, At x n → n ≤ s.length)
    (hp : OnlyPanics r) : Decodes (r s) s At := by
  refine ⟨fun x s' => ?_, fun h => ?_⟩
  · rw [hx]
    constructor
    · rintro ⟨n, h1, h2⟩; exact ⟨n, h1, hl x n h1, h2⟩
    · rintro ⟨n, h1, _, h2⟩; exact ⟨n, h1, h2⟩
  · cases hr : r s with
    | error e => rw [hp s e hr]
    | ok p =>
      obtain ⟨n, hn, _⟩ := (hx p.1 p.2).1 hr
      exact absurd ⟨_, _, hn⟩ h

theorem decodes_fixed {α : Type} {r : Rd α} {s : Bytes} {At : α → Prop} {w : Nat}
    (hx : ∀ x s', r s = .ok (x, s') ↔ At x ∧ s' = s.drop w) (hf : Fixed r w) :
    Decodes (r s) s (fun x n => At x ∧ n = w) := by
  refine decodes_of (fun x s' => ?_) ?_ hf.err
  · rw [hx]
    constructor
    · rintro ⟨h1, h2⟩; exact ⟨w, ⟨h1, rfl⟩, h2⟩
    · rintro ⟨_, ⟨h1, rfl⟩, h2⟩; exact ⟨h1, h2⟩
  · rintro x n ⟨h, rfl⟩
    exact (hf.ok s x _ ((hx x _).2 ⟨h, rfl⟩)).1

/-! ## String tables -/

theorem split0_spec (d : Bytes) : ∃ p ps, StringTable.split0 d = p :: ps ∧ (0 : UInt8) ∉ p ∧
    (∀ q ∈ ps, (0 : UInt8) ∉ q) ∧ d = p ++ ps.flatMap (fun q => 0 :: q) := by
  induction d with
  | nil => exact ⟨[], [], rfl, by simp, by simp, rfl⟩
  | cons b d ih =>
    obtain ⟨p, ps, h1, h2, h3, h4⟩ := ih
    by_cases hb : b = 0
    · subst hb
      refine ⟨[], p :: ps, by simp [StringTable.split0, h1], by simp, ?_, by simp [h4]⟩
      simpa using ⟨h2, h3⟩
    · refine ⟨b :: p, ps, by simp [StringTable.split0, h1, hb], ?_, h3, by simp [h4]⟩
      simp only [List.mem_cons, not_or]
      exact ⟨fun h => hb h.symm, h2⟩

theorem split0_intro (p : Bytes) (ps : List Bytes) (hp : (0 : UInt8) ∉ p) (hps : ∀ q ∈ ps, (0 : UInt8) ∉ q) :
    StringTable.split0 (p ++ ps.flatMap (fun q => 0 :: q)) = p :: ps := by
  induction ps generalizing p with
  | nil =>
    induction p with
    | nil => rfl
    | cons b p ih =>
      simp only [List.mem_cons, not_or] at hp
      have ih := ih hp.2
      simp only [List.flatMap_nil, List.append_nil] at ih ⊢
      have hb : b ≠ 0 := fun h => hp.1 h.symm
      simp [StringTable.split0, ih, hb]
  | cons q ps ihp =>
    have hq := ihp q (hps q (by simp)) (fun q hq => hps q (by simp [hq]))
    induction p with
    | nil => simp [StringTable.split0, hq]
    | cons b p ih =>
      simp only [List.mem_cons, not_or] at hp
      have ih := ih hp.2
      have hb : b ≠ 0 := fun h => hp.1 h.symm
      simp only [List.cons_append]
      rw [StringTable.split0, ih]
      simp [hb]

theorem mapM_cons_ok {α β : Type} {g : α → Res β} {x : α} {l : List α} {r : List β} :
    (x :: l).mapM g = .ok r ↔ ∃ y q, g x = .ok y ∧ l.mapM g = .ok q ∧ r = y :: q := by
  rw [List.mapM_cons]
  cases g x with
  | error e => simp [bind, Except.bind]
  | ok y =>
    cases l.mapM g with
    | error e => simp [bind, Except.bind]
    | ok q => simp [bind, Except.bind, pure, Except.pure, eq_comm]

theorem mapM_runwrap {α β : Type} (f : α → Option β) (l : List α) (r : List β) :
    l.mapM (fun x => runwrap (f x)) = Except.ok (ε := Stop) r ↔ l.map f = r.map some := by
  induction l generalizing r with
  | nil => cases r <;> simp [List.mapM_nil, pure, Except.pure]
  | cons x l ih =>
    rw [mapM_cons_ok]
    constructor
    · rintro ⟨y, q, h1, h2, rfl⟩
      simp only [List.map_cons, List.cons.injEq]
      exact ⟨runwrap_ok.1 h1, (ih q).1 h2⟩
    · intro h
      cases r with
      | nil => simp at h
      | cons y q =>
        simp only [List.map_cons, List.cons.injEq] at h
        exact ⟨y, q, runwrap_ok.2 h.1, (ih q).2 h.2, rfl⟩

theorem mapM_runwrap_err {α β : Type} (f : α → Option β) (l : List α) (e : Stop)
    (h : l.mapM (fun x => runwrap (f x)) = .error e) : e = .panic := by
  induction l with
  | nil => simp [List.mapM_nil, pure, Except.pure] at h
  | cons x l ih =>
    rw [List.mapM_cons] at h
    cases hx : runwrap (f x) with
    | error e' =>
      rw [hx] at h
      cases h
      exact runwrap_err _ _ hx
    | ok y =>
      rw [hx] at h
      cases hl : l.mapM (fun x => runwrap (f x)) with
      | error e' =>
        rw [hl] at h
        cases h
        exact ih hl
      | ok q => rw [hl] at h; cases h

theorem iter_exact (t : StringTable) (l : List Str) : t.iter = .ok l ↔
    ∃ p, t.data = p ++ l.flatMap (fun s => 0 :: utf8 s) ∧ (0 : UInt8) ∉ p ∧ ∀ s ∈ l, (0 : UInt8) ∉ utf8 s := by
  obtain ⟨p, ps, h1, h2, h3, h4⟩ := split0_spec t.data
  unfold StringTable.iter StringTable.rawIter
  rw [mapM_runwrap, h1, List.drop_one, List.tail_cons]
  constructor
  · intro h
    have hu : ps = l.map utf8 := by
      clear h1 h2 h3 h4
      induction ps generalizing l with
      | nil => cases l <;> simp at h ⊢
      | cons q ps ih =>
        cases l with
        | nil => simp at h
        | cons s l =>
          simp only [List.map_cons, List.cons.injEq] at h ⊢
          exact ⟨(utf8_of_fromUtf8 h.1).symm, ih l h.2⟩
    subst hu
    refine ⟨p, by rw [h4, List.flatMap_map], h2, ?_⟩
    intro s hs
    exact h3 _ (List.mem_map.2 ⟨s, hs, rfl⟩)
  · rintro ⟨p', h5, h6, h7⟩
    have h8 := split0_intro p' (l.map utf8) h6 (by
      intro q hq; obtain ⟨s, hs, rfl⟩ := List.mem_map.1 hq; exact h7 s hs)
    rw [List.flatMap_map, ← h5, h1] at h8
    obtain ⟨-, rfl⟩ := List.cons.inj h8
    rw [List.map_map]
    apply List.map_congr_left
    intro s _
    exact fromUtf8_utf8 s

end AT.Mac
