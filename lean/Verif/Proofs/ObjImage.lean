import Verif.Model.ObjMacho
import Verif.Spec.ObjSpec
import Verif.Proofs.ObjNum
import Verif.Proofs.MacReads
import Verif.Proofs.MacStr
/-!
# The bytes written for an object that fits the format
-/

namespace AT.Obj
open AT.Mac AT.MachO AT.ObjSpec

/-- The specification's view of a section of the model. -/
def toPart : SectionRef → Part
  | .text t => ⟨str% "__text", str% "__TEXT", t.bytes, t.bytes.length, false, t.symbols, t.relocs⟩
  | .data d => ⟨str% "__data", str% "__DATA", d.bytes, d.bytes.length, false, d.symbols, d.relocs⟩
  | .bss b => ⟨str% "__bss", str% "__DATA", [], b.size.toNat, true, b.symbols, []⟩

theorem toPart_bytes (s : SectionRef) : (toPart s).bytes = s.fileData := by cases s <;> rfl
theorem toPart_symbols (s : SectionRef) : (toPart s).symbols = s.symbols := by cases s <;> rfl
theorem toPart_relocs (s : SectionRef) : (toPart s).relocs = s.relocs := by cases s <;> rfl

theorem isEmpty_bytes (b : Bytes) (h : b.length < 2 ^ 64) :
    (UInt64.ofNat b.length == 0) = decide (b = []) := by
  by_cases hb : b = []
  · subst hb; rfl
  · have hl : b.length ≠ 0 := fun h0 => hb (List.length_eq_zero_iff.1 h0)
    have : UInt64.ofNat b.length ≠ 0 := by
      intro h0
      have := congrArg UInt64.toNat h0
      rw [u64_ofNat _ h] at this
      exact hl this
    simp [hb, this]

theorem parts_eq (o : Object) (ht : o.sections.text.bytes.length < 2 ^ 64)
    (hd : o.sections.data.bytes.length < 2 ^ 64) :
    parts o = o.sections.iter.map toPart := by
  unfold parts Sections.iter
  simp only [List.filter_cons, List.filter_nil, SectionRef.isEmpty, SectionRef.vmSize,
    isEmpty_bytes _ ht, isEmpty_bytes _ hd]
  by_cases h1 : o.sections.text.bytes = [] <;> by_cases h2 : o.sections.data.bytes = [] <;>
    by_cases h3 : o.sections.bss.size = 0 <;> simp [h1, h2, h3, toPart]

theorem fits_len {o : Object} (h : Fits o) : o.sections.text.bytes.length < 2 ^ 64 ∧
    o.sections.data.bytes.length < 2 ^ 64 := by
  have hf := h.file
  have hd : dataLen (parts o) ≤ roundUp8 (dataLen (parts o)) := by unfold roundUp8; omega
  have hl : dataLen (parts o) < 2 ^ 32 := by
    unfold strStart symStart relocStart at hf; omega
  unfold dataLen parts at hl
  by_cases h1 : o.sections.text.bytes = [] <;> by_cases h2 : o.sections.data.bytes = [] <;>
    by_cases h3 : o.sections.bss.size = 0 <;> simp [h1, h2, h3] at hl ⊢ <;> omega

theorem parts_of_fits {o : Object} (h : Fits o) : parts o = o.sections.iter.map toPart :=
  parts_eq o (fits_len h).1 (fits_len h).2

/-- Bounds used throughout. -/
structure Bounds (ps : List Part) : Prop where
  file : strStart ps < 2 ^ 32
  strs : strLen ps < 2 ^ 32
  vm : vmLen ps < 2 ^ 64

variable {o : Object} {ps : List Part}

theorem u32_const : Header64.SIZE = UInt32.ofNat 32 ∧ SegmentCommand64.SIZE = UInt32.ofNat 72 ∧
    Section64.SIZE = UInt32.ofNat 80 ∧ SymtabCommand.SIZE = UInt32.ofNat 24 ∧
    RelocationInfo.SIZE = UInt32.ofNat 8 ∧ NList64.SIZE = UInt32.ofNat 16 := by decide

/-- Header of the file. -/
def headerOf (ps : List Part) : Header64 :=
  ⟨.magic64, .x86_64 .all, .object, 2, UInt32.ofNat (72 + 80 * ps.length + 24), [], 0⟩

/-- Segment command of the file. -/
def segmentOf (ps : List Part) : SegmentCommand64 :=
  ⟨0x19, UInt32.ofNat (72 + 80 * ps.length), [], 0, UInt64.ofNat (vmLen ps),
    UInt64.ofNat (cmdsEnd ps), UInt64.ofNat (roundUp8 (dataLen ps) % 2 ^ 32), 7, 7,
    UInt32.ofNat ps.length, 0⟩

/-- Symtab command of the file. -/
def symtabOf (ps : List Part) : SymtabCommand :=
  ⟨2, 24, UInt32.ofNat (symStart ps), UInt32.ofNat (symCount ps), UInt32.ofNat (strStart ps),
    UInt32.ofNat (strLen ps)⟩

/-- Section headers of the file, starting from given address and offsets. -/
def sectionsFrom (vm ds rs : Nat) : List SectionRef → List Section64
  | [] => []
  | s :: ss => genSection64 s (UInt64.ofNat vm) (UInt32.ofNat ds) (UInt32.ofNat rs) ::
      sectionsFrom (vm + (toPart s).vmsize) (ds + (toPart s).bytes.length)
        (rs + 8 * (toPart s).relocs.length) ss

theorem secs_mul (bd : Build) (hp : ps = o.sections.iter.map toPart) (hb : Bounds ps) :
    mulU32 bd o.sections.len Section64.SIZE = .ok (UInt32.ofNat (80 * ps.length)) := by
  have hf := hb.file
  unfold strStart symStart relocStart cmdsEnd at hf
  have hl : ps.length = o.sections.iter.length := by rw [hp, List.length_map]
  unfold Sections.len
  rw [u32_const.2.2.1, ← hl, mulU32_nat bd (by omega) (by omega) (by omega), Nat.mul_comm]

theorem genHeader64_eq (bd : Build) (hp : ps = o.sections.iter.map toPart) (hb : Bounds ps) :
    genHeader64 bd o = .ok (headerOf ps) := by
  have hf := hb.file
  unfold strStart symStart relocStart cmdsEnd at hf
  unfold genHeader64
  rw [secs_mul bd hp hb, u32_const.2.1, u32_const.2.2.2.1]
  simp only [bind, Except.bind]
  rw [addU32_nat bd (by omega)]
  simp only
  rw [addU32_nat bd (by omega)]
  rfl

theorem dataStart_eq (bd : Build) (hp : ps = o.sections.iter.map toPart) (hb : Bounds ps) :
    dataStart bd o = .ok (UInt32.ofNat (cmdsEnd ps)) := by
  have hf := hb.file
  unfold strStart symStart relocStart cmdsEnd at hf
  unfold dataStart
  rw [secs_mul bd hp hb, u32_const.1, u32_const.2.1, u32_const.2.2.2.1]
  rw [addU32_nat bd (by omega)]
  simp only [bind, Except.bind]
  rw [addU32_nat bd (by omega)]
  simp only
  rw [addU32_nat bd (by omega)]
  rfl

theorem fileSizes_eq (hp : ps = o.sections.iter.map toPart) :
    o.sections.iter.map SectionRef.fileSize = (ps.map (·.bytes.length)).map UInt32.ofNat := by
  rw [hp, List.map_map, List.map_map]
  apply List.map_congr_left
  intro s _
  simp [SectionRef.fileSize, toPart_bytes]

theorem fileSum_eq (bd : Build) (hp : ps = o.sections.iter.map toPart) (hb : Bounds ps) :
    sumU32 bd (o.sections.iter.map SectionRef.fileSize) = .ok (UInt32.ofNat (dataLen ps)) := by
  have hf := hb.file
  unfold strStart symStart relocStart roundUp8 at hf
  rw [fileSizes_eq hp, sumU32_nat bd _ (by unfold dataLen at hf; omega)]
  rfl

theorem alignedFileSize_eq (bd : Build) (hp : ps = o.sections.iter.map toPart) (hb : Bounds ps) :
    alignedFileSize bd o = .ok (UInt32.ofNat (roundUp8 (dataLen ps))) := by
  have hf := hb.file
  unfold strStart symStart relocStart at hf
  have hle : dataLen ps ≤ roundUp8 (dataLen ps) := by unfold roundUp8; omega
  unfold alignedFileSize
  rw [fileSum_eq bd hp hb]
  simp only [bind, Except.bind]
  have h8 : (8 : UInt32).toNat = 8 := rfl
  have hn : (UInt32.ofNat (dataLen ps)).toNat = dataLen ps := u32_ofNat _ (by omega)
  rw [alignedU32_eq bd _ _ (by rw [h8]; omega) (by rw [h8, hn, nextMul_8]; unfold roundUp8 at hf; omega),
    h8, hn, nextMul_8]
  rfl

theorem vmSize_eq (s : SectionRef) : s.vmSize = UInt64.ofNat (toPart s).vmsize := by
  cases s <;> simp [SectionRef.vmSize, toPart]

theorem vmSum_eq (bd : Build) (hp : ps = o.sections.iter.map toPart) (hb : Bounds ps) :
    sumU64 bd (o.sections.iter.map SectionRef.vmSize) = .ok (UInt64.ofNat (vmLen ps)) := by
  have : o.sections.iter.map SectionRef.vmSize = (ps.map (·.vmsize)).map UInt64.ofNat := by
    rw [hp, List.map_map, List.map_map]
    apply List.map_congr_left
    intro s _
    simp [vmSize_eq]
  rw [this, sumU64_nat bd _ hb.vm]
  rfl

theorem toUInt64_ofNat (n : Nat) (h : n < 2 ^ 32) : (UInt32.ofNat n).toUInt64 = UInt64.ofNat n := by
  apply UInt64.toNat.inj
  rw [UInt32.toNat_toUInt64, u32_ofNat n h, u64_ofNat n (by omega)]

theorem genSegmentCommand64_eq (bd : Build) (hp : ps = o.sections.iter.map toPart) (hb : Bounds ps) :
    genSegmentCommand64 bd o = .ok (segmentOf ps) := by
  have hf := hb.file
  unfold strStart symStart relocStart at hf
  have hc : cmdsEnd ps = 32 + 72 + 80 * ps.length + 24 := rfl
  have hl : ps.length = o.sections.iter.length := by rw [hp, List.length_map]
  unfold genSegmentCommand64
  rw [secs_mul bd hp hb, vmSum_eq bd hp hb, dataStart_eq bd hp hb, alignedFileSize_eq bd hp hb,
    u32_const.2.1]
  simp only [bind, Except.bind]
  rw [addU32_nat bd (by omega)]
  simp only [pure, Except.pure, segmentOf, Sections.len, ← hl]
  rw [toUInt64_ofNat _ (by omega), toUInt64_ofNat _ (by omega), Nat.mod_eq_of_lt (a := roundUp8 _) (by omega)]
  rfl

theorem sumMap_cons {α : Type} (f : α → Nat) (x : α) (l : List α) :
    ((x :: l).map f).sum = f x + (l.map f).sum := by simp

theorem genSection64sGo_eq (bd : Build) (S : List SectionRef) (vm ds rs : Nat)
    (hv : vm + vmLen (S.map toPart) < 2 ^ 64) (hd : ds + dataLen (S.map toPart) < 2 ^ 32)
    (hr : rs + 8 * relocCount (S.map toPart) < 2 ^ 32) :
    genSection64sGo bd (UInt64.ofNat vm) (UInt32.ofNat ds) (UInt32.ofNat rs) S =
      .ok (sectionsFrom vm ds rs S) := by
  induction S generalizing vm ds rs with
  | nil => rfl
  | cons s S ih =>
    simp only [List.map_cons, vmLen, dataLen, relocCount, List.sum_cons] at hv hd hr
    unfold genSection64sGo sectionsFrom
    have hlen : s.relocs.length = (toPart s).relocs.length := by rw [toPart_relocs]
    have hfs : s.fileSize = UInt32.ofNat (toPart s).bytes.length := by
      rw [toPart_bytes]; rfl
    rw [vmSize_eq, hfs, hlen, addU64_nat bd (by omega)]
    simp only [bind, Except.bind]
    rw [addU32_nat bd (by omega)]
    simp only
    rw [u32_const.2.2.2.2.1, mulU32_nat bd (by omega) (by omega) (by omega)]
    simp only
    rw [addU32_nat bd (by omega)]
    simp only
    rw [ih _ _ _ (by unfold vmLen; omega) (by unfold dataLen; omega) (by unfold relocCount; omega)]
    rfl

theorem genSection64s_eq (bd : Build) (hp : ps = o.sections.iter.map toPart) (hb : Bounds ps) :
    genSection64s bd o = .ok (sectionsFrom 0 (cmdsEnd ps) (relocStart ps) o.sections.iter) := by
  have hf := hb.file
  unfold strStart symStart relocStart at hf
  have hle : dataLen ps ≤ roundUp8 (dataLen ps) := by unfold roundUp8; omega
  unfold genSection64s
  rw [dataStart_eq bd hp hb, alignedFileSize_eq bd hp hb]
  simp only [bind, Except.bind]
  rw [addU32_nat bd (by omega)]
  simp only
  have hv := hb.vm
  subst hp
  exact genSection64sGo_eq bd _ 0 _ _ (by omega) (by omega) (by omega)

theorem mapM_ok' {α β : Type} (f : α → Res β) (g : α → β) (l : List α)
    (h : ∀ x ∈ l, f x = .ok (g x)) : l.mapM f = .ok (l.map g) := AT.Mac.mapM_ok f g l h

theorem le_sum_of_mem {l : List Nat} {n : Nat} (h : n ∈ l) : n ≤ l.sum := by
  induction l with
  | nil => simp at h
  | cons x l ih =>
    rw [List.sum_cons]
    rcases List.mem_cons.1 h with rfl | h
    · omega
    · have := ih h; omega

/-- String table bytes of one section. -/
def namesLen (p : Part) : Nat := (p.symbols.map (fun s => utf8Len s.name + 1)).sum

theorem strLen_eq (ps : List Part) : strLen ps = 1 + (ps.map namesLen).sum := rfl

theorem sectStrSize_eq (bd : Build) (s : SectionRef) (h : namesLen (toPart s) < 2 ^ 32) :
    sectStrSize bd s = .ok (UInt32.ofNat (namesLen (toPart s))) := by
  unfold sectStrSize
  unfold namesLen at *
  rw [toPart_symbols] at *
  rw [mapM_ok' (nameSize bd) (fun x => UInt32.ofNat (utf8Len x.name + 1))]
  · simp only [bind, Except.bind]
    rw [show (s.symbols.map fun x => UInt32.ofNat (utf8Len x.name + 1)) =
      (s.symbols.map (fun x => utf8Len x.name + 1)).map UInt32.ofNat by rw [List.map_map]; rfl]
    rw [sumU32_nat bd _ h]
  · intro x hx
    have hm : utf8Len x.name + 1 ∈ s.symbols.map (fun x => utf8Len x.name + 1) :=
      List.mem_map.2 ⟨x, hx, rfl⟩
    have := le_sum_of_mem hm
    unfold nameSize
    rw [show (1 : UInt32) = UInt32.ofNat 1 from rfl, addU32_nat bd (by omega)]

theorem genSymtabCommand_eq (bd : Build) (hp : ps = o.sections.iter.map toPart) (hb : Bounds ps) :
    genSymtabCommand bd o = .ok (symtabOf ps) := by
  have hf := hb.file
  have e1 := hb.strs
  have e2 : strStart ps = symStart ps + 16 * symCount ps := rfl
  have e3 : symStart ps = relocStart ps + 8 * relocCount ps := rfl
  have e4 : relocStart ps = cmdsEnd ps + roundUp8 (dataLen ps) := rfl
  have e5 := strLen_eq ps
  have hrel : o.sections.iter.map (fun s => UInt32.ofNat s.relocs.length) =
      (ps.map (·.relocs.length)).map UInt32.ofNat := by
    rw [hp, List.map_map, List.map_map]
    apply List.map_congr_left
    intro s _
    simp [toPart_relocs]
  have hsym : o.sections.iter.map (fun s => UInt32.ofNat s.symbols.length) =
      (ps.map (·.symbols.length)).map UInt32.ofNat := by
    rw [hp, List.map_map, List.map_map]
    apply List.map_congr_left
    intro s _
    simp [toPart_symbols]
  have hstr : o.sections.iter.mapM (sectStrSize bd) = .ok ((ps.map namesLen).map UInt32.ofNat) := by
    rw [mapM_ok' (sectStrSize bd) (fun s => UInt32.ofNat (namesLen (toPart s)))]
    · rw [hp, List.map_map, List.map_map]
      rfl
    · intro s hs
      apply sectStrSize_eq
      have hm : namesLen (toPart s) ∈ ps.map namesLen := by
        rw [hp, List.map_map]
        exact List.mem_map.2 ⟨s, hs, rfl⟩
      have := le_sum_of_mem hm
      omega
  unfold genSymtabCommand
  rw [dataStart_eq bd hp hb, alignedFileSize_eq bd hp hb, hrel, hsym, hstr]
  simp only [bind, Except.bind]
  rw [addU32_nat bd (by omega)]
  simp only
  rw [sumU32_nat bd _ (by unfold relocCount at e3; omega)]
  simp only
  have e6 : (ps.map (·.relocs.length)).sum = relocCount ps := rfl
  have e7 : (ps.map (·.symbols.length)).sum = symCount ps := rfl
  rw [e6, u32_const.2.2.2.2.1, mulU32_nat bd (by omega) (by omega) (by omega)]
  simp only
  rw [addU32_nat bd (by omega)]
  simp only
  rw [sumU32_nat bd _ (by omega), e7]
  simp only
  rw [u32_const.2.2.2.2.2, mulU32_nat bd (by omega) (by omega) (by omega)]
  simp only
  rw [addU32_nat bd (by omega)]
  simp only
  rw [sumU32_nat bd _ (by omega)]
  simp only
  rw [show (1 : UInt32) = UInt32.ofNat 1 from rfl, addU32_nat bd (by omega)]
  simp only [symtabOf, pure, Except.pure]
  rw [e5, e2, e3, e4, Nat.mul_comm (relocCount ps), Nat.mul_comm (symCount ps), Nat.add_comm _ 1]
  rfl

end AT.Obj
