import Verif.Proofs.MacIo
import Verif.Model.MacHeader
import Verif.Model.MacLoadCommand
import Verif.Model.MacSymbols
/-!
# Byte images of the at-mac structures, and what the readers and writers do with them
-/

namespace AT.Mac

/-! ## Byte images -/

def headerBytes (h : Endian) (x : Header64) : Bytes :=
  intBytes h 4 x.magic.toU32.toNat ++ (intBytes h 4 x.cpuType.toI32I32.1.toUInt32.toNat ++
  (intBytes h 4 x.cpuType.toI32I32.2.toUInt32.toNat ++ (intBytes h 4 x.fileType.toU32.toNat ++
  (intBytes h 4 x.nCmds.toNat ++ (intBytes h 4 x.sizeOfCmds.toNat ++
  (intBytes h 4 x.flags.toU32.toNat ++ intBytes h 4 x.reserved.toNat))))))

def segmentBytes (h : Endian) (x : SegmentCommand64) : Bytes :=
  intBytes h 4 x.cmd.toNat ++ (intBytes h 4 x.cmdsize.toNat ++ (nameBytes 16 x.segname ++
  (intBytes h 8 x.vmaddr.toNat ++ (intBytes h 8 x.vmsize.toNat ++ (intBytes h 8 x.fileoff.toNat ++
  (intBytes h 8 x.filesize.toNat ++ (intBytes h 4 x.maxprot.toUInt32.toNat ++
  (intBytes h 4 x.initprot.toUInt32.toNat ++ (intBytes h 4 x.nsects.toNat ++
  intBytes h 4 x.flags.toNat)))))))))

def sectionBytes (h : Endian) (x : Section64) : Bytes :=
  nameBytes 16 x.sectname ++ (nameBytes 16 x.segname ++ (intBytes h 8 x.addr.toNat ++
  (intBytes h 8 x.size.toNat ++ (intBytes h 4 x.offset.toNat ++ (intBytes h 4 x.align.toNat ++
  (intBytes h 4 x.reloff.toNat ++ (intBytes h 4 x.nreloc.toNat ++
  (intBytes h 4 (x.attrs.toU32 ||| x.type.toU32).toNat ++ (intBytes h 4 x.reserved1.toNat ++
  (intBytes h 4 x.reserved2.toNat ++ intBytes h 4 x.reserved3.toNat))))))))))

def symtabBytes (h : Endian) (x : SymtabCommand) : Bytes :=
  intBytes h 4 x.cmd.toNat ++ (intBytes h 4 x.cmdsize.toNat ++ (intBytes h 4 x.symoff.toNat ++
  (intBytes h 4 x.nsyms.toNat ++ (intBytes h 4 x.stroff.toNat ++ intBytes h 4 x.strsize.toNat))))

def dysymtabBytes (h : Endian) (x : DysymtabCommand) : Bytes :=
  intBytes h 4 x.cmd.toNat ++ (intBytes h 4 x.cmdsize.toNat ++ (intBytes h 4 x.ilocalsym.toNat ++
  (intBytes h 4 x.nlocalsym.toNat ++ (intBytes h 4 x.iextdefsym.toNat ++
  (intBytes h 4 x.nextdefsym.toNat ++ (intBytes h 4 x.iundefsym.toNat ++
  (intBytes h 4 x.nundefsym.toNat ++ (intBytes h 4 x.tocoff.toNat ++ (intBytes h 4 x.ntoc.toNat ++
  (intBytes h 4 x.modtaboff.toNat ++ (intBytes h 4 x.nmodtab.toNat ++
  (intBytes h 4 x.extrefsymoff.toNat ++ (intBytes h 4 x.nextrefsyms.toNat ++
  (intBytes h 4 x.indirectsymoff.toNat ++ (intBytes h 4 x.nindirectsyms.toNat ++
  (intBytes h 4 x.extreloff.toNat ++ (intBytes h 4 x.nextrel.toNat ++
  (intBytes h 4 x.locreloff.toNat ++ intBytes h 4 x.nlocrel.toNat))))))))))))))))))

def toolBytes (h : Endian) (x : BuildToolVersion) : Bytes :=
  intBytes h 4 x.tool.toU32.toNat ++ intBytes h 4 x.version.toNat

def buildVersionBytes (h : Endian) (x : BuildVersionCommand) : Bytes :=
  intBytes h 4 x.cmd.toNat ++ (intBytes h 4 x.cmdsize.toNat ++
  (intBytes h 4 x.platform.toU32.toNat ++ (intBytes h 4 x.minos.toU32.toNat ++
  (intBytes h 4 x.sdk.toU32.toNat ++ intBytes h 4 x.ntools.toNat))))

def nlistBytes (h : Endian) (x : NList64) : Bytes :=
  intBytes h 4 x.nStrx.toNat ++ ([x.nType.toU8] ++ ([x.nSect] ++ (intBytes h 2 x.nDesc.toNat ++
  intBytes h 8 x.nValue.toNat)))

def relocBytes (h : Endian) (x : RelocationInfo) : Bytes :=
  intBytes h 4 x.rAddress.toUInt32.toNat ++ intBytes h 4 (x.pack h).toNat

/-! ## Writers -/

theorem header_writes (h : Endian) (x : Header64) : Writes (x.writeInto h) (headerBytes h x) := by
  unfold Header64.writeInto headerBytes
  repeat (first | exact writes_u32 _ _ | exact writes_i32 _ _
                | refine Writes.bind (writes_u32 _ _) ?_ | refine Writes.bind (writes_i32 _ _) ?_)

theorem segment_writes (h : Endian) (x : SegmentCommand64) (ha : strIsAscii x.segname = true)
    (hl : x.segname.length ≤ 16) : Writes (x.writeInto h) (segmentBytes h x) := by
  unfold SegmentCommand64.writeInto segmentBytes
  repeat (first | exact writes_u32 _ _ | refine Writes.bind (writes_u32 _ _) ?_
                | refine Writes.bind (writes_i32 _ _) ?_ | refine Writes.bind (writes_u64 _ _) ?_
                | refine Writes.bind (writes_str ha hl) ?_)

theorem section_writes (h : Endian) (x : Section64) (ha : strIsAscii x.sectname = true)
    (hl : x.sectname.length ≤ 16) (ha' : strIsAscii x.segname = true)
    (hl' : x.segname.length ≤ 16) : Writes (x.writeInto h) (sectionBytes h x) := by
  unfold Section64.writeInto sectionBytes
  repeat (first | exact writes_u32 _ _ | refine Writes.bind (writes_u32 _ _) ?_
                | refine Writes.bind (writes_i32 _ _) ?_ | refine Writes.bind (writes_u64 _ _) ?_
                | refine Writes.bind (writes_str ha hl) ?_
                | refine Writes.bind (writes_str ha' hl') ?_)

theorem symtab_writes (h : Endian) (x : SymtabCommand) :
    Writes (x.writeInto h) (symtabBytes h x) := by
  unfold SymtabCommand.writeInto symtabBytes
  repeat (first | exact writes_u32 _ _ | refine Writes.bind (writes_u32 _ _) ?_)

theorem dysymtab_writes (h : Endian) (x : DysymtabCommand) :
    Writes (x.writeInto h) (dysymtabBytes h x) := by
  unfold DysymtabCommand.writeInto dysymtabBytes
  repeat (first | exact writes_u32 _ _ | refine Writes.bind (writes_u32 _ _) ?_)

theorem tool_writes (h : Endian) (x : BuildToolVersion) :
    Writes (x.writeInto h) (toolBytes h x) := by
  unfold BuildToolVersion.writeInto toolBytes
  repeat (first | exact writes_u32 _ _ | refine Writes.bind (writes_u32 _ _) ?_)

theorem buildVersion_writes (h : Endian) (x : BuildVersionCommand) :
    Writes (x.writeInto h) (buildVersionBytes h x) := by
  unfold BuildVersionCommand.writeInto buildVersionBytes
  repeat (first | exact writes_u32 _ _ | refine Writes.bind (writes_u32 _ _) ?_)

theorem nlist_writes (h : Endian) (x : NList64) : Writes (x.writeInto h) (nlistBytes h x) := by
  unfold NList64.writeInto nlistBytes
  repeat (first | exact writes_u64 _ _ | refine Writes.bind (writes_u32 _ _) ?_
                | refine Writes.bind (writes_u8 _) ?_ | refine Writes.bind (writes_u16 _ _) ?_)

theorem reloc_writes (h : Endian) (x : RelocationInfo) : Writes (x.writeInto h) (relocBytes h x) := by
  unfold RelocationInfo.writeInto relocBytes
  repeat (first | exact writes_u32 _ _ | refine Writes.bind (writes_i32 _ _) ?_)

/-! ## Sizes -/

theorem length_headerBytes (h : Endian) (x : Header64) : (headerBytes h x).length = 32 := by
  simp [headerBytes, length_intBytes]

theorem length_segmentBytes (h : Endian) (x : SegmentCommand64) (hl : x.segname.length ≤ 16) :
    (segmentBytes h x).length = 72 := by
  simp [segmentBytes, length_intBytes, length_nameBytes 16 _ hl]

theorem length_sectionBytes (h : Endian) (x : Section64) (hl : x.sectname.length ≤ 16)
    (hl' : x.segname.length ≤ 16) : (sectionBytes h x).length = 80 := by
  simp [sectionBytes, length_intBytes, length_nameBytes 16 _ hl, length_nameBytes 16 _ hl']

theorem length_symtabBytes (h : Endian) (x : SymtabCommand) : (symtabBytes h x).length = 24 := by
  simp [symtabBytes, length_intBytes]

theorem length_dysymtabBytes (h : Endian) (x : DysymtabCommand) :
    (dysymtabBytes h x).length = 80 := by
  simp [dysymtabBytes, length_intBytes]

theorem length_toolBytes (h : Endian) (x : BuildToolVersion) : (toolBytes h x).length = 8 := by
  simp [toolBytes, length_intBytes]

theorem length_buildVersionBytes (h : Endian) (x : BuildVersionCommand) :
    (buildVersionBytes h x).length = 24 := by
  simp [buildVersionBytes, length_intBytes]

theorem length_nlistBytes (h : Endian) (x : NList64) : (nlistBytes h x).length = 16 := by
  simp [nlistBytes, length_intBytes]

theorem length_relocBytes (h : Endian) (x : RelocationInfo) : (relocBytes h x).length = 8 := by
  simp [relocBytes, length_intBytes]

/-! ## Flag words -/

/-- One iteration of the bit loops of `Flags::from_u32` and `SectionAttrs::from_u32`. -/
def bitStep {α : Type} (dec : UInt32 → Option α) (n : UInt32) (acc : List α) (i : Nat) :
    Res (List α) :=
  let b := n &&& ((1 : UInt32) <<< UInt32.ofNat i)
  if b != 0 then do
    let f ← runwrap (dec b)
    pure (acc ++ [f])
  else pure acc

theorem and_one_shl : ∀ i < 32, ∀ n : UInt32,
    n &&& ((1 : UInt32) <<< UInt32.ofNat i) =
      if n.toBitVec.getLsbD i then (1 : UInt32) <<< UInt32.ofNat i else 0 := by
  intro i hi n
  apply UInt32.toBitVec_inj.1
  apply BitVec.eq_of_getLsbD_eq
  intro j hj
  have hsh : ((UInt32.ofNat i).toNat % 32) = i := by simp; omega
  have key : ((1 : UInt32) <<< UInt32.ofNat i).toBitVec = (1#32) <<< i := by
    rw [UInt32.toBitVec_shiftLeft]
    have : ((UInt32.ofNat i).toBitVec % 32 : BitVec 32) = BitVec.ofNat 32 i := by
      apply BitVec.eq_of_toNat_eq; simp; omega
    rw [this]
    simp only [UInt32.toBitVec_one, BitVec.shiftLeft_eq']
    congr 1
    simp; omega
  have hbit : (1#32 <<< i).getLsbD j = decide (j = i) := by
    simp only [BitVec.getLsbD_shiftLeft, BitVec.getLsbD_one]
    by_cases h : j = i
    · subst h; simp [hj]
    · simp [h]; omega
  rw [UInt32.toBitVec_and, BitVec.getLsbD_and, key]
  by_cases hb : n.toBitVec.getLsbD i
  · rw [if_pos hb, key, hbit]
    by_cases h : j = i
    · subst h; simp [hb]
    · simp [h]
  · rw [if_neg hb, hbit]
    by_cases h : j = i
    · subst h; simp [hb]
    · simp [h]

theorem one_shl_ne_zero : ∀ i < 32, (1 : UInt32) <<< UInt32.ofNat i ≠ 0 := by decide

theorem bitStep_eq {α : Type} (dec : UInt32 → Option α) (n : UInt32) (acc : List α) (i : Nat)
    (hi : i < 32) :
    bitStep dec n acc i = if n.toBitVec.getLsbD i then
        (match dec ((1 : UInt32) <<< UInt32.ofNat i) with
          | some f => .ok (acc ++ [f])
          | none => .error .panic)
      else .ok acc := by
  unfold bitStep
  rw [and_one_shl i hi]
  by_cases hb : n.toBitVec.getLsbD i
  · rw [if_pos hb, if_pos hb, if_pos (by simpa using one_shl_ne_zero i hi)]
    cases dec ((1 : UInt32) <<< UInt32.ofNat i) <;> rfl
  · rw [if_neg hb, if_neg hb, if_neg (by simp)]
    rfl

theorem bitFold {α : Type} (dec : UInt32 → Option α) (n : UInt32) (l : List Nat)
    (hl : ∀ i ∈ l, i < 32) (acc : List α) :
    l.foldlM (bitStep dec n) acc =
      if ∀ i ∈ l, n.toBitVec.getLsbD i = true → (dec ((1 : UInt32) <<< UInt32.ofNat i)).isSome then
        .ok (acc ++ l.filterMap (fun i =>
          if n.toBitVec.getLsbD i then dec ((1 : UInt32) <<< UInt32.ofNat i) else none))
      else .error .panic := by
  induction l generalizing acc with
  | nil => simp [List.foldlM, pure, Except.pure]
  | cons i l ih =>
    have hi := hl i (by simp)
    have hl' : ∀ j ∈ l, j < 32 := fun j hj => hl j (by simp [hj])
    rw [List.foldlM_cons, bitStep_eq dec n acc i hi]
    simp only [List.forall_mem_cons, List.filterMap_cons]
    by_cases hb : n.toBitVec.getLsbD i
    · simp only [hb, if_true, true_imp_iff]
      cases hd : dec ((1 : UInt32) <<< UInt32.ofNat i) with
      | none => simp [bind, Except.bind]
      | some f =>
        have : (do let s' ← (Except.ok (acc ++ [f]) : Res (List α)); l.foldlM (bitStep dec n) s') =
          l.foldlM (bitStep dec n) (acc ++ [f]) := rfl
        rw [this, ih hl']
        simp
    · simp only [hb]
      have : (do let s' ← (Except.ok acc : Res (List α)); l.foldlM (bitStep dec n) s') =
          l.foldlM (bitStep dec n) acc := rfl
      simp only [Bool.false_eq_true, if_false]
      rw [this, ih hl']
      simp

theorem flags_fold (n : UInt32) :
    Flags.fromU32 n = (List.range 32).foldlM (bitStep Flag.fromU32? n) [] := rfl

theorem attrs_fold (n : UInt32) :
    SectionAttrs.fromU32 n = (List.range' 8 24).foldlM (bitStep SectionAttr.fromU32? n) [] := rfl

end AT.Mac
