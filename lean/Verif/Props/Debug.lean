import Verif.Proofs.DebugShown
/-!
# C93: derived `Debug` shows every field, and what is shown tells the value
-/

namespace AT.Props
open AT.Mac AT.DebugSpec

/-! ## Trees tell values -/

theorem word_inj {s t : Str} : Text.word s = .word t ↔ s = t := by simp

theorem num_inj {a b : Nat} : num a = num b ↔ a = b :=
  ⟨fun h => toDigits_inj 10 (by decide) (by decide) a b (by simpa [num] using h), fun h => by rw [h]⟩

theorem toDigits_minus (n : Nat) : '-' ∉ Nat.toDigits 10 n := by
  induction n using Nat.strongRecOn with
  | _ n ih =>
    have d : ∀ k < 10, k.digitChar ≠ '-' := by decide
    rw [Nat.toDigits_eq_if (by decide)]
    split
    · rename_i h
      simp only [List.mem_singleton]
      exact fun e => d n h e.symm
    · simp only [List.mem_append, List.mem_singleton, not_or]
      exact ⟨ih _ (by omega), fun e => d (n % 10) (by omega) e.symm⟩

theorem int_inj {a b : Int} : DebugSpec.int a = DebugSpec.int b ↔ a = b := by
  refine ⟨fun h => ?_, fun h => by rw [h]⟩
  simp only [DebugSpec.int, Text.word.injEq] at h
  have no : ∀ n m : Nat, '-' :: Nat.toDigits 10 n ≠ Nat.toDigits 10 m := by
    intro n m e
    have : '-' ∈ Nat.toDigits 10 m := by rw [← e]; simp
    exact toDigits_minus m this
  split at h <;> split at h
  · have := toDigits_inj 10 (by decide) (by decide) _ _ (List.cons.inj h).2
    omega
  · exact absurd h (no _ _)
  · exact absurd h.symm (no _ _)
  · have := toDigits_inj 10 (by decide) (by decide) _ _ h
    omega

theorem bool_inj {a b : Bool} : DebugSpec.bool a = DebugSpec.bool b ↔ a = b := by
  cases a <;> cases b <;> simp [DebugSpec.bool]

theorem items_inj {a b : List Text} : items a = items b ↔ a = b := by
  induction a generalizing b with
  | nil => cases b <;> simp [items]
  | cons x a ih => cases b <;> simp [items, ih]

theorem map_items_inj {α : Type} {g : α → Text} (hg : ∀ a b, g a = g b ↔ a = b) {a b : List α} :
    items (a.map g) = items (b.map g) ↔ a = b := by
  rw [items_inj]
  induction a generalizing b with
  | nil => cases b <;> simp
  | cons x a ih => cases b <;> simp [ih, hg]

theorem bytes_inj {a b : Bytes} : DebugSpec.bytes a = DebugSpec.bytes b ↔ a = b := by
  simp only [DebugSpec.bytes, DebugSpec.list, Text.group.injEq, true_and]
  exact map_items_inj (fun a b => by rw [num_inj, UInt8.toNat_inj])

theorem option_inj {α : Type} {g : α → Text} (hg : ∀ a b, g a = g b ↔ a = b) {a b : Option α} :
    option (a.map g) = option (b.map g) ↔ a = b := by
  cases a <;> cases b <;> simp [option, tuple, items, hg]

/-- What is shown of a value tells the value if its tree does. -/
theorem tells_of {α : Type} {plain : Char → Bool} {alt : Bool} {f : α → Str} {g : α → Text}
    (h : ∀ a, Shown plain alt (f a) (g a)) (hg : ∀ a b, g a = g b ↔ a = b) : Tells f := by
  intro v w r r' hr hr' e
  rw [(h v).2, (h w).2] at e
  obtain ⟨e1, e2⟩ := written_read (h v).1 (h w).1 hr hr' e
  exact ⟨(hg v w).mp e1, e2⟩

theorem shown_endian (plain : Char → Bool) (alt : Bool) (v : Mac.Endian) :
    Shown plain alt (Mac.Endian.debug v) (DebugSpec.endian v) := by
  cases v <;> exact shown_word (by decide)

theorem endian_inj {a b : Mac.Endian} : DebugSpec.endian a = DebugSpec.endian b ↔ a = b := by
  refine ⟨fun h => ?_, fun h => by rw [h]⟩
  simp only [DebugSpec.endian, unit, Text.word.injEq] at h
  cases a <;> cases b <;> first | rfl | exact absurd h (by decide)

theorem shown_magic (plain : Char → Bool) (alt : Bool) (v : Mac.Magic) :
    Shown plain alt (Mac.Magic.debug v) (DebugSpec.magic v) := by
  cases v <;> exact shown_word (by decide)

theorem magic_inj {a b : Mac.Magic} : DebugSpec.magic a = DebugSpec.magic b ↔ a = b := by
  refine ⟨fun h => ?_, fun h => by rw [h]⟩
  simp only [DebugSpec.magic, unit, Text.word.injEq] at h
  cases a <;> cases b <;> first | rfl | exact absurd h (by decide)

theorem shown_fileType (plain : Char → Bool) (alt : Bool) (v : Mac.FileType) :
    Shown plain alt (Mac.FileType.debug v) (DebugSpec.fileType v) := by
  cases v <;> exact shown_word (by decide)

theorem fileType_inj {a b : Mac.FileType} : DebugSpec.fileType a = DebugSpec.fileType b ↔ a = b := by
  refine ⟨fun h => ?_, fun h => by rw [h]⟩
  simp only [DebugSpec.fileType, unit, Text.word.injEq] at h
  cases a <;> cases b <;> first | rfl | exact absurd h (by decide)

theorem shown_sectionType (plain : Char → Bool) (alt : Bool) (v : Mac.SectionType) :
    Shown plain alt (Mac.SectionType.debug v) (DebugSpec.sectionType v) := by
  cases v <;> exact shown_word (by decide)

theorem sectionType_inj {a b : Mac.SectionType} : DebugSpec.sectionType a = DebugSpec.sectionType b ↔ a = b := by
  refine ⟨fun h => ?_, fun h => by rw [h]⟩
  simp only [DebugSpec.sectionType, unit, Text.word.injEq] at h
  cases a <;> cases b <;> first | rfl | exact absurd h (by decide)

theorem shown_platform (plain : Char → Bool) (alt : Bool) (v : Mac.Platform) :
    Shown plain alt (Mac.Platform.debug v) (DebugSpec.platform v) := by
  cases v <;> exact shown_word (by decide)

theorem platform_inj {a b : Mac.Platform} : DebugSpec.platform a = DebugSpec.platform b ↔ a = b := by
  refine ⟨fun h => ?_, fun h => by rw [h]⟩
  simp only [DebugSpec.platform, unit, Text.word.injEq] at h
  cases a <;> cases b <;> first | rfl | exact absurd h (by decide)

theorem shown_tool (plain : Char → Bool) (alt : Bool) (v : Mac.Tool) :
    Shown plain alt (Mac.Tool.debug v) (DebugSpec.tool v) := by
  cases v <;> exact shown_word (by decide)

theorem tool_inj {a b : Mac.Tool} : DebugSpec.tool a = DebugSpec.tool b ↔ a = b := by
  refine ⟨fun h => ?_, fun h => by rw [h]⟩
  simp only [DebugSpec.tool, unit, Text.word.injEq] at h
  cases a <;> cases b <;> first | rfl | exact absurd h (by decide)

theorem shown_relocLength (plain : Char → Bool) (alt : Bool) (v : Mac.RelocLength) :
    Shown plain alt (Mac.RelocLength.debug v) (DebugSpec.relocLength v) := by
  cases v <;> exact shown_word (by decide)

theorem relocLength_inj {a b : Mac.RelocLength} : DebugSpec.relocLength a = DebugSpec.relocLength b ↔ a = b := by
  refine ⟨fun h => ?_, fun h => by rw [h]⟩
  simp only [DebugSpec.relocLength, unit, Text.word.injEq] at h
  cases a <;> cases b <;> first | rfl | exact absurd h (by decide)

theorem shown_x86RelocType (plain : Char → Bool) (alt : Bool) (v : Mac.X86RelocType) :
    Shown plain alt (Mac.X86RelocType.debug v) (DebugSpec.x86RelocType v) := by
  cases v <;> exact shown_word (by decide)

theorem x86RelocType_inj {a b : Mac.X86RelocType} : DebugSpec.x86RelocType a = DebugSpec.x86RelocType b ↔ a = b := by
  refine ⟨fun h => ?_, fun h => by rw [h]⟩
  simp only [DebugSpec.x86RelocType, unit, Text.word.injEq] at h
  cases a <;> cases b <;> first | rfl | exact absurd h (by decide)

theorem shown_x86_64RelocType (plain : Char → Bool) (alt : Bool) (v : Mac.X86_64RelocType) :
    Shown plain alt (Mac.X86_64RelocType.debug v) (DebugSpec.x86_64RelocType v) := by
  cases v <;> exact shown_word (by decide)

theorem x86_64RelocType_inj {a b : Mac.X86_64RelocType} : DebugSpec.x86_64RelocType a = DebugSpec.x86_64RelocType b ↔ a = b := by
  refine ⟨fun h => ?_, fun h => by rw [h]⟩
  simp only [DebugSpec.x86_64RelocType, unit, Text.word.injEq] at h
  cases a <;> cases b <;> first | rfl | exact absurd h (by decide)

theorem shown_nType (plain : Char → Bool) (alt : Bool) (v : Mac.NType) :
    Shown plain alt (Mac.NType.debug v) (DebugSpec.nType v) := by
  cases v <;> exact shown_word (by decide)

theorem nType_inj {a b : Mac.NType} : DebugSpec.nType a = DebugSpec.nType b ↔ a = b := by
  refine ⟨fun h => ?_, fun h => by rw [h]⟩
  simp only [DebugSpec.nType, unit, Text.word.injEq] at h
  cases a <;> cases b <;> first | rfl | exact absurd h (by decide)

theorem shown_debugSymbol (plain : Char → Bool) (alt : Bool) (v : Mac.DebugSymbol) :
    Shown plain alt (Mac.DebugSymbol.debug v) (DebugSpec.debugSymbol v) := by
  cases v <;> exact shown_word (by decide)

theorem debugSymbol_inj {a b : Mac.DebugSymbol} : DebugSpec.debugSymbol a = DebugSpec.debugSymbol b ↔ a = b := by
  refine ⟨fun h => ?_, fun h => by rw [h]⟩
  cases a; cases b; rfl

theorem shown_asmSection (plain : Char → Bool) (alt : Bool) (v : Asm.Section) :
    Shown plain alt (Asm.Section.debug v) (DebugSpec.asmSection v) := by
  cases v <;> exact shown_word (by decide)

theorem asmSection_inj {a b : Asm.Section} : DebugSpec.asmSection a = DebugSpec.asmSection b ↔ a = b := by
  refine ⟨fun h => ?_, fun h => by rw [h]⟩
  simp only [DebugSpec.asmSection, unit, Text.word.injEq] at h
  cases a <;> cases b <;> first | rfl | exact absurd h (by decide)

theorem shown_reg64 (plain : Char → Bool) (alt : Bool) (v : X64.Reg64) :
    Shown plain alt (X64.Reg64.debug v) (DebugSpec.reg64 v) := by
  cases v <;> exact shown_word (by decide)

theorem reg64_inj {a b : X64.Reg64} : DebugSpec.reg64 a = DebugSpec.reg64 b ↔ a = b := by
  refine ⟨fun h => ?_, fun h => by rw [h]⟩
  simp only [DebugSpec.reg64, unit, Text.word.injEq] at h
  cases a <;> cases b <;> first | rfl | exact absurd h (by decide)

theorem shown_reg32 (plain : Char → Bool) (alt : Bool) (v : X64.Reg32) :
    Shown plain alt (X64.Reg32.debug v) (DebugSpec.reg32 v) := by
  cases v <;> exact shown_word (by decide)

theorem reg32_inj {a b : X64.Reg32} : DebugSpec.reg32 a = DebugSpec.reg32 b ↔ a = b := by
  refine ⟨fun h => ?_, fun h => by rw [h]⟩
  simp only [DebugSpec.reg32, unit, Text.word.injEq] at h
  cases a <;> cases b <;> first | rfl | exact absurd h (by decide)

theorem shown_reg16 (plain : Char → Bool) (alt : Bool) (v : X64.Reg16) :
    Shown plain alt (X64.Reg16.debug v) (DebugSpec.reg16 v) := by
  cases v <;> exact shown_word (by decide)

theorem reg16_inj {a b : X64.Reg16} : DebugSpec.reg16 a = DebugSpec.reg16 b ↔ a = b := by
  refine ⟨fun h => ?_, fun h => by rw [h]⟩
  simp only [DebugSpec.reg16, unit, Text.word.injEq] at h
  cases a <;> cases b <;> first | rfl | exact absurd h (by decide)

theorem shown_reg8 (plain : Char → Bool) (alt : Bool) (v : X64.Reg8) :
    Shown plain alt (X64.Reg8.debug v) (DebugSpec.reg8 v) := by
  cases v <;> exact shown_word (by decide)

theorem reg8_inj {a b : X64.Reg8} : DebugSpec.reg8 a = DebugSpec.reg8 b ↔ a = b := by
  refine ⟨fun h => ?_, fun h => by rw [h]⟩
  simp only [DebugSpec.reg8, unit, Text.word.injEq] at h
  cases a <;> cases b <;> first | rfl | exact absurd h (by decide)

theorem shown_flag (plain : Char → Bool) (alt : Bool) (v : Mac.Flag) :
    Shown plain alt (Flag.debug v) (DebugSpec.flag v) := by
  cases v <;> exact shown_word (by decide)

theorem flag_inj {a b : Mac.Flag} : DebugSpec.flag a = DebugSpec.flag b ↔ a = b := by
  refine ⟨fun h => ?_, fun h => by rw [h]⟩
  simp only [DebugSpec.flag, unit, Text.word.injEq] at h
  cases a <;> cases b <;> first | rfl | exact absurd h (by decide)

theorem shown_sectionAttr (plain : Char → Bool) (alt : Bool) (v : Mac.SectionAttr) :
    Shown plain alt (SectionAttr.debugName v) (DebugSpec.sectionAttr v) := by
  cases v <;> exact shown_word (by decide)

theorem sectionAttr_inj {a b : Mac.SectionAttr} : DebugSpec.sectionAttr a = DebugSpec.sectionAttr b ↔ a = b := by
  refine ⟨fun h => ?_, fun h => by rw [h]⟩
  simp only [DebugSpec.sectionAttr, unit, Text.word.injEq] at h
  cases a <;> cases b <;> first | rfl | exact absurd h (by decide)

/-! ## The types of the crates -/

macro "leaves" : tactic => `(tactic| repeat' (first
  | exact ShownFields.nil
  | exact ShownItems.nil
  | refine ShownFields.cons (by decide) ?_ ?_
  | refine ShownItems.cons ?_ ?_
  | exact shown_num _
  | exact shown_int _
  | exact shown_bool _
  | exact shown_str _
  | exact shown_bytes _))

theorem shown_flags (plain : Char → Bool) (alt : Bool) (v : Flags) :
    Shown plain alt (Flags.debug alt v) (flags v) := shown_set (shown_map (shown_flag plain alt) v)

theorem flags_inj {a b : Flags} : flags a = flags b ↔ a = b := by
  simp only [flags, DebugSpec.set, Text.group.injEq, true_and]
  exact map_items_inj (fun a b => flag_inj)

theorem shown_sectionAttrs (plain : Char → Bool) (alt : Bool) (v : SectionAttrs) :
    Shown plain alt (SectionAttrs.debug alt v) (sectionAttrs v) :=
  shown_set (shown_map (shown_sectionAttr plain alt) v)

theorem sectionAttrs_inj {a b : SectionAttrs} : sectionAttrs a = sectionAttrs b ↔ a = b := by
  simp only [sectionAttrs, DebugSpec.set, Text.group.injEq, true_and]
  exact map_items_inj (fun a b => sectionAttr_inj)

theorem shown_cpuSubType (plain : Char → Bool) (alt : Bool) (v : CpuSubType) :
    Shown plain alt v.debug (cpuSubType v) := by
  cases v; exact shown_word (by decide)

theorem cpuSubType_inj {a b : CpuSubType} : cpuSubType a = cpuSubType b ↔ a = b := by
  cases a; cases b; simp

theorem shown_cpuType (plain : Char → Bool) (alt : Bool) (v : CpuType) :
    Shown plain alt (v.debug alt) (cpuType v) := by
  cases v <;> exact shown_tuple (by decide) (.cons (shown_cpuSubType plain alt _) .nil) (by simp)

theorem cpuType_inj {a b : CpuType} : cpuType a = cpuType b ↔ a = b := by
  cases a <;> cases b <;> simp [cpuType, tuple, items]

theorem shown_header64 (plain : Char → Bool) (alt : Bool) (v : Header64) :
    Shown plain alt (v.debug alt) (header64 v) := by
  refine shown_struct (by decide) ?_ (by simp)
  leaves
  · exact shown_magic plain alt _
  · exact shown_cpuType plain alt _
  · exact shown_fileType plain alt _
  · exact shown_flags plain alt _

theorem header64_inj {a b : Header64} : header64 a = header64 b ↔ a = b := by
  cases a; cases b
  simp [header64, record, fields, magic_inj, cpuType_inj, fileType_inj, num_inj, flags_inj, UInt32.toNat_inj]

theorem shown_segmentCommand64 (plain : Char → Bool) (alt : Bool) (v : SegmentCommand64) :
    Shown plain alt (v.debug plain alt) (segmentCommand64 v) := by
  refine shown_struct (by decide) ?_ (by simp)
  leaves

theorem segmentCommand64_inj {a b : SegmentCommand64} : segmentCommand64 a = segmentCommand64 b ↔ a = b := by
  cases a; cases b
  simp [segmentCommand64, record, fields, num_inj, int_inj, UInt32.toNat_inj, UInt64.toNat_inj, Int32.toInt_inj]

theorem shown_section64 (plain : Char → Bool) (alt : Bool) (v : Section64) :
    Shown plain alt (v.debug plain alt) (section64 v) := by
  refine shown_struct (by decide) ?_ (by simp)
  leaves
  refine shown_tuple (by decide) ?_ (by simp)
  leaves
  · exact shown_sectionAttrs plain alt _
  · exact shown_sectionType plain alt _

theorem section64_inj {a b : Section64} : section64 a = section64 b ↔ a = b := by
  cases a; cases b
  simp [section64, record, fields, tuple, items, num_inj, UInt32.toNat_inj, UInt64.toNat_inj,
    sectionAttrs_inj, sectionType_inj, and_assoc]

theorem shown_symtabCommand (plain : Char → Bool) (alt : Bool) (v : SymtabCommand) :
    Shown plain alt (v.debug alt) (symtabCommand v) := by
  refine shown_struct (by decide) ?_ (by simp)
  leaves

theorem symtabCommand_inj {a b : SymtabCommand} : symtabCommand a = symtabCommand b ↔ a = b := by
  cases a; cases b
  simp [symtabCommand, record, fields, num_inj, UInt32.toNat_inj]

theorem shown_dysymtabCommand (plain : Char → Bool) (alt : Bool) (v : DysymtabCommand) :
    Shown plain alt (v.debug alt) (dysymtabCommand v) := by
  refine shown_struct (by decide) ?_ (by simp)
  leaves

theorem dysymtabCommand_inj {a b : DysymtabCommand} : dysymtabCommand a = dysymtabCommand b ↔ a = b := by
  cases a; cases b
  simp [dysymtabCommand, record, fields, num_inj, UInt32.toNat_inj]

theorem shown_version (plain : Char → Bool) (alt : Bool) (v : Version) :
    Shown plain alt (v.debug alt) (version v) := by
  refine shown_struct (by decide) ?_ (by simp)
  leaves

theorem version_inj {a b : Version} : version a = version b ↔ a = b := by
  cases a; cases b
  simp [version, record, fields, num_inj, UInt16.toNat_inj, UInt8.toNat_inj]

theorem shown_buildVersionCommand (plain : Char → Bool) (alt : Bool) (v : BuildVersionCommand) :
    Shown plain alt (v.debug alt) (buildVersionCommand v) := by
  refine shown_struct (by decide) ?_ (by simp)
  leaves
  · exact shown_platform plain alt _
  · exact shown_version plain alt _
  · exact shown_version plain alt _

theorem buildVersionCommand_inj {a b : BuildVersionCommand} :
    buildVersionCommand a = buildVersionCommand b ↔ a = b := by
  cases a; cases b
  simp [buildVersionCommand, record, fields, num_inj, UInt32.toNat_inj, platform_inj, version_inj]

theorem shown_buildToolVersion (plain : Char → Bool) (alt : Bool) (v : BuildToolVersion) :
    Shown plain alt (v.debug alt) (buildToolVersion v) := by
  refine shown_struct (by decide) ?_ (by simp)
  leaves
  exact shown_tool plain alt _

theorem buildToolVersion_inj {a b : BuildToolVersion} : buildToolVersion a = buildToolVersion b ↔ a = b := by
  cases a; cases b
  simp [buildToolVersion, record, fields, num_inj, UInt32.toNat_inj, tool_inj]

theorem shown_loadCommand (plain : Char → Bool) (alt : Bool) (v : LoadCommand) :
    Shown plain alt (v.debug plain alt) (loadCommand v) := by
  cases v <;> refine shown_tuple (by decide) ?_ (by simp) <;> leaves
  · exact shown_segmentCommand64 plain alt _
  · exact shown_list (shown_map (shown_section64 plain alt) _)
  · exact shown_symtabCommand plain alt _
  · exact shown_dysymtabCommand plain alt _
  · exact shown_buildVersionCommand plain alt _
  · exact shown_list (shown_map (shown_buildToolVersion plain alt) _)

theorem loadCommand_inj {a b : LoadCommand} : loadCommand a = loadCommand b ↔ a = b := by
  cases a <;> cases b <;>
    simp [loadCommand, tuple, items, DebugSpec.list, segmentCommand64_inj, symtabCommand_inj,
      dysymtabCommand_inj, buildVersionCommand_inj, map_items_inj (fun _ _ => section64_inj),
      map_items_inj (fun _ _ => buildToolVersion_inj)]

theorem shown_relocationInfo (plain : Char → Bool) (alt : Bool) (v : RelocationInfo) :
    Shown plain alt (v.debug alt) (relocationInfo v) := by
  refine shown_struct (by decide) ?_ (by simp)
  leaves
  exact shown_relocLength plain alt _

theorem relocationInfo_inj {a b : RelocationInfo} : relocationInfo a = relocationInfo b ↔ a = b := by
  cases a; cases b
  simp [relocationInfo, record, fields, num_inj, int_inj, bool_inj, UInt32.toNat_inj, UInt8.toNat_inj,
    Int32.toInt_inj, relocLength_inj]

theorem shown_nTypeField (plain : Char → Bool) (alt : Bool) (v : NTypeField) :
    Shown plain alt (v.debug alt) (nTypeField v) := by
  cases v with
  | norm p t e =>
    refine shown_struct (by decide) ?_ (by simp)
    leaves
    exact shown_nType plain alt _
  | stab s =>
    refine shown_tuple (by decide) ?_ (by simp)
    leaves
    exact shown_debugSymbol plain alt _

theorem nTypeField_inj {a b : NTypeField} : nTypeField a = nTypeField b ↔ a = b := by
  cases a <;> cases b <;>
    simp [nTypeField, record, fields, tuple, items, bool_inj, nType_inj]

theorem shown_nList64 (plain : Char → Bool) (alt : Bool) (v : NList64) :
    Shown plain alt (v.debug alt) (nList64 v) := by
  refine shown_struct (by decide) ?_ (by simp)
  leaves
  exact shown_nTypeField plain alt _

theorem nList64_inj {a b : NList64} : nList64 a = nList64 b ↔ a = b := by
  cases a; cases b
  simp [nList64, record, fields, num_inj, UInt32.toNat_inj, UInt8.toNat_inj, UInt16.toNat_inj,
    UInt64.toNat_inj, nTypeField_inj]

theorem shown_data (plain : Char → Bool) (alt : Bool) (v : Asm.Data) :
    Shown plain alt (v.debug plain alt) (data v) := by
  refine shown_struct (by decide) ?_ (by simp)
  leaves
  exact shown_option (shown_str (alt := alt)) _

theorem data_inj {a b : Asm.Data} : data a = data b ↔ a = b := by
  cases a; cases b
  simp [data, record, fields, bytes_inj, option_inj (g := Text.quoted) (fun a b => by simp)]

theorem shown_globalSymbol (plain : Char → Bool) (alt : Bool) (v : Str) :
    Shown plain alt (Asm.globalSymbolDebug plain alt v) (globalSymbol v) := by
  refine shown_tuple (by decide) ?_ (by simp)
  leaves

theorem globalSymbol_inj {a b : Str} : globalSymbol a = globalSymbol b ↔ a = b := by
  simp [globalSymbol, tuple, items]

theorem shown_parseError (plain : Char → Bool) (alt : Bool) (v : Str) :
    Shown plain alt (Asm.parseErrorDebug plain alt v) (parseError v) := by
  refine shown_struct (by decide) ?_ (by simp)
  leaves

theorem parseError_inj {a b : Str} : parseError a = parseError b ↔ a = b := by
  simp [parseError, record, fields]

theorem shown_expr (plain : Char → Bool) (alt : Bool) (v : UInt64) :
    Shown plain alt (Asm.exprDebug alt v) (expr v) := by
  refine shown_tuple (by decide) ?_ (by simp)
  leaves

theorem expr_inj {a b : UInt64} : expr a = expr b ↔ a = b := by
  simp [expr, tuple, items, num_inj, UInt64.toNat_inj]

theorem shown_bytesAtMost {M : Nat} (plain : Char → Bool) (alt : Bool) (v : X64.BytesAtMost M) :
    Shown plain alt (v.debug alt) (bytesAtMost v) := by
  refine shown_struct (by decide) ?_ (by simp)
  leaves

theorem bytesAtMost_inj {M : Nat} {a b : X64.BytesAtMost M} : bytesAtMost a = bytesAtMost b ↔ a = b := by
  cases a; cases b
  simp [bytesAtMost, record, fields, num_inj, bytes_inj]

theorem shown_mem64 (plain : Char → Bool) (alt : Bool) (v : X64.Mem64) :
    Shown plain alt (v.debug alt) (mem64 v) := by
  cases v with
  | regOffset r d =>
    refine shown_tuple (by decide) ?_ (by simp)
    leaves
    exact shown_reg64 plain alt _
  | ripOffset d =>
    refine shown_tuple (by decide) ?_ (by simp)
    leaves
  | sib b d i s =>
    refine shown_struct (by decide) ?_ (by simp)
    leaves
    · exact shown_option (shown_reg64 plain alt) _
    · exact shown_reg64 plain alt _

theorem mem64_inj {a b : X64.Mem64} : mem64 a = mem64 b ↔ a = b := by
  cases a <;> cases b <;>
    simp [mem64, record, fields, tuple, items, num_inj, UInt32.toNat_inj, UInt8.toNat_inj, reg64_inj,
      option_inj (fun _ _ => reg64_inj)]

theorem shown_reg (plain : Char → Bool) (alt : Bool) (v : X64.Reg) :
    Shown plain alt (v.debug alt) (reg v) := by
  cases v <;> refine shown_tuple (by decide) ?_ (by simp) <;> leaves
  · exact shown_reg64 plain alt _
  · exact shown_reg32 plain alt _
  · exact shown_reg16 plain alt _
  · exact shown_reg8 plain alt _

theorem reg_inj {a b : X64.Reg} : reg a = reg b ↔ a = b := by
  cases a <;> cases b <;> simp [reg, tuple, items, reg64_inj, reg32_inj, reg16_inj, reg8_inj]

theorem shown_symbol (plain : Char → Bool) (alt : Bool) (v : Obj.Symbol) :
    Shown plain alt (v.debug plain alt) (symbol v) := by
  cases v <;> refine shown_struct (by decide) ?_ (by simp) <;> leaves

theorem symbol_inj {a b : Obj.Symbol} : symbol a = symbol b ↔ a = b := by
  cases a <;> cases b <;> simp [symbol, record, fields, num_inj, bool_inj, UInt64.toNat_inj]

/-! ## Claims -/

/-- **C93** Every type of at-mac is shown as its declaration says: the names of the type and of the fields as
they are declared, in that order, and every field; strings in quotes with their special characters
escaped.  `{:?}` is all on one line, `{:#?}` has one line per item, indented by its depth. -/
theorem C93_written_mac (plain : Char → Bool) (alt : Bool) :
    (∀ v : Mac.Endian, Mac.Endian.debug v = (DebugSpec.endian v).written plain alt) ∧
    (∀ v : Mac.Magic, Mac.Magic.debug v = (DebugSpec.magic v).written plain alt) ∧
    (∀ v : Mac.FileType, Mac.FileType.debug v = (DebugSpec.fileType v).written plain alt) ∧
    (∀ v : Mac.SectionType, Mac.SectionType.debug v = (DebugSpec.sectionType v).written plain alt) ∧
    (∀ v : Mac.Platform, Mac.Platform.debug v = (DebugSpec.platform v).written plain alt) ∧
    (∀ v : Mac.Tool, Mac.Tool.debug v = (DebugSpec.tool v).written plain alt) ∧
    (∀ v : Mac.RelocLength, Mac.RelocLength.debug v = (DebugSpec.relocLength v).written plain alt) ∧
    (∀ v : Mac.X86RelocType, Mac.X86RelocType.debug v = (DebugSpec.x86RelocType v).written plain alt) ∧
    (∀ v : Mac.X86_64RelocType, Mac.X86_64RelocType.debug v = (DebugSpec.x86_64RelocType v).written plain alt) ∧
    (∀ v : Mac.NType, Mac.NType.debug v = (DebugSpec.nType v).written plain alt) ∧
    (∀ v : Mac.DebugSymbol, Mac.DebugSymbol.debug v = (DebugSpec.debugSymbol v).written plain alt) ∧
    (∀ v : CpuSubType, CpuSubType.debug v = (DebugSpec.cpuSubType v).written plain alt) ∧
    (∀ v : Flag, Flag.debug v = (DebugSpec.flag v).written plain alt) ∧
    (∀ v : SectionAttr, SectionAttr.debugName v = (DebugSpec.sectionAttr v).written plain alt) ∧
    (∀ v : CpuType, CpuType.debug alt v = (DebugSpec.cpuType v).written plain alt) ∧
    (∀ v : Header64, Header64.debug alt v = (DebugSpec.header64 v).written plain alt) ∧
    (∀ v : SegmentCommand64, SegmentCommand64.debug plain alt v = (DebugSpec.segmentCommand64 v).written plain alt) ∧
    (∀ v : Section64, Section64.debug plain alt v = (DebugSpec.section64 v).written plain alt) ∧
    (∀ v : SymtabCommand, SymtabCommand.debug alt v = (DebugSpec.symtabCommand v).written plain alt) ∧
    (∀ v : DysymtabCommand, DysymtabCommand.debug alt v = (DebugSpec.dysymtabCommand v).written plain alt) ∧
    (∀ v : Version, Version.debug alt v = (DebugSpec.version v).written plain alt) ∧
    (∀ v : BuildVersionCommand, BuildVersionCommand.debug alt v = (DebugSpec.buildVersionCommand v).written plain alt) ∧
    (∀ v : BuildToolVersion, BuildToolVersion.debug alt v = (DebugSpec.buildToolVersion v).written plain alt) ∧
    (∀ v : LoadCommand, LoadCommand.debug plain alt v = (DebugSpec.loadCommand v).written plain alt) ∧
    (∀ v : RelocationInfo, RelocationInfo.debug alt v = (DebugSpec.relocationInfo v).written plain alt) ∧
    (∀ v : NTypeField, NTypeField.debug alt v = (DebugSpec.nTypeField v).written plain alt) ∧
    (∀ v : NList64, NList64.debug alt v = (DebugSpec.nList64 v).written plain alt) ∧
    (∀ v : Flags, Flags.debug alt v = (DebugSpec.flags v).written plain alt) ∧
    (∀ v : SectionAttrs, SectionAttrs.debug alt v = (DebugSpec.sectionAttrs v).written plain alt) :=
  ⟨fun v => (shown_endian plain alt v).2,
    fun v => (shown_magic plain alt v).2,
    fun v => (shown_fileType plain alt v).2,
    fun v => (shown_sectionType plain alt v).2,
    fun v => (shown_platform plain alt v).2,
    fun v => (shown_tool plain alt v).2,
    fun v => (shown_relocLength plain alt v).2,
    fun v => (shown_x86RelocType plain alt v).2,
    fun v => (shown_x86_64RelocType plain alt v).2,
    fun v => (shown_nType plain alt v).2,
    fun v => (shown_debugSymbol plain alt v).2,
    fun v => (shown_cpuSubType plain alt v).2,
    fun v => (shown_flag plain alt v).2,
    fun v => (shown_sectionAttr plain alt v).2,
    fun v => (shown_cpuType plain alt v).2,
    fun v => (shown_header64 plain alt v).2,
    fun v => (shown_segmentCommand64 plain alt v).2,
    fun v => (shown_section64 plain alt v).2,
    fun v => (shown_symtabCommand plain alt v).2,
    fun v => (shown_dysymtabCommand plain alt v).2,
    fun v => (shown_version plain alt v).2,
    fun v => (shown_buildVersionCommand plain alt v).2,
    fun v => (shown_buildToolVersion plain alt v).2,
    fun v => (shown_loadCommand plain alt v).2,
    fun v => (shown_relocationInfo plain alt v).2,
    fun v => (shown_nTypeField plain alt v).2,
    fun v => (shown_nList64 plain alt v).2,
    fun v => (shown_flags plain alt v).2,
    fun v => (shown_sectionAttrs plain alt v).2⟩

/-- **C93** What is shown of every type of at-mac tells the value, and where it ends: two values that are
shown alike, in either style, are the same, also where they are shown as part of another value. -/
theorem C93_read_mac (plain : Char → Bool) (alt : Bool) :
    Tells (Mac.Endian.debug) ∧
    Tells (Mac.Magic.debug) ∧
    Tells (Mac.FileType.debug) ∧
    Tells (Mac.SectionType.debug) ∧
    Tells (Mac.Platform.debug) ∧
    Tells (Mac.Tool.debug) ∧
    Tells (Mac.RelocLength.debug) ∧
    Tells (Mac.X86RelocType.debug) ∧
    Tells (Mac.X86_64RelocType.debug) ∧
    Tells (Mac.NType.debug) ∧
    Tells (Mac.DebugSymbol.debug) ∧
    Tells CpuSubType.debug ∧
    Tells Flag.debug ∧
    Tells SectionAttr.debugName ∧
    Tells (CpuType.debug alt) ∧
    Tells (Header64.debug alt) ∧
    Tells (SegmentCommand64.debug plain alt) ∧
    Tells (Section64.debug plain alt) ∧
    Tells (SymtabCommand.debug alt) ∧
    Tells (DysymtabCommand.debug alt) ∧
    Tells (Version.debug alt) ∧
    Tells (BuildVersionCommand.debug alt) ∧
    Tells (BuildToolVersion.debug alt) ∧
    Tells (LoadCommand.debug plain alt) ∧
    Tells (RelocationInfo.debug alt) ∧
    Tells (NTypeField.debug alt) ∧
    Tells (NList64.debug alt) ∧
    Tells (Flags.debug alt) ∧
    Tells (SectionAttrs.debug alt) :=
  ⟨tells_of (shown_endian plain alt) (fun _ _ => endian_inj),
    tells_of (shown_magic plain alt) (fun _ _ => magic_inj),
    tells_of (shown_fileType plain alt) (fun _ _ => fileType_inj),
    tells_of (shown_sectionType plain alt) (fun _ _ => sectionType_inj),
    tells_of (shown_platform plain alt) (fun _ _ => platform_inj),
    tells_of (shown_tool plain alt) (fun _ _ => tool_inj),
    tells_of (shown_relocLength plain alt) (fun _ _ => relocLength_inj),
    tells_of (shown_x86RelocType plain alt) (fun _ _ => x86RelocType_inj),
    tells_of (shown_x86_64RelocType plain alt) (fun _ _ => x86_64RelocType_inj),
    tells_of (shown_nType plain alt) (fun _ _ => nType_inj),
    tells_of (shown_debugSymbol plain alt) (fun _ _ => debugSymbol_inj),
    tells_of (shown_cpuSubType plain alt) (fun _ _ => cpuSubType_inj),
    tells_of (shown_flag plain alt) (fun _ _ => flag_inj),
    tells_of (shown_sectionAttr plain alt) (fun _ _ => sectionAttr_inj),
    tells_of (shown_cpuType plain alt) (fun _ _ => cpuType_inj),
    tells_of (shown_header64 plain alt) (fun _ _ => header64_inj),
    tells_of (shown_segmentCommand64 plain alt) (fun _ _ => segmentCommand64_inj),
    tells_of (shown_section64 plain alt) (fun _ _ => section64_inj),
    tells_of (shown_symtabCommand plain alt) (fun _ _ => symtabCommand_inj),
    tells_of (shown_dysymtabCommand plain alt) (fun _ _ => dysymtabCommand_inj),
    tells_of (shown_version plain alt) (fun _ _ => version_inj),
    tells_of (shown_buildVersionCommand plain alt) (fun _ _ => buildVersionCommand_inj),
    tells_of (shown_buildToolVersion plain alt) (fun _ _ => buildToolVersion_inj),
    tells_of (shown_loadCommand plain alt) (fun _ _ => loadCommand_inj),
    tells_of (shown_relocationInfo plain alt) (fun _ _ => relocationInfo_inj),
    tells_of (shown_nTypeField plain alt) (fun _ _ => nTypeField_inj),
    tells_of (shown_nList64 plain alt) (fun _ _ => nList64_inj),
    tells_of (shown_flags plain alt) (fun _ _ => flags_inj),
    tells_of (shown_sectionAttrs plain alt) (fun _ _ => sectionAttrs_inj)⟩

/-- **C93** Every type of at-asm, at-x64 and at-obj is shown as its declaration says: the names of the type and of the fields as
they are declared, in that order, and every field; strings in quotes with their special characters
escaped.  `{:?}` is all on one line, `{:#?}` has one line per item, indented by its depth. -/
theorem C93_written_rest (plain : Char → Bool) (alt : Bool) (M : Nat) :
    (∀ v : Asm.Section, Asm.Section.debug v = (DebugSpec.asmSection v).written plain alt) ∧
    (∀ v : X64.Reg64, X64.Reg64.debug v = (DebugSpec.reg64 v).written plain alt) ∧
    (∀ v : X64.Reg32, X64.Reg32.debug v = (DebugSpec.reg32 v).written plain alt) ∧
    (∀ v : X64.Reg16, X64.Reg16.debug v = (DebugSpec.reg16 v).written plain alt) ∧
    (∀ v : X64.Reg8, X64.Reg8.debug v = (DebugSpec.reg8 v).written plain alt) ∧
    (∀ v : Asm.Data, Asm.Data.debug plain alt v = (DebugSpec.data v).written plain alt) ∧
    (∀ v : Str, Asm.globalSymbolDebug plain alt v = (DebugSpec.globalSymbol v).written plain alt) ∧
    (∀ v : Str, Asm.parseErrorDebug plain alt v = (DebugSpec.parseError v).written plain alt) ∧
    (∀ v : UInt64, Asm.exprDebug alt v = (DebugSpec.expr v).written plain alt) ∧
    (∀ v : X64.BytesAtMost M, X64.BytesAtMost.debug (M := M) alt v = (DebugSpec.bytesAtMost v).written plain alt) ∧
    (∀ v : X64.Mem64, X64.Mem64.debug alt v = (DebugSpec.mem64 v).written plain alt) ∧
    (∀ v : X64.Reg, X64.Reg.debug alt v = (DebugSpec.reg v).written plain alt) ∧
    (∀ v : Obj.Symbol, Obj.Symbol.debug plain alt v = (DebugSpec.symbol v).written plain alt) :=
  ⟨fun v => (shown_asmSection plain alt v).2,
    fun v => (shown_reg64 plain alt v).2,
    fun v => (shown_reg32 plain alt v).2,
    fun v => (shown_reg16 plain alt v).2,
    fun v => (shown_reg8 plain alt v).2,
    fun v => (shown_data plain alt v).2,
    fun v => (shown_globalSymbol plain alt v).2,
    fun v => (shown_parseError plain alt v).2,
    fun v => (shown_expr plain alt v).2,
    fun v => (shown_bytesAtMost plain alt v).2,
    fun v => (shown_mem64 plain alt v).2,
    fun v => (shown_reg plain alt v).2,
    fun v => (shown_symbol plain alt v).2⟩

/-- **C93** What is shown of every type of at-asm, at-x64 and at-obj tells the value, and where it ends: two values that are
shown alike, in either style, are the same, also where they are shown as part of another value. -/
theorem C93_read_rest (plain : Char → Bool) (alt : Bool) (M : Nat) :
    Tells (Asm.Section.debug) ∧
    Tells (X64.Reg64.debug) ∧
    Tells (X64.Reg32.debug) ∧
    Tells (X64.Reg16.debug) ∧
    Tells (X64.Reg8.debug) ∧
    Tells (Asm.Data.debug plain alt) ∧
    Tells (Asm.globalSymbolDebug plain alt) ∧
    Tells (Asm.parseErrorDebug plain alt) ∧
    Tells (Asm.exprDebug alt) ∧
    Tells (X64.BytesAtMost.debug (M := M) alt) ∧
    Tells (X64.Mem64.debug alt) ∧
    Tells (X64.Reg.debug alt) ∧
    Tells (Obj.Symbol.debug plain alt) :=
  ⟨tells_of (shown_asmSection plain alt) (fun _ _ => asmSection_inj),
    tells_of (shown_reg64 plain alt) (fun _ _ => reg64_inj),
    tells_of (shown_reg32 plain alt) (fun _ _ => reg32_inj),
    tells_of (shown_reg16 plain alt) (fun _ _ => reg16_inj),
    tells_of (shown_reg8 plain alt) (fun _ _ => reg8_inj),
    tells_of (shown_data plain alt) (fun _ _ => data_inj),
    tells_of (shown_globalSymbol plain alt) (fun _ _ => globalSymbol_inj),
    tells_of (shown_parseError plain alt) (fun _ _ => parseError_inj),
    tells_of (shown_expr plain alt) (fun _ _ => expr_inj),
    tells_of (shown_bytesAtMost plain alt) (fun _ _ => bytesAtMost_inj),
    tells_of (shown_mem64 plain alt) (fun _ _ => mem64_inj),
    tells_of (shown_reg plain alt) (fun _ _ => reg_inj),
    tells_of (shown_symbol plain alt) (fun _ _ => symbol_inj)⟩

/-- Values shown at the end of a text: equal texts, equal values. -/
theorem C93_equal {α : Type} {f : α → Str} (h : Tells f) {v w : α} (e : f v = f w) : v = w :=
  (h v w [] [] ends_nil ends_nil (by rw [e])).1

/-- A symbol and a relocation entry in both styles. -/
example :
    String.ofList (Obj.Symbol.debug (fun _ => true) false (.abs (str% "_a\"b") 7 true)) =
      "Abs { name: \"_a\\\"b\", val: 7, ext: true }" ∧
    String.ofList (RelocationInfo.debug true ⟨-4, 2, true, .long, true, 2⟩) =
      "RelocationInfo {\n    r_address: -4,\n    r_symbolnum: 2,\n    r_pcrel: true,\n" ++
      "    r_length: Long,\n    r_extern: true,\n    r_type: 2,\n}" := by
  decide +kernel

/-- A load command with groups inside groups, an operand and an empty list. -/
example :
    String.ofList (LoadCommand.debug (fun _ => true) true
      (.buildVersion ⟨50, 24, .macOS, ⟨10, 15, 0⟩, ⟨10, 15, 6⟩, 1⟩ [⟨.ld, 3⟩])) =
      "BuildVersion(\n    BuildVersionCommand {\n        cmd: 50,\n        cmdsize: 24,\n" ++
      "        platform: MacOS,\n        minos: Version {\n            major: 10,\n" ++
      "            minor: 15,\n            release: 0,\n        },\n        sdk: Version {\n" ++
      "            major: 10,\n            minor: 15,\n            release: 6,\n        },\n" ++
      "        ntools: 1,\n    },\n    [\n        BuildToolVersion {\n            tool: LD,\n" ++
      "            version: 3,\n        },\n    ],\n)" ∧
    String.ofList (X64.Mem64.debug false (.sib (some .RAX) 16 .RCX 3)) =
      "Sib { base: Some(RAX), disp: 16, index: RCX, scale: 3 }" ∧
    String.ofList (Asm.Data.debug (fun _ => true) false ⟨none, []⟩) = "Data { label: None, bytes: [] }" := by
  decide +kernel

end AT.Props
