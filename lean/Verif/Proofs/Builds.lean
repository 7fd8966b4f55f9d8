import Verif.Model.Asm
/-!
# Debug and release builds

A release build does what the debug build does unless the latter panics.
-/

namespace AT
open AT.Mac AT.Obj AT.Asm

/-- The debug result `d` and the release result `r`. -/
def Agree {α : Type} (d r : Res α) : Prop := d = .error .panic ∨ r = d

theorem Agree.refl {α : Type} (r : Res α) : Agree r r := .inr rfl

theorem Agree.bind {α β : Type} {d r : Res α} {f g : α → Res β} (h : Agree d r) (hf : ∀ a, Agree (f a) (g a)) :
    Agree (d >>= f) (r >>= g) := by
  rcases h with rfl | rfl
  · exact .inl rfl
  · cases r with
    | error e => exact .inr rfl
    | ok a => exact hf a

theorem Agree.map {α β : Type} {d r : Res α} (f : α → β) (h : Agree d r) : Agree (f <$> d) (f <$> r) := by
  rcases h with rfl | rfl
  · exact .inl rfl
  · exact .inr rfl

theorem agree_if {α : Type} {p : Prop} [Decidable p] (a : α) :
    Agree (if p ∨ Build.debug = .release then Except.ok a else .error .panic)
      (if p ∨ Build.release = .release then Except.ok a else (.error .panic : Res α)) := by
  by_cases h : p
  · simp only [h, true_or, if_true]; exact .refl _
  · left; simp [h]

theorem agree_addU32 (a b : UInt32) : Agree (addU32 .debug a b) (addU32 .release a b) := agree_if _
theorem agree_mulU32 (a b : UInt32) : Agree (mulU32 .debug a b) (mulU32 .release a b) := agree_if _
theorem agree_subU32 (a b : UInt32) : Agree (subU32 .debug a b) (subU32 .release a b) := agree_if _
theorem agree_addU64 (a b : UInt64) : Agree (addU64 .debug a b) (addU64 .release a b) := agree_if _
theorem agree_mulU64 (a b : UInt64) : Agree (mulU64 .debug a b) (mulU64 .release a b) := agree_if _
theorem agree_addI32 (a b : Int32) : Agree (addI32 .debug a b) (addI32 .release a b) := agree_if _
theorem agree_addI64 (a b : Int64) : Agree (addI64 .debug a b) (addI64 .release a b) := agree_if _
theorem agree_mulI64 (a b : Int64) : Agree (mulI64 .debug a b) (mulI64 .release a b) := agree_if _

theorem agree_foldlM {α β : Type} {f g : β → α → Res β} (h : ∀ b a, Agree (f b a) (g b a)) (l : List α) :
    ∀ b, Agree (l.foldlM f b) (l.foldlM g b) := by
  induction l with
  | nil => exact fun b => .refl _
  | cons a l ih =>
    intro b
    rw [List.foldlM_cons, List.foldlM_cons]
    exact (h b a).bind ih

theorem agree_mapM {α β : Type} {f g : α → Res β} (h : ∀ a, Agree (f a) (g a)) (l : List α) :
    Agree (l.mapM f) (l.mapM g) := by
  induction l with
  | nil => exact .refl _
  | cons a l ih =>
    rw [List.mapM_cons, List.mapM_cons]
    exact (h a).bind fun b => ih.bind fun bs => .refl _

theorem agree_sumU32 (l : List UInt32) : Agree (sumU32 .debug l) (sumU32 .release l) :=
  agree_foldlM agree_addU32 l 0
theorem agree_sumU64 (l : List UInt64) : Agree (sumU64 .debug l) (sumU64 .release l) :=
  agree_foldlM agree_addU64 l 0

theorem agree_alignedU32 (n a : UInt32) : Agree (alignedU32 .debug n a) (alignedU32 .release n a) :=
  (Agree.refl _).bind fun _ => (agree_addU32 _ _).bind fun _ => agree_mulU32 _ _

theorem agree_paddingU32 (n a : UInt32) : Agree (paddingU32 .debug n a) (paddingU32 .release n a) :=
  (agree_alignedU32 _ _).bind fun _ => agree_subU32 _ _

/-! ## at-obj -/

theorem agree_genHeader64 (o : Object) : Agree (genHeader64 .debug o) (genHeader64 .release o) :=
  (agree_mulU32 _ _).bind fun _ => (agree_addU32 _ _).bind fun _ => (agree_addU32 _ _).bind fun _ => .refl _

theorem agree_dataStart (o : Object) : Agree (dataStart .debug o) (dataStart .release o) :=
  (agree_addU32 _ _).bind fun _ => (agree_mulU32 _ _).bind fun _ => (agree_addU32 _ _).bind fun _ => agree_addU32 _ _

theorem agree_alignedFileSize (o : Object) : Agree (alignedFileSize .debug o) (alignedFileSize .release o) :=
  (agree_sumU32 _).bind fun _ => agree_alignedU32 _ _

theorem agree_genSegment (o : Object) : Agree (genSegmentCommand64 .debug o) (genSegmentCommand64 .release o) :=
  (agree_mulU32 _ _).bind fun _ => (agree_addU32 _ _).bind fun _ => (agree_sumU64 _).bind fun _ =>
    (agree_dataStart _).bind fun _ => (agree_alignedFileSize _).bind fun _ => .refl _

theorem agree_sectionsGo (ss : List SectionRef) : ∀ (vm : UInt64) (ds rs : UInt32),
    Agree (genSection64sGo .debug vm ds rs ss) (genSection64sGo .release vm ds rs ss) := by
  induction ss with
  | nil => exact fun _ _ _ => .refl _
  | cons s ss ih =>
    exact fun _ _ _ => (agree_addU64 _ _).bind fun _ => (agree_addU32 _ _).bind fun _ =>
      (agree_mulU32 _ _).bind fun _ => (agree_addU32 _ _).bind fun _ => (ih _ _ _).bind fun _ => .refl _

theorem agree_sections (o : Object) : Agree (genSection64s .debug o) (genSection64s .release o) :=
  (agree_dataStart _).bind fun _ => (agree_alignedFileSize _).bind fun _ => (agree_addU32 _ _).bind fun _ =>
    agree_sectionsGo _ _ _ _

theorem agree_sectStrSize (s : SectionRef) : Agree (sectStrSize .debug s) (sectStrSize .release s) :=
  (agree_mapM (fun _ => agree_addU32 _ _) _).bind fun _ => agree_sumU32 _

theorem agree_symtab (o : Object) : Agree (genSymtabCommand .debug o) (genSymtabCommand .release o) :=
  (agree_dataStart _).bind fun _ => (agree_alignedFileSize _).bind fun _ => (agree_addU32 _ _).bind fun _ =>
    (agree_sumU32 _).bind fun _ => (agree_mulU32 _ _).bind fun _ => (agree_addU32 _ _).bind fun _ =>
    (agree_sumU32 _).bind fun _ => (agree_mulU32 _ _).bind fun _ => (agree_addU32 _ _).bind fun _ =>
    (agree_mapM agree_sectStrSize _).bind fun _ => (agree_sumU32 _).bind fun _ => (agree_addU32 _ _).bind fun _ =>
    .refl _

theorem agree_getStrxGo (name : Str) (l : List Bytes) : ∀ idx,
    Agree (getStrxGo .debug name idx l) (getStrxGo .release name idx l) := by
  induction l with
  | nil => exact fun _ => .refl _
  | cons b l ih =>
    intro idx
    unfold getStrxGo
    refine (Agree.refl _).bind fun s => (agree_addU32 _ _).bind fun i => ?_
    split
    · exact .refl _
    · exact (agree_addU32 _ _).bind fun _ => ih _

theorem agree_nlist (sections : List Section64) (stab : StringTable) (i : Nat) (sym : Symbol) :
    Agree (genNList64 .debug sections stab i sym) (genNList64 .release sections stab i sym) := by
  unfold genNList64
  cases sym with
  | undef => exact (agree_getStrxGo _ _ _).bind fun _ => .refl _
  | abs => exact (agree_getStrxGo _ _ _).bind fun _ => .refl _
  | ref =>
    exact (agree_getStrxGo _ _ _).bind fun _ => (Agree.refl _).bind fun _ => (agree_addU64 _ _).bind fun _ => .refl _

theorem agree_nlistsGo (sections : List Section64) (stab : StringTable) (ss : List SectionRef) : ∀ i,
    Agree (genNList64sGo .debug sections stab i ss) (genNList64sGo .release sections stab i ss) := by
  induction ss with
  | nil => exact fun _ => .refl _
  | cons s ss ih =>
    exact fun i => (agree_mapM (agree_nlist _ _ _) _).bind fun _ => (ih _).bind fun _ => .refl _

/-- Writers: if the debug build panics, what it wrote so far is the beginning of what the release
build writes. -/
def AgreeW {α : Type} (d r : Wr α) : Prop := (d.res = .error .panic ∧ d.chunks <+: r.chunks) ∨ r = d

theorem AgreeW.refl {α : Type} (r : Wr α) : AgreeW r r := .inr rfl

theorem AgreeW.bind {α β : Type} {d r : Wr α} {f g : α → Wr β} (h : AgreeW d r) (hf : ∀ a, AgreeW (f a) (g a)) :
    AgreeW (d >>= f) (r >>= g) := by
  obtain ⟨dc, dr⟩ := d
  obtain ⟨rc, rr⟩ := r
  rcases h with ⟨h1, h2⟩ | h
  · simp only at h1
    subst h1
    left
    refine ⟨rfl, ?_⟩
    obtain ⟨p, rfl⟩ := h2
    cases rr with
    | ok a => exact ⟨p ++ (g a).chunks, (List.append_assoc _ _ _).symm⟩
    | error e => exact ⟨p, rfl⟩
  · cases h
    cases dr with
    | error e => exact .inr rfl
    | ok a =>
      rcases hf a with ⟨h1, h2⟩ | h
      · left
        exact ⟨h1, (List.prefix_append_right_inj _).2 h2⟩
      · right
        change (⟨dc ++ (g a).chunks, (g a).res⟩ : Wr β) = ⟨dc ++ (f a).chunks, (f a).res⟩
        rw [h]

theorem AgreeW.lift {α : Type} {d r : Res α} (h : Agree d r) : AgreeW (Wr.lift d) (Wr.lift r) := by
  rcases h with rfl | rfl
  · exact .inl ⟨rfl, List.nil_prefix⟩
  · exact .inr rfl

theorem agree_writeSectionDataGo (S : List SectionRef) (a : UInt32) :
    AgreeW (writeSectionDataGo .debug a S) (writeSectionDataGo .release a S) := by
  induction S generalizing a with
  | nil => exact .refl _
  | cons s S ih => exact (AgreeW.refl _).bind fun _ => (AgreeW.lift (agree_addU32 _ _)).bind fun b => ih b

theorem agree_writeSectionData (o : Object) :
    AgreeW (writeSectionDataInto .debug o) (writeSectionDataInto .release o) :=
  (agree_writeSectionDataGo _ _).bind fun _ =>
    (AgreeW.lift (agree_paddingU32 _ _)).bind fun _ => .refl _

theorem agree_writeInto (h : Endian) (o : Object) : AgreeW (Obj.writeInto .debug h o) (Obj.writeInto .release h o) :=
  (AgreeW.lift (agree_genHeader64 o)).bind fun _ => (AgreeW.refl _).bind fun _ =>
  (AgreeW.lift (agree_genSegment o)).bind fun _ => (AgreeW.refl _).bind fun _ =>
  (AgreeW.lift (agree_sections o)).bind fun _ => (AgreeW.refl _).bind fun _ =>
  (AgreeW.lift (agree_symtab o)).bind fun _ => (AgreeW.refl _).bind fun _ =>
  (agree_writeSectionData o).bind fun _ => (AgreeW.refl _).bind fun _ =>
  (AgreeW.lift (agree_nlistsGo _ _ _ 0)).bind fun _ => .refl _

/-! ## at-mac -/

theorem agree_rd {α β : Type} {d r : Rd α} {f g : α → Rd β} (h : ∀ s, Agree (d s) (r s))
    (hf : ∀ a s, Agree (f a s) (g a s)) (s : Bytes) : Agree ((d >>= f) s) ((r >>= g) s) :=
  (h s).bind fun p => hf p.1 p.2

theorem agree_rdLift {α : Type} {d r : Res α} (h : Agree d r) (s : Bytes) : Agree (Rd.lift d s) (Rd.lift r s) :=
  Agree.map _ h

theorem agree_segment (e : Endian) (s : Bytes) :
    Agree (SegmentCommand64.readFromIn .debug e s) (SegmentCommand64.readFromIn .release e s) := by
  unfold SegmentCommand64.readFromIn
  repeat' with_reducible first
    | exact Agree.refl _
    | exact agree_rdLift (agree_mulU32 _ _) _
    | exact agree_rdLift (agree_addU32 _ _) _
    | refine agree_rd (fun s => ?_) (fun a s => ?_) _

theorem agree_buildVersion (e : Endian) (s : Bytes) :
    Agree (BuildVersionCommand.readFromIn .debug e s) (BuildVersionCommand.readFromIn .release e s) := by
  unfold BuildVersionCommand.readFromIn
  repeat' with_reducible first
    | exact Agree.refl _
    | exact agree_rdLift (agree_mulU32 _ _) _
    | exact agree_rdLift (agree_addU32 _ _) _
    | refine agree_rd (fun s => ?_) (fun a s => ?_) _

theorem agree_loadCommand (e : Endian) (s : Bytes) :
    Agree (LoadCommand.readFromIn .debug e s) (LoadCommand.readFromIn .release e s) := by
  unfold LoadCommand.readFromIn
  refine agree_rd (fun s => .refl _) (fun cmd s => agree_rd (fun s => .refl _) (fun _ s => ?_) _) _
  split
  · exact agree_rd (agree_segment e) (fun _ _ => .refl _) _
  · split
    · exact .refl _
    · split
      · exact .refl _
      · split
        · exact agree_rd (agree_buildVersion e) (fun _ _ => .refl _) _
        · exact .refl _

/-! ## at-asm -/

theorem agree_expr (s : Str) : Agree (tryParseExpr .debug s) (tryParseExpr .release s) := by
  unfold tryParseExpr
  repeat' split
  all_goals first
    | exact .refl _
    | exact (agree_mulI64 _ _).bind fun _ => (agree_addI64 _ _).bind fun _ => .refl _

theorem agree_mov64 (d : X64.Reg64) (s : Str) : Agree (parseMov64 .debug d s) (parseMov64 .release d s) :=
  (agree_expr s).bind fun o => by cases o <;> exact .refl _
theorem agree_mov32 (d : X64.Reg32) (s : Str) : Agree (parseMov32 .debug d s) (parseMov32 .release d s) :=
  (agree_expr s).bind fun o => by cases o <;> exact .refl _
theorem agree_mov16 (d : X64.Reg16) (s : Str) : Agree (parseMov16 .debug d s) (parseMov16 .release d s) :=
  (agree_expr s).bind fun o => by cases o <;> exact .refl _

theorem agree_mov (s : Str) : Agree (parseMov .debug s) (parseMov .release s) := by
  unfold parseMov
  simp only
  repeat' split
  all_goals first
    | exact .refl _
    | exact agree_mov64 _ _
    | exact agree_mov32 _ _
    | exact agree_mov16 _ _

theorem agree_instruction (s : Str) : Agree (tryParseInstruction .debug s) (tryParseInstruction .release s) := by
  unfold tryParseInstruction
  repeat' split
  all_goals first
    | exact .refl _
    | exact (agree_mov _).map _

theorem agree_line (s : Str) : Agree (parseLine .debug s) (parseLine .release s) := by
  unfold parseLine
  simp only
  split
  · exact .refl _
  · refine (Agree.refl _).bind fun o => ?_
    split
    · exact .refl _
    · refine (Agree.refl _).bind fun o => ?_
      split
      · exact .refl _
      · split
        · exact .refl _
        · refine (Agree.refl _).bind fun o => ?_
          split
          · exact .refl _
          · exact (agree_instruction _).bind fun o => .refl _

theorem agree_parseOrExit (n : UInt32) (s : Str) : Agree (parseOrExit .debug n s) (parseOrExit .release n s) := by
  unfold parseOrExit
  rcases agree_line s with h | h <;> rw [h]
  · exact .inl rfl
  · exact .refl _

theorem agree_step (a : Assembler) (l : Line) : Agree (a.step .debug l) (a.step .release l) := by
  unfold Assembler.step
  cases l with
  | instruction i =>
    simp only
    split
    · exact (agree_addI32 _ _).bind fun _ => .refl _
    · exact .refl _
  | _ => exact .refl _

theorem agree_doLine (a : Assembler) (s : Str) : Agree (a.doLine .debug s) (a.doLine .release s) :=
  (agree_addU32 _ _).bind fun _ => (agree_parseOrExit _ _).bind fun _ => agree_step _ _

theorem agree_readLoop : ∀ (n : Nat) (a : Assembler) (r : Reader), r.measure = n →
    Agree (a.readLoop .debug r) (a.readLoop .release r) := by
  intro n
  induction n using Nat.strongRecOn with
  | _ n ih =>
    intro a r hn
    rw [Assembler.readLoop, Assembler.readLoop]
    split
    · exact .refl _
    · exact .refl _
    · rename_i s r' h
      rcases agree_doLine a s with hd | hd <;> rw [hd]
      · exact .inl rfl
      · split
        · exact .refl _
        · exact ih _ (hn ▸ nextLine_measure h) _ _ rfl

theorem agree_readFrom (a : Assembler) (chunks : List Bytes) :
    Agree (a.readFrom .debug chunks) (a.readFrom .release chunks) :=
  (agree_readLoop _ a _ rfl).bind fun _ => .refl _

end AT
