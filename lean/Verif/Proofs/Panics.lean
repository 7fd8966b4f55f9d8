import Verif.Model.Asm
/-!
# The object writer stops by panicking only
-/

namespace AT
open AT.Mac AT.Obj AT.Asm

/-- A computation that, if it stops, panics. -/
def Panics {α : Type} (r : Res α) : Prop := ∀ e, r = .error e → e = .panic

theorem Panics.ok {α : Type} (a : α) : Panics (.ok a : Res α) := fun _ h => by cases h
theorem Panics.pure {α : Type} (a : α) : Panics (Pure.pure a : Res α) := fun _ h => by cases h
theorem Panics.panic {α : Type} : Panics (.error .panic : Res α) := fun _ h => by cases h; rfl

theorem Panics.bind {α β : Type} {r : Res α} {f : α → Res β} (h : Panics r) (hf : ∀ a, Panics (f a)) :
    Panics (r >>= f) := by
  cases r with
  | error e => intro e' he; cases he; exact h e rfl
  | ok a => exact hf a

theorem Panics.ite {α : Type} {p : Prop} [Decidable p] (a : α) :
    Panics (if p then (.ok a : Res α) else .error .panic) := by
  split
  · exact .ok a
  · exact .panic

theorem Panics.foldlM {α β : Type} {f : β → α → Res β} (h : ∀ b a, Panics (f b a)) (l : List α) :
    ∀ b, Panics (l.foldlM f b) := by
  induction l with
  | nil => exact fun b => .pure b
  | cons a l ih => intro b; rw [List.foldlM_cons]; exact (h b a).bind ih

theorem Panics.mapM {α β : Type} {f : α → Res β} (h : ∀ a, Panics (f a)) (l : List α) : Panics (l.mapM f) := by
  induction l with
  | nil => exact .pure _
  | cons a l ih => rw [List.mapM_cons]; exact (h a).bind fun b => ih.bind fun bs => .pure _

theorem Panics.unwrap {α : Type} (o : Option α) : Panics (runwrap o) := by
  cases o
  · exact .panic
  · exact .ok _

theorem panics_addU32 (bd : Build) (a b : UInt32) : Panics (addU32 bd a b) := .ite _
theorem panics_subU32 (bd : Build) (a b : UInt32) : Panics (subU32 bd a b) := .ite _
theorem panics_mulU32 (bd : Build) (a b : UInt32) : Panics (mulU32 bd a b) := .ite _
theorem panics_addU64 (bd : Build) (a b : UInt64) : Panics (addU64 bd a b) := .ite _
theorem panics_rassert (c : Bool) : Panics (rassert c) := .ite _
theorem panics_sumU32 (bd : Build) (l : List UInt32) : Panics (sumU32 bd l) := .foldlM (panics_addU32 bd) l 0
theorem panics_sumU64 (bd : Build) (l : List UInt64) : Panics (sumU64 bd l) := .foldlM (panics_addU64 bd) l 0

theorem panics_alignedU32 (bd : Build) (n a : UInt32) : Panics (alignedU32 bd n a) :=
  (panics_rassert _).bind fun _ => (panics_addU32 _ _ _).bind fun _ => panics_mulU32 _ _ _

theorem panics_paddingU32 (bd : Build) (n a : UInt32) : Panics (paddingU32 bd n a) :=
  (panics_alignedU32 _ _ _).bind fun _ => panics_subU32 _ _ _

theorem panics_header (bd : Build) (o : Object) : Panics (genHeader64 bd o) :=
  (panics_mulU32 _ _ _).bind fun _ => (panics_addU32 _ _ _).bind fun _ => (panics_addU32 _ _ _).bind fun _ => .pure _

theorem panics_dataStart (bd : Build) (o : Object) : Panics (dataStart bd o) :=
  (panics_addU32 _ _ _).bind fun _ => (panics_mulU32 _ _ _).bind fun _ => (panics_addU32 _ _ _).bind fun _ =>
    panics_addU32 _ _ _

theorem panics_alignedFileSize (bd : Build) (o : Object) : Panics (alignedFileSize bd o) :=
  (panics_sumU32 _ _).bind fun _ => panics_alignedU32 _ _ _

theorem panics_segment (bd : Build) (o : Object) : Panics (genSegmentCommand64 bd o) :=
  (panics_mulU32 _ _ _).bind fun _ => (panics_addU32 _ _ _).bind fun _ => (panics_sumU64 _ _).bind fun _ =>
    (panics_dataStart _ _).bind fun _ => (panics_alignedFileSize _ _).bind fun _ => .pure _

theorem panics_sectionsGo (bd : Build) (ss : List SectionRef) : ∀ (vm : UInt64) (ds rs : UInt32),
    Panics (genSection64sGo bd vm ds rs ss) := by
  induction ss with
  | nil => exact fun _ _ _ => .pure _
  | cons s ss ih =>
    exact fun _ _ _ => (panics_addU64 _ _ _).bind fun _ => (panics_addU32 _ _ _).bind fun _ =>
      (panics_mulU32 _ _ _).bind fun _ => (panics_addU32 _ _ _).bind fun _ => (ih _ _ _).bind fun _ => .pure _

theorem panics_sections (bd : Build) (o : Object) : Panics (genSection64s bd o) :=
  (panics_dataStart _ _).bind fun _ => (panics_alignedFileSize _ _).bind fun _ => (panics_addU32 _ _ _).bind fun _ =>
    panics_sectionsGo _ _ _ _ _

theorem panics_sectStrSize (bd : Build) (s : SectionRef) : Panics (sectStrSize bd s) :=
  (Panics.mapM (fun _ => panics_addU32 _ _ _) _).bind fun _ => panics_sumU32 _ _

theorem panics_symtab (bd : Build) (o : Object) : Panics (genSymtabCommand bd o) :=
  (panics_dataStart _ _).bind fun _ => (panics_alignedFileSize _ _).bind fun _ => (panics_addU32 _ _ _).bind fun _ =>
    (panics_sumU32 _ _).bind fun _ => (panics_mulU32 _ _ _).bind fun _ => (panics_addU32 _ _ _).bind fun _ =>
    (panics_sumU32 _ _).bind fun _ => (panics_mulU32 _ _ _).bind fun _ => (panics_addU32 _ _ _).bind fun _ =>
    (Panics.mapM (panics_sectStrSize _) _).bind fun _ => (panics_sumU32 _ _).bind fun _ =>
    (panics_addU32 _ _ _).bind fun _ => .pure _

theorem panics_push (t : StringTable) (s : Str) : Panics (t.pushWithNull s) := by
  unfold StringTable.pushWithNull
  first
    | exact (panics_rassert _).bind fun _ => .pure _
    | (split <;> first | exact .pure _ | exact .ok _ | exact .panic)

theorem panics_table (o : Object) : Panics (genStringTable o) := Panics.foldlM (fun t (s : Symbol) => panics_push t s.name) _ _

theorem panics_getStrxGo (bd : Build) (name : Str) (l : List Bytes) : ∀ idx, Panics (getStrxGo bd name idx l) := by
  induction l with
  | nil => exact fun _ => .pure _
  | cons b l ih =>
    intro idx
    unfold getStrxGo
    refine (Panics.unwrap _).bind fun s => (panics_addU32 _ _ _).bind fun i => ?_
    split
    · exact .pure _
    · exact (panics_addU32 _ _ _).bind fun _ => ih _

theorem panics_nlist (bd : Build) (sections : List Section64) (stab : StringTable) (i : Nat) (sym : Symbol) :
    Panics (genNList64 bd sections stab i sym) := by
  unfold genNList64
  cases sym with
  | undef => exact (panics_getStrxGo _ _ _ _).bind fun _ => .pure _
  | abs => exact (panics_getStrxGo _ _ _ _).bind fun _ => .pure _
  | ref =>
    exact (panics_getStrxGo _ _ _ _).bind fun _ => (Panics.unwrap _).bind fun _ =>
      (panics_addU64 _ _ _).bind fun _ => .pure _

theorem panics_nlistsGo (bd : Build) (sections : List Section64) (stab : StringTable) (ss : List SectionRef) :
    ∀ i, Panics (genNList64sGo bd sections stab i ss) := by
  induction ss with
  | nil => exact fun _ => .pure _
  | cons s ss ih => exact fun i => (Panics.mapM (panics_nlist _ _ _ _) _).bind fun _ => (ih _).bind fun _ => .pure _

theorem panics_get (t : StringTable) (i : Nat) : Panics (t.get i) := by
  unfold StringTable.get
  repeat' split
  all_goals first
    | exact .panic
    | exact .unwrap _
    | exact .pure _
    | exact .ok _
    | exact (panics_rassert _).bind fun _ => .unwrap _

theorem panics_getSymIdxGo (stab : StringTable) (name : Str) (l : List NList64) :
    ∀ i, Panics (getSymIdxGo stab name i l) := by
  induction l with
  | nil => exact fun _ => .panic
  | cons s l ih =>
    intro i
    unfold getSymIdxGo
    refine (panics_get _ _).bind fun n => ?_
    split
    · exact .pure _
    · exact ih _

theorem panics_relocs (o : Object) (symbols : List NList64) (stab : StringTable) :
    Panics (genRelocationInfos o symbols stab) :=
  Panics.mapM (fun _ => (panics_getSymIdxGo _ _ _ _).bind fun _ => (Panics.unwrap _).bind fun _ => .pure _) _

/-! ## Writers -/

/-- A writer that, if it stops, panics. -/
def PanicsW {α : Type} (w : Wr α) : Prop := Panics w.res

theorem PanicsW.pure {α : Type} (a : α) : PanicsW (Pure.pure a : Wr α) := Panics.ok a
theorem PanicsW.emit (b : Bytes) : PanicsW (emit b) := Panics.ok ()
theorem PanicsW.lift {α : Type} {r : Res α} (h : Panics r) : PanicsW (Wr.lift r) := h

theorem PanicsW.bind {α β : Type} {w : Wr α} {f : α → Wr β} (h : PanicsW w) (hf : ∀ a, PanicsW (f a)) :
    PanicsW (w >>= f) := by
  obtain ⟨c, r⟩ := w
  cases r with
  | error e => intro e' he; cases he; exact h e rfl
  | ok a => exact hf a

theorem PanicsW.forWr {α : Type} {f : α → Wr Unit} (h : ∀ a, PanicsW (f a)) (l : List α) : PanicsW (forWr f l) := by
  induction l with
  | nil => exact .pure ()
  | cons a l ih => exact (h a).bind fun _ => ih

theorem panicsW_str (s : Str) (n : Nat) : PanicsW (writeFixedStr s n) := by
  unfold writeFixedStr
  repeat' first
    | exact .emit _
    | exact .lift (panics_rassert _)
    | refine PanicsW.bind ?_ (fun _ => ?_)

theorem panicsW_header (h : Endian) (x : Header64) : PanicsW (x.writeInto h) := by
  unfold Header64.writeInto
  repeat' first
    | exact .emit _
    | refine PanicsW.bind ?_ (fun _ => ?_)

theorem panicsW_segment (h : Endian) (x : SegmentCommand64) : PanicsW (x.writeInto h) := by
  unfold SegmentCommand64.writeInto
  repeat' first
    | exact .emit _
    | exact panicsW_str _ _
    | refine PanicsW.bind ?_ (fun _ => ?_)

theorem panicsW_section (h : Endian) (x : Section64) : PanicsW (x.writeInto h) := by
  unfold Section64.writeInto
  repeat' first
    | exact .emit _
    | exact panicsW_str _ _
    | refine PanicsW.bind ?_ (fun _ => ?_)

theorem panicsW_symtab (h : Endian) (x : SymtabCommand) : PanicsW (x.writeInto h) := by
  unfold SymtabCommand.writeInto
  repeat' first
    | exact .emit _
    | refine PanicsW.bind ?_ (fun _ => ?_)

theorem panicsW_nlist (h : Endian) (x : NList64) : PanicsW (x.writeInto h) := by
  unfold NList64.writeInto
  repeat' first
    | exact .emit _
    | refine PanicsW.bind ?_ (fun _ => ?_)

theorem panicsW_reloc (h : Endian) (x : RelocationInfo) : PanicsW (x.writeInto h) := by
  unfold RelocationInfo.writeInto
  repeat' first
    | exact .emit _
    | refine PanicsW.bind ?_ (fun _ => ?_)

theorem panicsW_dataGo (bd : Build) (ss : List SectionRef) (a : UInt32) : PanicsW (writeSectionDataGo bd a ss) := by
  induction ss generalizing a with
  | nil => exact .pure _
  | cons s ss ih => exact (PanicsW.emit _).bind fun _ => (PanicsW.lift (panics_addU32 _ _ _)).bind fun b => ih b

theorem panicsW_data (bd : Build) (o : Object) : PanicsW (writeSectionDataInto bd o) :=
  (panicsW_dataGo _ _ _).bind fun _ => (PanicsW.lift (panics_paddingU32 _ _ _)).bind fun _ =>
    (PanicsW.lift (panics_rassert _)).bind fun _ => .emit _

theorem panicsW_writeInto (bd : Build) (h : Endian) (o : Object) : PanicsW (Obj.writeInto bd h o) :=
  (PanicsW.lift (panics_header bd o)).bind fun _ => (panicsW_header h _).bind fun _ =>
  (PanicsW.lift (panics_segment bd o)).bind fun _ => (panicsW_segment h _).bind fun _ =>
  (PanicsW.lift (panics_sections bd o)).bind fun _ => (PanicsW.forWr (panicsW_section h) _).bind fun _ =>
  (PanicsW.lift (panics_symtab bd o)).bind fun _ => (panicsW_symtab h _).bind fun _ =>
  (panicsW_data bd o).bind fun _ => (PanicsW.lift (panics_table o)).bind fun _ =>
  (PanicsW.lift (panics_nlistsGo _ _ _ _ 0)).bind fun _ => (PanicsW.lift (panics_relocs _ _ _)).bind fun _ =>
  (PanicsW.forWr (panicsW_reloc h) _).bind fun _ => (PanicsW.forWr (panicsW_nlist h) _).bind fun _ => .emit _

/-- The object writer returns or panics. -/
theorem writeInto_ends (bd : Build) (h : Endian) (o : Object) :
    (Obj.writeInto bd h o).res = .ok () ∨ (Obj.writeInto bd h o).res = .error .panic := by
  cases hr : (Obj.writeInto bd h o).res with
  | ok u => exact .inl rfl
  | error e => rw [panicsW_writeInto bd h o e hr]; exact .inr rfl

end AT
