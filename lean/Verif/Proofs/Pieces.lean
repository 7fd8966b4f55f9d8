import Verif.Spec.Calls
import Verif.Proofs.MacIo
import Verif.Proofs.Utf8
/-!
# The pieces in which an object is written
-/

namespace AT.Obj
open AT.Mac AT.AsmSpec

/-- If the writer succeeds, the pieces it hands over have these sizes, and what it returns satisfies `P`. -/
structure Gives {α : Type} (w : Wr α) (l : List Nat) (P : α → Prop) : Prop where
  out : ∀ a, w.res = .ok a → (w.chunks.filter (· ≠ [])).map List.length = l ∧ P a

theorem Gives.cast {α : Type} {w : Wr α} {l m : List Nat} {P : α → Prop} (h : Gives w l P) (e : l = m) :
    Gives w m P := e ▸ h

theorem Gives.bind {α β : Type} {w : Wr α} {f : α → Wr β} {l m : List Nat} {P : α → Prop} {Q : β → Prop}
    (hw : Gives w l P) (hf : ∀ a, P a → Gives (f a) m Q) : Gives (w >>= f) (l ++ m) Q := by
  refine ⟨fun b hb => ?_⟩
  simp only [Bind.bind] at hb ⊢
  cases hr : w.res with
  | error e => rw [hr] at hb; cases hb
  | ok a =>
    rw [hr] at hb
    obtain ⟨h1, h2⟩ := hw.out a hr
    obtain ⟨h3, h4⟩ := (hf a h2).out b hb
    exact ⟨by simp only [List.filter_append, List.map_append]; rw [h1, h3], h4⟩

theorem Gives.lift {α : Type} {r : Res α} {P : α → Prop} (h : ∀ a, r = .ok a → P a) : Gives (Wr.lift r) [] P :=
  ⟨fun a ha => ⟨rfl, h a ha⟩⟩

theorem Gives.skip {α β : Type} {r : Res α} {f : α → Wr β} {m : List Nat} {P : α → Prop} {Q : β → Prop}
    (h : ∀ a, r = .ok a → P a) (hf : ∀ a, P a → Gives (f a) m Q) : Gives (Wr.lift r >>= f) m Q :=
  Gives.bind (l := []) (Gives.lift h) hf

theorem Gives.emit (b : Bytes) : Gives (AT.emit b) ([b.length].filter (· ≠ 0)) (fun _ => True) := by
  refine ⟨fun a _ => ⟨?_, trivial⟩⟩
  cases b <;> rfl

theorem Gives.emit' {b : Bytes} {n : Nat} (hb : b.length = n + 1) : Gives (AT.emit b) [n + 1] (fun _ => True) := by
  have := Gives.emit b
  rw [hb] at this
  exact this

theorem Gives.forWr {α : Type} {f : α → Wr Unit} {l : List Nat} (xs : List α)
    (h : ∀ x ∈ xs, Gives (f x) l (fun _ => True)) :
    Gives (AT.forWr f xs) (xs.flatMap fun _ => l) (fun _ => True) := by
  induction xs with
  | nil => exact ⟨fun _ _ => ⟨rfl, trivial⟩⟩
  | cons x xs ih =>
    rw [List.flatMap_cons]
    exact Gives.bind (h x (by simp)) fun _ _ => ih fun y hy => h y (by simp [hy])

theorem gives_u8 (n : UInt8) : Gives (writeU8 n) [1] (fun _ => True) := Gives.emit' rfl
theorem gives_u16 (h : Endian) (n : UInt16) : Gives (writeU16 h n) [2] (fun _ => True) :=
  Gives.emit' (length_intBytes ..)
theorem gives_u32 (h : Endian) (n : UInt32) : Gives (writeU32 h n) [4] (fun _ => True) :=
  Gives.emit' (length_intBytes ..)
theorem gives_i32 (h : Endian) (n : Int32) : Gives (writeI32 h n) [4] (fun _ => True) :=
  Gives.emit' (length_intBytes ..)
theorem gives_u64 (h : Endian) (n : UInt64) : Gives (writeU64 h n) [8] (fun _ => True) :=
  Gives.emit' (length_intBytes ..)

theorem rassert_ok {p : Prop} [Decidable p] {u : Unit} (h : rassert (decide p) = .ok u) : p := by
  unfold rassert at h
  split at h
  · rename_i hp; exact of_decide_eq_true hp
  · cases h

theorem gives_str (s : Str) : Gives (writeFixedStr s 16) [16] (fun _ => True) := by
  refine Gives.bind (l := []) (P := fun _ => strIsAscii s = true) (Gives.lift fun a ha => ?_) fun _ ha => ?_
  · unfold rassert at ha; split at ha
    · assumption
    · cases ha
  refine Gives.bind (l := []) (P := fun _ => utf8Len s ≤ 16) (Gives.lift fun a ha => rassert_ok ha) fun _ hl => ?_
  rw [utf8Len_ascii s ha] at hl
  exact Gives.emit' (by simp; omega)

theorem gives_header (h : Endian) (x : Header64) :
    Gives (x.writeInto h) [4, 4, 4, 4, 4, 4, 4, 4] (fun _ => True) :=
  Gives.bind (gives_u32 ..) fun _ _ => Gives.bind (gives_i32 ..) fun _ _ => Gives.bind (gives_i32 ..) fun _ _ =>
  Gives.bind (gives_u32 ..) fun _ _ => Gives.bind (gives_u32 ..) fun _ _ => Gives.bind (gives_u32 ..) fun _ _ =>
  Gives.bind (gives_u32 ..) fun _ _ => gives_u32 ..

theorem gives_segment (h : Endian) (x : SegmentCommand64) :
    Gives (x.writeInto h) [4, 4, 16, 8, 8, 8, 8, 4, 4, 4, 4] (fun _ => True) :=
  Gives.bind (gives_u32 ..) fun _ _ => Gives.bind (gives_u32 ..) fun _ _ => Gives.bind (gives_str ..) fun _ _ =>
  Gives.bind (gives_u64 ..) fun _ _ => Gives.bind (gives_u64 ..) fun _ _ => Gives.bind (gives_u64 ..) fun _ _ =>
  Gives.bind (gives_u64 ..) fun _ _ => Gives.bind (gives_i32 ..) fun _ _ => Gives.bind (gives_i32 ..) fun _ _ =>
  Gives.bind (gives_u32 ..) fun _ _ => gives_u32 ..

theorem gives_section (h : Endian) (x : Section64) :
    Gives (x.writeInto h) [16, 16, 8, 8, 4, 4, 4, 4, 4, 4, 4, 4] (fun _ => True) :=
  Gives.bind (gives_str ..) fun _ _ => Gives.bind (gives_str ..) fun _ _ => Gives.bind (gives_u64 ..) fun _ _ =>
  Gives.bind (gives_u64 ..) fun _ _ => Gives.bind (gives_u32 ..) fun _ _ => Gives.bind (gives_u32 ..) fun _ _ =>
  Gives.bind (gives_u32 ..) fun _ _ => Gives.bind (gives_u32 ..) fun _ _ => Gives.bind (gives_u32 ..) fun _ _ =>
  Gives.bind (gives_u32 ..) fun _ _ => Gives.bind (gives_u32 ..) fun _ _ => gives_u32 ..

theorem gives_symtab (h : Endian) (x : SymtabCommand) :
    Gives (x.writeInto h) [4, 4, 4, 4, 4, 4] (fun _ => True) :=
  Gives.bind (gives_u32 ..) fun _ _ => Gives.bind (gives_u32 ..) fun _ _ => Gives.bind (gives_u32 ..) fun _ _ =>
  Gives.bind (gives_u32 ..) fun _ _ => Gives.bind (gives_u32 ..) fun _ _ => gives_u32 ..

theorem gives_nlist (h : Endian) (x : NList64) : Gives (x.writeInto h) [4, 1, 1, 2, 8] (fun _ => True) :=
  Gives.bind (gives_u32 ..) fun _ _ => Gives.bind (gives_u8 ..) fun _ _ => Gives.bind (gives_u8 ..) fun _ _ =>
  Gives.bind (gives_u16 ..) fun _ _ => gives_u64 ..

theorem gives_reloc (h : Endian) (x : RelocationInfo) : Gives (x.writeInto h) [4, 4] (fun _ => True) :=
  Gives.bind (gives_i32 ..) fun _ _ => gives_u32 ..

theorem addU32_ok {bd : Build} {a b c : UInt32} (h : addU32 bd a b = .ok c) : c = a + b := by
  unfold addU32 at h; split at h
  · cases h; rfl
  · cases h

theorem gives_data (bd : Build) (ss : List SectionRef) : ∀ n : UInt32, Gives (writeSectionDataGo bd n ss)
    ((ss.map fun s => s.fileData.length).filter (· ≠ 0))
    (fun m => m.toNat % 8 = (n.toNat + (ss.map fun s => s.fileData.length).sum) % 8) := by
  induction ss with
  | nil => exact fun n => ⟨fun a ha => by cases ha; exact ⟨rfl, by simp⟩⟩
  | cons s ss ih =>
    intro n
    have e : ((s :: ss).map fun s => s.fileData.length).filter (· ≠ 0) =
        [s.fileData.length].filter (· ≠ 0) ++ ([] ++ (ss.map fun s => s.fileData.length).filter (· ≠ 0)) := by
      rw [List.map_cons, ← List.singleton_append, List.filter_append]; rfl
    rw [e]
    refine Gives.bind (Gives.emit _) fun _ _ => Gives.bind (P := fun m => m = n + s.fileSize)
      (Gives.lift fun a ha => addU32_ok ha) fun m hm => ?_
    refine ⟨fun a ha => ?_⟩
    obtain ⟨h1, h2⟩ := (ih m).out a ha
    refine ⟨h1, ?_⟩
    subst hm
    rw [h2, List.map_cons, List.sum_cons]
    simp only [SectionRef.fileSize, UInt32.toNat_add, UInt32.toNat_ofNat']
    omega

theorem padding8 {bd : Build} {n p : UInt32} (h : paddingU32 bd n 8 = .ok p) : p.toNat = (8 - n.toNat % 8) % 8 := by
  unfold paddingU32 alignedU32 at h
  have h8 : (8 : UInt32).toNat = 8 := rfl
  have hq : (if n % 8 > 0 then (1 : UInt32) else 0).toNat = if n.toNat % 8 > 0 then 1 else 0 := by
    have : n % 8 > 0 ↔ n.toNat % 8 > 0 := by
      rw [gt_iff_lt, UInt32.lt_iff_toNat_lt, UInt32.toNat_mod]; rfl
    by_cases hc : n % 8 > 0
    · rw [if_pos hc, if_pos (this.1 hc)]; rfl
    · rw [if_neg hc, if_neg fun h => hc (this.2 h)]; rfl
  generalize (if n % 8 > 0 then (1 : UInt32) else 0) = q at h hq
  have hn := n.toNat_lt
  simp only [bind, Except.bind] at h
  repeat' split at h
  all_goals first | cases h; done | skip
  rename_i _ a ha
  rw [show rassert ((8 : UInt32) != 0) = .ok () from rfl] at ha
  simp only at ha
  split at ha
  · cases ha
  rename_i _ b hb
  have e1 := addU32_ok hb
  have e2 : a = b * 8 := by
    unfold mulU32 at ha; split at ha
    · cases ha; rfl
    · cases ha
  have e3 : p = a - n := by
    unfold subU32 at h; split at h
    · cases h; rfl
    · cases h
  subst e3 e2 e1
  simp only [UInt32.toNat_sub, UInt32.toNat_mul, UInt32.toNat_add, UInt32.toNat_div, h8, hq]
  split <;> omega

theorem gives_sections (bd : Build) (o : Object) : Gives (writeSectionDataInto bd o)
    ((o.sections.iter.map fun s => s.fileData.length).filter (· ≠ 0) ++
      [(8 - (o.sections.iter.map fun s => s.fileData.length).sum % 8) % 8].filter (· ≠ 0)) (fun _ => True) := by
  refine Gives.bind (gives_data bd _ 0) fun m hm => ?_
  refine Gives.bind (l := []) (P := fun p : UInt32 => p.toNat = (8 - m.toNat % 8) % 8) (Gives.lift fun p hp => padding8 hp) fun p hp => ?_
  refine Gives.bind (l := []) (P := fun _ => True) (Gives.lift fun _ _ => trivial) fun _ _ => ?_
  have := Gives.emit (List.replicate p.toNat 0)
  have e : (8 - m.toNat % 8) % 8 = (8 - (o.sections.iter.map fun s => s.fileData.length).sum % 8) % 8 := by
    rw [hm]; simp
  rw [List.length_replicate, hp, e] at this
  rw [hp, e]
  exact this

theorem mapM_length {α β : Type} {f : α → Res β} : ∀ {l : List α} {r : List β}, l.mapM f = .ok r → r.length = l.length
  | [], r, h => by cases h; rfl
  | x :: xs, r, h => by
    rw [List.mapM_cons] at h
    cases hx : f x with
    | error e => rw [hx] at h; cases h
    | ok y =>
      rw [hx] at h
      cases hxs : xs.mapM f with
      | error e => simp only [bind, Except.bind] at h; rw [hxs] at h; cases h
      | ok ys =>
        simp only [bind, Except.bind] at h; rw [hxs] at h; cases h
        simp [mapM_length hxs]

theorem sections_length {bd : Build} (ss : List SectionRef) : ∀ {a : UInt64} {b c : UInt32} {r : List Section64},
    genSection64sGo bd a b c ss = .ok r → r.length = ss.length := by
  induction ss with
  | nil => intro a b c r h; cases h; rfl
  | cons s ss ih =>
    intro a b c r h
    simp only [genSection64sGo, bind, Except.bind] at h
    repeat' split at h
    all_goals first | cases h; done | skip
    rename_i l hl
    cases h
    simp [ih hl]

theorem nlist_length {bd : Build} {secs : List Section64} {stab : StringTable} (ss : List SectionRef) :
    ∀ {i : Nat} {r : List NList64}, genNList64sGo bd secs stab i ss = .ok r →
      r.length = (ss.flatMap SectionRef.symbols).length := by
  induction ss with
  | nil => intro i r h; cases h; rfl
  | cons s ss ih =>
    intro i r h
    simp only [genNList64sGo, bind, Except.bind] at h
    split at h
    · cases h
    rename_i l hl
    split at h
    · cases h
    rename_i l' hl'
    cases h
    simp [mapM_length hl, ih hl']

theorem table_length (l : List Symbol) : ∀ {t r : StringTable},
    l.foldlM (fun t s => t.pushWithNull s.name) t = Except.ok (ε := Stop) r →
      r.data.length = t.data.length + (l.map fun s => utf8Len s.name + 1).sum := by
  induction l with
  | nil => intro t r h; cases h; rfl
  | cons s l ih =>
    intro t r h
    rw [List.foldlM_cons] at h
    cases hp : t.pushWithNull s.name with
    | error e => rw [hp] at h; cases h
    | ok t' =>
      rw [hp] at h
      rw [ih h]
      unfold StringTable.pushWithNull rassert at hp
      split at hp
      · rename_i ha
        cases hp
        rw [List.map_cons, List.sum_cons, utf8Len_ascii s.name ha]
        simp; omega
      · cases hp

theorem flatMap_const {α β γ : Type} {l : List α} {m : List β} (h : l.length = m.length) (x : List γ) :
    (l.flatMap fun _ => x) = m.flatMap fun _ => x := by
  induction l generalizing m with
  | nil => cases m <;> first | rfl | cases h
  | cons a l ih =>
    cases m with
    | nil => cases h
    | cons b m => rw [List.flatMap_cons, List.flatMap_cons, ih (by simpa using h)]

theorem gives_object (bd : Build) (h : Endian) (o : Object) :
    Gives (writeInto bd h o) (pieceSizes o) (fun _ => True) := by
  simp only [pieceSizes, List.append_assoc]
  · refine Gives.skip (P := fun _ => True) (fun _ _ => trivial) fun _ _ => ?_
    refine Gives.bind (gives_header ..) fun _ _ => ?_
    refine Gives.skip (P := fun _ => True) (fun _ _ => trivial) fun _ _ => ?_
    refine Gives.bind (gives_segment ..) fun _ _ => ?_
    refine Gives.skip (P := fun l : List Section64 => l.length = o.sections.iter.length)
      (fun l hl => ?_) fun secs hsecs => ?_
    · unfold genSection64s at hl
      simp only [bind, Except.bind] at hl
      repeat' split at hl
      all_goals first | cases hl; done | exact sections_length _ hl
    refine Gives.bind (P := fun _ => True) (l := o.sections.iter.flatMap (fun _ => [16, 16, 8, 8, 4, 4, 4, 4, 4, 4, 4, 4]))
      (by rw [← flatMap_const hsecs]; exact Gives.forWr _ fun x _ => gives_section h x) fun _ _ => ?_
    refine Gives.skip (P := fun _ => True) (fun _ _ => trivial) fun _ _ => ?_
    refine Gives.bind (gives_symtab ..) fun _ _ => ?_
    rw [← List.append_assoc (List.filter _ _)]
    refine Gives.bind (gives_sections bd o) fun _ _ => ?_
    refine Gives.skip (P := fun t : StringTable => t.data.length =
      1 + ((o.sections.iter.flatMap SectionRef.symbols).map fun s => utf8Len s.name + 1).sum)
      (fun t ht => table_length _ ht) fun t ht => ?_
    refine Gives.skip (P := fun l : List NList64 => l.length = (o.sections.iter.flatMap SectionRef.symbols).length)
      (fun l hl => nlist_length _ hl) fun syms hsyms => ?_
    refine Gives.skip (P := fun l : List RelocationInfo => l.length = (o.sections.iter.flatMap SectionRef.relocs).length)
      (fun l hl => mapM_length hl) fun rels hrels => ?_
    refine Gives.bind (P := fun _ => True) (l := (o.sections.iter.flatMap SectionRef.relocs).flatMap (fun _ => [4, 4]))
      (by rw [← flatMap_const hrels]; exact Gives.forWr _ fun x _ => gives_reloc h x) fun _ _ => ?_
    refine Gives.bind (P := fun _ => True) (l := (o.sections.iter.flatMap SectionRef.symbols).flatMap (fun _ => [4, 1, 1, 2, 8]))
      (by rw [← flatMap_const hsyms]; exact Gives.forWr _ fun x _ => gives_nlist h x) fun _ _ => ?_
    rw [Nat.add_comm 1] at ht ⊢
    exact Gives.emit' ht

end AT.Obj
