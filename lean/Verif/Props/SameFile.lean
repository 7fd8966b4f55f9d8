import Verif.Spec.SameFile
import Verif.Props.ObjRead
import Verif.Props.ObjFile
import Verif.Props.Layout
/-!
# When two sources give the same file (C99)
-/

namespace AT.Props
open AT.Asm AT.AsmSpec AT.X64 AT.Obj AT.Mac AT.MachO AT.ObjSpec

theorem fileOf_congr {h : Endian} {o o' : Object} {f : Bytes} (he : parts o = parts o') (hF : ObjSpec.FileOf h o f) :
    ObjSpec.FileOf h o' f := by
  have e1 : symNames o' = symNames o := by unfold symNames; rw [he]
  have e2 : allRelocs o' = allRelocs o := by unfold allRelocs; rw [he]
  refine ⟨?_, ?_, ?_, ?_, ?_, ?_, ?_, ?_, ?_, ?_, ?_⟩ <;> rw [← he]
  · exact hF.length
  · exact hF.header
  · exact hF.segment
  · exact hF.sections
  · exact hF.symtab
  · exact hF.contents
  · exact hF.padding
  · rw [e1, e2]; exact hF.relocs
  · rw [e1]; exact hF.symbols
  · exact hF.nul
  · rw [e1]; exact hF.strings

theorem magic_order {e e' : Endian} {b : Bytes} (hl : b.length = 4) (h : numOf e b = 0xfeedfacf)
    (h' : numOf e' b = 0xfeedfacf) : e = e' := by
  match b, hl with
  | [w, x, y, z], _ =>
    have := w.toNat_lt
    have := x.toNat_lt
    have := y.toNat_lt
    have := z.toNat_lt
    cases e <;> cases e' <;> simp [numOf, beNat] at h h' ⊢ <;> omega

/-- The first four bytes tell the byte order. -/
theorem host_of {h h' : Endian} {o o' : Object} {f : Bytes} (hF : ObjSpec.FileOf h o f) (hF' : ObjSpec.FileOf h' o' f) :
    h = h' := by
  have h1 : numAt h f 0 4 = some 0xfeedfacf := hF.header _ (.head _)
  have h2 : numAt h' f 0 4 = some 0xfeedfacf := hF'.header _ (.head _)
  unfold numAt at h1 h2
  cases hb : bytesAt f 0 4 with
  | none => rw [hb] at h1; cases h1
  | some b =>
    rw [hb] at h1 h2
    simp only [Option.map_some, Option.some.injEq] at h1 h2
    refine magic_order ?_ h1 h2
    unfold bytesAt at hb
    split at hb
    · cases hb
      simp only [List.length_take, List.length_drop]
      omega
    · cases hb

theorem map_back {α β : Type} {f g : α → β} (k : β → α) {l m : List α} (hf : ∀ a ∈ l, k (f a) = a)
    (hg : ∀ a ∈ m, k (g a) = a) (he : l.map f = m.map g) : l = m := by
  have h := congrArg (List.map k) he
  rw [List.map_map, List.map_map] at h
  have h1 : l.map (k ∘ f) = l := by
    conv => rhs; rw [← List.map_id l]
    exact List.map_congr_left hf
  have h2 : m.map (k ∘ g) = m := by
    conv => rhs; rw [← List.map_id m]
    exact List.map_congr_left hg
  rw [h1, h2] at h
  exact h

/-- The part of section `x`, found by its name. -/
theorem find_part (ls : List Line) {x : Section} (hx : x ≠ .bss) :
    ((stored ls).map (partOf ls)).find? (·.sectname = fileName x) =
      if content ls x ls.length = [] then none else some (partOf ls x) := by
  unfold stored
  by_cases e1 : content ls .text ls.length = [] <;> by_cases e2 : content ls .data ls.length = [] <;>
    cases x <;> simp [e1, e2, partOf, fileName] at hx ⊢

theorem off_lt {ls : List Line} (ok : Acceptable ls) {x : Section} (hx : x ≠ .bss) {p : Str × Nat}
    (hp : p ∈ labels ls x) : p.2 < 2 ^ 32 := by
  have h1 := mem_labels_le hp
  have h2 := ok.size
  cases x with
  | text => omega
  | data => omega
  | bss => exact absurd rfl hx

/-- The name and the place that a symbol tells. -/
def symbolTells : Symbol → Str × Nat
  | .ref n a _ => (n, a.toNat)
  | .abs n _ _ => (n, 0)
  | .undef n => (n, 0)

theorem symbolTells_ref {n : Str} {k : Nat} {e : Bool} (hk : k < 2 ^ 32) :
    symbolTells (.ref n (UInt64.ofNat k) e) = (n, k) := by
  show (n, (UInt64.ofNat k).toNat) = (n, k)
  rw [UInt64.toNat_ofNat', Nat.mod_eq_of_lt (by omega)]

theorem rels_refs {ls : List Line} (ok : Acceptable ls) (x : Section) :
    refs ls x = (relsOf ls x).map fun r => (r.addr.toInt.toNat, r.symbol, r.len) := by
  unfold refs relsOf
  rw [List.map_map]
  apply List.map_congr_left
  intro p hp
  have := ok.small.relocs x p hp
  simp only [Function.comp_apply, Prod.mk.injEq, and_true]
  rw [Int32.toInt_ofNat_of_lt (by omega)]
  rfl

theorem refs_rels {ls : List Line} (hr : RelocsOk ls) (x : Section) :
    relsOf ls x = (refs ls x).map fun t => ⟨Int32.ofNat t.1, t.2.1, false, t.2.2⟩ := by
  unfold refs relsOf
  rw [List.map_map]
  apply List.map_congr_left
  intro p hp
  simp only [Function.comp_apply, (reloc_ok hr hp).1]

/-- The same sections are written exactly if the sources say the same. -/
theorem parts_iff {ls ms : List Line} {o o' : Object} (ho : ObjOf ls o) (ho' : ObjOf ms o') (ok : Acceptable ls)
    (ok' : Acceptable ms) (hr : RelocsOk ls) (hr' : RelocsOk ms) : parts o = parts o' ↔ SaySame ls ms := by
  rw [ho.partsEq, ho'.partsEq]
  have hbss : content ls .bss ls.length = content ms .bss ms.length := (ho.bytes .bss).symm.trans (ho'.bytes .bss)
  have hempty : content ls .bss ls.length = [] := (ho.bytes .bss).symm
  constructor
  · intro he
    have hf : ∀ x, x ≠ .bss → (if content ls x ls.length = [] then none else some (partOf ls x)) =
        if content ms x ms.length = [] then none else some (partOf ms x) := by
      intro x hx
      rw [← find_part ls hx, ← find_part ms hx, he]
    have hpart : ∀ x, content ls x ls.length ≠ [] → x ≠ .bss ∧ partOf ls x = partOf ms x := by
      intro x hx
      have hb : x ≠ .bss := by
        intro e
        subst e
        exact hx hempty
      have := hf x hb
      rw [if_neg hx] at this
      split at this
      · cases this
      · exact ⟨hb, Option.some.inj this⟩
    have hlab : ∀ x, content ls x ls.length ≠ [] → labels ls x = labels ms x := by
      intro x hx
      obtain ⟨hb, h1⟩ := hpart x hx
      have h2 : finalSyms ls x = finalSyms ms x := congrArg Part.symbols h1
      exact map_back symbolTells (fun p hp => symbolTells_ref (off_lt ok hb hp))
        (fun p hp => symbolTells_ref (off_lt ok' hb hp)) h2
    refine ⟨?_, hlab, ?_, ?_⟩
    · intro x
      by_cases hx : content ls x ls.length = []
      · by_cases hb : x = .bss
        · subst hb; exact hbss
        · have := hf x hb
          rw [if_pos hx] at this
          split at this
          · next h => rw [hx, h]
          · cases this
      · exact congrArg Part.bytes (hpart x hx).2
    · intro x hx
      have h2 : relsOf ls x = relsOf ms x := congrArg Part.relocs (hpart x hx).2
      rw [rels_refs ok, rels_refs ok', h2]
    · intro x hx p hp
      have h2 : finalSyms ls x = finalSyms ms x := congrArg Part.symbols (hpart x hx).2
      unfold finalSyms at h2
      rw [← hlab x hx] at h2
      have h3 := List.map_inj_left.1 h2 p hp
      simp only [Symbol.ref.injEq, true_and, decide_eq_decide] at h3
      exact h3
  · intro hs
    have hst : stored ls = stored ms := by
      unfold stored
      apply List.filter_congr
      intro x _
      rw [hs.stored x]
    rw [← hst]
    apply List.map_congr_left
    intro x hx
    have hne : content ls x ls.length ≠ [] := by
      unfold stored at hx
      simpa using (List.mem_filter.1 hx).2
    unfold partOf
    rw [refs_rels hr, refs_rels hr', hs.refs x hne, ← hs.stored x]
    congr 1
    unfold finalSyms
    rw [← hs.labels x hne]
    apply List.map_congr_left
    intro p hp
    simp only [hs.globals x hne p hp]

theorem said_parts {ls : List Line} {o : Object} (ho : ObjOf ls o) : (saidOf o).1 = parts o := by
  show (parts o).map _ = parts o
  rw [ho.partsEq, List.map_map]
  apply List.map_congr_left
  intro x _
  have : (finalSyms ls x).filter isDefined = finalSyms ls x := by
    apply List.filter_eq_self.2
    intro s hs
    obtain ⟨p, _, rfl⟩ := List.mem_map.1 hs
    rfl
  show Part.mk _ _ _ _ _ ((finalSyms ls x).filter isDefined) _ = _
  rw [this]
  rfl

/-- C99: the runs on two acceptable sources succeed, and they leave the same file exactly if they run
on hosts of the same byte order and the sources say the same. -/
theorem C99_same_file (bd bd' : Build) (h h' : Endian) (chunking chunking' : Bytes → List Bytes) (fs fs' : FS)
    (args args' : List Str) (out inp out' inp' : Str) (src src' : Bytes) (ls ms : List Line)
    (hcfg : Config.init args = .ok ⟨out, inp⟩) (hcfg' : Config.init args' = .ok ⟨out', inp'⟩)
    (hd : fs.node inp ≠ fs.node out) (hd' : fs'.node inp' ≠ fs'.node out')
    (hs : fs.content (fs.node inp) = some src) (hs' : fs'.content (fs'.node inp') = some src')
    (hrd : fs.canRead (fs.node inp) = true) (hrd' : fs'.canRead (fs'.node inp') = true)
    (hwr : fs.canWrite (fs.node out) = true) (hwr' : fs'.canWrite (fs'.node out') = true)
    (hch : (chunking src).flatten = src ∧ ∀ c ∈ chunking src, c ≠ [])
    (hch' : (chunking' src').flatten = src' ∧ ∀ c ∈ chunking' src', c ≠ [])
    (hp : Program bd src ls) (hp' : Program bd' src' ms) (ok : Acceptable ls) (ok' : Acceptable ms) :
    (main bd h chunking fs args).2 = .ok () ∧ (main bd' h' chunking' fs' args').2 = .ok () ∧
    ((main bd h chunking fs args).1.content (fs.node out) =
      (main bd' h' chunking' fs' args').1.content (fs'.node out') ↔ h = h' ∧ SaySame ls ms) := by
  obtain ⟨ss, hc, hr⟩ := hp
  obtain ⟨ss', hc', hr'⟩ := hp'
  rw [← hch.1] at hc
  rw [← hch'.1] at hc'
  obtain ⟨a, ha, ho⟩ := assembles hch.2 hc hr ok
  obtain ⟨a', ha', ho'⟩ := assembles hch'.2 hc' hr' ok'
  have q := relocsOk_of hr
  have q' := relocsOk_of hr'
  obtain ⟨h1, h2⟩ := (C52_result bd h chunking fs args out inp src hcfg hd hs hrd hwr).2 a ha
  obtain ⟨h1', h2'⟩ := (C52_result bd' h' chunking' fs' args' out' inp' src' hcfg' hd' hs' hrd' hwr').2 a' ha'
  have h24 : (symNames a.obj).length < 2 ^ 24 := by rw [ho.names, List.length_map]; exact ok.symbols
  have h24' : (symNames a'.obj).length < 2 ^ 24 := by rw [ho'.names, List.length_map]; exact ok'.symbols
  have F := C76_file bd h a.obj (ho.fits ok.size) (ho.nulFree ok) (ho.writable ok q) h24
  have F' := C76_file bd' h' a'.obj (ho'.fits ok'.size) (ho'.nulFree ok') (ho'.writable ok' q') h24'
  have r : (a.writeInto bd h).res = .ok () :=
    (writeInto_writes bd h (ho.fits ok.size) (ho.writable ok q)).res
  have r' : (a'.writeInto bd' h').res = .ok () :=
    (writeInto_writes bd' h' (ho'.fits ok'.size) (ho'.writable ok' q')).res
  have G : ObjSpec.FileOf h a.obj (a.writeInto bd h).out := (F _).2 ⟨r, rfl⟩
  have G' : ObjSpec.FileOf h' a'.obj (a'.writeInto bd' h').out := (F' _).2 ⟨r', rfl⟩
  refine ⟨h1.trans r, h1'.trans r', ?_⟩
  rw [h2, h2', Option.some.injEq, ← parts_iff ho ho' ok ok' q q']
  constructor
  · intro he
    rw [← he] at G'
    refine ⟨host_of G G', ?_⟩
    have h3 := C70_recover bd .debug h .little a.obj (ho.fits ok.size) (ho.nulFree ok) (ho.writable ok q) h24
    have h4 := C70_recover bd' .debug h' .little a'.obj (ho'.fits ok'.size) (ho'.nulFree ok') (ho'.writable ok' q') h24'
    have he' : (writeInto bd h a.obj).out = (writeInto bd' h' a'.obj).out := he
    rw [he', h4] at h3
    have h5 := congrArg Prod.fst (Except.ok.inj h3)
    rw [said_parts ho', said_parts ho] at h5
    exact h5.symm
  · rintro ⟨rfl, hpe⟩
    exact ((F' _).1 (fileOf_congr hpe G)).2

/-- C99: sources with the same lines in every section and the same declarations say the same. -/
theorem C99_same_parts (ls ms : List Line) (h : SameParts ls ms) : SaySame ls ms where
  stored x := h.content x
  labels x _ := h.labels x
  refs x _ := by unfold refs; rw [h.relocations x]
  globals _ _ p _ := h.globals p.1

/-! ## Examples -/

/-- `layoutA` said differently: `ret` as the byte it is, the number spelled in hexadecimal, a label in
`.bss` where nothing is stored, and a declaration that concerns no label. -/
def saidB : List Str :=
  [str% "section .bss\n", str% "buf:\n", str% "section .data\n", str% "v dq 0x7\n", str% "section .text\n",
    str% "f:\n", str% "mov rax, v\n", str% "db 0xC3\n", str% "section .data\n", str% "db 1\n",
    str% "global f\n", str% "global other\n"]

/-- `layoutA` with the label one instruction later. -/
def saidC : List Str :=
  [str% "global f\n", str% "mov rax, v\n", str% "f:\n", str% "ret\n", str% "section .data\n", str% "v dq 7\n",
    str% "db 1\n"]

theorem saidB_program : Program .debug (utf8 saidB.flatten) (readAs saidB) :=
  ⟨saidB, ⟨by decide +kernel, by decide +kernel, by decide +kernel, by decide +kernel⟩, by decide +kernel⟩

theorem saidC_program : Program .debug (utf8 saidC.flatten) (readAs saidC) :=
  ⟨saidC, ⟨by decide +kernel, by decide +kernel, by decide +kernel, by decide +kernel⟩, by decide +kernel⟩

theorem layoutA_acceptable : Acceptable (readAs layoutA) where
  small := ⟨by decide, fun x p hp => by revert p; cases x <;> decide +kernel⟩
  noBss := by rw [noBss_linesIn, show linesIn (readAs layoutA) .bss = [] by decide +kernel]; simp
  ascii := by decide +kernel
  defined x p hp := by revert p; cases x <;> decide +kernel
  symbols := by decide +kernel
  size := by decide +kernel

theorem saidB_acceptable : Acceptable (readAs saidB) where
  small := ⟨by decide, fun x p hp => by revert p; cases x <;> decide +kernel⟩
  noBss := by
    rw [noBss_linesIn, show linesIn (readAs saidB) .bss = [.symbol (str% "buf")] by decide +kernel]
    simp [Stores]
  ascii := by decide +kernel
  defined x p hp := by revert p; cases x <;> decide +kernel
  symbols := by decide +kernel
  size := by decide +kernel

theorem saidC_acceptable : Acceptable (readAs saidC) where
  small := ⟨by decide, fun x p hp => by revert p; cases x <;> decide +kernel⟩
  noBss := by rw [noBss_linesIn, show linesIn (readAs saidC) .bss = [] by decide +kernel]; simp
  ascii := by decide +kernel
  defined x p hp := by revert p; cases x <;> decide +kernel
  symbols := by decide +kernel
  size := by decide +kernel

example : SaySame (readAs layoutA) (readAs saidB) where
  stored x := by cases x <;> decide +kernel
  labels x := by cases x <;> decide +kernel
  refs x := by cases x <;> decide +kernel
  globals x := by cases x <;> decide +kernel

/-- The same lines, section by section, are not needed. -/
example : ¬ SameParts (readAs layoutA) (readAs saidB) := by
  intro h
  have := h.lines .text
  revert this
  decide +kernel

example : ¬ SaySame (readAs layoutA) (readAs saidC) := by
  intro h
  have := h.labels .text (by decide +kernel)
  revert this
  decide +kernel

end AT.Props
