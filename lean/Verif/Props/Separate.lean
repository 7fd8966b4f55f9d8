import Verif.Spec.Separate
import Verif.Props.LinkMany
import Verif.Props.Run
/-!
# A program made of several sources, linked and run (C96)
-/

namespace AT.Props
open AT.Asm AT.AsmSpec AT.X64 AT.Obj AT.Mac AT.MachO AT.ObjSpec
open X86 (State Holds Step Steps Runs Portable RSP)

/-! ## Linking the objects of sources -/

theorem ObjOf.linkable {ls : List Line} {o : Object} (h : ObjOf ls o) (ok : Acceptable ls) (hr : RelocsOk ls) :
    Linkable o :=
  ⟨h.fits ok.size, h.nulFree ok, h.writable ok hr, by rw [h.names, List.length_map]; exact ok.symbols⟩

theorem good_writes {u : Piece} (g : u.Good) {f : Bytes} (h : u.Writes f) :
    ∃ o, ObjOf u.lines o ∧ f = (writeInto u.build u.host o).out := by
  obtain ⟨a, ha, _, rfl⟩ := h
  obtain ⟨a', ha', ho⟩ := assembles g.chunks g.cut g.reads g.ok
  rw [ha] at ha'
  cases ha'
  exact ⟨a.obj, ho, rfl⟩

theorem ownAddress_ref {ls : List Line} {o : Object} (h : ObjOf ls o) (ok : Acceptable ls) (base : Str → Nat) {e : Def}
    (he : e ∈ table ls) :
    ownAddress o base ((stored ls).idxOf e.sect, symOf ls e) = some (base (fileName e.sect) + e.off) := by
  have := off_le he
  have := ok.size
  simp only [ownAddress, symOf]
  rw [h.partsEq, List.getElem?_map, idxOf_stored (mem_table he).1]
  simp only [Option.map_some, partOf]
  rw [UInt64.toNat_ofNat', Nat.mod_eq_of_lt (by omega)]

theorem meaning_own {ls : List Line} {o : Object} (h : ObjOf ls o) (ok : Acceptable ls) (os : List Object)
    (base : Nat → Str → Nat) (i : Nat) (n : Str) : ObjSpec.meaning os base (o, i) n = addressOf ls (base i) n := by
  unfold ObjSpec.meaning addressOf
  rw [h.placedEq, List.find?_map]
  have : ((fun x : Nat × Symbol => decide (x.2.name = n)) ∘ fun e => ((stored ls).idxOf e.sect, symOf ls e)) =
      fun e => decide (e.name = n) := rfl
  rw [this]
  cases hf : (table ls).find? (fun e => decide (e.name = n)) with
  | none => rfl
  | some e => exact ownAddress_ref h ok (base i) (List.mem_of_find?_eq_some hf)

theorem fold_own {ls : List Line} {o : Object} (h : ObjOf ls o) (ok : Acceptable ls) (hr : RelocsOk ls) (os : List Object)
    (base : Nat → Str → Nat) (i : Nat) (x : Section) :
    (relsOf ls x).foldlM (applyOne (ObjSpec.meaning os base (o, i))) (content ls x ls.length) =
      some (linkedTo (valOf ls (base i)) ls x ls.length) := by
  have key : ∀ (ps : List (Nat × LocalReloc)) bs, (∀ p ∈ ps, p ∈ relocations ls x) →
      (ps.map fun p => (⟨Int32.ofNat p.1, p.2.symbol, p.2.pcrel, p.2.len⟩ : Reloc)).foldlM
        (applyOne (ObjSpec.meaning os base (o, i))) bs = ps.foldlM (storeAt (valOf ls (base i))) bs := by
    intro ps
    induction ps with
    | nil => intro bs _; rfl
    | cons p ps ih =>
      intro bs hps
      have hp := hps p (List.mem_cons_self ..)
      have hsmall := ok.small.relocs x p hp
      have hpc := (reloc_ok hr hp).1
      have haddr : (Int32.ofNat p.1).toInt = p.1 := by
        rw [Int32.toInt_ofNat', Int.bmod_eq_of_le] <;> simp only [Int32.size] <;> omega
      have hone : applyOne (ObjSpec.meaning os base (o, i)) bs ⟨Int32.ofNat p.1, p.2.symbol, p.2.pcrel, p.2.len⟩ =
          storeAt (valOf ls (base i)) bs p := by
        unfold applyOne storeAt
        simp only
        rw [if_pos ⟨hpc, by rw [haddr]; omega⟩, haddr, meaning_own h ok, address_defined ok (base i) hp]
        rfl
      rw [List.map_cons, List.foldlM_cons, List.foldlM_cons, hone]
      cases storeAt (valOf ls (base i)) bs p with
      | none => rfl
      | some bs' => exact ih bs' fun q hq => hps q (List.mem_cons_of_mem _ hq)
  unfold relsOf
  rw [key _ _ fun _ h => h]
  have := storeAll hr (valOf ls (base i)) x ls.length []
  rw [List.append_nil, List.append_nil] at this
  exact this

/-- The objects of the sources. -/
def ObjsOf (us : List Piece) (os : List Object) : Prop :=
  os.length = us.length ∧ ∀ (i : Nat) u o, us[i]? = some u → os[i]? = some o → ObjOf u.lines o

theorem exports_names {us : List Piece} {os : List Object} (hg : ∀ u ∈ us, u.Good) (ho : ObjsOf us os)
    (base : Nat → Str → Nat) : (exports os base).map (·.1) = us.flatMap Piece.globals := by
  have key : ∀ (us : List Piece) (os : List Object) (n : Nat), (∀ u ∈ us, u.Good) → ObjsOf us os →
      ((os.zipIdx n).flatMap fun o => (placed (parts o.1)).filterMap fun s =>
        if isExternal s.2 then (ownAddress o.1 (base o.2) s).map (fun a => (s.2.name, a)) else none).map (·.1) =
      us.flatMap Piece.globals := by
    intro us
    induction us with
    | nil =>
      intro os n _ ho
      have : os = [] := List.eq_nil_of_length_eq_zero ho.1
      subst this; rfl
    | cons u us ih =>
      intro os n hg ho
      cases os with
      | nil => have := ho.1; simp at this
      | cons o os =>
        have ho1 := ho.2 0 u o rfl rfl
        rw [List.zipIdx_cons, List.flatMap_cons, List.map_append, List.flatMap_cons,
          ih os (n + 1) (fun u h => hg u (List.mem_cons_of_mem _ h))
            ⟨by simpa using ho.1, fun i u o h1 h2 => ho.2 (i + 1) u o (by simpa using h1) (by simpa using h2)⟩]
        congr 1
        simp only
        rw [ho1.placedEq]
        unfold Piece.globals
        have ok := (hg u (List.mem_cons_self ..)).ok
        have step : ∀ l : List Def, (∀ e ∈ l, e ∈ table u.lines) →
            ((l.map fun e => ((stored u.lines).idxOf e.sect, symOf u.lines e)).filterMap fun s =>
              if isExternal s.2 then (ownAddress o (base n) s).map (fun a => (s.2.name, a)) else none).map (·.1) =
            (l.map (·.name)).filter fun n => decide (Global u.lines n) := by
          intro l
          induction l with
          | nil => intro _; rfl
          | cons e l ih =>
            intro hl
            have he := ownAddress_ref ho1 ok (base n) (hl e (List.mem_cons_self ..))
            have ih := ih fun e h => hl e (List.mem_cons_of_mem _ h)
            rw [List.map_cons, List.map_cons, List.filterMap_cons, List.filter_cons]
            by_cases hgl : Global u.lines e.name
            · have : isExternal (symOf u.lines e) = true := by simp [isExternal, symOf, hgl]
              simp only [this, he, if_true, Option.map_some, List.map_cons, ih, hgl, decide_true]
              rfl
            · have : isExternal (symOf u.lines e) = false := by simp [isExternal, symOf, hgl]
              simp only [this, hgl, decide_false, Bool.false_eq_true, if_false]
              exact ih
        exact step _ fun _ h => h
  exact key us os 0 hg ho

theorem relocsOk_piece {u : Piece} (g : u.Good) : RelocsOk u.lines := relocsOk_of g.reads

/-- The linked sections of a source. -/
def linkedSecs (base : Nat → Str → Nat) (u : Piece) (i : Nat) : List Bytes :=
  (stored u.lines).map fun x => linkedTo (valOf u.lines (base i)) u.lines x u.lines.length

theorem link_pieces {us : List Piece} {os : List Object} (hg : ∀ u ∈ us, u.Good) (ho : ObjsOf us os)
    (base : Nat → Str → Nat) : linkObjects os base =
      if (us.flatMap Piece.globals).Nodup then some (us.zipIdx.map fun u => linkedSecs base u.1 u.2) else none := by
  unfold linkObjects
  rw [exports_names hg ho base]
  split
  · rw [mapM_some_iff]
    refine ⟨by simp [ho.1], fun i x hx => ?_⟩
    rw [List.getElem?_zipIdx] at hx
    obtain ⟨o, hoi, rfl⟩ := Option.map_eq_some_iff.1 hx
    have hlt : i < us.length := by rw [← ho.1]; exact (List.getElem?_eq_some_iff.1 hoi).1
    have hu := List.getElem?_eq_getElem hlt
    have ho1 := ho.2 i _ o hu hoi
    have g := hg _ (List.mem_of_getElem? hu)
    refine ⟨linkedSecs base us[i] i, by rw [List.getElem?_map, List.getElem?_zipIdx, hu]; simp, ?_⟩
    rw [mapM_some_iff]
    simp only
    rw [ho1.partsEq]
    refine ⟨by simp [linkedSecs], fun j p hp => ?_⟩
    rw [List.getElem?_map] at hp
    obtain ⟨x, hxj, rfl⟩ := Option.map_eq_some_iff.1 hp
    refine ⟨linkedTo (valOf us[i].lines (base i)) us[i].lines x us[i].lines.length, ?_, ?_⟩
    · unfold linkedSecs; rw [List.getElem?_map, hxj]; rfl
    · rw [Nat.zero_add]
      exact fold_own ho1 g.ok (relocsOk_piece g) os base i x
  · rfl

/-- Each source with its file. -/
def FilesOfPieces (us : List Piece) (files : List Bytes) : Prop :=
  files.length = us.length ∧ ∀ (i : Nat) u f, us[i]? = some u → files[i]? = some f → u.Writes f

theorem objs_exist {us : List Piece} {files : List Bytes} (hg : ∀ u ∈ us, u.Good) (hf : FilesOfPieces us files) :
    ∃ os, ObjsOf us os ∧ ∀ (i : Nat) u o f, us[i]? = some u → os[i]? = some o → files[i]? = some f →
      f = (writeInto u.build u.host o).out := by
  induction us generalizing files with
  | nil => exact ⟨[], ⟨rfl, by simp⟩, by simp⟩
  | cons u us ih =>
    cases files with
    | nil => have := hf.1; simp at this
    | cons f files =>
      obtain ⟨o, ho, hfo⟩ := good_writes (hg u (List.mem_cons_self ..)) (hf.2 0 u f rfl rfl)
      obtain ⟨os, h1, h2⟩ := ih (fun u h => hg u (List.mem_cons_of_mem _ h)) (files := files)
        ⟨by simpa using hf.1, fun i u f h1 h2 => hf.2 (i + 1) u f (by simpa using h1) (by simpa using h2)⟩
      refine ⟨o :: os, ⟨by simp [h1.1], fun i u' o' hu' ho' => ?_⟩, fun i u' o' f' hu' ho' hf' => ?_⟩
      · cases i with
        | zero => cases hu'; cases ho'; exact ho
        | succ i => exact h1.2 i u' o' (by simpa using hu') (by simpa using ho')
      · cases i with
        | zero => cases hu'; cases ho'; cases hf'; exact hfo
        | succ i => exact h2 i u' o' f' (by simpa using hu') (by simpa using ho') (by simpa using hf')

theorem link_all (bd : Build) (h : Endian) {us : List Piece} {files : List Bytes} (hg : ∀ u ∈ us, u.Good)
    (hf : FilesOfPieces us files) : ∃ xs, files.mapM (readRaw bd h) = .ok xs ∧
      ∀ base : Nat → Str → Nat, linkFiles xs base =
        if (us.flatMap Piece.globals).Nodup then some (us.zipIdx.map fun u => linkedSecs base u.1 u.2) else none := by
  obtain ⟨os, ho, hw⟩ := objs_exist hg hf
  obtain ⟨xs, hx, hl⟩ := C92_link bd h os files (fun o hm => by
      obtain ⟨i, hi⟩ := List.getElem?_of_mem hm
      have hlt : i < us.length := by rw [← ho.1]; exact (List.getElem?_eq_some_iff.1 hi).1
      have hu := List.getElem?_eq_getElem hlt
      have g := hg _ (List.mem_of_getElem? hu)
      exact (ho.2 i _ o hu hi).linkable g.ok (relocsOk_piece g))
    ⟨by rw [hf.1, ho.1], fun i o f h1 h2 => by
      have hlt : i < us.length := by rw [← ho.1]; exact (List.getElem?_eq_some_iff.1 h1).1
      exact ⟨_, _, hw i _ o f (List.getElem?_eq_getElem hlt) h1 h2⟩⟩
  exact ⟨xs, hx, fun base => by rw [hl, link_pieces hg ho base]⟩

/-- C96: sources assembled separately can be linked exactly if no name that one of them declares global
is defined twice; and then each section of each file becomes what it becomes when the file is linked
alone. -/
theorem C96_link (bd : Build) (h : Endian) (us : List Piece) (files : List Bytes) (hg : ∀ u ∈ us, u.Good)
    (hf : FilesOfPieces us files) :
    ∃ xs, files.mapM (readRaw bd h) = .ok xs ∧ ∀ base : Nat → Str → Nat,
      ((∃ out, linkFiles xs base = some out) ↔ (us.flatMap Piece.globals).Nodup) ∧
      ∀ out, linkFiles xs base = some out → out.length = us.length ∧
        ∀ (i : Nat) u f secs, us[i]? = some u → files[i]? = some f → out[i]? = some secs →
          ∃ v rest, view bd u.host f = .ok (v, rest) ∧
            v.sections.map (·.sectname) = (stored u.lines).map fileName ∧ secs.length = v.sections.length ∧
            ∀ (j : Nat) sec bs, v.sections[j]? = some sec → secs[j]? = some bs →
              linkSection u.host f v (base i) sec = some bs := by
  obtain ⟨xs, hx, hl⟩ := link_all bd h hg hf
  refine ⟨xs, hx, fun base => ⟨?_, ?_⟩⟩
  · rw [hl]; split <;> simp_all
  · intro out hout
    rw [hl] at hout
    split at hout
    · cases hout
      refine ⟨by simp, fun i u f secs hu hfi hs => ?_⟩
      rw [List.getElem?_map, List.getElem?_zipIdx, hu] at hs
      simp only [Option.map_some, Option.some.injEq, Nat.zero_add] at hs
      subst hs
      have g := hg u (List.mem_of_getElem? hu)
      obtain ⟨o, ho, rfl⟩ := good_writes g (hf.2 i u f hu hfi)
      obtain ⟨_, v, rest, hv, hfile⟩ := file_of u.build bd u.host ho g.ok (relocsOk_piece g)
      refine ⟨v, rest, hv, hfile.sections, ?_, ?_⟩
      · have := congrArg List.length hfile.sections
        simpa [linkedSecs] using this.symm
      · intro j sec bs hsec hbs
        unfold linkedSecs at hbs
        rw [List.getElem?_map] at hbs
        obtain ⟨x, hx, rfl⟩ := Option.map_eq_some_iff.1 hbs
        exact link_eq hfile (relocsOk_piece g) (base i) hsec hx
    · cases hout

/-! ## Running the sources one after the other -/

theorem disasm_append {a b : Bytes} {is js : List X86.Inst} (h : X86.Disasm a is) (h' : X86.Disasm b js) :
    X86.Disasm (a ++ b) (is ++ js) := by
  induction h with
  | nil => exact h'
  | @cons bs rest i is hd _ ih =>
    obtain ⟨p, rfl, _, _, hp⟩ := X86.decode_local hd
    rw [List.append_assoc]
    exact .cons (hp _) ih

theorem code_linked {u : Piece} (g : u.Good) (base : Nat → Str → Nat) (i : Nat) :
    u.code (linkedSecs base u i) = linkedTo (valOf u.lines (base i)) u.lines .text u.lines.length := by
  have hlen := length_linkedTo (relocsOk_piece g) (valOf u.lines (base i)) .text u.lines.length
  unfold Piece.code linkedSecs
  by_cases ht : content u.lines .text u.lines.length = []
  · rw [ht] at hlen
    rw [List.eq_nil_of_length_eq_zero hlen]
    have : (stored u.lines).head? ≠ some .text := by
      unfold stored
      by_cases e2 : content u.lines .data u.lines.length = [] <;> simp [ht, e2]
    rw [if_neg this]
  · have : ∃ r, stored u.lines = .text :: r := by
      unfold stored
      by_cases e2 : content u.lines .data u.lines.length = [] <;> simp [ht, e2]
    obtain ⟨r, hr⟩ := this
    rw [hr]
    rfl

/-- What C96 needs of a source to run it: no data among the code, constants that can be pushed, and
addresses that fit the instructions that load them. -/
structure Runnable (u : Piece) (base : Str → Nat) : Prop where
  good : u.Good
  pure : PureText u.lines
  pushes : PushesFit u.build u.texts
  addresses : AddressesFit u.lines base

/-- The code of all sources. -/
def allCode (us : List Piece) (base : Nat → Str → Nat) : Bytes :=
  (us.zipIdx.map fun u => linkedTo (valOf u.1.lines (base u.2)) u.1.lines .text u.1.lines.length).flatten

theorem code_rest {base : Nat → Str → Nat} (us : List Piece) (n : Nat)
    (hg : ∀ (i : Nat) u, us[i]? = some u → Runnable u (base (n + i))) :
    ∃ rest : List (List X86.Inst), us.length = rest.length ∧
      (∀ (k : Nat) u js, us[k]? = some u → rest[k]? = some js →
        OneByOne (AsksFor u.build u.texts fun m => (addressOf u.lines (base (n + k)) m).getD 0) (codeLines u.lines 0) js) ∧
      X86.Disasm ((us.zipIdx n).map fun u => linkedTo (valOf u.1.lines (base u.2)) u.1.lines .text u.1.lines.length).flatten
        rest.flatten := by
  induction us generalizing n with
  | nil => exact ⟨[], rfl, by simp, .nil⟩
  | cons u us ih =>
    have r := hg 0 u rfl
    obtain ⟨is, hd, hone⟩ := code_of r.good.reads r.pure r.pushes (valOf u.lines (base n)) (fun p hp => r.addresses.val hp) 0
      (by omega)
    obtain ⟨rest, h1, h2, h3⟩ := ih (n + 1) fun i u h => by
      have := hg (i + 1) u (by simpa using h)
      rwa [show n + (i + 1) = n + 1 + i by omega] at this
    refine ⟨is :: rest, by simp [h1], fun k u' js hu hj => ?_, ?_⟩
    · cases k with
      | zero => cases hu; cases hj; exact hone
      | succ k =>
        have := h2 k u' js (by simpa using hu) (by simpa using hj)
        rwa [show n + 1 + k = n + (k + 1) by omega] at this
    · rw [List.zipIdx_cons, List.map_cons, List.flatten_cons, List.flatten_cons]
      exact disasm_append hd h3

theorem codeStart_take {us : List Piece} {base : Nat → Str → Nat} (hg : ∀ u ∈ us, u.Good) (i n : Nat) :
    (((us.zipIdx n).take i).map fun u => linkedTo (valOf u.1.lines (base u.2)) u.1.lines .text u.1.lines.length).flatten.length =
      ((us.take i).map fun u => (content u.lines .text u.lines.length).length).sum := by
  induction us generalizing i n with
  | nil => simp
  | cons u us ih =>
    cases i with
    | zero => simp
    | succ i =>
      rw [List.zipIdx_cons, List.take_succ_cons, List.take_succ_cons, List.map_cons, List.map_cons, List.flatten_cons,
        List.length_append, List.sum_cons, ih (fun u h => hg u (List.mem_cons_of_mem _ h)),
        length_linkedTo (relocsOk_piece (hg u (List.mem_cons_self ..)))]

theorem asked_code {us : List Piece} {base : Nat → Str → Nat} (hg : ∀ (i : Nat) u, us[i]? = some u → Runnable u (base i))
    {i j : Nat} {u : Piece} (hu : us[i]? = some u) (hj : j ≤ u.lines.length) :
    ∃ is, AskedFrom us base i j is ∧ (∀ x ∈ is, Portable x) ∧
      X86.Disasm ((allCode us base).drop (codeStart us 0 i + (content u.lines .text j).length)) is := by
  have r := hg i u hu
  obtain ⟨first, hd, hone⟩ := code_of r.good.reads r.pure r.pushes (valOf u.lines (base i)) (fun p hp => r.addresses.val hp) j hj
  obtain ⟨rest, h1, h2, h3⟩ := code_rest (base := base) (us.drop (i + 1)) (i + 1) fun k u h => by
    rw [List.getElem?_drop] at h
    exact hg _ u h
  have h2' : ∀ (k : Nat) u' js, us[i + 1 + k]? = some u' → rest[k]? = some js →
      OneByOne (AsksFor u'.build u'.texts fun n => (addressOf u'.lines (base (i + 1 + k)) n).getD 0)
        (codeLines u'.lines 0) js := fun k u' js hk hr => h2 k u' js (by rw [List.getElem?_drop]; exact hk) hr
  refine ⟨first ++ rest.flatten, ⟨u, first, rest, hu, rfl, hone, h1, h2'⟩, ?_, ?_⟩
  · intro x hx
    rcases List.mem_append.1 hx with hx | hx
    · exact OneByOne.portable hone x hx
    · obtain ⟨l, hl, hx⟩ := List.mem_flatten.1 hx
      obtain ⟨k, hk⟩ := List.getElem?_of_mem hl
      have hlt : k < (us.drop (i + 1)).length := by rw [h1]; exact (List.getElem?_eq_some_iff.1 hk).1
      exact OneByOne.portable (h2 k _ l (List.getElem?_eq_getElem hlt) hk) x hx
  · have hall : ∀ u ∈ us, u.Good := fun u h => by
      obtain ⟨k, hk⟩ := List.getElem?_of_mem h
      exact (hg k u hk).good
    have hlt : i < us.length := (List.getElem?_eq_some_iff.1 hu).1
    have hsplit : allCode us base =
        (((us.zipIdx).take i).map fun u => linkedTo (valOf u.1.lines (base u.2)) u.1.lines .text u.1.lines.length).flatten ++
        (linkedTo (valOf u.lines (base i)) u.lines .text u.lines.length ++
          (((us.drop (i + 1)).zipIdx (i + 1)).map fun u =>
            linkedTo (valOf u.1.lines (base u.2)) u.1.lines .text u.1.lines.length).flatten) := by
      unfold allCode
      have e : us.zipIdx = us.zipIdx.take i ++ (u, i) :: (us.drop (i + 1)).zipIdx (i + 1) := by
        have hz : i < us.zipIdx.length := by rw [List.length_zipIdx]; exact hlt
        conv => lhs; rw [← List.take_append_drop i us.zipIdx]
        congr 1
        rw [List.drop_eq_getElem_cons hz]
        congr 1
        · rw [List.getElem_zipIdx]
          rw [List.getElem?_eq_getElem hlt] at hu
          cases hu
          simp
        · apply List.ext_getElem?
          intro k
          rw [List.getElem?_drop, List.getElem?_zipIdx, List.getElem?_zipIdx, List.getElem?_drop, Nat.zero_add]
      rw [e, List.map_append, List.flatten_append, List.map_cons, List.flatten_cons]
      simp only [← e]
    have hlen := codeStart_take (base := base) hall i 0
    have hle : (content u.lines .text j).length ≤ (linkedTo (valOf u.lines (base i)) u.lines .text u.lines.length).length := by
      rw [length_linkedTo (relocsOk_piece r.good)]
      obtain ⟨q, hq⟩ := content_mono u.lines .text j (u.lines.length - j)
      rw [show j + (u.lines.length - j) = u.lines.length by omega] at hq
      rw [hq, List.length_append]; omega
    rw [hsplit, codeStart, Nat.zero_add, ← hlen, List.drop_append, List.drop_of_length_le (by omega), List.nil_append,
      Nat.add_sub_cancel_left, List.drop_append_of_le_length hle]
    exact disasm_append hd h3

/-- C96: put the linked code of the sources, one after the other, in memory, and start the processor at
the place of line `j` of source `i`. It executes the instruction lines of that source from there on and
then those of the following sources, and nothing else, until a `ret` (which returns to the caller) or
the end of the code, as long as the code is not overwritten. -/
theorem C96_run (bd : Build) (h : Endian) (us : List Piece) (files : List Bytes) (base : Nat → Str → Nat) (start : Nat)
    (hg : ∀ (i : Nat) u, us[i]? = some u → Runnable u (base i)) (hf : FilesOfPieces us files)
    (hn : (us.flatMap Piece.globals).Nodup)
    (hbase : ∀ i < us.length, base i (str% "__text") = codeStart us start i) :
    ∃ xs out code, files.mapM (readRaw bd h) = .ok xs ∧ linkFiles xs base = some out ∧
      code = ((us.zip out).map fun p => p.1.code p.2).flatten ∧
      ∀ (i : Nat) u, us[i]? = some u → ∀ j ≤ u.lines.length, ∃ is, AskedFrom us base i j is ∧
        ∀ (sys : X86.Data → X86.Data → Prop) (at_ : Nat → BitVec 64) (keep : X86.Data → Prop) (entry : BitVec 64),
          (∀ off, at_ off = BitVec.ofNat 64 (start + off)) →
          (∀ d, keep d ↔ Holds d.mem (at_ 0) code) →
          entry = BitVec.ofNat 64 (base i (str% "__text") + (content u.lines .text j).length) →
          (∀ d js d', Runs sys keep is d js d' →
            ∃ off, X86.Disasm (code.drop off) js ∧ Steps sys keep ⟨d.reg, d.mem, entry⟩ ⟨d'.reg, d'.mem, at_ off⟩ ∧
              ∀ js', js = .ret :: js' → ∃ s', Step sys ⟨d'.reg, d'.mem, at_ off⟩ s' ∧
                s'.mem = d'.mem ∧ s'.rip = X86.loadBytes d'.mem (d'.reg RSP) 8 ∧
                s'.reg RSP = d'.reg RSP + 8 ∧ ∀ r, r ≠ RSP → s'.reg r = d'.reg r) ∧
          (∀ d s', Steps sys keep ⟨d.reg, d.mem, entry⟩ s' →
            (∃ off js, Runs sys keep is d js s'.data ∧ s'.rip = at_ off ∧ X86.Disasm (code.drop off) js) ∨
            (∃ js d', Runs sys keep is d js d' ∧ (js = [] ∨ ∃ r, js = .ret :: r))) := by
  have hall : ∀ u ∈ us, u.Good := fun u h => by
    obtain ⟨k, hk⟩ := List.getElem?_of_mem h
    exact (hg k u hk).good
  obtain ⟨xs, hx, hl⟩ := link_all bd h hall hf
  have hcode : ((us.zip (us.zipIdx.map fun u => linkedSecs base u.1 u.2)).map fun p => p.1.code p.2).flatten =
      allCode us base := by
    unfold allCode
    congr 1
    apply List.ext_getElem?
    intro k
    simp only [List.getElem?_map, List.zip, List.getElem?_zipWith, List.getElem?_zipIdx]
    cases hk : us[k]? with
    | none => rfl
    | some u =>
      simp only [Option.map_some, Option.some.injEq]
      exact code_linked (hall u (List.mem_of_getElem? hk)) base _
  refine ⟨xs, _, allCode us base, hx, by rw [hl, if_pos hn], hcode.symm, ?_⟩
  intro i u hu j hj
  obtain ⟨is, hask, hport, hd⟩ := asked_code hg hu hj
  refine ⟨is, hask, ?_⟩
  intro sys at_ keep entry hat hkeep hentry
  have hlt : i < us.length := (List.getElem?_eq_some_iff.1 hu).1
  have hat' : ∀ off, at_ off = BitVec.ofNat 64 start + BitVec.ofNat 64 off := by
    intro off
    rw [hat, BitVec.ofNat_add]
  have hentry' : entry = BitVec.ofNat 64 start + BitVec.ofNat 64 (codeStart us 0 i + (content u.lines .text j).length) := by
    rw [hentry, hbase i hlt, ← BitVec.ofNat_add]
    unfold codeStart
    rw [Nat.zero_add, Nat.add_assoc]
  have hkeep' : keep = fun d : X86.Data => Holds d.mem (BitVec.ofNat 64 start) (allCode us base) := by
    funext d
    rw [hkeep d, hat]
    rfl
  subst hkeep'
  simp only [hat', hentry']
  refine ⟨?_, ?_⟩
  · intro d js d' hrun
    obtain ⟨off, h2, h3⟩ := X86.runs_steps hrun _ hd
    refine ⟨off, h2, h3, ?_⟩
    rintro js' rfl
    exact X86.ret_step (X86.runs_keep hrun) h2
  · intro d s' hst
    exact X86.steps_runs hst _ is rfl hd hport

/-! ## Examples -/

/-- A second source, with a `msg` of its own. -/
def secondStrs : List Str := [str% "mov rdi, msg\n", str% "ret\n", str% "section .data\n", str% "msg db 7\n"]

def secondLines : List Line :=
  [.instruction ⟨⟨[0x48, 0xBF, 0, 0, 0, 0, 0, 0, 0, 0, 0, 0, 0, 0, 0], 10⟩, some ⟨2, str% "msg", false, 3⟩⟩,
   .instruction ⟨⟨[0xC3, 0, 0, 0, 0, 0, 0, 0, 0, 0, 0, 0, 0, 0, 0], 1⟩, none⟩,
   .sect .data, .data ⟨some (str% "msg"), [7]⟩]

/-- The two sources: one assembled by a debug build on a little-endian host, the other by a release
build on a big-endian one. -/
def samplePieces : List Piece :=
  [⟨.debug, .little, [utf8 sampleSource], sampleStrs, sampleLines⟩,
   ⟨.release, .big, [utf8 secondStrs.flatten], secondStrs, secondLines⟩]

def pieceBase (i : Nat) (n : Str) : Nat :=
  if n = str% "__text" then (if i = 0 then 0x1000 else 0x1016) else (if i = 0 then 0x2000 else 0x3000)

theorem second_table : table secondLines = [⟨.data, str% "msg", 0⟩] := by decide +kernel

theorem second_relocations (x : Section) (p : Nat × LocalReloc) (hp : p ∈ relocations secondLines x) :
    p = (2, ⟨2, str% "msg", false, 3⟩) := by
  have h1 : relocations secondLines .text = [(2, ⟨2, str% "msg", false, 3⟩)] := by decide +kernel
  have h2 : relocations secondLines .data = [] := by decide +kernel
  have h3 : relocations secondLines .bss = [] := by decide +kernel
  cases x
  · rw [h1] at hp; exact List.mem_singleton.1 hp
  · rw [h2] at hp; simp at hp
  · rw [h3] at hp; simp at hp

theorem second_acceptable : Acceptable secondLines := by
  refine ⟨⟨by decide, fun x p hp => ?_⟩, ?_, ?_, ?_, ?_, ?_⟩
  · rw [second_relocations x p hp]; decide
  · intro k l hk hx
    have h : ∀ k < secondLines.length, sectAt secondLines k ≠ .bss := by decide +kernel
    exact absurd hx (h k (List.getElem?_eq_some_iff.1 hk).1)
  · rw [second_table]; decide +kernel
  · intro x p hp
    rw [second_relocations x p hp, second_table]
    exact ⟨_, List.mem_singleton.2 rfl, rfl⟩
  · rw [second_table]; decide
  · rw [second_table]; decide +kernel

theorem second_good : Piece.Good ⟨.release, .big, [utf8 secondStrs.flatten], secondStrs, secondLines⟩ :=
  ⟨by decide +kernel, ⟨by decide +kernel, by decide +kernel, by decide +kernel, by decide +kernel⟩,
    by decide +kernel, second_acceptable⟩

theorem sample_good : Piece.Good ⟨.debug, .little, [utf8 sampleSource], sampleStrs, sampleLines⟩ :=
  ⟨by decide +kernel, by show Cut [utf8 sampleSource].flatten _; rw [List.flatten_singleton]; exact sample_cut,
    sample_parses _, sample_acceptable⟩

/-- The two sources meet the conditions of C96. -/
theorem samplePieces_runnable (i : Nat) (u : Piece) (hu : samplePieces[i]? = some u) : Runnable u (pieceBase i) := by
  match i, hu with
  | 0, hu =>
    cases hu
    refine ⟨sample_good, sample_pure, sample_pushes _, fun x p hp adr ha => ?_⟩
    rw [sample_relocations x p hp] at ha ⊢
    rw [show addressOf sampleLines (pieceBase 0) (str% "msg") = some 0x2002 by decide +kernel] at ha
    cases ha
    decide
  | 1, hu =>
    cases hu
    refine ⟨second_good, fun k d hk => ?_, fun s hs c i hc hx => ?_, fun x p hp adr ha => ?_⟩
    · match k, hk with
      | 3, _ => decide +kernel
      | 0, hk | 1, hk | 2, hk => cases hk
      | n + 4, hk => cases hk
    · have h : ∀ s ∈ secondStrs, (splitWs (stripComment s)).head? ≠ some (str% "push") := by decide +kernel
      exact pushFits_of_tokens rfl (h s hs) hc hx
    · rw [second_relocations x p hp] at ha ⊢
      rw [show addressOf secondLines (pieceBase 1) (str% "msg") = some 0x3000 by decide +kernel] at ha
      cases ha
      decide
  | n + 2, hu => cases hu

theorem samplePieces_files : ∃ files, FilesOfPieces samplePieces files := by
  obtain ⟨a, ha, hao⟩ := assembles sample_good.chunks sample_good.cut sample_good.reads sample_good.ok
  obtain ⟨b, hb, hbo⟩ := assembles second_good.chunks second_good.cut second_good.reads second_good.ok
  refine ⟨[(a.writeInto .debug .little).out, (b.writeInto .release .big).out], rfl, fun i u f hu hf => ?_⟩
  match i, hu, hf with
  | 0, hu, hf =>
    cases hu; cases hf
    exact ⟨a, ha, (file_of .debug .debug .little hao sample_good.ok (relocsOk_piece sample_good)).1, rfl⟩
  | 1, hu, hf =>
    cases hu; cases hf
    exact ⟨b, hb, (file_of .release .debug .big hbo second_good.ok (relocsOk_piece second_good)).1, rfl⟩
  | n + 2, hu, _ => cases hu

example : (samplePieces.flatMap Piece.globals).Nodup ∧
    ∀ i < samplePieces.length, pieceBase i (str% "__text") = codeStart samplePieces 0x1000 i := by decide +kernel

/-- Linked together: `mov rsi, msg` of the first source and `mov rdi, msg` of the second move different
addresses. -/
example : ∃ files xs, FilesOfPieces samplePieces files ∧ files.mapM (readRaw .debug .little) = .ok xs ∧
    linkFiles xs pieceBase = some
      [[[0x48, 0xB8, 1, 0, 0, 0, 0, 0, 0, 0, 0x48, 0xBE, 2, 0x20, 0, 0, 0, 0, 0, 0, 0x0F, 0x05],
        [1, 2, 104, 105, 33, 0]],
       [[0x48, 0xBF, 0, 0x30, 0, 0, 0, 0, 0, 0, 0xC3], [7]]] := by
  obtain ⟨files, hf⟩ := samplePieces_files
  obtain ⟨xs, hx, hl⟩ := link_all .debug .little (us := samplePieces) (fun u hu => by
    obtain ⟨k, hk⟩ := List.getElem?_of_mem hu
    exact (samplePieces_runnable k u hk).good) hf
  refine ⟨files, xs, hf, hx, ?_⟩
  rw [hl]
  decide +kernel

/-- The first source twice cannot be linked: `start` is global. -/
example : ¬ ((samplePieces.take 1 ++ samplePieces.take 1).flatMap Piece.globals).Nodup := by decide +kernel

end AT.Props
