import Verif.Spec.Rename
import Verif.Props.AsmRender
/-!
# Names of symbols do not matter (C72)
-/

namespace AT.Props
open AT.Asm AT.AsmSpec AT.X64 AT.Obj AT.Mac

/-! ## Renaming lines -/

section
variable (ρ : Str → Str) (ls : List Line)

theorem emits_rename (l : Line) : emits (renameLine ρ l) = emits l := by cases l <;> rfl
theorem switches_rename (l : Line) : switches (renameLine ρ l) = switches l := by cases l <;> rfl
theorem defines_rename (l : Line) : defines (renameLine ρ l) = (defines l).map ρ := by cases l <;> rfl
theorem relocates_rename (l : Line) : relocates (renameLine ρ l) =
    (relocates l).map fun r => { r with symbol := ρ r.symbol } := by cases l <;> rfl
theorem stores_rename (l : Line) : Stores (renameLine ρ l) ↔ Stores l := by cases l <;> exact Iff.rfl

theorem sectAt_rename (k : Nat) : sectAt (ls.map (renameLine ρ)) k = sectAt ls k := by
  unfold sectAt
  rw [← List.map_take, List.filterMap_map]
  congr 2
  apply filterMap_congr'
  intro l _
  exact switches_rename ρ l

theorem emitsAt_rename (x : Section) (k : Nat) : emitsAt (ls.map (renameLine ρ)) x k = emitsAt ls x k := by
  unfold emitsAt
  rw [List.getElem?_map, sectAt_rename]
  cases ls[k]? with
  | none => rfl
  | some l => simp only [Option.map_some, emits_rename]

theorem content_rename (x : Section) (k : Nat) : content (ls.map (renameLine ρ)) x k = content ls x k := by
  unfold content
  exact flatMap_congr' fun k _ => emitsAt_rename ρ ls x k

theorem labels_rename (x : Section) :
    labels (ls.map (renameLine ρ)) x = (labels ls x).map fun p => (ρ p.1, p.2) := by
  unfold labels
  rw [List.map_filterMap, List.length_map]
  apply filterMap_congr'
  intro k _
  unfold labelAt
  rw [List.getElem?_map, sectAt_rename]
  cases ls[k]? with
  | none => rfl
  | some l =>
    simp only [Option.map_some, defines_rename, content_rename]
    split
    · simp [Function.comp_def]
    · rfl

theorem relocations_rename (x : Section) : relocations (ls.map (renameLine ρ)) x =
    (relocations ls x).map fun p => (p.1, { p.2 with symbol := ρ p.2.symbol }) := by
  unfold relocations
  rw [List.map_filterMap, List.length_map]
  apply filterMap_congr'
  intro k _
  unfold relocAt
  rw [List.getElem?_map, sectAt_rename]
  cases ls[k]? with
  | none => rfl
  | some l =>
    simp only [Option.map_some, relocates_rename, content_rename]
    split
    · simp [Function.comp_def]
    · rfl

theorem noBss_rename : NoBssContent (ls.map (renameLine ρ)) ↔ NoBssContent ls := by
  unfold NoBssContent
  constructor
  · intro h k l hl hs
    rw [← stores_rename ρ]
    exact h k _ (by rw [List.getElem?_map, hl]; rfl) (by rw [sectAt_rename]; exact hs)
  · intro h k l hl hs
    rw [List.getElem?_map, Option.map_eq_some_iff] at hl
    obtain ⟨l, hl, rfl⟩ := hl
    rw [stores_rename]
    rw [sectAt_rename] at hs
    exact h k l hl hs

theorem stored_rename : stored (ls.map (renameLine ρ)) = stored ls := by
  unfold stored
  simp only [List.length_map, content_rename]

theorem table_rename : table (ls.map (renameLine ρ)) = (table ls).map fun e => { e with name := ρ e.name } := by
  unfold table
  rw [stored_rename, List.map_flatMap]
  apply flatMap_congr'
  intro x _
  simp [labels_rename, Function.comp_def]

end

/-! ## Names -/

/-- The names of the program. -/
def names (ls : List Line) : List Str := ls.flatMap lineNames

theorem label_names {ls : List Line} {x : Section} {p : Str × Nat} (h : p ∈ labels ls x) : p.1 ∈ names ls := by
  unfold labels at h
  rw [List.mem_filterMap] at h
  obtain ⟨k, _, hk⟩ := h
  unfold labelAt at hk
  split at hk
  · rename_i l hl
    split at hk
    · rw [Option.map_eq_some_iff] at hk
      obtain ⟨n, hn, rfl⟩ := hk
      refine List.mem_flatMap.2 ⟨l, List.mem_of_getElem? hl, ?_⟩
      cases l <;> simp_all [defines, lineNames]
    · simp at hk
  · simp at hk

theorem reloc_names {ls : List Line} {x : Section} {p : Nat × LocalReloc} (h : p ∈ relocations ls x) :
    p.2.symbol ∈ names ls := by
  unfold relocations at h
  rw [List.mem_filterMap] at h
  obtain ⟨k, _, hk⟩ := h
  unfold relocAt at hk
  split at hk
  · rename_i l hl
    split at hk
    · rw [Option.map_eq_some_iff] at hk
      obtain ⟨n, hn, rfl⟩ := hk
      refine List.mem_flatMap.2 ⟨l, List.mem_of_getElem? hl, ?_⟩
      cases l <;> simp_all [relocates, lineNames]
    · simp at hk
  · simp at hk

theorem table_names {ls : List Line} {e : Def} (h : e ∈ table ls) : e.name ∈ names ls := by
  unfold table at h
  obtain ⟨x, _, h⟩ := List.mem_flatMap.1 h
  obtain ⟨p, hp, rfl⟩ := List.mem_map.1 h
  exact label_names hp

theorem global_rename {ρ : Str → Str} {ls : List Line} (hk : KeepsApart ρ (names ls)) {n : Str} (hn : n ∈ names ls) :
    Global (ls.map (renameLine ρ)) (ρ n) ↔ Global ls n := by
  unfold Global
  rw [List.mem_map]
  constructor
  · rintro ⟨l, hl, he⟩
    cases l <;> simp [renameLine] at he
    rename_i m
    have : m ∈ names ls := List.mem_flatMap.2 ⟨_, hl, by simp [lineNames]⟩
    rw [← hk m this n hn he]
    exact hl
  · intro h
    exact ⟨_, h, rfl⟩

theorem address_rename {ρ : Str → Str} {ls : List Line} (hk : KeepsApart ρ (names ls)) (base : Str → Nat) {n : Str}
    (hn : n ∈ names ls) : addressOf (ls.map (renameLine ρ)) base (ρ n) = addressOf ls base n := by
  unfold addressOf
  rw [table_rename]
  have key : ∀ es : List Def, (∀ e ∈ es, e.name ∈ names ls) →
      ((es.map fun e => { e with name := ρ e.name }).find? (·.name = ρ n)).map (fun e => base (fileName e.sect) + e.off) =
      (es.find? (·.name = n)).map fun e => base (fileName e.sect) + e.off := by
    intro es
    induction es with
    | nil => intro _; rfl
    | cons e es ih =>
      intro h
      rw [List.map_cons, List.find?_cons, List.find?_cons]
      by_cases he : e.name = n
      · simp [he]
      · have : ¬ ρ e.name = ρ n := fun h' => he (hk _ (h e (by simp)) _ hn h')
        simp only [he, this, decide_false]
        exact ih (fun e' h' => h e' (by simp [h']))
  exact key _ fun e he => table_names he

theorem linkedTo_rename {ρ : Str → Str} {ls : List Line} (hk : KeepsApart ρ (names ls)) (base : Str → Nat) (x : Section)
    (k : Nat) : linkedTo (valOf (ls.map (renameLine ρ)) base) (ls.map (renameLine ρ)) x k =
      linkedTo (valOf ls base) ls x k := by
  unfold linkedTo
  apply flatMap_congr'
  intro j _
  unfold linkedAt
  rw [List.getElem?_map, sectAt_rename]
  cases hl : ls[j]? with
  | none => rfl
  | some l =>
    simp only [Option.map_some]
    split
    · cases l with
      | instruction i =>
        simp only [renameLine, patched]
        cases hr : i.reloc with
        | none => rfl
        | some r =>
          simp only [Option.map_some]
          unfold valOf
          rw [address_rename hk base (List.mem_flatMap.2 ⟨_, List.mem_of_getElem? hl, by simp [lineNames, hr]⟩)]
      | _ => rfl
    · rfl

/-! ## C72 -/

theorem objOf_rename {ρ : Str → Str} {ls : List Line} (hk : KeepsApart ρ (names ls)) {o o' : Object}
    (ho : ObjOf ls o) (ho' : ObjOf (ls.map (renameLine ρ)) o') : o' = renameObject ρ o := by
  have hs : ∀ x, symbolsOf o' x = (symbolsOf o x).map (renameSymbol ρ) := by
    intro x
    rw [ho.symbols, ho'.symbols]
    unfold finalSyms
    rw [labels_rename, List.map_map, List.map_map]
    apply List.map_congr_left
    intro p hp
    simp only [Function.comp, renameSymbol]
    rw [decide_eq_decide.2 (global_rename hk (label_names hp))]
  have hb : ∀ x, bytesOf o' x = bytesOf o x := by
    intro x
    rw [ho.bytes, ho'.bytes, List.length_map, content_rename]
  have hr : ∀ x, relocsOf o' x = (relocsOf o x).map (renameReloc ρ) := by
    intro x
    rw [ho.relocs, ho'.relocs]
    unfold relsOf
    rw [relocations_rename, List.map_map, List.map_map]
    rfl
  have h0 := ho'.bss.trans ho.bss.symm
  obtain ⟨⟨⟨tb, ts, tr⟩, ⟨db, ds, dr⟩, ⟨sz, bs⟩⟩⟩ := o
  obtain ⟨⟨⟨tb', ts', tr'⟩, ⟨db', ds', dr'⟩, ⟨sz', bs'⟩⟩⟩ := o'
  have e1 := hs .text; have e2 := hs .data; have e3 := hs .bss
  have e4 := hb .text; have e5 := hb .data
  have e6 := hr .text; have e7 := hr .data
  simp only [symbolsOf, bytesOf, relocsOf] at e1 e2 e3 e4 e5 e6 e7 h0
  simp only [renameObject]
  rw [e1, e2, e3, e4, e5, e6, e7, h0]

/-- C72 for the assembler: renaming the symbols of the source, different ones to different ones,
renames the symbols of the object and changes nothing else. -/
theorem C72_object (bd : Build) (chunks chunks' : List Bytes) (a : Assembler) (ls : List Line) (ρ : Str → Str)
    (hne : ∀ c ∈ chunks, c ≠ []) (hne' : ∀ c ∈ chunks', c ≠ []) (hk : KeepsApart ρ (names ls))
    (hp : Program bd chunks.flatten ls) (hp' : Program bd chunks'.flatten (ls.map (renameLine ρ)))
    (ha : Assembler.new.readFrom bd chunks = .ok a) :
    ∃ a', Assembler.new.readFrom bd chunks' = .ok a' ∧ a'.obj = renameObject ρ a.obj := by
  obtain ⟨ss, ls', h1, h2, h3, h4, h5, h6, h7⟩ := readFrom_new hne ha
  cases Program.det hp ⟨ss, h1, h2⟩
  obtain ⟨_, hp0, _, hw⟩ := (C74_exact bd chunks hne).1 ⟨a, ha⟩
  cases Program.det hp hp0
  have hsm : Within bd (ls.map (renameLine ρ)) := by
    refine ⟨by rw [List.length_map]; exact hw.lines, ?_⟩
    intro hbd x p hp
    rw [relocations_rename] at hp
    obtain ⟨q, hq, rfl⟩ := List.mem_map.1 hp
    exact hw.relocs hbd x q hq
  obtain ⟨a', ha'⟩ := C45_succeeds bd chunks' _ hne' hp' hsm ((noBss_rename ρ ls).2 h3)
  obtain ⟨ts, ms', g1, g2, g3, g4, g5, g6, g7⟩ := readFrom_new hne' ha'
  cases Program.det hp' ⟨ts, g1, g2⟩
  exact ⟨a', ha', objOf_rename hk ⟨h4, h5, h6, h7⟩ ⟨g4, g5, g6, g7⟩⟩

/-- C72 for programs: a source and a renamed one give, linked at the same addresses, the same bytes in
the same sections. -/
theorem C72_image (bd bd' : Build) (h : Endian) (chunks chunks' : List Bytes) (ls : List Line) (ρ : Str → Str)
    (hne : ∀ c ∈ chunks, c ≠ []) (hne' : ∀ c ∈ chunks', c ≠ []) (hk : KeepsApart ρ (names ls))
    (hp : Program bd chunks.flatten ls) (hp' : Program bd chunks'.flatten (ls.map (renameLine ρ)))
    (ok : Acceptable ls) (ok' : Acceptable (ls.map (renameLine ρ))) :
    ∃ a a' v v' rest rest', Assembler.new.readFrom bd chunks = .ok a ∧ (a.writeInto bd h).res = .ok () ∧
      Assembler.new.readFrom bd chunks' = .ok a' ∧ (a'.writeInto bd h).res = .ok () ∧
      view bd' h (a.writeInto bd h).out = .ok (v, rest) ∧ view bd' h (a'.writeInto bd h).out = .ok (v', rest') ∧
      v.sections.map (·.sectname) = v'.sections.map (·.sectname) ∧
      ∀ (base : Str → Nat) (i : Nat) s s', v.sections[i]? = some s → v'.sections[i]? = some s' →
        ∃ bs, linkSection h (a.writeInto bd h).out v base s = some bs ∧
          linkSection h (a'.writeInto bd h).out v' base s' = some bs := by
  obtain ⟨ss, hc, hss⟩ := hp
  obtain ⟨ss', hc', hss'⟩ := hp'
  obtain ⟨a, ha, ho⟩ := assembles hne hc hss ok
  obtain ⟨a', ha', ho'⟩ := assembles hne' hc' hss' ok'
  have hr := relocsOk_of hss
  have hr' := relocsOk_of hss'
  obtain ⟨h1, v, rest, hv, hfile⟩ := file_of bd bd' h ho ok hr
  obtain ⟨h1', v', rest', hv', hfile'⟩ := file_of bd bd' h ho' ok' hr'
  refine ⟨a, a', v, v', rest, rest', ha, h1, ha', h1', hv, hv', ?_, ?_⟩
  · rw [hfile.sections, hfile'.sections, stored_rename]
  · intro base i s s' hs hs'
    have hx : ∃ x, (stored ls)[i]? = some x := by
      have := congrArg (·[i]?) hfile.sections
      simp only [List.getElem?_map, hs, Option.map_some] at this
      cases hg : (stored ls)[i]? with
      | none => rw [hg] at this; simp at this
      | some x => exact ⟨x, rfl⟩
    obtain ⟨x, hx⟩ := hx
    refine ⟨_, link_eq hfile hr base hs hx, ?_⟩
    have := link_eq hfile' hr' base hs' (by rw [stored_rename]; exact hx)
    rw [List.length_map, linkedTo_rename hk] at this
    exact this

/-! ## Renaming sources -/

theorem means_rename (ρ : Str → Str) {st : Stmt} {l : Line} (h : Means st l) :
    Means (renameStmt ρ st) (renameLine ρ l) := by
  cases st with
  | blank => cases h; rfl
  | label n => cases h; rfl
  | sect x => cases h; rfl
  | global n => cases h; rfl
  | data lab dir w its =>
    obtain ⟨bs, rfl, hs⟩ := h
    exact ⟨bs, rfl, hs⟩
  | inst x =>
    cases h
    cases x <;> rfl

/-- C72 for the text: a source written with other names, if these are allowed where they stand, is
read as the renamed program. -/
theorem C72_source (ρ : Str → Str) (sts : List Stmt) (ls : List Line) (h : StandFor sts ls)
    (hok : ∀ st ∈ sts, (renameStmt ρ st).Ok) (bd : Build) :
    Program bd (utf8 (render (sts.map (renameStmt ρ)))) (ls.map (renameLine ρ)) := by
  apply C71_program
  obtain ⟨h1, h2, h3⟩ := h
  refine ⟨by simp [h1], ?_, ?_⟩
  · intro st hst
    obtain ⟨s, hs, rfl⟩ := List.mem_map.1 hst
    exact hok s hs
  · intro p hp
    rw [List.zip_map] at hp
    obtain ⟨q, hq, rfl⟩ := List.mem_map.1 hp
    exact means_rename ρ (h3 q hq)

theorem names_standFor : ∀ (sts : List Stmt) (ls : List Line), StandFor sts ls → names ls = sts.flatMap stmtNames
  | [], [], _ => rfl
  | [], _ :: _, h => by simp [StandFor] at h
  | _ :: _, [], h => by simp [StandFor] at h
  | st :: sts, l :: ls, h => by
    obtain ⟨⟨_, h2⟩, h3⟩ := StandFor.cons.1 h
    have : lineNames l = stmtNames st := by
      cases st with
      | data lab dir w its => obtain ⟨bs, rfl, _⟩ := h2; rfl
      | inst x =>
        cases h2
        cases x <;> simp [lineNames, stmtNames, assembled]
      | _ => cases h2; rfl
    have ih := names_standFor sts ls h3
    unfold names at ih ⊢
    rw [List.flatMap_cons, List.flatMap_cons, this, ih]

/-- C72, all together: for a source given by statements, write the same statements with renamed
symbols.  The object is the same up to the names. -/
theorem C72_rename (bd : Build) (ρ : Str → Str) (sts : List Stmt) (chunks chunks' : List Bytes) (a : Assembler)
    (hne : ∀ c ∈ chunks, c ≠ []) (hne' : ∀ c ∈ chunks', c ≠ []) (hok : ∀ st ∈ sts, st.Ok)
    (hok' : ∀ st ∈ sts, (renameStmt ρ st).Ok) (hk : KeepsApart ρ (sts.flatMap stmtNames))
    (hfl : chunks.flatten = utf8 (render sts)) (hfl' : chunks'.flatten = utf8 (render (sts.map (renameStmt ρ))))
    (ha : Assembler.new.readFrom bd chunks = .ok a) :
    ∃ a', Assembler.new.readFrom bd chunks' = .ok a' ∧ a'.obj = renameObject ρ a.obj := by
  obtain ⟨ls, hst⟩ := C71_any_statements sts hok
  have hp := C71_program bd sts ls hst
  rw [← hfl] at hp
  have hp' := C72_source ρ sts ls hst hok' bd
  rw [← hfl'] at hp'
  exact C72_object bd chunks chunks' a ls ρ hne hne' (by rw [names_standFor sts ls hst]; exact hk) hp hp' ha

/-! ## Instance -/

/-- Exchange the names `f` and `msg`. -/
def swapNames (n : Str) : Str :=
  if n = str% "f" then str% "msg" else if n = str% "msg" then str% "f" else n

/-- The source `fancy` with these names exchanged. -/
def swapped : List Str :=
  [str% "section .data\n", str% "f db \"hi, there\", 10, 1\n", str% "global msg\n", str% "section .text\n",
    str% "msg:\n", str% "mov eax, 18\n", str% "mov rdi, f\n", str% "push 511\n", str% "ret\n"]

example : KeepsApart swapNames (names (readAs fancy)) := by unfold KeepsApart; decide +kernel

example : names (readAs fancy) = [str% "msg", str% "f", str% "f", str% "msg"] := by decide +kernel

example : Program .debug (utf8 swapped.flatten) ((readAs fancy).map (renameLine swapNames)) :=
  ⟨swapped, ⟨by decide +kernel, by decide +kernel, by decide +kernel, by decide +kernel⟩, by decide +kernel⟩

/-- Names that fall together change the program: here `b` then means the place of `a`. -/
example : addressOf (readAs [str% "a:\n", str% "ret\n", str% "b:\n", str% "mov rax, b\n"]) (fun _ => 0) (str% "b") = some 1 ∧
    addressOf ((readAs [str% "a:\n", str% "ret\n", str% "b:\n", str% "mov rax, b\n"]).map (renameLine fun _ => str% "x"))
      (fun _ => 0) (str% "x") = some 0 := by decide +kernel

end AT.Props
