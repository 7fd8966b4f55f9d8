import Verif.Spec.Join
import Verif.Props.Outcome
import Verif.Props.Layout
/-!
# Assembling two sources together is joining their objects (C89)
-/

namespace AT.Props
open AT.Asm AT.AsmSpec AT.X64 AT.Obj AT.Mac

/-! ## Programs one after the other -/

section
variable {ls : List Line} (hs : sectAt ls ls.length = .text) (ms : List Line) (x : Section)
include hs

theorem sectAt_after (k : Nat) : sectAt (ls ++ ms) (ls.length + k) = sectAt ms k := by
  unfold sectAt at *
  rw [List.take_length_add_append, List.filterMap_append]
  rw [List.take_length] at hs
  rw [List.getLast?_append]
  cases h : ((ms.take k).filterMap switches).getLast? with
  | none => simpa using hs
  | some y => simp

theorem emitsAt_after (k : Nat) : emitsAt (ls ++ ms) x (ls.length + k) = emitsAt ms x k := by
  unfold emitsAt
  rw [List.getElem?_append_right (by omega), Nat.add_sub_cancel_left, sectAt_after hs]

theorem content_after (k : Nat) :
    content (ls ++ ms) x (ls.length + k) = content ls x ls.length ++ content ms x k := by
  induction k with
  | zero => rw [Nat.add_zero, content_append _ _ _ _ (Nat.le_refl _)]; simp [content]
  | succ k ih =>
    rw [← Nat.add_assoc, content_succ, ih, content_succ, emitsAt_after hs, List.append_assoc]

theorem labels_after : labels (ls ++ ms) x = labels ls x ++
    (labels ms x).map (fun p => (p.1, (content ls x ls.length).length + p.2)) := by
  unfold labels
  rw [List.length_append, List.range_add, List.filterMap_append, List.filterMap_map, List.map_filterMap]
  congr 1
  · exact filterMap_congr' fun k hk => labelAt_append ls ms x k (List.mem_range.1 hk)
  · refine filterMap_congr' fun k _ => ?_
    unfold labelAt
    simp only [Function.comp]
    rw [List.getElem?_append_right (by omega), Nat.add_sub_cancel_left, sectAt_after hs, content_after hs]
    cases ms[k]? with
    | none => rfl
    | some l =>
      simp only
      split
      · cases defines l <;> simp
      · rfl

theorem relocations_after : relocations (ls ++ ms) x = relocations ls x ++
    (relocations ms x).map (fun p => ((content ls x ls.length).length + p.1, p.2)) := by
  unfold relocations
  rw [List.length_append, List.range_add, List.filterMap_append, List.filterMap_map, List.map_filterMap]
  congr 1
  · exact filterMap_congr' fun k hk => relocAt_append ls ms x k (List.mem_range.1 hk)
  · refine filterMap_congr' fun k _ => ?_
    unfold relocAt
    simp only [Function.comp]
    rw [List.getElem?_append_right (by omega), Nat.add_sub_cancel_left, sectAt_after hs, content_after hs]
    cases ms[k]? with
    | none => rfl
    | some l =>
      simp only
      split
      · cases relocates l <;> simp [Nat.add_assoc]
      · rfl

theorem noBss_after : NoBssContent (ls ++ ms) ↔ NoBssContent ls ∧ NoBssContent ms := by
  constructor
  · intro h
    refine ⟨fun k l hk hx => ?_, fun k l hk hx => ?_⟩
    · have hlt : k < ls.length := (List.getElem?_eq_some_iff.1 hk).1
      refine h k l (by rw [List.getElem?_append_left hlt]; exact hk) ?_
      rw [sectAt_append ls ms k (by omega)]; exact hx
    · refine h (ls.length + k) l ?_ (by rw [sectAt_after hs]; exact hx)
      rw [List.getElem?_append_right (by omega), Nat.add_sub_cancel_left]; exact hk
  · rintro ⟨h1, h2⟩ k l hk hx
    by_cases hlt : k < ls.length
    · rw [List.getElem?_append_left hlt] at hk
      rw [sectAt_append ls ms k (by omega)] at hx
      exact h1 k l hk hx
    · obtain ⟨j, rfl⟩ := Nat.exists_eq_add_of_le (Nat.le_of_not_lt hlt)
      rw [List.getElem?_append_right (by omega), Nat.add_sub_cancel_left] at hk
      rw [sectAt_after hs] at hx
      exact h2 j l hk hx

end

theorem global_append (ls ms : List Line) (n : Str) : Global (ls ++ ms) n ↔ Global ls n ∨ Global ms n :=
  List.mem_append

theorem symbolOf_left (ls ms : List Line) (p : Str × Nat) :
    symbolOf (ls ++ ms) p = moveSymbol ms 0 (symbolOf ls p) := by
  simp [symbolOf, moveSymbol, global_append]

theorem symbolOf_right (ls ms : List Line) (p : Str × Nat) (d : Nat) :
    symbolOf (ls ++ ms) (p.1, d + p.2) = moveSymbol ls d (symbolOf ms p) := by
  simp [symbolOf, moveSymbol, global_append, UInt64.ofNat_add, UInt64.add_comm, Bool.or_comm]

theorem entryOf_right (p : Nat × LocalReloc) (d : Nat) :
    AsmSpec.entryOf (d + p.1, p.2) = moveReloc d (AsmSpec.entryOf p) := by
  simp [AsmSpec.entryOf, moveReloc, Int32.ofNat_add, Int32.add_comm]

theorem joins_objectOf {ls ms : List Line} (hs : sectAt ls ls.length = .text) (h1 : NoBssContent ls) : Joins ls ms (objectOf ls) (objectOf ms) (objectOf (ls ++ ms)) := by
  have hb : ∀ x, content (ls ++ ms) x (ls ++ ms).length = content ls x ls.length ++ content ms x ms.length := by
    intro x; rw [List.length_append, content_after hs]
  have hl : ∀ x, (labels (ls ++ ms) x).map (symbolOf (ls ++ ms)) =
      ((labels ls x).map (symbolOf ls)).map (moveSymbol ms 0) ++
      ((labels ms x).map (symbolOf ms)).map (moveSymbol ls (content ls x ls.length).length) := by
    intro x
    rw [labels_after hs, List.map_append, List.map_map, List.map_map, List.map_map]
    congr 1
    · exact List.map_congr_left fun p _ => symbolOf_left ls ms p
    · exact List.map_congr_left fun p _ => symbolOf_right ls ms p _
  have hr : ∀ x, (relocations (ls ++ ms) x).map AsmSpec.entryOf = (relocations ls x).map AsmSpec.entryOf ++
      ((relocations ms x).map AsmSpec.entryOf).map (moveReloc (content ls x ls.length).length) := by
    intro x
    rw [relocations_after hs, List.map_append, List.map_map, List.map_map]
    congr 1
    exact List.map_congr_left fun p _ => entryOf_right p _
  have h0 := content_bss ls h1
  refine ⟨fun x => ?_, fun x => ?_, fun x => ?_, rfl⟩
  · cases x
    · exact hb .text
    · exact hb .data
    · rfl
  · cases x
    · exact hl .text
    · exact hl .data
    · have := hl .bss
      rw [h0] at this
      exact this
  · cases x
    · exact hr .text
    · exact hr .data
    · rfl

theorem readsAll_append {bd : Build} {ss ts : List Str} {ls ms : List Line} (h : ReadsAll bd ss ls)
    (h' : ReadsAll bd ts ms) : ReadsAll bd (ss ++ ts) (ls ++ ms) := by
  refine ⟨by rw [List.length_append, List.length_append, h.1, h'.1], fun k s l hs hl => ?_⟩
  by_cases hk : k < ss.length
  · rw [List.getElem?_append_left hk] at hs
    rw [List.getElem?_append_left (by rw [← h.1]; exact hk)] at hl
    exact h.2 k s l hs hl
  · rw [List.getElem?_append_right (by omega)] at hs
    rw [List.getElem?_append_right (by rw [← h.1]; omega), ← h.1] at hl
    exact h'.2 _ s l hs hl

theorem program_append {bd : Build} {a b : Bytes} {ls ms : List Line} (hp : Program bd a ls)
    (hq : Program bd b ms) (hn : a = [] ∨ a.getLast? = some 10) : Program bd (a ++ b) (ls ++ ms) := by
  obtain ⟨ss, hc, hr⟩ := hp
  obtain ⟨ts, hc', hr'⟩ := hq
  exact ⟨ss ++ ts, by rw [List.map_append]; exact Cut.append hc hc' hn, readsAll_append hr hr'⟩

/-- The second part of a program is a program. -/
theorem program_second {bd : Build} {a b : Bytes} {ls ks : List Line} (hp : Program bd a ls)
    (hn : a = [] ∨ a.getLast? = some 10) (hk : Program bd (a ++ b) ks) :
    ∃ ms, Program bd b ms ∧ ks = ls ++ ms := by
  obtain ⟨ss, hc, hr⟩ := hp
  obtain ⟨us, hcu, hru⟩ := hk
  obtain ⟨bs, hbs⟩ := Cut.exists b
  have he := Cut.det hcu (Cut.append hc hbs hn)
  obtain ⟨ss', ts, rfl, h1, rfl⟩ := List.map_eq_append_iff.1 he
  have h1 : ss' = ss := by
    have : ∀ (p q : List Str), p.map utf8 = q.map utf8 → p = q := by
      intro p
      induction p with
      | nil => intro q h; cases q <;> simp_all
      | cons y p ih =>
        intro q h
        cases q with
        | nil => simp at h
        | cons z q =>
          simp only [List.map_cons, List.cons.injEq] at h
          rw [utf8_injective h.1, ih q h.2]
    exact this _ _ h1
  subst h1
  have hlen : ss'.length ≤ ks.length := by rw [← hru.1]; simp
  have h2 : ReadsAll bd ts (ks.drop ss'.length) := by
    refine ⟨by have := hru.1; simp at this ⊢; omega, fun k s l hs hl => ?_⟩
    rw [List.getElem?_drop] at hl
    refine hru.2 (ss'.length + k) s l ?_ hl
    rw [List.getElem?_append_right (by omega), Nat.add_sub_cancel_left]; exact hs
  have hm : Program bd b (ks.drop ss'.length) := ⟨ts, hbs, h2⟩
  exact ⟨_, hm, Program.det ⟨_, hcu, hru⟩ (program_append ⟨ss', hc, hr⟩ hm hn)⟩

/-! ## C89 -/

/-- C89: if two sources are assembled to `a` and `b`, and the first one ends with a newline and leaves
`.text` the current section, then both together are assembled to `a` followed by `b`; in debug builds,
if they stay within the checked counters. -/
theorem C89_join (bd : Build) (cs ds : List Bytes) (a b : Assembler) (ls ms : List Line)
    (hc : ∀ c ∈ cs, c ≠ []) (hd : ∀ c ∈ ds, c ≠ []) (hn : cs.flatten = [] ∨ cs.flatten.getLast? = some 10)
    (hp : Program bd cs.flatten ls) (hq : Program bd ds.flatten ms) (hs : sectAt ls ls.length = .text)
    (hw : Within bd (ls ++ ms))
    (ha : Assembler.new.readFrom bd cs = .ok a) (hb : Assembler.new.readFrom bd ds = .ok b) :
    ∃ c, Assembler.new.readFrom bd (cs ++ ds) = .ok c ∧ Joins ls ms a.obj b.obj c.obj := by
  obtain ⟨ha1, ha2⟩ := obj_eq hc hp ha
  obtain ⟨hb1, hb2⟩ := obj_eq hd hq hb
  have hne : ∀ c ∈ cs ++ ds, c ≠ [] := fun c h => (List.mem_append.1 h).elim (hc c) (hd c)
  have hpp : Program bd (cs ++ ds).flatten (ls ++ ms) := by
    rw [List.flatten_append]; exact program_append hp hq hn
  obtain ⟨c, h, ho⟩ := ((C79_assemble bd (cs ++ ds) hne).1 (objectOf (ls ++ ms))).2
    ⟨_, hpp, (noBss_after hs ms).2 ⟨ha2, hb2⟩, hw, rfl⟩
  refine ⟨c, h, ?_⟩
  rw [ha1, hb1, ho]
  exact joins_objectOf hs ha2

/-- C89: in release builds, two sources can be assembled together exactly if each of them can be
assembled. -/
theorem C89_succeeds (cs ds : List Bytes) (hc : ∀ c ∈ cs, c ≠ []) (hd : ∀ c ∈ ds, c ≠ [])
    (hn : cs.flatten = [] ∨ cs.flatten.getLast? = some 10)
    (hs : ∀ ls, Program .release cs.flatten ls → sectAt ls ls.length = .text) :
    (∃ c, Assembler.new.readFrom .release (cs ++ ds) = .ok c) ↔
      (∃ a, Assembler.new.readFrom .release cs = .ok a) ∧ ∃ b, Assembler.new.readFrom .release ds = .ok b := by
  have hw : ∀ ls, Within .release ls := fun ls => ⟨(by intro h; cases h), (by intro h; cases h)⟩
  have hne : ∀ c ∈ cs ++ ds, c ≠ [] := fun c h => (List.mem_append.1 h).elim (hc c) (hd c)
  constructor
  · intro hok
    obtain ⟨ks, hk, hkb, _⟩ := (C74_exact _ _ hne).1 hok
    have hfirst : ∃ a, Assembler.new.readFrom .release cs = .ok a := by
      cases ha : Assembler.new.readFrom .release cs with
      | ok a => exact ⟨a, rfl⟩
      | error e =>
        obtain ⟨c, hok⟩ := hok
        rw [← C48_two_inputs .release _ cs ds hc hd hn, ha] at hok
        cases hok
    refine ⟨hfirst, ?_⟩
    obtain ⟨ls, hp, _, _⟩ := (C74_exact _ _ hc).1 hfirst
    rw [List.flatten_append] at hk
    obtain ⟨ms, hq, rfl⟩ := program_second hp hn hk
    exact (C74_exact _ _ hd).2 ⟨ms, hq, ((noBss_after (hs ls hp) ms).1 hkb).2, hw _⟩
  · rintro ⟨⟨a, ha⟩, b, hb⟩
    obtain ⟨ls, hp, _, _⟩ := (C74_exact _ _ hc).1 ⟨a, ha⟩
    obtain ⟨ms, hq, _, _⟩ := (C74_exact _ _ hd).1 ⟨b, hb⟩
    obtain ⟨c, h, _⟩ := C89_join .release cs ds a b ls ms hc hd hn hp hq (hs ls hp) (hw _) ha hb
    exact ⟨c, h⟩

theorem stopsAt_after {ls ms : List Line} {b : Bytes} {e : Stop} (hs : sectAt ls ls.length = .text)
    (h : StopsAt .release ms b e) : ∃ e', StopsAt .release (ls ++ ms) b e' ∧ Later ls.length e e' := by
  have hnum : ∀ ks, Numbered .release ks := fun ks h => (by cases h)
  have hsect : sectAt (ls ++ ms) (ls ++ ms).length = sectAt ms ms.length := by
    rw [List.length_append, sectAt_after hs]
  cases h with
  | notText h => exact ⟨_, .notText h, .same _⟩
  | lineNumber s h hn => exact absurd (hnum _) hn
  | wrong s c msg num hb _ hc hw hd =>
    exact ⟨_, .wrong s c msg _ hb (hnum _) hc hw (showNat_decimal _),
      .line (ms.length + 1) _ _ _ hd (by rw [List.length_append, Nat.add_assoc]; exact showNat_decimal _)⟩
  | overflow s _ hbd _ => cases hbd
  | bss s l hb _ hr hx hst hre => exact ⟨_, .bss s l hb (hnum _) hr (hsect.trans hx) hst hre, .same _⟩
  | bssReloc s l hb hr hx hre => exact ⟨_, .bssReloc s l hb hr (hsect.trans hx) hre, .same _⟩
  | address s l r _ hbd _ _ _ => cases hbd

/-- C89: if the first source is wrong, both together are wrong in the same way; if the second is, they
are wrong in the same way, with the line number counted from the beginning of the first. -/
theorem C89_errors (cs ds : List Bytes) (hc : ∀ c ∈ cs, c ≠ []) (hd : ∀ c ∈ ds, c ≠ [])
    (hn : cs.flatten = [] ∨ cs.flatten.getLast? = some 10) :
    (∀ bd e, Assembler.new.readFrom bd cs = .error e → Assembler.new.readFrom bd (cs ++ ds) = .error e) ∧
    (∀ a ls e, Assembler.new.readFrom .release cs = .ok a → Program .release cs.flatten ls →
      sectAt ls ls.length = .text → Assembler.new.readFrom .release ds = .error e →
      ∃ e', Assembler.new.readFrom .release (cs ++ ds) = .error e' ∧ Later ls.length e e') := by
  refine ⟨fun bd e h => ?_, fun a ls e ha hp hs he => ?_⟩
  · rw [← C48_two_inputs bd _ cs ds hc hd hn, h]; rfl
  · have hw : ∀ ls, Within .release ls := fun ls => ⟨(by intro h; cases h), (by intro h; cases h)⟩
    have hne : ∀ c ∈ cs ++ ds, c ≠ [] := fun c h => (List.mem_append.1 h).elim (hc c) (hd c)
    obtain ⟨ts, ms, b, rest, hcut, hr, hb, _, hst⟩ := ((C79_assemble .release ds hd).2 e).1 he
    obtain ⟨e', hst', hl⟩ := stopsAt_after hs hst
    obtain ⟨ss, hcs, hrs⟩ := hp
    refine ⟨e', ((C79_assemble .release (cs ++ ds) hne).2 e').2
      ⟨ss ++ ts, ls ++ ms, b, rest, ?_, readsAll_append hrs hr, ?_, hw _, hst'⟩, hl⟩
    · rw [List.flatten_append, List.map_append, List.append_assoc]
      exact Cut.append hcs hcut hn
    · exact (noBss_after hs ms).2 ⟨(obj_eq hc ⟨ss, hcs, hrs⟩ ha).2, hb⟩

/-! ## Examples -/

def joinA : List Str := [str% "global g\n", str% "section .data\n", str% "x db 1, 2\n",
  str% "section .text\n", str% "mov rax, x\n"]
def joinB : List Str := [str% "g:\n", str% "mov rbx, x\n", str% "section .data\n", str% "y db 3"]

/-- Two sources that meet the conditions of C89. -/
example (bd : Build) : Program bd (utf8 joinA.flatten) (readAs joinA) ∧ Program bd (utf8 joinB.flatten) (readAs joinB) ∧
    (utf8 joinA.flatten).getLast? = some 10 ∧ sectAt (readAs joinA) (readAs joinA).length = .text ∧
    Within bd (readAs joinA ++ readAs joinB) := by
  refine ⟨⟨joinA, ⟨by decide +kernel, by decide +kernel, by decide +kernel, by decide +kernel⟩, ?_⟩,
    ⟨joinB, ⟨by decide +kernel, by decide +kernel, by decide +kernel, by decide +kernel⟩, ?_⟩,
    by decide +kernel, by decide +kernel, Small.within ⟨by decide +kernel, fun x => ?_⟩ bd⟩
  · cases bd <;> decide +kernel
  · cases bd <;> decide +kernel
  · cases x <;> decide +kernel

/-- The objects of the two, and the object of both together. -/
example :
    ((Assembler.new.readFrom .debug [utf8 joinA.flatten]).map (·.obj) = .ok { sections := {
      text := { bytes := [0x48, 0xB8, 0, 0, 0, 0, 0, 0, 0, 0], relocs := [⟨2, str% "x", false, 3⟩] }
      data := { bytes := [1, 2], symbols := [.ref (str% "x") 0 false] } } }) ∧
    ((Assembler.new.readFrom .debug [utf8 joinB.flatten]).map (·.obj) = .ok { sections := {
      text := { bytes := [0x48, 0xBB, 0, 0, 0, 0, 0, 0, 0, 0], symbols := [.ref (str% "g") 0 false],
                relocs := [⟨2, str% "x", false, 3⟩] }
      data := { bytes := [3], symbols := [.ref (str% "y") 0 false] } } }) ∧
    ((Assembler.new.readFrom .debug [utf8 joinA.flatten, utf8 joinB.flatten]).map (·.obj) = .ok { sections := {
      text := { bytes := [0x48, 0xB8, 0, 0, 0, 0, 0, 0, 0, 0, 0x48, 0xBB, 0, 0, 0, 0, 0, 0, 0, 0],
                symbols := [.ref (str% "g") 10 true],
                relocs := [⟨2, str% "x", false, 3⟩, ⟨12, str% "x", false, 3⟩] }
      data := { bytes := [1, 2, 3], symbols := [.ref (str% "x") 0 false, .ref (str% "y") 2 false] } } }) := by
  decide +kernel

/-- A wrong second source. -/
example : Assembler.new.readFrom .release [utf8 (str% "foo\n")] = .error (.exit 1 (str% "error at line 1: unrecognized line\n")) ∧
    Assembler.new.readFrom .release [utf8 joinA.flatten, utf8 (str% "foo\n")] =
      .error (.exit 1 (str% "error at line 6: unrecognized line\n")) := by decide +kernel

end AT.Props
