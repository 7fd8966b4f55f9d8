import Verif.Props.Process
import Verif.Props.AsmRender
import Verif.Props.ObjWrap
import Verif.Props.Builds
import Verif.Props.Join
/-!
# The output is at most linear in the source (C102)
-/

namespace AT.Props
open AT AT.Asm AT.AsmSpec AT.X64 AT.Obj AT.Mac AT.MachO AT.ObjSpec

/-! ## What a line adds to the file -/

/-- The bytes a line adds to the file: its content, a relocation entry, and a symbol entry with a name
that ends with a NUL. -/
def lineCost (l : Line) : Nat :=
  (emits l).length + (match relocates l with | some _ => 8 | none => 0) +
    (match defines l with | some n => 17 + utf8Len n | none => 0)

theorem utf8Len_mem {c : Char} {s : Str} (h : c ∈ s) : 1 ≤ utf8Len s := by
  have := length_le_utf8Len s
  have := List.length_pos_of_mem h
  omega

/-- Twice what a line may cost. -/
def lineRoom (s : Str) : Nat := 17 * utf8Len s + (if '\n' ∈ s then 0 else 17)

/-- A line costs at most 17 bytes for two of its own, and half as much more if it is not terminated. -/
theorem lineCost_le {bd : Build} {s : Str} {l : Line} (h : parseLine bd s = .ok l) :
    2 * lineCost l ≤ lineRoom s := by
  unfold lineRoom
  cases l with
  | symbol n =>
    obtain ⟨_, c, k, hc, ht⟩ := (C41_label bd s n).1 h
    have hs : ∃ w r, s = w ++ (n ++ List.replicate (k + 1) ':') ++ r ∧ Solid (n ++ List.replicate (k + 1) ':') := by
      generalize n ++ List.replicate (k + 1) ':' = x at ht
      cases ht with
      | cons w _ rest _ _ _ hx =>
        rcases hc.2 with rfl | ⟨r, rfl⟩
        · exact ⟨w, rest, rfl, hx⟩
        · exact ⟨w, rest ++ ';' :: r, by simp, hx⟩
    obtain ⟨w, r, rfl, hx⟩ := hs
    have h1 : 1 ≤ utf8Len (List.replicate (k + 1) ':') := utf8Len_mem (c := ':') (by simp)
    have h2 : 2 * lineCost (.symbol n) = 34 + 2 * utf8Len n := by
      show 2 * (0 + 0 + (17 + utf8Len n)) = _
      omega
    rw [h2]
    simp only [utf8Len_append]
    split
    · rename_i hn
      have : 1 ≤ utf8Len w + utf8Len r := by
        rcases List.mem_append.1 hn with hn | hn
        · rcases List.mem_append.1 hn with hn | hn
          · have := utf8Len_mem hn; omega
          · exact absurd (hx _ hn) (by decide)
        · have := utf8Len_mem hn; omega
      omega
    · omega
  | data d =>
    obtain ⟨c, w, txt, its, hc, hl, hi, hst⟩ := (C42_data bd s d).1 h
    have h1 := stored_le (dataLine_le hl).1 hi hst
    have h2 := code_le hc
    have h3 : lineCost (.data d) = d.bytes.length + (match d.label with | some n => 17 + utf8Len n | none => 0) := rfl
    rw [h3]
    generalize d.label = lab at hl
    cases hl with
    | plain w0 dir w1 txt w2 w hd =>
      simp only [utf8Len_append] at h2
      simp only
      omega
    | labelled w0 l w1 dir w2 txt w3 w _ hd _ hw1 _ hw2 =>
      simp only [utf8Len_append] at h2
      have e1 := length_le_utf8Len w1
      have e2 := length_le_utf8Len w2
      have e3 := List.length_pos_iff.2 hw1
      have e4 := List.length_pos_iff.2 hw2
      simp only
      omega
  | instruction i =>
    obtain ⟨c, x, hc, _, hx, hy⟩ := (inst_lines bd s i).1 h
    have h1 := (yields_len hx hy).2
    have h2 := instLine_len hx
    have h3 := code_le hc
    have h4 : lineCost (.instruction i) ≤ i.bytes.asRef.length + 8 := by
      show i.bytes.asRef.length + (match i.reloc with | some _ => 8 | none => 0) + 0 ≤ _
      split <;> omega
    omega
  | _ => simp [lineCost, emits, relocates, defines]

/-! ## What the lines add together -/

theorem sumTo_add (f g : Nat → Nat) : ∀ n, sumTo (fun k => f k + g k) n = sumTo f n + sumTo g n
  | 0 => rfl
  | n + 1 => by rw [sumTo, sumTo, sumTo, sumTo_add f g n]; omega

theorem sumTo_double (f : Nat → Nat) : ∀ n, sumTo (fun k => 2 * f k) n = 2 * sumTo f n
  | 0 => rfl
  | n + 1 => by rw [sumTo, sumTo, sumTo_double f n]; omega

theorem sum_const {α : Type} (c : Nat) (l : List α) : (l.map (fun _ => c)).sum = c * l.length := by
  induction l with
  | nil => rfl
  | cons a l ih => simp only [List.map_cons, List.sum_cons, ih, List.length_cons, Nat.mul_add]; omega

theorem contents_sum (ls : List Line) (n : Nat) (hn : n ≤ ls.length) :
    (content ls .text n).length + (content ls .data n).length ≤
      sumTo (fun k => match ls[k]? with | some l => (emits l).length | none => 0) n := by
  induction n with
  | zero => simp [content, sumTo]
  | succ n ih =>
    have hlt : n < ls.length := by omega
    rw [content_succ, content_succ, sumTo, List.length_append, List.length_append]
    have he : (emitsAt ls .text n).length + (emitsAt ls .data n).length ≤ (emits ls[n]).length := by
      unfold emitsAt
      rw [List.getElem?_eq_getElem hlt]
      simp only
      cases sectAt ls n <;> simp
    have := ih (by omega)
    rw [List.getElem?_eq_getElem hlt]
    simp only
    omega

/-- The parts of the file that depend on the lines. -/
theorem parts_sum (ls : List Line) :
    (content ls .text ls.length).length + (content ls .data ls.length).length +
      8 * ((relocations ls .text).length + (relocations ls .data).length) +
      ((table ls).map (fun e => 17 + utf8Len e.name)).sum ≤
    sumTo (fun k => match ls[k]? with | some l => lineCost l | none => 0) ls.length := by
  have h1 := contents_sum ls ls.length (Nat.le_refl _)
  have h2 := filterMap_sum (relocAt ls) (fun _ => 8)
    (fun k => match ls[k]? with | some l => (match relocates l with | some _ => 8 | none => 0) | none => 0)
    (sectAt ls) (by
      intro x k p hk
      obtain ⟨i, hi, hr, h, _⟩ := relocAt_some (off := p.1) (lr := p.2) hk
      refine ⟨h, ?_⟩
      rw [hi]
      simp [relocates, hr]) ls.length
  have h3 := filterMap_sum (labelAt ls) (fun p => 17 + utf8Len p.1)
    (fun k => match ls[k]? with | some l => (match defines l with | some n => 17 + utf8Len n | none => 0) | none => 0)
    (sectAt ls) (by
      intro x k p hk
      obtain ⟨hs, l, hl, hd⟩ := labelAt_def hk
      refine ⟨hs, ?_⟩
      rw [hl]
      simp [hd]) ls.length
  rw [sum_const, sum_const] at h2
  have ht : ((table ls).map (fun e => 17 + utf8Len e.name)).sum ≤
      ((labels ls .text).map (fun p => 17 + utf8Len p.1)).sum +
      ((labels ls .data).map (fun p => 17 + utf8Len p.1)).sum := by
    unfold table
    rcases stored_cases ls with e | e | e | e <;> rw [e] <;> simp [Function.comp_def]
  have hsum : sumTo (fun k => match ls[k]? with | some l => lineCost l | none => 0) ls.length =
      sumTo (fun k => match ls[k]? with | some l => (emits l).length | none => 0) ls.length +
      sumTo (fun k => match ls[k]? with | some l => (match relocates l with | some _ => 8 | none => 0) | none => 0)
        ls.length +
      sumTo (fun k => match ls[k]? with
        | some l => (match defines l with | some n => 17 + utf8Len n | none => 0) | none => 0) ls.length := by
    rw [← sumTo_add, ← sumTo_add]
    congr 1
    funext k
    cases ls[k]? <;> rfl
  unfold labels at ht
  unfold relocations
  omega

/-- Only the last line may lack its line feed. -/
theorem unterminated {ss : List Str} {input : Bytes} (hc : Cut input (ss.map utf8)) :
    (ss.map (fun s => if '\n' ∈ s then 0 else 17)).sum ≤ 17 := by
  rcases List.eq_nil_or_concat ss with rfl | ⟨i, t, rfl⟩
  · simp
  · have hz : ∀ s ∈ i, '\n' ∈ s := by
      intro s hs
      have := hc.ends (utf8 s) (by
        rw [List.concat_eq_append, List.map_append, List.map_singleton, List.dropLast_concat]
        exact List.mem_map.2 ⟨s, hs, rfl⟩)
      exact newline_mem_utf8.1 (List.mem_of_getLast? this)
    have h0 : (i.map (fun s => if '\n' ∈ s then 0 else 17)).sum = 0 := by
      clear hc
      induction i with
      | nil => rfl
      | cons a i ih =>
        rw [List.map_cons, List.sum_cons, ih (fun s hs => hz s (by simp [hs])), if_pos (hz a (by simp))]
    rw [List.concat_eq_append, List.map_append, List.sum_append, h0]
    simp only [List.map_cons, List.map_nil, List.sum_cons, List.sum_nil]
    split <;> omega

theorem program_cost {bd : Build} {ss : List Str} {ls : List Line} {input : Bytes} (hc : Cut input (ss.map utf8))
    (hp : ReadsAll bd ss ls) :
    2 * sumTo (fun k => match ls[k]? with | some l => lineCost l | none => 0) ls.length ≤ 17 * input.length + 17 := by
  have hlen : ss.length = ls.length := hp.1
  have h1 := sumTo_le (f := fun k => 2 * (match ls[k]? with | some l => lineCost l | none => 0))
    (g := fun k => match ss[k]? with | some s => lineRoom s | none => 0)
    ls.length (by
      intro k hk
      obtain ⟨s, hs, hl⟩ := map_eq_get hp (List.getElem?_eq_getElem hk)
      rw [hs, List.getElem?_eq_getElem hk]
      exact lineCost_le hl)
  rw [sumTo_double] at h1
  have hg := sumTo_get lineRoom ss
  rw [hlen] at hg
  replace h1 := Nat.le_trans h1 (Nat.le_of_eq hg)
  have h2 : ∀ l : List Str, (l.map lineRoom).sum =
      17 * (l.map utf8Len).sum + (l.map (fun s => if '\n' ∈ s then 0 else 17)).sum := by
    intro l
    induction l with
    | nil => rfl
    | cons a l ih => simp only [List.map_cons, List.sum_cons, ih, Nat.mul_add, lineRoom]; omega
  rw [h2, (lens_eq hc).1] at h1
  have := unterminated hc
  omega

/-! ## The file -/

theorem split_sum (l : List Def) : (l.map (fun e => 17 + utf8Len e.name)).sum =
    16 * l.length + (l.map (fun e => utf8Len e.name + 1)).sum := by
  induction l with
  | nil => rfl
  | cons a l ih => simp only [List.map_cons, List.sum_cons, ih, List.length_cons]; omega

theorem fileLen_le {bd : Build} {input : Bytes} {ls : List Line} (hp : Program bd input ls) (hb : NoBssContent ls) :
    2 * fileLen (ObjSpec.parts (objectOf ls)) ≤ 17 * input.length + 609 := by
  obtain ⟨ss, hc, hr⟩ := hp
  obtain ⟨-, h2, h3⟩ := (objOf_objectOf ls hb).lens (relocsOk_of hr)
  have h4 := program_cost hc hr
  have h5 := parts_sum ls
  have h6 := split_sum (table ls)
  have h7 : (stored ls).length ≤ 2 := by rcases stored_cases ls with e | e | e | e <;> rw [e] <;> decide
  unfold fileLen
  rw [h2, h3]
  unfold roundUp8
  omega

/-- What is written of an object is never longer than its file. -/
theorem written_le (bd : Build) (h : Endian) (o : Object) (ht : o.sections.text.bytes.length < 2 ^ 64)
    (hd : o.sections.data.bytes.length < 2 ^ 64) : (writeInto bd h o).out.length ≤ fileLen (ObjSpec.parts o) := by
  have key : (writeInto .release h o).out.length ≤ fileLen (ObjSpec.parts o) := by
    by_cases hx : Expressible o
    · exact Nat.le_of_eq (((C78_release h o ht hd).2.2 hx _).2 rfl).length
    · have := ((C78_panics .release h o ht hd (.inl rfl) hx).2 _).2 rfl
      rw [this.1]
      unfold fileLen strStart symStart
      omega
  cases bd with
  | release => exact key
  | debug => exact Nat.le_trans (C63_write_into h o).2.length_le key

theorem written_bound (bd : Build) (h : Endian) (c : Bytes → List Bytes) (hc : Splits c) (src : Bytes)
    (hsize : src.length < 2 ^ 60) : 2 * (written bd h (c src)).1.length ≤ 17 * src.length + 609 := by
  rcases written_kinds bd h c hc src with ⟨e, -, hw⟩ | ⟨ls, hp, hb, -, hw⟩
  · rw [hw]
    simp
  · rw [hw]
    obtain ⟨h1, h2⟩ := wrap_conditions hp hsize
    have h3 := written_le bd h (objectOf ls) h1 h2
    have h4 := fileLen_le hp hb
    show 2 * (writeInto bd h (objectOf ls)).out.length ≤ _
    omega

/-! ## Labels without a name -/

/-- A return, and `n` labels with the empty name. -/
def colons (n : Nat) : Bytes := utf8 (str% "ret\n") ++ (List.replicate n (utf8 (str% ":\n"))).flatten

/-- The program `colons n`. -/
def colonLines (n : Nat) : List Line :=
  Line.instruction (assembled (.plain .ret)) :: List.replicate n (Line.symbol [])

theorem colons_succ (n : Nat) : colons (n + 1) = colons n ++ utf8 (str% ":\n") := by
  unfold colons
  rw [List.replicate_succ', List.flatten_append, List.flatten_singleton, List.append_assoc]

theorem colonLines_succ (n : Nat) : colonLines (n + 1) = colonLines n ++ [.symbol []] := by
  unfold colonLines
  rw [List.replicate_succ', List.cons_append]

theorem colons_length (n : Nat) : (colons n).length = 4 + 2 * n := by
  induction n with
  | zero => decide
  | succ n ih =>
    rw [colons_succ, List.length_append, ih]
    have : (utf8 (str% ":\n")).length = 2 := by decide
    omega

theorem colons_program (bd : Build) (n : Nat) : Program bd (colons n) (colonLines n) ∧ (colons n).getLast? = some 10 := by
  have one : ∀ (s : Str) (l : Line), s ≠ [] → (10 : UInt8) ∉ (utf8 s).dropLast → utf8 s ≠ [] →
      parseLine bd s = .ok l → Program bd (utf8 s) [l] := by
    intro s l _ h1 h2 h3
    exact program_iff.2 ⟨[s], ⟨by simp, by simpa using h2, by simpa using h1, by simp⟩, by simp [h3]⟩
  induction n with
  | zero =>
    refine ⟨?_, by decide⟩
    have := one (str% "ret\n") (.instruction (assembled (.plain .ret))) (by decide) (by decide) (by decide)
      (by cases bd <;> decide +kernel)
    simpa [colons, colonLines] using this
  | succ n ih =>
    rw [colons_succ, colonLines_succ]
    refine ⟨program_append ih.1 (one _ _ (by decide) (by decide) (by decide) (by cases bd <;> decide +kernel)) (.inr ih.2), ?_⟩
    rw [List.getLast?_append]
    rfl

theorem colonLines_sizes (n : Nat) :
    sectAt (colonLines n) (colonLines n).length = .text ∧ content (colonLines n) .text (colonLines n).length = [0xc3] ∧
    content (colonLines n) .data (colonLines n).length = [] ∧
    (labels (colonLines n) .text).map (·.1) = List.replicate n [] ∧
    (∀ x, relocations (colonLines n) x = []) ∧ NoBssContent (colonLines n) := by
  induction n with
  | zero =>
    refine ⟨by decide, by decide +kernel, by decide +kernel, by decide +kernel, ?_, ?_⟩
    · intro x; cases x <;> decide +kernel
    · intro k l hk hs
      have : colonLines 0 = [Line.instruction (assembled (.plain .ret))] := rfl
      rw [this] at hk hs
      cases k with
      | zero => exact absurd hs (by decide)
      | succ k => simp at hk
  | succ n ih =>
    obtain ⟨h1, h2, h3, h4, h5, h6⟩ := ih
    rw [colonLines_succ]
    refine ⟨?_, ?_, ?_, ?_, ?_, ?_⟩
    · rw [List.length_append, List.length_singleton, sectAt_snoc, h1]; rfl
    · rw [List.length_append, List.length_singleton, content_snoc, h2]; simp [emits]
    · rw [List.length_append, List.length_singleton, content_snoc, h3]; simp [emits]
    · rw [labels_snoc, List.map_append, h4, if_pos h1, List.replicate_succ']; rfl
    · intro x
      rw [relocations_snoc, h5 x]
      simp [relocates]
    · exact (noBss_snoc _ _).2 ⟨h6, fun _ => id⟩

theorem colonLines_table (n : Nat) : stored (colonLines n) = [.text] ∧
    (table (colonLines n)).map (·.name) = List.replicate n [] := by
  obtain ⟨-, h2, h3, h4, -, -⟩ := colonLines_sizes n
  have hs : stored (colonLines n) = [.text] := by unfold stored; simp [h2, h3]
  refine ⟨hs, ?_⟩
  unfold table
  rw [hs]
  simpa [Function.comp_def] using h4

/-! ## C102 -/

/-- C102: whatever the source says and however the run ends, the output is no longer than
`(17 * n + 609) / 2` bytes for a source of `n` bytes. -/
theorem C102_linear (bd : Build) (h : Endian) (c : Bytes → List Bytes) (hc : Splits c) (fs : FS) (args : List Str)
    (inp out : Str) (src : Bytes) (ha : Asks args inp out) (hs : Source fs inp out src) (hsize : src.length < 2 ^ 60) :
    ∃ f, (main bd h c fs args).1.content (fs.node out) = some f ∧ 2 * f.length ≤ 17 * src.length + 609 := by
  rcases main_source bd h c fs args ((asks_iff ..).1 ha) with ⟨src', hs', hm⟩ | ⟨hno, -⟩
  · rw [source_unique hs' hs] at hm
    rw [hm]
    exact ⟨_, by simp [FS.set], written_bound bd h c hc src hsize⟩
  · exact absurd hs (hno src)

/-- C102, the factor cannot be improved: for every `n` there is a source of `4 + 2 * n` bytes from which
the release build makes a file of `217 + 17 * n` bytes. -/
theorem C102_sharp (h : Endian) (c : Bytes → List Bytes) (hc : Splits c) (fs : FS) (args : List Str) (inp out : Str)
    (n : Nat) (ha : Asks args inp out) (hn : n < 2 ^ 58) (hs : Source fs inp out (colons n)) :
    (colons n).length = 4 + 2 * n ∧ (main .release h c fs args).2 = .ok () ∧
    ∃ f, (main .release h c fs args).1.content (fs.node out) = some f ∧ f.length = 217 + 17 * n := by
  refine ⟨colons_length n, ?_⟩
  obtain ⟨-, h2, h3, -, h5, h6⟩ := colonLines_sizes n
  obtain ⟨t1, t2⟩ := colonLines_table n
  have hp := (colons_program .release n).1
  have hw : Within .release (colonLines n) := ⟨fun hb => (by cases hb), fun hb => (by cases hb)⟩
  have hsz : (colons n).length < 2 ^ 60 := by rw [colons_length]; omega
  obtain ⟨w1, w2⟩ := wrap_conditions hp hsz
  have ho := objOf_objectOf (colonLines n) h6
  have hx : Expressible (objectOf (colonLines n)) := by
    have hr : allRelocs (objectOf (colonLines n)) = [] := by
      unfold allRelocs
      rw [ho.partsEq, t1]
      simp [partOf, relsOf, h5]
    have hnm : symNames (objectOf (colonLines n)) = List.replicate n [] := by
      unfold symNames
      rw [ho.placedEq, ← t2]
      simp [Function.comp_def, Symbol.name, symOf]
    refine ⟨fun m hm => ?_, fun r hm => ?_, fun r hm => ?_⟩
    · rw [hnm] at hm
      cases List.eq_of_mem_replicate hm
      simp
    · rw [hr] at hm; cases hm
    · rw [hr] at hm; cases hm
  obtain ⟨r1, -, r3⟩ := C78_release h (objectOf (colonLines n)) w1 w2
  have hlen : (writeInto .release h (objectOf (colonLines n))).out.length = 217 + 17 * n := by
    rw [((r3 hx _).2 rfl).length]
    obtain ⟨ss, hcut, hr⟩ := hp
    obtain ⟨-, l2, l3⟩ := ho.lens (relocsOk_of hr)
    have e1 : (table (colonLines n)).length = n := by
      have := congrArg List.length t2
      simpa using this
    have e2 : ((table (colonLines n)).map (fun e => utf8Len e.name + 1)).sum = n := by
      have : (table (colonLines n)).map (fun e => utf8Len e.name + 1) =
          ((table (colonLines n)).map (·.name)).map (fun m => utf8Len m + 1) := by simp
      rw [this, t2, List.map_replicate, List.sum_replicate_nat]
      simp [utf8Len, utf8_nil]
    unfold fileLen
    rw [l2, l3, t1, h2, h3, h5, h5, e1, e2]
    simp [roundUp8]
    omega
  rcases main_source .release h c fs args ((asks_iff ..).1 ha) with ⟨src', hs', hm⟩ | ⟨hno, -⟩
  · rw [source_unique hs' hs, written_program .release h c hc hp h6 hw] at hm
    rw [hm]
    exact ⟨r1.2 hx, _, by simp [FS.set], hlen⟩
  · exact absurd hs (hno _)

/-- A file with a return and three labels without a name. -/
def colonFs : FS := {
  node := fun p => if p = str% "a.s" then 0 else 1
  content := fun n => if n = 0 then some (colons 3) else none
  canRead := fun _ => true
  canWrite := fun _ => true }

/-- C102 applies to it: ten bytes of source, 268 bytes of output. -/
example : Source colonFs (str% "a.s") (str% "a.o") (colons 3) ∧ (colons 3).length = 10 ∧
    ((main .release .little (fun b => if b = [] then [] else [b]) colonFs [str% "as", str% "a.s"]).1.content 1).map
      List.length = some 268 :=
  ⟨⟨rfl, rfl, colons 3, by decide, .inr ⟨by decide, rfl⟩⟩, by decide, by decide +kernel⟩

end AT.Props
