import Verif.Props.EndToEnd
import Verif.Props.Oversize
/-!
# When a run succeeds (C64)
-/

namespace AT.Props
open AT.Asm AT.AsmSpec AT.X64 AT.Obj AT.Mac AT.MachO AT.ObjSpec
open X86 (OperandsOk)

/-! ## A line emits at most eight bytes per byte of text -/

theorem utf8Len_append (s t : Str) : utf8Len (s ++ t) = utf8Len s + utf8Len t := by
  simp [utf8Len, utf8_append]

theorem utf8Len_cons (c : Char) (s : Str) : 1 + utf8Len s ≤ utf8Len (c :: s) := by
  have := utf8Len_append [c] s
  have h := length_le_utf8Len [c]
  rw [List.singleton_append] at this
  rw [this]
  simp only [List.length_singleton] at h
  omega

theorem number_ne_nil {a : Str} {n : Nat} (h : Number a n) : a ≠ [] := by
  rintro rfl
  have key : ∀ d b m, ¬ Digits d b [] m := by
    intro d b m hd
    generalize hs : ([] : Str) = s at hd
    cases hd <;> simp at hs
  rcases h with h | h
  · cases h with
    | dec _ _ h => exact key _ _ _ h
  · generalize hs : ([] : Str) = s at h
    cases h with
    | plusDec => simp at hs
    | plusHex k => simp [zeroXs] at hs
    | again k => simp [zeroXs] at hs

theorem number_pos {a : Str} {n : Nat} (h : Number a n) : 1 ≤ utf8Len a := by
  have := length_le_utf8Len a
  have := List.length_pos_iff.2 (number_ne_nil h)
  omega

theorem stored_le {w : Nat} (hw : w ≤ 8) {txt : Str} {its : List Item} (h : Items txt its) :
    ∀ {bs : Bytes}, Stored w its bs → bs.length ≤ 8 * utf8Len txt := by
  induction h with
  | nil => intro bs hs; cases hs; simp
  | last a n hn _ =>
    intro bs hs
    cases hs with
    | cons _ _ b bs' hi hs' =>
      cases hs'
      have h1 : b.length = w := hi.1
      have := number_pos hn
      rw [List.append_nil]
      omega
  | num a n c w' rest its hn _ _ _ _ ih =>
    intro bs hs
    cases hs with
    | cons _ _ b bs' hi hs' =>
      have h1 : b.length = w := hi.1
      have h2 := ih hs'
      have := number_pos hn
      have h3 := utf8Len_append a (c :: (w' ++ rest))
      have h4 := utf8Len_cons c (w' ++ rest)
      have h5 := utf8Len_append w' rest
      rw [List.length_append]
      omega
  | str body w' rest its _ _ _ ih =>
    intro bs hs
    cases hs with
    | cons _ _ b bs' hi hs' =>
      obtain ⟨p, rfl, hp, _⟩ := hi
      have h2 := ih hs'
      have h3 := utf8Len_cons '"' (body ++ '"' :: (w' ++ rest))
      have h4 := utf8Len_append body ('"' :: (w' ++ rest))
      have h5 := utf8Len_cons '"' (w' ++ rest)
      have h6 := utf8Len_append w' rest
      rw [List.length_append, List.length_append, List.length_replicate]
      have : (utf8 body).length = utf8Len body := rfl
      omega

theorem code_le {s c : Str} (h : Code s c) : utf8Len c ≤ utf8Len s := by
  rcases h.2 with rfl | ⟨r, rfl⟩
  · exact Nat.le_refl _
  · rw [utf8Len_append]; omega

theorem tokens_head_le {c t : Str} {ts : List Str} (h : Tokens c (t :: ts)) : utf8Len t ≤ utf8Len c := by
  cases h with
  | cons w _ rest _ =>
    rw [utf8Len_append, utf8Len_append]
    omega

theorem movLine_le {c d s : Str} (h : MovLine c d s) : 3 ≤ utf8Len c := by
  obtain ⟨w0, a, b, d', e, _, _, _, _, _, _, _, _, _, _, rfl⟩ := h
  rw [utf8Len_append, utf8Len_append]
  have : utf8Len (str% "mov") = 3 := by decide
  omega

theorem bytecode_le {x : Inst} {b : BytesAtMost 15} (hok : OperandsOk x) (h : x.bytecode = .ok b) :
    1 ≤ b.asRef.length ∧ b.asRef.length ≤ 15 := by
  obtain ⟨bs, he, h1, h2⟩ := C06_encodes x hok
  cases Encodes.unique he ⟨b, h, rfl⟩
  exact ⟨h1, h2⟩

theorem instLine_len {bd : Build} {c : Str} {x : SrcInst} (h : InstLine bd c x) : 3 ≤ utf8Len c := by
  have h1 : utf8Len (str% "push") = 4 := by decide
  have h2 : utf8Len (str% "ret") = 3 := by decide
  have h3 : utf8Len (str% "syscall") = 7 := by decide
  cases h with
  | mov64Reg _ _ h | mov32Reg _ _ h | mov16Reg _ _ h => exact movLine_le h
  | mov64Const _ _ _ h | mov32Const _ _ _ _ h | mov16Const _ _ _ _ h => exact movLine_le h
  | mov64Sym _ _ h | mov32Sym _ _ h => exact movLine_le h
  | pushReg _ _ h => have := tokens_head_le h; omega
  | pushU8 _ _ _ h => have := tokens_head_le h; omega
  | pushU32 _ _ _ h => have := tokens_head_le h; omega
  | ret _ h => have := tokens_head_le h; omega
  | syscall _ h => have := tokens_head_le h; omega

theorem yields_len {bd : Build} {c : Str} {x : SrcInst} {i : Instruction} (hx : InstLine bd c x)
    (h : AT.AsmSpec.Yields x i) : 1 ≤ i.bytes.asRef.length ∧ i.bytes.asRef.length ≤ 15 := by
  cases hx <;> (refine bytecode_le ?_ h.1; trivial)

theorem dataLine_le {c : Str} {lab : Option Str} {w : Nat} {txt : Str} (h : DataLine c lab w txt) :
    w ≤ 8 ∧ utf8Len txt ≤ utf8Len c ∧ ∀ n, lab = some n → ∃ p q, c = p ++ n ++ q := by
  have hw : ∀ d, (d, w) ∈ directives → w ≤ 8 := by
    intro d hd
    simp only [directives, List.mem_cons, Prod.mk.injEq, List.not_mem_nil, or_false] at hd
    omega
  cases h with
  | plain w0 dir w1 txt w2 w hd =>
    refine ⟨hw _ hd, ?_, fun n hn => by simp at hn⟩
    simp only [utf8Len_append]
    omega
  | labelled w0 l w1 dir w2 txt w3 w _ hd =>
    refine ⟨hw _ hd, ?_, fun n hn => ⟨w0, w1 ++ dir ++ w2 ++ txt ++ w3, ?_⟩⟩
    · simp only [utf8Len_append]
      omega
    · cases hn; simp

theorem emits_le {bd : Build} {s : Str} {l : Line} (h : parseLine bd s = .ok l) :
    (emits l).length ≤ 8 * utf8Len s := by
  cases l with
  | data d =>
    obtain ⟨c, w, txt, its, hc, hl, hi, hst⟩ := (C42_data bd s d).1 h
    obtain ⟨h1, h2, _⟩ := dataLine_le hl
    have h3 := stored_le h1 hi hst
    have h4 := code_le hc
    show d.bytes.length ≤ _
    omega
  | instruction i =>
    obtain ⟨c, x, hc, _, hx, hy⟩ := (inst_lines bd s i).1 h
    have h1 := (yields_len hx hy).2
    have h2 := instLine_len hx
    have h3 := code_le hc
    show i.bytes.asRef.length ≤ _
    omega
  | _ => simp [emits]

theorem defines_sub {bd : Build} {s n : Str} {l : Line} (h : parseLine bd s = .ok l) (hd : defines l = some n) :
    ∃ p q, s = p ++ n ++ q := by
  have key : ∀ c, Code s c → (∃ p q, c = p ++ n ++ q) → ∃ p q, s = p ++ n ++ q := by
    rintro c hc ⟨p, q, rfl⟩
    rcases hc.2 with rfl | ⟨r, rfl⟩
    · exact ⟨p, q, rfl⟩
    · exact ⟨p, q ++ ';' :: r, by simp⟩
  cases l with
  | symbol m =>
    cases hd
    obtain ⟨_, c, k, hc, ht⟩ := (C41_label bd s n).1 h
    refine key c hc ?_
    generalize hx : n ++ List.replicate (k + 1) ':' = x at ht
    cases ht with
    | cons w _ rest _ => exact ⟨w, List.replicate (k + 1) ':' ++ rest, by rw [← hx]; simp⟩
  | data d =>
    obtain ⟨c, w, txt, its, hc, hl, _⟩ := (C42_data bd s d).1 h
    exact key c hc ((dataLine_le hl).2.2 n hd)
  | _ => simp [defines] at hd

/-! ## The size of the whole program -/

/-- Sum of `f k` for `k < n`. -/
def sumTo (f : Nat → Nat) : Nat → Nat
  | 0 => 0
  | n + 1 => sumTo f n + f n

theorem sumTo_le {f g : Nat → Nat} : ∀ n, (∀ k < n, f k ≤ g k) → sumTo f n ≤ sumTo g n
  | 0, _ => Nat.le_refl _
  | n + 1, h => Nat.add_le_add (sumTo_le n fun k hk => h k (by omega)) (h n (by omega))

theorem sumTo_get (f : Str → Nat) (ss : List Str) :
    sumTo (fun k => match ss[k]? with | some s => f s | none => 0) ss.length = (ss.map f).sum := by
  have : ∀ n, n ≤ ss.length →
      sumTo (fun k => match ss[k]? with | some s => f s | none => 0) n = ((ss.take n).map f).sum := by
    intro n
    induction n with
    | zero => simp [sumTo]
    | succ n ih =>
      intro hn
      have hlt : n < ss.length := by omega
      rw [sumTo, ih (by omega), List.take_add_one, List.getElem?_eq_getElem hlt]
      simp only [List.map_append, List.sum_append, Option.toList_some, List.map_cons, List.map_nil,
        List.sum_cons, List.sum_nil, Nat.add_zero]
  have := this ss.length (Nat.le_refl _)
  rwa [List.take_length] at this

/-- Something that happens at a line, in the section current there. -/
theorem filterMap_sum {α : Type} (at_ : Section → Nat → Option α) (f : α → Nat) (g : Nat → Nat) (sect : Nat → Section)
    (h : ∀ x k p, at_ x k = some p → sect k = x ∧ f p ≤ g k) (n : Nat) :
    (((List.range n).filterMap (at_ .text)).map f).sum + (((List.range n).filterMap (at_ .data)).map f).sum ≤
      sumTo g n := by
  induction n with
  | zero => simp [sumTo]
  | succ n ih =>
    rw [List.range_succ, List.filterMap_append, List.filterMap_append, List.map_append, List.map_append,
      List.sum_append, List.sum_append, sumTo]
    cases h1 : at_ .text n with
    | none =>
      cases h2 : at_ .data n with
      | none => simp [h1, h2]; omega
      | some p => have := (h _ _ _ h2).2; simp [h1, h2]; omega
    | some p =>
      cases h2 : at_ .data n with
      | none => have := (h _ _ _ h1).2; simp [h1, h2]; omega
      | some q => have e1 := (h _ _ _ h1).1; have e2 := (h _ _ _ h2).1; rw [e1] at e2; simp at e2

theorem contents_le {bd : Build} {ss : List Str} {ls : List Line} (hp : ReadsAll bd ss ls)
    (n : Nat) (hn : n ≤ ls.length) :
    (content ls .text n).length + (content ls .data n).length ≤
      sumTo (fun k => match ss[k]? with | some s => 8 * utf8Len s | none => 0) n := by
  induction n with
  | zero => simp [content, sumTo]
  | succ n ih =>
    have hlt : n < ls.length := by omega
    obtain ⟨s, hs, hl⟩ := map_eq_get hp (List.getElem?_eq_getElem hlt)
    have := emits_le hl
    rw [content_succ, content_succ, sumTo, List.length_append, List.length_append]
    have he : (emitsAt ls .text n).length + (emitsAt ls .data n).length ≤ 8 * utf8Len s := by
      unfold emitsAt
      rw [List.getElem?_eq_getElem hlt]
      simp only
      cases sectAt ls n <;> simp <;> omega
    have := ih (by omega)
    rw [hs]
    simp only
    omega

theorem lens_eq {ss : List Str} {input : Bytes} (hc : Cut input (ss.map utf8)) :
    (ss.map utf8Len).sum = input.length ∧ ss.length ≤ input.length := by
  have h1 : (ss.map utf8Len).sum = input.length := by
    rw [← hc.all, List.length_flatten, List.map_map]
    rfl
  refine ⟨h1, ?_⟩
  rw [← h1]
  have hne : ∀ s ∈ ss, 1 ≤ utf8Len s := by
    intro s hs
    have := hc.nonempty (utf8 s) (List.mem_map.2 ⟨s, hs, rfl⟩)
    exact List.length_pos_iff.2 this
  clear h1 hc
  induction ss with
  | nil => simp
  | cons s ss ih =>
    have h1 := ih (fun t ht => hne t (by simp [ht]))
    have h2 := hne s (by simp)
    simp only [List.map_cons, List.sum_cons, List.length_cons]
    omega

theorem sum_mul (c : Nat) (ss : List Str) : (ss.map (fun s => c * utf8Len s)).sum = c * (ss.map utf8Len).sum := by
  induction ss with
  | nil => simp
  | cons s ss ih => simp only [List.map_cons, List.sum_cons, ih, Nat.mul_add]

theorem sum_add (c : Nat) (ss : List Str) :
    (ss.map (fun s => c + utf8Len s)).sum = c * ss.length + (ss.map utf8Len).sum := by
  induction ss with
  | nil => simp
  | cons s ss ih => simp only [List.map_cons, List.sum_cons, ih, List.length_cons, Nat.mul_add]; omega

/-- Sizes of the program of a source of `N` bytes. -/
structure Sizes (ls : List Line) (N : Nat) : Prop where
  lines : ls.length ≤ N
  content : (content ls .text ls.length).length + (content ls .data ls.length).length ≤ 8 * N
  relocs : (relocations ls .text).length + (relocations ls .data).length ≤ N
  names : ((table ls).map (fun e => 17 + utf8Len e.name)).sum ≤ 18 * N
  count : (table ls).length ≤ N

theorem labelAt_def {ls : List Line} {x : Section} {k : Nat} {p : Str × Nat} (h : labelAt ls x k = some p) :
    sectAt ls k = x ∧ ∃ l, ls[k]? = some l ∧ defines l = some p.1 := by
  unfold labelAt at h
  cases hl : ls[k]? with
  | none => rw [hl] at h; simp at h
  | some l =>
    rw [hl] at h
    simp only at h
    split at h
    · rename_i hs
      refine ⟨hs, l, rfl, ?_⟩
      cases hd : defines l with
      | none => rw [hd] at h; simp at h
      | some m => rw [hd] at h; simp at h; rw [← h]
    · simp at h

theorem sumTo_one : ∀ n, sumTo (fun _ => 1) n = n
  | 0 => rfl
  | n + 1 => by rw [sumTo, sumTo_one n]

theorem sum_ones {α : Type} (l : List α) : (l.map (fun _ => 1)).sum = l.length := by
  induction l with
  | nil => rfl
  | cons a l ih => simp only [List.map_cons, List.sum_cons, ih, List.length_cons]; omega

theorem sizes {bd : Build} {ss : List Str} {ls : List Line} {input : Bytes} (hc : Cut input (ss.map utf8))
    (hp : ReadsAll bd ss ls) : Sizes ls input.length := by
  obtain ⟨h1, h2⟩ := lens_eq hc
  have hlen : ss.length = ls.length := hp.1
  refine ⟨by omega, ?_, ?_, ?_, ?_⟩
  · have := contents_le hp ls.length (Nat.le_refl _)
    rw [← hlen, sumTo_get (fun s => 8 * utf8Len s), sum_mul, h1] at this
    rw [← hlen]
    exact this
  · have h := filterMap_sum (relocAt ls) (fun _ => 1) (fun _ => 1) (sectAt ls) (by
      intro x k p hk
      obtain ⟨_, _, _, h, _⟩ := relocAt_some (off := p.1) (lr := p.2) hk
      exact ⟨h, Nat.le_refl _⟩) ls.length
    rw [sumTo_one, sum_ones, sum_ones] at h
    have : relocations ls .text = (List.range ls.length).filterMap (relocAt ls .text) := rfl
    have : relocations ls .data = (List.range ls.length).filterMap (relocAt ls .data) := rfl
    unfold relocations
    omega
  · have h := filterMap_sum (labelAt ls) (fun p => 17 + utf8Len p.1)
      (fun k => match ss[k]? with | some s => 17 + utf8Len s | none => 0) (sectAt ls) (by
      intro x k p hk
      obtain ⟨hs, l, hl, hd⟩ := labelAt_def hk
      refine ⟨hs, ?_⟩
      obtain ⟨s, hs', hparse⟩ := map_eq_get hp hl
      rw [hs']
      obtain ⟨a, b, rfl⟩ := defines_sub hparse hd
      simp only [utf8Len_append]
      omega) ls.length
    rw [← hlen, sumTo_get (fun s => 17 + utf8Len s), sum_add, h1] at h
    have ht : ((table ls).map (fun e => 17 + utf8Len e.name)).sum ≤
        ((labels ls .text).map (fun p => 17 + utf8Len p.1)).sum +
        ((labels ls .data).map (fun p => 17 + utf8Len p.1)).sum := by
      unfold table
      rcases stored_cases ls with e | e | e | e <;> rw [e] <;> simp [Function.comp_def]
    unfold labels at ht
    rw [← hlen] at ht
    omega
  · have h := filterMap_sum (labelAt ls) (fun _ => 1) (fun _ => 1) (sectAt ls)
      (fun x k p hk => ⟨(labelAt_def hk).1, Nat.le_refl _⟩) ls.length
    rw [sumTo_one, sum_ones, sum_ones] at h
    have ht : (table ls).length ≤ (labels ls .text).length + (labels ls .data).length := by
      unfold table
      rcases stored_cases ls with e | e | e | e <;> rw [e] <;> simp
    unfold labels at ht
    omega

/-! ## C64 -/

theorem nul_of_utf8 {s : Str} (h : (0 : UInt8) ∉ utf8 s) : ∀ c ∈ s, 0 < c.toNat := by
  intro c hc
  refine Nat.pos_of_ne_zero fun h0 => h ?_
  have : c = Char.ofNat 0 := by
    apply Char.ext
    apply UInt32.toNat_inj.1
    rw [show c.val.toNat = c.toNat from rfl, h0]
    rfl
  unfold utf8
  rw [List.mem_flatMap]
  exact ⟨c, hc, by rw [this]; decide⟩

theorem nul_free {bd : Build} {ss : List Str} {ls : List Line} {input : Bytes} (hc : Cut input (ss.map utf8))
    (hp : ReadsAll bd ss ls) (hnul : (0 : UInt8) ∉ input) (e : Def) (he : e ∈ table ls) :
    ∀ c ∈ e.name, 0 < c.toNat := by
  obtain ⟨_, hl⟩ := mem_table he
  unfold labels at hl
  rw [List.mem_filterMap] at hl
  obtain ⟨k, _, hk⟩ := hl
  obtain ⟨_, l, hl, hd⟩ := labelAt_def hk
  obtain ⟨s, hs, hparse⟩ := map_eq_get hp hl
  obtain ⟨a, b, rfl⟩ := defines_sub hparse hd
  intro c hcm
  refine nul_of_utf8 (s := a ++ e.name ++ b) (fun h => hnul ?_) c (by simp [hcm])
  rw [← hc.all, List.mem_flatten]
  exact ⟨_, List.mem_map.2 ⟨_, List.mem_of_getElem? hs, rfl⟩, h⟩

theorem name_le {bd : Build} {ss : List Str} {ls : List Line} {input : Bytes} (hc : Cut input (ss.map utf8))
    (hp : ReadsAll bd ss ls) {x : Section} {q : Str × Nat} (hq : q ∈ labels ls x) :
    utf8Len q.1 ≤ input.length := by
  unfold labels at hq
  rw [List.mem_filterMap] at hq
  obtain ⟨k, _, hk⟩ := hq
  obtain ⟨_, l, hl, hd⟩ := labelAt_def hk
  obtain ⟨s, hs, hparse⟩ := map_eq_get hp hl
  obtain ⟨a, b, rfl⟩ := defines_sub hparse hd
  have hm : utf8 (a ++ q.1 ++ b) ∈ ss.map utf8 := List.mem_map.2 ⟨_, List.mem_of_getElem? hs, rfl⟩
  have : ∀ (l : List Bytes) (b : Bytes), b ∈ l → b.length ≤ l.flatten.length := by
    intro l b hb
    induction l with
    | nil => simp at hb
    | cons c l ih =>
      rw [List.flatten_cons, List.length_append]
      rcases List.mem_cons.1 hb with rfl | hb
      · omega
      · have := ih hb
        omega
  have := this _ _ hm
  rw [hc.all] at this
  have e := utf8Len_append (a ++ q.1) b
  have e' := utf8Len_append a q.1
  unfold utf8Len at e e' ⊢
  omega

theorem reloc_lt {ls : List Line} {x : Section} {p : Nat × LocalReloc} (hr : RelocsOk ls)
    (hp : p ∈ relocations ls x) : p.1 < (content ls x ls.length).length := by
  unfold relocations at hp
  rw [List.mem_filterMap] at hp
  obtain ⟨k, _, hk⟩ := hp
  obtain ⟨i, hi, hrel, hs, hoff⟩ := relocAt_some (off := p.1) (lr := p.2) hk
  obtain ⟨r, hcont⟩ := content_split ls x k _ hi hs
  have := (hr k i hi).len hrel
  have := Nat.two_pow_pos p.2.len.toNat
  rw [hcont, List.length_append, List.length_append]
  show _ < _ + i.bytes.asRef.length + _
  omega

theorem _root_.AT.AsmSpec.Complete.acceptable {bd : Build} {ss : List Str} {ls : List Line} {input : Bytes}
    (hc : Cut input (ss.map utf8)) (hp : ReadsAll bd ss ls) (hnul : (0 : UInt8) ∉ input)
    (hsize : input.length < 2 ^ 24) (h : Complete ls) : Acceptable ls := by
  have hz := sizes hc hp
  have h1 := hz.lines
  have h2 := hz.content
  have h3 := hz.relocs
  have h4 := hz.names
  have h5 := hz.count
  refine ⟨⟨by omega, fun x p hm => ?_⟩, h.noBss, fun e he c hc' => ⟨nul_free hc hp hnul e he c hc', h.ascii e he c hc'⟩,
    fun x p hm => ?_, by omega, by omega⟩
  rotate_left
  · obtain ⟨e, he, hs⟩ := h.defined x p hm
    refine ⟨e, he, ?_⟩
    rwa [seen_plain (fun c hc' => by have := nul_free hc hp hnul e he c hc'; omega)] at hs
  have := reloc_lt (relocsOk_of hp) hm
  cases x with
  | text => omega
  | data => omega
  | bss => rw [content_bss ls h.noBss] at this; simp at this

/-- The sizes of the file of the object of a program. -/
theorem ObjOf.lens {ls : List Line} {o : Object} (h : ObjOf ls o) (hr : RelocsOk ls) :
    dataLen (ObjSpec.parts o) = (content ls .text ls.length).length + (content ls .data ls.length).length ∧
    strLen (ObjSpec.parts o) = 1 + ((table ls).map (fun e => utf8Len e.name + 1)).sum ∧
    strStart (ObjSpec.parts o) = 128 + 80 * (stored ls).length +
      roundUp8 ((content ls .text ls.length).length + (content ls .data ls.length).length) +
      8 * ((relocations ls .text).length + (relocations ls .data).length) + 16 * (table ls).length := by
  have hst : ∀ x, content ls x ls.length = [] → relocations ls x = [] := by
    intro x hx
    apply List.eq_nil_iff_forall_not_mem.2
    intro p hp
    have := reloc_lt hr hp
    rw [hx] at this
    simp at this
  have hsum : ∀ f : Section → Nat, (∀ x, content ls x ls.length = [] → f x = 0) →
      ((stored ls).map f).sum = f .text + f .data := by
    intro f hf
    have h1 := hf .text
    have h2 := hf .data
    unfold stored
    by_cases c1 : content ls .text ls.length = [] <;> by_cases c2 : content ls .data ls.length = [] <;>
      simp [c1, c2]
    · rw [h1 c1, h2 c2]
      rfl
    · exact h1 c1
    · exact h2 c2
  have hdata : dataLen (ObjSpec.parts o) =
      (content ls .text ls.length).length + (content ls .data ls.length).length := by
    unfold dataLen
    rw [h.partsEq, List.map_map]
    exact hsum (fun x => (content ls x ls.length).length) (fun x hx => by simp [hx])
  have hrel : relocCount (ObjSpec.parts o) = (relocations ls .text).length + (relocations ls .data).length := by
    unfold relocCount
    rw [h.partsEq, List.map_map]
    have := hsum (fun x => (relsOf ls x).length) (fun x hx => by simp [relsOf, hst x hx])
    simp only [relsOf, List.length_map] at this
    simpa [partOf, relsOf, Function.comp_def] using this
  have hlen : (ObjSpec.parts o).length = (stored ls).length := by rw [h.partsEq, List.length_map]
  have hsym : symCount (ObjSpec.parts o) = (table ls).length := by
    rw [← length_placed, h.placedEq, List.length_map]
  have hstr : strLen (ObjSpec.parts o) = 1 + ((table ls).map (fun e => utf8Len e.name + 1)).sum := by
    unfold strLen table
    rw [h.partsEq, List.map_map]
    rcases stored_cases ls with e | e | e | e <;> rw [e] <;>
      simp [partOf, finalSyms, Function.comp_def, Symbol.name]
  have hstart : strStart (ObjSpec.parts o) = 128 + 80 * (stored ls).length +
      roundUp8 ((content ls .text ls.length).length + (content ls .data ls.length).length) +
      8 * ((relocations ls .text).length + (relocations ls .data).length) + 16 * (table ls).length := by
    unfold strStart symStart relocStart cmdsEnd
    rw [hdata, hrel, hlen, hsym]
    omega
  exact ⟨hdata, hstr, hstart⟩

/-- The object of a program fits the format iff the program does. -/
theorem ObjOf.fits_iff {ls : List Line} {o : Object} (h : ObjOf ls o) (hr : RelocsOk ls) :
    Fits o ↔ FileFits ls := by
  obtain ⟨hdata, hstr, hstart⟩ := h.lens hr
  constructor
  · intro hf
    exact ⟨by rw [← hstart]; exact hf.file, by rw [← hstr]; exact hf.strs⟩
  · intro hf
    have hvm : ∀ n, vmLen ((ObjSpec.parts o).take n) ≤
        (content ls .text ls.length).length + (content ls .data ls.length).length := by
      intro n
      rw [← hdata]
      unfold vmLen dataLen
      rw [h.partsEq, ← List.map_take, List.map_map, List.map_map]
      have : ∀ (l : List Section) (n : Nat) (f : Section → Nat), ((l.take n).map f).sum ≤ (l.map f).sum := by
        intro l n f
        conv => rhs; rw [← List.take_append_drop n l, List.map_append, List.sum_append]
        omega
      exact this _ n (fun x => (content ls x ls.length).length)
    have hb := hf.file
    unfold roundUp8 at hb
    refine ⟨by rw [hstart]; exact hf.file, by rw [hstr]; exact hf.names, ?_, ?_⟩
    · have := hvm (ObjSpec.parts o).length
      rw [List.take_length] at this
      omega
    · intro i name addr ext hm
      rw [h.placedEq, List.mem_map] at hm
      obtain ⟨e, he, heq⟩ := hm
      simp only [symOf, Prod.mk.injEq, Symbol.ref.injEq] at heq
      obtain ⟨_, _, rfl, _⟩ := heq
      have h1 := hvm i
      have h2 := off_le he
      unfold addrOf
      rw [UInt64.toNat_ofNat', Nat.mod_eq_of_lt (by omega)]
      omega

/-- The object of a program is expressible iff the program is complete. -/
theorem ObjOf.writable_iff {ls : List Line} {o : Object} (ho : ObjOf ls o) (hr : RelocsOk ls)
    (hb : NoBssContent ls) : Writable o ↔ Complete ls := by
  constructor
  · intro hwr
    refine ⟨hb, fun e he => hwr.ascii _ ?_, fun x p hm => ?_⟩
    · rw [ho.names]
      exact List.mem_map.2 ⟨e, he, rfl⟩
    · have hlt := reloc_lt hr hm
      have hx : x ∈ stored ls := by
        unfold stored
        rw [List.mem_filter]
        cases x with
        | bss => rw [content_bss ls hb] at hlt; simp at hlt
        | text => exact ⟨by simp, by simpa using List.ne_nil_of_length_pos (by omega)⟩
        | data => exact ⟨by simp, by simpa using List.ne_nil_of_length_pos (by omega)⟩
      have := hwr.defined ⟨Int32.ofNat p.1, p.2.symbol, p.2.pcrel, p.2.len⟩ (by
        unfold ObjSpec.allRelocs
        rw [ho.partsEq, List.mem_flatMap]
        exact ⟨_, List.mem_map.2 ⟨x, hx, rfl⟩, List.mem_map.2 ⟨p, hm, rfl⟩⟩)
      rw [ho.names, List.map_map, List.mem_map] at this
      exact this
  · intro hc
    refine ⟨?_, ?_, ?_⟩
    · intro n hn c hcm
      rw [ho.names, List.mem_map] at hn
      obtain ⟨e, he, rfl⟩ := hn
      exact hc.ascii e he c hcm
    · intro r hm
      obtain ⟨x, p, hp, rfl⟩ := ho.relocFrom hm
      rw [ho.names, List.map_map]
      obtain ⟨e, he, hn⟩ := hc.defined x p hp
      exact List.mem_map.2 ⟨e, he, hn⟩
    · intro r hm
      obtain ⟨x, p, hp, rfl⟩ := ho.relocFrom hm
      exact (reloc_ok hr hp).2

/-- For a program whose file fits the format, reading and writing both succeed exactly if it is
complete and passes the overflow checks of the assembler. -/
theorem assemble_iff (bd : Build) (h : Endian) (chunks : List Bytes) (ls : List Line)
    (hne : ∀ c ∈ chunks, c ≠ []) (hp : Program bd chunks.flatten ls) (hfit : FileFits ls) :
    (∃ a, Assembler.new.readFrom bd chunks = .ok a ∧ (a.writeInto bd h).res = .ok ()) ↔
      Complete ls ∧ Within bd ls := by
  constructor
  · rintro ⟨a, ha, hw⟩
    obtain ⟨ss, ms, hc, hm, h3, h4, h5, h6, h7⟩ := readFrom_new hne ha
    cases Program.det hp ⟨ss, hc, hm⟩
    obtain ⟨_, hp0, _, hwi⟩ := (C74_exact bd chunks hne).1 ⟨a, ha⟩
    cases Program.det hp hp0
    have ho : ObjOf ls a.obj := ⟨h4, h5, h6, h7⟩
    have hf := (ho.fits_iff (relocsOk_of hm)).2 hfit
    exact ⟨(ho.writable_iff (relocsOk_of hm) h3).1 (((C34_write_ok_iff bd h a.obj hf).1).1 hw), hwi⟩
  · rintro ⟨hcomp, hwi⟩
    obtain ⟨a, ha⟩ := C45_succeeds bd chunks ls hne hp hwi hcomp.noBss
    obtain ⟨ss, ms, hc, hm, h3, h4, h5, h6, h7⟩ := readFrom_new hne ha
    cases Program.det hp ⟨ss, hc, hm⟩
    have ho : ObjOf ls a.obj := ⟨h4, h5, h6, h7⟩
    have hf := (ho.fits_iff (relocsOk_of hm)).2 hfit
    exact ⟨a, ha, ((C34_write_ok_iff bd h a.obj hf).1).2 ((ho.writable_iff (relocsOk_of hm) h3).2 hcomp)⟩

/-- In a debug build, for a source of less than 512 MiB: reading and writing succeed exactly if the
source is a complete program that passes the overflow checks and whose file fits the format. -/
theorem assemble_debug (h : Endian) (chunks : List Bytes) (hne : ∀ c ∈ chunks, c ≠ [])
    (hsize : chunks.flatten.length < 2 ^ 29) :
    (∃ a, Assembler.new.readFrom .debug chunks = .ok a ∧ (a.writeInto .debug h).res = .ok ()) ↔
      ∃ ls, Program .debug chunks.flatten ls ∧ Complete ls ∧ Within .debug ls ∧ FileFits ls := by
  constructor
  · rintro ⟨a, ha, hw⟩
    obtain ⟨ss, ls, hc, hm, h3, h4, h5, h6, h7⟩ := readFrom_new hne ha
    have ho : ObjOf ls a.obj := ⟨h4, h5, h6, h7⟩
    have hz := sizes hc hm
    have e2 := hz.content
    have e3 := hz.relocs
    have e4 := hz.names
    have e5 := hz.count
    have hcf : CountsFit a.obj := by
      intro p hpm
      rw [ho.partsEq, List.mem_map] at hpm
      obtain ⟨x, hx, rfl⟩ := hpm
      have hl : (labels ls x).length ≤ (table ls).length := by
        unfold table
        rcases stored_cases ls with e | e | e | e <;> rw [e] at hx ⊢ <;> simp at hx ⊢
        · subst hx; simp
        · subst hx; simp
        · rcases hx with rfl | rfl <;> simp
      have hx' : x = .text ∨ x = .data := by
        rcases stored_cases ls with e | e | e | e <;> rw [e] at hx <;> simp at hx
        · exact .inl hx
        · exact .inr hx
        · exact hx
      refine ⟨?_, ?_, ?_, ?_⟩
      · show (content ls x ls.length).length < _
        rcases hx' with rfl | rfl <;> omega
      · show (relsOf ls x).length < _
        unfold relsOf
        rw [List.length_map]
        rcases hx' with rfl | rfl <;> omega
      · show (finalSyms ls x).length < _
        unfold finalSyms
        rw [List.length_map]
        omega
      · intro s hs
        have hs : s ∈ finalSyms ls x := hs
        unfold finalSyms at hs
        obtain ⟨q, hq, rfl⟩ := List.mem_map.1 hs
        have := name_le hc hm hq
        show utf8Len q.1 < _
        omega
    have hfit := (ho.fits_iff (relocsOk_of hm)).1 (C73_debug_partial h a.obj hcf hw)
    exact ⟨ls, ⟨ss, hc, hm⟩, ((assemble_iff .debug h chunks ls hne ⟨ss, hc, hm⟩ hfit).1 ⟨a, ha, hw⟩).1,
      ((assemble_iff .debug h chunks ls hne ⟨ss, hc, hm⟩ hfit).1 ⟨a, ha, hw⟩).2, hfit⟩
  · rintro ⟨ls, hp, hcomp, hwi, hfit⟩
    exact (assemble_iff .debug h chunks ls hne hp hfit).2 ⟨hcomp, hwi⟩

/-- A short source needs no size conditions. -/
theorem fits_of_short {bd : Build} {input : Bytes} {ls : List Line} (hp : Program bd input ls)
    (hsize : input.length < 2 ^ 26) (hb : NoBssContent ls) (bd' : Build) : FileFits ls ∧ Within bd' ls := by
  obtain ⟨ss, hc, hm⟩ := hp
  have hz := sizes hc hm
  have e1 := hz.lines
  have e2 := hz.content
  have e3 := hz.relocs
  have e4 := hz.names
  have e5 := hz.count
  have e6 : (stored ls).length ≤ 2 := by rcases stored_cases ls with e | e | e | e <;> rw [e] <;> simp
  have e7 : ((table ls).map (fun e => 17 + utf8Len e.name)).sum =
      16 * (table ls).length + ((table ls).map (fun e => utf8Len e.name + 1)).sum := by
    generalize table ls = l
    induction l with
    | nil => rfl
    | cons e l ih => simp only [List.map_cons, List.sum_cons, List.length_cons, ih]; omega
  refine ⟨⟨?_, by omega⟩, fun _ => by omega, fun _ x p hx hcr => ?_⟩
  · unfold roundUp8
    omega
  · have := reloc_lt (relocsOk_of hm) hx
    unfold Crosses at hcr
    cases x with
    | text => omega
    | data => omega
    | bss => rw [content_bss ls hb] at this; simp at this

theorem run_iff (bd : Build) (h : Endian) (chunking : Bytes → List Bytes) (fs : FS) (args : List Str)
    (out inp : Str) (src : Bytes) (hcfg : Config.init args = .ok ⟨out, inp⟩)
    (hd : fs.node inp ≠ fs.node out) (hs : fs.content (fs.node inp) = some src)
    (hrd : fs.canRead (fs.node inp) = true) (hwr : fs.canWrite (fs.node out) = true) :
    (main bd h chunking fs args).2 = .ok () ↔
      ∃ a, Assembler.new.readFrom bd (chunking src) = .ok a ∧ (a.writeInto bd h).res = .ok () := by
  obtain ⟨h1, h2⟩ := C52_result bd h chunking fs args out inp src hcfg hd hs hrd hwr
  constructor
  · intro hm
    cases ha : Assembler.new.readFrom bd (chunking src) with
    | error e => rw [(h1 e ha).1] at hm; simp at hm
    | ok a => exact ⟨a, rfl, by rw [← (h2 a ha).1]; exact hm⟩
  · rintro ⟨a, ha, hw⟩
    rw [(h2 a ha).1, hw]

/-- C64: for a source of less than 64 MiB (and an output that can be opened and is another file), a
run succeeds exactly if every line is accepted and the program is complete. -/
theorem C64_succeeds_iff (bd : Build) (h : Endian) (chunking : Bytes → List Bytes) (fs : FS) (args : List Str)
    (out inp : Str) (src : Bytes) (hcfg : Config.init args = .ok ⟨out, inp⟩)
    (hd : fs.node inp ≠ fs.node out) (hs : fs.content (fs.node inp) = some src)
    (hrd : fs.canRead (fs.node inp) = true) (hwr : fs.canWrite (fs.node out) = true)
    (hch : (chunking src).flatten = src ∧ ∀ c ∈ chunking src, c ≠ [])
    (hsize : src.length < 2 ^ 26) :
    (main bd h chunking fs args).2 = .ok () ↔ ∃ ls, Program bd src ls ∧ Complete ls := by
  rw [run_iff bd h chunking fs args out inp src hcfg hd hs hrd hwr]
  constructor
  · rintro ⟨a, ha, hw⟩
    obtain ⟨ss, ls, hc, hm, h3, _⟩ := readFrom_new hch.2 ha
    rw [hch.1] at hc
    have hp : Program bd src ls := ⟨ss, hc, hm⟩
    refine ⟨ls, hp, ((assemble_iff bd h _ ls hch.2 (by rw [hch.1]; exact hp)
      (fits_of_short hp hsize h3 bd).1).1 ⟨a, ha, hw⟩).1⟩
  · rintro ⟨ls, hp, hc⟩
    have := fits_of_short hp hsize hc.noBss bd
    exact (assemble_iff bd h _ ls hch.2 (by rw [hch.1]; exact hp) this.1).2 ⟨hc, this.2⟩

/-- C64, larger sources: a run on a program whose file fits the format succeeds exactly if the
program is complete and passes the overflow checks of the assembler. -/
theorem C64_fitting (bd : Build) (h : Endian) (chunking : Bytes → List Bytes) (fs : FS) (args : List Str)
    (out inp : Str) (src : Bytes) (ls : List Line) (hcfg : Config.init args = .ok ⟨out, inp⟩)
    (hd : fs.node inp ≠ fs.node out) (hs : fs.content (fs.node inp) = some src)
    (hrd : fs.canRead (fs.node inp) = true) (hwr : fs.canWrite (fs.node out) = true)
    (hch : (chunking src).flatten = src ∧ ∀ c ∈ chunking src, c ≠ [])
    (hp : Program bd src ls) (hfit : FileFits ls) :
    (main bd h chunking fs args).2 = .ok () ↔ Complete ls ∧ Within bd ls := by
  rw [run_iff bd h chunking fs args out inp src hcfg hd hs hrd hwr]
  exact assemble_iff bd h _ ls hch.2 (by rw [hch.1]; exact hp) hfit

/-- C64, debug builds: a run on a source of less than 512 MiB succeeds exactly if the source is a
complete program that passes the overflow checks and whose file fits the format. -/
theorem C64_debug (h : Endian) (chunking : Bytes → List Bytes) (fs : FS) (args : List Str)
    (out inp : Str) (src : Bytes) (hcfg : Config.init args = .ok ⟨out, inp⟩)
    (hd : fs.node inp ≠ fs.node out) (hs : fs.content (fs.node inp) = some src)
    (hrd : fs.canRead (fs.node inp) = true) (hwr : fs.canWrite (fs.node out) = true)
    (hch : (chunking src).flatten = src ∧ ∀ c ∈ chunking src, c ≠ []) (hsize : src.length < 2 ^ 29) :
    (main .debug h chunking fs args).2 = .ok () ↔
      ∃ ls, Program .debug src ls ∧ Complete ls ∧ Within .debug ls ∧ FileFits ls := by
  rw [run_iff .debug h chunking fs args out inp src hcfg hd hs hrd hwr]
  have := assemble_debug h (chunking src) hch.2 (by rw [hch.1]; exact hsize)
  rw [hch.1] at this
  exact this

/-- C64: a run that succeeds has written the object file of the program in the source. -/
theorem C64_success_means (bd bd' : Build) (h : Endian) (chunking : Bytes → List Bytes) (fs : FS) (args : List Str)
    (out inp : Str) (src : Bytes) (hcfg : Config.init args = .ok ⟨out, inp⟩)
    (hd : fs.node inp ≠ fs.node out) (hs : fs.content (fs.node inp) = some src)
    (hrd : fs.canRead (fs.node inp) = true) (hwr : fs.canWrite (fs.node out) = true)
    (hch : (chunking src).flatten = src ∧ ∀ c ∈ chunking src, c ≠ [])
    (hsize : src.length < 2 ^ 24) (hnul : (0 : UInt8) ∉ src) (hok : (main bd h chunking fs args).2 = .ok ()) :
    ∃ ls, Program bd src ls ∧ Acceptable ls ∧
      ∃ f v rest, (main bd h chunking fs args).1.content (fs.node out) = some f ∧
        view bd' h f = .ok (v, rest) ∧ FileOf h ls f v := by
  obtain ⟨ls, hp, hcomp⟩ :=
    (C64_succeeds_iff bd h chunking fs args out inp src hcfg hd hs hrd hwr hch (by omega)).1 hok
  have ok : Acceptable ls := by
    obtain ⟨ss, hc, hp'⟩ := hp
    exact hcomp.acceptable hc hp' hnul hsize
  obtain ⟨_, _, h3⟩ := C53_run bd bd' h chunking fs args out inp src ls hcfg hd hs hrd hwr hch hp ok
  exact ⟨ls, hp, ok, h3⟩

/-- The sample is complete and meets the hypotheses on the source. -/
example : Complete sampleLines ∧ (utf8 sampleSource).length < 2 ^ 24 ∧ (0 : UInt8) ∉ utf8 sampleSource :=
  ⟨⟨sample_noBss, fun e he c hc => (sample_acceptable.ascii e he c hc).2, fun x p hp => by
      obtain ⟨e, he, hs⟩ := sample_acceptable.defined x p hp
      refine ⟨e, he, ?_⟩
      rw [seen_plain (fun c hc => by have := (sample_acceptable.ascii e he c hc).1; omega)]
      exact hs⟩,
    by decide +kernel, by decide +kernel⟩

/-- The hypotheses of `C64_fitting` and the right side of `C64_debug` for the sample. -/
example : FileFits sampleLines ∧ Complete sampleLines ∧ Within .debug sampleLines := by
  refine ⟨⟨by decide +kernel, by decide +kernel⟩, ⟨sample_noBss,
    fun e he c hc => (sample_acceptable.ascii e he c hc).2, fun x p hp => ?_⟩, sample_acceptable.small.within _⟩
  obtain ⟨e, he, hs⟩ := sample_acceptable.defined x p hp
  refine ⟨e, he, ?_⟩
  rw [seen_plain (fun c hc => by have := (sample_acceptable.ascii e he c hc).1; omega)]
  exact hs

/-- A program that is not complete: the symbol is not defined. -/
example : ¬ Complete [.instruction ⟨⟨[0x48, 0xB8, 0, 0, 0, 0, 0, 0, 0, 0, 0, 0, 0, 0, 0], 10⟩,
    some ⟨2, str% "foo", false, 3⟩⟩] := by
  intro h
  obtain ⟨e, he, _⟩ := h.defined .text (2, ⟨2, str% "foo", false, 3⟩) (by decide +kernel)
  revert he
  rw [show table _ = [] by decide +kernel]
  simp

end AT.Props
