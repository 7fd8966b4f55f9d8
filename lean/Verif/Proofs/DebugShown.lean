import Verif.Proofs.Debug
/-!
# The builders of `std::fmt` write the trees of the specification
-/

namespace AT.DebugSpec
open AT.Mac

/-! ## Lines -/

def NoNl (s : Str) : Prop := ∀ c ∈ s, c ≠ '\n'

/-- Lines each followed by a line feed. -/
def unl (ls : List Str) : Str := (ls.map (· ++ str% "\n")).flatten

theorem byLine_concat (ls : List Str) (x : Str) : byLine (ls ++ [x]) = unl ls ++ x := by
  induction ls with
  | nil => rfl
  | cons l ls ih =>
    cases ls with
    | nil => simp [byLine, unl]
    | cons l' ls =>
      simp only [List.cons_append, byLine] at ih ⊢
      rw [ih]
      simp [unl]

theorem byLine_nl {ls : List Str} (h : ls ≠ []) : byLine ls ++ str% "\n" = unl ls := by
  induction ls with
  | nil => exact absurd rfl h
  | cons l ls ih =>
    cases ls with
    | nil => simp [byLine, unl]
    | cons l' ls =>
      have := ih (by simp)
      simp only [byLine, List.append_assoc, List.cons_append, this]
      simp [unl]

theorem append_ne (b l : Str) (ls : List Str) : around.append b l ls ≠ [] := by
  cases ls <;> simp [around.append]

theorem byLine_append (b l : Str) (ls : List Str) :
    byLine (around.append b l ls) = byLine (l :: ls) ++ b := by
  induction ls generalizing l with
  | nil => simp [around.append, byLine]
  | cons l' ls ih =>
    have h := append_ne b l' ls
    simp only [around.append]
    cases hh : around.append b l' ls with
    | nil => exact absurd hh h
    | cons x xs =>
      simp only [byLine]
      rw [← hh, ih]
      simp

theorem append_noNl {b l : Str} {ls : List Str} (hb : NoNl b) (hl : NoNl l) (hs : ∀ l ∈ ls, NoNl l) :
    ∀ x ∈ around.append b l ls, NoNl x := by
  induction ls generalizing l with
  | nil =>
    intro x hx c hc
    simp only [around.append, List.mem_singleton] at hx
    subst hx
    rcases List.mem_append.mp hc with h | h
    · exact hl c h
    · exact hb c h
  | cons l' ls ih =>
    intro x hx
    simp only [around.append, List.mem_cons] at hx
    rcases hx with rfl | hx
    · exact hl
    · exact ih (hs l' (by simp)) (fun y hy => hs y (by simp [hy])) x hx

theorem byLine_cons_append (a l : Str) (ls : List Str) : byLine ((a ++ l) :: ls) = a ++ byLine (l :: ls) := by
  cases ls <;> simp [byLine]

theorem around_spec {a b : Str} {ls : List Str} (h : ls ≠ []) (ha : NoNl a) (hb : NoNl b)
    (hs : ∀ l ∈ ls, NoNl l) :
    byLine (around a ls b) = a ++ byLine ls ++ b ∧ around a ls b ≠ [] ∧ ∀ x ∈ around a ls b, NoNl x := by
  cases ls with
  | nil => exact absurd rfl h
  | cons l ls =>
    refine ⟨?_, append_ne _ _ _, ?_⟩
    · simp only [around]
      rw [byLine_append, byLine_cons_append]
    · refine append_noNl hb ?_ (fun y hy => hs y (by simp [hy]))
      intro c hc
      rcases List.mem_append.mp hc with h | h
      · exact ha c h
      · exact hs l (by simp) c h

theorem pad_rest {l : Str} (h : NoNl l) (r : Str) :
    padAdapter false (l ++ '\n' :: r) = l ++ '\n' :: padAdapter true r := by
  induction l with
  | nil => simp [padAdapter]
  | cons c l ih =>
    have hc : (c == '\n') = false := by simpa using h c (by simp)
    simp only [List.cons_append, padAdapter, hc, Bool.false_eq_true, if_false, List.nil_append]
    rw [ih (fun x hx => h x (by simp [hx]))]

theorem pad_line {l : Str} (h : NoNl l) (r : Str) :
    padAdapter true (l ++ '\n' :: r) = str% "    " ++ l ++ '\n' :: padAdapter true r := by
  cases l with
  | nil => simp [padAdapter]
  | cons c l =>
    have hc : (c == '\n') = false := by simpa using h c (by simp)
    simp only [List.cons_append, padAdapter, hc, if_true]
    rw [pad_rest (fun x hx => h x (by simp [hx]))]
    simp

theorem pad_unl {ls : List Str} (h : ∀ l ∈ ls, NoNl l) :
    padAdapter true (unl ls) = unl (ls.map (str% "    " ++ ·)) := by
  induction ls with
  | nil => rfl
  | cons l ls ih =>
    have e : ∀ (l : Str) (ls : List Str), unl (l :: ls) = l ++ '\n' :: unl ls := by
      intro l ls; simp [unl]
    rw [List.map_cons, e, e, pad_line (h l (by simp)), ih (fun x hx => h x (by simp [hx]))]

theorem unl_append (a b : List Str) : unl (a ++ b) = unl a ++ unl b := by simp [unl]

theorem word_noNl {s : Str} (h : ∀ c ∈ s, wordChar c = true) : NoNl s := by
  rintro c hc rfl
  have := h _ hc
  revert this; decide

theorem noNl_append {a b : Str} (ha : NoNl a) (hb : NoNl b) : NoNl (a ++ b) := by
  intro c hc
  rcases List.mem_append.mp hc with h | h
  · exact ha c h
  · exact hb c h

theorem noNl_lit {s : Str} (h : s.all (· ≠ '\n') = true) : NoNl s := by
  intro c hc
  simpa using List.all_eq_true.mp h c hc

theorem quotes_noNl (plain : Char → Bool) (s : Str) : NoNl (inQuotes plain s) := by
  refine noNl_append (noNl_append (noNl_lit (by decide)) ?_) (noNl_lit (by decide))
  intro c hc
  obtain ⟨x, hx, hc⟩ := List.mem_flatten.mp hc
  obtain ⟨d, _, rfl⟩ := List.mem_map.mp hx
  rcases escaped_cases plain d with ⟨l, _, e, m⟩ | ⟨_, _, n, e | e⟩ <;> rw [e] at hc
  · simp only [letters, List.mem_cons, Prod.mk.injEq, List.not_mem_nil, or_false] at m hc
    rcases hc with rfl | rfl
    · decide
    · rcases m with ⟨_, rfl⟩ | ⟨_, rfl⟩ | ⟨_, rfl⟩ | ⟨_, rfl⟩ | ⟨_, rfl⟩ | ⟨_, rfl⟩ <;> decide
  · simp only [List.mem_singleton] at hc
    rw [hc]; exact n
  · exact noNl_append (noNl_append (noNl_lit (by decide))
      (word_noNl (toDigits_word 16 (by decide) (by decide) _).2)) (noNl_lit (by decide)) c hc

theorem label_noNl {named : Bool} {l : Str} (h : if named then Word l else l = []) : NoNl (labelled l) := by
  cases named with
  | false =>
    simp only [Bool.false_eq_true, if_false] at h
    subst h; intro c hc; cases hc
  | true =>
    simp only [if_true] at h
    simp only [labelled, h.1, if_false]
    exact noNl_append (word_noNl h.2) (noNl_lit (by decide))

theorem kind_noNl {k : Kind} (h : k.Ok) : NoNl k.head ∧ NoNl k.foot ∧ NoNl k.empty := by
  cases k with
  | record n => exact ⟨noNl_append (word_noNl h.2) (noNl_lit (by decide)),
      noNl_lit (s := str% "}") (by decide), word_noNl h.2⟩
  | tuple n => exact ⟨noNl_append (word_noNl h) (noNl_lit (by decide)),
      noNl_lit (s := str% ")") (by decide), word_noNl h⟩
  | list => exact ⟨noNl_lit (by decide), noNl_lit (by decide), noNl_lit (by decide)⟩
  | set => exact ⟨noNl_lit (by decide), noNl_lit (by decide), noNl_lit (by decide)⟩

theorem indent_noNl {ls : List Str} (h : ∀ l ∈ ls, NoNl l) : ∀ l ∈ ls.map (str% "    " ++ ·), NoNl l := by
  intro l hl
  obtain ⟨x, hx, rfl⟩ := List.mem_map.mp hl
  exact noNl_append (noNl_lit (by decide)) (h x hx)

mutual
/-- The lines of the specification are the string with indentation added by `PadAdapter`. -/
theorem lines_spec (plain : Char → Bool) : (t : Text) → t.Ok →
    byLine (t.lines plain) = t.tall plain ∧ t.lines plain ≠ [] ∧ ∀ l ∈ t.lines plain, NoNl l
  | .word s, h => ⟨rfl, by simp [Text.lines], by
      simp only [Text.lines, List.mem_singleton, forall_eq]; exact word_noNl h.2⟩
  | .quoted s, _ => ⟨rfl, by simp [Text.lines], by
      simp only [Text.lines, List.mem_singleton, forall_eq]; exact quotes_noNl plain s⟩
  | .group k .nil, h => ⟨rfl, by simp [Text.lines], by
      simp only [Text.lines, List.mem_singleton, forall_eq]; exact (kind_noNl h.1).2.2⟩
  | .group k (.cons l t r), h => by
    obtain ⟨h1, h2, h3⟩ := lines_spec plain t h.2.1.2.1
    obtain ⟨h4, h5⟩ := lines_items plain r k.named h.2.1.2.2
    obtain ⟨a1, a2, a3⟩ := around_spec (b := str% ",") h2 (label_noNl h.2.1.1) (noNl_lit (by decide)) h3
    refine ⟨?_, by simp [Text.lines], ?_⟩
    · simp only [Text.lines, Text.tall]
      rw [← List.cons_append, byLine_concat]
      have e : labelled l ++ (t.tall plain ++ str% ",\n") =
          unl (around (labelled l) (t.lines plain) (str% ",")) := by
        rw [← byLine_nl a2, a1, h1]; simp
      rw [e, pad_unl a3, ← h4]
      simp [unl]
    · intro x hx
      simp only [Text.lines, List.mem_cons, List.mem_append, List.not_mem_nil, or_false] at hx
      rcases hx with rfl | (hx | hx) | rfl
      · exact (kind_noNl h.1).1
      · exact indent_noNl a3 x hx
      · exact h5 x hx
      · exact (kind_noNl h.1).2.1
theorem lines_items (plain : Char → Bool) : (i : Items) → (named : Bool) → i.Ok named →
    unl (i.lines plain) = i.tall plain ∧ ∀ l ∈ i.lines plain, NoNl l
  | .nil, _, _ => ⟨rfl, by simp [Items.lines]⟩
  | .cons l t r, named, h => by
    obtain ⟨h1, h2, h3⟩ := lines_spec plain t h.2.1
    obtain ⟨h4, h5⟩ := lines_items plain r named h.2.2
    obtain ⟨a1, a2, a3⟩ := around_spec (b := str% ",") h2 (label_noNl h.1) (noNl_lit (by decide)) h3
    refine ⟨?_, ?_⟩
    · simp only [Items.lines, Items.tall]
      have e : labelled l ++ (t.tall plain ++ str% ",\n") =
          unl (around (labelled l) (t.lines plain) (str% ",")) := by
        rw [← byLine_nl a2, a1, h1]; simp
      rw [e, pad_unl a3, ← h4, unl_append]
    · intro x hx
      simp only [Items.lines, List.mem_append] at hx
      rcases hx with hx | hx
      · exact indent_noNl a3 x hx
      · exact h5 x hx
end

theorem written_tall (plain : Char → Bool) {t : Text} (h : t.Ok) : t.written plain true = t.tall plain := by
  simp [Text.written, (lines_spec plain t h).1]

theorem written_oneLine (plain : Char → Bool) (t : Text) : t.written plain false = t.oneLine plain := by
  simp [Text.written]

/-- What is written tells the tree. -/
theorem written_read {plain : Char → Bool} {alt : Bool} {t t' : Text} {r r' : Str} (h : t.Ok) (h' : t'.Ok)
    (hr : Ends r) (hr' : Ends r') (e : t.written plain alt ++ r = t'.written plain alt ++ r') :
    t = t' ∧ r = r' := by
  cases alt with
  | true =>
    rw [written_tall plain h, written_tall plain h'] at e
    exact read_tall plain t t' r r' h h' hr hr' e
  | false =>
    rw [written_oneLine, written_oneLine] at e
    exact read_oneLine plain t t' r r' h h' hr hr' e

/-! ## The builders -/

/-- `s` is how the tree `t` is shown. -/
def Shown (plain : Char → Bool) (alt : Bool) (s : Str) (t : Text) : Prop :=
  t.Ok ∧ s = t.written plain alt

inductive ShownFields (plain : Char → Bool) (alt : Bool) : List (Str × Str) → List (Str × Text) → Prop where
  | nil : ShownFields plain alt [] []
  | cons {l s t fs gs} (hl : Word l) (h : Shown plain alt s t) (hs : ShownFields plain alt fs gs) :
      ShownFields plain alt ((l, s) :: fs) ((l, t) :: gs)

inductive ShownItems (plain : Char → Bool) (alt : Bool) : List Str → List Text → Prop where
  | nil : ShownItems plain alt [] []
  | cons {s t es ts} (h : Shown plain alt s t) (hs : ShownItems plain alt es ts) :
      ShownItems plain alt (s :: es) (t :: ts)

theorem fields_ok {plain : Char → Bool} {alt : Bool} {fs gs} (h : ShownFields plain alt fs gs) :
    (fields gs).Ok true := by
  induction h with
  | nil => trivial
  | cons hl h hs ih => exact ⟨by simpa using hl, h.1, ih⟩

theorem items_ok {plain : Char → Bool} {alt : Bool} {es ts} (h : ShownItems plain alt es ts) :
    (items ts).Ok false := by
  induction h with
  | nil => trivial
  | cons h hs ih => exact ⟨by simp, h.1, ih⟩

theorem fields_tall {plain : Char → Bool} {fs gs} (h : ShownFields plain true fs gs) (o : Str) :
    fs.foldl (debugField true) (o, true) = (o ++ (fields gs).tall plain, true) := by
  induction h generalizing o with
  | nil => simp [fields, Items.tall]
  | cons hl h hs ih =>
    rw [List.foldl_cons]
    simp only [debugField, if_true]
    rw [ih, h.2, written_tall plain h.1]
    simp [fields, Items.tall, labelled, hl.1]

theorem fields_line {plain : Char → Bool} {fs gs} (h : ShownFields plain false fs gs) (o : Str) :
    fs.foldl (debugField false) (o, true) = (o ++ (fields gs).oneLine plain, true) := by
  induction h generalizing o with
  | nil => simp [fields, Items.oneLine]
  | cons hl h hs ih =>
    rw [List.foldl_cons]
    simp only [debugField, Bool.false_eq_true, if_false, if_true]
    rw [ih, h.2, written_oneLine]
    simp [fields, Items.oneLine, labelled, hl.1]

theorem shown_struct {plain : Char → Bool} {alt : Bool} {n : Str} {fs gs} (hn : Word n)
    (h : ShownFields plain alt fs gs) (h0 : gs ≠ []) :
    Shown plain alt (debugStruct alt n fs) (record n gs) := by
  have ok : (record n gs).Ok := by
    refine ⟨hn, fields_ok h, fun _ => ?_⟩
    cases gs with
    | nil => exact absurd rfl h0
    | cons g gs => simp [fields]
  refine ⟨ok, ?_⟩
  cases h with
  | nil => exact absurd rfl h0
  | cons hl h hs =>
    cases alt with
    | true =>
      rw [written_tall plain ok]
      simp only [debugStruct, List.foldl_cons, debugField, if_true]
      rw [fields_tall hs, h.2, written_tall plain h.1]
      simp [record, fields, Text.tall, Kind.head, Kind.foot, labelled, hl.1]
    | false =>
      rw [written_oneLine]
      simp only [debugStruct, List.foldl_cons, debugField, Bool.false_eq_true, if_false]
      rw [fields_line hs, h.2, written_oneLine]
      simp [record, fields, Text.oneLine, Kind.opening, Kind.closing, labelled, hl.1]

theorem items_tall {plain : Char → Bool} {es ts} (h : ShownItems plain true es ts) (o : Str) :
    es.foldl (debugItem true) (o, true) = (o ++ (items ts).tall plain, true) := by
  induction h generalizing o with
  | nil => simp [items, Items.tall]
  | cons h hs ih =>
    rw [List.foldl_cons]
    simp only [debugItem, if_true]
    rw [ih, h.2, written_tall plain h.1]
    simp [items, Items.tall, labelled]

theorem items_line {plain : Char → Bool} {es ts} (h : ShownItems plain false es ts) (o : Str) :
    es.foldl (debugItem false) (o, true) = (o ++ (items ts).oneLine plain, true) := by
  induction h generalizing o with
  | nil => simp [items, Items.oneLine]
  | cons h hs ih =>
    rw [List.foldl_cons]
    simp only [debugItem, Bool.false_eq_true, if_false, if_true]
    rw [ih, h.2, written_oneLine]
    simp [items, Items.oneLine, labelled]

theorem shown_tuple {plain : Char → Bool} {alt : Bool} {n : Str} {es ts}
    (hn : n.all wordChar = true) (h : ShownItems plain alt es ts) (h0 : ts ≠ []) :
    Shown plain alt (debugTuple alt n es) (tuple n ts) := by
  have ok : (tuple n ts).Ok := by
    refine ⟨List.all_eq_true.mp hn, items_ok h, fun _ => ?_⟩
    cases ts with
    | nil => exact absurd rfl h0
    | cons g gs => simp [items]
  refine ⟨ok, ?_⟩
  cases h with
  | nil => exact absurd rfl h0
  | cons h hs =>
    cases alt with
    | true =>
      rw [written_tall plain ok]
      simp only [debugTuple, List.foldl_cons, debugItem, if_true]
      rw [items_tall hs, h.2, written_tall plain h.1]
      simp [tuple, items, Text.tall, Kind.head, Kind.foot, labelled]
    | false =>
      rw [written_oneLine]
      simp only [debugTuple, List.foldl_cons, debugItem, Bool.false_eq_true, if_false]
      rw [items_line hs, h.2, written_oneLine]
      simp [tuple, items, Text.oneLine, Kind.opening, Kind.closing, labelled]

theorem entries_tall {plain : Char → Bool} {es ts} (h : ShownItems plain true es ts) (o : Str) :
    es.foldl (debugEntry true) (o, true) = (o ++ (items ts).tall plain, true) := by
  induction h generalizing o with
  | nil => simp [items, Items.tall]
  | cons h hs ih =>
    rw [List.foldl_cons]
    simp only [debugEntry, if_true]
    rw [ih, h.2, written_tall plain h.1]
    simp [items, Items.tall, labelled]

theorem entries_line {plain : Char → Bool} {es ts} (h : ShownItems plain false es ts) (o : Str) :
    es.foldl (debugEntry false) (o, true) = (o ++ (items ts).oneLine plain, true) := by
  induction h generalizing o with
  | nil => simp [items, Items.oneLine]
  | cons h hs ih =>
    rw [List.foldl_cons]
    simp only [debugEntry, Bool.false_eq_true, if_false, if_true]
    rw [ih, h.2, written_oneLine]
    simp [items, Items.oneLine, labelled]

theorem shown_list {plain : Char → Bool} {alt : Bool} {es ts} (h : ShownItems plain alt es ts) :
    Shown plain alt (debugList alt es) (list ts) := by
  have ok : (list ts).Ok := ⟨trivial, items_ok h, fun e => by cases e⟩
  refine ⟨ok, ?_⟩
  cases h with
  | nil => cases alt <;> rfl
  | cons h hs =>
    cases alt with
    | true =>
      rw [written_tall plain ok]
      simp only [debugList, List.foldl_cons, debugEntry, if_true]
      rw [entries_tall hs, h.2, written_tall plain h.1]
      simp [list, items, Text.tall, Kind.head, Kind.foot, labelled]
    | false =>
      rw [written_oneLine]
      simp only [debugList, List.foldl_cons, debugEntry, Bool.false_eq_true, if_false]
      rw [entries_line hs, h.2, written_oneLine]
      simp [list, items, Text.oneLine, Kind.opening, Kind.closing, labelled]

theorem shown_set {plain : Char → Bool} {alt : Bool} {es ts} (h : ShownItems plain alt es ts) :
    Shown plain alt (debugSet alt es) (set ts) := by
  have ok : (set ts).Ok := ⟨trivial, items_ok h, fun e => by cases e⟩
  refine ⟨ok, ?_⟩
  cases h with
  | nil => cases alt <;> rfl
  | cons h hs =>
    cases alt with
    | true =>
      rw [written_tall plain ok]
      simp only [debugSet, List.foldl_cons, debugEntry, if_true]
      rw [entries_tall hs, h.2, written_tall plain h.1]
      simp [set, items, Text.tall, Kind.head, Kind.foot, labelled]
    | false =>
      rw [written_oneLine]
      simp only [debugSet, List.foldl_cons, debugEntry, Bool.false_eq_true, if_false]
      rw [entries_line hs, h.2, written_oneLine]
      simp [set, items, Text.oneLine, Kind.opening, Kind.closing, labelled]

theorem shown_map {α : Type} {plain : Char → Bool} {alt : Bool} {f : α → Str} {g : α → Text}
    (h : ∀ a, Shown plain alt (f a) (g a)) (l : List α) : ShownItems plain alt (l.map f) (l.map g) := by
  induction l with
  | nil => exact .nil
  | cons a l ih => exact .cons (h a) ih

theorem shown_word {plain : Char → Bool} {alt : Bool} {s : Str} (h : Word s) :
    Shown plain alt s (.word s) := by
  refine ⟨h, ?_⟩
  cases alt <;> rfl

theorem shown_str {plain : Char → Bool} {alt : Bool} (s : Str) :
    Shown plain alt (debugStr plain s) (.quoted s) := by
  refine ⟨trivial, ?_⟩
  rw [debugStr_eq]
  cases alt <;> rfl

theorem shown_num {plain : Char → Bool} {alt : Bool} (n : Nat) : Shown plain alt (debugNat n) (num n) :=
  shown_word (toDigits_word 10 (by decide) (by decide) n)

theorem shown_int {plain : Char → Bool} {alt : Bool} (n : Int32) :
    Shown plain alt (debugI32 n) (int n.toInt) := by
  have e : debugI32 n =
      if n.toInt < 0 then '-' :: Nat.toDigits 10 (-n.toInt).toNat else Nat.toDigits 10 n.toInt.toNat := by
    unfold debugI32 Asm.showNat
    split
    · rw [show n.toInt.natAbs = (-n.toInt).toNat by omega]
    · rw [show n.toInt.natAbs = n.toInt.toNat by omega]
  rw [e]
  refine shown_word ?_
  split
  · have := toDigits_word 10 (by decide) (by decide) (-n.toInt).toNat
    refine ⟨by simp, ?_⟩
    intro c hc
    rcases List.mem_cons.mp hc with rfl | hc
    · decide
    · exact this.2 c hc
  · exact toDigits_word 10 (by decide) (by decide) _

theorem shown_bool {plain : Char → Bool} {alt : Bool} (b : Bool) :
    Shown plain alt (debugBool b) (bool b) := by
  cases b
  · exact shown_word (by decide)
  · exact shown_word (by decide)

theorem shown_option {α : Type} {plain : Char → Bool} {alt : Bool} {f : α → Str} {g : α → Text}
    (h : ∀ a, Shown plain alt (f a) (g a)) (o : Option α) :
    Shown plain alt (debugOption alt (o.map f)) (option (o.map g)) := by
  cases o with
  | none => exact shown_word (s := str% "None") (by decide)
  | some a => exact shown_tuple (by decide) (.cons (h a) .nil) (by simp)

theorem shown_bytes {plain : Char → Bool} {alt : Bool} (b : Bytes) :
    Shown plain alt (debugBytes alt b) (bytes b) :=
  shown_list (shown_map (fun x => shown_num x.toNat) b)

end AT.DebugSpec
