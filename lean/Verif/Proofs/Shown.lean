import Verif.Model.MacDebug
import Verif.Spec.Shown
/-!
# Lists shown by `{:?}` and `{:#?}`
-/

namespace AT.MachO
open AT.Mac

/-! ## The builders of `std::fmt` -/

theorem pad_of_no_newline (s : Str) (hs : ∀ c ∈ s, c ≠ '\n') (t : Str) :
    padAdapter false (s ++ t) = s ++ padAdapter false t := by
  induction s with
  | nil => rfl
  | cons c cs ih =>
    have hc : (c == '\n') = false := by simpa using hs c (by simp)
    simp [padAdapter, hc, ih (fun x hx => hs x (by simp [hx]))]

theorem pad_entry (s : Str) (hs : ∀ c ∈ s, c ≠ '\n') (h0 : s ≠ []) :
    padAdapter true (s ++ str% ",\n") = str% "    " ++ s ++ str% ",\n" := by
  cases s with
  | nil => exact absurd rfl h0
  | cons c cs =>
    have hc : (c == '\n') = false := by simpa using hs c (by simp)
    simp only [List.cons_append, padAdapter, hc, if_true]
    rw [pad_of_no_newline cs (fun x hx => hs x (by simp [hx]))]
    rfl

theorem fold_alt (es : List Str) (hs : ∀ e ∈ es, e ≠ [] ∧ ∀ c ∈ e, c ≠ '\n') (o : Str) :
    (es.foldl (debugEntry true) (o, true)).1 = o ++ stacked es := by
  induction es generalizing o with
  | nil => simp [stacked]
  | cons e es ih =>
    have he := hs e (by simp)
    rw [List.foldl_cons]
    have : debugEntry true (o, true) e = (o ++ (str% "    " ++ e ++ str% ",\n"), true) := by
      simp only [debugEntry, if_true, pad_entry e he.2 he.1]; simp
    rw [this, ih (fun x hx => hs x (by simp [hx]))]
    simp [stacked]

theorem fold_plain (es : List Str) (o : Str) :
    (es.foldl (debugEntry false) (o, true)).1 = o ++ (es.map (fun e => ',' :: ' ' :: e)).flatten := by
  induction es generalizing o with
  | nil => simp
  | cons e es ih =>
    rw [List.foldl_cons]
    have : debugEntry false (o, true) e = (o ++ (',' :: ' ' :: e), true) := by simp [debugEntry]
    rw [this, ih]
    simp

theorem joined_cons (e : Str) (es : List Str) :
    joined (e :: es) = e ++ (es.map (fun e => ',' :: ' ' :: e)).flatten := by
  induction es generalizing e with
  | nil => simp [joined]
  | cons e' es ih => simp [joined, ih]

theorem fold_shown (alt : Bool) (op cl : Char) (es : List Str)
    (hs : ∀ e ∈ es, e ≠ [] ∧ ∀ c ∈ e, c ≠ '\n') :
    (es.foldl (debugEntry alt) ([op], false)).1 ++ [cl] = shown alt op cl es := by
  cases es with
  | nil => cases alt <;> simp [shown, joined]
  | cons e es =>
    rw [List.foldl_cons]
    cases alt with
    | true =>
      have he := hs e (by simp)
      have : debugEntry true ([op], false) e = (op :: '\n' :: (str% "    " ++ e ++ str% ",\n"), true) := by
        simp only [debugEntry, if_true, pad_entry e he.2 he.1]; simp
      rw [this, fold_alt _ (fun x hx => hs x (by simp [hx]))]
      simp [shown, stacked]
    | false =>
      have : debugEntry false ([op], false) e = (op :: e, true) := by simp [debugEntry]
      rw [this, fold_plain]
      simp [shown, joined_cons]

/-! ## What is shown can be told apart -/

/-- Items that end where their representation does. -/
def Parses {α : Type} (P : α → Prop) (enc : α → Str) (cl : Char) : Prop :=
  ∀ a b, P a → P b → ∀ c d x y, (c = ',' ∨ c = cl) → (d = ',' ∨ d = cl) →
    enc a ++ c :: x = enc b ++ d :: y → a = b ∧ c = d ∧ x = y

theorem plain_inj {α : Type} {P : α → Prop} {enc : α → Str} {cl : Char} 
    (hp : Parses P enc cl) (l m : List α) (hl : ∀ a ∈ l, P a) (hm : ∀ a ∈ m, P a)
    (h : ((l.map enc).map (fun e => ',' :: ' ' :: e)).flatten ++ [cl] =
      ((m.map enc).map (fun e => ',' :: ' ' :: e)).flatten ++ [cl]) : l = m := by
  induction l generalizing m with
  | nil =>
    cases m with
    | nil => rfl
    | cons b m => simp at h
  | cons a l ih =>
    cases m with
    | nil => simp at h
    | cons b m =>
      simp only [List.map_cons, List.flatten_cons, List.cons_append, List.cons.injEq, true_and,
        List.append_assoc] at h
      have hd : ∀ k : List α, ∃ c x, ((k.map enc).map (fun e => ',' :: ' ' :: e)).flatten ++ [cl] = c :: x ∧
          (c = ',' ∨ c = cl) := by
        intro k; cases k <;> simp
      obtain ⟨c, x, ec, hc⟩ := hd l
      obtain ⟨d, y, ed, hd⟩ := hd m
      have := hp a b (hl a (by simp)) (hm b (by simp)) c d x y hc hd (by rw [← ec, ← ed]; exact h)
      rw [this.1, ih m (fun z hz => hl z (by simp [hz])) (fun z hz => hm z (by simp [hz]))
        (by rw [ec, ed, this.2.1, this.2.2])]

theorem stacked_inj {α : Type} {P : α → Prop} {enc : α → Str} {cl : Char} 
    (hp : Parses P enc cl) (l m : List α) (hl : ∀ a ∈ l, P a) (hm : ∀ a ∈ m, P a)
    (h : stacked (l.map enc) ++ [cl] = stacked (m.map enc) ++ [cl]) : l = m := by
  induction l generalizing m with
  | nil =>
    cases m with
    | nil => rfl
    | cons b m => simp [stacked] at h
  | cons a l ih =>
    cases m with
    | nil => simp [stacked] at h
    | cons b m =>
      have e : ∀ (a : α) (l : List α), stacked ((a :: l).map enc) ++ [cl] =
          ' ' :: ' ' :: ' ' :: ' ' :: (enc a ++ ',' :: ('\n' :: (stacked (l.map enc) ++ [cl]))) := by
        intro a l; simp [stacked]
      rw [e, e] at h
      simp only [List.cons.injEq, true_and] at h
      have := hp a b (hl a (by simp)) (hm b (by simp)) _ _ _ _ (.inl rfl) (.inl rfl) h
      rw [this.1, ih m (fun z hz => hl z (by simp [hz])) (fun z hz => hm z (by simp [hz]))
        (by simpa using this.2.2)]

theorem shown_inj {α : Type} {P : α → Prop} {enc : α → Str} {op cl : Char} 
    (hne : ∀ a, P a → ∃ c s, enc a = c :: s)
    (hp : Parses P enc cl) (alt : Bool) (l m : List α) (hl : ∀ a ∈ l, P a) (hm : ∀ a ∈ m, P a)
    (h : shown alt op cl (l.map enc) = shown alt op cl (m.map enc)) : l = m := by
  cases l with
  | nil =>
    cases m with
    | nil => rfl
    | cons b m =>
      exfalso
      obtain ⟨c, s, hb⟩ := hne b (hm b (by simp))
      cases alt <;> simp [shown, joined, joined_cons, hb] at h
  | cons a l =>
    cases m with
    | nil =>
      exfalso
      obtain ⟨c, s, hb⟩ := hne a (hl a (by simp))
      cases alt <;> simp [shown, joined, joined_cons, hb] at h
    | cons b m =>
      cases alt with
      | true =>
        refine stacked_inj hp _ _ hl hm ?_
        simpa [shown] using h
      | false =>
        refine plain_inj hp _ _ hl hm ?_
        simp only [shown, List.map_cons, joined_cons] at h
        simpa using h

end AT.MachO
