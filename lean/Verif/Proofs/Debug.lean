import Verif.Model.Debug
import Verif.Spec.Debug
import Verif.Proofs.Shown
/-!
# Values shown by `{:?}` and `{:#?}` can be read back
-/

namespace AT.DebugSpec
open AT.Mac

/-! ## What can occur in a tree -/

def wordChar (c : Char) : Bool := c.isAlphanum || c == '_' || c == '-'

def Word (s : Str) : Prop := s ≠ [] ∧ ∀ c ∈ s, wordChar c = true

instance (s : Str) : Decidable (Word s) := inferInstanceAs (Decidable (_ ∧ _))

def Kind.Ok : Kind → Prop
  | .record n => Word n
  | .tuple n => ∀ c ∈ n, wordChar c = true
  | _ => True

/-- Are the items of the group named? -/
def Kind.named : Kind → Bool
  | .record _ => true
  | _ => false

/-- Has the group at least one item in every value? -/
def Kind.full : Kind → Bool
  | .record _ => true
  | .tuple _ => true
  | _ => false

mutual
def Text.Ok : Text → Prop
  | .word s => Word s
  | .quoted _ => True
  | .group k its => k.Ok ∧ its.Ok k.named ∧ (k.full = true → its ≠ .nil)
def Items.Ok (named : Bool) : Items → Prop
  | .nil => True
  | .cons l t r => (if named then Word l else l = []) ∧ t.Ok ∧ r.Ok named
end

/-! ## Quoted strings -/

theorem lookup_none {c : Char} (h0 : c ≠ '\x00') (h1 : c ≠ '\t') (h2 : c ≠ '\r') (h3 : c ≠ '\n')
    (h4 : c ≠ '\\') (h5 : c ≠ '"') : letters.lookup c = none := by
  simp only [letters, List.lookup, beq_eq_false_iff_ne.mpr h0, beq_eq_false_iff_ne.mpr h1,
    beq_eq_false_iff_ne.mpr h2, beq_eq_false_iff_ne.mpr h3, beq_eq_false_iff_ne.mpr h4,
    beq_eq_false_iff_ne.mpr h5]

theorem escape_eq (plain : Char → Bool) (c : Char) : escapeDebug plain c = escaped plain c := by
  unfold escapeDebug escaped
  by_cases h0 : c = '\x00'
  · subst h0; rfl
  by_cases h1 : c = '\t'
  · subst h1; rfl
  by_cases h2 : c = '\r'
  · subst h2; rfl
  by_cases h3 : c = '\n'
  · subst h3; rfl
  by_cases h4 : c = '\\'
  · subst h4; rfl
  by_cases h5 : c = '"'
  · subst h5; rfl
  simp [h0, h1, h2, h3, h4, h5, lookup_none h0 h1 h2 h3 h4 h5]

theorem debugStr_eq (plain : Char → Bool) (s : Str) : debugStr plain s = inQuotes plain s := by
  have : escapeDebug plain = escaped plain := funext (escape_eq plain)
  simp [debugStr, inQuotes, this, List.flatMap]

/-- The digits of a number to base 16 and below determine it. -/
theorem digitChar_inj : ∀ a < 16, ∀ b < 16, a.digitChar = b.digitChar → a = b := by decide

theorem digitChar_word : ∀ a < 16, wordChar a.digitChar = true := by decide

theorem toDigits_word (b : Nat) (hb : 1 < b) (hb' : b ≤ 16) (n : Nat) : Word (Nat.toDigits b n) := by
  induction n using Nat.strongRecOn with
  | _ n ih =>
    rw [Nat.toDigits_eq_if hb]
    split
    · rename_i h
      exact ⟨by simp, by simpa using digitChar_word n (by omega)⟩
    · rename_i h
      have hlt : n / b < n := Nat.div_lt_self (by omega) hb
      refine ⟨by simp, ?_⟩
      intro c hc
      simp only [List.mem_append, List.mem_singleton] at hc
      rcases hc with hc | rfl
      · exact (ih _ hlt).2 c hc
      · exact digitChar_word _ (by have := Nat.mod_lt n (show b > 0 by omega); omega)

theorem toDigits_inj (b : Nat) (hb : 1 < b) (hb' : b ≤ 16) (n m : Nat)
    (h : Nat.toDigits b n = Nat.toDigits b m) : n = m := by
  induction n using Nat.strongRecOn generalizing m with
  | _ n ih =>
    rw [Nat.toDigits_eq_if hb, Nat.toDigits_eq_if hb (n := m)] at h
    split at h <;> split at h
    · rename_i h1 h2
      exact digitChar_inj n (by omega) m (by omega) (by simpa using h)
    · have := congrArg List.length h
      have h2 := (toDigits_word b hb hb' (m / b)).1
      simp [h2] at this
    · have := congrArg List.length h
      have h2 := (toDigits_word b hb hb' (n / b)).1
      simp [h2] at this
    · rename_i h1 h2
      have hlt : n / b < n := Nat.div_lt_self (by omega) hb
      obtain ⟨ha, hc⟩ := List.append_inj' h (by simp)
      have e1 := ih _ hlt _ ha
      have m1 := Nat.mod_lt n (show b > 0 by omega)
      have m2 := Nat.mod_lt m (show b > 0 by omega)
      have e2 := digitChar_inj (n % b) (by omega) (m % b) (by omega) (by simpa using hc)
      rw [← Nat.div_add_mod n b, ← Nat.div_add_mod m b, e1, e2]

/-- Text up to the first character that belongs to no word. -/
theorem word_split {p q r r' : Str} (hp : ∀ c ∈ p, wordChar c = true) (hq : ∀ c ∈ q, wordChar c = true)
    (hr : ∀ c t, r = c :: t → wordChar c = false) (hr' : ∀ c t, r' = c :: t → wordChar c = false)
    (h : p ++ r = q ++ r') : p = q ∧ r = r' := by
  induction p generalizing q with
  | nil =>
    cases q with
    | nil => exact ⟨rfl, h⟩
    | cons d q =>
      have := hr d (q ++ r') h
      have h2 := hq d (by simp)
      rw [this] at h2; cases h2
  | cons c p ih =>
    cases q with
    | nil =>
      have := hr' c (p ++ r) h.symm
      have h2 := hp c (by simp)
      rw [this] at h2; cases h2
    | cons d q =>
      simp only [List.cons_append, List.cons.injEq] at h
      obtain ⟨e1, e2⟩ := ih (fun c hc => hp c (by simp [hc])) (fun c hc => hq c (by simp [hc])) h.2
      exact ⟨by rw [h.1, e1], e2⟩

theorem escaped_cases (plain : Char → Bool) (c : Char) :
    (∃ l, letters.lookup c = some l ∧ escaped plain c = ['\\', l] ∧ (c, l) ∈ letters) ∨
    (c ≠ '\\' ∧ c ≠ '"' ∧ c ≠ '\n' ∧ (escaped plain c = [c] ∨
      escaped plain c = str% "\\u{" ++ Nat.toDigits 16 c.toNat ++ str% "}")) := by
  by_cases h0 : c = '\x00'
  · subst h0; exact .inl ⟨'0', rfl, rfl, by decide⟩
  by_cases h1 : c = '\t'
  · subst h1; exact .inl ⟨'t', rfl, rfl, by decide⟩
  by_cases h2 : c = '\r'
  · subst h2; exact .inl ⟨'r', rfl, rfl, by decide⟩
  by_cases h3 : c = '\n'
  · subst h3; exact .inl ⟨'n', rfl, rfl, by decide⟩
  by_cases h4 : c = '\\'
  · subst h4; exact .inl ⟨'\\', rfl, rfl, by decide⟩
  by_cases h5 : c = '"'
  · subst h5; exact .inl ⟨'"', rfl, rfl, by decide⟩
  right
  refine ⟨h4, h5, h3, ?_⟩
  unfold escaped
  rw [lookup_none h0 h1 h2 h3 h4 h5]
  cases plain c <;> simp

/-- A character in quotes can be told from what follows it. -/
theorem escaped_read {plain : Char → Bool} {c d : Char} {r r' : Str}
    (h : escaped plain c ++ r = escaped plain d ++ r') : c = d ∧ r = r' := by
  have hl : ∀ c l, (c, l) ∈ letters → l ≠ 'u' := by
    intro c l hm
    simp only [letters, List.mem_cons, Prod.mk.injEq, List.not_mem_nil, or_false] at hm
    rcases hm with ⟨_, rfl⟩ | ⟨_, rfl⟩ | ⟨_, rfl⟩ | ⟨_, rfl⟩ | ⟨_, rfl⟩ | ⟨_, rfl⟩ <;> decide
  rcases escaped_cases plain c with ⟨l, _, e, m⟩ | ⟨n1, n2, _, e | e⟩ <;>
    rcases escaped_cases plain d with ⟨l', _, e', m'⟩ | ⟨n1', n2', _, e' | e'⟩ <;>
    rw [e, e'] at h <;>
    simp only [List.cons_append, List.nil_append, List.cons.injEq, List.append_assoc, true_and] at h
  · obtain ⟨rfl, rfl⟩ := h
    refine ⟨?_, rfl⟩
    simp only [letters, List.mem_cons, Prod.mk.injEq, List.not_mem_nil, or_false] at m m'
    rcases m with ⟨rfl, rfl⟩ | ⟨rfl, rfl⟩ | ⟨rfl, rfl⟩ | ⟨rfl, rfl⟩ | ⟨rfl, rfl⟩ | ⟨rfl, rfl⟩ <;>
      simpa [eq_comm] using m'
  · exact absurd h.1.symm n1'
  · exact absurd h.1 (hl _ _ m)
  · exact absurd h.1 n1
  · exact h
  · exact absurd h.1 n1
  · exact absurd h.1.symm (hl _ _ m')
  · exact absurd h.1.symm n1'
  · have hn : ∀ r : Str, ∀ c t, '}' :: r = c :: t → wordChar c = false := by
      rintro r c t ⟨⟩; decide
    obtain ⟨e1, e2⟩ := word_split (toDigits_word 16 (by decide) (by decide) c.toNat).2
      (toDigits_word 16 (by decide) (by decide) d.toNat).2 (hn r) (hn r') (by simpa using h)
    exact ⟨Char.toNat_inj.1 (toDigits_inj 16 (by decide) (by decide) _ _ e1), by simpa using e2⟩

theorem escaped_ne_quote {plain : Char → Bool} {c : Char} {r r' : Str} :
    escaped plain c ++ r ≠ '"' :: r' := by
  intro h
  rcases escaped_cases plain c with ⟨l, _, e, m⟩ | ⟨n1, n2, _, e | e⟩ <;> rw [e] at h <;> simp at h
  exact n2 h.1

theorem quotes_read {plain : Char → Bool} {s s' r r' : Str}
    (h : inQuotes plain s ++ r = inQuotes plain s' ++ r') : s = s' ∧ r = r' := by
  simp only [inQuotes, List.append_assoc, List.cons_append, List.nil_append, List.cons.injEq, true_and] at h
  induction s generalizing s' with
  | nil =>
    cases s' with
    | nil => simpa using h
    | cons d s' =>
      simp only [List.map_nil, List.flatten_nil, List.nil_append, List.map_cons, List.flatten_cons,
        List.append_assoc] at h
      exact absurd h.symm escaped_ne_quote
  | cons c s ih =>
    cases s' with
    | nil =>
      simp only [List.map_nil, List.flatten_nil, List.nil_append, List.map_cons, List.flatten_cons,
        List.append_assoc] at h
      exact absurd h escaped_ne_quote
    | cons d s' =>
      simp only [List.map_cons, List.flatten_cons, List.append_assoc] at h
      obtain ⟨e, h⟩ := escaped_read h
      obtain ⟨e', h⟩ := ih h
      exact ⟨by rw [e, e'], h⟩

/-! ## Reading a tree back -/

theorem ends_noWord {r : Str} (h : Ends r) : ∀ c t, r = c :: t → wordChar c = false := by
  intro c t e
  rcases h c t e with rfl | rfl | rfl | rfl | ⟨rfl, _⟩ <;> decide

theorem ends_closing (k : Kind) (r : Str) : Ends (k.closing ++ r) := by
  intro c t e
  cases k <;> simp [Kind.closing] at e <;> simp [← e.1, ← e.2]

theorem ends_comma (r : Str) : Ends (',' :: r) := by
  rintro c t ⟨⟩; exact .inl rfl

theorem ends_nil : Ends [] := by
  intro c t h; cases h

/-- What follows the first word of a shown tree. -/
def Text.name : Text → Str
  | .word s => s
  | .quoted _ => []
  | .group (.record n) _ => n
  | .group (.tuple n) _ => n
  | .group _ _ => []

theorem name_word {t : Text} (h : t.Ok) : ∀ c ∈ t.name, wordChar c = true := by
  cases t with
  | word s => exact h.2
  | quoted s => intro c hc; cases hc
  | group k its =>
    cases k with
    | record n => exact h.1.2
    | tuple n => exact h.1
    | list => intro c hc; cases hc
    | set => intro c hc; cases hc

theorem labelled_read {named : Bool} {l l' r r' : Str} (h : if named then Word l else l = [])
    (h' : if named then Word l' else l' = []) (e : labelled l ++ r = labelled l' ++ r') :
    l = l' ∧ r = r' := by
  cases named with
  | false =>
    simp only [Bool.false_eq_true, if_false] at h h'
    subst h; subst h'; exact ⟨rfl, by simpa [labelled] using e⟩
  | true =>
    simp only [if_true] at h h'
    simp only [labelled, h.1, h'.1, if_false, List.append_assoc] at e
    have hn : ∀ r : Str, ∀ c t, str% ": " ++ r = c :: t → wordChar c = false := by
      rintro r c t ⟨⟩; decide
    obtain ⟨e1, e2⟩ := word_split h.2 h'.2 (hn r) (hn r') e
    exact ⟨e1, by simpa using e2⟩

/-- The first character of an item is none that ends a group. -/
def Starts (s : Str) : Prop :=
  ∃ c t, s = c :: t ∧ c ≠ ' ' ∧ c ≠ ')' ∧ c ≠ ']' ∧ c ≠ '}' ∧ c ≠ '\n'

theorem starts_append {s : Str} (h : Starts s) (r : Str) : Starts (s ++ r) := by
  obtain ⟨c, t, rfl, h⟩ := h
  exact ⟨c, t ++ r, rfl, h⟩

theorem starts_word {s : Str} (h : Word s) : Starts s := by
  cases s with
  | nil => exact absurd rfl h.1
  | cons c t =>
    have hc := h.2 c (by simp)
    refine ⟨c, t, rfl, ?_, ?_, ?_, ?_, ?_⟩ <;> rintro rfl <;> revert hc <;> decide

theorem starts_label {named : Bool} {l s : Str} (h : if named then Word l else l = []) (hs : Starts s) :
    Starts (labelled l ++ s) := by
  cases named with
  | false =>
    simp only [Bool.false_eq_true, if_false] at h
    subst h; exact hs
  | true =>
    simp only [if_true] at h
    simp only [labelled, h.1, if_false]
    exact starts_append (starts_append (starts_word h) _) _

theorem starts_name {n : Str} (h : ∀ c ∈ n, wordChar c = true) (r : Str) : Starts (n ++ '(' :: r) := by
  cases n with
  | nil => exact ⟨'(', r, rfl, by decide⟩
  | cons c n => exact starts_append (starts_word ⟨by simp, h⟩) _

theorem starts_oneLine (plain : Char → Bool) {t : Text} (h : t.Ok) : Starts (t.oneLine plain) := by
  match t, h with
  | .word s, h => exact starts_word h
  | .quoted s, _ => exact ⟨'"', _, rfl, by decide⟩
  | .group (.record n) .nil, h => exact starts_word h.1
  | .group (.tuple n) .nil, h => exact absurd rfl (h.2.2 rfl)
  | .group .list .nil, _ => exact ⟨'[', _, rfl, by decide⟩
  | .group .set .nil, _ => exact ⟨'{', _, rfl, by decide⟩
  | .group (.record n) (.cons l t r), h =>
    simp only [Text.oneLine, Kind.opening, List.append_assoc]
    exact starts_append (starts_word h.1) _
  | .group (.tuple n) (.cons l t r), h =>
    simp only [Text.oneLine, Kind.opening, List.append_assoc]
    exact starts_name h.1 _
  | .group .list (.cons l t r), _ => exact ⟨'[', _, rfl, by decide⟩
  | .group .set (.cons l t r), _ => exact ⟨'{', _, rfl, by decide⟩

theorem closing_ne_comma (k : Kind) (r s : Str) : k.closing ++ r ≠ str% ", " ++ s := by
  cases k <;> simp [Kind.closing]

theorem word_case {s s' r r' : Str} (h : Word s) (h' : Word s') (hr : Ends r) (hr' : Ends r')
    (e : s ++ r = s' ++ r') : s = s' ∧ r = r' :=
  word_split h.2 h'.2 (ends_noWord hr) (ends_noWord hr') e

/-- A character no value begins its remainder with. -/
theorem no_ends {r s : Str} (h : Ends r) (c : Char) (hc : c ∈ ['(', '[', '{', '"']) : r ≠ c :: s := by
  intro e
  have := h c s e
  simp only [List.mem_cons, List.not_mem_nil, or_false] at hc
  rcases hc with rfl | rfl | rfl | rfl <;> simp at this

theorem no_brace {r s : Str} (h : Ends r) : r ≠ ' ' :: '{' :: s := by
  intro e
  have := h _ _ e
  simp at this

/-- How a shown value goes on after its name; `b` is the rest of a group. -/
def Text.after (plain : Char → Bool) (b r : Str) : Text → Str
  | .word _ => r
  | .quoted s => inQuotes plain s ++ r
  | .group (.record _) _ => ' ' :: '{' :: b
  | .group (.tuple _) _ => '(' :: b
  | .group .list _ => '[' :: b
  | .group .set _ => '{' :: b

theorem after_noWord (plain : Char → Bool) (b : Str) {r : Str} (hr : Ends r) (t : Text) :
    ∀ c u, t.after plain b r = c :: u → wordChar c = false := by
  match t with
  | .word _ => exact ends_noWord hr
  | .quoted s => rintro c u ⟨⟩; decide
  | .group (.record _) _ => rintro c u ⟨⟩; decide
  | .group (.tuple _) _ => rintro c u ⟨⟩; decide
  | .group .list _ => rintro c u ⟨⟩; decide
  | .group .set _ => rintro c u ⟨⟩; decide

/-- Values written alike are of the same kind. -/
theorem kinds {plain : Char → Bool} {t t' : Text} {b b' r r' : Str} (h : t.Ok) (h' : t'.Ok)
    (hr : Ends r) (hr' : Ends r')
    (e : t.name ++ t.after plain b r = t'.name ++ t'.after plain b' r') :
    (t = t' ∧ r = r') ∨ ∃ k its its', t = .group k its ∧ t' = .group k its' ∧ b = b' := by
  obtain ⟨e1, e2⟩ := word_split (name_word h) (name_word h') (after_noWord plain b hr t)
    (after_noWord plain b' hr' t') e
  have q : ∀ (s : Str) (r u : Str) (c : Char), c ≠ '"' → inQuotes plain s ++ r ≠ c :: u := by
    intro s r u c hc
    simp only [inQuotes, List.cons_append, List.nil_append, List.append_assoc, ne_eq, List.cons.injEq, not_and]
    exact fun x => absurd x.symm hc
  have qe : ∀ (s : Str) (r u : Str), Ends u → inQuotes plain s ++ r ≠ u := by
    intro s r u hu x
    exact no_ends hu '"' (by decide) (s := (s.map (escaped plain)).flatten ++ str% "\"" ++ r)
      (by rw [← x]; simp [inQuotes])
  match t, t', h, h', e1, e2 with
  | .word s, .word s', _, _, e1, e2 => exact .inl ⟨by rw [show s = s' from e1], e2⟩
  | .word s, .quoted _, _, _, _, e2 => exact absurd e2.symm (qe _ _ _ hr)
  | .word s, .group (.record _) _, _, _, _, e2 => exact absurd e2 (no_brace hr)
  | .word s, .group (.tuple _) _, _, _, _, e2 => exact absurd e2 (no_ends hr _ (by decide))
  | .word s, .group .list _, _, _, _, e2 => exact absurd e2 (no_ends hr _ (by decide))
  | .word s, .group .set _, _, _, _, e2 => exact absurd e2 (no_ends hr _ (by decide))
  | .quoted s, .word _, _, _, _, e2 => exact absurd e2 (qe _ _ _ hr')
  | .group (.record _) _, .word _, _, _, _, e2 => exact absurd e2.symm (no_brace hr')
  | .group (.tuple _) _, .word _, _, _, _, e2 => exact absurd e2.symm (no_ends hr' _ (by decide))
  | .group .list _, .word _, _, _, _, e2 => exact absurd e2.symm (no_ends hr' _ (by decide))
  | .group .set _, .word _, _, _, _, e2 => exact absurd e2.symm (no_ends hr' _ (by decide))
  | .quoted s, .quoted s', _, _, _, e2 =>
    obtain ⟨es, er⟩ := quotes_read e2
    exact .inl ⟨by rw [es], er⟩
  | .quoted s, .group (.record _) _, _, _, _, e2 => exact absurd e2 (q _ _ _ _ (by decide))
  | .quoted s, .group (.tuple _) _, _, _, _, e2 => exact absurd e2 (q _ _ _ _ (by decide))
  | .quoted s, .group .list _, _, _, _, e2 => exact absurd e2 (q _ _ _ _ (by decide))
  | .quoted s, .group .set _, _, _, _, e2 => exact absurd e2 (q _ _ _ _ (by decide))
  | .group (.record _) _, .quoted s, _, _, _, e2 => exact absurd e2.symm (q _ _ _ _ (by decide))
  | .group (.tuple _) _, .quoted s, _, _, _, e2 => exact absurd e2.symm (q _ _ _ _ (by decide))
  | .group .list _, .quoted s, _, _, _, e2 => exact absurd e2.symm (q _ _ _ _ (by decide))
  | .group .set _, .quoted s, _, _, _, e2 => exact absurd e2.symm (q _ _ _ _ (by decide))
  | .group (.record n) i, .group (.record n') i', _, _, e1, e2 =>
    obtain rfl : n = n' := e1
    exact .inr ⟨.record n, i, i', rfl, rfl, by simpa [Text.after] using e2⟩
  | .group (.tuple n) i, .group (.tuple n') i', _, _, e1, e2 =>
    obtain rfl : n = n' := e1
    exact .inr ⟨.tuple n, i, i', rfl, rfl, by simpa [Text.after] using e2⟩
  | .group .list i, .group .list i', _, _, _, e2 =>
    exact .inr ⟨.list, i, i', rfl, rfl, by simpa [Text.after] using e2⟩
  | .group .set i, .group .set i', _, _, _, e2 =>
    exact .inr ⟨.set, i, i', rfl, rfl, by simpa [Text.after] using e2⟩
  | .group (.record _) _, .group (.tuple _) _, _, _, _, e2 => simp [Text.after] at e2
  | .group (.record _) _, .group .list _, _, _, _, e2 => simp [Text.after] at e2
  | .group (.record _) _, .group .set _, _, _, _, e2 => simp [Text.after] at e2
  | .group (.tuple _) _, .group (.record _) _, _, _, _, e2 => simp [Text.after] at e2
  | .group (.tuple _) _, .group .list _, _, _, _, e2 => simp [Text.after] at e2
  | .group (.tuple _) _, .group .set _, _, _, _, e2 => simp [Text.after] at e2
  | .group .list _, .group (.record _) _, _, _, _, e2 => simp [Text.after] at e2
  | .group .list _, .group (.tuple _) _, _, _, _, e2 => simp [Text.after] at e2
  | .group .list _, .group .set _, _, _, _, e2 => simp [Text.after] at e2
  | .group .set _, .group (.record _) _, _, _, _, e2 => simp [Text.after] at e2
  | .group .set _, .group (.tuple _) _, _, _, _, e2 => simp [Text.after] at e2
  | .group .set _, .group .list _, _, _, _, e2 => simp [Text.after] at e2

/-! ### On one line -/

/-- What stands between a group's bracket and its first item. -/
def Kind.gap : Kind → Str
  | .record _ => str% " "
  | _ => []

/-- The rest of a group on one line, after its bracket. -/
def body (plain : Char → Bool) (k : Kind) : Items → Str
  | .nil => k.gap ++ k.closing
  | .cons l t r => k.gap ++ (labelled l ++ (t.oneLine plain ++ (r.oneLine plain ++ k.closing)))

theorem oneLine_eq (plain : Char → Bool) (t : Text) (h : t.Ok) (r : Str) :
    t.oneLine plain ++ r = t.name ++ t.after plain
      (match t with
        | .group k its => body plain k its ++ r
        | _ => []) r := by
  match t, h with
  | .word s, _ => rfl
  | .quoted s, _ => rfl
  | .group (.record n) .nil, h => exact absurd rfl (h.2.2 rfl)
  | .group (.tuple n) .nil, h => exact absurd rfl (h.2.2 rfl)
  | .group .list .nil, _ => rfl
  | .group .set .nil, _ => rfl
  | .group (.record n) (.cons l t r), h =>
    simp [Text.oneLine, Kind.opening, Kind.closing, Text.name, Text.after, body, Kind.gap]
  | .group (.tuple n) (.cons l t r), h =>
    simp [Text.oneLine, Kind.opening, Kind.closing, Text.name, Text.after, body, Kind.gap]
  | .group .list (.cons l t r), h =>
    simp [Text.oneLine, Kind.opening, Kind.closing, Text.name, Text.after, body, Kind.gap]
  | .group .set (.cons l t r), h =>
    simp [Text.oneLine, Kind.opening, Kind.closing, Text.name, Text.after, body, Kind.gap]

theorem starts_ne_closing {s : Str} (h : Starts s) (k : Kind) (r : Str) : s ≠ k.closing ++ r := by
  obtain ⟨c, t, rfl, h1, h2, h3, h4, h5⟩ := h
  cases k <;> simp [Kind.closing, h1, h2, h3, h4]

theorem ends_rest (plain : Char → Bool) (k : Kind) (i : Items) (r : Str) :
    Ends (i.oneLine plain ++ (k.closing ++ r)) := by
  cases i with
  | nil => exact ends_closing k r
  | cons l t i => exact ends_comma _

mutual
/-- A value shown on one line can be told from what follows it. -/
theorem read_oneLine (plain : Char → Bool) : (t t' : Text) → (r r' : Str) → t.Ok → t'.Ok → Ends r →
    Ends r' → t.oneLine plain ++ r = t'.oneLine plain ++ r' → t = t' ∧ r = r'
  | t, t', r, r', h, h', hr, hr', e => by
    rw [oneLine_eq plain t h, oneLine_eq plain t' h'] at e
    rcases kinds h h' hr hr' e with e | ⟨k, i, i', rfl, rfl, e⟩
    · exact e
    · cases i with
      | nil =>
        cases i' with
        | nil => simpa [body] using e
        | cons l' t' i' =>
          simp only [body, List.append_assoc, List.append_cancel_left_eq] at e
          exact absurd e.symm (starts_ne_closing
            (starts_label h'.2.1.1 (starts_append (starts_oneLine plain h'.2.1.2.1) _)) _ _)
      | cons l t i =>
        cases i' with
        | nil =>
          simp only [body, List.append_assoc, List.append_cancel_left_eq] at e
          exact absurd e (starts_ne_closing
            (starts_label h.2.1.1 (starts_append (starts_oneLine plain h.2.1.2.1) _)) _ _)
        | cons l' t' i' =>
          simp only [body, List.append_assoc, List.append_cancel_left_eq] at e
          obtain ⟨rfl, e1⟩ := labelled_read h.2.1.1 h'.2.1.1 e
          obtain ⟨rfl, e2⟩ := read_oneLine plain t t' _ _ h.2.1.2.1 h'.2.1.2.1 (ends_rest _ _ _ _) (ends_rest _ _ _ _) e1
          obtain ⟨rfl, e3⟩ := read_items plain i i' k.named k _ _ h.2.1.2.2 h'.2.1.2.2 e2
          exact ⟨rfl, e3⟩
theorem read_items (plain : Char → Bool) : (i i' : Items) → (named : Bool) → (k : Kind) → (r r' : Str) →
    i.Ok named → i'.Ok named →
    i.oneLine plain ++ (k.closing ++ r) = i'.oneLine plain ++ (k.closing ++ r') → i = i' ∧ r = r'
  | .nil, .nil, _, k, r, r', _, _, e => ⟨rfl, by simpa [Items.oneLine] using e⟩
  | .nil, .cons l' t' i', _, k, r, r', _, _, e => by
    simp only [Items.oneLine, List.nil_append, List.append_assoc] at e
    exact absurd e (closing_ne_comma k _ _)
  | .cons l t i, .nil, _, k, r, r', _, _, e => by
    simp only [Items.oneLine, List.nil_append, List.append_assoc] at e
    exact absurd e.symm (closing_ne_comma k _ _)
  | .cons l t i, .cons l' t' i', named, k, r, r', h, h', e => by
    simp only [Items.oneLine, List.append_assoc, List.append_cancel_left_eq] at e
    obtain ⟨rfl, e1⟩ := labelled_read h.1 h'.1 e
    obtain ⟨rfl, e2⟩ := read_oneLine plain t t' _ _ h.2.1 h'.2.1 (ends_rest _ _ _ _) (ends_rest _ _ _ _) e1
    obtain ⟨rfl, e3⟩ := read_items plain i i' named k _ _ h.2.2 h'.2.2 e2
    exact ⟨rfl, e3⟩
end

/-! ### On several lines -/

mutual
/-- `{:#?}` as a string. -/
def Text.tall (plain : Char → Bool) : Text → Str
  | .word s => s
  | .quoted s => inQuotes plain s
  | .group k .nil => k.empty
  | .group k (.cons l t r) =>
    k.head ++ '\n' :: (padAdapter true (labelled l ++ (t.tall plain ++ str% ",\n")) ++
      (r.tall plain ++ k.foot))
def Items.tall (plain : Char → Bool) : Items → Str
  | .nil => []
  | .cons l t r => padAdapter true (labelled l ++ (t.tall plain ++ str% ",\n")) ++ r.tall plain
end

/-- The rest of a group on several lines, after its bracket. -/
def tallBody (plain : Char → Bool) (k : Kind) : Items → Str
  | .nil => k.foot
  | .cons l t r =>
    '\n' :: (padAdapter true (labelled l ++ (t.tall plain ++ str% ",\n")) ++ (r.tall plain ++ k.foot))

theorem tall_eq (plain : Char → Bool) (t : Text) (h : t.Ok) (r : Str) :
    t.tall plain ++ r = t.name ++ t.after plain
      (match t with
        | .group k its => tallBody plain k its ++ r
        | _ => []) r := by
  match t, h with
  | .word s, _ => rfl
  | .quoted s, _ => rfl
  | .group (.record n) .nil, h => exact absurd rfl (h.2.2 rfl)
  | .group (.tuple n) .nil, h => exact absurd rfl (h.2.2 rfl)
  | .group .list .nil, _ => rfl
  | .group .set .nil, _ => rfl
  | .group (.record n) (.cons l t r), h =>
    simp [Text.tall, Kind.head, Kind.foot, Text.name, Text.after, tallBody]
  | .group (.tuple n) (.cons l t r), h =>
    simp [Text.tall, Kind.head, Kind.foot, Text.name, Text.after, tallBody]
  | .group .list (.cons l t r), h =>
    simp [Text.tall, Kind.head, Kind.foot, Text.name, Text.after, tallBody]
  | .group .set (.cons l t r), h =>
    simp [Text.tall, Kind.head, Kind.foot, Text.name, Text.after, tallBody]

/-- Of two indented texts that agree, one begins with the other. -/
theorem pad_prefix {nl : Bool} {u u' R R' : Str} (h : padAdapter nl u ++ R = padAdapter nl u' ++ R') :
    (∃ z, u' = u ++ z) ∨ (∃ z, u = u' ++ z) := by
  induction u generalizing u' nl with
  | nil => exact .inl ⟨u', rfl⟩
  | cons c u ih =>
    cases u' with
    | nil => exact .inr ⟨c :: u, rfl⟩
    | cons d u' =>
      simp only [padAdapter, List.append_assoc, List.append_cancel_left_eq, List.cons_append,
        List.cons.injEq] at h
      obtain ⟨rfl, h⟩ := h
      rcases ih h with ⟨z, rfl⟩ | ⟨z, rfl⟩
      · exact .inl ⟨z, rfl⟩
      · exact .inr ⟨z, rfl⟩

/-- If the text before a comma can be told from what follows it, so can the indented item. -/
theorem pad_read {x x' R R' : Str}
    (hx : ∀ z z', x ++ ',' :: z = x' ++ ',' :: z' → x = x' ∧ z = z')
    (h : padAdapter true (x ++ str% ",\n") ++ R = padAdapter true (x' ++ str% ",\n") ++ R') :
    x = x' ∧ R = R' := by
  have key : x = x' := by
    rcases pad_prefix h with ⟨z, e⟩ | ⟨z, e⟩
    · rw [List.append_assoc] at e
      exact (hx ('\n' :: z) (str% "\n") (by simpa using e.symm)).1
    · rw [List.append_assoc] at e
      exact (hx (str% "\n") ('\n' :: z) (by simpa using e)).1
  subst key
  exact ⟨rfl, List.append_cancel_left h⟩

theorem pad_starts (x R : Str) : ∃ u, padAdapter true (x ++ str% ",\n") ++ R = ' ' :: u := by
  cases x with
  | nil => exact ⟨_, rfl⟩
  | cons c x => exact ⟨_, rfl⟩

theorem foot_ne (k : Kind) (r : Str) (x R : Str) :
    k.foot ++ r ≠ padAdapter true (x ++ str% ",\n") ++ R := by
  obtain ⟨u, e⟩ := pad_starts x R
  rw [e]
  cases k <;> simp [Kind.foot]

mutual
/-- A value shown on several lines can be told from what follows it. -/
theorem read_tall (plain : Char → Bool) : (t t' : Text) → (r r' : Str) → t.Ok → t'.Ok → Ends r →
    Ends r' → t.tall plain ++ r = t'.tall plain ++ r' → t = t' ∧ r = r'
  | t, t', r, r', h, h', hr, hr', e => by
    rw [tall_eq plain t h, tall_eq plain t' h'] at e
    rcases kinds h h' hr hr' e with e | ⟨k, i, i', rfl, rfl, e⟩
    · exact e
    · cases i with
      | nil =>
        cases i' with
        | nil => simpa [tallBody] using e
        | cons l' t' i' =>
          simp only [tallBody] at e
          cases k <;> simp [Kind.foot] at e
      | cons l t i =>
        cases i' with
        | nil =>
          simp only [tallBody] at e
          cases k <;> simp [Kind.foot] at e
        | cons l' t' i' =>
          simp only [tallBody, List.append_assoc, List.cons_append, List.cons.injEq, true_and] at e
          rw [← List.append_assoc (labelled l), ← List.append_assoc (labelled l')] at e
          obtain ⟨ex, e1⟩ := pad_read (fun z z' hz => by
            simp only [List.append_assoc] at hz
            obtain ⟨rfl, hy⟩ := labelled_read h.2.1.1 h'.2.1.1 hz
            obtain ⟨rfl, hw⟩ := read_tall plain t t' _ _ h.2.1.2.1 h'.2.1.2.1 (ends_comma _) (ends_comma _) hy
            exact ⟨rfl, by simpa using hw⟩) e
          have ex' : labelled l ++ (t.tall plain ++ []) = labelled l' ++ (t'.tall plain ++ []) := by
            simpa using ex
          obtain ⟨rfl, ey⟩ := labelled_read h.2.1.1 h'.2.1.1 ex'
          obtain ⟨rfl, _⟩ := read_tall plain t t' _ _ h.2.1.2.1 h'.2.1.2.1 ends_nil ends_nil ey
          obtain ⟨rfl, e2⟩ := read_tallItems plain i i' k.named k _ _ h.2.1.2.2 h'.2.1.2.2 e1
          exact ⟨rfl, e2⟩
theorem read_tallItems (plain : Char → Bool) : (i i' : Items) → (named : Bool) → (k : Kind) →
    (r r' : Str) → i.Ok named → i'.Ok named →
    i.tall plain ++ (k.foot ++ r) = i'.tall plain ++ (k.foot ++ r') → i = i' ∧ r = r'
  | .nil, .nil, _, k, r, r', _, _, e => ⟨rfl, by simpa [Items.tall] using e⟩
  | .nil, .cons l' t' i', _, k, r, r', _, _, e => by
    simp only [Items.tall, List.nil_append, List.append_assoc] at e
    rw [← List.append_assoc (labelled l')] at e
    exact absurd e (foot_ne _ _ _ _)
  | .cons l t i, .nil, _, k, r, r', _, _, e => by
    simp only [Items.tall, List.nil_append, List.append_assoc] at e
    rw [← List.append_assoc (labelled l)] at e
    exact absurd e.symm (foot_ne _ _ _ _)
  | .cons l t i, .cons l' t' i', named, k, r, r', h, h', e => by
    simp only [Items.tall, List.append_assoc] at e
    rw [← List.append_assoc (labelled l), ← List.append_assoc (labelled l')] at e
    obtain ⟨ex, e1⟩ := pad_read (fun z z' hz => by
      simp only [List.append_assoc] at hz
      obtain ⟨rfl, hy⟩ := labelled_read h.1 h'.1 hz
      obtain ⟨rfl, hw⟩ := read_tall plain t t' _ _ h.2.1 h'.2.1 (ends_comma _) (ends_comma _) hy
      exact ⟨rfl, by simpa using hw⟩) e
    have ex' : labelled l ++ (t.tall plain ++ []) = labelled l' ++ (t'.tall plain ++ []) := by
      simpa using ex
    obtain ⟨rfl, ey⟩ := labelled_read h.1 h'.1 ex'
    obtain ⟨rfl, _⟩ := read_tall plain t t' _ _ h.2.1 h'.2.1 ends_nil ends_nil ey
    obtain ⟨rfl, e2⟩ := read_tallItems plain i i' named k _ _ h.2.2 h'.2.2 e1
    exact ⟨rfl, e2⟩
end

end AT.DebugSpec
