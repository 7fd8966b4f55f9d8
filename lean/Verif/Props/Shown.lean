import Verif.Proofs.Shown
import Verif.Spec.MachO
import Verif.Proofs.MacFlags
import Verif.Proofs.MacDecode
import Verif.Proofs.MacLayout
import Verif.Props.MacStrings
/-!
# C83: debug output shows exactly what is there
-/

namespace AT.Props
open AT.Mac AT.MachO

theorem made_ascii {t : StringTable} (h : Made t) : ∀ b ∈ t.data, b < 128 := by
  induction h with
  | withNull => simp [StringTable.withNull]
  | push t t' s _ h ih =>
    simp only [StringTable.pushWithNull, rassert] at h
    split at h
    · rename_i ha
      cases h
      intro b hb
      simp only [List.mem_append, List.mem_map, List.mem_singleton] at hb
      rcases hb with (hb | ⟨c, hc, rfl⟩) | rfl
      · exact ih b hb
      · have := List.all_eq_true.mp ha c hc
        simp only [charIsAscii, decide_eq_true_eq] at this
        rw [UInt8.lt_iff_toNat_lt]
        simp
        omega
      · decide
    · exact absurd h (by simp [Bind.bind, Except.bind])
  | ofVec v t h =>
    obtain ⟨_, _, ha, rfl⟩ := Props.ofVec_ok.mp h
    exact fun b hb => UInt8.lt_iff_toNat_lt.mpr (ha b hb)

theorem bytes_below {p : UInt8 → Prop} (h : ∀ n : Nat, n < 128 → p (UInt8.ofNat n)) (b : UInt8)
    (hb : b < 128) : p b := by
  have := h b.toNat (UInt8.lt_iff_toNat_lt.mp hb)
  rwa [UInt8.ofNat_toNat] at this

theorem byte_shown (b : UInt8) (hb : b < 128) : ByteShown b (StringTable.debugByte b) := by
  have hq : ∀ b : UInt8, b < 128 → (Char.ofNat b.toNat = '\'' ↔ b = 39) :=
    fun b hb => bytes_below (p := fun b => Char.ofNat b.toNat = '\'' ↔ b = 39) (by decide +kernel) b hb
  have hs : ∀ b : UInt8, b < 128 → (Char.ofNat b.toNat = '\\' ↔ b = 92) :=
    fun b hb => bytes_below (p := fun b => Char.ofNat b.toNat = '\\' ↔ b = 92) (by decide +kernel) b hb
  have hl : ∀ b : UInt8, b < 128 → (Char.ofNat b.toNat ∈ ['\t', '\n', '\r'] ↔ b = 9 ∨ b = 10 ∨ b = 13) :=
    fun b hb => bytes_below (p := fun b => Char.ofNat b.toNat ∈ ['\t', '\n', '\r'] ↔ b = 9 ∨ b = 10 ∨ b = 13)
      (by decide +kernel) b hb
  have hu : ∀ b : UInt8, b < 128 → str% "'" ++ escapeUnicode b.toNat ++ str% "'" =
      "'\\u{".toList ++ Nat.toDigits 16 b.toNat ++ "}'".toList :=
    fun b hb => bytes_below (p := fun b => str% "'" ++ escapeUnicode b.toNat ++ str% "'" =
      "'\\u{".toList ++ Nat.toDigits 16 b.toNat ++ "}'".toList) (by decide +kernel) b hb
  unfold StringTable.debugByte debugChar
  by_cases h0 : b = 0
  · subst h0; exact .nul
  simp only [if_neg h0]
  by_cases h9 : b = 9
  · subst h9; exact .letter 9 't' (by decide)
  simp only [if_neg h9]
  by_cases h13 : b = 13
  · subst h13; exact .letter 13 'r' (by decide)
  simp only [if_neg h13]
  by_cases h10 : b = 10
  · subst h10; exact .letter 10 'n' (by decide)
  simp only [if_neg h10]
  by_cases h39 : b = 39
  · subst h39; exact .escaped 39 (by decide)
  simp only [if_neg h39]
  by_cases h92 : b = 92
  · subst h92; exact .escaped 92 (by decide)
  simp only [if_neg h92]
  by_cases hc : b < 32 ∨ b = 127
  · rw [if_pos hc, hu b hb]
    exact .number b h0 hc (fun h => by rcases (hl b hb).mp h with h | h | h <;> contradiction)
  · rw [if_neg hc]
    have hn := hc
    rw [not_or, UInt8.lt_iff_toNat_lt, ← UInt8.toNat_inj] at hn
    have hb' := UInt8.lt_iff_toNat_lt.mp hb
    simp at hn hb'
    refine .printable b (UInt8.le_iff_toNat_le.mpr (by simp; omega)) (UInt8.lt_iff_toNat_lt.mpr (by simp; omega))
      (fun h => h39 ((hq b hb).mp h)) (fun h => h92 ((hs b hb).mp h))

/-- A byte is shown in one way only. -/
theorem shown_byte {b : UInt8} {s : Str} (h : ByteShown b s) : s = StringTable.debugByte b := by
  unfold StringTable.debugByte debugChar
  cases h with
  | nul => rfl
  | printable _ h1 h2 hq hb =>
    have l1 := UInt8.le_iff_toNat_le.mp h1
    have l2 := UInt8.lt_iff_toNat_lt.mp h2
    simp at l1 l2
    have hn : ∀ k : UInt8, k.toNat < 32 ∨ k.toNat = 127 → b ≠ k := by
      rintro k hk rfl; omega
    have h39 : b ≠ 39 := by rintro rfl; exact hq (by decide)
    have h92 : b ≠ 92 := by rintro rfl; exact hb (by decide)
    have hc : ¬ (b < 32 ∨ b = 127) := by
      rintro (h | h)
      · have := UInt8.lt_iff_toNat_lt.mp h; simp at this; omega
      · exact hn 127 (by decide) h
    simp only [if_neg (hn 0 (by decide)), if_neg (hn 9 (by decide)), if_neg (hn 13 (by decide)),
      if_neg (hn 10 (by decide)), if_neg h39, if_neg h92, if_neg hc]
    rfl
  | escaped _ h =>
    have : b = 39 ∨ b = 92 := by
      have := (by decide +kernel : ∀ b : Fin 256, (Char.ofNat b.val = '\'' ∨ Char.ofNat b.val = '\\') →
        UInt8.ofNat b.val = 39 ∨ UInt8.ofNat b.val = 92) ⟨b.toNat, b.toNat_lt⟩ h
      simpa only [UInt8.ofNat_toNat] using this
    rcases this with rfl | rfl <;> decide
  | letter _ c h =>
    have : (b, c) ∈ [((9 : UInt8), 't'), (10, 'n'), (13, 'r')] := by
      simp only [List.mem_cons, Prod.mk.injEq, List.not_mem_nil, or_false] at h ⊢
      have := (by decide +kernel : ∀ b : Fin 256, (Char.ofNat b.val = '\t' → UInt8.ofNat b.val = 9) ∧
        (Char.ofNat b.val = '\n' → UInt8.ofNat b.val = 10) ∧ (Char.ofNat b.val = '\r' → UInt8.ofNat b.val = 13))
        ⟨b.toNat, b.toNat_lt⟩
      simp only [UInt8.ofNat_toNat] at this
      rcases h with ⟨h, rfl⟩ | ⟨h, rfl⟩ | ⟨h, rfl⟩
      · exact .inl ⟨this.1 h, rfl⟩
      · exact .inr (.inl ⟨this.2.1 h, rfl⟩)
      · exact .inr (.inr ⟨this.2.2 h, rfl⟩)
    simp only [List.mem_cons, Prod.mk.injEq, List.not_mem_nil, or_false] at this
    rcases this with ⟨rfl, rfl⟩ | ⟨rfl, rfl⟩ | ⟨rfl, rfl⟩ <;> decide
  | number _ h0 h hl =>
    have h39 : b ≠ 39 := by rintro rfl; revert h; decide
    have h92 : b ≠ 92 := by rintro rfl; revert h; decide
    have h9 : b ≠ 9 := by rintro rfl; exact hl (by decide)
    have h10 : b ≠ 10 := by rintro rfl; exact hl (by decide)
    have h13 : b ≠ 13 := by rintro rfl; exact hl (by decide)
    have hb : b.toNat < 128 := by
      rcases h with h | rfl
      · have := UInt8.lt_iff_toNat_lt.mp h; simp at this; omega
      · decide
    simp only [if_neg h0, if_neg h9, if_neg h13, if_neg h10, if_neg h39, if_neg h92, if_pos h]
    exact ((by decide +kernel : ∀ n < 128, str% "'" ++ escapeUnicode n ++ str% "'" =
      "'\\u{".toList ++ Nat.toDigits 16 n ++ "}'".toList) b.toNat hb).symm

theorem shown_no_prefix : ∀ a < 128, ∀ b < 128,
    (StringTable.debugByte (UInt8.ofNat a)).isPrefixOf (StringTable.debugByte (UInt8.ofNat b)) = true → a = b := by
  decide +kernel

theorem bytes_parse : Parses (fun b : UInt8 => b < 128) StringTable.debugByte ']' := by
  intro a b ha hb c d x y _ _ h
  have hp : ∀ {a b : UInt8}, a < 128 → b < 128 →
      StringTable.debugByte a <+: StringTable.debugByte b → a = b := by
    intro a b ha hb hp
    have := shown_no_prefix a.toNat (UInt8.lt_iff_toNat_lt.mp ha) b.toNat (UInt8.lt_iff_toNat_lt.mp hb)
      (by rw [UInt8.ofNat_toNat, UInt8.ofNat_toNat]; exact List.isPrefixOf_iff_prefix.mpr hp)
    exact UInt8.toNat_inj.mp this
  have hab : a = b := by
    rcases List.prefix_or_prefix_of_prefix (l₁ := StringTable.debugByte a) (l₂ := StringTable.debugByte b)
      ⟨_, rfl⟩ ⟨_, h.symm⟩ with h1 | h1
    · exact hp ha hb h1
    · exact (hp hb ha h1).symm
  subst hab
  simpa using h

/-- C83.  A string table is shown as the list of its bytes, on one line or one per line, and nothing
else is shown. -/
theorem C83_table (alt : Bool) (t : StringTable) (ht : Made t) :
    ∃ ss : List Str, ss.length = t.asRef.length ∧
      (∀ (k : Nat) b s, t.asRef[k]? = some b → ss[k]? = some s → ByteShown b s) ∧
      t.debug alt = shown alt '[' ']' ss := by
  have hb := made_ascii ht
  refine ⟨t.data.map StringTable.debugByte, by simp [StringTable.asRef], ?_, ?_⟩
  · intro k b s h1 h2
    simp only [StringTable.asRef] at h1
    rw [List.getElem?_map, h1] at h2
    cases h2
    exact byte_shown b (hb b (List.mem_of_getElem? h1))
  · refine fold_shown alt '[' ']' _ ?_
    intro e he
    obtain ⟨b, hm, rfl⟩ := List.mem_map.mp he
    exact bytes_below (p := fun b => StringTable.debugByte b ≠ [] ∧ ∀ c ∈ StringTable.debugByte b, c ≠ '\n')
      (by decide +kernel) b (hb b hm)

/-- C83.  Tables that are shown alike are equal: every byte of a table can be read off. -/
theorem C83_table_faithful (alt : Bool) (t u : StringTable) (ht : Made t) (hu : Made u) :
    t.debug alt = u.debug alt ↔ t = u := by
  constructor
  · intro h
    have e : ∀ t : StringTable, Made t → t.debug alt = shown alt '[' ']' (t.data.map StringTable.debugByte) := by
      intro t ht
      refine fold_shown alt '[' ']' _ ?_
      intro e he
      obtain ⟨b, hm, rfl⟩ := List.mem_map.mp he
      exact bytes_below (p := fun b => StringTable.debugByte b ≠ [] ∧ ∀ c ∈ StringTable.debugByte b, c ≠ '\n')
        (by decide +kernel) b (made_ascii ht b hm)
    rw [e t ht, e u hu] at h
    have := shown_inj (P := fun b : UInt8 => b < 128) (fun b hb => bytes_below
      (p := fun b => ∃ c s, StringTable.debugByte b = c :: s) (fun n hn => by
        have := (by decide +kernel : ∀ n < 128, StringTable.debugByte (UInt8.ofNat n) ≠ []) n hn
        exact List.exists_cons_of_ne_nil this) b hb) bytes_parse alt t.data u.data (made_ascii ht) (made_ascii hu) h
    cases t; cases u; simpa using this
  · rintro rfl; rfl

/-- C83.  Every ASCII byte is shown in exactly one way. -/
theorem C83_byte (b : UInt8) (hb : b < 128) : ∃ s, ByteShown b s ∧ ∀ s', ByteShown b s' → s' = s :=
  ⟨_, byte_shown b hb, fun _ h => shown_byte h⟩

example : (StringTable.mk [0, 95, 109, 39, 10, 1, 0]).debug false =
    "[\"\", '_', 'm', '\\'', '\\n', '\\u{1}', \"\"]".toList := by decide +kernel
example : (StringTable.mk [0, 127, 0]).debug true =
    "[\n    \"\",\n    '\\u{7f}',\n    \"\",\n]".toList := by decide +kernel
example : Made ⟨[0, 127, 0]⟩ := .ofVec [0, 127, 0] _ (by decide +kernel)

/-! ## Flags and attributes -/

theorem pushes_flags (l : List Flag) (fs : Flags) : l.foldl Flags.push fs = fs ++ l := by
  induction l generalizing fs with
  | nil => simp
  | cons f l ih => simp [ih, Flags.push]

theorem pushes_attrs (l : List SectionAttr) (as : SectionAttrs) : l.foldl SectionAttrs.push as = as ++ l := by
  induction l generalizing as with
  | nil => simp
  | cons f l ih => simp [ih, SectionAttrs.push]

theorem names_parse {α : Type} {enc : α → Str} (hl : ∀ a, ∀ c ∈ enc a, c.isAlpha = true)
    (hi : ∀ a b, enc a = enc b → a = b) : Parses (fun _ : α => True) enc '}' := by
  intro a b _ _ c d x y hc hd h
  have hn : ∀ {c : Char}, c = ',' ∨ c = '}' → c.isAlpha = false := by
    rintro c (rfl | rfl) <;> decide
  have e := congrArg (List.takeWhile Char.isAlpha) h
  rw [List.takeWhile_append_of_pos (hl a), List.takeWhile_append_of_pos (hl b),
    List.takeWhile_cons_of_neg (by simp [hn hc]), List.takeWhile_cons_of_neg (by simp [hn hd])] at e
  have : a = b := hi a b (by simpa using e)
  subst this
  simpa using h

/-- C23.  `to_u32` after any pushes onto an empty set is the number with exactly the bits of what was
pushed; two histories give the same number iff they pushed the same members, in whatever order and
however often. -/
theorem C23_push :
    (∀ l : List Flag, (l.foldl Flags.push Flags.new).toU32.toNat = flagWord l) ∧
    (∀ l m : List Flag, (l.foldl Flags.push Flags.new).toU32 = (m.foldl Flags.push Flags.new).toU32 ↔
      ∀ f, f ∈ l ↔ f ∈ m) ∧
    (∀ l : List SectionAttr, (l.foldl SectionAttrs.push SectionAttrs.new).toU32.toNat = attrWord l) ∧
    (∀ l m : List SectionAttr, (l.foldl SectionAttrs.push SectionAttrs.new).toU32 =
      (m.foldl SectionAttrs.push SectionAttrs.new).toU32 ↔ ∀ a, a ∈ l ↔ a ∈ m) := by
  refine ⟨fun l => ?_, fun l m => ?_, fun l => ?_, fun l m => ?_⟩
  · rw [pushes_flags]; exact (flagWord_eq l).symm
  · rw [pushes_flags, pushes_flags]
    constructor
    · intro h f
      have h1 := flags_fromU32_toU32 l
      have h2 := flags_fromU32_toU32 m
      simp only [Flags.new, List.nil_append] at h
      rw [h, h2] at h1
      have := Except.ok.inj h1
      have hf : f ∈ sortFlags m ↔ f ∈ sortFlags l := by rw [this]
      simp only [sortFlags, List.mem_filter, mem_allFlags, true_and, decide_eq_true_eq] at hf
      exact hf.symm
    · intro h
      apply UInt32.toNat_inj.mp
      simp only [Flags.new, List.nil_append]
      rw [← flagWord_eq, ← flagWord_eq]
      simp only [flagWord, h]
  · rw [pushes_attrs]; exact (attrWord_eq l).symm
  · rw [pushes_attrs, pushes_attrs]
    constructor
    · intro h a
      have h1 := attrs_fromU32_toU32 l
      have h2 := attrs_fromU32_toU32 m
      simp only [SectionAttrs.new, List.nil_append] at h
      rw [h, h2] at h1
      have := Except.ok.inj h1
      have hf : a ∈ sortAttrs m ↔ a ∈ sortAttrs l := by rw [this]
      simp only [sortAttrs, List.mem_filter, mem_allAttrs, true_and, decide_eq_true_eq] at hf
      exact hf.symm
    · intro h
      apply UInt32.toNat_inj.mp
      simp only [SectionAttrs.new, List.nil_append]
      rw [← attrWord_eq, ← attrWord_eq]
      simp only [attrWord, h]

example : ([Flag.pie, .noUndefs, .pie].foldl Flags.push Flags.new).toU32 = 0x200001 := by decide

/-- C83.  Flags and attributes are shown as the set of their names, in the order they were pushed. -/
theorem C83_sets (alt : Bool) :
    (∀ l : List Flag, (l.foldl Flags.push Flags.new).debug alt =
      shown alt '{' '}' (l.map (fun f => (flagName f).toList))) ∧
    (∀ l : List SectionAttr, (l.foldl SectionAttrs.push SectionAttrs.new).debug alt =
      shown alt '{' '}' (l.map (fun a => (attrName a).toList))) := by
  constructor
  · intro l
    rw [pushes_flags]
    have e : (fun f => (flagName f).toList) = Flag.debug := by
      funext f; cases f <;> decide
    rw [e]
    refine fold_shown alt '{' '}' _ ?_
    intro e he
    obtain ⟨f, _, rfl⟩ := List.mem_map.mp he
    cases f <;> decide
  · intro l
    rw [pushes_attrs]
    have e : (fun f => (attrName f).toList) = SectionAttr.debugName := by
      funext f; cases f <;> decide
    rw [e]
    refine fold_shown alt '{' '}' _ ?_
    intro e he
    obtain ⟨f, _, rfl⟩ := List.mem_map.mp he
    cases f <;> decide

/-- C83.  Flags or attributes that are shown alike are equal. -/
theorem C83_sets_faithful (alt : Bool) :
    (∀ l m : Flags, l.debug alt = m.debug alt ↔ l = m) ∧
    (∀ l m : SectionAttrs, l.debug alt = m.debug alt ↔ l = m) := by
  constructor
  · intro l m
    refine ⟨fun h => ?_, fun h => by rw [h]⟩
    have e : ∀ l : Flags, l.debug alt = shown alt '{' '}' (l.map Flag.debug) := by
      intro l
      refine fold_shown alt '{' '}' _ ?_
      intro e he
      obtain ⟨f, _, rfl⟩ := List.mem_map.mp he
      cases f <;> decide
    rw [e, e] at h
    exact shown_inj (P := fun _ => True) (fun a _ => by cases a <;> exact ⟨_, _, rfl⟩)
      (names_parse (by intro a; cases a <;> decide) (by intro a b; cases a <;> cases b <;> decide))
      alt l m (by simp) (by simp) h
  · intro l m
    refine ⟨fun h => ?_, fun h => by rw [h]⟩
    have e : ∀ l : SectionAttrs, l.debug alt = shown alt '{' '}' (l.map SectionAttr.debugName) := by
      intro l
      refine fold_shown alt '{' '}' _ ?_
      intro e he
      obtain ⟨f, _, rfl⟩ := List.mem_map.mp he
      cases f <;> decide
    rw [e, e] at h
    exact shown_inj (P := fun _ => True) (fun a _ => by cases a <;> exact ⟨_, _, rfl⟩)
      (names_parse (by intro a; cases a <;> decide) (by intro a b; cases a <;> cases b <;> decide))
      alt l m (by simp) (by simp) h

example : Flags.debug false [.noUndefs, .pie] = "{NoUndefs, Pie}".toList ∧
    SectionAttrs.debug true [.debug, .noToc] = "{\n    Debug,\n    NoToc,\n}".toList ∧
    Flags.debug true [] = "{}".toList := by decide +kernel

end AT.Props
