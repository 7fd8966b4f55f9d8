import Verif.Proofs.MacIo
import Verif.Model.MacSymbols
/-!
# The string table
-/

namespace AT.Mac

/-- Byte image of an ASCII string. -/
def nameRaw (s : Str) : Bytes := s.map (fun c => c.toNat.toUInt8)

/-- NUL-terminated names, back to back. -/
def cstrs (l : List Str) : Bytes := l.flatMap (fun s => nameRaw s ++ [0])

theorem cstrs_cons (s : Str) (l : List Str) : cstrs (s :: l) = nameRaw s ++ 0 :: cstrs l := by
  simp [cstrs]

theorem cstrs_append (l m : List Str) : cstrs (l ++ m) = cstrs l ++ cstrs m := by
  simp [cstrs]

theorem length_cstrs (l : List Str) : (cstrs l).length = (l.map (fun s => s.length + 1)).sum := by
  induction l with
  | nil => rfl
  | cons s l ih => rw [cstrs_cons]; simp [nameRaw, ih]; omega

theorem push_ok (t : StringTable) (s : Str) (h : strIsAscii s = true) :
    t.pushWithNull s = .ok ⟨t.data ++ (nameRaw s ++ [0])⟩ := by
  unfold StringTable.pushWithNull
  have h' : s.all charIsAscii = true := h
  rw [rassert_true h']
  simp [nameRaw, bind, Except.bind, pure, Except.pure]

theorem push_panic (t : StringTable) (s : Str) (h : ¬ strIsAscii s = true) :
    t.pushWithNull s = .error .panic := by
  unfold StringTable.pushWithNull
  have : s.all charIsAscii = false := by simpa [strIsAscii] using h
  rw [this]; rfl

theorem pushAll_ok (l : List Str) (t : StringTable) (h : ∀ s ∈ l, strIsAscii s = true) :
    l.foldlM (fun t s => t.pushWithNull s) t = .ok ⟨t.data ++ cstrs l⟩ := by
  induction l generalizing t with
  | nil => simp [cstrs, List.foldlM, pure, Except.pure]
  | cons s l ih =>
    rw [List.foldlM_cons, push_ok t s (h s (by simp))]
    show l.foldlM _ _ = _
    rw [ih _ (fun s hs => h s (by simp [hs])), cstrs_cons]
    simp

theorem pushAll_panic (l : List Str) (t : StringTable) (h : ¬ ∀ s ∈ l, strIsAscii s = true) :
    l.foldlM (fun t s => t.pushWithNull s) t = .error .panic := by
  induction l generalizing t with
  | nil => simp at h
  | cons s l ih =>
    rw [List.foldlM_cons]
    by_cases hs : strIsAscii s = true
    · rw [push_ok t s hs]
      show l.foldlM _ _ = _
      apply ih
      intro hl
      exact h (by simpa [hs] using hl)
    · rw [push_panic t s hs]; rfl

theorem takeWhile_cstr (s : Str) (rest : Bytes) (ha : strIsAscii s = true)
    (hn : Char.ofNat 0 ∉ s) : (nameRaw s ++ 0 :: rest).takeWhile (· != 0) = nameRaw s := by
  induction s with
  | nil => simp [nameRaw]
  | cons c s ih =>
    simp only [strIsAscii, List.all_cons, Bool.and_eq_true] at ha
    simp only [List.mem_cons, not_or] at hn
    have : c.toNat.toUInt8 ≠ 0 := fun h => hn.1 ((ascii_byte_zero c ha.1).1 h).symm
    simp only [nameRaw, List.map_cons, List.cons_append, List.takeWhile_cons]
    rw [if_pos (by simpa using this)]
    simp only [nameRaw] at ih
    rw [ih ha.2 hn.2]

theorem get_at (a b : Bytes) (s : Str) (ha : strIsAscii s = true) (hn : Char.ofNat 0 ∉ s) :
    StringTable.get ⟨a ++ (nameRaw s ++ 0 :: b)⟩ a.length = .ok s := by
  unfold StringTable.get
  rw [rassert_true (by simp)]
  show runwrap _ = _
  simp only [List.drop_left]
  rw [takeWhile_cstr s b ha hn, nameRaw, fromUtf8_ascii s ha]
  rfl

theorem split0_cstr (s : Str) (rest : Bytes) (ha : strIsAscii s = true) (hn : Char.ofNat 0 ∉ s) :
    StringTable.split0 (nameRaw s ++ 0 :: rest) = nameRaw s :: StringTable.split0 rest := by
  induction s with
  | nil => simp [nameRaw, StringTable.split0]
  | cons c s ih =>
    simp only [strIsAscii, List.all_cons, Bool.and_eq_true] at ha
    simp only [List.mem_cons, not_or] at hn
    have : c.toNat.toUInt8 ≠ 0 := fun h => hn.1 ((ascii_byte_zero c ha.1).1 h).symm
    simp only [nameRaw, List.map_cons, List.cons_append, StringTable.split0]
    rw [if_neg (by simpa using this)]
    simp only [nameRaw] at ih
    rw [ih ha.2 hn.2]

theorem split0_cstrs (l : List Str) (h : ∀ s ∈ l, strIsAscii s = true ∧ Char.ofNat 0 ∉ s) :
    StringTable.split0 (cstrs l) = l.map nameRaw ++ [[]] := by
  induction l with
  | nil => rfl
  | cons s l ih =>
    have hs := h s (by simp)
    rw [cstrs_cons, split0_cstr s _ hs.1 hs.2, ih (fun s hs => h s (by simp [hs]))]
    rfl

theorem rawIter_cstrs (l : List Str) (h : ∀ s ∈ l, strIsAscii s = true ∧ Char.ofNat 0 ∉ s) :
    StringTable.rawIter ⟨0 :: cstrs l⟩ = l.map nameRaw ++ [[]] := by
  unfold StringTable.rawIter
  have : StringTable.split0 (0 :: cstrs l) = [] :: StringTable.split0 (cstrs l) := by
    simp [StringTable.split0]
  rw [this, split0_cstrs l h]; rfl

theorem mapM_ok {α β : Type} (f : α → Res β) (g : α → β) (l : List α)
    (h : ∀ x ∈ l, f x = .ok (g x)) : l.mapM f = .ok (l.map g) := by
  induction l with
  | nil => rfl
  | cons x l ih =>
    rw [List.mapM_cons, h x (by simp), ih (fun y hy => h y (by simp [hy]))]
    rfl

theorem iter_cstrs (l : List Str) (h : ∀ s ∈ l, strIsAscii s = true ∧ Char.ofNat 0 ∉ s) :
    StringTable.iter ⟨0 :: cstrs l⟩ = .ok (l ++ [[]]) := by
  unfold StringTable.iter
  rw [rawIter_cstrs l h]
  rw [show (l.map nameRaw ++ [[]] : List Bytes) = (l ++ [[]]).map nameRaw by simp [nameRaw]]
  have hh : ∀ s ∈ l ++ [[]], runwrap (fromUtf8 (nameRaw s)) = .ok s := by
    intro s hs
    rw [List.mem_append, List.mem_singleton] at hs
    rcases hs with hs | rfl
    · rw [nameRaw, fromUtf8_ascii s (h s hs).1]; rfl
    · rfl
  have := mapM_ok (fun s => runwrap (fromUtf8 (nameRaw s))) id (l ++ [[]]) hh
  rw [List.map_id] at this
  rw [List.mapM_map]
  exact this

end AT.Mac
