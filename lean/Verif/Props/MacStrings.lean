import Verif.Props.Mac
/-!
# String tables read from a file (C60)
-/

namespace AT.Props
open AT.Mac

theorem pushAll_eq {l : List Str} (hl : ∀ s ∈ l, Plain s) : pushAll l = .ok ⟨0 :: cstrs l⟩ := by
  rw [pushAll, pushAll_ok l _ (fun s hs => (hl s hs).spec.1)]
  rfl

/-- Bytes that are ASCII and end in NUL are NUL-terminated plain strings, back to back. -/
theorem cstrs_of_bytes (d : Bytes) (ha : ∀ b ∈ d, b.toNat < 128) (he : d = [] ∨ d.getLast? = some 0) :
    ∃ l, (∀ s ∈ l, Plain s) ∧ d = cstrs l := by
  induction d with
  | nil => exact ⟨[], by simp, rfl⟩
  | cons b d ih =>
    have hb := ha b (by simp)
    have he' : d = [] ∨ d.getLast? = some 0 := by
      cases d with
      | nil => exact .inl rfl
      | cons c d =>
        right
        rcases he with he | he
        · simp at he
        · rwa [List.getLast?_cons_cons] at he
    obtain ⟨l, hl, hd⟩ := ih (fun x hx => ha x (by simp [hx])) he'
    by_cases h0 : b = 0
    · refine ⟨[] :: l, ?_, ?_⟩
      · intro s hs
        rcases List.mem_cons.1 hs with rfl | hs
        · intro c hc; simp at hc
        · exact hl s hs
      · rw [cstrs_cons, h0, hd]; rfl
    · cases l with
      | nil =>
        have : d = [] := by rw [hd]; rfl
        subst this
        rcases he with he | he
        · simp at he
        · simp at he; exact absurd he h0
      | cons s l =>
        have hc : (Char.ofNat b.toNat).toNat = b.toNat :=
          (show ∀ n < 128, (Char.ofNat n).toNat = n by decide) _ hb
        refine ⟨(Char.ofNat b.toNat :: s) :: l, ?_, ?_⟩
        · intro u hu
          rcases List.mem_cons.1 hu with rfl | hu
          · intro c hcm
            rcases List.mem_cons.1 hcm with rfl | hcm
            · rw [hc]
              refine ⟨hb, fun h => h0 ?_⟩
              apply UInt8.toNat_inj.1
              rw [h]; rfl
            · exact hl s (by simp) c hcm
          · exact hl u (by simp [hu])
        · rw [cstrs_cons] at hd ⊢
          rw [hd]
          simp only [nameRaw, List.map_cons, List.cons_append, List.cons.injEq, and_true]
          apply UInt8.toNat_inj.1
          rw [hc]
          simp

theorem ofVec_ok {data : Bytes} {t : StringTable} :
    StringTable.ofVec data = .ok t ↔
      data.head? = some 0 ∧ data.getLast? = some 0 ∧ (∀ b ∈ data, b.toNat < 128) ∧ t = ⟨data⟩ := by
  have hall : (data.all (fun n => n == 0 || n < 128)) = true ↔ ∀ b ∈ data, b.toNat < 128 := by
    rw [List.all_eq_true]
    constructor
    · intro h b hb
      have := h b hb
      simp only [Bool.or_eq_true, beq_iff_eq, decide_eq_true_eq] at this
      rcases this with rfl | h
      · decide
      · exact UInt8.lt_iff_toNat_lt.1 h
    · intro h b hb
      simp only [Bool.or_eq_true, beq_iff_eq, decide_eq_true_eq]
      exact .inr (UInt8.lt_iff_toNat_lt.2 (h b hb))
  rw [← hall]
  unfold StringTable.ofVec rassert
  by_cases h1 : data.head? = some 0
  · by_cases h2 : data.getLast? = some 0
    · cases h3 : data.all (fun n => n == 0 || n < 128)
      · simp [h1, h2, bind, Except.bind]
      · simp only [h1, h2, beq_self_eq_true, if_true, bind, Except.bind, pure, Except.pure, true_and,
          Except.ok.injEq]
        exact ⟨Eq.symm, Eq.symm⟩
    · simp [h1, h2, bind, Except.bind]
  · simp [h1, bind, Except.bind]

/-- C60: a byte vector is accepted as a string table exactly if it is the content of a table made by
pushing plain strings, and the result is that table; otherwise the conversion panics. -/
theorem C60_from_bytes (data : Bytes) :
    (∀ t, StringTable.ofVec data = .ok t ↔
      t.data = data ∧ ∃ l, (∀ s ∈ l, Plain s) ∧ pushAll l = .ok t) ∧
    ((∀ t, StringTable.ofVec data ≠ .ok t) → StringTable.ofVec data = .error .panic) := by
  constructor
  · intro t
    rw [ofVec_ok]
    constructor
    · rintro ⟨h1, h2, h3, rfl⟩
      refine ⟨rfl, ?_⟩
      cases data with
      | nil => simp at h1
      | cons b d =>
        simp only [List.head?_cons, Option.some.injEq] at h1
        subst h1
        obtain ⟨l, hl, hd⟩ := cstrs_of_bytes d (fun b hb => h3 b (by simp [hb])) (by
          cases d with
          | nil => exact .inl rfl
          | cons c d => rw [List.getLast?_cons_cons] at h2; exact .inr h2)
        exact ⟨l, hl, by rw [pushAll_eq hl, hd]⟩
    · rintro ⟨rfl, l, hl, h⟩
      rw [pushAll_eq hl] at h
      cases h
      refine ⟨rfl, ?_, ?_, rfl⟩
      · rcases List.eq_nil_or_concat l with rfl | ⟨l', s, rfl⟩
        · rfl
        · have : (0 : UInt8) :: cstrs (l' ++ [s]) = ((0 : UInt8) :: (cstrs l' ++ nameRaw s)) ++ [0] := by
            simp [cstrs]
          simp only [List.concat_eq_append]
          rw [this, List.getLast?_concat]
      · intro b hb
        rcases List.mem_cons.1 hb with rfl | hb
        · decide
        · simp only [cstrs, List.mem_flatMap, List.mem_append, List.mem_singleton, nameRaw,
            List.mem_map] at hb
          obtain ⟨s, hs, ⟨c, hc, rfl⟩ | rfl⟩ := hb
          · have := (hl s hs c hc).1
            simp; omega
          · decide
  · intro h
    cases hr : StringTable.ofVec data with
    | ok t => exact absurd hr (h t)
    | error e =>
      unfold StringTable.ofVec rassert at hr
      by_cases h1 : (data.head? == some 0) = true <;> by_cases h2 : (data.getLast? == some 0) = true <;>
        by_cases h3 : (data.all (fun n => n == 0 || n < 128)) = true <;>
        simp_all [bind, Except.bind, pure, Except.pure]

/-- C60: in any such table, `get` inside a name returns the rest of it, at offset 0 and at the end the
empty string, and past the end panics. -/
theorem C60_get_suffix (l : List Str) (hl : ∀ s ∈ l, Plain s) (t : StringTable) (ht : pushAll l = .ok t) :
    (∀ before s after k, l = before ++ s :: after → k ≤ s.length →
      t.get (nextOffset before + k) = .ok (s.drop k)) ∧
    t.get 0 = .ok [] ∧ t.get t.len = .ok [] ∧
    (∀ idx, t.len < idx → t.get idx = .error .panic) := by
  rw [pushAll_eq hl] at ht
  cases ht
  have hnil : runwrap (fromUtf8 []) = .ok [] := by decide +kernel
  refine ⟨?_, ?_, ?_, ?_⟩
  · rintro b s a k rfl hk
    have hs := hl s (by simp)
    have hd : Plain (s.drop k) := fun c hc => hs c (List.mem_of_mem_drop hc)
    have := get_at (0 :: (cstrs b ++ nameRaw (s.take k))) (cstrs a) (s.drop k) hd.spec.1 hd.spec.2
    have e : 0 :: cstrs (b ++ s :: a) =
        0 :: (cstrs b ++ nameRaw (s.take k)) ++ (nameRaw (s.drop k) ++ 0 :: cstrs a) := by
      rw [cstrs_append, cstrs_cons]
      have : nameRaw s = nameRaw (s.take k) ++ nameRaw (s.drop k) := by
        unfold nameRaw
        rw [← List.map_append, List.take_append_drop]
      rw [this]
      simp
    rw [e]
    have el : (0 :: (cstrs b ++ nameRaw (s.take k))).length = nextOffset b + k := by
      simp only [List.length_cons, List.length_append, length_cstrs, nameRaw, List.length_map,
        List.length_take, nextOffset]
      omega
    rw [el] at this
    exact this
  · exact hnil
  · have hall : ∀ d : Bytes, StringTable.get ⟨d⟩ d.length = .ok [] := by
      intro d
      unfold StringTable.get rassert
      rw [if_pos (decide_eq_true (Nat.le_refl _)), List.drop_length]
      exact hnil
    exact hall _
  · intro idx h
    unfold StringTable.get rassert
    rw [if_neg]
    · rfl
    · simpa [StringTable.len] using h

example : StringTable.ofVec [0, 0x5f, 0x6d, 0] = .ok ⟨[0, 0x5f, 0x6d, 0]⟩ ∧
    StringTable.get ⟨[0, 0x5f, 0x6d, 0]⟩ 2 = .ok (str% "m") ∧
    StringTable.ofVec [0, 0x5f] = .error .panic := by
  refine ⟨by decide, by decide +kernel, by decide⟩

end AT.Props
