import Verif.Spec.AsmProg
import Verif.Model.Asm
import Verif.Proofs.Utf8
/-!
# Reading lines
-/

namespace AT.Asm
open AT.AsmSpec

/-- What a reader has still to deliver. -/
def Reader.input (r : Reader) : Bytes := r.buf ++ r.rest.flatten

/-- No `read` returns 0 before the end. -/
def Reader.Steady (r : Reader) : Prop := ∀ c ∈ r.rest, c ≠ []

theorem cutNewline_none {b : Bytes} : cutNewline b = none ↔ (10 : UInt8) ∉ b := by
  induction b with
  | nil => simp [cutNewline]
  | cons x b ih =>
    simp only [cutNewline]
    split
    · rename_i h
      simp only [beq_iff_eq] at h
      simp [h]
    · rename_i h
      simp only [beq_iff_eq] at h
      cases hc : cutNewline b with
      | some p => rw [hc] at ih; simp at ih; simp [ih]
      | none =>
        have := ih.1 hc
        simp [this]; exact fun e => h e.symm

theorem cutNewline_some {b l r : Bytes} : cutNewline b = some (l, r) ↔
    ∃ p, (10 : UInt8) ∉ p ∧ l = p ++ [10] ∧ b = l ++ r := by
  induction b generalizing l with
  | nil =>
    simp only [cutNewline, reduceCtorEq, false_iff]
    rintro ⟨p, -, rfl, h⟩
    simp at h
  | cons x b ih =>
    simp only [cutNewline]
    split
    · rename_i h
      simp only [beq_iff_eq] at h
      subst h
      simp only [Option.some.injEq, Prod.mk.injEq]
      constructor
      · rintro ⟨rfl, rfl⟩
        exact ⟨[], by simp, by simp, by simp⟩
      · rintro ⟨p, hp, rfl, h⟩
        cases p with
        | nil => simpa using h
        | cons y p =>
          simp only [List.cons_append, List.cons.injEq] at h
          rw [← h.1] at hp
          simp at hp
    · rename_i h
      simp only [beq_iff_eq] at h
      constructor
      · intro he
        split at he
        · rename_i l' r' h'
          simp only [Option.some.injEq, Prod.mk.injEq] at he
          obtain ⟨rfl, rfl⟩ := he
          obtain ⟨p, hp, rfl, rfl⟩ := ih.1 h'
          refine ⟨x :: p, ?_, by simp, by simp⟩
          simp only [List.mem_cons, not_or]
          exact ⟨fun e => h e.symm, hp⟩
        · simp at he
      · rintro ⟨p, hp, rfl, he⟩
        cases p with
        | nil =>
          simp only [List.nil_append, List.cons_append, List.cons.injEq] at he
          exact absurd he.1 h
        | cons y p =>
          simp only [List.cons_append, List.cons.injEq] at he
          obtain ⟨rfl, rfl⟩ := he
          rw [ih.2 ⟨p, fun hm => hp (by simp [hm]), rfl, rfl⟩]
          rfl

/-- The first line of a byte string and the remainder. -/
def firstLine (b : Bytes) : Bytes × Bytes :=
  match cutNewline b with
  | some p => p
  | none => (b, [])

theorem firstLine_append_none {a b : Bytes} (h : cutNewline a = none) :
    firstLine (a ++ b) = (a ++ (firstLine b).1, (firstLine b).2) := by
  have ha := cutNewline_none.1 h
  unfold firstLine
  cases hb : cutNewline b with
  | none =>
    have : cutNewline (a ++ b) = none := by
      rw [cutNewline_none]
      simp [ha, cutNewline_none.1 hb]
    rw [this]
  | some p =>
    obtain ⟨l, r⟩ := p
    obtain ⟨p, hp, rfl, rfl⟩ := cutNewline_some.1 hb
    have : cutNewline (a ++ (p ++ [10] ++ r)) = some (a ++ (p ++ [10]), r) :=
      cutNewline_some.2 ⟨a ++ p, by simp [ha, hp], by simp, by simp⟩
    rw [this]

theorem firstLine_append_some {a b l r : Bytes} (h : cutNewline a = some (l, r)) :
    firstLine (a ++ b) = (l, r ++ b) := by
  obtain ⟨p, hp, rfl, rfl⟩ := cutNewline_some.1 h
  unfold firstLine
  have : cutNewline (p ++ [10] ++ r ++ b) = some (p ++ [10], r ++ b) :=
    cutNewline_some.2 ⟨p, hp, rfl, by simp⟩
  rw [this]

theorem readUntilGo_eq (acc : Bytes) (cs : List Bytes) (h : ∀ c ∈ cs, c ≠ []) :
    (readUntilGo acc cs).1 = acc ++ (firstLine cs.flatten).1 ∧
    (readUntilGo acc cs).2.input = (firstLine cs.flatten).2 ∧ (readUntilGo acc cs).2.Steady := by
  induction cs generalizing acc with
  | nil => simp [readUntilGo, firstLine, cutNewline, Reader.input, Reader.Steady]
  | cons c cs ih =>
    have hcs : ∀ c ∈ cs, c ≠ [] := fun x hx => h x (by simp [hx])
    cases c with
    | nil => exact absurd rfl (h [] (by simp))
    | cons x xs =>
      simp only [readUntilGo]
      cases hc : cutNewline (x :: xs) with
      | some p =>
        obtain ⟨l, r⟩ := p
        simp only [List.flatten_cons]
        rw [firstLine_append_some hc]
        exact ⟨rfl, rfl, hcs⟩
      | none =>
        simp only [List.flatten_cons]
        rw [firstLine_append_none hc]
        obtain ⟨h1, h2, h3⟩ := ih (acc ++ x :: xs) hcs
        rw [h1, h2]
        exact ⟨by simp, rfl, h3⟩

theorem readUntil_eq (r : Reader) (h : r.Steady) :
    (readUntil r).1 = (firstLine r.input).1 ∧ (readUntil r).2.input = (firstLine r.input).2 ∧
      (readUntil r).2.Steady := by
  unfold readUntil Reader.input
  cases hc : cutNewline r.buf with
  | some p =>
    obtain ⟨l, b⟩ := p
    rw [firstLine_append_some hc]
    exact ⟨rfl, rfl, h⟩
  | none =>
    rw [firstLine_append_none hc]
    exact readUntilGo_eq r.buf r.rest h

/-! ## Lines -/

theorem cut_nil {ls : List Bytes} (h : Cut [] ls) : ls = [] := by
  cases ls with
  | nil => rfl
  | cons l ls =>
    have h1 := h.all
    have h2 := h.nonempty l (by simp)
    simp only [List.flatten_cons, List.append_eq_nil_iff] at h1
    exact absurd h1.1 h2

theorem cut_cons {b l : Bytes} {ls : List Bytes} (h : Cut b (l :: ls)) :
    l ≠ [] ∧ firstLine b = (l, ls.flatten) ∧ Cut ls.flatten ls := by
  have hl := h.nonempty l (by simp)
  have hi := h.inner l (by simp)
  have hcut : Cut ls.flatten ls := by
    refine ⟨rfl, fun x hx => h.nonempty x (by simp [hx]), fun x hx => h.inner x (by simp [hx]), ?_⟩
    intro x hx
    refine h.ends x ?_
    cases ls with
    | nil => simp at hx
    | cons y ls => simp only [List.dropLast_cons_cons, List.mem_cons]; exact .inr hx
  refine ⟨hl, ?_, hcut⟩
  have hb : b = l ++ ls.flatten := by rw [← h.all]; rfl
  cases ls with
  | nil =>
    simp only [List.flatten_nil, List.append_nil] at hb
    subst hb
    simp only [firstLine, List.flatten_nil]
    cases hc : cutNewline b with
    | none => rfl
    | some p =>
      obtain ⟨l, r⟩ := p
      obtain ⟨p, hp, rfl, rfl⟩ := cutNewline_some.1 hc
      cases r with
      | nil => simp
      | cons y r =>
        exfalso
        apply hi
        rw [List.dropLast_append_of_ne_nil (by simp)]
        simp
  | cons m ls =>
    have he := h.ends l (by simp)
    obtain ⟨q, rfl⟩ := List.getLast?_eq_some_iff.1 he
    rw [hb]
    unfold firstLine
    have : cutNewline (q ++ [10] ++ (m :: ls).flatten) = some (q ++ [10], (m :: ls).flatten) :=
      cutNewline_some.2 ⟨q, by simpa using hi, rfl, rfl⟩
    rw [this]

theorem Cut.det {b : Bytes} {ls ms : List Bytes} (h : Cut b ls) (h' : Cut b ms) : ls = ms := by
  induction ls generalizing b ms with
  | nil =>
    have : b = [] := h.all.symm
    subst this
    exact (cut_nil h').symm
  | cons l ls ih =>
    obtain ⟨hl, hf, hc⟩ := cut_cons h
    cases ms with
    | nil =>
      have : b = [] := h'.all.symm
      subst this
      exact absurd (cut_nil h) (by simp)
    | cons m ms =>
      obtain ⟨hm, hf', hc'⟩ := cut_cons h'
      rw [hf] at hf'
      simp only [Prod.mk.injEq] at hf'
      obtain ⟨rfl, he⟩ := hf'
      rw [he] at hc
      rw [ih hc hc']

theorem Cut.exists (b : Bytes) : ∃ ls, Cut b ls := by
  induction hn : b.length using Nat.strongRecOn generalizing b with
  | _ n ih =>
    subst hn
    by_cases hb : b = []
    · exact ⟨[], by subst hb; exact ⟨rfl, by simp, by simp, by simp⟩⟩
    cases hc : cutNewline b with
    | none =>
      have := cutNewline_none.1 hc
      exact ⟨[b], by simp, by simpa using hb, by simpa using fun h => this (List.dropLast_subset _ h),
        by simp⟩
    | some p =>
      obtain ⟨l, r⟩ := p
      obtain ⟨p, hp, rfl, rfl⟩ := cutNewline_some.1 hc
      obtain ⟨ls, hls⟩ := ih r.length (by simp; omega) r rfl
      refine ⟨(p ++ [10]) :: ls, ?_, ?_, ?_, ?_⟩
      · simp [hls.all]
      · intro l hl
        rcases List.mem_cons.1 hl with rfl | hl
        · simp
        · exact hls.nonempty l hl
      · intro l hl
        rcases List.mem_cons.1 hl with rfl | hl
        · simpa using hp
        · exact hls.inner l hl
      · intro l hl
        cases ls with
        | nil => simp at hl
        | cons m ls =>
          simp only [List.dropLast_cons_cons, List.mem_cons] at hl
          rcases hl with rfl | hl
          · simp
          · exact hls.ends l hl

/-- Cutting a concatenation whose first part ends with a newline. -/
theorem Cut.append {a b : Bytes} {ls ms : List Bytes} (ha : Cut a ls) (hb : Cut b ms)
    (he : a = [] ∨ a.getLast? = some 10) : Cut (a ++ b) (ls ++ ms) := by
  refine ⟨by simp [ha.all, hb.all], ?_, ?_, ?_⟩
  · intro l hl
    rcases List.mem_append.1 hl with hl | hl
    · exact ha.nonempty l hl
    · exact hb.nonempty l hl
  · intro l hl
    rcases List.mem_append.1 hl with hl | hl
    · exact ha.inner l hl
    · exact hb.inner l hl
  · have hall : ∀ l ∈ ls, l.getLast? = some 10 := by
      intro l hl
      rcases List.eq_nil_or_concat ls with rfl | ⟨ls', m, rfl⟩
      · simp at hl
      · rw [List.concat_eq_append] at *
        rcases List.mem_append.1 hl with hl | hl
        · exact ha.ends l (by simpa using hl)
        · simp only [List.mem_singleton] at hl
          subst hl
          have h1 := ha.all
          have h2 := ha.nonempty l (by simp)
          rcases he with he | he
          · rw [he] at h1; simp at h1; exact absurd h1.2 h2
          · rw [← h1] at he
            simp only [List.flatten_append, List.flatten_singleton, List.getLast?_append] at he
            cases hg : l.getLast? with
            | none => rw [List.getLast?_eq_none_iff] at hg; exact absurd hg h2
            | some x => rw [hg] at he; simpa using he
    intro l hl
    cases ms with
    | nil => simp only [List.append_nil] at hl; exact hall l (List.dropLast_subset _ hl)
    | cons m ms =>
      rw [List.dropLast_append_of_ne_nil (by simp)] at hl
      rcases List.mem_append.1 hl with hl | hl
      · exact hall l hl
      · exact hb.ends l hl

/-! ## The loop over lines -/

/-- Assembling a list of lines. -/
def runLines (bd : Build) (a : Assembler) : List Bytes → Res Assembler
  | [] => .ok a
  | b :: bs =>
    match fromUtf8 b with
    | none => .error .panic
    | some s =>
      match a.doLine bd s with
      | .error e => .error e
      | .ok a' => runLines bd a' bs

theorem nextLine_nil (r : Reader) (h : r.Steady) (hi : r.input = []) :
    ∃ r', r.nextLine = .ok (none, r') ∧ r'.Steady ∧ r'.input = [] := by
  obtain ⟨h1, h2, h3⟩ := readUntil_eq r h
  rw [hi] at h1 h2
  unfold Reader.nextLine
  obtain ⟨l, r', he⟩ : ∃ l r', readUntil r = (l, r') := ⟨_, _, rfl⟩
  rw [he] at h1 h2 h3 ⊢
  simp only [firstLine, cutNewline] at h1 h2
  subst h1
  exact ⟨r', rfl, h3, h2⟩

theorem nextLine_cons (r : Reader) (h : r.Steady) {l : Bytes} {ls : List Bytes} (hc : Cut r.input (l :: ls)) :
    ∃ r', r.nextLine = (runwrap (fromUtf8 l) >>= fun s => pure (some s, r')) ∧ r'.Steady ∧
      Cut r'.input ls := by
  obtain ⟨h1, h2, h3⟩ := readUntil_eq r h
  obtain ⟨hl, hf, hcut⟩ := cut_cons hc
  rw [hf] at h1 h2
  unfold Reader.nextLine
  obtain ⟨l', r', he⟩ : ∃ l r', readUntil r = (l, r') := ⟨_, _, rfl⟩
  rw [he] at h1 h2 h3 ⊢
  simp only at h1 h2
  subst h1
  cases l' with
  | nil => exact absurd rfl hl
  | cons x xs => exact ⟨r', rfl, h3, by rw [h2]; exact hcut⟩

theorem readLoop_eq (bd : Build) (a : Assembler) (r : Reader) (ls : List Bytes) (h : r.Steady)
    (hc : Cut r.input ls) : a.readLoop bd r = runLines bd a ls := by
  induction ls generalizing r a with
  | nil =>
    obtain ⟨r', hn, _⟩ := nextLine_nil r h hc.all.symm
    rw [Assembler.readLoop]
    split
    · rename_i e he; rw [hn] at he; simp at he
    · rfl
    · rename_i he; rw [hn] at he; simp at he
  | cons l ls ih =>
    obtain ⟨r', hn, hs, hcut⟩ := nextLine_cons r h hc
    rw [Assembler.readLoop]
    simp only [runLines]
    cases hu : fromUtf8 l with
    | none =>
      rw [hu] at hn
      simp only [runwrap, bind, Except.bind] at hn
      split
      · rename_i e he; rw [hn] at he; cases he; rfl
      · rename_i he; rw [hn] at he; simp at he
      · rename_i he; rw [hn] at he; simp at he
    | some s =>
      rw [hu] at hn
      simp only [runwrap, bind, Except.bind, pure, Except.pure] at hn
      split
      · rename_i e he; rw [hn] at he; simp at he
      · rename_i he; rw [hn] at he; simp at he
      · rename_i s' r'' he
        rw [hn] at he
        simp only [Except.ok.injEq, Prod.mk.injEq, Option.some.injEq] at he
        obtain ⟨rfl, rfl⟩ := he
        simp only
        cases hd : a.doLine bd s with
        | error e => rfl
        | ok a' => exact ih a' r' hs hcut

theorem steady_new {cs : List Bytes} (h : ∀ c ∈ cs, c ≠ []) : (Reader.new cs).Steady := h

theorem readFrom_eq (bd : Build) (a : Assembler) (cs ls : List Bytes) (h : ∀ c ∈ cs, c ≠ [])
    (hc : Cut cs.flatten ls) :
    a.readFrom bd cs = (runLines bd a ls >>= fun a => pure a.markExt) := by
  unfold Assembler.readFrom
  rw [readLoop_eq bd a (Reader.new cs) ls (steady_new h) (by simpa [Reader.new, Reader.input] using hc)]

end AT.Asm
