import Verif.Spec.Obtained
import Verif.Props.Outcome
import Verif.Props.AsmRender
/-!
# Which objects a source can give (C94)
-/

namespace AT.Props
open AT.Asm AT.AsmSpec AT.X64 AT.Obj AT.Mac

/-! ## The loads of the assembler -/

theorem emits_assembled (x : SrcInst) : emits (.instruction (assembled x)) =
    match x with
    | .plain i => X86.machineCode i
    | .sym64 d _ => X86.machineCode (.movReg64Imm d 0)
    | .sym32 d _ => X86.machineCode (.movReg32Imm d 0) := by
  cases x <;> simp [emits, assembled, buffer]

theorem code_sym64 (d : Reg64) : ∃ rex op : UInt8, (rex = 0x48 ∨ rex = 0x49) ∧ 0xb8 ≤ op ∧ op ≤ 0xbf ∧
    X86.machineCode (.movReg64Imm d 0) = rex :: op :: List.replicate 8 0 := by
  refine ⟨(X86.machineCode (.movReg64Imm d 0)).getD 0 0, (X86.machineCode (.movReg64Imm d 0)).getD 1 0, ?_⟩
  cases d <;> decide

theorem code_sym32 (d : Reg32) : ∃ (p : Bytes) (op : UInt8), p.length = (if X86.high (X86.num32 d) then 1 else 0) ∧
    0xb8 ≤ op ∧ op ≤ 0xbf ∧ X86.machineCode (.movReg32Imm d 0) = p ++ op :: List.replicate 4 0 := by
  refine ⟨(X86.machineCode (.movReg32Imm d 0)).take (if X86.high (X86.num32 d) then 1 else 0),
    (X86.machineCode (.movReg32Imm d 0)).getD (if X86.high (X86.num32 d) then 1 else 0) 0, ?_⟩
  cases d <;> decide

theorem op_cases {op : UInt8} (h1 : 0xb8 ≤ op) (h2 : op ≤ 0xbf) : op = 0xb8 ∨ op = 0xb9 ∨ op = 0xba ∨ op = 0xbb ∨
    op = 0xbc ∨ op = 0xbd ∨ op = 0xbe ∨ op = 0xbf := by
  rw [UInt8.le_iff_toNat_le] at h1 h2
  have h1 : 184 ≤ op.toNat := h1
  have h2 : op.toNat ≤ 191 := h2
  simp only [← UInt8.toNat_inj]
  show op.toNat = 184 ∨ op.toNat = 185 ∨ op.toNat = 186 ∨ op.toNat = 187 ∨ op.toNat = 188 ∨ op.toNat = 189 ∨
    op.toNat = 190 ∨ op.toNat = 191
  omega

theorem sym64_code {rex op : UInt8} (hr : rex = 0x48 ∨ rex = 0x49) (h1 : 0xb8 ≤ op) (h2 : op ≤ 0xbf) :
    ∃ d : Reg64, X86.machineCode (.movReg64Imm d 0) = rex :: op :: List.replicate 8 0 := by
  rcases hr with rfl | rfl
  · rcases op_cases h1 h2 with rfl | rfl | rfl | rfl | rfl | rfl | rfl | rfl
    · exact ⟨.RAX, rfl⟩
    · exact ⟨.RCX, rfl⟩
    · exact ⟨.RDX, rfl⟩
    · exact ⟨.RBX, rfl⟩
    · exact ⟨.RSP, rfl⟩
    · exact ⟨.RBP, rfl⟩
    · exact ⟨.RSI, rfl⟩
    · exact ⟨.RDI, rfl⟩
  · rcases op_cases h1 h2 with rfl | rfl | rfl | rfl | rfl | rfl | rfl | rfl
    · exact ⟨.R8, rfl⟩
    · exact ⟨.R9, rfl⟩
    · exact ⟨.R10, rfl⟩
    · exact ⟨.R11, rfl⟩
    · exact ⟨.R12, rfl⟩
    · exact ⟨.R13, rfl⟩
    · exact ⟨.R14, rfl⟩
    · exact ⟨.R15, rfl⟩

theorem sym32_code {op : UInt8} (h1 : 0xb8 ≤ op) (h2 : op ≤ 0xbf) :
    ∃ d : Reg32, X86.high (X86.num32 d) = false ∧
      X86.machineCode (.movReg32Imm d 0) = op :: List.replicate 4 0 := by
  rcases op_cases h1 h2 with rfl | rfl | rfl | rfl | rfl | rfl | rfl | rfl
  · exact ⟨.EAX, by decide, rfl⟩
  · exact ⟨.ECX, by decide, rfl⟩
  · exact ⟨.EDX, by decide, rfl⟩
  · exact ⟨.EBX, by decide, rfl⟩
  · exact ⟨.ESP, by decide, rfl⟩
  · exact ⟨.EBP, by decide, rfl⟩
  · exact ⟨.ESI, by decide, rfl⟩
  · exact ⟨.EDI, by decide, rfl⟩

/-! ## What lines give -/

/-- The label of a placed line, with its offset. -/
def labelOf (p : Nat × Line) : Option (Str × Nat) := (defines p.2).map fun n => (n, p.1)

/-- The relocation of a placed line, with its offset. -/
def relocOf (p : Nat × Line) : Option (Nat × LocalReloc) :=
  (relocates p.2).map fun r => (p.1 + r.offset.toNat, r)

theorem load_length {bs : Bytes} {l : Load} (h : l.At bs) : l.start < l.stop ∧ l.stop ≤ bs.length := by
  cases h with
  | wide k rex op name _ _ _ h =>
    have := congrArg List.length h
    simp only [List.length_take, List.length_drop, List.length_cons, List.length_replicate] at this
    show k < k + 10 ∧ k + 10 ≤ _
    omega
  | narrow k op name _ _ h =>
    have := congrArg List.length h
    simp only [List.length_take, List.length_drop, List.length_cons, List.length_replicate] at this
    show k < k + 5 ∧ k + 5 ≤ _
    omega

/-- The line can be written. -/
def Written (l : Line) : Prop := ∃ st : Stmt, st.Ok ∧ Means st l

theorem label_written {l : Line} {n : Str} (h : Written l) (hd : defines l = some n) : LabelName n := by
  obtain ⟨st, ok, hm⟩ := h
  cases st with
  | label m => cases hm; cases hd; exact ok
  | data lab dir w its =>
    obtain ⟨bs, rfl, _⟩ := hm
    obtain ⟨h1, h2⟩ := ok.1 n hd
    exact ⟨h1.2.1, h2, h1.2.2.2.2.2⟩
  | blank => cases hm; cases hd
  | sect x => cases hm; cases hd
  | global m => cases hm; cases hd
  | inst x => cases hm; cases hd

/-- The load of a line that asks for a relocation. -/
theorem load_written {l : Line} (h : Written l) (P R : Bytes) {r : LocalReloc} (hr : relocates l = some r) :
    ∃ ld : Load, AsmSpec.entryOf (P.length + r.offset.toNat, r) = ld.entry ∧ P.length ≤ ld.start ∧
      ld.stop = P.length + (emits l).length ∧ ld.At (P ++ emits l ++ R) := by
  obtain ⟨st, ok, hm⟩ := h
  cases st with
  | label m => cases hm; cases hr
  | data lab dir w its => obtain ⟨bs, rfl, _⟩ := hm; cases hr
  | blank => cases hm; cases hr
  | sect x => cases hm; cases hr
  | global m => cases hm; cases hr
  | inst x =>
    cases hm
    rw [emits_assembled]
    cases x with
    | plain i => cases hr
    | sym64 d name =>
      cases hr
      obtain ⟨rex, op, h1, h2, h3, hc⟩ := code_sym64 d
      refine ⟨⟨P.length, P.length + 10, ⟨Int32.ofNat (P.length + 2), name, false, 3⟩⟩, rfl, Nat.le_refl _, ?_, ?_⟩
      · simp only [hc]; rfl
      · refine .wide _ rex op name h1 h2 h3 ?_ ok.1 ok.2
        simp only [hc, List.append_assoc]
        rw [List.drop_append_of_le_length (Nat.le_refl _), List.drop_length]
        rfl
    | sym32 d name =>
      obtain ⟨p, op, h1, h2, h3, hc⟩ := code_sym32 d
      cases hr
      refine ⟨⟨P.length + p.length, P.length + p.length + 5, ⟨Int32.ofNat (P.length + p.length + 1), name, false, 2⟩⟩,
        ?_, by simp, ?_, ?_⟩
      · rw [h1]
        cases X86.high (X86.num32 d) <;> rfl
      · simp only [hc, List.length_append, List.length_cons, List.length_replicate]; omega
      · refine .narrow _ op name h2 h3 ?_ ok.1 ok.2
        simp only [hc, ← List.append_assoc]
        rw [List.append_assoc (P ++ p), ← List.length_append, List.drop_append_of_le_length (Nat.le_refl _),
          List.drop_length]
        rfl

theorem placed_obtained : ∀ (ls : List Line) (P : Bytes), (∀ l ∈ ls, Written l) →
    ∃ loads : List Load,
      ((placed P.length ls).filterMap relocOf).map AsmSpec.entryOf = loads.map (·.entry) ∧
      (∀ l ∈ loads, l.At (P ++ ls.flatMap emits) ∧ P.length ≤ l.start) ∧
      loads.Pairwise (fun a b => a.stop ≤ b.start) ∧
      ((placed P.length ls).filterMap labelOf).Pairwise (fun a b => a.2 ≤ b.2) ∧
      ∀ p ∈ (placed P.length ls).filterMap labelOf, LabelName p.1 ∧ P.length ≤ p.2 ∧
        p.2 ≤ (P ++ ls.flatMap emits).length ∧ ∀ l ∈ loads, p.2 ≤ l.start ∨ l.stop ≤ p.2
  | [], P, _ => ⟨[], by simp [placed]⟩
  | l :: ls, P, h => by
    obtain ⟨loads, h1, h2, h3, h4, h5⟩ := placed_obtained ls (P ++ emits l) (fun m hm => h m (by simp [hm]))
    have hw := h l (by simp)
    have hB : P ++ (l :: ls).flatMap emits = P ++ emits l ++ ls.flatMap emits := by simp
    rw [hB]
    rw [List.length_append] at h1 h2 h4 h5
    -- the labels of the line, then those that follow
    have hlab : (placed P.length (l :: ls)).filterMap labelOf =
        ((defines l).map fun n => (n, P.length)).toList ++ (placed (P.length + (emits l).length) ls).filterMap labelOf := by
      cases hd : defines l <;> simp [placed, labelOf, hd]
    have hrel : (placed P.length (l :: ls)).filterMap relocOf =
        ((relocates l).map fun r => (P.length + r.offset.toNat, r)).toList ++
          (placed (P.length + (emits l).length) ls).filterMap relocOf := by
      cases hd : relocates l <;> simp [placed, relocOf, hd]
    rw [hlab, hrel]
    -- the loads of the line
    obtain ⟨mine, m1, m2, m3⟩ : ∃ mine : List Load,
        (((relocates l).map fun r => (P.length + r.offset.toNat, r)).toList).map AsmSpec.entryOf = mine.map (·.entry) ∧
        (∀ x ∈ mine, P.length ≤ x.start ∧ x.stop = P.length + (emits l).length ∧
          x.At (P ++ emits l ++ ls.flatMap emits)) ∧ mine.Pairwise (fun a b => a.stop ≤ b.start) := by
      cases hr : relocates l with
      | none => exact ⟨[], by simp⟩
      | some r =>
        obtain ⟨ld, e1, e2, e3, e4⟩ := load_written hw P (ls.flatMap emits) hr
        exact ⟨[ld], by simp [e1], fun x hx => by cases List.mem_singleton.1 hx; exact ⟨e2, e3, e4⟩, by simp⟩
    have hmine : ∀ p ∈ ((defines l).map fun n => (n, P.length)).toList, p.2 = P.length ∧ LabelName p.1 := by
      intro p hp
      rw [Option.mem_toList, Option.map_eq_some_iff] at hp
      obtain ⟨n, hn, rfl⟩ := hp
      exact ⟨rfl, label_written hw hn⟩
    refine ⟨mine ++ loads, ?_, ?_, ?_, ?_, ?_⟩
    · rw [List.map_append, List.map_append, m1, h1]
    · intro x hx
      rcases List.mem_append.1 hx with hx | hx
      · exact ⟨(m2 x hx).2.2, (m2 x hx).1⟩
      · exact ⟨(h2 x hx).1, by have := (h2 x hx).2; omega⟩
    · rw [List.pairwise_append]
      refine ⟨m3, h3, fun a ha b hb => ?_⟩
      rw [(m2 a ha).2.1]
      exact (h2 b hb).2
    · rw [List.pairwise_append]
      refine ⟨?_, h4, fun a ha b hb => ?_⟩
      · cases defines l <;> simp
      · have := (h5 b hb).2.1
        rw [(hmine a ha).1]
        omega
    · intro p hp
      rcases List.mem_append.1 hp with hp | hp
      · obtain ⟨e1, e2⟩ := hmine p hp
        refine ⟨e2, by omega, by simp only [List.length_append]; omega, fun x hx => .inl ?_⟩
        rcases List.mem_append.1 hx with hx | hx
        · have := (m2 x hx).1; omega
        · have := (h2 x hx).2; omega
      · obtain ⟨e1, e2, e3, e4⟩ := h5 p hp
        refine ⟨e1, by omega, e3, fun x hx => ?_⟩
        rcases List.mem_append.1 hx with hx | hx
        · right
          rw [(m2 x hx).2.1]
          exact e2
        · exact e4 x hx

/-! ## Lines for given contents, labels and loads -/

theorem drop_succ_eq {B : Bytes} {pos : Nat} (h : pos < B.length) : B.drop pos = B[pos] :: B.drop (pos + 1) :=
  List.drop_eq_getElem_cons h

theorem drop_take_append (B : Bytes) (pos k : Nat) : B.drop pos = (B.drop pos).take k ++ B.drop (pos + k) := by
  rw [← List.drop_drop]
  exact (List.take_append_drop k _).symm

/-- What `lines_for` gives. -/
structure LinesFor (B : Bytes) (pos : Nat) (labs : List (Str × Nat)) (lds : List Load) (sts : List Stmt)
    (ls : List Line) : Prop where
  stand : StandFor sts ls
  places : ∀ l ∈ ls, Places l = true
  emits : ls.flatMap emits = B.drop pos
  labels : (placed pos ls).filterMap labelOf = labs
  loads : ((placed pos ls).filterMap relocOf).map AsmSpec.entryOf = lds.map (·.entry)
  stores : ∀ l ∈ ls, Stores l → AsmSpec.emits l ≠ []
  count : ls.length ≤ (B.length - pos) + labs.length

/-- A line in front. -/
theorem LinesFor.cons {B : Bytes} {pos : Nat} {labels : List (Str × Nat)} {loads : List Load} {sts : List Stmt}
    {ls : List Line} {st : Stmt} {l : Line} (n : Nat) (ok : st.Ok) (hm : Means st l) (hp : Places l = true)
    (hn : (AsmSpec.emits l).length = n) (he : B.drop pos = AsmSpec.emits l ++ B.drop (pos + n))
    (hs : Stores l → AsmSpec.emits l ≠ []) (h : LinesFor B (pos + n) labels loads sts ls)
    (hpos : pos + n ≤ B.length) (lab : List (Str × Nat)) (hlab : (labelOf (pos, l)).toList = lab)
    (lds : List Load) (hlds : (relocOf (pos, l)).toList.map AsmSpec.entryOf = lds.map (·.entry))
    (hc : 1 ≤ n + lab.length) :
    LinesFor B pos (lab ++ labels) (lds ++ loads) (st :: sts) (l :: ls) := by
  subst hn
  refine ⟨StandFor.cons.2 ⟨⟨ok, hm⟩, h.stand⟩, ?_, ?_, ?_, ?_, ?_, ?_⟩
  · intro m hm'
    rcases List.mem_cons.1 hm' with rfl | hm'
    · exact hp
    · exact h.places m hm'
  · rw [List.flatMap_cons, h.emits, he]
  · rw [placed, ← hlab]
    cases hd : labelOf (pos, l) <;> simp [hd, h.labels]
  · rw [placed, List.map_append, ← hlds, ← h.loads]
    cases hd : relocOf (pos, l) <;> simp [hd]
  · intro m hm'
    rcases List.mem_cons.1 hm' with rfl | hm'
    · exact hs
    · exact h.stores m hm'
  · have := h.count
    simp only [List.length_cons, List.length_append]
    omega

theorem lines_for (B : Bytes) : ∀ (k pos : Nat) (labels : List (Str × Nat)) (loads : List Load),
    (B.length - pos) + labels.length = k → pos ≤ B.length →
    (∀ l ∈ loads, l.At B ∧ pos ≤ l.start) → loads.Pairwise (fun a b => a.stop ≤ b.start) →
    labels.Pairwise (fun a b => a.2 ≤ b.2) →
    (∀ p ∈ labels, LabelName p.1 ∧ pos ≤ p.2 ∧ p.2 ≤ B.length ∧ ∀ l ∈ loads, p.2 ≤ l.start ∨ l.stop ≤ p.2) →
    ∃ sts ls, LinesFor B pos labels loads sts ls := by
  intro k
  induction k using Nat.strongRecOn with
  | ind k ih =>
  intro pos labels loads hk hpos hloads hord hlord hlabels
  -- a label here comes first
  by_cases hl : ∃ n rest, labels = (n, pos) :: rest
  · obtain ⟨n, rest, rfl⟩ := hl
    rw [List.pairwise_cons] at hlord
    obtain ⟨sts, ls, h⟩ := ih ((B.length - pos) + rest.length) (by simp at hk; omega) pos rest loads rfl hpos hloads hord
      hlord.2 (fun p hp => hlabels p (by simp [hp]))
    exact ⟨_, _, h.cons (st := .label n) (l := .symbol n) 0 (hlabels (n, pos) (by simp)).1 rfl rfl rfl (by simp [AsmSpec.emits])
      (fun hs => hs.elim) hpos [(n, pos)] rfl [] rfl (by simp)⟩
  -- the labels lie behind
  have hbehind : ∀ p ∈ labels, pos < p.2 := by
    cases labels with
    | nil => simp
    | cons q rest =>
      have hq := (hlabels q (by simp)).2.1
      have hne : q.2 ≠ pos := fun e => hl ⟨q.1, rest, by rw [← e]⟩
      rw [List.pairwise_cons] at hlord
      intro p hp
      rcases List.mem_cons.1 hp with rfl | hp
      · omega
      · have := hlord.1 p hp; omega
  -- then a load
  by_cases hld : ∃ l rest, loads = l :: rest ∧ l.start = pos
  · obtain ⟨l, rest, rfl, hst⟩ := hld
    rw [List.pairwise_cons] at hord
    have hAt := (hloads l (by simp)).1
    have hlen := load_length hAt
    obtain ⟨sts, ls, h⟩ := ih ((B.length - l.stop) + labels.length) (by omega) l.stop labels rest rfl hlen.2
      (fun m hm => ⟨(hloads m (by simp [hm])).1, hord.1 m hm⟩) hord.2 hlord (fun p hp => by
        obtain ⟨e1, _, e3, e4⟩ := hlabels p hp
        refine ⟨e1, ?_, e3, fun m hm => e4 m (by simp [hm])⟩
        have := hbehind p hp
        rcases e4 l (by simp) with h | h
        · omega
        · exact h)
    cases hAt with
    | wide k' rex op name h1 h2 h3 hc h5 h6 =>
      cases hst
      obtain ⟨d, hd⟩ := sym64_code h1 h2 h3
      refine ⟨_, _, h.cons (st := .inst (.sym64 d name)) (l := .instruction (assembled (.sym64 d name))) 10 ⟨h5, h6⟩ rfl rfl
        ?_ ?_ ?_ hlen.2 [] rfl [_] ?_ (by simp)⟩
      · rw [emits_assembled]; simp only [hd]; rfl
      · rw [emits_assembled]; simp only [hd]; rw [← hc]; exact drop_take_append _ _ _
      · intro _; rw [emits_assembled]; simp only [hd]; simp
      · rfl
    | narrow k' op name h2 h3 hc h5 h6 =>
      cases hst
      obtain ⟨d, hh, hd⟩ := sym32_code h2 h3
      refine ⟨_, _, h.cons (st := .inst (.sym32 d name)) (l := .instruction (assembled (.sym32 d name))) 5 ⟨h5, h6⟩ rfl rfl
        ?_ ?_ ?_ hlen.2 [] rfl [_] ?_ (by simp)⟩
      · rw [emits_assembled]; simp only [hd]; rfl
      · rw [emits_assembled]; simp only [hd]; rw [← hc]; exact drop_take_append _ _ _
      · intro _; rw [emits_assembled]; simp only [hd]; simp
      · simp [relocOf, relocates, assembled, hh, AsmSpec.entryOf]
  -- the loads lie behind
  have hbehind' : ∀ l ∈ loads, pos < l.start := by
    cases loads with
    | nil => simp
    | cons q rest =>
      have hq := (hloads q (by simp))
      have hlen := load_length hq.1
      have hne : q.start ≠ pos := fun e => hld ⟨q, rest, rfl, e⟩
      rw [List.pairwise_cons] at hord
      intro p hp
      rcases List.mem_cons.1 hp with rfl | hp
      · omega
      · have := hord.1 p hp; omega
  -- the end
  by_cases hend : pos = B.length
  · have e1 : labels = [] := by
      cases labels with
      | nil => rfl
      | cons q rest =>
        have := hbehind q (by simp)
        have := (hlabels q (by simp)).2.2.1
        omega
    have e2 : loads = [] := by
      cases loads with
      | nil => rfl
      | cons q rest =>
        have := hbehind' q (by simp)
        have := load_length (hloads q (by simp)).1
        omega
    subst e1 e2 hend
    exact ⟨[], [], ⟨rfl, by simp, by simp⟩, by simp, by simp, rfl, rfl, by simp, by simp⟩
  -- or one byte
  obtain ⟨sts, ls, h⟩ := ih ((B.length - (pos + 1)) + labels.length) (by omega) (pos + 1) labels loads rfl (by omega)
    (fun m hm => ⟨(hloads m hm).1, hbehind' m hm⟩) hord hlord (fun p hp => by
      obtain ⟨e1, _, e3, e4⟩ := hlabels p hp
      exact ⟨e1, hbehind p hp, e3, e4⟩)
  have hlt : pos < B.length := by omega
  exact ⟨_, _, h.cons (st := .data none (str% "db") 1 [.num B[pos].toNat]) (l := .data ⟨none, [B[pos]]⟩) 1
    ⟨by simp, by simp [directives], by simp, by simpa [ItemOk] using B[pos].toNat_lt⟩
    ⟨_, rfl, stored_bytes [B[pos]]⟩ rfl rfl (drop_succ_eq hlt) (by simp [AsmSpec.emits]) (by omega) [] rfl [] rfl (by simp)⟩

/-! ## Whole sources -/

theorem mem_linesIn {ls : List Line} {x : Section} {l : Line} (h : l ∈ linesIn ls x) : l ∈ ls := by
  unfold linesIn at h
  rw [List.mem_filterMap] at h
  obtain ⟨k, _, hk⟩ := h
  cases hg : ls[k]? with
  | none => simp [hg] at hk
  | some m =>
    rw [hg, Option.bind_some] at hk
    split at hk
    · cases hk; exact List.mem_of_getElem? hg
    · simp at hk

theorem linesIn_none {ls : List Line} (h : ∀ l ∈ ls, Places l = false) (x : Section) : linesIn ls x = [] := by
  induction ls using list_snoc_induction with
  | h0 => rfl
  | h ls l ih =>
    rw [linesIn_snoc, ih (fun m hm => h m (by simp [hm])), h l (by simp)]
    simp

/-- A section line and lines that store something or define a label. -/
theorem linesIn_block (pre : List Line) (x y : Section) (m : List Line) (hm : ∀ l ∈ m, Places l = true) :
    linesIn (pre ++ .sect x :: m) y = linesIn pre y ++ (if x = y then m else []) ∧
      sectAt (pre ++ .sect x :: m) (pre ++ .sect x :: m).length = x := by
  induction m using list_snoc_induction with
  | h0 =>
    refine ⟨?_, ?_⟩
    · rw [linesIn_snoc]
      simp [Places]
    · rw [List.length_append, List.length_singleton, sectAt_snoc]
      rfl
  | h m l ih =>
    obtain ⟨i1, i2⟩ := ih (fun q hq => hm q (by simp [hq]))
    have hl := hm l (by simp)
    have e : pre ++ .sect x :: (m ++ [l]) = (pre ++ .sect x :: m) ++ [l] := by simp
    rw [e]
    refine ⟨?_, ?_⟩
    · rw [linesIn_snoc, i1, i2, hl]
      by_cases hxy : x = y <;> simp [hxy]
    · rw [List.length_append (bs := [l]), List.length_singleton, sectAt_snoc, i2]
      cases l <;> first | rfl | simp [Places] at hl

theorem written_of_program {bd : Build} {input : Bytes} {ls : List Line} (hp : Program bd input ls) :
    ∀ l ∈ ls, Written l := by
  obtain ⟨sts, ⟨h1, h2, h3⟩, _⟩ := C71_normal_form bd input ls hp
  intro l hl
  obtain ⟨k, hk, rfl⟩ := List.mem_iff_getElem.1 hl
  have hk' : k < sts.length := by omega
  refine ⟨sts[k], h2 _ (List.getElem_mem _), h3 (sts[k], ls[k]) ?_⟩
  rw [List.mem_iff_getElem]
  exact ⟨k, by simp [List.length_zip]; omega, by simp⟩

theorem section_obtained {ls : List Line} (hw : ∀ l ∈ ls, Written l) (x : Section) :
    ObtainedSection (fun n => decide (Global ls n)) (content ls x ls.length) ((labels ls x).map (symbolOf ls))
      ((relocations ls x).map AsmSpec.entryOf) := by
  obtain ⟨loads, h1, h2, h3, h4, h5⟩ := placed_obtained (linesIn ls x) [] (fun l hl => hw l (mem_linesIn hl))
  simp only [List.length_nil, List.nil_append] at h1 h2 h4 h5
  rw [content_linesIn, labels_linesIn, relocations_linesIn]
  exact ⟨loads, _, h1, fun l hl => (h2 l hl).1, h3, rfl, h4, fun p hp => ⟨(h5 p hp).1, (h5 p hp).2.2.1, (h5 p hp).2.2.2⟩⟩

theorem objectOf_obtained {ls : List Line} (hw : ∀ l ∈ ls, Written l) (hb : NoBssContent ls) : Obtained (objectOf ls) := by
  refine ⟨fun n => decide (Global ls n), ?_, section_obtained hw .text, section_obtained hw .data, rfl, ?_⟩
  · rw [decide_eq_false_iff_not]
    intro hg
    obtain ⟨st, ok, hm⟩ := hw _ hg
    cases st with
    | global n => cases hm; exact ok.1 rfl
    | data lab dir w its => obtain ⟨bs, h, _⟩ := hm; cases h
    | _ => cases hm
  · have h := section_obtained hw .bss
    rw [noBss_linesIn] at hb
    have hc : content ls .bss ls.length = [] := by
      rw [content_linesIn, List.flatMap_eq_nil_iff]
      intro l hl
      have := hb l hl
      cases l <;> first | rfl | exact absurd trivial this
    have hr : relocations ls .bss = [] := by
      rw [relocations_linesIn, List.filterMap_eq_nil_iff]
      rintro ⟨n, l⟩ hp
      have hl : l ∈ linesIn ls .bss := by
        generalize linesIn ls .bss = m at hp
        clear hb h hc
        generalize 0 = k at hp
        induction m generalizing k with
        | nil => simp [placed] at hp
        | cons a m ih =>
          rw [placed, List.mem_cons] at hp
          rcases hp with hp | hp
          · cases hp; simp
          · simp [ih _ hp]
      have := hb l hl
      cases l <;> first | rfl | exact absurd trivial this
    rw [hc, hr] at h
    exact h

/-- C94: whatever is assembled, the object has this form. -/
theorem C94_form (bd : Build) (chunks : List Bytes) (a : Assembler) (hne : ∀ c ∈ chunks, c ≠ [])
    (h : Assembler.new.readFrom bd chunks = .ok a) : Obtained a.obj := by
  obtain ⟨ls, hp, hb, _, ho⟩ := ((C79_assemble bd chunks hne).1 a.obj).1 ⟨a, h, rfl⟩
  rw [ho]
  exact objectOf_obtained (written_of_program hp) hb

/-- Contents and symbols below 2^30 in number. -/
def FewParts (o : Object) : Prop :=
  o.sections.text.bytes.length + o.sections.data.bytes.length < 2 ^ 30 ∧ o.symbols.length < 2 ^ 30

theorem lines_of_section {ext : Str → Bool} {bytes : Bytes} {symbols : List Symbol} {relocs : List Reloc}
    (h : ObtainedSection ext bytes symbols relocs) :
    ∃ (labs : List (Str × Nat)) (loads : List Load) (sts : List Stmt) (ls : List Line),
      LinesFor bytes 0 labs loads sts ls ∧ relocs = loads.map (·.entry) ∧
      symbols = labs.map (fun p => .ref p.1 (UInt64.ofNat p.2) (ext p.1)) ∧
      (∀ p ∈ labs, LabelName p.1) ∧ ∀ l ∈ loads, l.At bytes := by
  obtain ⟨loads, labs, h1, h2, h3, h4, h5, h6⟩ := h
  obtain ⟨sts, ls, hls⟩ := lines_for bytes _ 0 labs loads rfl (Nat.zero_le _) (fun l hl => ⟨h2 l hl, Nat.zero_le _⟩) h3 h5
    (fun p hp => ⟨(h6 p hp).1, Nat.zero_le _, (h6 p hp).2⟩)
  exact ⟨labs, loads, sts, ls, hls, h1, h4, fun p hp => (h6 p hp).1, h2⟩

/-- The offsets of relocations lie in the contents. -/
theorem placed_reloc_lt {m : List Line} (hw : ∀ l ∈ m, Written l) {p : Nat × LocalReloc} {k : Nat}
    (hp : p ∈ (placed k m).filterMap relocOf) : p.1 < k + (m.flatMap AsmSpec.emits).length := by
  induction m generalizing k with
  | nil => simp [placed] at hp
  | cons l m ih =>
    rw [placed, List.filterMap_cons] at hp
    have htail : p ∈ (placed (k + (AsmSpec.emits l).length) m).filterMap relocOf →
        p.1 < k + ((l :: m).flatMap AsmSpec.emits).length := by
      intro h
      have := ih (fun q hq => hw q (by simp [hq])) h
      simp only [List.flatMap_cons, List.length_append]
      omega
    cases hr : relocates l with
    | none => simp only [relocOf, hr, Option.map_none] at hp; exact htail hp
    | some r =>
      simp only [relocOf, hr, Option.map_some, List.mem_cons] at hp
      rcases hp with rfl | hp
      · have : r.offset.toNat < (AsmSpec.emits l).length := by
          obtain ⟨st, ok, hm⟩ := hw l (by simp)
          cases st with
          | label m => cases hm; cases hr
          | data lab dir w its => obtain ⟨bs, rfl, _⟩ := hm; cases hr
          | blank => cases hm; cases hr
          | sect x => cases hm; cases hr
          | global m => cases hm; cases hr
          | inst x =>
            cases hm
            rw [emits_assembled]
            cases x with
            | plain i => cases hr
            | sym64 d name =>
              cases hr
              obtain ⟨rex, op, _, _, _, hc⟩ := code_sym64 d
              simp only [hc]
              exact (by decide : (2 : Nat) < 10)
            | sym32 d name =>
              cases hr
              show UInt8.toNat (if X86.high (X86.num32 d) then 2 else 1) < (X86.machineCode (.movReg32Imm d 0)).length
              cases d <;> decide
        simp only [List.flatMap_cons, List.length_append]
        omega
      · exact htail hp

/-- C94: every object of this form can be assembled; by a debug build if it is not too large. -/
theorem C94_every (o : Object) (ho : Obtained o) :
    ∃ src : Bytes, ∀ (bd : Build) (chunks : List Bytes), (∀ c ∈ chunks, c ≠ []) → chunks.flatten = src →
      bd = .release ∨ FewParts o → ∃ a, Assembler.new.readFrom bd chunks = .ok a ∧ a.obj = o := by
  obtain ⟨ext, hext, ht, hd, hz, hbss⟩ := ho
  obtain ⟨labT, ldT, stT, lsT, hT, rT, sT, nT, aT⟩ := lines_of_section ht
  obtain ⟨labD, ldD, stD, lsD, hD, rD, sD, nD, aD⟩ := lines_of_section hd
  obtain ⟨labB, ldB, stB, lsB, hB, rB, sB, nB, aB⟩ := lines_of_section hbss
  -- the external names
  let names := ((labT ++ labD ++ labB).map (·.1)).filter ext
  have hnames : ∀ p ∈ labT ++ labD ++ labB, (p.1 ∈ names ↔ ext p.1 = true) := by
    intro p hp
    rw [List.mem_filter]
    exact ⟨fun h => h.2, fun h => ⟨List.mem_map.2 ⟨p, hp, rfl⟩, h⟩⟩
  have hok : ∀ n ∈ names, (Stmt.global n).Ok := by
    intro n hn
    obtain ⟨h1, h2⟩ := List.mem_filter.1 hn
    obtain ⟨p, hp, rfl⟩ := List.mem_map.1 h1
    have hl : LabelName p.1 := by
      rcases List.mem_append.1 hp with hp | hp
      · rcases List.mem_append.1 hp with hp | hp
        · exact nT p hp
        · exact nD p hp
      · exact nB p hp
    refine ⟨fun e => ?_, hl.1, hl.2.1⟩
    rw [e, hext] at h2
    cases h2
  let gl : List Line := names.map .globalSymbol
  have hgl : StandFor (names.map .global) gl := by
    refine ⟨by simp [gl], ?_, ?_⟩
    · intro st hst
      obtain ⟨n, hn, rfl⟩ := List.mem_map.1 hst
      exact hok n hn
    · intro p hp
      simp only [gl, List.zip_map, List.mem_map] at hp
      obtain ⟨⟨a, b⟩, hab, rfl⟩ := hp
      have : a = b := by
        obtain ⟨i, hi, e⟩ := List.mem_iff_getElem.1 hab
        simp at e
        exact e.1.symm.trans e.2
      subst this
      rfl
  -- the source
  let l1 := gl ++ .sect .text :: lsT
  let l2 := l1 ++ .sect .data :: lsD
  let ls := l2 ++ .sect .bss :: lsB
  have hsec : ∀ x sts ms, StandFor sts ms → StandFor (.sect x :: sts) (.sect x :: ms) :=
    fun x sts ms h => StandFor.cons.2 ⟨⟨trivial, rfl⟩, h⟩
  obtain ⟨sts, hst⟩ : ∃ sts, StandFor sts ls :=
    ⟨_, ((hgl.append (hsec .text _ _ hT.stand)).append (hsec .data _ _ hD.stand)).append (hsec .bss _ _ hB.stand)⟩
  have hg0 : ∀ y, linesIn gl y = [] := linesIn_none (by
    intro l hl
    obtain ⟨n, _, rfl⟩ := List.mem_map.1 hl
    rfl)
  have hin : ∀ y, linesIn ls y = (if Section.text = y then lsT else []) ++ (if Section.data = y then lsD else []) ++
      (if Section.bss = y then lsB else []) := by
    intro y
    rw [(linesIn_block l2 .bss y lsB hB.places).1, (linesIn_block l1 .data y lsD hD.places).1,
      (linesIn_block gl .text y lsT hT.places).1, hg0, List.nil_append]
  have hinT : linesIn ls .text = lsT := by rw [hin]; simp
  have hinD : linesIn ls .data = lsD := by rw [hin]; simp
  have hinB : linesIn ls .bss = lsB := by rw [hin]; simp
  have hnb : NoBssContent ls := by
    rw [noBss_linesIn, hinB]
    intro l hl hs
    have h0 : lsB.flatMap AsmSpec.emits = [] := hB.emits
    rw [List.flatMap_eq_nil_iff] at h0
    exact hB.stores l hl hs (h0 l hl)
  have hglob : ∀ p ∈ labT ++ labD ++ labB, decide (Global ls p.1) = ext p.1 := by
    intro p hp
    have hno : ∀ (m : List Line), (∀ l ∈ m, Places l = true) → Line.globalSymbol p.1 ∉ m :=
      fun m hm hh => by have := hm _ hh; simp [Places] at this
    have : Global ls p.1 ↔ p.1 ∈ names := by
      show Line.globalSymbol p.1 ∈ ls ↔ _
      simp only [ls, l2, l1, gl, List.mem_append, List.mem_cons, List.mem_map]
      simp [hno _ hT.places, hno _ hD.places, hno _ hB.places]
    rw [Bool.eq_iff_iff, decide_eq_true_iff, this, hnames p hp]
  have hsym : ∀ labs : List (Str × Nat), (∀ p ∈ labs, p ∈ labT ++ labD ++ labB) →
      labs.map (symbolOf ls) = labs.map (fun p => .ref p.1 (UInt64.ofNat p.2) (ext p.1)) := by
    intro labs hl
    apply List.map_congr_left
    intro p hp
    rw [symbolOf, hglob p (hl p hp)]
  -- its object
  have hobj : objectOf ls = o := by
    obtain ⟨⟨⟨tb, ts, tr⟩, ⟨db, ds, dr⟩, ⟨z, bs⟩⟩⟩ := o
    simp only at hT hD rT rD sT sD sB hz aT aD
    subst hz
    unfold objectOf
    simp only [content_linesIn, labels_linesIn, relocations_linesIn, hinT, hinD, hinB]
    rw [show (placed 0 lsT).filterMap (fun p => (defines p.2).map fun n => (n, p.1)) = labT from hT.labels,
      show (placed 0 lsD).filterMap (fun p => (defines p.2).map fun n => (n, p.1)) = labD from hD.labels,
      show (placed 0 lsB).filterMap (fun p => (defines p.2).map fun n => (n, p.1)) = labB from hB.labels,
      show ((placed 0 lsT).filterMap (fun p => (relocates p.2).map fun r => (p.1 + r.offset.toNat, r))).map AsmSpec.entryOf =
        ldT.map (·.entry) from hT.loads,
      show ((placed 0 lsD).filterMap (fun p => (relocates p.2).map fun r => (p.1 + r.offset.toNat, r))).map AsmSpec.entryOf =
        ldD.map (·.entry) from hD.loads, hT.emits, hD.emits, ← rT, ← rD,
      hsym labT (fun p hp => by simp [hp]), hsym labD (fun p hp => by simp [hp]), hsym labB (fun p hp => by simp [hp]),
      ← sT, ← sD, ← sB]
    rfl
  refine ⟨utf8 (render sts), fun bd chunks hne hfl hsmall => ?_⟩
  have hp : Program bd chunks.flatten ls := by rw [hfl]; exact C71_program bd _ ls hst
  have hw : Within bd ls := by
    rcases hsmall with rfl | hsmall
    · exact ⟨by simp, by simp⟩
    have hT' : lsT.flatMap AsmSpec.emits = o.sections.text.bytes := hT.emits
    have hD' : lsD.flatMap AsmSpec.emits = o.sections.data.bytes := hD.emits
    have hB' : lsB.flatMap AsmSpec.emits = [] := hB.emits
    have hwr := written_of_program hp
    have c1 := hT.count
    have c2 := hD.count
    have c3 := hB.count
    obtain ⟨f1, f2⟩ := hsmall
    have hsl : o.symbols.length = labT.length + labD.length + labB.length := by
      unfold Object.symbols
      rw [sT, sD, sB]
      simp [Nat.add_assoc]
    have hnl : names.length ≤ labT.length + labD.length + labB.length := by
      refine Nat.le_trans (List.length_filter_le ext ((labT ++ labD ++ labB).map (·.1))) ?_
      simp [Nat.add_assoc]
    refine Small.within ⟨?_, ?_⟩ bd
    · simp only [ls, l2, l1, gl, List.length_append, List.length_cons, List.length_map]
      simp only [List.length_nil] at c3
      omega
    · intro x p hpx
      rw [relocations_linesIn] at hpx
      have := placed_reloc_lt (fun l hl => hwr l (mem_linesIn hl)) hpx
      rw [hin] at this
      cases x
      · simp [hT'] at this; omega
      · simp [hD'] at this; omega
      · simp [hB'] at this
  obtain ⟨a, ha, hao⟩ := ((C79_assemble bd chunks hne).1 o).2 ⟨ls, hp, hnb, hw, hobj.symm⟩
  exact ⟨a, ha, hao⟩

/-- C94: the objects that a release build can assemble are exactly those of this form. -/
theorem C94_exactly (o : Object) :
    (∃ chunks a, (∀ c ∈ chunks, c ≠ []) ∧ Assembler.new.readFrom .release chunks = .ok a ∧ a.obj = o) ↔ Obtained o := by
  constructor
  · rintro ⟨chunks, a, hne, ha, rfl⟩
    exact C94_form .release chunks a hne ha
  · intro h
    obtain ⟨src, hs⟩ := C94_every o h
    by_cases he : src = []
    · obtain ⟨a, ha, hao⟩ := hs .release [] (by simp) (by simp [he]) (.inl rfl)
      exact ⟨[], a, by simp, ha, hao⟩
    · obtain ⟨a, ha, hao⟩ := hs .release [src] (by simpa using he) (by simp) (.inl rfl)
      exact ⟨[src], a, by simpa using he, ha, hao⟩

/-! ## Examples -/

/-- `mov rax, f` and `ret`, with an external label in front and a label at offset `k`. -/
def loadObject (k : UInt64) : Object := { sections := {
  text := {
    bytes := [0x48, 0xb8, 0, 0, 0, 0, 0, 0, 0, 0, 0xc3]
    symbols := [.ref (str% "f") 0 true, .ref (str% "g") k false]
    relocs := [⟨2, str% "f", false, 3⟩] } } }

theorem labelName_sample : LabelName (str% "f") ∧ LabelName (str% "g") := by
  refine ⟨⟨by simp [Solid]; decide, by decide, ?_⟩, by simp [Solid]; decide, by decide, ?_⟩ <;>
  · intro r h
    have := congrArg List.getLast? h
    rw [List.getLast?_append] at this
    simp at this

/-- With the second label between the two instructions it can be assembled ... -/
example : Obtained (loadObject 10) := by
  refine ⟨fun n => n == str% "f", by decide, ?_, ⟨[], [], by simp [loadObject]⟩, rfl, ⟨[], [], by simp [loadObject]⟩⟩
  refine ⟨[⟨0, 10, ⟨2, str% "f", false, 3⟩⟩], [(str% "f", 0), (str% "g", 10)], rfl, ?_, by simp, rfl, by simp, ?_⟩
  · intro l hl
    cases List.mem_singleton.1 hl
    exact .wide 0 0x48 0xb8 (str% "f") (.inl rfl) (by decide) (by decide) rfl
      ⟨Solid.starts (by simp [Solid]; decide), Solid.ends (by simp [Solid]; decide), by decide, by decide,
        (notConst_iff .debug _).1 (by decide +kernel)⟩ (fun r => by cases r <;> decide)
  · intro p hp
    simp only [List.mem_cons, List.not_mem_nil, or_false] at hp
    rcases hp with rfl | rfl
    · exact ⟨labelName_sample.1, by simp, by simp⟩
    · exact ⟨labelName_sample.2, by simp [loadObject], by simp⟩

/-- ... and with the label inside of the load it cannot. -/
example : ¬ ∃ chunks a, (∀ c ∈ chunks, c ≠ []) ∧ Assembler.new.readFrom .release chunks = .ok a ∧ a.obj = loadObject 5 := by
  rw [C94_exactly]
  rintro ⟨ext, _, ⟨loads, labs, h1, h2, _, h4, _, h6⟩, _⟩
  match labs, h4, h6 with
  | [(n, i), (m, j)], h4, h6 =>
    have h4 : (5 : UInt64) = UInt64.ofNat j := by simp [loadObject] at h4; exact h4.2.2.1
    obtain ⟨_, hj, hin⟩ := h6 (m, j) (by simp)
    have hj : j ≤ 11 := hj
    have e5 : j = 5 := by
      have := congrArg UInt64.toNat h4
      simp at this
      omega
    subst e5
    match loads, h1, h2, hin with
    | [l], h1, h2, hin =>
      have h1 : (⟨2, str% "f", false, 3⟩ : Reloc) = l.entry := by simpa [loadObject] using h1
      have hl := load_length (h2 l (by simp))
      have hb : l.stop ≤ 11 := hl.2
      have hat := h2 l (by simp)
      have hi := hin l (by simp)
      cases hat with
      | wide k rex op name _ _ _ _ =>
        have hk : k ≤ 1 := by have : k + 10 ≤ 11 := hb; omega
        have : k = 0 := by
          have h1 := congrArg (fun r : Reloc => r.addr.toInt) h1
          rcases (by omega : k = 0 ∨ k = 1) with rfl | rfl
          · rfl
          · exact absurd (show (2 : Int32).toInt = (Int32.ofNat 3).toInt from h1) (by decide)
        subst this
        simp at hi
      | narrow k op name _ _ _ =>
        have h1 := congrArg (fun r : Reloc => r.len) h1
        simp at h1
    | [], h1, _, _ => simp [loadObject] at h1
    | _ :: _ :: _, h1, _, _ => simp [loadObject] at h1
  | [], h4, _ => simp [loadObject] at h4
  | [_], h4, _ => simp [loadObject] at h4
  | _ :: _ :: _ :: _, h4, _ => simp [loadObject] at h4

end AT.Props
