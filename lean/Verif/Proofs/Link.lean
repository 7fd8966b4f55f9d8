import Verif.Props.Asm
import Verif.Spec.Whole
/-!
# Relocated contents of a section
-/

namespace AT.Asm
open AT.AsmSpec AT.X64 AT.Props AT.Obj
open X86 (num64 num32 PushFits)

/-! ## Patching -/

theorem leNat_zeros (k : Nat) : X86.leNat (List.replicate k 0) = 0 := by
  induction k with
  | zero => rfl
  | succ k ih => rw [List.replicate_succ, X86.leNat, ih]; rfl

theorem leBytes_zero (k : Nat) : leBytes k 0 = List.replicate k 0 := by
  induction k with
  | zero => rfl
  | succ k ih => rw [leBytes, Nat.zero_div, ih, List.replicate_succ]; rfl

theorem length_patch {bs : Bytes} {off k v : Nat} (h : off + k ≤ bs.length) : (patch bs off k v).length = bs.length := by
  unfold patch
  simp [length_leBytes]
  omega

theorem patch_mid (a b r : Bytes) (off k v : Nat) (h : off + k ≤ b.length) :
    patch (a ++ (b ++ r)) (a.length + off) k v = a ++ (patch b off k v ++ r) := by
  unfold patch
  rw [List.take_append, List.take_of_length_le (by omega), show a.length + off - a.length = off by omega,
    List.take_append_of_le_length (by omega), List.drop_append, List.drop_of_length_le (by omega),
    show a.length + off + k - a.length = off + k by omega, List.drop_append_of_le_length (by omega)]
  simp

theorem bytesAt_mid (a b r : Bytes) (off k : Nat) (h : off + k ≤ b.length) :
    MachO.bytesAt (a ++ (b ++ r)) (a.length + off) k = some ((b.drop off).take k) := by
  unfold MachO.bytesAt
  rw [if_pos (by simp; omega)]
  rw [List.drop_append, List.drop_of_length_le (by omega), show a.length + off - a.length = off by omega,
    List.drop_append_of_le_length (by omega), List.nil_append, List.take_append_of_le_length (by simp; omega)]

/-! ## One line -/

/-- The bytes of an instruction with its symbol resolved. -/
def patched (val : Str → Nat) (i : Instruction) : Bytes :=
  match i.reloc with
  | none => i.bytes.asRef
  | some r => patch i.bytes.asRef r.offset.toNat (2 ^ r.len.toNat) (val r.symbol)

/-- The place of the relocation in the instruction. -/
def RelocOk (i : Instruction) : Prop := ∀ r, i.reloc = some r →
  i.bytes.asRef.drop r.offset.toNat = List.replicate (2 ^ r.len.toNat) 0 ∧ r.pcrel = false ∧ r.len.toNat ≤ 3

theorem relocOk_line {bd : Build} {s : Str} {i : Instruction} (h : parseLine bd s = .ok (.instruction i)) :
    RelocOk i := by
  intro r hr
  obtain ⟨h1, ⟨c, hc, h2⟩, h3⟩ := reloc_line h hr
  refine ⟨h3, h1, ?_⟩
  rcases h2 with ⟨_, h⟩ | ⟨_, h⟩ <;> rw [h] <;> decide

theorem RelocOk.len {i : Instruction} (h : RelocOk i) {r : LocalReloc} (hr : i.reloc = some r) :
    r.offset.toNat + 2 ^ r.len.toNat = i.bytes.asRef.length := by
  have := congrArg List.length (h r hr).1
  rw [List.length_drop, List.length_replicate] at this
  have := Nat.two_pow_pos r.len.toNat
  omega

theorem length_patched {i : Instruction} (h : RelocOk i) (val : Str → Nat) :
    (patched val i).length = i.bytes.asRef.length := by
  unfold patched
  cases hr : i.reloc with
  | none => rfl
  | some r => exact length_patch (by rw [h.len hr]; exact Nat.le_refl _)

theorem patched_zero {i : Instruction} (h : RelocOk i) : patched (fun _ => 0) i = i.bytes.asRef := by
  unfold patched
  cases hr : i.reloc with
  | none => rfl
  | some r =>
    have hl := h.len hr
    simp only [patch]
    rw [leBytes_zero, ← (h r hr).1, List.drop_of_length_le (l := i.bytes.asRef) (i := r.offset.toNat + 2 ^ r.len.toNat) (by omega)]
    simp

/-- The instruction with its symbol resolved is read by the processor as what the line asks for. -/
theorem decode_patched {bd : Build} {s c : Str} {i : Instruction} {x : SrcInst} (hc : Code s c)
    (hnd : ¬ IsData c) (hx : InstLine bd c x) (hy : Yields x i) (hpush : ∀ j, x = .plain j → PushFits j)
    {val : Str → Nat} (hval : ∀ r, i.reloc = some r → val r.symbol < 256 ^ 2 ^ r.len.toNat) (rest : Bytes) :
    X86.decode (patched val i ++ rest) = some (srcMeaning val x, rest) := by
  have hp := (inst_lines bd s i).2 ⟨c, x, hc, hnd, hx, hy⟩
  cases x with
  | plain j =>
    obtain ⟨hb, hr⟩ := hy
    have hok : X86.OperandsOk j ∧ X86.MemFits j := by cases hx <;> exact ⟨trivial, trivial⟩
    obtain ⟨bs, he, hd⟩ := encodesAs_of j hok.1
    rw [Encodes.unique he ⟨_, hb, rfl⟩, cpuInst_of_fits hok.2 (hpush j rfl)] at hd
    unfold patched
    rw [hr]
    exact hd rest
  | sym64 d name =>
    cases hx with
    | mov64Sym _ _ hm hn hrr =>
      obtain ⟨i', off, h1, h2, h3, h4⟩ := (C43_mov_sym bd s c name hc hn).1 d hm hrr
      rw [hp] at h1
      cases h1
      have := h4 (val name) (hval _ h2) rest
      unfold patched
      rw [h2]
      exact this
  | sym32 d name =>
    cases hx with
    | mov32Sym _ _ hm hn hrr =>
      obtain ⟨i', off, h1, h2, h3, h4⟩ := (C43_mov_sym bd s c name hc hn).2 d hm hrr
      rw [hp] at h1
      cases h1
      have := h4 (val name) (hval _ h2) rest
      unfold patched
      rw [h2]
      exact this

/-! ## All lines -/

/-- What line `k` leaves in section `x` once symbols are resolved. -/
def linkedAt (val : Str → Nat) (ls : List Line) (x : Section) (k : Nat) : Bytes :=
  match ls[k]? with
  | some l => if sectAt ls k = x then (match l with | .instruction i => patched val i | l => emits l) else []
  | none => []

/-- Every instruction of the program has its relocation in place. -/
def RelocsOk (ls : List Line) : Prop := ∀ (k : Nat) i, ls[k]? = some (.instruction i) → RelocOk i

theorem relocsOk_of {bd : Build} {ss : List Str} {ls : List Line} (hp : ReadsAll bd ss ls) :
    RelocsOk ls := by
  intro k i hk
  obtain ⟨s, _, hs⟩ := map_eq_get hp hk
  exact relocOk_line hs

theorem length_linkedAt {ls : List Line} (h : RelocsOk ls) (val : Str → Nat) (x : Section) (k : Nat) :
    (linkedAt val ls x k).length = (emitsAt ls x k).length := by
  unfold linkedAt emitsAt
  cases hk : ls[k]? with
  | none => rfl
  | some l =>
    simp only
    split
    · cases l with
      | instruction i => exact length_patched (h k i hk) val
      | _ => rfl
    · rfl

theorem linkedAt_zero {ls : List Line} (h : RelocsOk ls) (x : Section) (k : Nat) :
    linkedAt (fun _ => 0) ls x k = emitsAt ls x k := by
  unfold linkedAt emitsAt
  cases hk : ls[k]? with
  | none => rfl
  | some l =>
    simp only
    split
    · cases l with
      | instruction i => exact patched_zero (h k i hk)
      | _ => rfl
    · rfl

/-- The resolved contents of section `x` before line `k`. -/
def linkedTo (val : Str → Nat) (ls : List Line) (x : Section) (k : Nat) : Bytes :=
  (List.range k).flatMap (linkedAt val ls x)

theorem linkedTo_succ (val : Str → Nat) (ls : List Line) (x : Section) (k : Nat) :
    linkedTo val ls x (k + 1) = linkedTo val ls x k ++ linkedAt val ls x k := by
  unfold linkedTo
  rw [List.range_succ, List.flatMap_append]
  simp

theorem length_linkedTo {ls : List Line} (h : RelocsOk ls) (val : Str → Nat) (x : Section) (k : Nat) :
    (linkedTo val ls x k).length = (content ls x k).length := by
  induction k with
  | zero => rfl
  | succ k ih => rw [linkedTo_succ, content_succ, List.length_append, List.length_append, ih, length_linkedAt h]

/-- Applying a relocation: the value is added to what is in place. -/
def storeAt (val : Str → Nat) (bs : Bytes) (p : Nat × LocalReloc) : Option Bytes :=
  (MachO.bytesAt bs p.1 (2 ^ p.2.len.toNat)).map
    (fun old => patch bs p.1 (2 ^ p.2.len.toNat) (X86.leNat old + val p.2.symbol))

theorem storeAll {ls : List Line} (h : RelocsOk ls) (val : Str → Nat) (x : Section) (k : Nat) (r : Bytes) :
    ((List.range k).filterMap (relocAt ls x)).foldlM (storeAt val) (content ls x k ++ r) =
      some (linkedTo val ls x k ++ r) := by
  induction k generalizing r with
  | zero => rfl
  | succ k ih =>
    rw [List.range_succ, List.filterMap_append, List.foldlM_append, content_succ, List.append_assoc, ih]
    simp only [Option.bind_eq_bind, Option.bind_some]
    rw [linkedTo_succ, List.append_assoc]
    cases hr : relocAt ls x k with
    | none =>
      have : linkedAt val ls x k = emitsAt ls x k := by
        unfold linkedAt emitsAt
        unfold relocAt at hr
        cases hk : ls[k]? with
        | none => rfl
        | some l =>
          rw [hk] at hr
          simp only at hr ⊢
          split
          · rename_i hs
            rw [if_pos hs] at hr
            cases l with
            | instruction i =>
              have : i.reloc = none := by
                cases hi : i.reloc with
                | none => rfl
                | some q => simp [relocates, hi] at hr
              simp only [patched, this, emits, BytesAtMost.asRef]
            | _ => rfl
          · rfl
      rw [this]
      simp [hr]
    | some p =>
      obtain ⟨off, lr⟩ := p
      obtain ⟨i, hi, hrel, hs, hoff⟩ := relocAt_some hr
      have hok := h k i hi
      have hl := hok.len hrel
      have he : emitsAt ls x k = i.bytes.asRef := by
        unfold emitsAt
        rw [hi]
        simp [hs, emits, BytesAtMost.asRef]
      have hla : linkedAt val ls x k = patched val i := by
        unfold linkedAt
        rw [hi]
        simp [hs]
      simp only [List.filterMap_cons, hr, List.filterMap_nil, List.foldlM_cons, List.foldlM_nil]
      unfold storeAt
      rw [he, hla, hoff, ← length_linkedTo h val x k]
      simp only
      rw [bytesAt_mid _ _ _ _ _ (by omega)]
      simp only [Option.map_some, Option.bind_eq_bind, Option.bind_some]
      rw [(hok _ hrel).1, List.take_of_length_le (by simp), leNat_zeros, Nat.zero_add,
        patch_mid _ _ _ _ _ _ (by omega)]
      simp only [patched, hrel]
      rfl

/-! ## Disassembly -/

theorem oneByOne_nil {α β : Type} {r : α → β → Prop} : OneByOne r [] [] := ⟨rfl, by simp⟩

theorem oneByOne_cons {α β : Type} {r : α → β → Prop} {a : α} {b : β} {l : List α} {m : List β} (h : r a b)
    (ht : OneByOne r l m) : OneByOne r (a :: l) (b :: m) := by
  refine ⟨by simp [ht.length], fun p x y hx hy => ?_⟩
  cases p with
  | zero => simp at hx hy; rw [← hx, ← hy]; exact h
  | succ p => exact ht.each p x y (by simpa using hx) (by simpa using hy)

theorem disasm_lines {bd : Build} {ss : List Str} {ls : List Line}
    (hp : ReadsAll bd ss ls) (hpure : PureText ls) (hpush : PushesFit bd ss)
    (val : Str → Nat) (hval : ∀ p ∈ relocations ls .text, val p.2.symbol < 256 ^ 2 ^ p.2.len.toNat)
    (d : Nat) : ∀ j, j + d = ls.length →
    ∃ cis, X86.Disasm ((List.range' j d).flatMap (linkedAt val ls .text)) cis ∧
      OneByOne (AsksFor bd ss val) (codeLines ls j) cis := by
  induction d with
  | zero =>
    intro j hj
    refine ⟨[], .nil, ?_⟩
    unfold codeLines
    rw [show ls.length - j = 0 by omega]
    exact oneByOne_nil
  | succ d ih =>
    intro j hj
    obtain ⟨cis, h1, h2⟩ := ih (j + 1) (by omega)
    have hlt : j < ls.length := by omega
    have hget := List.getElem?_eq_getElem hlt
    have hcl : codeLines ls j = (if isCode ls j then [j] else []) ++ codeLines ls (j + 1) := by
      unfold codeLines
      rw [show ls.length - j = d + 1 by omega, show ls.length - (j + 1) = d by omega, List.range'_succ,
        List.filter_cons]
      split <;> simp_all
    rw [List.range'_succ, List.flatMap_cons, hcl]
    by_cases hs : sectAt ls j = .text
    · cases hl : ls[j] with
      | instruction i =>
        rw [hl] at hget
        obtain ⟨s, hss, hparse⟩ := map_eq_get hp hget
        obtain ⟨c, x, hc, hnd, hx, hy⟩ := (inst_lines bd s i).1 hparse
        have hd := decode_patched hc hnd hx hy (fun j hj => hpush s (List.mem_of_getElem? hss) c j hc (hj ▸ hx))
          (val := val) (by
            intro r hr
            refine hval ((content ls .text j).length + r.offset.toNat, r)
              (List.mem_filterMap.2 ⟨j, List.mem_range.2 hlt, ?_⟩)
            unfold relocAt
            rw [hget]
            simp [hs, relocates, hr])
          ((List.range' (j + 1) d).flatMap (linkedAt val ls .text))
        have hla : linkedAt val ls .text j = patched val i := by
          unfold linkedAt; rw [hget]; simp [hs]
        rw [hla, show isCode ls j = true by simp [isCode, hs, hget]]
        simp only [if_true, List.singleton_append]
        exact ⟨_, .cons hd h1, oneByOne_cons ⟨s, c, x, hss, hc, hx, rfl⟩ h2⟩
      | data dd =>
        rw [hl] at hget
        exact absurd hs (hpure j dd hget)
      | _ =>
        rw [hl] at hget
        have hla : linkedAt val ls .text j = [] := by
          unfold linkedAt; rw [hget]; simp [emits]
        rw [hla, show isCode ls j = false by simp [isCode, hget]]
        simp only [Bool.false_eq_true, if_false, List.nil_append]
        exact ⟨cis, h1, h2⟩
    · have hla : linkedAt val ls .text j = [] := by
        unfold linkedAt; rw [hget]; simp [hs]
      rw [hla, show isCode ls j = false by simp [isCode, hs]]
      simp only [Bool.false_eq_true, if_false, List.nil_append]
      exact ⟨cis, h1, h2⟩

theorem linkedTo_drop {ls : List Line} (h : RelocsOk ls) (val : Str → Nat) (x : Section) {j d : Nat}
    (hj : j + d = ls.length) : (linkedTo val ls x ls.length).drop (content ls x j).length =
      (List.range' j d).flatMap (linkedAt val ls x) := by
  have : linkedTo val ls x ls.length = linkedTo val ls x j ++ (List.range' j d).flatMap (linkedAt val ls x) := by
    unfold linkedTo
    rw [← List.flatMap_append, ← hj, List.range_eq_range', List.range_eq_range', ← List.range'_append_1]
    simp
  rw [this, ← length_linkedTo h val x j, List.drop_left]

end AT.Asm
