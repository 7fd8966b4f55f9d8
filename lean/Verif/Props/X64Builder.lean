import Verif.Props.X64Encoder
import Verif.Spec.X64Builder
/-!
# Properties of the encoder's builder methods and of the parts of an instruction (C88)
-/

namespace AT.Props
open AT.X64
open X86 (RegArg RmArg ImmArg Call lastOf lowFirst)

/-! ## Running a sequence of calls -/

/-- The conversion `From<I> for BytesAtMost<8>` of an immediate. -/
def convImm : ImmArg → Res (BytesAtMost 8)
  | .array bs => BytesAtMost.ofArray 8 bs
  | .u8 n => BytesAtMost.ofU8 8 n
  | .u16 n => BytesAtMost.ofU16 8 n
  | .u32 n => BytesAtMost.ofU32 8 n
  | .u64 n => BytesAtMost.ofU64 8 n

/-- Continue with the encoder that `mod_rm(r, m)` returns; its type depends on the operands. -/
def onModRm {α R RM : Type} (e : Encoder R RM) (r : RegArg) (m : RmArg)
    (k : {R' RM' : Type} → [RegLike R'] → [RegMemLike RM'] → Encoder R' RM' → α) : α :=
  match r, m with
  | .r64 r, .r64 m => k (e.withModRm r m)
  | .r64 r, .r32 m => k (e.withModRm r m)
  | .r64 r, .r16 m => k (e.withModRm r m)
  | .r64 r, .mem m => k (e.withModRm r m)
  | .r32 r, .r64 m => k (e.withModRm r m)
  | .r32 r, .r32 m => k (e.withModRm r m)
  | .r32 r, .r16 m => k (e.withModRm r m)
  | .r32 r, .mem m => k (e.withModRm r m)
  | .r16 r, .r64 m => k (e.withModRm r m)
  | .r16 r, .r32 m => k (e.withModRm r m)
  | .r16 r, .r16 m => k (e.withModRm r m)
  | .r16 r, .mem m => k (e.withModRm r m)
  | .ext r, .r64 m => k (e.withModRm r m)
  | .ext r, .r32 m => k (e.withModRm r m)
  | .ext r, .r16 m => k (e.withModRm r m)
  | .ext r, .mem m => k (e.withModRm r m)

/-- Make the calls one after the other on the encoder `e`, then call `encode`. -/
def runCalls : List Call → {R RM : Type} → [RegLike R] → [RegMemLike RM] → Encoder R RM →
    Res (BytesAtMost 15)
  | [], _, _, _, _, e => e.encode
  | .pfx p :: cs, _, _, _, _, e => runCalls cs (e.withPrefix p)
  | .rexW w :: cs, _, _, _, _, e => runCalls cs (e.withRexW w)
  | .rexB b :: cs, _, _, _, _, e => runCalls cs (e.withRexB b)
  | .opcode bs :: cs, _, _, _, _, e => (e.withOpcode bs).bind (fun e => runCalls cs e)
  | .modRm r m :: cs, _, _, _, _, e => onModRm e r m (runCalls cs)
  | .imm v :: cs, _, _, _, _, e => (convImm v).bind (fun i => runCalls cs (e.withImm i))

/-- `Encoder::new()`, the calls, `encode()`. -/
def build (cs : List Call) : Res (BytesAtMost 15) := Encoder.new.bind (fun e => runCalls cs e)

/-! ## The last call of a kind counts -/

theorem lowFirst_eq (k n : Nat) : lowFirst k n = leBytes k n := by
  induction k generalizing n with
  | zero => rfl
  | succ k ih =>
    rw [leBytes, ← ih]
    simp only [lowFirst, List.range_succ_eq_map, List.map_cons, List.map_map, Nat.pow_zero, Nat.div_one]
    congr 1
    apply List.map_congr_left
    intro i _
    simp only [Function.comp, Nat.pow_succ, Nat.div_div_eq_div_mul, Nat.mul_comm 256]

theorem convImm_eq (v : ImmArg) :
    convImm v = if v.bytes.length ≤ 8 then
      .ok ⟨v.bytes ++ List.replicate (8 - v.bytes.length) 0, v.bytes.length⟩ else .error .panic := by
  cases v with
  | array bs => exact ofArray_eq 8 bs
  | u8 n =>
    have e : leBytes 1 n.toNat = [n] := by simp [leBytes]
    simp [convImm, BytesAtMost.ofU8, ofArray_eq, rassert, bind, Except.bind, ImmArg.bytes, lowFirst_eq, e]
  | u16 n =>
    simp [convImm, BytesAtMost.ofU16, withLen_eq, overwrite_eq, rassert, bind, Except.bind, ImmArg.bytes,
      lowFirst_eq, length_leBytes]
  | u32 n =>
    simp [convImm, BytesAtMost.ofU32, withLen_eq, overwrite_eq, rassert, bind, Except.bind, ImmArg.bytes,
      lowFirst_eq, length_leBytes]
  | u64 n =>
    simp [convImm, BytesAtMost.ofU64, withLen_eq, overwrite_eq, rassert, bind, Except.bind, ImmArg.bytes,
      lowFirst_eq, length_leBytes]

theorem lastOf_cons {α : Type} (part : Call → Option α) (c : Call) (cs : List Call) :
    lastOf part (c :: cs) = (lastOf part cs <|> part c) := by
  unfold lastOf
  cases h : part c with
  | none => rw [List.filterMap_cons_none h]; cases (cs.filterMap part).getLast? <;> rfl
  | some a =>
    rw [List.filterMap_cons_some h, List.getLast?_cons]
    cases (cs.filterMap part).getLast? <;> rfl

/-- The buffer that holds `bs`. -/
def bufOf (M : Nat) (bs : Bytes) : BytesAtMost M := ⟨bs ++ List.replicate (M - bs.length) 0, bs.length⟩

theorem bufOf_full {M : Nat} {bs : Bytes} (h : bs.length ≤ M) : (bufOf M bs).Full :=
  ⟨by simp [bufOf]; omega, h⟩

theorem bufOf_asRef (M : Nat) (bs : Bytes) : (bufOf M bs).asRef = bs := by
  simp [bufOf, BytesAtMost.asRef]

/-- The operands of `e` are `rm`, whatever the other parts are. -/
def Operands {R RM : Type} [RegLike R] [RegMemLike RM] (e : Encoder R RM) (rm : Option (RegArg × RmArg)) :
    Prop :=
  ∀ p w b op im, (⟨p, w, b, op, e.modRm, im⟩ : Encoder R RM).encode = runEncoder p w b op im rm

theorem onModRm_eq {α R RM : Type} (e : Encoder R RM) (r : RegArg) (m : RmArg)
    (k : {R' RM' : Type} → [RegLike R'] → [RegMemLike RM'] → Encoder R' RM' → α) (out : α)
    (h : ∀ {R' RM' : Type} [RegLike R'] [RegMemLike RM'] (e' : Encoder R' RM'),
      e'.pfx = e.pfx → e'.rexW = e.rexW → e'.rexB = e.rexB → e'.opcode = e.opcode → e'.imm = e.imm →
      Operands e' (some (r, m)) → k e' = out) :
    onModRm e r m k = out := by
  cases r <;> cases m <;> exact h _ rfl rfl rfl rfl rfl (fun _ _ _ _ _ => rfl)

theorem runCalls_eq (cs : List Call) {R RM : Type} [RegLike R] [RegMemLike RM] (e : Encoder R RM)
    (rm : Option (RegArg × RmArg)) (he : Operands e rm) (hc : ∀ c ∈ cs, ¬ c.TooLong) :
    runCalls cs e = runEncoder (lastOf Call.pfx? cs <|> e.pfx) ((lastOf Call.rexW? cs).getD e.rexW)
      ((lastOf Call.rexB? cs).getD e.rexB) (((lastOf Call.opcode? cs).map (bufOf 3)).getD e.opcode)
      (((lastOf Call.imm? cs).map (bufOf 8)).getD e.imm) (lastOf Call.modRm? cs <|> rm) := by
  induction cs generalizing R RM rm with
  | nil => exact he _ _ _ _ _
  | cons c cs ih =>
    have hcs : ∀ c ∈ cs, ¬ c.TooLong := fun x hx => hc x (List.mem_cons_of_mem _ hx)
    have hc0 : ¬ c.TooLong := hc c (List.mem_cons_self ..)
    simp only [lastOf_cons]
    cases c with
    | pfx p =>
      rw [runCalls, ih (e.withPrefix p) rm (fun _ _ _ _ _ => he _ _ _ _ _) hcs]
      simp only [Encoder.withPrefix, Call.pfx?, Call.rexW?, Call.rexB?, Call.opcode?, Call.imm?, Call.modRm?]
      cases lastOf Call.pfx? cs <;> simp
    | rexW w =>
      rw [runCalls, ih (e.withRexW w) rm (fun _ _ _ _ _ => he _ _ _ _ _) hcs]
      simp only [Encoder.withRexW, Call.pfx?, Call.rexW?, Call.rexB?, Call.opcode?, Call.imm?, Call.modRm?]
      cases lastOf Call.rexW? cs <;> simp
    | rexB b =>
      rw [runCalls, ih (e.withRexB b) rm (fun _ _ _ _ _ => he _ _ _ _ _) hcs]
      simp only [Encoder.withRexB, Call.pfx?, Call.rexW?, Call.rexB?, Call.opcode?, Call.imm?, Call.modRm?]
      cases lastOf Call.rexB? cs <;> simp
    | opcode bs =>
      have hl : bs.length ≤ 3 := Nat.le_of_not_lt (fun h => hc0 (.inl ⟨bs, rfl, h⟩))
      have ho : e.withOpcode bs = .ok { e with opcode := bufOf 3 bs } := by
        simp [Encoder.withOpcode, ofArray_eq, hl, bind, Except.bind, pure, Except.pure, bufOf]
      rw [runCalls, ho]
      simp only [Except.bind]
      rw [ih { e with opcode := bufOf 3 bs } rm (fun _ _ _ _ _ => he _ _ _ _ _) hcs]
      simp only [Call.pfx?, Call.rexW?, Call.rexB?, Call.opcode?, Call.imm?, Call.modRm?]
      cases lastOf Call.opcode? cs <;> simp
    | modRm r m =>
      rw [runCalls]
      refine onModRm_eq e r m _ _ (fun e' h1 h2 h3 h4 h5 h6 => ?_)
      rw [ih e' _ h6 hcs, h1, h2, h3, h4, h5]
      simp only [Call.pfx?, Call.rexW?, Call.rexB?, Call.opcode?, Call.imm?, Call.modRm?]
      cases lastOf Call.modRm? cs <;> simp
    | imm v =>
      have hl : v.bytes.length ≤ 8 := Nat.le_of_not_lt (fun h => hc0 (.inr ⟨v.bytes, rfl, h⟩))
      have ho : convImm v = .ok (bufOf 8 v.bytes) := by rw [convImm_eq, if_pos hl]; rfl
      rw [runCalls, ho]
      simp only [Except.bind]
      rw [ih (e.withImm (bufOf 8 v.bytes)) rm (fun _ _ _ _ _ => he _ _ _ _ _) hcs]
      simp only [Encoder.withImm, Call.pfx?, Call.rexW?, Call.rexB?, Call.opcode?, Call.imm?, Call.modRm?]
      cases lastOf Call.imm? cs <;> simp

theorem runCalls_panic (cs : List Call) {R RM : Type} [RegLike R] [RegMemLike RM] (e : Encoder R RM)
    (hc : ∃ c ∈ cs, c.TooLong) : runCalls cs e = .error .panic := by
  induction cs generalizing R RM with
  | nil => simp at hc
  | cons c cs ih =>
    by_cases h : ∃ c ∈ cs, c.TooLong
    · cases c with
      | pfx p => rw [runCalls, ih _ h]
      | rexW w => rw [runCalls, ih _ h]
      | rexB b => rw [runCalls, ih _ h]
      | opcode bs =>
        rw [runCalls]
        unfold Encoder.withOpcode
        rw [ofArray_eq]
        split
        · simp only [bind, Except.bind, pure, Except.pure]; exact ih _ h
        · rfl
      | modRm r m => rw [runCalls]; exact onModRm_eq e r m _ _ (fun e' _ _ _ _ _ _ => ih e' h)
      | imm v =>
        rw [runCalls, convImm_eq]
        split
        · simp only [Except.bind]; exact ih _ h
        · rfl
    · obtain ⟨x, hx, ht⟩ := hc
      have hxc : x = c := by
        rcases List.mem_cons.1 hx with hx | hx
        · exact hx
        · exact absurd ⟨x, hx, ht⟩ h
      subst hxc
      rcases ht with ⟨bs, hb, hl⟩ | ⟨bs, hb, hl⟩
      · cases x <;> simp [Call.opcode?] at hb
        subst hb
        rw [runCalls]
        unfold Encoder.withOpcode
        rw [ofArray_eq, if_neg (by omega)]
        rfl
      · cases x <;> simp [Call.imm?] at hb
        subst hb
        rw [runCalls, convImm_eq, if_neg (by omega)]
        rfl

/-! ## C88 -/

/-- C88: the instruction built by a sequence of builder calls.  It panics if an opcode of more than 3
bytes or an immediate of more than 8 is given; otherwise it is what C12 says about the encoder whose
parts are those given by the last call of each kind, and nothing else. -/
theorem C88_calls (cs : List Call) :
    ((∃ c ∈ cs, c.TooLong) → build cs = .error .panic) ∧
    ((∀ c ∈ cs, ¬ c.TooLong) → ∃ op imm, op.Full ∧ imm.Full ∧
      op.asRef = (lastOf Call.opcode? cs).getD [] ∧ imm.asRef = (lastOf Call.imm? cs).getD [] ∧
      EncoderSpec (build cs) (lastOf Call.pfx? cs) ((lastOf Call.rexW? cs).getD false)
        ((lastOf Call.rexB? cs).getD false) op imm (lastOf Call.modRm? cs)) := by
  have hn : Encoder.new = .ok ⟨none, false, false, bufOf 3 [], none, bufOf 8 []⟩ := rfl
  constructor
  · intro h
    rw [build, hn]
    exact runCalls_panic cs _ h
  · intro h
    have hr := runCalls_eq cs (⟨none, false, false, bufOf 3 [], none, bufOf 8 []⟩ : Encoder Reg64 Mem64) none
      (fun _ _ _ _ _ => rfl) h
    have len {k : Nat} {part : Call → Option Bytes} (hp : ∀ c ∈ cs, ∀ bs, part c = some bs → bs.length ≤ k) :
        ∃ bs, bs.length ≤ k ∧ ((lastOf part cs).map (bufOf k)).getD (bufOf k []) = bufOf k bs ∧
          bs = (lastOf part cs).getD [] := by
      cases hl : lastOf part cs with
      | none => exact ⟨[], by simp, rfl, rfl⟩
      | some bs =>
        have hm := List.mem_of_getLast? hl
        obtain ⟨c, hc, hb⟩ := List.mem_filterMap.1 hm
        exact ⟨bs, hp c hc bs hb, rfl, rfl⟩
    obtain ⟨op, o1, o2, o3⟩ := len (k := 3) (part := Call.opcode?) (fun c hc bs hb =>
      Nat.le_of_not_lt (fun hl => h c hc (.inl ⟨bs, hb, hl⟩)))
    obtain ⟨im, i1, i2, i3⟩ := len (k := 8) (part := Call.imm?) (fun c hc bs hb =>
      Nat.le_of_not_lt (fun hl => h c hc (.inr ⟨bs, hb, hl⟩)))
    refine ⟨bufOf 3 op, bufOf 8 im, bufOf_full o1, bufOf_full i1, ?_, ?_, ?_⟩
    · rw [bufOf_asRef, o3]
    · rw [bufOf_asRef, i3]
    · rw [build, hn]
      simp only [Except.bind]
      rw [hr, o2, i2]
      have e1 : (lastOf Call.pfx? cs <|> none) = lastOf Call.pfx? cs := by cases lastOf Call.pfx? cs <;> rfl
      have e2 : (lastOf Call.modRm? cs <|> none) = lastOf Call.modRm? cs := by
        cases lastOf Call.modRm? cs <;> rfl
      rw [e1, e2]
      exact C12_encoder _ _ _ _ _ _ (bufOf_full o1) (bufOf_full i1)

/-- C88: only the last call of each kind counts, so calls of different kinds can be made in any order. -/
theorem C88_order (cs cs' : List Call) (h : ∀ c ∈ cs, ¬ c.TooLong) (h' : ∀ c ∈ cs', ¬ c.TooLong)
    (hp : lastOf Call.pfx? cs = lastOf Call.pfx? cs') (hw : lastOf Call.rexW? cs = lastOf Call.rexW? cs')
    (hb : lastOf Call.rexB? cs = lastOf Call.rexB? cs')
    (ho : lastOf Call.opcode? cs = lastOf Call.opcode? cs')
    (hi : lastOf Call.imm? cs = lastOf Call.imm? cs') (hm : lastOf Call.modRm? cs = lastOf Call.modRm? cs') :
    build cs = build cs' := by
  have hn : Encoder.new = .ok ⟨none, false, false, bufOf 3 [], none, bufOf 8 []⟩ := rfl
  have hr := runCalls_eq cs (⟨none, false, false, bufOf 3 [], none, bufOf 8 []⟩ : Encoder Reg64 Mem64) none
    (fun _ _ _ _ _ => rfl) h
  have hr' := runCalls_eq cs' (⟨none, false, false, bufOf 3 [], none, bufOf 8 []⟩ : Encoder Reg64 Mem64) none
    (fun _ _ _ _ _ => rfl) h'
  rw [build, build, hn]
  simp only [Except.bind]
  rw [hr, hr', hp, hw, hb, ho, hi, hm]

/-- `mov r9, 0x0102030405060708` from calls in an unusual order, one of them made twice; and an opcode
of 4 bytes. -/
example :
    (build [.imm (.u64 0x0102030405060708), .opcode [0xFF], .rexB true, .rexW true, .opcode [0xB9]]).map
      BytesAtMost.asRef = .ok [0x49, 0xB9, 8, 7, 6, 5, 4, 3, 2, 1] ∧
    build [.opcode [1, 2, 3, 4], .opcode [0xC3]] = .error .panic ∧
    (build [.modRm (.r64 .R8) (.mem (.ripOffset 16)), .pfx 0x66, .opcode [0x8B],
      .modRm (.r16 .CX) (.mem (.regOffset .R13 0))]).map BytesAtMost.asRef =
      .ok [0x66, 0x41, 0x8B, 0x4D, 0] := by decide +kernel

/-- C88 for the SIB byte: its three fields are the numbers given, and it panics exactly if one does not
fit. -/
theorem C88_sib (scale index base : UInt8) :
    (∀ s, Sib.new scale index base = .ok s →
      (s.byte.toNat / 64, s.byte.toNat / 8 % 8, s.byte.toNat % 8) = (scale.toNat, index.toNat, base.toNat)) ∧
    (Sib.new scale index base = .error .panic ↔ 3 < scale.toNat ∨ 7 < index.toNat ∨ 7 < base.toNat) := by
  have hs : scale = UInt8.ofNat scale.toNat := by simp
  have hi : index = UInt8.ofNat index.toNat := by simp
  have hb : base = UInt8.ofNat base.toNat := by simp
  have e3 : scale ≤ 3 ↔ scale.toNat ≤ 3 := UInt8.le_iff_toNat_le
  have e7 : index ≤ 7 ↔ index.toNat ≤ 7 := UInt8.le_iff_toNat_le
  have f7 : base ≤ 7 ↔ base.toNat ≤ 7 := UInt8.le_iff_toNat_le
  by_cases h1 : scale ≤ 3
  · by_cases h2 : index ≤ 7
    · by_cases h3 : base ≤ 7
      · have n1 := e3.1 h1
        have n2 := e7.1 h2
        have n3 := f7.1 h3
        constructor
        · intro s h
          simp only [Sib.new, rassert, h1, h2, h3, decide_true, if_true, bind, Except.bind, pure, Except.pure,
            Except.ok.injEq] at h
          subst h
          have := (by decide +kernel : ∀ (a : Fin 4) (b c : Fin 8),
            let x := ((UInt8.ofNat a <<< (6 : UInt8)) ||| (UInt8.ofNat b <<< (3 : UInt8)) ||| UInt8.ofNat c).toNat
            (x / 64, x / 8 % 8, x % 8) = (a.val, b.val, c.val)) ⟨scale.toNat, by omega⟩ ⟨index.toNat, by omega⟩
              ⟨base.toNat, by omega⟩
          simp only [← hs, ← hi, ← hb] at this
          exact this
        · have hv : ∃ x, Sib.new scale index base = .ok x :=
            ⟨_, by simp only [Sib.new, rassert, h1, h2, h3, decide_true, if_true, bind, Except.bind, pure, Except.pure]; rfl⟩
          obtain ⟨x, hv⟩ := hv
          rw [hv]
          exact ⟨fun h => (by cases h), fun h => (by omega)⟩
      · have hv : Sib.new scale index base = .error .panic := by
          simp [Sib.new, rassert, h1, h2, h3, bind, Except.bind]
        rw [hv]
        exact ⟨fun s h => (by cases h), fun _ => (by rw [f7] at h3; omega), fun _ => rfl⟩
    · have hv : Sib.new scale index base = .error .panic := by
        simp [Sib.new, rassert, h1, h2, bind, Except.bind]
      rw [hv]
      exact ⟨fun s h => (by cases h), fun _ => (by rw [e7] at h2; omega), fun _ => rfl⟩
  · have hv : Sib.new scale index base = .error .panic := by
      simp [Sib.new, rassert, h1, bind, Except.bind]
    rw [hv]
    exact ⟨fun s h => (by cases h), fun _ => (by rw [e3] at h1; omega), fun _ => rfl⟩

/-- C88 for the whole: the parts that are there follow each other in the order prefix, REX, opcode, ModRM,
SIB, displacement, immediate; more than 15 bytes are refused. -/
theorem C88_parts (b : ByteCode) (ho : b.opcode.Full) (hd : b.addrDisp.Full) (hi : b.imm.Full) :
    let all := b.pfx.toList ++ (b.rex.map Rex.byte).toList ++ b.opcode.asRef ++
      (b.modRm.map ModRM.byte).toList ++ (b.sib.map Sib.byte).toList ++ b.addrDisp.asRef ++ b.imm.asRef
    (all.length ≤ 15 → Holds b.toBytes all) ∧ (15 < all.length → b.toBytes = .error .panic) := by
  have opt {α : Type} (f : α → UInt8) (o : Option α) :
      optByte f o = (o.map f).toList ∧ ((o.map f).toList).length = optLen o := by cases o <;> exact ⟨rfl, rfl⟩
  have optId (o : Option UInt8) : optByte id o = o.toList ∧ o.toList.length = optLen o := by
    cases o <;> exact ⟨rfl, rfl⟩
  intro all
  have hlen : optLen b.pfx + optLen b.rex + b.opcode.len + optLen b.modRm + optLen b.sib +
      b.addrDisp.len + b.imm.len = all.length := by
    simp only [all, List.length_append, (opt _ _).2, (optId _).2, BytesAtMost.length_asRef ho,
      BytesAtMost.length_asRef hd, BytesAtMost.length_asRef hi]
  have hrun : b.toBytes = (BytesAtMost.withLen 15 all.length).bind (fun x => x.overwrite all) := by
    simp only [ByteCode.toBytes, hlen, (opt _ _).1, Option.map_id]
    rfl
  rw [hrun, withLen_eq]
  constructor
  · intro h
    rw [if_pos h]
    simp only [Except.bind, overwrite_eq, Nat.le_refl, if_true]
    exact ⟨_, rfl, rfl, by simp [BytesAtMost.asRef]⟩
  · intro h
    rw [if_neg (by omega)]
    rfl

end AT.Props
