import Verif.Spec.X86Run
/-!
# The processor runs what the disassembly says
-/

namespace X86

/-- `f` reads at most `n` bytes and does not look further. -/
def Local {α : Type} (n : Nat) (f : List UInt8 → Option (α × List UInt8)) : Prop :=
  ∀ bs a rest, f bs = some (a, rest) → ∃ p, bs = p ++ rest ∧ p.length ≤ n ∧ ∀ r, f (p ++ r) = some (a, r)

theorem local_take (k : Nat) : Local k (take k) := by
  intro bs a rest h
  unfold take at h
  split at h
  · rename_i hk
    cases h
    refine ⟨bs.take k, by simp, by simp [Nat.min_le_left], fun r => ?_⟩
    have : (bs.take k).length = k := by simp [hk]
    unfold take
    rw [if_pos (by simp; omega), List.take_left' this, List.drop_left' this]
  · cases h

theorem Local.bind {α β : Type} {n m : Nat} {f : List UInt8 → Option (α × List UInt8)}
    {g : α → List UInt8 → Option (β × List UInt8)} (hf : Local n f) (hg : ∀ a, Local m (g a)) :
    Local (n + m) (fun bs => f bs >>= fun p => g p.1 p.2) := by
  intro bs b rest h
  simp only [Option.bind_eq_bind, Option.bind_eq_some_iff] at h
  obtain ⟨⟨a, mid⟩, h1, h2⟩ := h
  obtain ⟨p, rfl, hp, hp'⟩ := hf _ _ _ h1
  obtain ⟨q, rfl, hq, hq'⟩ := hg a _ _ _ h2
  refine ⟨p ++ q, by simp, by simp; omega, fun r => ?_⟩
  simp only [List.append_assoc, hp', Option.bind_eq_bind, Option.bind_some, hq']

theorem Local.mono {α : Type} {n m : Nat} {f : List UInt8 → Option (α × List UInt8)} (h : Local n f)
    (hn : n ≤ m) : Local m f := by
  intro bs a rest hb
  obtain ⟨p, h1, h2, h3⟩ := h bs a rest hb
  exact ⟨p, h1, by omega, h3⟩

theorem local_some {α : Type} (a : α) (n : Nat) : Local n (fun bs => some (a, bs)) := by
  intro bs b rest h
  cases h
  exact ⟨[], rfl, by simp, fun r => rfl⟩

theorem local_none {α : Type} (n : Nat) : Local (α := α) n (fun _ => none) := by
  intro bs b rest h
  cases h

/-- One byte, then something depending on it. -/
theorem local_head {α : Type} {n : Nat} {f : UInt8 → List UInt8 → Option (α × List UInt8)}
    (h : ∀ b, Local n (f b)) : Local (n + 1) (fun bs => match bs with | [] => none | b :: bs => f b bs) := by
  intro bs a rest hb
  cases bs with
  | nil => cases hb
  | cons b bs =>
    obtain ⟨p, rfl, h2, h3⟩ := h b _ _ _ hb
    exact ⟨b :: p, rfl, by simp; omega, fun r => h3 r⟩

theorem local_disp (size : Nat) : Local size (takeDisp size) := by
  unfold takeDisp
  cases size with
  | zero => exact local_some _ _
  | succ k => exact ((local_take (k + 1)).bind (m := 0) (g := fun d bs => some (signed (8 * (k + 1)) (leNat d), bs))
      fun d => local_some _ _).mono (by omega)

theorem local_mem (rex : Rex) (md rm : Nat) : Local 5 (takeMem rex md rm) := by
  have hd : dispSize md ≤ 4 := by unfold dispSize; split <;> (try split) <;> omega
  unfold takeMem
  split
  · refine (local_head (n := 4) fun b => ?_).mono (by omega)
    simp only
    split
    · exact ((local_disp 4).bind (m := 0) fun d => local_some _ _)
    · exact (((local_disp _).bind (m := 0) fun d => local_some _ _)).mono (by omega)
  · split
    · exact ((local_disp 4).bind (m := 0) fun d => local_some _ _).mono (by omega)
    · exact (((local_disp _).bind (m := 0) fun d => local_some _ _)).mono (by omega)

/-- `takeModRM` with the results paired. -/
def modRM (rex : Rex) (bs : List UInt8) : Option ((Nat × (Nat ⊕ MemRef)) × List UInt8) :=
  (takeModRM rex bs).map fun p => ((p.1, p.2.1), p.2.2)

theorem local_modRM (rex : Rex) : Local 6 (modRM rex) := by
  have : modRM rex = fun bs => match bs with
    | [] => none
    | m :: bs => if m.toNat / 64 = 3 then some ((m.toNat / 8 % 8 + ext rex.r, .inl (m.toNat % 8 + ext rex.b)), bs)
      else takeMem rex (m.toNat / 64) (m.toNat % 8) bs >>= fun p => some ((m.toNat / 8 % 8 + ext rex.r, .inr p.1), p.2) := by
    funext bs
    cases bs with
    | nil => rfl
    | cons m bs =>
      simp only [modRM, takeModRM]
      split
      · rfl
      · simp only [Option.bind_eq_bind]
        cases takeMem rex (m.toNat / 64) (m.toNat % 8) bs <;> rfl
  rw [this]
  refine local_head (n := 5) fun b => ?_
  by_cases h : b.toNat / 64 = 3
  · simp only [h, if_true]; exact local_some _ _
  · simp only [h, if_false]
    exact (Local.bind (n := 5) (m := 0) (local_mem _ _ _) (g := fun m bs =>
      some ((b.toNat / 8 % 8 + ext rex.r, Sum.inr m), bs)) fun d => local_some _ _)

theorem bind_modRM {α : Type} (rex : Rex) (bs : List UInt8)
    (f : Nat → Nat ⊕ MemRef → List UInt8 → Option α) :
    (takeModRM rex bs >>= fun p => f p.1 p.2.1 p.2.2) = (modRM rex bs >>= fun p => f p.1.1 p.1.2 p.2) := by
  unfold modRM
  cases takeModRM rex bs <;> rfl

theorem local_op (p66 : Bool) (rex : Rex) : Local 9 (decodeOp p66 rex) := by
  have hw : (opSize p66 rex).bytes ≤ 8 := by
    unfold opSize; split <;> (try split) <;> decide
  have hk : (if p66 && !rex.w then 2 else 4) ≤ 4 := by split <;> omega
  have : decodeOp p66 rex = fun bs => match bs with
      | [] => none
      | b :: bs => decodeOp p66 rex (b :: bs) := by
    funext bs; cases bs <;> rfl
  rw [this]
  refine local_head (n := 8) fun b => ?_
  clear this
  simp only [decodeOp]
  by_cases h1 : b.toNat = 0x89
  · have := fun bs => bind_modRM rex bs (fun (reg : Nat) (rm : Nat ⊕ MemRef) bs => match rm with
      | .inl r => some (Inst.movRegReg (opSize p66 rex) r reg, bs)
      | .inr m => some (Inst.movMemReg (opSize p66 rex) m reg, bs))
    simp only [h1, if_true]
    refine Eq.mp (congrArg (Local 8) (funext this).symm) ?_
    refine Local.mono (n := 6 + 0) ((local_modRM rex).bind (m := 0) (g := fun (a : Nat × (Nat ⊕ MemRef)) bs => match a.2 with
      | .inl r => some (Inst.movRegReg (opSize p66 rex) r a.1, bs)
      | .inr m => some (Inst.movMemReg (opSize p66 rex) m a.1, bs)) fun a => ?_) (by omega)
    rcases a with ⟨a, r | m⟩ <;> exact local_some _ _
  simp only [h1, if_false]
  by_cases h2 : b.toNat = 0x8B
  · have := fun bs => bind_modRM rex bs (fun (reg : Nat) (rm : Nat ⊕ MemRef) bs => match rm with
      | .inl r => some (Inst.movRegReg (opSize p66 rex) reg r, bs)
      | .inr m => some (Inst.movRegMem (opSize p66 rex) reg m, bs))
    simp only [h2, if_true]
    refine Eq.mp (congrArg (Local 8) (funext this).symm) ?_
    refine Local.mono (n := 6 + 0) ((local_modRM rex).bind (m := 0) (g := fun (a : Nat × (Nat ⊕ MemRef)) bs => match a.2 with
      | .inl r => some (Inst.movRegReg (opSize p66 rex) a.1 r, bs)
      | .inr m => some (Inst.movRegMem (opSize p66 rex) a.1 m, bs)) fun a => ?_) (by omega)
    rcases a with ⟨a, r | m⟩ <;> exact local_some _ _
  simp only [h2, if_false]
  by_cases h3 : b.toNat = 0x8D
  · have := fun bs => bind_modRM rex bs (fun (reg : Nat) (rm : Nat ⊕ MemRef) bs => match rm with
      | .inl _ => none
      | .inr m => some (Inst.lea (opSize p66 rex) reg m, bs))
    simp only [h3, if_true]
    refine Eq.mp (congrArg (Local 8) (funext this).symm) ?_
    refine Local.mono (n := 6 + 0) ((local_modRM rex).bind (m := 0) (g := fun (a : Nat × (Nat ⊕ MemRef)) bs => match a.2 with
      | .inl _ => none
      | .inr m => some (Inst.lea (opSize p66 rex) a.1 m, bs)) fun a => ?_) (by omega)
    rcases a with ⟨a, r | m⟩
    · exact local_none _
    · exact local_some _ _
  simp only [h3, if_false]
  by_cases h4 : b.toNat / 8 = 0xB8 / 8
  · simp only [h4, if_true]
    exact ((local_take _).bind (m := 0) (g := fun d bs => some (Inst.movRegImm (opSize p66 rex)
      (b.toNat % 8 + ext rex.b) (leNat d), bs)) fun d => local_some _ _).mono (by omega)
  simp only [h4, if_false]
  by_cases h5 : b.toNat / 8 = 0x50 / 8
  · simp only [h5, if_true]; exact local_some _ _
  simp only [h5, if_false]
  by_cases h6 : b.toNat / 8 = 0x58 / 8
  · simp only [h6, if_true]; exact local_some _ _
  simp only [h6, if_false]
  by_cases h7 : b.toNat = 0x6A
  · simp only [h7, if_true]
    exact ((local_take 1).bind (m := 0) (g := fun d bs => some (Inst.pushImm (stackSize p66 rex)
      (signed 8 (leNat d)), bs)) fun d => local_some _ _).mono (by omega)
  simp only [h7, if_false]
  by_cases h8 : b.toNat = 0x68
  · simp only [h8, if_true]
    exact ((local_take _).bind (m := 0) (g := fun d bs => some (Inst.pushImm (stackSize p66 rex)
      (signed (8 * (if p66 && !rex.w then 2 else 4)) (leNat d)), bs)) fun d => local_some _ _).mono (by omega)
  simp only [h8, if_false]
  by_cases h9 : b.toNat = 0xC3
  · simp only [h9, if_true]
    cases p66
    · exact local_some _ _
    · exact local_none _
  simp only [h9, if_false]
  by_cases h10 : b.toNat = 0x0F
  · simp only [h10, if_true]
    refine (local_head (n := 0) (f := fun op2 bs => if op2.toNat = 0x05 then some (Inst.syscall, bs) else none)
      fun c => ?_).mono (by omega)
    by_cases h11 : c.toNat = 5
    · simp only [h11, if_true]; exact local_some _ _
    · simp only [h11, if_false]; exact local_none _
  · simp only [h10, if_false]; exact local_none _

/-- Decoding reads at least one and at most 15 bytes and does not look further. -/
theorem decode_local {bs rest : List UInt8} {i : Inst} (h : decode bs = some (i, rest)) :
    ∃ p, bs = p ++ rest ∧ p ≠ [] ∧ p.length ≤ 15 ∧ ∀ r, decode (p ++ r) = some (i, r) := by
  have op : ∀ p66 rex bs, decodeOp p66 rex bs = some (i, rest) → ∃ p, bs = p ++ rest ∧ p ≠ [] ∧ p.length ≤ 9 ∧
      ∀ r, decodeOp p66 rex (p ++ r) = some (i, r) := by
    intro p66 rex bs h
    obtain ⟨p, rfl, h2, h3⟩ := local_op p66 rex _ _ _ h
    refine ⟨p, rfl, ?_, h2, h3⟩
    rintro rfl
    have := h3 []
    simp [decodeOp] at this
  have rx : ∀ p66 bs, decodeOp p66 (takeRex bs).1 (takeRex bs).2 = some (i, rest) → ∃ p, bs = p ++ rest ∧ p ≠ [] ∧
      p.length ≤ 10 ∧ ∀ r, decodeOp p66 (takeRex (p ++ r)).1 (takeRex (p ++ r)).2 = some (i, r) := by
    intro p66 bs h
    cases bs with
    | nil => simp [takeRex, decodeOp] at h
    | cons b bs =>
      by_cases hb : b.toNat / 16 = 4
      · simp only [takeRex, hb, if_true] at h
        obtain ⟨p, rfl, h2, h3, h4⟩ := op _ _ _ h
        refine ⟨b :: p, rfl, by simp, by simp; omega, fun r => ?_⟩
        simp only [List.cons_append, takeRex, hb, if_true]
        exact h4 r
      · simp only [takeRex, hb, if_false] at h
        obtain ⟨p, hp, h2, h3, h4⟩ := op _ _ _ h
        cases p with
        | nil => exact absurd rfl h2
        | cons c p =>
          simp only [List.cons_append, List.cons.injEq] at hp
          obtain ⟨rfl, rfl⟩ := hp
          refine ⟨b :: p, rfl, by simp, by omega, fun r => ?_⟩
          simp only [List.cons_append, takeRex, hb, if_false]
          exact h4 r
  unfold decode at h ⊢
  cases bs with
  | nil => simp [take66, takeRex, decodeOp] at h
  | cons b bs =>
    by_cases hb : b.toNat = 0x66
    · simp only [take66, hb, if_true] at h
      obtain ⟨p, rfl, h2, h3, h4⟩ := rx _ _ h
      refine ⟨b :: p, rfl, by simp, by simp; omega, fun r => ?_⟩
      simp only [List.cons_append, take66, hb, if_true]
      exact h4 r
    · simp only [take66, hb, if_false] at h
      obtain ⟨p, hp, h2, h3, h4⟩ := rx _ _ h
      cases p with
      | nil => exact absurd rfl h2
      | cons c p =>
        simp only [List.cons_append, List.cons.injEq] at hp
        obtain ⟨rfl, rfl⟩ := hp
        refine ⟨b :: p, rfl, by simp, by omega, fun r => ?_⟩
        simp only [List.cons_append, take66, hb, if_false]
        exact h4 r

/-! ## Fetching -/

theorem length_window (mem : BitVec 64 → BitVec 8) (a : BitVec 64) : (window mem a).length = 15 := by
  simp [window]

theorem window_holds {mem : BitVec 64 → BitVec 8} {a : BitVec 64} {p : List UInt8} (hp : p.length ≤ 15)
    (h : Holds mem a p) : ∃ r, window mem a = p ++ r ∧ r.length = 15 - p.length := by
  have e : (window mem a).take p.length = p := by
    apply List.ext_getElem?
    intro i
    rw [List.getElem?_take]
    split
    · rename_i hi
      unfold window
      rw [List.getElem?_map, List.getElem?_range (by omega), List.getElem?_eq_getElem hi]
      have := h i _ (List.getElem?_eq_getElem hi)
      simp [this]
    · rw [List.getElem?_eq_none (by omega)]
  refine ⟨(window mem a).drop p.length, ?_, by simp [length_window]⟩
  conv => lhs; rw [← List.take_append_drop p.length (window mem a), e]

theorem Holds.drop {mem : BitVec 64 → BitVec 8} {a : BitVec 64} {bs : List UInt8} (h : Holds mem a bs) (k : Nat) :
    Holds mem (a + BitVec.ofNat 64 k) (bs.drop k) := by
  intro i b hb
  rw [List.getElem?_drop] at hb
  have := h _ _ hb
  rw [BitVec.add_assoc, ← BitVec.ofNat_add]
  exact this

theorem Holds.prefix {mem : BitVec 64 → BitVec 8} {a : BitVec 64} {p r : List UInt8} (h : Holds mem a (p ++ r)) :
    Holds mem a p := by
  intro i b hb
  refine h i b ?_
  rw [List.getElem?_append_left (List.getElem?_eq_some_iff.1 hb).1]
  exact hb

/-- The processor decodes the instruction that the disassembler sees. -/
theorem fetch {mem : BitVec 64 → BitVec 8} {a : BitVec 64} {bs rest : List UInt8} {i : Inst}
    (h : Holds mem a bs) (hd : decode bs = some (i, rest)) :
    ∃ p r, bs = p ++ rest ∧ decode (window mem a) = some (i, r) ∧ 15 - r.length = p.length := by
  obtain ⟨p, rfl, _, hp, hloc⟩ := decode_local hd
  obtain ⟨r, hr, hl⟩ := window_holds hp h.prefix
  exact ⟨p, r, rfl, by rw [hr, hloc], by omega⟩

theorem exec_rip {i : Inst} (hi : i ≠ .ret) {len : Nat} {s s' : State} (h : exec i len s = some s') :
    s'.rip = s.rip + BitVec.ofNat 64 len := by
  cases i <;> simp [exec, State.setReg, State.push] at h hi <;> subst h <;> rfl

/-- Code in memory runs like the list of its instructions, as long as it is not overwritten. -/
theorem runs_steps {sys : Data → Data → Prop} {base : BitVec 64} {code : List UInt8} {is js : List Inst} {d d' : Data}
    (h : Runs sys (fun d => Holds d.mem base code) is d js d') :
    ∀ off, Disasm (code.drop off) is → ∃ off', Disasm (code.drop off') js ∧
      Steps sys (fun d => Holds d.mem base code) ⟨d.reg, d.mem, base + BitVec.ofNat 64 off⟩
        ⟨d'.reg, d'.mem, base + BitVec.ofNat 64 off'⟩ := by
  induction h with
  | refl hk => exact fun off hd => ⟨off, hd, .refl hk⟩
  | @step i is js d d1 d2 hk he _ ih =>
    intro off hd
    generalize hc : code.drop off = c at hd
    cases hd with
    | cons hdec hrest =>
      rename_i rest
      obtain ⟨p, r, hp, hw, hlen⟩ := fetch (hk.drop off) (hc ▸ hdec)
      have hrest' : rest = code.drop (off + p.length) := by
        rw [← List.drop_drop, hp]; simp
      obtain ⟨off', h1, h2⟩ := ih (off + p.length) (hrest' ▸ hrest)
      refine ⟨off', h1, .step hk ?_ h2⟩
      have hrip : base + BitVec.ofNat 64 (off + p.length) =
          base + BitVec.ofNat 64 off + BitVec.ofNat 64 p.length := by
        rw [BitVec.add_assoc, ← BitVec.ofNat_add]
      cases he with
      | exec hi hx =>
        obtain ⟨s', hs, hs'⟩ := hx (base + BitVec.ofNat 64 off) p.length
        have : (⟨d1.reg, d1.mem, base + BitVec.ofNat 64 (off + p.length)⟩ : State) = s' := by
          rw [hrip, ← hs', ← exec_rip hi hs]
          rfl
        rw [this]
        exact .exec hw (by rw [hlen]; exact hs)
      | sys hs =>
        rw [hrip, ← hlen]
        exact .sys hw hs

theorem runs_keep {sys : Data → Data → Prop} {keep : Data → Prop} {is js : List Inst} {d d' : Data}
    (h : Runs sys keep is d js d') : keep d' := by
  induction h with
  | refl hk => exact hk
  | step _ _ _ ih => exact ih

/-- The instruction has a register-and-memory effect that does not depend on its place. -/
def Portable (i : Inst) : Prop :=
  i = .syscall ∨ i = .ret ∨ ∀ reg mem, ∃ d, ∀ rip len, ∃ s', exec i len ⟨reg, mem, rip⟩ = some s' ∧ s'.data = d

theorem Portable.movRegReg (w : Width) (d r : Nat) : Portable (.movRegReg w d r) :=
  .inr (.inr fun reg mem => ⟨(((exec (.movRegReg w d r) 0 ⟨reg, mem, 0⟩).map State.data).getD ⟨reg, mem⟩), fun _ _ => ⟨_, rfl, rfl⟩⟩)
theorem Portable.movRegImm (w : Width) (d n : Nat) : Portable (.movRegImm w d n) :=
  .inr (.inr fun reg mem => ⟨(((exec (.movRegImm w d n) 0 ⟨reg, mem, 0⟩).map State.data).getD ⟨reg, mem⟩), fun _ _ => ⟨_, rfl, rfl⟩⟩)
theorem Portable.pushReg (w : Width) (r : Nat) : Portable (.pushReg w r) :=
  .inr (.inr fun reg mem => ⟨(((exec (.pushReg w r) 0 ⟨reg, mem, 0⟩).map State.data).getD ⟨reg, mem⟩), fun _ _ => ⟨_, rfl, rfl⟩⟩)
theorem Portable.pushImm (w : Width) (v : Int) : Portable (.pushImm w v) :=
  .inr (.inr fun reg mem => ⟨(((exec (.pushImm w v) 0 ⟨reg, mem, 0⟩).map State.data).getD ⟨reg, mem⟩), fun _ _ => ⟨_, rfl, rfl⟩⟩)

/-- Whatever the processor does with such code in memory is a run of the list of its instructions,
until it comes to a `ret` or to the end of the code. -/
theorem steps_runs {sys : Data → Data → Prop} {base : BitVec 64} {code : List UInt8} {s s' : State}
    (h : Steps sys (fun d => Holds d.mem base code) s s') :
    ∀ off is, s.rip = base + BitVec.ofNat 64 off → Disasm (code.drop off) is → (∀ i ∈ is, Portable i) →
      (∃ off' js, Runs sys (fun d => Holds d.mem base code) is s.data js s'.data ∧
        s'.rip = base + BitVec.ofNat 64 off' ∧ Disasm (code.drop off') js) ∨
      (∃ js d', Runs sys (fun d => Holds d.mem base code) is s.data js d' ∧ (js = [] ∨ ∃ r, js = .ret :: r)) := by
  induction h with
  | refl hk => exact fun off is hr hd _ => .inl ⟨off, is, .refl hk, hr, hd⟩
  | @step s s1 s2 hk hst _ ih =>
    intro off is hr hd hport
    generalize hc : code.drop off = c at hd
    cases hd with
    | nil => exact .inr ⟨[], _, .refl hk, .inl rfl⟩
    | @cons _ rest i is hdec hrest =>
      by_cases hret : i = .ret
      · exact .inr ⟨_, _, .refl hk, .inr ⟨is, by rw [hret]⟩⟩
      have hk' : Holds s.mem base code := hk
      obtain ⟨p, r, hp, hw, hlen⟩ := fetch (hk'.drop off) (hc ▸ hdec)
      rw [← hr] at hw
      have hrest' : rest = code.drop (off + p.length) := by
        rw [← List.drop_drop, hp]; simp
      have heff : Effect sys i s.data s1.data ∧ s1.rip = base + BitVec.ofNat 64 (off + p.length) := by
        rw [BitVec.ofNat_add, ← BitVec.add_assoc, ← hr]
        cases hst with
        | exec hw' hx =>
          rw [hw] at hw'
          cases hw'
          rw [hlen] at hx
          refine ⟨.exec hret ?_, exec_rip hret hx⟩
          rcases hport i List.mem_cons_self with rfl | h | h
          · simp [exec] at hx
          · exact absurd h hret
          · obtain ⟨d, hd⟩ := h s.reg s.mem
            obtain ⟨s', h1, h2⟩ := hd s.rip p.length
            rw [show (⟨s.reg, s.mem, s.rip⟩ : State) = s from rfl, hx] at h1
            cases h1
            rw [h2]
            exact hd
        | sys hw' hx =>
          rw [hw] at hw'
          cases hw'
          exact ⟨.sys hx, by rw [hlen]⟩
      rcases ih (off + p.length) is heff.2 (hrest' ▸ hrest) (fun j hj => hport j (List.mem_cons_of_mem _ hj)) with
        ⟨off', js, h1, h2, h3⟩ | ⟨js, d', h1, h2⟩
      · exact .inl ⟨off', js, .step hk heff.1 h1, h2, h3⟩
      · exact .inr ⟨js, d', .step hk heff.1 h1, h2⟩

/-- `ret` in memory jumps to the address on the stack. -/
theorem ret_step {sys : Data → Data → Prop} {base : BitVec 64} {code : List UInt8} {is : List Inst} {d : Data}
    (hk : Holds d.mem base code) {off : Nat} (hd : Disasm (code.drop off) (.ret :: is)) :
    ∃ s', Step sys ⟨d.reg, d.mem, base + BitVec.ofNat 64 off⟩ s' ∧ s'.mem = d.mem ∧
      s'.rip = loadBytes d.mem (d.reg RSP) 8 ∧ s'.reg RSP = d.reg RSP + 8 ∧ ∀ r, r ≠ RSP → s'.reg r = d.reg r := by
  generalize hc : code.drop off = c at hd
  cases hd with
  | cons hdec hrest =>
    obtain ⟨p, r, hp, hw, hlen⟩ := fetch (hk.drop off) (hc ▸ hdec)
    refine ⟨_, .exec hw rfl, rfl, rfl, ?_, ?_⟩
    · simp [State.setReg]
    · intro r hr
      simp [State.setReg, hr]

end X86
