import Verif.Spec.MacRead
import Verif.Proofs.MacStructs
/-!
# The readers over a `Read` do what they do over the bytes it delivers
-/

namespace AT.Mac
open AT.Asm (Got)
open AT.MachO

/-- What a reader has still to deliver. -/
def Src.ahead (s : Src) : Bytes := s.pre ++ arrives s.gs

theorem read_eof {k : Nat} {s s' : Src} (hk : k ≠ 0) (h : s.read k = (.bytes [], s')) : s.ahead = [] := by
  obtain ⟨pre, gs⟩ := s
  cases pre with
  | cons b bs =>
    cases k with
    | zero => exact absurd rfl hk
    | succ k => simp [Src.read] at h
  | nil =>
    cases gs with
    | nil => rfl
    | cons g gs =>
      cases g with
      | bytes c =>
        cases c with
        | nil => rfl
        | cons c cs =>
          cases k with
          | zero => exact absurd rfl hk
          | succ k => simp only [Src.read] at h; split at h <;> simp at h
      | interrupted => simp [Src.read] at h
      | failed => simp [Src.read] at h

theorem read_failed {k : Nat} {s s' : Src} (h : s.read k = (.failed, s')) : s.ahead = [] := by
  obtain ⟨pre, gs⟩ := s
  cases pre with
  | cons b bs => simp [Src.read] at h
  | nil =>
    cases gs with
    | nil => simp [Src.read] at h
    | cons g gs =>
      cases g with
      | bytes c => simp only [Src.read] at h; split at h <;> simp at h
      | interrupted => simp [Src.read] at h
      | failed => rfl

theorem read_again {k : Nat} {s s' : Src} (h : s.read k = (.interrupted, s')) :
    s'.ahead = s.ahead ∧ s'.pre = [] := by
  obtain ⟨pre, gs⟩ := s
  cases pre with
  | cons b bs => simp [Src.read] at h
  | nil =>
    cases gs with
    | nil => simp [Src.read] at h
    | cons g gs =>
      cases g with
      | bytes c => simp only [Src.read] at h; split at h <;> simp at h
      | interrupted => simp only [Src.read, Prod.mk.injEq, true_and] at h; subst h; exact ⟨rfl, rfl⟩
      | failed => simp [Src.read] at h

theorem arrives_bytes (c : Bytes) (hc : c ≠ []) (gs : List Got) :
    arrives (.bytes c :: gs) = c ++ arrives gs := by
  cases c with
  | nil => exact absurd rfl hc
  | cons c cs => rfl

theorem read_bytes {k : Nat} {c : UInt8} {cs : Bytes} {s s' : Src}
    (h : s.read k = (.bytes (c :: cs), s')) :
    s.ahead = c :: cs ++ s'.ahead ∧ cs.length + 1 ≤ k ∧ (s.pre = [] → s'.pre = []) := by
  obtain ⟨pre, gs⟩ := s
  cases pre with
  | cons b bs =>
    simp only [Src.read, Prod.mk.injEq, Got.bytes.injEq] at h
    obtain ⟨h1, rfl⟩ := h
    refine ⟨?_, ?_, by simp⟩
    · rw [← h1]; simp only [Src.ahead]; rw [← List.append_assoc, List.take_append_drop]
    · have := congrArg List.length h1; simp only [List.length_take, List.length_cons] at this; omega
  | nil =>
    cases gs with
    | nil => simp [Src.read] at h
    | cons g gs =>
      cases g with
      | interrupted => simp [Src.read] at h
      | failed => simp [Src.read] at h
      | bytes d =>
        simp only [Src.read] at h
        split at h
        · simp only [Prod.mk.injEq, Got.bytes.injEq] at h
          obtain ⟨rfl, rfl⟩ := h
          exact ⟨rfl, by simpa using ‹_›, fun _ => rfl⟩
        · rename_i hlt
          simp only [Prod.mk.injEq, Got.bytes.injEq] at h
          obtain ⟨h1, rfl⟩ := h
          have hd : d.drop k ≠ [] := by simp; omega
          have hd' : d ≠ [] := by rintro rfl; simp at hlt
          refine ⟨?_, ?_, fun _ => rfl⟩
          · simp only [Src.ahead, List.nil_append]
            rw [arrives_bytes _ hd, arrives_bytes _ hd', ← h1, ← List.append_assoc, List.take_append_drop]
          · have := congrArg List.length h1; simp only [List.length_take, List.length_cons] at this; omega

theorem readExactIo_spec (k : Nat) (s : Src) :
    match readExactIo k s with
    | .ok (b, s') => b.length = k ∧ s.ahead = b ++ s'.ahead ∧ (s.pre = [] → s'.pre = [])
    | .error e => e = .panic ∧ s.ahead.length < k := by
  fun_induction readExactIo k s with
  | case1 s => exact ⟨rfl, rfl, id⟩
  | case2 k s hk s' h => exact ⟨rfl, by rw [read_eof hk h]; simp; omega⟩
  | case3 k s hk c cs s' h ih =>
    obtain ⟨h1, h2, h3⟩ := read_bytes h
    cases hr : readExactIo (k - (cs.length + 1)) s' with
    | error e =>
      rw [hr] at ih
      refine ⟨ih.1, ?_⟩
      have := ih.2
      rw [h1]; simp; omega
    | ok p =>
      rw [hr] at ih
      obtain ⟨i1, i2, i3⟩ := ih
      refine ⟨?_, ?_, fun hp => i3 (h3 hp)⟩
      · show (c :: cs ++ p.1).length = k
        simp [i1]; omega
      · show s.ahead = c :: cs ++ p.1 ++ p.2.ahead
        rw [h1, i2, List.append_assoc]
  | case4 k s hk s' h ih =>
    obtain ⟨h1, h2⟩ := read_again h
    cases hr : readExactIo k s' with
    | error e => rw [hr] at ih; exact ⟨ih.1, by rw [← h1]; exact ih.2⟩
    | ok p => rw [hr] at ih; exact ⟨ih.1, by rw [← h1]; exact ih.2.1, fun _ => ih.2.2 h2⟩
  | case5 k s hk s' h => exact ⟨rfl, by rw [read_failed h]; simp; omega⟩

/-! ## The relation -/

/-- `r'` over a `Read` does what `r` does over the bytes to come. -/
def Agrees {α : Type} (r : Rd α) (r' : RdIo α) : Prop :=
  ∀ s : Src, match r' s with
    | .ok (a, s') => r s.ahead = .ok (a, s'.ahead) ∧ (s.pre = [] → s'.pre = [])
    | .error e => r s.ahead = .error e

theorem Agrees.exact (k : Nat) : Agrees (readExact k) (readExactIo k) := by
  intro s
  have h := readExactIo_spec k s
  cases hr : readExactIo k s with
  | error e =>
    rw [hr] at h
    show readExact k s.ahead = .error e
    rw [readExact, if_neg (by omega), h.1]
  | ok p =>
    rw [hr] at h
    obtain ⟨h1, h2, h3⟩ := h
    refine ⟨?_, h3⟩
    show readExact k s.ahead = .ok (p.1, p.2.ahead)
    rw [readExact, h2, if_pos (by simp [← h1])]
    simp [← h1]

theorem Agrees.bind {α β : Type} {r : Rd α} {r' : RdIo α} {f : α → Rd β} {f' : α → RdIo β}
    (h : Agrees r r') (hf : ∀ a, Agrees (f a) (f' a)) : Agrees (r >>= f) (r' >>= f') := by
  intro s
  have hs := h s
  show match ((r' s).bind fun p => f' p.1 p.2) with
    | .ok (a, s') => ((r s.ahead).bind fun p => f p.1 p.2) = .ok (a, s'.ahead) ∧ (s.pre = [] → s'.pre = [])
    | .error e => ((r s.ahead).bind fun p => f p.1 p.2) = .error e
  cases hr : r' s with
  | error e => rw [hr] at hs; show _ = _; rw [hs]; rfl
  | ok p =>
    rw [hr] at hs
    obtain ⟨h1, h2⟩ := hs
    rw [h1]
    have h3 := hf p.1 p.2
    show match f' p.1 p.2 with
      | .ok (a, s') => f p.1 p.2.ahead = .ok (a, s'.ahead) ∧ (s.pre = [] → s'.pre = [])
      | .error e => f p.1 p.2.ahead = .error e
    cases hf' : f' p.1 p.2 with
    | error e => rw [hf'] at h3; exact h3
    | ok q => rw [hf'] at h3; exact ⟨h3.1, fun hp => h3.2 (h2 hp)⟩

theorem Agrees.pure {α : Type} (a : α) : Agrees (Pure.pure a : Rd α) (Pure.pure a : RdIo α) :=
  fun _ => ⟨rfl, id⟩

theorem Agrees.lift {α : Type} (r : Res α) : Agrees (Rd.lift r) (RdIo.lift r) := by
  intro s
  cases r with
  | error e => exact rfl
  | ok a => exact ⟨rfl, id⟩

/-! ## The readers -/

theorem agrees_u8 : Agrees readU8 readU8Io := .bind (.exact 1) fun _ => .pure _
theorem agrees_u16 (e : Endian) : Agrees (readU16 e) (readU16Io e) := .bind (.exact 2) fun _ => .pure _
theorem agrees_i32 (e : Endian) : Agrees (readI32 e) (readI32Io e) := .bind (.exact 4) fun _ => .pure _
theorem agrees_u32 (e : Endian) : Agrees (readU32 e) (readU32Io e) := .bind (.exact 4) fun _ => .pure _
theorem agrees_u64 (e : Endian) : Agrees (readU64 e) (readU64Io e) := .bind (.exact 8) fun _ => .pure _
theorem agrees_str (n : Nat) : Agrees (readFixedStr n) (readFixedStrIo n) :=
  .bind (.exact n) fun _ => .lift _

/-- Prove `Agrees` for a reader put together from smaller ones. -/
macro "agrees" : tactic => `(tactic|
  repeat first
    | exact Agrees.pure _
    | exact Agrees.lift _
    | exact agrees_u8
    | exact agrees_u16 _
    | exact agrees_i32 _
    | exact agrees_u32 _
    | exact agrees_u64 _
    | exact agrees_str _
    | (refine Agrees.bind ?_ fun _ => ?_))

theorem agrees_header (h : Endian) : Agrees (Header64.readFrom h) (Header64.readFromIo h) := by
  unfold Header64.readFrom Header64.readFromIo; agrees
theorem agrees_section (e : Endian) : Agrees (Section64.readFromIn e) (Section64.readFromInIo e) := by
  unfold Section64.readFromIn Section64.readFromInIo; agrees
theorem agrees_segment (bd : Build) (e : Endian) :
    Agrees (SegmentCommand64.readFromIn bd e) (SegmentCommand64.readFromInIo bd e) := by
  unfold SegmentCommand64.readFromIn SegmentCommand64.readFromInIo; agrees
theorem agrees_symtab (e : Endian) : Agrees (SymtabCommand.readFromIn e) (SymtabCommand.readFromInIo e) := by
  unfold SymtabCommand.readFromIn SymtabCommand.readFromInIo; agrees
theorem agrees_dysymtab (e : Endian) :
    Agrees (DysymtabCommand.readFromIn e) (DysymtabCommand.readFromInIo e) := by
  unfold DysymtabCommand.readFromIn DysymtabCommand.readFromInIo; agrees
theorem agrees_tool (e : Endian) :
    Agrees (BuildToolVersion.readFromIn e) (BuildToolVersion.readFromInIo e) := by
  unfold BuildToolVersion.readFromIn BuildToolVersion.readFromInIo; agrees
theorem agrees_build (bd : Build) (e : Endian) :
    Agrees (BuildVersionCommand.readFromIn bd e) (BuildVersionCommand.readFromInIo bd e) := by
  unfold BuildVersionCommand.readFromIn BuildVersionCommand.readFromInIo; agrees
theorem agrees_nlist (e : Endian) : Agrees (NList64.readFromIn e) (NList64.readFromInIo e) := by
  unfold NList64.readFromIn NList64.readFromInIo; agrees
theorem agrees_reloc (e : Endian) :
    Agrees (RelocationInfo.readFromIn e) (RelocationInfo.readFromInIo e) := by
  unfold RelocationInfo.readFromIn RelocationInfo.readFromInIo; agrees
theorem agrees_n {α : Type} {r : Rd α} {r' : RdIo α} (h : Agrees r r') :
    (n : Nat) → Agrees (readN r n) (readNIo r' n)
  | 0 => .pure _
  | n + 1 => .bind h fun _ => .bind (agrees_n h n) fun _ => .pure _

/-! ## From the relation to the property -/

theorem Agrees.same {α : Type} {r : Rd α} {r' : RdIo α} (h : Agrees r r') (gs : List Got) :
    SameAs (r (arrives gs)) ((r' ⟨[], gs⟩).map fun p => (p.1, p.2.gs)) := by
  have hs := h ⟨[], gs⟩
  cases hr : r' ⟨[], gs⟩ with
  | error e =>
    rw [hr] at hs
    have hs : r (arrives gs) = .error e := hs
    rw [hs]; rfl
  | ok p =>
    rw [hr] at hs
    obtain ⟨h1, h2⟩ := hs
    have h1 : r (arrives gs) = .ok (p.1, p.2.ahead) := h1
    rw [h1]
    refine ⟨p.2.gs, rfl, ?_⟩
    simp [Src.ahead, h2 rfl]

/-! ## `LoadCommand::read_from_in`: the chain -/

/-- From a reader that is not chained, `r` leaves one that is not chained. -/
def Keeps {α : Type} (r : RdIo α) : Prop := ∀ s a s', r s = .ok (a, s') → s.pre = [] → s'.pre = []

/-- From a chain with 4 bytes in front, `r` leaves an empty front. -/
def Drains {α : Type} (r : RdIo α) : Prop :=
  ∀ b gs a s', b.length = 4 → r ⟨b, gs⟩ = .ok (a, s') → s'.pre = []

theorem Agrees.keeps {α : Type} {r : Rd α} {r' : RdIo α} (h : Agrees r r') : Keeps r' := by
  intro s a s' hr
  have hs := h s
  rw [hr] at hs
  exact hs.2

theorem bindIo_ok {α β : Type} {r : RdIo α} {f : α → RdIo β} {s s' : Src} {b : β}
    (h : (r >>= f) s = .ok (b, s')) : ∃ a s1, r s = .ok (a, s1) ∧ f a s1 = .ok (b, s') := by
  have h : ((r s).bind fun p => f p.1 p.2) = .ok (b, s') := h
  cases hr : r s with
  | error e => rw [hr] at h; cases h
  | ok p => rw [hr] at h; exact ⟨p.1, p.2, rfl, h⟩

theorem Keeps.bind {α β : Type} {r : RdIo α} {f : α → RdIo β} (hr : Keeps r) (hf : ∀ a, Keeps (f a)) :
    Keeps (r >>= f) := by
  intro s b s' h hp
  obtain ⟨a, s1, h1, h2⟩ := bindIo_ok h
  exact hf a s1 b s' h2 (hr s a s1 h1 hp)

theorem Drains.bind {α β : Type} {r : RdIo α} {f : α → RdIo β} (hr : Drains r) (hf : ∀ a, Keeps (f a)) :
    Drains (r >>= f) := by
  intro b gs a s' hb h
  obtain ⟨x, s1, h1, h2⟩ := bindIo_ok h
  exact hf x s1 a s' h2 (hr b gs x s1 hb h1)

theorem Drains.exact : Drains (readExactIo 4) := by
  intro b gs a s' hb h
  match b, hb with
  | [w, x, y, z], _ =>
    have h0 : readExactIo 0 ⟨[], gs⟩ = .ok ([], ⟨[], gs⟩) := by rw [readExactIo]; rfl
    have h1 : readExactIo 4 ⟨[w, x, y, z], gs⟩ = .ok ([w, x, y, z], ⟨[], gs⟩) := by
      rw [readExactIo]
      simp [Src.read, h0, Bind.bind, Except.bind, Pure.pure, Except.pure]
    rw [h1] at h
    cases h
    rfl

theorem Drains.word (e : Endian) : Drains (readU32Io e) :=
  Drains.bind Drains.exact fun _ => (Agrees.pure _).keeps

/-- Prove `Keeps` for a reader put together from smaller ones. -/
macro "keeps" : tactic => `(tactic|
  repeat first
    | exact (Agrees.pure _).keeps
    | exact (Agrees.lift _).keeps
    | exact (agrees_i32 _).keeps
    | exact (agrees_u32 _).keeps
    | exact (agrees_u64 _).keeps
    | exact (agrees_str _).keeps
    | (refine Keeps.bind ?_ fun _ => ?_))

theorem drains_segment (bd : Build) (e : Endian) : Drains (SegmentCommand64.readFromInIo bd e) := by
  unfold SegmentCommand64.readFromInIo
  refine Drains.bind (Drains.word e) fun _ => ?_
  keeps
theorem drains_symtab (e : Endian) : Drains (SymtabCommand.readFromInIo e) := by
  unfold SymtabCommand.readFromInIo
  refine Drains.bind (Drains.word e) fun _ => ?_
  keeps
theorem drains_dysymtab (e : Endian) : Drains (DysymtabCommand.readFromInIo e) := by
  unfold DysymtabCommand.readFromInIo
  refine Drains.bind (Drains.word e) fun _ => ?_
  keeps
theorem drains_build (bd : Build) (e : Endian) : Drains (BuildVersionCommand.readFromInIo bd e) := by
  unfold BuildVersionCommand.readFromInIo
  refine Drains.bind (Drains.word e) fun _ => ?_
  keeps

theorem drains_dispatch (bd : Build) (e : Endian) (cmd : UInt32) :
    Drains (LoadCommand.dispatchIo bd e cmd) := by
  unfold LoadCommand.dispatchIo
  split
  · exact (drains_segment bd e).bind fun _ =>
      (agrees_n (agrees_section e) _).keeps.bind fun _ => (Agrees.pure _).keeps
  · split
    · exact (drains_symtab e).bind fun _ => (Agrees.pure _).keeps
    · split
      · exact (drains_dysymtab e).bind fun _ => (Agrees.pure _).keeps
      · split
        · exact (drains_build bd e).bind fun _ =>
            (agrees_n (agrees_tool e) _).keeps.bind fun _ => (Agrees.pure _).keeps
        · intro b gs a s' _ h; cases h

/-- The `match cmd` of `LoadCommand.readFromIn`. -/
def dispatchRd (bd : Build) (e : Endian) (cmd : UInt32) : Rd LoadCommand :=
  if cmd == SegmentCommand64.TYPE then do
    let c ← SegmentCommand64.readFromIn bd e
    let sections ← readN (Section64.readFromIn e) c.nsects.toNat
    pure (.segment64 c sections)
  else if cmd == SymtabCommand.TYPE then do
    let c ← SymtabCommand.readFromIn e
    pure (.symtab c)
  else if cmd == DysymtabCommand.TYPE then do
    let c ← DysymtabCommand.readFromIn e
    pure (.dysymtab c)
  else if cmd == BuildVersionCommand.TYPE then do
    let c ← BuildVersionCommand.readFromIn bd e
    let tools ← readN (BuildToolVersion.readFromIn e) c.ntools.toNat
    pure (.buildVersion c tools)
  else Rd.lift (.error .panic)

theorem readFromIn_dispatch (bd : Build) (e : Endian) (b : Bytes) :
    LoadCommand.readFromIn bd e b =
      (readU32 e b).bind fun p => dispatchRd bd e p.1 (intBytes e 4 p.1.toNat ++ p.2) := rfl

theorem agrees_dispatch (bd : Build) (e : Endian) (cmd : UInt32) :
    Agrees (dispatchRd bd e cmd) (LoadCommand.dispatchIo bd e cmd) := by
  unfold dispatchRd LoadCommand.dispatchIo
  split
  · exact .bind (agrees_segment bd e) fun _ => .bind (agrees_n (agrees_section e) _) fun _ => .pure _
  · split
    · exact .bind (agrees_symtab e) fun _ => .pure _
    · split
      · exact .bind (agrees_dysymtab e) fun _ => .pure _
      · split
        · exact .bind (agrees_build bd e) fun _ => .bind (agrees_n (agrees_tool e) _) fun _ => .pure _
        · exact .lift _

theorem load_same (bd : Build) (e : Endian) (gs : List Got) :
    SameAs (LoadCommand.readFromIn bd e (arrives gs)) (LoadCommand.readFromInIo bd e gs) := by
  rw [readFromIn_dispatch]
  unfold LoadCommand.readFromInIo
  have h1 := agrees_u32 e ⟨[], gs⟩
  cases hr : readU32Io e ⟨[], gs⟩ with
  | error x =>
    rw [hr] at h1
    have h1 : readU32 e (arrives gs) = .error x := h1
    rw [h1]; rfl
  | ok p =>
    rw [hr] at h1
    obtain ⟨h1, h2⟩ := h1
    have h1 : readU32 e (arrives gs) = .ok (p.1, p.2.ahead) := h1
    have h3 : p.2.ahead = arrives p.2.gs := by simp [Src.ahead, h2 rfl]
    rw [h1, h3]
    have h4 := agrees_dispatch bd e p.1 ⟨intBytes e 4 p.1.toNat, p.2.gs⟩
    show SameAs (dispatchRd bd e p.1 (intBytes e 4 p.1.toNat ++ arrives p.2.gs))
      ((LoadCommand.dispatchIo bd e p.1 ⟨intBytes e 4 p.1.toNat, p.2.gs⟩).bind fun c => .ok (c.1, c.2.gs))
    cases hd : LoadCommand.dispatchIo bd e p.1 ⟨intBytes e 4 p.1.toNat, p.2.gs⟩ with
    | error x =>
      rw [hd] at h4
      have h4 : dispatchRd bd e p.1 (intBytes e 4 p.1.toNat ++ arrives p.2.gs) = .error x := h4
      rw [h4]; rfl
    | ok q =>
      rw [hd] at h4
      have h5 := drains_dispatch bd e p.1 _ _ _ _ (length_intBytes _ _ _) hd
      have h4 : dispatchRd bd e p.1 (intBytes e 4 p.1.toNat ++ arrives p.2.gs) = .ok (q.1, q.2.ahead) := h4.1
      rw [h4]
      exact ⟨q.2.gs, rfl, by simp [Src.ahead, h5]⟩

end AT.Mac
