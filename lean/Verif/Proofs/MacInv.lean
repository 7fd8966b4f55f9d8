import Verif.Proofs.MacIo
import Verif.Model.MacLoadCommand
/-!
# Postconditions of readers on arbitrary input
-/

namespace AT.Mac

/-- Every value `r` can return satisfies `P`. -/
def Post {α : Type} (r : Rd α) (P : α → Prop) : Prop := ∀ s x s', r s = .ok (x, s') → P x

theorem Post.pure {α : Type} {x : α} {P : α → Prop} (h : P x) : Post (Pure.pure x) P := by
  intro s y s' hy
  cases hy; exact h

theorem Post.bind {α β : Type} {r : Rd α} {f : α → Rd β} {P : β → Prop}
    (h : ∀ x, Post (f x) P) : Post (r >>= f) P := by
  intro s y s' hy
  rw [rd_bind] at hy
  cases hr : r s with
  | error e => rw [hr] at hy; simp at hy
  | ok p => rw [hr] at hy; exact h p.1 _ _ _ hy

theorem Post.lift {α β : Type} {r : Res α} {f : α → Rd β} {P : β → Prop}
    (h : ∀ x, r = .ok x → Post (f x) P) : Post (Rd.lift r >>= f) P := by
  intro s y s' hy
  rw [rd_bind] at hy
  cases r with
  | error e => simp [Rd.lift, Except.map] at hy
  | ok a => exact h a rfl _ _ _ hy

theorem Post.assert {β : Type} {c : Bool} {f : Unit → Rd β} {P : β → Prop}
    (h : c = true → Post (f ()) P) : Post (Rd.lift (rassert c) >>= f) P := by
  apply Post.lift
  intro x hx
  apply h
  cases c
  · simp [rassert] at hx
  · rfl

theorem addU32_inv {bd : Build} {a b c : UInt32} (h : addU32 bd a b = .ok c) :
    c = a + b ∧ (bd = .debug → a.toNat + b.toNat < 2 ^ 32) := by
  unfold addU32 at h
  split at h
  · rename_i hc
    simp only [Except.ok.injEq] at h
    refine ⟨h.symm, ?_⟩
    rintro rfl
    simpa using hc
  · simp at h

theorem mulU32_inv {bd : Build} {a b c : UInt32} (h : mulU32 bd a b = .ok c) :
    c = a * b ∧ (bd = .debug → a.toNat * b.toNat < 2 ^ 32) := by
  unfold mulU32 at h
  split at h
  · rename_i hc
    simp only [Except.ok.injEq] at h
    refine ⟨h.symm, ?_⟩
    rintro rfl
    simpa using hc
  · simp at h

theorem segment_post (bd : Build) (e : Endian) : Post (SegmentCommand64.readFromIn bd e) (fun c =>
    c.cmd = 0x19 ∧ c.cmdsize.toNat % 2 ^ 32 = (72 + 80 * c.nsects.toNat) % 2 ^ 32 ∧
    (bd = .debug → c.cmdsize.toNat = 72 + 80 * c.nsects.toNat)) := by
  unfold SegmentCommand64.readFromIn
  refine Post.bind fun cmd => Post.assert fun hc => ?_
  refine Post.bind fun _ => Post.bind fun _ => Post.bind fun _ => Post.bind fun _ =>
    Post.bind fun _ => Post.bind fun _ => Post.bind fun _ => Post.bind fun _ =>
    Post.bind fun _ => Post.bind fun _ => ?_
  refine Post.lift fun m hm => Post.lift fun a ha => Post.assert fun hs => Post.pure ?_
  simp only [beq_iff_eq] at hc hs
  obtain ⟨rfl, hm'⟩ := mulU32_inv hm
  obtain ⟨rfl, ha'⟩ := addU32_inv ha
  refine ⟨hc, ?_, ?_⟩
  · simp only [hs]
    simp [SegmentCommand64.SIZE, Section64.SIZE]
    omega
  · intro hb
    have hm := hm' hb
    have ha := ha' hb
    simp only [hs]
    have e1 : SegmentCommand64.SIZE.toNat = 72 := rfl
    have e2 : Section64.SIZE.toNat = 80 := rfl
    rw [UInt32.toNat_mul, Nat.mod_eq_of_lt hm, e1, e2] at ha
    rw [UInt32.toNat_add, UInt32.toNat_mul, Nat.mod_eq_of_lt hm, e1, e2, Nat.mod_eq_of_lt ha]
    omega

theorem symtab_post (e : Endian) : Post (SymtabCommand.readFromIn e) (fun c =>
    c.cmd = 2 ∧ c.cmdsize = 24) := by
  unfold SymtabCommand.readFromIn
  refine Post.bind fun cmd => Post.assert fun hc => Post.bind fun _ => Post.assert fun hs => ?_
  repeat refine Post.bind fun _ => ?_
  simp only [beq_iff_eq] at hc hs
  exact Post.pure ⟨hc, hs⟩

theorem dysymtab_post (e : Endian) : Post (DysymtabCommand.readFromIn e) (fun c =>
    c.cmd = 0xB ∧ c.cmdsize = 80) := by
  unfold DysymtabCommand.readFromIn
  refine Post.bind fun cmd => Post.assert fun hc => Post.bind fun _ => Post.assert fun hs => ?_
  repeat refine Post.bind fun _ => ?_
  simp only [beq_iff_eq] at hc hs
  exact Post.pure ⟨hc, hs⟩

theorem buildVersion_post (bd : Build) (e : Endian) :
    Post (BuildVersionCommand.readFromIn bd e) (fun c =>
    c.cmd = 0x32 ∧ c.cmdsize.toNat % 2 ^ 32 = (24 + 8 * c.ntools.toNat) % 2 ^ 32 ∧
    (bd = .debug → c.cmdsize.toNat = 24 + 8 * c.ntools.toNat)) := by
  unfold BuildVersionCommand.readFromIn
  refine Post.bind fun cmd => Post.assert fun hc => ?_
  refine Post.bind fun _ => Post.bind fun _ => Post.lift fun _ _ => Post.bind fun _ =>
    Post.bind fun _ => Post.bind fun _ => ?_
  refine Post.lift fun m hm => Post.lift fun a ha => Post.assert fun hs => Post.pure ?_
  simp only [beq_iff_eq] at hc hs
  obtain ⟨rfl, hm'⟩ := mulU32_inv hm
  obtain ⟨rfl, ha'⟩ := addU32_inv ha
  refine ⟨hc, ?_, ?_⟩
  · simp only [hs]
    simp [BuildVersionCommand.SIZE, BuildToolVersion.SIZE]
  · intro hb
    have hm := hm' hb
    have ha := ha' hb
    simp only [hs]
    have e1 : BuildVersionCommand.SIZE.toNat = 24 := rfl
    have e2 : BuildToolVersion.SIZE.toNat = 8 := rfl
    rw [UInt32.toNat_mul, Nat.mod_eq_of_lt hm, e1, e2] at ha
    rw [UInt32.toNat_add, UInt32.toNat_mul, Nat.mod_eq_of_lt hm, e1, e2, Nat.mod_eq_of_lt ha]

/-- `readN` returns as many values as asked for. -/
theorem readN_length {α : Type} (r : Rd α) (n : Nat) : Post (readN r n) (fun l => l.length = n) := by
  induction n with
  | zero => exact Post.pure rfl
  | succ n ih =>
    unfold readN
    refine Post.bind fun x => ?_
    intro s y s' h
    rw [rd_bind] at h
    cases hr : readN r n s with
    | error e => rw [hr] at h; simp at h
    | ok p =>
      rw [hr] at h
      obtain ⟨l, t⟩ := p
      have hl := ih _ _ _ hr
      cases h
      simp only [List.length_cons, hl]

end AT.Mac
