import Verif.Props.EndToEnd
import Verif.Proofs.X86Run
/-!
# Running the linked program (C62)
-/

namespace AT.Props
open AT.Asm AT.AsmSpec AT.X64 AT.Obj AT.Mac AT.MachO AT.ObjSpec
open X86 (State Holds Step Steps Runs Portable RSP)

theorem asksFor_portable {bd : Build} {ss : List Str} {val : Str → Nat} {k : Nat} {i : X86.Inst}
    (h : AsksFor bd ss val k i) : Portable i := by
  obtain ⟨s, c, x, _, _, hx, rfl⟩ := h
  cases hx with
  | syscall => exact .inl rfl
  | ret => exact .inr (.inl rfl)
  | _ => first
    | exact .movRegReg _ _ _
    | exact .movRegImm _ _ _
    | exact .pushImm _ _
    | exact .pushReg _ _

theorem OneByOne.portable {bd : Build} {ss : List Str} {val : Str → Nat} {ks : List Nat} {is : List X86.Inst}
    (h : OneByOne (AsksFor bd ss val) ks is) : ∀ i ∈ is, Portable i := by
  intro i hi
  obtain ⟨p, hp⟩ := List.mem_iff_getElem?.1 hi
  have hlt := (List.getElem?_eq_some_iff.1 hp).1
  exact asksFor_portable (h.each p _ i (List.getElem?_eq_getElem (by rw [h.length]; exact hlt)) hp)

/-- C62: put the linked `__text` of the written file in memory at its address and start the processor
at the place of line `j` (say, of the label in that line).

* Whatever the instruction lines from there on do to registers and memory when they are executed one
  after the other (as long as this does not overwrite the code), the processor does, and it
  gets to the code of the remaining lines; at a `ret` it returns to the caller.
* It does nothing else: until a `ret` or the end of the code is reached, each state of the processor
  is one of that execution. -/
theorem C62_run (bd bd' : Build) (h : Endian) (chunks : List Bytes) (ss : List Str)
    (ls : List Line) (hne : ∀ c ∈ chunks, c ≠ []) (hc : Cut chunks.flatten (ss.map utf8))
    (hp : ReadsAll bd ss ls) (ok : Acceptable ls) (base : Str → Nat)
    (hbase : AddressesFit ls base) (hpure : PureText ls) (hpush : PushesFit bd ss)
    (htext : content ls .text ls.length ≠ []) :
    ∃ a, Assembler.new.readFrom bd chunks = .ok a ∧ (a.writeInto bd h).res = .ok () ∧
    ∃ v rest s code, view bd' h (a.writeInto bd h).out = .ok (v, rest) ∧
      v.sections[0]? = some s ∧ s.sectname = str% "__text" ∧
      linkSection h (a.writeInto bd h).out v base s = some code ∧
      ∀ j ≤ ls.length, ∃ is, OneByOne (AsksFor bd ss (fun n => (addressOf ls base n).getD 0)) (codeLines ls j) is ∧
        ∀ (sys : X86.Data → X86.Data → Prop) (at_ : Nat → BitVec 64) (keep : X86.Data → Prop),
          (∀ off, at_ off = BitVec.ofNat 64 (base (str% "__text") + off)) →
          (∀ d, keep d ↔ Holds d.mem (at_ 0) code) →
          (∀ d js d', Runs sys keep is d js d' →
            ∃ off, X86.Disasm (code.drop off) js ∧
              Steps sys keep ⟨d.reg, d.mem, at_ (content ls .text j).length⟩ ⟨d'.reg, d'.mem, at_ off⟩ ∧
              ∀ js', js = .ret :: js' → ∃ s', Step sys ⟨d'.reg, d'.mem, at_ off⟩ s' ∧
                s'.mem = d'.mem ∧ s'.rip = X86.loadBytes d'.mem (d'.reg RSP) 8 ∧
                s'.reg RSP = d'.reg RSP + 8 ∧ ∀ r, r ≠ RSP → s'.reg r = d'.reg r) ∧
          (∀ d s', Steps sys keep ⟨d.reg, d.mem, at_ (content ls .text j).length⟩ s' →
            (∃ off js, Runs sys keep is d js s'.data ∧ s'.rip = at_ off ∧ X86.Disasm (code.drop off) js) ∨
            (∃ js d', Runs sys keep is d js d' ∧ (js = [] ∨ ∃ r, js = .ret :: r))) := by
  obtain ⟨a, ha, ho⟩ := assembles hne hc hp ok
  have hr := relocsOk_of hp
  obtain ⟨h1, v, rest, hv, hfile⟩ := file_of bd bd' h ho ok hr
  have hx : (stored ls)[0]? = some .text := by
    unfold stored
    simp [htext]
  have hs : ∃ s, v.sections[0]? = some s ∧ s.sectname = str% "__text" := by
    have := congrArg (·[0]?) hfile.sections
    simp only [List.getElem?_map, hx, Option.map_some] at this
    cases hg : v.sections[0]? with
    | none => rw [hg] at this; simp at this
    | some s => rw [hg] at this; exact ⟨s, rfl, Option.some.inj this⟩
  obtain ⟨s, hs, hn⟩ := hs
  refine ⟨a, ha, h1, v, rest, s, _, hv, hs, hn, link_eq hfile hr base hs hx, ?_⟩
  intro j hj
  obtain ⟨is, hd, hone⟩ := code_of hp hpure hpush (valOf ls base) (fun p hp => hbase.val hp) j hj
  refine ⟨is, hone, ?_⟩
  intro sys at_ keep hat hkeep
  have hat' : ∀ off, at_ off = BitVec.ofNat 64 (base (str% "__text")) + BitVec.ofNat 64 off := by
    intro off
    rw [hat, BitVec.ofNat_add]
  have hkeep' : keep = fun d : X86.Data => Holds d.mem (BitVec.ofNat 64 (base (str% "__text")))
      (linkedTo (valOf ls base) ls .text ls.length) := by
    funext d
    rw [hkeep d, hat]
    rfl
  subst hkeep'
  simp only [hat']
  refine ⟨?_, ?_⟩
  · intro d js d' hrun
    obtain ⟨off, h2, h3⟩ := X86.runs_steps hrun _ hd
    refine ⟨off, h2, h3, ?_⟩
    rintro js' rfl
    exact X86.ret_step (X86.runs_keep hrun) h2
  · intro d s' hst
    exact X86.steps_runs hst (content ls .text j).length is rfl hd (OneByOne.portable hone)

/-! ## The sample program meets the hypotheses -/

/-- Section addresses of the sample. -/
def sampleBase (n : Str) : Nat := if n = str% "__text" then 0x1000 else 0x2000

theorem sample_addresses : AddressesFit sampleLines sampleBase := by
  intro x p hp adr ha
  rw [sample_relocations x p hp] at ha ⊢
  rw [show addressOf sampleLines sampleBase (str% "msg") = some 0x2002 by decide +kernel] at ha
  cases ha
  decide

/-- A memory with the linked code of the sample. -/
def sampleMem (a : BitVec 64) : BitVec 8 :=
  (([0x48, 0xB8, 1, 0, 0, 0, 0, 0, 0, 0, 0x48, 0xBE, 2, 0x20, 0, 0, 0, 0, 0, 0, 0x0F, 0x05] : List UInt8)[
    (a - 0x1000).toNat]?.getD 0).toBitVec

theorem sample_holds : Holds sampleMem 0x1000
    [0x48, 0xB8, 1, 0, 0, 0, 0, 0, 0, 0, 0x48, 0xBE, 2, 0x20, 0, 0, 0, 0, 0, 0, 0x0F, 0x05] := by
  intro i b hb
  have hlt := (List.getElem?_eq_some_iff.1 hb).1
  unfold sampleMem
  have : (0x1000 + BitVec.ofNat 64 i - 0x1000 : BitVec 64).toNat = i := by
    simp only [BitVec.toNat_sub, BitVec.toNat_add, BitVec.toNat_ofNat]
    simp only [List.length_cons, List.length_nil] at hlt
    omega
  rw [this, hb]
  rfl

/-- The sample, entered at `start`, moves the address of `msg` to `rsi` and makes a system call: so
says its source, and so does the processor. -/
example (sys : X86.Data → X86.Data → Prop) (d : X86.Data) (reg : Nat → BitVec 64)
    (hsys : sys ⟨fun r => if r = 6 then 0x2002 else reg r, sampleMem⟩ d) (hd : d.mem = sampleMem) :
    Runs sys (fun d => Holds d.mem 0x1000
        [0x48, 0xB8, 1, 0, 0, 0, 0, 0, 0, 0, 0x48, 0xBE, 2, 0x20, 0, 0, 0, 0, 0, 0, 0x0F, 0x05])
      [.movRegImm .w64 6 0x2002, .syscall] ⟨reg, sampleMem⟩ [] d := by
  refine .step sample_holds (.exec (d' := ⟨fun r => if r = 6 then 0x2002 else reg r, sampleMem⟩) (by simp) ?_)
    (.step sample_holds (.sys hsys) (.refl ?_))
  · intro rip len
    exact ⟨_, rfl, rfl⟩
  · rw [hd]; exact sample_holds

example : (∀ c ∈ [utf8 sampleSource], c ≠ []) ∧ AddressesFit sampleLines sampleBase ∧
    PureText sampleLines ∧ content sampleLines .text sampleLines.length ≠ [] ∧
    codeLines sampleLines 4 = [5, 6] ∧ (content sampleLines .text 4).length = 10 :=
  ⟨by decide +kernel, sample_addresses, sample_pure, by decide +kernel, by decide +kernel, by decide +kernel⟩

end AT.Props
