import Verif.Props.Main
import Verif.Props.Asm
/-!
# Runs of the program are reproducible and independent of each other (C69)
-/

namespace AT.Props
open AT AT.Asm AT.Mac

/-- A way the operating system may split a file into reads: nothing is lost, no read is empty before
the end of the file. -/
def Splits (chunking : Bytes → List Bytes) : Prop := ∀ b, (chunking b).flatten = b ∧ ∀ c ∈ chunking b, c ≠ []

theorem readFrom_splits (bd : Build) {c c' : Bytes → List Bytes} (hc : Splits c) (hc' : Splits c') (b : Bytes) :
    Assembler.new.readFrom bd (c b) = Assembler.new.readFrom bd (c' b) :=
  C55_chunking bd _ _ _ (hc b).2 (hc' b).2 (by rw [(hc b).1, (hc' b).1])

theorem set_set (fs : FS) (n : Nat) (b c : Bytes) : (fs.set n b).set n c = fs.set n c := by
  unfold FS.set
  congr 1
  funext m
  by_cases hm : m = n <;> simp [hm]

theorem set_comm (fs : FS) {n m : Nat} (hnm : n ≠ m) (b c : Bytes) :
    (fs.set n b).set m c = (fs.set m c).set n b := by
  unfold FS.set
  congr 1
  funext k
  by_cases hk : k = n
  · subst hk; simp [hnm]
  · simp [hk]

/-- What a run with valid arguments does: nothing if a file cannot be opened, else it replaces the
output by what it writes for the input (for nothing, if they are the same file). -/
def written (bd : Build) (h : Endian) (chunks : List Bytes) : Bytes × Outcome :=
  match Assembler.new.readFrom bd chunks with
  | .error e => ([], .error e)
  | .ok a => ((a.writeInto bd h).out, (a.writeInto bd h).res)

theorem main_written (bd : Build) (h : Endian) (chunking : Bytes → List Bytes) (fs : FS) (args : List Str)
    (out inp : Str) (hcfg : Config.init args = .ok ⟨out, inp⟩) :
    main bd h chunking fs args =
      match fs.content (fs.node inp) with
      | none => (fs, .error .panic)
      | some src =>
        if fs.canRead (fs.node inp) = true ∧ fs.canWrite (fs.node out) = true then
          let w := written bd h (chunking (if fs.node inp = fs.node out then [] else src))
          (fs.set (fs.node out) w.1, w.2)
        else (fs, .error .panic) := by
  unfold main
  rw [hcfg]
  simp only
  cases hs : fs.content (fs.node inp) with
  | none => rfl
  | some src =>
    simp only
    cases hr : fs.canRead (fs.node inp)
    · simp
    · cases hw : fs.canWrite (fs.node out)
      · simp
      · simp only [Bool.not_true, Bool.false_eq_true, if_false, and_self, if_true]
        rw [show ((fs.set (fs.node out) []).content (fs.node inp)).getD [] =
          if fs.node inp = fs.node out then [] else src by
            by_cases he : fs.node inp = fs.node out <;> simp [FS.set, he, hs]]
        unfold written
        cases Assembler.new.readFrom bd (chunking (if fs.node inp = fs.node out then [] else src))
        · rfl
        · simp only [set_set]

/-- C69: running the program again with the same arguments changes nothing and ends the same way,
however the input is split into reads; also after a failed run, and also if input and output are the
same file. -/
theorem C69_rerun (bd : Build) (h : Endian) (c c' : Bytes → List Bytes) (hc : Splits c) (hc' : Splits c')
    (fs : FS) (args : List Str) :
    main bd h c' (main bd h c fs args).1 args = main bd h c fs args := by
  cases hcfg : Config.init args with
  | error e => unfold main; rw [hcfg]
  | ok cfg =>
    obtain ⟨out, inp⟩ := cfg
    rw [main_written bd h c fs args out inp hcfg]
    cases hs : fs.content (fs.node inp) with
    | none =>
      simp only
      rw [main_written bd h c' fs args out inp hcfg, hs]
    | some src =>
      simp only
      by_cases ho : fs.canRead (fs.node inp) = true ∧ fs.canWrite (fs.node out) = true
      · rw [if_pos ho, main_written bd h c' _ args out inp hcfg]
        simp only
        have hw : ∀ b, written bd h (c b) = written bd h (c' b) := fun b => by
          unfold written; rw [readFrom_splits bd hc hc']
        by_cases he : fs.node inp = fs.node out
        · simp only [FS.set, he, if_true]
          rw [if_pos (he ▸ ho), hw]
          congr 2
          funext m
          by_cases hm : m = fs.node out <;> simp [hm]
        · have e1 : (fs.set (fs.node out) (written bd h (c (if fs.node inp = fs.node out then [] else src))).1).content
              (fs.node inp) = some src := by simp [FS.set, he, hs]
          simp only [show ∀ b, (fs.set (fs.node out) b).node = fs.node from fun _ => rfl,
            show ∀ b, (fs.set (fs.node out) b).canRead = fs.canRead from fun _ => rfl,
            show ∀ b, (fs.set (fs.node out) b).canWrite = fs.canWrite from fun _ => rfl] at e1 ⊢
          rw [e1]
          simp only
          rw [if_pos ho, set_set]
          simp only [if_neg he, hw]
      · rw [if_neg ho, main_written bd h c' fs args out inp hcfg, hs]
        simp only
        rw [if_neg ho]

/-- C69: how a run ends and what it leaves in the output file depend on nothing but the contents of the
input file: not on the names, not on what the output or any other file contained, not on how the input
is split into reads. -/
theorem C69_depends_on_input (bd : Build) (h : Endian) (c c' : Bytes → List Bytes) (hc : Splits c) (hc' : Splits c')
    (fs fs' : FS) (args args' : List Str) (out inp out' inp' : Str)
    (hcfg : Config.init args = .ok ⟨out, inp⟩) (hcfg' : Config.init args' = .ok ⟨out', inp'⟩)
    (hd : fs.node inp ≠ fs.node out) (hd' : fs'.node inp' ≠ fs'.node out')
    (hs : fs.content (fs.node inp) = fs'.content (fs'.node inp'))
    (hrd : fs.canRead (fs.node inp) = fs'.canRead (fs'.node inp'))
    (hwr : fs.canWrite (fs.node out) = fs'.canWrite (fs'.node out')) :
    (main bd h c fs args).2 = (main bd h c' fs' args').2 ∧
    ((fs.content (fs.node inp)).isSome → fs.canRead (fs.node inp) = true → fs.canWrite (fs.node out) = true →
      (main bd h c fs args).1.content (fs.node out) = (main bd h c' fs' args').1.content (fs'.node out')) := by
  rw [main_written bd h c fs args out inp hcfg, main_written bd h c' fs' args' out' inp' hcfg', ← hs, ← hrd, ← hwr]
  cases hs : fs.content (fs.node inp) with
  | none => simp
  | some src =>
    have hw : ∀ b, written bd h (c b) = written bd h (c' b) := fun b => by
      unfold written; rw [readFrom_splits bd hc hc']
    simp only [if_neg hd, if_neg hd', hw]
    by_cases ho : fs.canRead (fs.node inp) = true ∧ fs.canWrite (fs.node out) = true
    · simp [ho.1, ho.2, FS.set]
    · rw [if_neg ho, if_neg ho]
      exact ⟨rfl, fun _ h1 h2 => absurd ⟨h1, h2⟩ ho⟩

/-- Replace the contents of a file, or not. -/
def put (fs : FS) (n : Nat) : Option Bytes → FS
  | none => fs
  | some b => fs.set n b

theorem put_node (fs : FS) (n : Nat) (b : Option Bytes) : (put fs n b).node = fs.node := by cases b <;> rfl
theorem put_canRead (fs : FS) (n : Nat) (b : Option Bytes) : (put fs n b).canRead = fs.canRead := by cases b <;> rfl
theorem put_canWrite (fs : FS) (n : Nat) (b : Option Bytes) : (put fs n b).canWrite = fs.canWrite := by cases b <;> rfl
theorem put_content (fs : FS) {n m : Nat} (b : Option Bytes) (hm : m ≠ n) :
    (put fs n b).content m = fs.content m := by
  cases b
  · rfl
  · simp [put, FS.set, hm]
theorem put_comm (fs : FS) {n m : Nat} (hnm : n ≠ m) (b c : Option Bytes) :
    put (put fs n b) m c = put (put fs m c) n b := by
  cases b <;> cases c <;> first | rfl | exact set_comm fs hnm _ _

/-- The effect of a run, the same on all file systems that look the same to it. -/
theorem effect (bd : Build) (h : Endian) (c : Bytes → List Bytes) (fs : FS) (args : List Str) (out inp : Str)
    (hcfg : Config.init args = .ok ⟨out, inp⟩) :
    ∃ eff r, ∀ fs' : FS, fs'.node = fs.node → fs'.canRead = fs.canRead → fs'.canWrite = fs.canWrite →
      fs'.content (fs.node inp) = fs.content (fs.node inp) →
      main bd h c fs' args = (put fs' (fs.node out) eff, r) := by
  cases hs : fs.content (fs.node inp) with
  | none =>
    refine ⟨none, .error .panic, fun fs' h1 h2 h3 h4 => ?_⟩
    rw [main_written bd h c fs' args out inp hcfg, h1, h4]
    rfl
  | some src =>
    by_cases ho : fs.canRead (fs.node inp) = true ∧ fs.canWrite (fs.node out) = true
    · refine ⟨some (written bd h (c (if fs.node inp = fs.node out then [] else src))).1,
        (written bd h (c (if fs.node inp = fs.node out then [] else src))).2, fun fs' h1 h2 h3 h4 => ?_⟩
      rw [main_written bd h c fs' args out inp hcfg, h1, h2, h3, h4]
      simp only
      rw [if_pos ho]
      rfl
    · refine ⟨none, .error .panic, fun fs' h1 h2 h3 h4 => ?_⟩
      rw [main_written bd h c fs' args out inp hcfg, h1, h2, h3, h4]
      simp only
      rw [if_neg ho]
      rfl

/-- C69: two runs that write different files and do not read each other's output can be made in either
order. -/
theorem C69_commute (bd : Build) (h : Endian) (c : Bytes → List Bytes) (fs : FS) (args args' : List Str)
    (out inp out' inp' : Str)
    (hcfg : Config.init args = .ok ⟨out, inp⟩) (hcfg' : Config.init args' = .ok ⟨out', inp'⟩)
    (hoo : fs.node out ≠ fs.node out') (hoi : fs.node out ≠ fs.node inp') (hio : fs.node inp ≠ fs.node out') :
    (main bd h c (main bd h c fs args).1 args').1 = (main bd h c (main bd h c fs args').1 args).1 ∧
    (main bd h c (main bd h c fs args).1 args').2 = (main bd h c fs args').2 ∧
    (main bd h c (main bd h c fs args').1 args).2 = (main bd h c fs args).2 := by
  obtain ⟨eff, r, he⟩ := effect bd h c fs args out inp hcfg
  obtain ⟨eff', r', he'⟩ := effect bd h c fs args' out' inp' hcfg'
  have e1 := he fs rfl rfl rfl rfl
  have e2 := he' fs rfl rfl rfl rfl
  have e3 := he' (put fs (fs.node out) eff) (put_node ..) (put_canRead ..) (put_canWrite ..)
    (put_content _ _ (Ne.symm hoi))
  have e4 := he (put fs (fs.node out') eff') (put_node ..) (put_canRead ..) (put_canWrite ..) (put_content _ _ hio)
  rw [e1, e2]
  simp only
  rw [e3, e4]
  exact ⟨put_comm fs hoo eff eff', rfl, rfl⟩

/-- Two files, `a.s` (good) and `b.s` (bad), and their outputs. -/
def twoFiles : FS :=
  ⟨fun p => if p = str% "a.s" then 0 else if p = str% "b.s" then 1 else if p = str% "a.o" then 2 else 3,
   fun n => if n = 0 then some (utf8 (str% "f:\nret\n")) else if n = 1 then some (utf8 (str% "x y z\n"))
     else if n = 2 then some [1, 2, 3] else none,
   fun _ => true, fun _ => true⟩

/-- The hypotheses hold for these two runs; one succeeds, replacing an old output, and one fails. -/
example : Splits (fun b => if b = [] then [] else [b]) ∧
    Config.init [str% "as", str% "a.s"] = .ok ⟨str% "a.o", str% "a.s"⟩ ∧
    Config.init [str% "as", str% "b.s"] = .ok ⟨str% "b.o", str% "b.s"⟩ ∧
    (main .debug .little (fun b => if b = [] then [] else [b]) twoFiles [str% "as", str% "a.s"]).2 = .ok () ∧
    (main .debug .little (fun b => if b = [] then [] else [b]) twoFiles [str% "as", str% "b.s"]).2 ≠ .ok () :=
  ⟨fun b => by by_cases hb : b = [] <;> simp [hb], by decide +kernel, by decide +kernel, by decide +kernel,
    by decide +kernel⟩

end AT.Props
