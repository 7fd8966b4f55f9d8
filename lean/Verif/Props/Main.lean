import Verif.Props.Asm
import Verif.Spec.Path
/-!
# Properties of the command line program (C51, C52)
-/

namespace AT.Props
open AT.Asm AT.AsmSpec

/-! ## C51 -/

theorem last_slash {dir : Str} (h : dir = [] ∨ dir.getLast? = some '/') :
    dir = [] ∨ ∃ d, dir.reverse = '/' :: d := by
  rcases h with h | h
  · exact .inl h
  · refine .inr ?_
    rw [← List.head?_reverse] at h
    cases hr : dir.reverse with
    | nil => rw [hr] at h; simp at h
    | cons c d => rw [hr] at h; simp at h; subst h; exact ⟨d, rfl⟩

theorem takeWhile_slash {name d : Str} (hn : '/' ∉ name) (hd : d = [] ∨ ∃ e, d = '/' :: e) :
    (name ++ d).takeWhile (· != '/') = name ∧ (name ++ d).dropWhile (· != '/') = d := by
  have h : ∀ x ∈ name, (x != '/') = true := by
    intro x hx
    have : x ≠ '/' := fun he => hn (he ▸ hx)
    simpa using this
  rw [List.takeWhile_append_of_pos h, List.dropWhile_append_of_pos h]
  rcases hd with rfl | ⟨e, rfl⟩
  · simp
  · simp

/-- The last component of a path ending in a file name. -/
theorem lastComp {dir name : Str} (hd : dir = [] ∨ dir.getLast? = some '/') (hne : name ≠ [])
    (hs : '/' ∉ name) (h1 : name ≠ str% ".") (h2 : name ≠ str% "..") :
    lastCompRev (dir ++ name).reverse = some (dir, name) := by
  rw [List.reverse_append]
  obtain ⟨t1, t2⟩ := takeWhile_slash (name := name.reverse) (by simpa using hs) (d := dir.reverse) (by
    rcases last_slash hd with h | h
    · exact .inl (by rw [h]; rfl)
    · exact .inr h)
  have hgo : ∀ s : Str, s = name.reverse ++ dir.reverse → lastCompRev s = some (dir, name) := by
    intro s hs'
    unfold lastCompRev
    have hrn : name.reverse ≠ [] := by simpa using hne
    split
    · cases hr : name.reverse with
      | nil => exact absurd hr hrn
      | cons c n => rw [hr] at hs'; cases hs'
    · rename_i rest
      cases hr : name.reverse with
      | nil => exact absurd hr hrn
      | cons c n =>
        rw [hr] at hs'
        simp only [List.cons_append, List.cons.injEq] at hs'
        exact absurd (by rw [← List.mem_reverse, hr, ← hs'.1]; simp) hs
    · rename_i rest
      cases hr : name.reverse with
      | nil => exact absurd hr hrn
      | cons c n =>
        rw [hr] at hs'
        simp only [List.cons_append, List.cons.injEq] at hs'
        obtain ⟨rfl, hs'⟩ := hs'
        cases n with
        | nil =>
          have := congrArg List.reverse hr
          rw [List.reverse_reverse] at this
          exact absurd this h1
        | cons c n =>
          simp only [List.cons_append, List.cons.injEq] at hs'
          exact absurd (by rw [← List.mem_reverse, hr, ← hs'.1]; simp) hs
    · cases hr : name.reverse with
      | nil => exact absurd hr hrn
      | cons c n =>
        rw [hr] at hs'
        simp only [List.cons_append, List.cons.injEq] at hs'
        obtain ⟨rfl, hs'⟩ := hs'
        cases n with
        | nil =>
          have := congrArg List.reverse hr
          rw [List.reverse_reverse] at this
          exact absurd this h1
        | cons c n => simp at hs'
    · simp only
      rw [hs', t1, t2, if_neg]
      · simp
      · intro hc
        have := congrArg List.reverse hc
        rw [List.reverse_reverse] at this
        exact h2 this
  exact hgo _ rfl

theorem takeWhile_dot {e s : Str} (he : '.' ∉ e) :
    (e ++ '.' :: s).takeWhile (· != '.') = e ∧ (e ++ '.' :: s).dropWhile (· != '.') = '.' :: s := by
  have h : ∀ x ∈ e, (x != '.') = true := by
    intro x hx
    have : x ≠ '.' := fun h => he (h ▸ hx)
    simpa using this
  rw [List.takeWhile_append_of_pos h, List.dropWhile_append_of_pos h]
  simp

theorem fileStem_ext {stem e : Str} (hs : stem ≠ []) (he : '.' ∉ e) : fileStem (stem ++ '.' :: e) = stem := by
  unfold fileStem
  have hr : (stem ++ '.' :: e).reverse = e.reverse ++ '.' :: stem.reverse := by simp
  obtain ⟨t1, t2⟩ := takeWhile_dot (s := stem.reverse) (e := e.reverse) (by simpa using he)
  simp only [hr, t1, t2]
  rw [if_neg (by simp), if_neg (by simpa using hs)]
  simp

theorem fileStem_none {name : Str} (h : '.' ∉ name) : fileStem name = name := by
  unfold fileStem
  have h' : ∀ x ∈ name.reverse, (x != '.') = true := by
    intro x hx
    have : x ≠ '.' := fun he => h (by rw [← he]; simpa using hx)
    simpa using this
  have : name.reverse.takeWhile (· != '.') = name.reverse := by
    have := List.takeWhile_append_of_pos (l₂ := []) h'
    simpa using this
  simp only [this]
  exact if_pos trivial

theorem fileStem_hidden {name : Str} (h : '.' ∉ name) : fileStem ('.' :: name) = '.' :: name := by
  unfold fileStem
  obtain ⟨t1, t2⟩ := takeWhile_dot (s := []) (e := name.reverse) (by simpa using h)
  have hr : ('.' :: name).reverse = name.reverse ++ ['.'] := by simp
  simp only [hr, t1, t2]
  rw [if_neg (by simp), if_pos (by simp)]

theorem lastCompRev_slash (s : Str) : lastCompRev ('/' :: s) = lastCompRev s := by
  rw [lastCompRev]

theorem lastCompRev_dot (s : Str) : lastCompRev ('.' :: '/' :: s) = lastCompRev s := by
  rw [lastCompRev, lastCompRev]

theorem lastComp_of_hasName {p dir name : Str} (h : HasName p dir name) :
    lastCompRev p.reverse = some (dir, name) := by
  obtain ⟨hd, hne, hs, h1, h2, l, hl, rfl⟩ := h
  rw [← List.reverse_reverse l] at hl ⊢
  generalize l.reverse = l at hl
  induction l with
  | nil => simpa using lastComp hd hne hs h1 h2
  | cons x l ih =>
    have ih := ih (fun y hy => hl y (by simp at hy ⊢; exact .inl hy))
    rcases hl x (by simp) with rfl | rfl
    · simpa [lastCompRev_slash] using ih
    · simpa [lastCompRev_dot] using ih

theorem hasName_of_lastComp (n : Nat) : ∀ s : Str, s.length ≤ n → ∀ dir name,
    lastCompRev s = some (dir, name) → HasName s.reverse dir name := by
  induction n with
  | zero =>
    intro s hs dir name h
    rw [List.length_eq_zero_iff.1 (by omega : s.length = 0)] at h
    simp [lastCompRev] at h
  | succ n ih =>
    intro s hs dir name h
    unfold lastCompRev at h
    split at h
    · cases h
    · rename_i rest
      obtain ⟨hd, hne, hsl, h1, h2, l, hl, hp⟩ := ih rest (by simpa using hs) dir name h
      refine ⟨hd, hne, hsl, h1, h2, l ++ [str% "/"], ?_, by simp [hp]⟩
      intro x hx
      rcases List.mem_append.1 hx with hx | hx
      · exact hl x hx
      · exact .inl (by simpa using hx)
    · rename_i rest
      rw [lastCompRev_slash] at h
      obtain ⟨hd, hne, hsl, h1, h2, l, hl, hp⟩ := ih rest (by simp at hs; omega) dir name h
      refine ⟨hd, hne, hsl, h1, h2, l ++ [str% "/."], ?_, by simp [hp]⟩
      intro x hx
      rcases List.mem_append.1 hx with hx | hx
      · exact hl x hx
      · exact .inr (by simpa using hx)
    · cases h
    · rename_i e1 e2 e3 e4
      simp only at h
      split at h
      · cases h
      · rename_i hdd
        injection h with h
        injection h with hd hn
        have hsplit := List.takeWhile_append_dropWhile (p := fun c : Char => c != '/') (l := s)
        have hns : '/' ∉ s.takeWhile (· != '/') := by
          intro hm
          have := (List.all_eq_true.1 (List.all_takeWhile (l := s) (p := fun c : Char => c != '/'))) _ hm
          simp at this
        refine ⟨?_, ?_, ?_, ?_, ?_, [], by simp, ?_⟩
        · cases hw : s.dropWhile (· != '/') with
          | nil => exact .inl (by rw [← hd, hw]; rfl)
          | cons c t =>
            refine .inr ?_
            have hc := List.head?_dropWhile_not (p := fun c : Char => c != '/') (l := s)
            rw [hw] at hc
            simp at hc
            rw [← hd, hw]
            simp [hc]
        · rintro rfl
          have h0 : s.takeWhile (· != '/') = [] := by simpa using hn
          cases s with
          | nil => exact e1 rfl
          | cons c t =>
            by_cases hc : c = '/'
            · exact e2 t (by rw [hc])
            · simp [hc] at h0
        · rw [← hn]; simpa using hns
        · rintro rfl
          have h0 : s.takeWhile (· != '/') = ['.'] := by
            have := congrArg List.reverse hn
            simpa using this
          rw [h0] at hsplit
          cases hw : s.dropWhile (· != '/') with
          | nil => exact e4 (by rw [← hsplit, hw]; rfl)
          | cons c t =>
            have hc := List.head?_dropWhile_not (p := fun c : Char => c != '/') (l := s)
            rw [hw] at hc
            simp at hc
            exact e3 t (by rw [← hsplit, hw, hc]; rfl)
        · rintro rfl
          have h0 : s.takeWhile (· != '/') = ['.', '.'] := by
            have := congrArg List.reverse hn
            simpa using this
          exact hdd h0
        · rw [← hd, ← hn]
          simp only [List.flatten_nil, List.append_nil]
          rw [← List.reverse_append, hsplit]

theorem hasName_iff {p dir name : Str} : lastCompRev p.reverse = some (dir, name) ↔ HasName p dir name :=
  ⟨fun h => by simpa using hasName_of_lastComp _ p.reverse (Nat.le_refl _) dir name h, lastComp_of_hasName⟩

theorem fileStem_tail {name : Str} (h : '.' ∉ name.tail) : fileStem name = name := by
  cases name with
  | nil => rfl
  | cons c t =>
    by_cases hc : c = '.'
    · rw [hc]; exact fileStem_hidden h
    · exact fileStem_none (by simpa using ⟨fun he => hc he.symm, h⟩)

/-- The last dot of a name. -/
theorem last_dot (name : Str) : '.' ∉ name ∨ ∃ stem e, name = stem ++ '.' :: e ∧ '.' ∉ e := by
  induction name with
  | nil => exact .inl (by simp)
  | cons c t ih =>
    rcases ih with h | ⟨stem, e, rfl, he⟩
    · by_cases hc : c = '.'
      · exact .inr ⟨[], t, by simp [hc], h⟩
      · exact .inl (by simpa using ⟨fun he => hc he.symm, h⟩)
    · exact .inr ⟨c :: stem, e, by simp, he⟩

theorem withExtension_renamed {p q : Str} (h : Renamed p q) : withExtensionO p = q := by
  unfold withExtensionO
  cases h with
  | ext hn hs he => rw [hasName_iff.2 hn]; simp only [fileStem_ext hs he]
  | none hn ht => rw [hasName_iff.2 hn]; simp only [fileStem_tail ht]
  | same hn =>
    split
    · rfl
    · rename_i dir name h
      exact absurd (hasName_iff.1 h) (hn dir name)

/-- Every path has exactly one renamed path. -/
theorem renamed_withExtension (p : Str) : Renamed p (withExtensionO p) := by
  cases h : lastCompRev p.reverse with
  | none =>
    have hw : withExtensionO p = p := by unfold withExtensionO; rw [h]
    rw [hw]
    exact .same fun dir name hn => by rw [hasName_iff.2 hn] at h; cases h
  | some x =>
    obtain ⟨dir, name⟩ := x
    have hn := hasName_iff.1 h
    have hw : withExtensionO p = dir ++ fileStem name ++ str% ".o" := by unfold withExtensionO; rw [h]
    rw [hw]
    rcases last_dot name with hd | ⟨stem, e, rfl, he⟩
    · rw [fileStem_none hd]
      exact .none hn (fun hm => hd (List.mem_of_mem_tail hm))
    · by_cases hs : stem = []
      · subst hs
        rw [List.nil_append] at hn ⊢
        rw [fileStem_hidden he]
        exact .none hn he
      · rw [fileStem_ext hs he]
        exact .ext hn hs he

theorem renamed_iff (p q : Str) : Renamed p q ↔ q = withExtensionO p :=
  ⟨fun h => (withExtension_renamed h).symm, fun h => h ▸ renamed_withExtension p⟩

theorem flag_idx {args pre post : List Str} (h : args = pre ++ str% "-o" :: post) (hp : str% "-o" ∉ pre) :
    args.findIdx? (· == str% "-o") = some pre.length := by
  subst h
  rw [List.findIdx?_append]
  have : pre.findIdx? (· == str% "-o") = none := by
    rw [List.findIdx?_eq_none_iff]
    intro x hx
    have : x ≠ str% "-o" := fun he => hp (he ▸ hx)
    simpa using this
  rw [this, List.findIdx?_cons, if_pos (by decide)]
  simp

/-- How the remaining arguments are used: program name and input. -/
theorem inputArg_eq (args : List Str) :
    (∀ prog inp, args = [prog, inp] → inputArg args = .ok inp) ∧
    (args.length < 2 → inputArg args = .error (.exit 1 (str% "error: input file is not specified\n"))) ∧
    (2 < args.length → inputArg args = .error (.exit 1 (str% "error: invalid command format\n"))) := by
  refine ⟨?_, ?_, ?_⟩
  · rintro prog inp rfl; rfl
  · intro h; unfold inputArg; rw [if_pos h]
  · intro h; unfold inputArg; rw [if_neg (by omega), if_pos h]

/-- C51: the files selected by any argument list.  Without `-o` there must be exactly one argument
after the program name; with `-o` (its first occurrence), the argument after it is the output and
exactly one argument must remain. -/
theorem C51_config (args : List Str) :
    (str% "-o" ∉ args →
      (∀ prog inp, args = [prog, inp] → ∃ out, Config.init args = .ok ⟨out, inp⟩ ∧
        ∀ q, Renamed inp q ↔ q = out) ∧
      (args.length < 2 → Config.init args = .error (.exit 1 (str% "error: input file is not specified\n"))) ∧
      (2 < args.length → Config.init args = .error (.exit 1 (str% "error: invalid command format\n")))) ∧
    (∀ pre, args = pre ++ [str% "-o"] → str% "-o" ∉ pre → Config.init args = .error .panic) ∧
    (∀ pre out post, args = pre ++ str% "-o" :: out :: post → str% "-o" ∉ pre →
      (∀ prog inp, pre ++ post = [prog, inp] → Config.init args = .ok ⟨out, inp⟩) ∧
      ((pre ++ post).length < 2 →
        Config.init args = .error (.exit 1 (str% "error: input file is not specified\n"))) ∧
      (2 < (pre ++ post).length →
        Config.init args = .error (.exit 1 (str% "error: invalid command format\n")))) := by
  refine ⟨?_, ?_, ?_⟩
  · intro h
    have hf : args.findIdx? (· == str% "-o") = none := by
      rw [List.findIdx?_eq_none_iff]
      intro x hx
      have : x ≠ str% "-o" := fun he => h (he ▸ hx)
      simpa using this
    have hi : Config.init args = (inputArg args >>= fun input => pure ⟨withExtensionO input, input⟩) := by
      unfold Config.init; rw [hf]; rfl
    obtain ⟨h1, h2, h3⟩ := inputArg_eq args
    refine ⟨fun prog inp he => ?_, fun hl => by rw [hi, h2 hl]; rfl, fun hl => by rw [hi, h3 hl]; rfl⟩
    exact ⟨withExtensionO inp, by rw [hi, h1 prog inp he]; rfl, fun q => renamed_iff inp q⟩
  · intro pre he hp
    unfold Config.init
    rw [flag_idx he hp]
    subst he
    simp [List.eraseIdx_append_of_length_le, bind, Except.bind]
  · intro pre out post he hp
    have hi : Config.init args = (inputArg (pre ++ post) >>= fun input => pure ⟨out, input⟩) := by
      unfold Config.init
      rw [flag_idx he hp]
      subst he
      simp [List.eraseIdx_append_of_length_le, bind, Except.bind, pure, Except.pure]
    obtain ⟨h1, h2, h3⟩ := inputArg_eq (pre ++ post)
    exact ⟨fun prog inp he => by rw [hi, h1 prog inp he]; rfl, fun hl => by rw [hi, h2 hl]; rfl,
      fun hl => by rw [hi, h3 hl]; rfl⟩

/-- Every argument list is one of the three kinds of C51. -/
theorem C51_cases (args : List Str) : str% "-o" ∉ args ∨
    (∃ pre, args = pre ++ [str% "-o"] ∧ str% "-o" ∉ pre) ∨
    (∃ pre out post, args = pre ++ str% "-o" :: out :: post ∧ str% "-o" ∉ pre) := by
  by_cases h : str% "-o" ∈ args
  · obtain ⟨pre, post, he, hp⟩ := List.eq_append_cons_of_mem h
    cases post with
    | nil => exact .inr (.inl ⟨pre, he, hp⟩)
    | cons out post => exact .inr (.inr ⟨pre, out, post, he, hp⟩)
  · exact .inl h

example : Config.init [str% "as", str% "src/a.b.asm"] = .ok ⟨str% "src/a.b.o", str% "src/a.b.asm"⟩ ∧
    Config.init [str% "as", str% "-o", str% "out", str% "in"] = .ok ⟨str% "out", str% "in"⟩ ∧
    Config.init [str% "as", str% "in", str% "-o", str% "out"] = .ok ⟨str% "out", str% "in"⟩ ∧
    Config.init [str% "as", str% "in", str% "-o"] = .error .panic := by decide +kernel

example : Renamed (str% "src/a.b.asm") (str% "src/a.b.o") ∧ Renamed (str% ".rc") (str% ".rc.o") ∧
    Renamed (str% "src/a.b/./") (str% "src/a.o") ∧ Renamed (str% "src/..") (str% "src/..") := by
  refine ⟨?_, ?_, ?_, ?_⟩ <;> rw [renamed_iff] <;> decide +kernel

example : HasName (str% "src/a.b/./") (str% "src/") (str% "a.b") :=
  ⟨by decide, by decide, by decide, by decide, by decide, [str% "/.", str% "/"], by decide, by decide⟩

/-! ## C52 -/

/-- C52 is false: a syntax error in the input empties an existing output file. -/
theorem C52_counterexample : ∃ (fs : FS) (args : List Str) (old : Bytes), old ≠ [] ∧
    fs.content (fs.node (str% "a.o")) = some old ∧
    (main .debug .little (fun b => [b]) fs args).2 = .error (.exit 1 (str% "error at line 1: unrecognized line\n")) ∧
    (main .debug .little (fun b => [b]) fs args).1.content (fs.node (str% "a.o")) = some [] :=
  ⟨⟨fun p => if p = str% "a.o" then 1 else 0, fun n => if n = 1 then some [1, 2, 3] else some (utf8 (str% "foo\n")),
    fun _ => true, fun _ => true⟩, [str% "as", str% "a.s"], [1, 2, 3], by decide, by decide, by decide +kernel,
    by decide +kernel⟩

/-- C52 is false also for the input: an input named `a.o` is its own default output, so it is emptied
before it is read; the run then "succeeds" and replaces the source by the file of the empty program. -/
theorem C52_input_counterexample : ∃ (fs : FS) (args : List Str) (src : Bytes),
    fs.content (fs.node (str% "a.o")) = some src ∧
    Config.init args = .ok ⟨str% "a.o", str% "a.o"⟩ ∧
    (main .debug .little (fun b => if b = [] then [] else [b]) fs args).2 = .ok () ∧
    (main .debug .little (fun b => if b = [] then [] else [b]) fs args).1.content (fs.node (str% "a.o")) =
      some (Obj.writeInto .debug .little {}).out ∧ src ≠ (Obj.writeInto .debug .little {}).out :=
  ⟨⟨fun _ => 0, fun _ => some (utf8 (str% "ret\n")), fun _ => true, fun _ => true⟩, [str% "as", str% "a.o"],
    utf8 (str% "ret\n"), rfl, by decide +kernel, by decide +kernel, by decide +kernel, by decide +kernel⟩

/-- C52, what holds: whatever happens, only the output file changes, so the input file is unchanged
unless it is the same file as the output; and nothing at all changes if the arguments are wrong, the
input cannot be opened for reading or the output for writing.  Missing (and false): the output file
is unchanged if the input does not assemble. -/
theorem C52_only_output_changes_partial (bd : Build) (h : Mac.Endian) (chunking : Bytes → List Bytes)
    (fs : FS) (args : List Str) :
    (∀ e, Config.init args = .error e → main bd h chunking fs args = (fs, .error e)) ∧
    (∀ out inp, Config.init args = .ok ⟨out, inp⟩ →
      (∀ n, n ≠ fs.node out → (main bd h chunking fs args).1.content n = fs.content n) ∧
      (main bd h chunking fs args).1.node = fs.node ∧
      (fs.content (fs.node inp) = none ∨ fs.canRead (fs.node inp) = false ∨ fs.canWrite (fs.node out) = false →
        main bd h chunking fs args = (fs, .error .panic))) := by
  refine ⟨fun e he => by unfold main; rw [he], fun out inp he => ?_⟩
  unfold main
  rw [he]
  simp only
  refine ⟨?_, ?_, ?_⟩
  · intro n hn
    split
    · rfl
    · split
      · rfl
      · split
        · rfl
        · split
          · simp [FS.set, hn]
          · simp [FS.set, hn]
  · split
    · rfl
    · split
      · rfl
      · split
        · rfl
        · split <;> rfl
  · rintro (h1 | h1 | h1)
    · rw [h1]
    · split
      · rfl
      · rw [h1]; rfl
    · split
      · rfl
      · split
        · rfl
        · rw [h1]; rfl

/-- What `main` leaves when input and output are different files that can be opened: if the input does
not assemble, an empty output file; otherwise everything the writer wrote. -/
theorem C52_result (bd : Build) (h : Mac.Endian) (chunking : Bytes → List Bytes) (fs : FS) (args : List Str)
    (out inp : Str) (src : Bytes) (hc : Config.init args = .ok ⟨out, inp⟩) (hd : fs.node inp ≠ fs.node out)
    (hs : fs.content (fs.node inp) = some src) (hr : fs.canRead (fs.node inp) = true)
    (hw : fs.canWrite (fs.node out) = true) :
    (∀ e, Assembler.new.readFrom bd (chunking src) = .error e →
      (main bd h chunking fs args).2 = .error e ∧
      (main bd h chunking fs args).1.content (fs.node out) = some []) ∧
    (∀ a, Assembler.new.readFrom bd (chunking src) = .ok a →
      (main bd h chunking fs args).2 = (a.writeInto bd h).res ∧
      (main bd h chunking fs args).1.content (fs.node out) = some (a.writeInto bd h).out) := by
  have hm : main bd h chunking fs args =
      match Assembler.new.readFrom bd (chunking src) with
      | .error e => (fs.set (fs.node out) [], .error e)
      | .ok a => ((fs.set (fs.node out) []).set (fs.node out) (a.writeInto bd h).out, (a.writeInto bd h).res) := by
    unfold main
    rw [hc]
    simp only [hs, hr, hw, Bool.not_true, Bool.false_eq_true, if_false]
    rw [show ((fs.set (fs.node out) []).content (fs.node inp)).getD [] = src by simp [FS.set, hd, hs]]
    cases Assembler.new.readFrom bd (chunking src) <;> rfl
  rw [hm]
  constructor
  · intro e he
    rw [he]
    simp [FS.set]
  · intro a ha
    rw [ha]
    simp [FS.set]

end AT.Props
