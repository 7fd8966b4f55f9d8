import Verif.Proofs.Builds
import Verif.Props.Main
/-!
# Debug and release builds agree (C63)
-/

namespace AT.Props
open AT.Asm AT.Mac AT.Obj

/-- C63: unless the debug build of the program panics, the release build ends in the same way and
leaves the same files. -/
theorem C63_main (h : Endian) (chunking : Bytes → List Bytes) (fs : FS) (args : List Str)
    (hd : (main .debug h chunking fs args).2 ≠ .error .panic) :
    main .release h chunking fs args = main .debug h chunking fs args := by
  unfold main at hd ⊢
  cases hc : Config.init args with
  | error e => rfl
  | ok cfg =>
    simp only [hc] at hd ⊢
    cases hn : fs.content (fs.node cfg.inputPath) with
    | none => rfl
    | some b =>
      simp only [hn] at hd ⊢
      split
      · rfl
      · rename_i h1
        rw [if_neg h1] at hd
        split
        · rfl
        · rename_i h2
          rw [if_neg h2] at hd
          rcases agree_readFrom Assembler.new
            (chunking (((fs.set (fs.node cfg.outputPath) []).content (fs.node cfg.inputPath)).getD [])) with ha | ha
          · rw [ha] at hd; exact absurd rfl hd
          · rw [ha]
            split
            · rfl
            · rename_i a ha'
              rw [ha'] at hd
              simp only at hd
              rcases agree_writeInto h a.obj with ⟨hw, _⟩ | hw
              · exact absurd hw hd
              · simp only [Assembler.writeInto, hw]

/-- C63 for the assembler as a library: what it reads. -/
theorem C63_read_from (a : Assembler) (chunks : List Bytes) (hd : a.readFrom .debug chunks ≠ .error .panic) :
    a.readFrom .release chunks = a.readFrom .debug chunks :=
  (agree_readFrom a chunks).resolve_left hd

/-- C63 for the object writer: it also writes, before panicking in a debug build, the beginning of
what the release build writes. -/
theorem C63_write_into (h : Endian) (o : Object) :
    ((writeInto .debug h o).res ≠ .error .panic →
      (writeInto .release h o).res = (writeInto .debug h o).res ∧
      (writeInto .release h o).out = (writeInto .debug h o).out) ∧
    (writeInto .debug h o).out <+: (writeInto .release h o).out := by
  rcases agree_writeInto h o with ⟨h1, p, hp⟩ | hw
  · refine ⟨fun hne => absurd h1 hne, p.flatten, ?_⟩
    unfold Wr.out
    rw [← hp, List.flatten_append]
  · rw [hw]
    exact ⟨fun _ => ⟨rfl, rfl⟩, List.prefix_refl _⟩

/-- C63 for the load command reader. -/
theorem C63_load_command (e : Endian) (bs : Bytes) (hd : LoadCommand.readFromIn .debug e bs ≠ .error .panic) :
    LoadCommand.readFromIn .release e bs = LoadCommand.readFromIn .debug e bs :=
  (agree_loadCommand e bs).resolve_left hd

/-- C63 for a line. -/
theorem C63_line (s : Str) (hd : parseLine .debug s ≠ .error .panic) :
    parseLine .release s = parseLine .debug s :=
  (agree_line s).resolve_left hd

/-- The condition is needed: here the builds differ. -/
example : parseLine .debug (str% "mov rax, 0x7fffffffffffffff + 1") = .error .panic ∧
    ∃ i, parseLine .release (str% "mov rax, 0x7fffffffffffffff + 1") = .ok (.instruction i) :=
  ⟨by decide +kernel, ⟨_, rfl⟩⟩

/-- And here they agree. -/
example : parseLine .debug (str% "mov rax, 5 + 1") ≠ .error .panic := by decide +kernel

end AT.Props
