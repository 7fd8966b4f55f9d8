import Verif.Proofs.MacDecode
import Verif.Props.Mac
/-!
# C81: every reader decodes exactly the documented layout
-/

namespace AT.Props
open AT.Mac AT.MachO

/-- C81.  Whatever bytes it is given, each reader returns a structure exactly when the bytes stand for
it, leaves what comes after, and panics when they stand for nothing. -/
theorem C81_structures (bd : Build) (e : Endian) (s : Bytes) :
    Decodes (Header64.readFrom e s) s (fun x n => HeaderAt e s x.1 x.2 ∧ n = 32) ∧
    Decodes (SegmentCommand64.readFromIn bd e s) s (fun x n => SegmentAt bd e s 0 x ∧ n = 72) ∧
    Decodes (Section64.readFromIn e s) s (fun x n => SectionAt e s 0 x ∧ n = 80) ∧
    Decodes (SymtabCommand.readFromIn e s) s (fun x n => SymtabAt e s 0 x ∧ n = 24) ∧
    Decodes (DysymtabCommand.readFromIn e s) s (fun x n => DysymtabAt e s 0 x ∧ n = 80) ∧
    Decodes (BuildVersionCommand.readFromIn bd e s) s (fun x n => BuildVersionAt bd e s 0 x ∧ n = 24) ∧
    Decodes (BuildToolVersion.readFromIn e s) s (fun x n => ToolAt e s 0 x ∧ n = 8) ∧
    Decodes (NList64.readFromIn e s) s (fun x n => NListAt e s 0 x ∧ n = 16) ∧
    Decodes (RelocationInfo.readFromIn e s) s (fun x n => RelocAt e s 0 x ∧ n = 8) := by
  refine ⟨decodes_fixed (At := fun x => HeaderAt e s x.1 x.2) (fun x s' => header_exact e s x.1 x.2 s')
    (header_fixed e), decodes_fixed ?_ (segment_fixed bd e), decodes_fixed ?_ (section_fixed e),
    decodes_fixed ?_ (symtab_fixed e), decodes_fixed ?_ (dysymtab_fixed e),
    decodes_fixed ?_ (buildVersion_fixed bd e), decodes_fixed ?_ (tool_fixed e),
    decodes_fixed ?_ (nlist_fixed e), decodes_fixed ?_ (reloc_fixed e)⟩
  · intro x s'; simpa using segment_exact bd e s 0 x s'
  · intro x s'; simpa using section_exact e s 0 x s'
  · intro x s'; simpa using symtab_exact e s 0 x s'
  · intro x s'; simpa using dysymtab_exact e s 0 x s'
  · intro x s'; simpa using buildVersion_exact bd e s 0 x s'
  · intro x s'; simpa using tool_exact e s 0 x s'
  · intro x s'; simpa using nlist_exact e s 0 x s'
  · intro x s'; simpa using reloc_exact e s 0 x s'

/-- C81.  The same for a load command with the sections or tools that belong to it. -/
theorem C81_load_command (bd : Build) (e : Endian) (s : Bytes) :
    Decodes (LoadCommand.readFromIn bd e s) s (CommandAt bd e s) := by
  refine decodes_of (load_exact bd e s) ?_ (load_panics bd e)
  intro c n h
  have h1 := (load_exact bd e s c _).2 ⟨n, h, rfl⟩
  obtain ⟨h2, h3⟩ := C21_load_command_consumes bd e s _ c h1
  cases h <;> exact h2

theorem determined_of {α : Type} {r : Res α} {P : α → Prop} (h : ∀ x, r = .ok x ↔ P x)
    (he : ∀ e, r = .error e → e = .panic) : Determined r P := by
  refine ⟨h, fun hn => ?_⟩
  cases r with
  | error e => rw [he e rfl]
  | ok x => exact absurd ⟨x, (h x).1 rfl⟩ hn

/-- C81.  A string table, whatever its bytes: the string at an index is the text before the next NUL;
pushing appends the ASCII bytes and a NUL; `iter` gives the strings after the first NUL. -/
theorem C81_string_table (t : StringTable) :
    (∀ idx, Determined (t.get idx) fun s =>
      idx ≤ t.data.length ∧ utf8 s = (t.data.drop idx).takeWhile (· ≠ 0)) ∧
    (∀ s, Determined (t.pushWithNull s) fun t' => (∀ c ∈ s, c.toNat < 128) ∧ t'.data = t.data ++ utf8 s ++ [0]) ∧
    Determined t.iter (fun l => ∃ p, t.data = p ++ l.flatMap (fun s => 0 :: utf8 s) ∧ (0 : UInt8) ∉ p ∧
      ∀ s ∈ l, (0 : UInt8) ∉ utf8 s) := by
  refine ⟨fun idx => ?_, fun s => ?_, determined_of (iter_exact t) ?_⟩
  · have e : ∀ b : Bytes, b.takeWhile (fun x => decide (x ≠ 0)) = b.takeWhile (· != 0) := by
      intro b
      congr 1
      funext x
      by_cases hx : x = 0 <;> simp [hx]
    rw [StringTable.get]
    by_cases h : idx ≤ t.data.length
    · simp only [h, decide_true, rassert, if_true, bind, Except.bind, true_and, e]
      refine determined_of (fun x => ?_) (runwrap_err _)
      rw [runwrap_ok, fromUtf8_iff]
    · refine determined_of (fun x => ?_) (fun e he => ?_)
      · simp [h, rassert, bind, Except.bind]
      · simp only [h, decide_false, rassert, Bool.false_eq_true, if_false, bind, Except.bind,
          Except.error.injEq] at he
        exact he.symm
  · have hiff : (s.all charIsAscii = true) ↔ ∀ c ∈ s, c.toNat < 128 := by
      simp [List.all_eq_true, charIsAscii]
    rw [StringTable.pushWithNull]
    by_cases h : s.all charIsAscii = true
    · have h' := hiff.1 h
      refine determined_of (fun x => ?_) (fun e he => ?_)
      · rw [h]
        simp only [rassert, if_true, bind, Except.bind, pure, Except.pure, Except.ok.injEq]
        rw [utf8_ascii s h]
        obtain ⟨d⟩ := x
        simp only [StringTable.mk.injEq]
        exact ⟨fun h => ⟨h', h.symm⟩, fun h => h.2.symm⟩
      · rw [h] at he; simp [rassert, bind, Except.bind, pure, Except.pure] at he
    · have h0 : s.all charIsAscii = false := by simpa using h
      refine determined_of (fun x => ?_) (fun e he => ?_)
      · rw [h0]
        simp only [rassert, Bool.false_eq_true, if_false, bind, Except.bind, reduceCtorEq, false_iff]
        exact fun hh => h (hiff.2 hh.1)
      · rw [h0] at he
        simp only [rassert, Bool.false_eq_true, if_false, bind, Except.bind, Except.error.injEq] at he
        exact he.symm
  · exact fun e he => mapM_runwrap_err _ _ _ he

/-! A section name with bytes after the NUL and a name that is not ASCII are read; the two bytes of `é`
cut in the middle are not. -/

example : (Section64.readFromIn .little
      ([0x5f, 0xc3, 0xa9, 0, 0xff] ++ List.replicate 11 0x41 ++ [0x62] ++ List.replicate 15 0 ++
        List.replicate 32 0 ++ [1, 4, 0, 0x80] ++ List.replicate 12 0 ++ [7])) =
    .ok (⟨str% "_é", str% "b", 0, 0, 0, 0, 0, 0, [.someInstructions, .pureInstructions], .zerofill, 0, 0, 0⟩,
      [7]) := by decide +kernel

example : (Section64.readFromIn .little
      ([0x5f, 0xc3, 0, 0xa9, 0xff] ++ List.replicate 11 0x41 ++ List.replicate 64 0)) = .error .panic := by
  decide +kernel

/-! A debugging symbol: the low bits of its type byte are ignored; other debugging symbols are not read. -/

example : NList64.readFromIn .big ([0, 0, 0, 9, 0x24, 1, 0, 2, 0, 0, 0, 0, 0, 0, 0, 5]) =
    .ok (⟨9, .stab .gsym, 1, 2, 5⟩, []) ∧
    NList64.readFromIn .big ([0, 0, 0, 9, 0x44, 1, 0, 2, 0, 0, 0, 0, 0, 0, 0, 5]) = .error .panic := by
  decide +kernel

/-! A header of the other byte order; a fat file. -/

example : Header64.readFrom .little ([0xfe, 0xed, 0xfa, 0xcf, 1, 0, 0, 7, 0, 0, 0, 3, 0, 0, 0, 1, 0, 0, 0, 2,
      0, 0, 1, 0x40, 0, 0, 0x20, 0x01, 0, 0, 0, 0, 0xaa]) =
    .ok ((⟨.cigam64, .x86_64 .all, .object, 2, 320, [.noUndefs, .subsectionsViaSymbols], 0⟩, .big), [0xaa]) ∧
    Header64.readFrom .little ([0xbe, 0xba, 0xfe, 0xca] ++ List.replicate 28 0) = .error .panic := by
  decide +kernel

/-! A build-version command with two tools. -/

example : LoadCommand.readFromIn .debug .little ([0x32, 0, 0, 0, 40, 0, 0, 0, 1, 0, 0, 0, 4, 15, 10, 0,
      0, 0, 11, 0, 2, 0, 0, 0, 3, 0, 0, 0, 5, 0, 0, 0, 1, 0, 0, 0, 6, 0, 0, 0, 0x77]) =
    .ok (.buildVersion ⟨0x32, 40, .macOS, ⟨10, 15, 4⟩, ⟨11, 0, 0⟩, 2⟩ [⟨.ld, 5⟩, ⟨.clang, 6⟩], [0x77]) := by
  decide +kernel

example : StringTable.iter ⟨[0, 0x61, 0, 0xc3, 0xa9, 0]⟩ = .ok [str% "a", str% "é", []] ∧
    StringTable.iter ⟨[0, 0x61, 0, 0xc3, 0]⟩ = .error .panic := by decide +kernel

end AT.Props
