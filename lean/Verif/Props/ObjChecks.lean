import Verif.Proofs.ObjChecks
import Verif.Props.Outcome
/-!
# Which objects a debug build writes (C82)
-/

namespace AT.Props
open AT.Asm AT.AsmSpec AT.Obj AT.Mac AT.MachO AT.ObjSpec

/-- C82: a debug build writes the file if all the sums it computes fit, and names and relocations can be
expressed; otherwise it panics. -/
theorem C82_result (h : Endian) (o : Object) (ht : o.sections.text.bytes.length < 2 ^ 64)
    (hd : o.sections.data.bytes.length < 2 ^ 64) :
    ((writeInto .debug h o).res = .ok () ↔
      SegmentFits o ∧ SymtabFits o ∧ SymbolsFit o ∧ Expressible o) ∧
    ((writeInto .debug h o).res = .error .panic ↔
      ¬ (SegmentFits o ∧ SymtabFits o ∧ SymbolsFit o ∧ Expressible o)) := by
  obtain ⟨c1, c2, c3, c4, c5⟩ := writeInto_debug h o ht hd
  have hst : SymtabFits o → castSymStart (parts o) < 2 ^ 32 := fun hs => by
    have := hs.file
    unfold castStrStart at this
    omega
  have key : ¬ (SegmentFits o ∧ SymtabFits o ∧ SymbolsFit o ∧ Expressible o) →
      (writeInto .debug h o).res = .error .panic := by
    intro hn
    by_cases h1 : SegmentFits o
    · by_cases h2 : castSymStart (parts o) < 2 ^ 32
      · by_cases h3 : SymtabFits o
        · exact (c4 h1 h2 h3 (fun hc => hn ⟨h1, h3, hc.2, hc.1⟩)).1
        · exact (c3 h1 h2 h3).1
      · exact (c2 h1 h2).1
    · exact (c1 h1).1
  have key' : SegmentFits o ∧ SymtabFits o ∧ SymbolsFit o ∧ Expressible o →
      (writeInto .debug h o).res = .ok () := by
    rintro ⟨h1, h2, h3, h4⟩
    rw [c5 h1 (hst h2) h2 ⟨h4, h3⟩]
    exact (C78_release h o ht hd).1.2 h4
  by_cases hc : SegmentFits o ∧ SymtabFits o ∧ SymbolsFit o ∧ Expressible o
  · refine ⟨⟨fun _ => hc, key'⟩, ⟨fun he => ?_, fun hn => absurd hc hn⟩⟩
    rw [key' hc] at he; cases he
  · refine ⟨⟨fun he => ?_, fun h' => absurd h' hc⟩, ⟨fun _ => hc, key⟩⟩
    rw [key hc] at he; cases he

/-- C82, what is left: the debug build writes the first `checkedLen o` bytes of what the release build
writes (C78). -/
theorem C82_output (h : Endian) (o : Object) (ht : o.sections.text.bytes.length < 2 ^ 64)
    (hd : o.sections.data.bytes.length < 2 ^ 64) :
    (writeInto .debug h o).out = ((writeInto .release h o).out).take (checkedLen o) ∧
    (writeInto .debug h o).out.length = checkedLen o := by
  have hp := parts_eq o ht hd
  have hl : (parts o).length = o.sections.iter.length := by rw [hp, List.length_map]
  obtain ⟨c1, c2, c3, c4, c5⟩ := writeInto_debug h o ht hd
  have hR := (writeInto_after_rel h hp).out
  have cut : ∀ {a b : Bytes} {n : Nat}, a.length = n → (a ++ b).take n = a := by
    rintro a b _ rfl; simp
  have e1 := length_headerBytes h (headerOf (parts o))
  have e2 := length_segmentBytes h (segmentOf (parts o)) (by simp [segmentOf])
  have e3 := length_sections h (cmdsEnd (parts o)) (relocStart (parts o)) o.sections.iter 0
  have e4 := length_cmdBytes h (parts o) o.sections.iter hl
  have e5 := length_dataBytes (parts o)
  have e6 : relocStart (parts o) = cmdsEnd (parts o) + roundUp8 (dataLen (parts o)) := rfl
  unfold checkedLen
  by_cases h1 : SegmentFits o
  · rw [if_neg (not_not_intro h1)]
    by_cases h2 : castSymStart (parts o) < 2 ^ 32
    · rw [if_neg (not_not_intro h2)]
      by_cases h3 : SymtabFits o
      · rw [if_neg (not_not_intro h3)]
        by_cases h4 : Expressible o ∧ SymbolsFit o
        · rw [if_neg (not_not_intro h4), c5 h1 h2 h3 h4]
          have hlen := (((C78_release h o ht hd).2.2 h4.1 _).2 rfl).length
          exact ⟨(List.take_of_length_le (by omega)).symm, hlen⟩
        · rw [if_pos h4, (c4 h1 h2 h3 h4).2]
          have hlen : (cmdBytes h (parts o) o.sections.iter ++ dataBytes (parts o)).length =
              relocStart (parts o) := by rw [List.length_append, e4, e5, e6]
          exact ⟨by rw [hR, cut hlen], hlen⟩
      · rw [if_pos h3, (c3 h1 h2 h3).2]
        have hlen : (headerBytes h (headerOf (parts o)) ++ (segmentBytes h (segmentOf (parts o)) ++
            (sectionsFrom 0 (cmdsEnd (parts o)) (relocStart (parts o)) o.sections.iter).flatMap
              (sectionBytes h))).length = 32 + 72 + 80 * (parts o).length := by
          rw [List.length_append, List.length_append, e1, e2, e3, hl]
          omega
        refine ⟨?_, hlen⟩
        rw [hR]
        unfold cmdBytes
        simp only [List.append_assoc]
        rw [← List.append_assoc, ← List.append_assoc, ← List.append_assoc (bs := List.flatMap _ _),
          List.append_assoc (bs := segmentBytes _ _), cut hlen]
    · rw [if_pos h2, (c2 h1 h2).2]
      have hlen : (headerBytes h (headerOf (parts o)) ++ segmentBytes h (segmentOf (parts o))).length =
          32 + 72 := by rw [List.length_append, e1, e2]
      refine ⟨?_, hlen⟩
      rw [hR]
      unfold cmdBytes
      simp only [List.append_assoc]
      rw [← List.append_assoc, cut hlen]
  · rw [if_pos h1, (c1 h1).2]
    refine ⟨?_, e1⟩
    rw [hR]
    unfold cmdBytes
    simp only [List.append_assoc]
    rw [cut e1]

/-- C82, the program in a debug build (input and output being different files that can be opened): it
succeeds exactly if the object passes the checks, and leaves the file, or its beginning. -/
theorem C82_run (h : Endian) (chunking : Bytes → List Bytes) (fs : FS) (args : List Str)
    (out inp : Str) (src : Bytes) (hcfg : Asm.Config.init args = .ok ⟨out, inp⟩)
    (hd : fs.node inp ≠ fs.node out) (hs : fs.content (fs.node inp) = some src)
    (hrd : fs.canRead (fs.node inp) = true) (hwr : fs.canWrite (fs.node out) = true)
    (hch : (chunking src).flatten = src ∧ ∀ c ∈ chunking src, c ≠ []) (hsize : src.length < 2 ^ 60)
    (ls : List Line) (hp : Program .debug src ls) (hb : NoBssContent ls) (hw : Within .debug ls) :
    ((main .debug h chunking fs args).2 = .ok () ↔ SegmentFits (objectOf ls) ∧ SymtabFits (objectOf ls) ∧
      SymbolsFit (objectOf ls) ∧ Expressible (objectOf ls)) ∧
    (main .debug h chunking fs args).1.content (fs.node out) =
      some (((writeInto .release h (objectOf ls)).out).take (checkedLen (objectOf ls))) := by
  obtain ⟨_, r2⟩ := C52_result .debug h chunking fs args out inp src hcfg hd hs hrd hwr
  obtain ⟨h1, _⟩ := C79_assemble .debug (chunking src) hch.2
  rw [hch.1] at h1
  obtain ⟨a, ha, hobj⟩ := (h1 (objectOf ls)).2 ⟨ls, hp, hb, hw, rfl⟩
  obtain ⟨e1, e2⟩ := r2 a ha
  obtain ⟨c1, c2⟩ := wrap_conditions hp hsize
  have hwo : a.writeInto .debug h = writeInto .debug h (objectOf ls) := by unfold Assembler.writeInto; rw [hobj]
  rw [e1, e2, hwo]
  exact ⟨(C82_result h _ c1 c2).1, by rw [(C82_output h _ c1 c2).1]⟩

/-! ## Examples: an object that fails at each of the checks -/

/-- The sections take all of memory: only the header is written. -/
example (h : Endian) : ((writeInto .debug h fullMemory).out).length = 32 := by
  rw [(C82_output h fullMemory (by decide) (by decide)).2]
  unfold checkedLen
  rw [if_pos]
  exact fun hs => absurd hs.vm (by decide +kernel)

theorem parts_codeOnly {b : Bytes} (h : b ≠ []) : parts (codeOnly b) =
    [⟨str% "__text", str% "__TEXT", b, b.length, false, [], []⟩] := by
  unfold parts codeOnly
  simp [h]

/-- Code of almost `2 ^ 32` bytes: header and segment command are written. -/
example (h : Endian) (b : Bytes) (hl : b.length = 2 ^ 32 - 8) :
    ((writeInto .debug h (codeOnly b)).out).length = 104 := by
  have hb : b ≠ [] := by rintro rfl; simp at hl
  rw [(C82_output h (codeOnly b) (by show b.length < _; omega) (by show 0 < _; omega)).2]
  have hp := parts_codeOnly hb
  have e : castData (parts (codeOnly b)) = 2 ^ 32 - 8 := by
    rw [hp]; simp [castData, castSum, roundUp8, hl]
  unfold checkedLen
  rw [if_neg (not_not_intro ⟨by rw [hp]; simp [vmLen, hl], by rw [e]; omega⟩), if_pos]
  unfold castSymStart cmdsEnd
  rw [e]
  omega

/-- Code with one symbol. -/
def codeSymbol (b : Bytes) : Object := { sections := {
  text := { bytes := b, symbols := [.ref (str% "x") 0 true], relocs := [] }
  data := { bytes := [], symbols := [], relocs := [] }
  bss := { size := 0, symbols := [] } } }

/-- Code of almost `2 ^ 32` bytes with a symbol that has no room: the header of the section is written
too. -/
example (h : Endian) (b : Bytes) (hl : b.length = 2 ^ 32 - 216) :
    ((writeInto .debug h (codeSymbol b)).out).length = 184 := by
  have hb : b ≠ [] := by rintro rfl; simp at hl
  rw [(C82_output h (codeSymbol b) (by show b.length < _; omega) (by show 0 < _; omega)).2]
  have hp : parts (codeSymbol b) =
      [⟨str% "__text", str% "__TEXT", b, b.length, false, [.ref (str% "x") 0 true], []⟩] := by
    unfold parts codeSymbol
    simp [hb]
  have e : castData (parts (codeSymbol b)) = 2 ^ 32 - 216 := by
    rw [hp]; simp [castData, castSum, roundUp8, hl]
  have e2 : castSymStart (parts (codeSymbol b)) = 2 ^ 32 - 8 := by
    unfold castSymStart
    rw [e, hp]
    simp [cmdsEnd, castSum]
  have e3 : castStrStart (parts (codeSymbol b)) = 2 ^ 32 + 8 := by
    unfold castStrStart
    rw [e2, hp]
    simp [castSum]
  unfold checkedLen
  rw [if_neg (not_not_intro ⟨by rw [hp]; simp [vmLen, hl], by rw [e]; omega⟩),
    if_neg (not_not_intro (by rw [e2]; omega)), if_pos]
  · rw [hp]; rfl
  · exact fun hs => absurd hs.file (by rw [e3]; omega)

/-- The address of a symbol does not fit: everything before the relocations is written. -/
example (h : Endian) : (writeInto .debug h farSymbol).res = .error .panic ∧
    ((writeInto .debug h farSymbol).out).length = 32 + 72 + 160 + 24 + 8 := by
  have hns : ¬ SymbolsFit farSymbol :=
    fun h => absurd (h.refs 1 (str% "x") 0xFFFFFFFFFFFFFFFF false (by decide +kernel)) (by decide +kernel)
  refine ⟨(C82_result h farSymbol (by decide) (by decide)).2.2 (fun hc => hns hc.2.2.1), ?_⟩
  rw [(C82_output h farSymbol (by decide) (by decide)).2]
  unfold checkedLen
  rw [if_neg (not_not_intro ⟨by decide +kernel, by decide +kernel⟩), if_neg (not_not_intro (by decide +kernel)),
    if_neg (not_not_intro ⟨by decide +kernel, by decide +kernel⟩), if_pos (fun hc => hns hc.2)]
  decide +kernel

/-- An object that passes all checks. -/
example : SegmentFits sampleObject ∧ SymtabFits sampleObject ∧ SymbolsFit sampleObject ∧
    Expressible sampleObject :=
  (C82_result .little sampleObject (by decide) (by decide)).1.1 (by decide +kernel)

/-- Code of `2 ^ 32` bytes passes the checks, as its length is cast to 0, and does not fit. -/
example (h : Endian) (b : Bytes) (hl : b.length = 2 ^ 32) :
    (writeInto .debug h (codeOnly b)).res = .ok () ∧ ¬ Fits (codeOnly b) := by
  have hb : b ≠ [] := by rintro rfl; simp at hl
  have hp := parts_codeOnly hb
  have hnames : symNames (codeOnly b) = [] := by unfold symNames; rw [hp]; rfl
  have hrel : allRelocs (codeOnly b) = [] := by unfold allRelocs; rw [hp]; rfl
  refine ⟨(C82_result h (codeOnly b) (by show b.length < _; omega) (by show 0 < _; omega)).1.2
    ⟨⟨?_, ?_⟩, ⟨?_, ?_⟩, ⟨?_, ?_⟩, ⟨?_, ?_, ?_⟩⟩, fun hf => ?_⟩
  · rw [hp]; simp [vmLen, hl]
  · rw [hp]; simp [castData, castSum, roundUp8, hl]
  · rw [hp]; simp [castStrStart, castSymStart, cmdsEnd, castData, castSum, roundUp8, hl]
  · rw [hnames]; decide
  · rw [hnames]; simp
  · rw [hp]; simp [placed]
  · rw [hnames]; simp
  · rw [hrel]; simp
  · rw [hrel]; simp
  · have := hf.file
    rw [hp] at this
    simp [strStart, symStart, relocStart, dataLen, roundUp8, hl] at this
    omega

end AT.Props
