import Verif.Props.Killed
import Verif.Props.Success
/-!
# Incomplete outputs can be recognised (C108)
-/

namespace AT.Props
open AT AT.Asm AT.AsmSpec AT.Obj AT.Mac AT.MachO AT.ObjSpec

/-- The file can be read up to its load commands, and it ends where the string table ends. -/
def looksWhole (bd : Build) (h : Endian) (f : Bytes) : Bool :=
  match view bd h f with
  | .ok (v, _) => v.symtab.stroff.toNat + v.symtab.strsize.toNat == f.length
  | .error _ => false

theorem loads_reads (bd : Build) (h : Endian) (ps : List Part) (S : List SectionRef)
    (hl : ps.length = S.length) (hb : Bounds ps) :
    Reads (readN (LoadCommand.readFromIn bd h) 2) (segmentBytes h (segmentOf ps) ++
      ((sectionsFrom 0 (cmdsEnd ps) (relocStart ps) S).flatMap (sectionBytes h) ++
          symtabBytes h (symtabOf ps)))
      [.segment64 (segmentOf ps) (readSections ps S), .symtab (symtabOf ps)] := by
  have := (Reads.seq (r := LoadCommand.readFromIn bd h) (enc := loadBytes h) (norm := normLoad)
    [.segment64 (segmentOf ps) (sectionsFrom 0 (cmdsEnd ps) (relocStart ps) S),
      .symtab (symtabOf ps)] (fun c hc => by
        apply load_reads
        simp only [List.mem_cons, List.not_mem_nil, or_false] at hc
        rcases hc with rfl | rfl
        · exact segment_loadOk ps S hl hb
        · exact ⟨rfl, rfl⟩))
  simp only [List.flatMap_cons, List.flatMap_nil, loadBytes, List.append_nil, List.append_assoc,
    List.map_cons, List.map_nil, normLoad, List.length_cons, List.length_nil] at this
  exact this

/-- What a reader on the host `hr` sees in a file written on the host `hw`. -/
def viewOn (hw hr : Endian) (o : Object) : View :=
  { viewOf o with
    header := { headerOf (parts o) with
      magic := (headerOf (parts o)).magic.seen hw hr, flags := sortFlags (headerOf (parts o)).flags } }

theorem view_reads (bd : Build) (hw hr : Endian) {o : Object} (hf : Fits o) :
    Reads (view bd hr) (cmdBytes hw (parts o) o.sections.iter) (viewOn hw hr o) := by
  have h1 := header_reads hw hr (headerOf (parts o)) (.inl rfl)
  have h2 := loads_reads bd hw _ _ (iter_length hf) (bounds_of hf)
  constructor
  · intro rest
    unfold view cmdBytes
    rw [List.append_assoc, h1.ok]
    show (do
      let (cs, rest) ← readN (LoadCommand.readFromIn bd hw) 2 _
      match cs with
      | [.segment64 seg sects, .symtab st] => pure (⟨_, seg, sects, st⟩, rest)
      | _ => .error .panic : Res (View × Bytes)) = _
    rw [h2.ok]
    rfl
  · intro k hk
    unfold cmdBytes at hk ⊢
    rw [List.length_append] at hk
    unfold view
    by_cases hkb : k < (headerBytes hw (headerOf (parts o))).length
    · rw [List.take_append_of_le_length (by omega), h1.short k hkb]
      rfl
    · have ht := List.take_append (i := k) (l₁ := headerBytes hw (headerOf (parts o)))
        (l₂ := segmentBytes hw (segmentOf (parts o)) ++
          ((sectionsFrom 0 (cmdsEnd (parts o)) (relocStart (parts o)) o.sections.iter).flatMap (sectionBytes hw) ++
          symtabBytes hw (symtabOf (parts o))))
      rw [ht, List.take_of_length_le (by omega), h1.ok]
      show (do
        let (cs, rest) ← readN (LoadCommand.readFromIn bd hw) 2 _
        match cs with
        | [.segment64 seg sects, .symtab st] => pure (⟨_, seg, sects, st⟩, rest)
        | _ => .error .panic : Res (View × Bytes)) = _
      rw [h2.short _ (by omega)]
      rfl

/-- C108: of everything the writer has written after any number of bytes, only the complete file of a
write that succeeds looks whole. -/
theorem C108_cut (bd bd' : Build) (h h' : Endian) (o : Object) (hf : Fits o) (k : Nat) :
    looksWhole bd' h' ((writeInto bd h o).out.take k) = true ↔
      (writeInto bd h o).res = .ok () ∧ (writeInto bd h o).out.length ≤ k := by
  have hl := length_cmdBytes h _ _ (iter_length hf)
  have hv := view_reads bd' h h' hf
  have hn := nums hf
  have e1 : 1 ≤ strLen (parts o) := Nat.le_add_right _ _
  have e2 : strStart (parts o) = symStart (parts o) + 16 * symCount (parts o) := rfl
  have e3 : symStart (parts o) = relocStart (parts o) + 8 * relocCount (parts o) := rfl
  have e4 : relocStart (parts o) = cmdsEnd (parts o) + roundUp8 (dataLen (parts o)) := rfl
  obtain ⟨rest, hr⟩ := out_eq bd h hf
  have hlen : (writeInto bd h o).res = .ok () ∧
        (writeInto bd h o).out.length = strStart (parts o) + strLen (parts o) ∨
      (writeInto bd h o).res = .error .panic ∧
        (writeInto bd h o).out.length < strStart (parts o) + strLen (parts o) := by
    by_cases hw : Writable o
    · have := writeInto_writes bd h hf hw
      refine .inl ⟨this.res, ?_⟩
      rw [this.out]
      exact length_image h _ _ (iter_length hf) (names_ascii hw.ascii)
    · obtain ⟨a, b⟩ := writeInto_panics bd h hf hw
      refine .inr ⟨a, ?_⟩
      rw [b, List.length_append, hl, length_dataBytes]
      omega
  generalize hO : (writeInto bd h o).out = O at *
  have hge : cmdsEnd (parts o) ≤ O.length := by
    rw [hr, List.length_append, List.length_append, hl]; omega
  by_cases hk : k < cmdsEnd (parts o)
  · have : O.take k = (cmdBytes h (parts o) o.sections.iter).take k := by
      rw [hr, List.append_assoc, List.take_append_of_le_length (by omega)]
    unfold looksWhole
    rw [this, hv.short k (by omega)]
    constructor
    · intro hx; cases hx
    · rintro ⟨-, hx⟩; omega
  · have : O.take k = cmdBytes h (parts o) o.sections.iter ++
        (dataBytes (parts o) ++ rest).take (k - cmdsEnd (parts o)) := by
      rw [hr, List.append_assoc, List.take_append, List.take_of_length_le (by omega), hl]
    have hlook : looksWhole bd' h' (O.take k) = true ↔
        strStart (parts o) + strLen (parts o) = (O.take k).length := by
      unfold looksWhole
      rw [this, hv.ok, ← this]
      show ((viewOf o).symtab.stroff.toNat + (viewOf o).symtab.strsize.toNat == _) = true ↔ _
      rw [hn.stroff, hn.strsize, beq_iff_eq]
    rw [hlook, List.length_take]
    rcases hlen with ⟨a, b⟩ | ⟨a, b⟩
    · rw [a]
      constructor
      · intro hx; exact ⟨rfl, by omega⟩
      · rintro ⟨-, hx⟩; omega
    · rw [a]
      constructor
      · intro hx; omega
      · rintro ⟨hx, -⟩; cases hx

theorem looksWhole_nil (bd : Build) (h : Endian) : looksWhole bd h [] = false := by
  cases bd <;> cases h <;> decide +kernel

/-- C108: an incomplete output of the program can be recognised.  At any moment of runs that take turns,
and whether they go on or are killed, the output of a run is what it was before, or it looks whole exactly
if it is everything that a run which succeeds is to write. -/
theorem C108_run (bd bd' : Build) (h h' : Endian) (c : Bytes → List Bytes) (hc : Splits c) (fs F : FS)
    (args : Nat → List Str) (hd : Separated fs args) (sched : List (Nat × Call)) (S : Nat → At)
    (hrun : together bd h sched (fs, fresh args) = (F, S)) (i : Nat) (inp out : Str) (src : Bytes)
    (ha : Asks (args i) inp out) (hs : Source fs inp out src) (hsize : src.length < 2 ^ 26) :
    F.content (fs.node out) = fs.content (fs.node out) ∨
    ∃ b, F.content (fs.node out) = some b ∧
      (looksWhole bd' h' b = true ↔ (main bd h c fs (args i)).2 = .ok () ∧
        (main bd h c fs (args i)).1.content (fs.node out) = some b) := by
  refine (C105_killed bd h c hc fs F args hd sched S hrun i inp out ha).imp_right ?_
  rintro ⟨b, b', hb, hp, hb'⟩
  refine ⟨b, hb, ?_⟩
  have hm : main bd h c fs (args i) =
      (fs.set (fs.node out) (written bd h (c src)).1, (written bd h (c src)).2) := by
    rcases main_source bd h c fs (args i) ((asks_iff ..).1 ha) with ⟨src', hs', hm⟩ | ⟨hno, -⟩
    · rwa [source_unique hs' hs] at hm
    · exact absurd hs (hno _)
  rw [hm] at hb' ⊢
  have e : ∀ x, (fs.set (fs.node out) x).content (fs.node out) = some x := by simp [FS.set]
  simp only [e, Option.some.injEq] at hb' ⊢
  subst hb'
  unfold written at hp ⊢
  cases hr : Assembler.new.readFrom bd (c src) with
  | error x =>
    rw [hr] at hp
    rw [List.prefix_nil.1 hp, looksWhole_nil]
    simp
  | ok a =>
    rw [hr] at hp
    simp only at hp ⊢
    obtain ⟨ss, ms, hcut, hmm, h3, h4, h5, h6, h7⟩ := readFrom_new (hc src).2 hr
    rw [(hc src).1] at hcut
    have ho : ObjOf ms a.obj := ⟨h4, h5, h6, h7⟩
    have hf := (ho.fits_iff (relocsOk_of hmm)).2 (fits_of_short ⟨ss, hcut, hmm⟩ hsize h3 bd).1
    have hk := C108_cut bd bd' h h' a.obj hf b.length
    obtain ⟨t, ht⟩ := hp
    have hO : (writeInto bd h a.obj).out = b ++ t := ht.symm
    rw [hO, List.take_left, List.length_append] at hk
    rw [hk]
    show (_ ∧ _) ↔ (_ ∧ (writeInto bd h a.obj).out = b)
    rw [hO]
    refine and_congr_right fun _ => ?_
    cases t with
    | nil => simp
    | cons x t => simp

/-- C108 applies to the two runs of C98: after 18 system calls the first has written three bytes, which do
not look whole; when it has ended, its output looks whole. -/
example :
    (let turns := (List.replicate 6 [((0 : Nat), Call.size 3), (1, .size 2), (0, .interrupted)]).flatten
     Separated twoFiles twoArgs ∧ Asks (twoArgs 0) (str% "a.s") (str% "a.o") ∧
     (∃ src, Source twoFiles (str% "a.s") (str% "a.o") src ∧ src.length < 2 ^ 26) ∧
     (together .debug .little turns (twoFiles, fresh twoArgs)).1.content (twoFiles.node (str% "a.o")) =
       some [207, 250, 237] ∧ looksWhole .debug .little [207, 250, 237] = false ∧
     ((main .debug .little (fun b => if b = [] then [] else [b]) twoFiles (twoArgs 0)).1.content
       (twoFiles.node (str% "a.o"))).map (looksWhole .debug .big) = some true) :=
  ⟨twoArgs_separated, (asks_iff ..).2 (by decide +kernel),
    ⟨_, ⟨rfl, rfl, _, rfl, .inr ⟨by decide, rfl⟩⟩, by decide⟩, by decide +kernel, by decide +kernel,
    by decide +kernel⟩

end AT.Props
