import Verif.Spec.Calls
import Verif.Proofs.Pieces
import Verif.Props.Killed
/-!
# The system calls of a run (C106)
-/

namespace AT.Props
open AT AT.Asm AT.AsmSpec AT.Mac AT.Obj

/-- A step changes the files as its call does. -/
theorem step_effect (bd : Build) (h : Endian) (k : Call) (fs : FS) (s : At) :
    (step bd h k fs s).1 = (sysOf k fs s).toList.foldl carryOut fs := by
  cases s with
  | start args => rfl
  | openIn cfg =>
    simp only [step, sysOf]
    split
    · rfl
    · split <;> rfl
  | openOut i out =>
    simp only [step, sysOf]
    split <;> rfl
  | reading i pos o buf a =>
    simp only [step, sysOf]
    cases cutNewline buf <;> rfl
  | writing o pos chunks res =>
    match chunks with
    | [] => rfl
    | [] :: cs => rfl
    | (b :: bs) :: cs =>
      match k with
      | .interrupted => rfl
      | .failed => rfl
      | .size 0 => simp [step, stepWrite, sysOf, writeReply, carryOut]
      | .size (n + 1) =>
        have hm : min (n + 1) (b :: bs).length = min n bs.length + 1 := by simp
        simp only [step, stepWrite, sysOf, writeReply, hm, Option.toList, List.foldl, carryOut]
        rw [← hm, ← List.take_take, List.take_length]
  | done r => rfl

theorem calls_done (bd : Build) (h : Endian) (r : Outcome) (ms : List Move) :
    ∀ fs, calls bd h ms (fs, .done r) = [] := by
  induction ms with
  | nil => exact fun _ => rfl
  | cons m ms ih => cases m <;> exact fun fs => ih _

theorem amid_done (bd : Build) (h : Endian) (r : Outcome) (ms : List Move) :
    ∀ fs, (among bd h ms (fs, .done r)).2 = .done r := by
  induction ms with
  | nil => exact fun _ => rfl
  | cons m ms ih => cases m <;> exact fun fs => ih _

theorem calls_writing (bd : Build) (h : Endian) (o : Nat) (res : Outcome) (ms : List Move) :
    ∀ (fs : FS) (pos : Nat) (chunks : List Bytes),
    ∃ left, WritesOf o pos (chunks.filter (· ≠ [])) (calls bd h ms (fs, .writing o pos chunks res)) left ∧
      ((among bd h ms (fs, .writing o pos chunks res)).2 = .done (.ok ()) → left = [] ∧ res = .ok ()) := by
  induction ms with
  | nil => exact fun fs pos chunks => ⟨_, .nil .., fun hd => by cases hd⟩
  | cons m ms ih =>
    intro fs pos chunks
    cases m with
    | other f => exact ih (f fs) pos chunks
    | own k =>
      match chunks with
      | [] =>
        refine ⟨[], ?_, fun hd => ⟨rfl, ?_⟩⟩
        · simp only [calls, sysOf, step, stepWrite, calls_done, Option.toList, List.append_nil]
          exact .nil ..
        · simp only [among, step, stepWrite, amid_done] at hd
          exact At.done.inj hd
      | [] :: cs =>
        obtain ⟨left, h1, h2⟩ := ih fs pos cs
        exact ⟨left, h1, h2⟩
      | (b :: bs) :: cs =>
        have hf : ((b :: bs) :: cs).filter (· ≠ []) = (b :: bs) :: cs.filter (· ≠ []) := rfl
        rw [hf]
        match k with
        | .interrupted =>
          obtain ⟨left, h1, h2⟩ := ih fs pos ((b :: bs) :: cs)
          exact ⟨left, .interrupted h1, h2⟩
        | .failed =>
          refine ⟨(b :: bs) :: cs.filter (· ≠ []), ?_, fun hd => ?_⟩
          · simp only [calls, sysOf, step, stepWrite, calls_done, Option.toList, List.append_nil]
            exact .failed ..
          · simp only [among, step, stepWrite, amid_done] at hd
            cases hd
        | .size 0 =>
          refine ⟨(b :: bs) :: cs.filter (· ≠ []), ?_, fun hd => ?_⟩
          · simp only [calls, sysOf, step, stepWrite, calls_done, Option.toList, List.append_nil, writeReply, Nat.zero_min]
            exact .none ..
          · simp only [among, step, stepWrite, amid_done] at hd
            cases hd
        | .size (n + 1) =>
          obtain ⟨left, h1, h2⟩ := ih (fs.pwrite o pos ((b :: bs).take (n + 1)))
            (pos + ((b :: bs).take (n + 1)).length) ((b :: bs).drop (n + 1) :: cs)
          refine ⟨left, ?_, h2⟩
          simp only [calls, sysOf, step, stepWrite, Option.toList, List.singleton_append, writeReply]
          by_cases hn : n + 1 < (b :: bs).length
          · have e1 : ((b :: bs).drop (n + 1) :: cs).filter (· ≠ []) =
                (b :: bs).drop (n + 1) :: cs.filter (· ≠ []) := by
              rw [List.filter_cons_of_pos]
              simp only [ne_eq, decide_eq_true_eq, List.drop_eq_nil_iff]
              omega
            have e2 : ((b :: bs).take (n + 1)).length = n + 1 := by rw [List.length_take]; omega
            rw [e1, e2] at h1
            rw [Nat.min_eq_left (by omega)]
            rw [e2]
            exact .part (by omega) hn h1
          · have e1 : (b :: bs).drop (n + 1) = [] := List.drop_of_length_le (by omega)
            have e2 : (b :: bs).take (n + 1) = b :: bs := List.take_of_length_le (by omega)
            rw [e1, e2] at h1 ⊢
            rw [Nat.min_eq_right (by omega)]
            exact .all h1

theorem calls_reading (bd : Build) (h : Endian) (i o : Nat) (ms : List Move) :
    ∀ (fs : FS) (pos : Nat) (buf : Bytes) (a : Assembler), ∃ rs ws src ob left,
      calls bd h ms (fs, .reading i pos o buf a) = rs ++ ws ∧ ReadsOf i pos rs src ∧
      WritesOf o 0 (pieces bd h ob) ws left ∧
      (ws ≠ [] → rs.getLast? = some (.read i (pos + src.length) (.ok []))) := by
  induction ms with
  | nil => exact fun fs pos buf a => ⟨[], [], [], a.obj, _, rfl, .nil _, .nil .., fun hn => absurd rfl hn⟩
  | cons m ms ih =>
    intro fs pos buf a
    cases m with
    | other f => exact ih (f fs) pos buf a
    | own k =>
      simp only [calls, sysOf, step, stepRead]
      cases hcut : cutNewline buf with
      | some p =>
        obtain ⟨l, r⟩ := p
        simp only [Option.toList, List.nil_append]
        cases a.doBytes bd l with
        | error e => exact ⟨[], [], [], a.obj, _, calls_done .., .nil _, .nil .., fun hn => absurd rfl hn⟩
        | ok a' => exact ih fs pos r a'
      | none =>
        simp only [Option.toList, List.singleton_append]
        match k with
        | .interrupted =>
          obtain ⟨rs, ws, src, ob, left, h1, h2, h3, h4⟩ := ih fs pos buf a
          refine ⟨_ :: rs, ws, src, ob, left, congrArg _ h1, .interrupted h2, h3, fun hn => ?_⟩
          rw [List.getLast?_cons, h4 hn]; rfl
        | .failed =>
          refine ⟨[_], [], [], a.obj, _, ?_, .failed _, .nil .., fun hn => absurd rfl hn⟩
          simp only [calls_done, readReply]; rfl
        | .size n =>
          simp only [readReply]
          cases hg : (((fs.content i).getD []).drop pos).take (n + 1) with
          | nil =>
            cases buf with
            | nil =>
              obtain ⟨left, h1, -⟩ := calls_writing bd h o (a.markExt.writeInto bd h).res ms fs 0
                (a.markExt.writeInto bd h).chunks
              exact ⟨[_], _, [], a.markExt.obj, left, rfl, .ok (b := []) (.nil _), h1, fun _ => rfl⟩
            | cons b bs =>
              simp only
              cases a.doBytes bd (b :: bs) with
              | error e =>
                refine ⟨[_], [], [], a.obj, _, ?_, .ok (b := []) (.nil _), .nil .., fun hn => absurd rfl hn⟩
                simp only [calls_done]; rfl
              | ok a' =>
                obtain ⟨rs, ws, src, ob, left, h1, h2, h3, h4⟩ := ih fs pos [] a'
                refine ⟨_ :: rs, ws, src, ob, left, congrArg _ h1, .ok (b := []) h2, h3, fun hn => ?_⟩
                rw [List.getLast?_cons, h4 hn]; rfl
          | cons b bs =>
            obtain ⟨rs, ws, src, ob, left, h1, h2, h3, h4⟩ := ih fs (pos + (b :: bs).length) (buf ++ b :: bs) a
            refine ⟨_ :: rs, ws, (b :: bs) ++ src, ob, left, congrArg _ h1, .ok h2, h3, fun hn => ?_⟩
            rw [List.getLast?_cons, h4 hn, List.length_append, Nat.add_assoc]; rfl

theorem calls_run (bd : Build) (h : Endian) (args : List Str) (inp out : Str)
    (hcfg : Config.init args = .ok ⟨out, inp⟩) (ms : List Move) :
    (∀ fs, Calls bd h inp out (calls bd h ms (fs, .start (args.map utf8)))) ∧
    (∀ fs, Calls bd h inp out (calls bd h ms (fs, .openIn ⟨out, inp⟩))) ∧
    (∀ fs i, Calls bd h inp out (.openIn inp (some i) :: calls bd h ms (fs, .openOut i out))) := by
  induction ms with
  | nil => exact ⟨fun _ => .nil, fun _ => .nil, fun _ i => .opened i⟩
  | cons m ms ih =>
    obtain ⟨ih1, ih2, ih3⟩ := ih
    cases m with
    | other f => exact ⟨fun fs => ih1 (f fs), fun fs => ih2 (f fs), fun fs i => ih3 (f fs) i⟩
    | own k =>
      refine ⟨fun fs => ?_, fun fs => ?_, fun fs i => ?_⟩
      · simp only [calls, sysOf, step, stepStart, argsOf_utf8, hcfg, Option.toList, List.nil_append]
        exact ih2 fs
      · simp only [calls, sysOf, step, Option.toList, List.singleton_append]
        cases hc : fs.content (fs.node inp) with
        | none => simp only [Option.isSome_none, Bool.false_and, Bool.false_eq_true, if_false, calls_done]; exact .noIn
        | some b =>
          by_cases hr : fs.canRead (fs.node inp) = true
          · simp only [hr, Option.isSome_some, Bool.and_true, if_true]; exact ih3 fs _
          · simp only [hr, Bool.and_false, Bool.false_eq_true, if_false, calls_done]; exact .noIn
      · simp only [calls, sysOf, step, Option.toList, List.singleton_append]
        by_cases hw : fs.canWrite (fs.node out) = true
        · simp only [hw, if_true]
          obtain ⟨rs, ws, src, ob, left, h1, h2, h3, h4⟩ :=
            calls_reading bd h i (fs.node out) ms (fs.set (fs.node out) []) 0 [] Assembler.new
          rw [h1]
          exact .run i _ rs ws src ob left h2 h3 fun hn => by simpa using h4 hn
        · simp only [hw, Bool.false_eq_true, if_false, calls_done]; exact .noOut i

/-- C106: whatever other programs do, up to any moment, a run asked to assemble `inp` into `out` has made
no other calls than these, in this order: it opens the input; it opens and empties the output; it reads
the input piece by piece from the start; when it has met the end it writes the pieces of an object one
after the other.  After a failure it makes no further call. -/
theorem C106_calls (bd : Build) (h : Endian) (fs : FS) (args : List Str) (ms : List Move) :
    (∀ inp out, Asks args inp out → Calls bd h inp out (calls bd h ms (fs, .start (args.map utf8)))) ∧
    ((∀ inp out, ¬ Asks args inp out) → calls bd h ms (fs, .start (args.map utf8)) = []) := by
  refine ⟨fun inp out ha => (calls_run bd h args inp out ((asks_iff ..).1 ha) ms).1 fs, fun hno => ?_⟩
  induction ms generalizing fs with
  | nil => rfl
  | cons m ms ih =>
    cases m with
    | other f => exact ih (f fs)
    | own k =>
      cases hc : Config.init args with
      | ok cfg => exact absurd ((asks_iff ..).2 hc) (hno cfg.inputPath cfg.outputPath)
      | error e =>
        simp only [calls, sysOf, step, stepStart, argsOf_utf8, hc, Option.toList, List.nil_append, calls_done]

/-- C106: a run changes the files by these calls and by nothing else. -/
theorem C106_files (bd : Build) (h : Endian) (ks : List Call) : ∀ (fs : FS) (s : At),
    (steps bd h ks (fs, s)).1 = (calls bd h (ks.map .own) (fs, s)).foldl carryOut fs := by
  induction ks with
  | nil => exact fun _ _ => rfl
  | cons k ks ih =>
    intro fs s
    simp only [steps, List.map_cons, calls, List.foldl_append]
    rw [← step_effect bd h k fs s]
    exact ih _ _

/-- C106: the pieces of an object that is written are the fields of the file. -/
theorem C106_pieces (bd : Build) (h : Endian) (o : Object) (hw : (Obj.writeInto bd h o).res = .ok ()) :
    (pieces bd h o).map List.length = pieceSizes o ∧ (pieces bd h o).flatten = (Obj.writeInto bd h o).out := by
  refine ⟨((gives_object bd h o).out () hw).1, ?_⟩
  unfold pieces Wr.out
  generalize (Obj.writeInto bd h o).chunks = l
  induction l with
  | nil => rfl
  | cons b l ih =>
    cases b with
    | nil => simpa using ih
    | cons x xs =>
      rw [List.filter_cons_of_pos (by simp), List.flatten_cons, List.flatten_cons, ih]

theorem drop_take {l : Bytes} {pos n : Nat} {b : Bytes} (hg : (l.drop pos).take n = b) :
    l.drop pos = b ++ l.drop (pos + b.length) := by
  rw [← List.drop_drop]
  conv => lhs; rw [← List.take_append_drop n (l.drop pos), hg]
  congr 1
  rw [← hg, List.length_take]
  rcases Nat.le_total n (l.drop pos).length with hle | hle
  · rw [Nat.min_eq_left hle]
  · rw [Nat.min_eq_right hle, List.drop_of_length_le hle, List.drop_of_length_le (Nat.le_refl _)]

theorem calls_alone (bd : Build) (h : Endian) (i o : Nat) (ks : List Call) :
    ∀ (fs : FS) (pos : Nat) (buf : Bytes) (a : Assembler),
    (steps bd h ks (fs, .reading i pos o buf a)).2 = .done (.ok ()) →
    ∃ rs ws a', calls bd h (ks.map .own) (fs, .reading i pos o buf a) = rs ++ ws ∧
      ReadsOf i pos rs (((fs.content i).getD []).drop pos) ∧
      rs.countP atEnd = endReads (buf ++ ((fs.content i).getD []).drop pos) ∧
      rs.countP served ≤ (((fs.content i).getD []).drop pos).length + rs.countP atEnd ∧
      a.readLoopIo bd ⟨buf ++ ((fs.content i).getD []).drop pos, []⟩ = .ok a' ∧
      (a'.markExt.writeInto bd h).res = .ok () ∧ WritesOf o 0 (pieces bd h a'.markExt.obj) ws [] := by
  induction ks with
  | nil => intro fs pos buf a hs; cases hs
  | cons k ks ih =>
    intro fs pos buf a hs
    simp only [steps, step, stepRead] at hs
    simp only [List.map_cons, calls, sysOf, step, stepRead]
    cases hcut : cutNewline buf with
    | some p =>
      obtain ⟨l, r⟩ := p
      rw [hcut] at hs
      obtain ⟨q, hq, rfl, rfl⟩ := cutNewline_some.1 hcut
      simp only [Option.toList, List.nil_append] at hs ⊢
      cases hd : a.doBytes bd (q ++ [10]) with
      | error e => rw [hd] at hs; simp only [steps_done] at hs; cases hs
      | ok a' =>
        rw [hd] at hs
        obtain ⟨rs, ws, a'', h1, h2, h3, h0, h4, h5⟩ := ih fs pos r a' hs
        refine ⟨rs, ws, a'', h1, h2, ?_, h0, ?_, h5⟩
        · rw [h3]
          unfold endReads
          rw [List.append_assoc, List.append_assoc]
          generalize r ++ ((fs.content i).getD []).drop pos = t
          cases t with
          | nil => simp
          | cons x xs =>
            have : (q ++ ([10] ++ x :: xs)).getLast? = (x :: xs).getLast? := by
              rw [List.getLast?_append, List.getLast?_append]
              cases hx : (x :: xs).getLast? with
              | none => simp at hx
              | some y => rfl
            rw [this]
            simp
        · rw [List.append_assoc, readLoopIo_cut bd a hq, hd]
          exact h4
    | none =>
      rw [hcut] at hs
      simp only [Option.toList, List.singleton_append]
      match k, hs with
      | .interrupted, hs =>
        obtain ⟨rs, ws, a', h1, h2, h3, h0, h4⟩ := ih fs pos buf a hs
        exact ⟨_ :: rs, ws, a', congrArg _ h1, .interrupted h2, by rw [← h3]; simp [atEnd, readReply],
          by simpa [atEnd, served, readReply] using h0, h4⟩
      | .failed, hs => simp only [steps_done] at hs; cases hs
      | .size n, hs =>
        simp only [readReply] at hs ⊢
        cases hg : (((fs.content i).getD []).drop pos).take (n + 1) with
        | nil =>
          have hsrc : ((fs.content i).getD []).drop pos = [] := by
            cases hx : ((fs.content i).getD []).drop pos with
            | nil => rfl
            | cons x xs => rw [hx] at hg; cases hg
          rw [hg] at hs
          rw [hsrc, List.append_nil]
          cases buf with
          | nil =>
            obtain ⟨left, h1, h2⟩ := calls_writing bd h o (a.markExt.writeInto bd h).res (ks.map .own) fs 0
              (a.markExt.writeInto bd h).chunks
            rw [among_own] at h2
            obtain ⟨rfl, h3⟩ := h2 hs
            exact ⟨[_], _, a, rfl, .ok (b := []) (.nil _), rfl, by simp [served, atEnd], readLoopIo_end a, h3, h1⟩
          | cons b bs =>
            simp only at hs ⊢
            cases hd : a.doBytes bd (b :: bs) with
            | error e => rw [hd] at hs; simp only [steps_done] at hs; cases hs
            | ok a' =>
              rw [hd] at hs
              obtain ⟨rs, ws, a'', h1, h2, h3, h0, h4, h5⟩ := ih fs pos [] a' hs
              rw [hsrc] at h2 h3 h4 h0
              refine ⟨_ :: rs, ws, a'', congrArg _ h1, .ok (b := []) h2, ?_,
                by rw [List.countP_cons_of_pos rfl, List.countP_cons_of_pos rfl]; omega, ?_, h5⟩
              · rw [List.countP_cons_of_pos rfl, h3]
                have hl : (b :: bs).getLast? ≠ some 10 := fun he =>
                  cutNewline_none.1 hcut (List.mem_of_getLast? he)
                simp [endReads, hl]
              · rw [readLoopIo_line bd a (List.cons_ne_nil b bs) (readUntilIo_eof hcut), hd]
                exact h4
        | cons b bs =>
          rw [hg] at hs
          obtain ⟨rs, ws, a', h1, h2, h3, h0, h4⟩ := ih fs (pos + (b :: bs).length) (buf ++ b :: bs) a hs
          have hsplit := drop_take hg
          rw [List.append_assoc, ← hsplit] at h3 h4
          refine ⟨_ :: rs, ws, a', congrArg _ h1, ?_, by rw [← h3]; simp [atEnd], ?_, h4⟩
          · rw [hsplit]
            exact .ok h2
          · rw [hsplit, List.countP_cons_of_pos rfl, List.countP_cons_of_neg (by simp [atEnd]), List.length_append]
            simp only [List.length_cons] at h0 ⊢
            omega

theorem writes_count {o pos : Nat} {ps left : List Bytes} {es : List Sys} (hw : WritesOf o pos ps es left)
    (hl : left = []) (hp : ∀ p ∈ ps, p ≠ []) : es.countP served ≤ ps.flatten.length := by
  induction hw with
  | nil => exact Nat.zero_le _
  | @all pos b ps left es hw ih =>
    have := ih hl fun p hp' => hp p (List.mem_cons_of_mem _ hp')
    have hb := List.length_pos_iff.2 (hp b List.mem_cons_self)
    rw [List.countP_cons_of_pos rfl, List.flatten_cons, List.length_append]
    omega
  | @part pos n b ps left es h0 hn hw ih =>
    have := ih hl fun p hp' => by
      rcases List.mem_cons.1 hp' with rfl | hp'
      · rw [ne_eq, List.drop_eq_nil_iff]; omega
      · exact hp p (List.mem_cons_of_mem _ hp')
    rw [List.flatten_cons, List.length_append, List.length_drop] at this
    rw [List.countP_cons_of_pos rfl, List.flatten_cons, List.length_append]
    omega
  | interrupted hw ih =>
    rw [List.countP_cons_of_neg (by simp [served])]
    exact ih hl hp
  | none | failed => cases hl

theorem writes_full {o pos : Nat} {ps left : List Bytes} {es : List Sys} (hw : WritesOf o pos ps es left)
    (hl : left = []) (hp : ∀ p ∈ ps, p ≠ []) (hf : ∀ e ∈ es, full e) :
    (es.filter served).map handed = ps.map List.length := by
  induction hw with
  | nil => subst hl; rfl
  | @all pos b ps left es hw ih =>
    have := ih hl (fun p hp' => hp p (List.mem_cons_of_mem _ hp')) fun e he => hf e (List.mem_cons_of_mem _ he)
    rw [List.filter_cons_of_pos rfl, List.map_cons, List.map_cons, this]
    rfl
  | @part pos n b ps left es h0 hn hw ih =>
    have : n = b.length := hf _ List.mem_cons_self
    omega
  | interrupted hw ih =>
    rw [List.filter_cons_of_neg (by simp [served])]
    exact ih hl hp fun e he => hf e (List.mem_cons_of_mem _ he)
  | none | failed => cases hl

theorem pieces_ne (bd : Build) (h : Endian) (ob : Object) : ∀ p ∈ pieces bd h ob, p ≠ [] := by
  intro p hp
  unfold pieces at hp
  simpa using (List.mem_filter.1 hp).2

/-- The beginning of a run that succeeds. -/
theorem run_opens (bd : Build) (h : Endian) (fs : FS) (args : List Str) (inp out : Str)
    (hcfg : Config.init args = .ok ⟨out, inp⟩) (src : Bytes) (hsrc : fs.content (fs.node inp) = some src)
    (ks : List Call) (hs : (steps bd h ks (fs, .start (args.map utf8))).2 = .done (.ok ())) :
    fs.canRead (fs.node inp) = true ∧ fs.canWrite (fs.node out) = true ∧ ∃ k₁ k₂ k₃ ks', ks = k₁ :: k₂ :: k₃ :: ks' ∧
      (steps bd h ks' (fs.set (fs.node out) [], .reading (fs.node inp) 0 (fs.node out) [] Assembler.new)).2 =
        .done (.ok ()) := by
  match ks, hs with
  | [], hs => cases hs
  | k₁ :: ks, hs =>
    simp only [steps, step, stepStart, argsOf_utf8, hcfg] at hs
    match ks, hs with
    | [], hs => cases hs
    | k₂ :: ks, hs =>
      simp only [steps, step, hsrc] at hs
      have hr : fs.canRead (fs.node inp) = true := by
        cases hr : fs.canRead (fs.node inp) with
        | true => rfl
        | false => simp only [hr, Bool.false_eq_true, if_false, steps_done] at hs; cases hs
      simp only [hr, if_true] at hs
      match ks, hs with
      | [], hs => cases hs
      | k₃ :: ks, hs =>
        simp only [steps, step] at hs
        have hw : fs.canWrite (fs.node out) = true := by
          cases hw : fs.canWrite (fs.node out) with
          | true => rfl
          | false => simp only [hw, Bool.false_eq_true, if_false, steps_done] at hs; cases hs
        simp only [hw, if_true] at hs
        exact ⟨hr, hw, k₁, k₂, k₃, ks, rfl, hs⟩

/-- C106: the calls of a run alone that succeeds.  It opens both files; it reads the whole source; it meets
the end of the source once, or twice if the last line has no line end; and it writes all pieces of the object
that the source describes. -/
theorem C106_run (bd : Build) (h : Endian) (c : Bytes → List Bytes) (hc : Splits c) (fs : FS) (args : List Str)
    (inp out : Str) (ha : Asks args inp out) (hd : fs.node inp ≠ fs.node out) (src : Bytes)
    (hsrc : fs.content (fs.node inp) = some src) (ks : List Call)
    (hs : (steps bd h ks (fs, .start (args.map utf8))).2 = .done (.ok ())) :
    ∃ rs ws a, calls bd h (ks.map .own) (fs, .start (args.map utf8)) =
        .openIn inp (some (fs.node inp)) :: .openOut out (some (fs.node out)) :: (rs ++ ws) ∧
      ReadsOf (fs.node inp) 0 rs src ∧ rs.countP atEnd = endReads src ∧
      rs.countP served ≤ src.length + endReads src ∧
      Assembler.new.readFrom bd (c src) = .ok a ∧ (a.writeInto bd h).res = .ok () ∧
      WritesOf (fs.node out) 0 (pieces bd h a.obj) ws [] := by
  have hcfg := (asks_iff ..).1 ha
  obtain ⟨hr, hw, k₁, k₂, k₃, ks, rfl, hs'⟩ := run_opens bd h fs args inp out hcfg src hsrc ks hs
  obtain ⟨rs, ws, a, h1, h2, h3, h4, h5, h6, h7⟩ := calls_alone bd h _ _ ks _ _ _ _ hs'
  have hrest : (((fs.set (fs.node out) []).content (fs.node inp)).getD []).drop 0 = src := by
    simp [FS.set, hd, hsrc]
  rw [hrest] at h2 h3 h4 h5
  rw [List.nil_append] at h3 h5
  refine ⟨rs, ws, a.markExt, ?_, h2, h3, h3 ▸ h4, ?_, h6, h7⟩
  · simp only [List.map_cons, calls, sysOf, step, stepStart, argsOf_utf8, hcfg, hsrc, hr, hw, h1, Option.toList,
      Option.isSome_some, Bool.and_true, if_true, List.nil_append, List.singleton_append]
  · rw [readFrom_loop bd c hc src, h5]; rfl

/-- C106: how many calls that are.  Without those that are interrupted, at most as many as the source and the
output have bytes, and four more.  If no write is cut short there is exactly one for each field of the
output. -/
theorem C106_count (bd : Build) (h : Endian) (c : Bytes → List Bytes) (hc : Splits c) (fs F : FS) (args : List Str)
    (inp out : Str) (ha : Asks args inp out) (hd : fs.node inp ≠ fs.node out) (src : Bytes)
    (hsrc : fs.content (fs.node inp) = some src) (ks : List Call)
    (hs : steps bd h ks (fs, .start (args.map utf8)) = (F, .done (.ok ()))) :
    let es := calls bd h (ks.map .own) (fs, .start (args.map utf8))
    ∃ a b, Assembler.new.readFrom bd (c src) = .ok a ∧ F.content (fs.node out) = some b ∧
      es.countP served ≤ src.length + b.length + 4 ∧
      ((∀ e ∈ es, full e) → ((es.filter served).map handed).filter (· ≠ 0) = pieceSizes a.obj) := by
  intro es
  have hcfg := (asks_iff ..).1 ha
  obtain ⟨hr, hw, -⟩ := run_opens bd h fs args inp out hcfg src hsrc ks (by rw [hs])
  obtain ⟨rs, ws, a, h1, h2, h3, h4, h5, h6, h7⟩ := C106_run bd h c hc fs args inp out ha hd src hsrc ks (by rw [hs])
  have hend : among bd h (ks.map .own) (fs, .start (args.map utf8)) = (F, .done (.ok ())) := by
    rw [among_own]; exact hs
  have hno : ∀ f, Move.other f ∈ ks.map Move.own →
      Spares (fun n => ∃ inp out, Asks args inp out ∧ (n = fs.node inp ∨ n = fs.node out)) f := by
    intro f hf
    obtain ⟨k, -, hk⟩ := List.mem_map.1 hf
    cases hk
  have hout : F.content (fs.node out) = some (a.writeInto bd h).out := by
    rcases C100_undisturbed bd h c hc fs _ args _ hno _ hend with ⟨-, q⟩ | ⟨-, q, -⟩
    · rw [q inp out ha]
      exact ((C52_result bd h c fs args out inp src hcfg hd hsrc hr hw).2 a h5).2
    · cases q
  obtain ⟨p1, p2⟩ := C106_pieces bd h a.obj h6
  have hne := pieces_ne bd h a.obj
  refine ⟨a, _, h5, hout, ?_, fun hf => ?_⟩
  · have hwc := writes_count h7 rfl hne
    rw [p2] at hwc
    have he : endReads src ≤ 2 := by unfold endReads; split <;> omega
    have ho : (a.writeInto bd h).out.length = (Obj.writeInto bd h a.obj).out.length := rfl
    show (calls bd h (ks.map .own) (fs, .start (args.map utf8))).countP served ≤ _
    rw [h1, List.countP_cons_of_pos rfl, List.countP_cons_of_pos rfl, List.countP_append]
    omega
  · have hes : es = _ := h1
    have hfw := writes_full h7 rfl hne fun e he => hf e (by rw [hes]; simp [he])
    have hrd : ∀ {i pos : Nat} {rs : List Sys} {src : Bytes}, ReadsOf i pos rs src →
        ((rs.filter served).map handed).filter (· ≠ 0) = [] := by
      intro i pos rs src hrs
      induction hrs with
      | nil => rfl
      | ok _ ih =>
        rw [List.filter_cons_of_pos rfl, List.map_cons, List.filter_cons_of_neg (by simp [handed])]
        exact ih
      | interrupted _ ih => simpa [served, handed] using ih
      | failed => simp [served, handed]
    rw [hes, List.filter_cons_of_pos rfl, List.filter_cons_of_pos rfl, List.filter_append, List.map_cons, List.map_cons,
      List.map_append, List.filter_cons_of_neg (by simp [handed]), List.filter_cons_of_neg (by simp [handed]),
      List.filter_append, hrd h2, hfw, p1, List.nil_append, ← p1]
    refine List.filter_eq_self.2 fun n hn => ?_
    obtain ⟨p, hp, rfl⟩ := List.mem_map.1 hn
    have := List.length_pos_iff.2 (hne p hp)
    simp only [ne_eq, decide_eq_true_eq]
    omega

/-- A source without line end at its end. -/
def retFile : FS := ⟨fun p => if p = str% "a.s" then 0 else 1, fun n => if n = 0 then some (utf8 (str% "ret")) else none,
  fun _ => true, fun _ => true⟩

/-- Calls enough for its run: one read and one write are interrupted, and reads deliver two bytes. -/
def retCalls : List Call :=
  [.size 0, .size 0, .size 0, .size 1, .interrupted, .size 1, .size 1, .size 1, .interrupted] ++ List.replicate 100 (.size 100)

/-- C106 applies to the run on this source.  It makes 46 calls that are not interrupted: 2 to open the files,
4 to read, and 40 to write the fields, the first of them the magic number. -/
example :
    Asks [str% "as", str% "a.s"] (str% "a.s") (str% "a.o") ∧
    retFile.node (str% "a.s") ≠ retFile.node (str% "a.o") ∧
    ending (steps .release .little retCalls (retFile, .start ([str% "as", str% "a.s"].map utf8))).2 = some (.ok ()) ∧
    (let es := calls .release .little (retCalls.map .own) (retFile, .start ([str% "as", str% "a.s"].map utf8))
     es.take 8 = [.openIn (str% "a.s") (some 0), .openOut (str% "a.o") (some 1), .read 0 0 (.ok [114, 101]),
       .read 0 2 .interrupted, .read 0 2 (.ok [116]), .read 0 3 (.ok []), .read 0 3 (.ok []),
       .write 1 0 [207, 250, 237, 254] .interrupted] ∧
     es.countP served = 46 ∧ (∀ e ∈ es, full e) ∧
     ((es.filter served).map handed).filter (· ≠ 0) =
       [4, 4, 4, 4, 4, 4, 4, 4, 4, 4, 16, 8, 8, 8, 8, 4, 4, 4, 4, 16, 16, 8, 8, 4, 4, 4, 4, 4, 4, 4, 4,
        4, 4, 4, 4, 4, 4, 1, 7, 1]) :=
  ⟨(asks_iff ..).2 (by decide +kernel), by decide, by decide +kernel, by decide +kernel⟩

end AT.Props
