import Verif.Props.Killed
import Verif.Props.Incomplete
/-!
# Runs that write the same at the same time (C109)
-/

namespace AT.Props
open AT AT.Asm AT.AsmSpec AT.Mac

/-- Where a run that reads `inp` and writes `out` can be. -/
def Heads (fs : FS) (args : List Str) (inp out : Str) : At → Prop
  | .start a => a = args.map utf8
  | .openIn cfg => cfg = ⟨out, inp⟩
  | .openOut i o => i = fs.node inp ∧ o = out
  | .reading i _ o _ _ => i = fs.node inp ∧ o = fs.node out
  | .writing o _ _ _ => o = fs.node out
  | .done _ => True

theorem heads_step {fs F : FS} {args : List Str} {inp out : Str} (hcfg : Config.init args = .ok ⟨out, inp⟩)
    (hn : SameNodes fs F) (bd : Build) (h : Endian) (k : Call) {s : At} (hs : Heads fs args inp out s) :
    Heads fs args inp out (step bd h k F s).2 := by
  cases s with
  | start a =>
    cases hs
    simp only [step, stepStart, argsOf_utf8, hcfg]
    rfl
  | openIn cfg =>
    cases hs
    simp only [step]
    split
    · trivial
    · split
      · exact ⟨by rw [hn.1], rfl⟩
      · trivial
  | openOut i o =>
    obtain ⟨rfl, rfl⟩ := hs
    simp only [step]
    split
    · exact ⟨rfl, by rw [hn.1]⟩
    · trivial
  | reading i pos o buf a =>
    obtain ⟨rfl, rfl⟩ := hs
    simp only [step]
    fun_cases stepRead bd h k F (fs.node inp) pos (fs.node out) buf a
    all_goals first
      | exact ⟨rfl, rfl⟩
      | trivial
      | exact rfl
      | (split <;> first | exact ⟨rfl, rfl⟩ | trivial)
  | writing o pos chunks res =>
    cases hs
    simp only [step]
    fun_cases stepWrite k F (fs.node out) pos res chunks
    all_goals first
      | exact rfl
      | trivial
  | done r => trivial

/-- What a run does next does not depend on what is in its output. -/
theorem step_blind {fs F G : FS} {args : List Str} {inp out : Str} (hn : SameNodes fs F) (hn' : SameNodes fs G)
    (he : F.content (fs.node inp) = G.content (fs.node inp)) (bd : Build) (h : Endian) (k : Call) {s : At}
    (hs : Heads fs args inp out s) : (step bd h k F s).2 = (step bd h k G s).2 := by
  obtain ⟨a1, a2, a3⟩ := hn
  obtain ⟨b1, b2, b3⟩ := hn'
  cases s with
  | start a => rfl
  | openIn cfg =>
    cases hs
    simp only [step, a1, b1, a2, b2, he]
    split
    · rfl
    · split <;> rfl
  | openOut i o =>
    simp only [step, a1, b1, a3, b3]
    split <;> rfl
  | reading i pos o buf a =>
    obtain ⟨rfl, rfl⟩ := hs
    simp only [step, stepRead, he]
  | writing o pos chunks res =>
    simp only [step]
    match chunks with
    | [] => rfl
    | [] :: cs => rfl
    | (b :: bs) :: cs =>
      match k with
      | .interrupted => rfl
      | .failed => rfl
      | .size 0 => rfl
      | .size (n + 1) => rfl
  | done r => rfl

/-- A step leaves the files alone, empties the output, or writes a piece to it. -/
theorem step_does (bd : Build) (h : Endian) (k : Call) {fs : FS} {args : List Str} {inp out : Str} {s : At}
    (hs : Heads fs args inp out s) :
    (∀ F, SameNodes fs F → (step bd h k F s).1 = F) ∨
    (∃ i o, s = .openOut i o ∧ ∀ F, SameNodes fs F → (step bd h k F s).1 = F.set (fs.node out) []) ∨
    ∃ pos cs res b, s = .writing (fs.node out) pos cs res ∧
      ∀ F, SameNodes fs F → (step bd h k F s).1 = F.pwrite (fs.node out) pos b := by
  cases s with
  | start a => exact .inl fun _ _ => rfl
  | openIn cfg =>
    refine .inl fun F _ => ?_
    simp only [step]
    split
    · rfl
    · split <;> rfl
  | openOut i o =>
    obtain ⟨rfl, rfl⟩ := hs
    by_cases hw : fs.canWrite (fs.node o) = true
    · refine .inr (.inl ⟨_, _, rfl, fun F hn => ?_⟩)
      simp only [step, hn.1, hn.2.2, hw, if_true]
    · refine .inl fun F hn => ?_
      simp only [step, hn.1, hn.2.2]
      rw [if_neg hw]
  | reading i pos o buf a => exact .inl fun _ _ => rfl
  | writing o pos chunks res =>
    cases hs
    match chunks with
    | [] => exact .inl fun _ _ => rfl
    | [] :: cs => exact .inl fun _ _ => rfl
    | (b :: bs) :: cs =>
      match k with
      | .interrupted => exact .inl fun _ _ => rfl
      | .failed => exact .inl fun _ _ => rfl
      | .size 0 => exact .inl fun _ _ => rfl
      | .size (n + 1) => exact .inr (.inr ⟨_, _, _, (b :: bs).take (n + 1), rfl, fun _ _ => rfl⟩)
  | done r => exact .inl fun _ _ => rfl

theorem opened {fs : FS} {args : List Str} {out inp : Str} (hcfg : Config.init args = .ok ⟨out, inp⟩)
    (bd : Build) (h : Endian) (ks : List Call) : ∀ {x : FS × At}, Untouched fs args out inp x →
    Untouched fs args out inp (steps bd h ks x) ∨ Owns (fs.node out) (steps bd h ks x).1 (steps bd h ks x).2 := by
  induction ks with
  | nil => exact fun hu => .inl hu
  | cons k ks ih =>
    intro x hu
    rcases untouched_step hcfg bd h k hu with hu' | ho
    · exact ih hu'
    · exact .inr (owns_steps bd h ks ho).1

/-- A run that has emptied its output has written the beginning of what it is to write. -/
theorem owns_begun (bd : Build) (h : Endian) (c : Bytes → List Bytes) (hc : Splits c) (fs : FS) (args : List Str)
    (inp out : Str) (ha : Asks args inp out) (W : Bytes) (hW : (main bd h c fs args).1.content (fs.node out) = some W)
    (ks : List Call)
    (ho : Owns (fs.node out) (steps bd h ks (fs, .start (args.map utf8))).1 (steps bd h ks (fs, .start (args.map utf8))).2) :
    ∃ w, (steps bd h ks (fs, .start (args.map utf8))).1.content (fs.node out) = some w ∧ w <+: W := by
  obtain ⟨ks', r, hr⟩ := can_end bd h (steps bd h ks (fs, .start (args.map utf8)))
  obtain ⟨b, hb⟩ := owns_some ho
  obtain ⟨w, hw, hp⟩ := (owns_steps bd h ks' ho).2 b hb
  refine ⟨b, hb, ?_⟩
  have hend : among bd h ((ks ++ ks').map .own) (fs, .start (args.map utf8)) =
      ((steps bd h ks' (steps bd h ks (fs, .start (args.map utf8)))).1, .done r) := by
    rw [among_own, steps_append]
    exact Prod.ext rfl hr
  have hno : ∀ f, Move.other f ∈ (ks ++ ks').map Move.own →
      Spares (fun n => ∃ inp out, Asks args inp out ∧ (n = fs.node inp ∨ n = fs.node out)) f := by
    intro f hf
    obtain ⟨k, -, hk⟩ := List.mem_map.1 hf
    cases hk
  rcases C100_undisturbed bd h c hc fs _ args _ hno r hend with ⟨-, h1⟩ | ⟨-, -, h1⟩
  · have := (h1 inp out ha).symm.trans hw
    rw [hW] at this
    cases this
    exact hp
  · obtain ⟨b₁, b₂, h2, h3, h4⟩ := h1 inp out ha
    cases h2.symm.trans hw
    rw [hW] at h4
    cases h4
    exact hp.trans h3

/-- Each byte is the one that `W` has there, or zero. -/
def Torn (W b : Bytes) : Prop := ∀ (p : Nat) x, b[p]? = some x → W[p]? = some x ∨ x = 0 ∧ p < W.length

theorem pwrite_get (b piece : Bytes) (pos p : Nat) :
    (b.take pos ++ List.replicate (pos - b.length) 0 ++ piece ++ b.drop (pos + piece.length))[p]? =
      if p < pos then (if p < b.length then b[p]? else some 0)
      else if p < pos + piece.length then piece[p - pos]? else b[p]? := by
  simp only [List.getElem?_append, List.length_append, List.length_take, List.length_replicate, List.getElem?_take,
    List.getElem?_replicate, List.getElem?_drop]
  have e : min pos b.length + (pos - b.length) = pos := by omega
  rw [e]
  by_cases h1 : p < pos
  · rw [if_pos (by omega), if_pos h1, if_pos h1]
    by_cases h2 : p < b.length
    · rw [if_pos (by omega), if_pos h2, if_pos h1]
    · rw [if_neg (by omega), if_neg h2, if_pos (by omega), if_pos h1]
  · rw [if_neg h1, if_neg h1]
    by_cases h2 : p < pos + piece.length
    · rw [if_pos h2, if_pos h2]
    · rw [if_neg h2, if_neg h2]
      congr 1
      omega

theorem prefix_get {v w : Bytes} : v <+: w ↔ ∀ (p : Nat) x, v[p]? = some x → w[p]? = some x := by
  constructor
  · rintro ⟨t, rfl⟩ p x hx
    have := (List.getElem?_eq_some_iff.1 hx).1
    rw [List.getElem?_append_left this]
    exact hx
  · intro hx
    have : w.take v.length = v := by
      apply List.ext_getElem?
      intro p
      rw [List.getElem?_take]
      by_cases hp : p < v.length
      · rw [if_pos hp, List.getElem?_eq_getElem hp]
        exact hx p _ (List.getElem?_eq_getElem hp)
      · rw [if_neg hp, List.getElem?_eq_none (by omega)]
    rw [← this]
    exact List.take_prefix _ _

/-- The runs `S` share the files `F`; `X j` is what run `j` has done so far, alone. -/
structure Shared (bd : Build) (h : Endian) (fs : FS) (args : Nat → List Str) (inp : Nat → Str) (out : Str) (W : Bytes)
    (F : FS) (S : Nat → At) (X : Nat → FS × At) : Prop where
  nodes : SameNodes fs F
  input : ∀ j, F.content (fs.node (inp j)) = fs.content (fs.node (inp j))
  state : ∀ j, S j = (X j).2
  reach : ∀ j, ∃ ks, X j = steps bd h ks (fs, .start ((args j).map utf8))
  nodes' : ∀ j, SameNodes fs (X j).1
  input' : ∀ j, (X j).1.content (fs.node (inp j)) = fs.content (fs.node (inp j))
  heads : ∀ j, Heads fs (args j) (inp j) out (X j).2
  output : (F.content (fs.node out) = fs.content (fs.node out) ∧ ∀ j, (X j).1 = fs) ∨
    ∃ b, F.content (fs.node out) = some b ∧ Torn W b ∧
      ∃ L w, Owns (fs.node out) (X L).1 (X L).2 ∧ (X L).1.content (fs.node out) = some w ∧ w <+: b

theorem pwrite_nodes (F : FS) (n pos : Nat) (b : Bytes) : SameNodes F (F.pwrite n pos b) := ⟨rfl, rfl, rfl⟩

theorem pwrite_other (F : FS) {n m : Nat} (pos : Nat) (b : Bytes) (hm : m ≠ n) : (F.pwrite n pos b).content m = F.content m := by
  simp [FS.pwrite, FS.set, hm]

theorem SameNodes.chain {f g k : FS} (a : SameNodes f g) (b : SameNodes g k) : SameNodes f k :=
  ⟨b.1.trans a.1, b.2.1.trans a.2.1, b.2.2.trans a.2.2⟩

theorem step_keeps (bd : Build) (h : Endian) (k : Call) {fs : FS} {args : List Str} {inp out : Str} {s : At}
    (hs : Heads fs args inp out s) {F : FS} (hn : SameNodes fs F) :
    SameNodes fs (step bd h k F s).1 ∧ ∀ n, n ≠ fs.node out → (step bd h k F s).1.content n = F.content n := by
  rcases step_does bd h k hs with he | ⟨_, _, -, he⟩ | ⟨pos, _, _, b, -, he⟩
  · rw [he F hn]
    exact ⟨hn, fun _ _ => rfl⟩
  · rw [he F hn]
    exact ⟨hn.chain (.set _ _ _), fun n hne => by simp [FS.set, hne]⟩
  · rw [he F hn]
    exact ⟨hn.chain (pwrite_nodes _ _ _ _), fun n hne => pwrite_other F pos b hne⟩

theorem shared_step {bd : Build} {h : Endian} {c : Bytes → List Bytes} (hc : Splits c) {fs : FS} {args : Nat → List Str}
    {inp : Nat → Str} {out : Str} {W : Bytes} (ha : ∀ j, Asks (args j) (inp j) out)
    (hne : ∀ j, fs.node (inp j) ≠ fs.node out)
    (hW : ∀ j, (main bd h c fs (args j)).1.content (fs.node out) = some W) {F : FS} {S : Nat → At}
    {X : Nat → FS × At} (hi : Shared bd h fs args inp out W F S X) (i : Nat) (k : Call) :
    Shared bd h fs args inp out W (step bd h k F (S i)).1 (fun j => if j = i then (step bd h k F (S i)).2 else S j)
      (fun j => if j = i then step bd h k (X i).1 (X i).2 else X j) := by
  have hh := hi.heads i
  rw [hi.state i]
  obtain ⟨k1, k2⟩ := step_keeps bd h k hh hi.nodes
  obtain ⟨l1, l2⟩ := step_keeps bd h k hh (hi.nodes' i)
  have hreach : ∃ ks, step bd h k (X i).1 (X i).2 = steps bd h ks (fs, .start ((args i).map utf8)) := by
    obtain ⟨ks, hks⟩ := hi.reach i
    refine ⟨ks ++ [k], ?_⟩
    rw [steps_append, ← hks]
    rfl
  refine ⟨k1, fun j => (k2 _ (hne j)).trans (hi.input j), fun j => ?_, fun j => ?_, fun j => ?_, fun j => ?_, fun j => ?_, ?_⟩
  · by_cases hj : j = i
    · rw [if_pos hj, if_pos hj]
      exact step_blind hi.nodes (hi.nodes' i) ((hi.input i).trans (hi.input' i).symm) bd h k hh
    · rw [if_neg hj, if_neg hj]
      exact hi.state j
  · by_cases hj : j = i
    · subst hj
      rw [if_pos rfl]
      exact hreach
    · rw [if_neg hj]
      exact hi.reach j
  · by_cases hj : j = i
    · rw [if_pos hj]
      exact l1
    · rw [if_neg hj]
      exact hi.nodes' j
  · by_cases hj : j = i
    · subst hj
      rw [if_pos rfl]
      exact (l2 _ (hne j)).trans (hi.input' j)
    · rw [if_neg hj]
      exact hi.input' j
  · by_cases hj : j = i
    · subst hj
      rw [if_pos rfl]
      exact heads_step ((asks_iff ..).1 (ha j)) (hi.nodes' j) bd h k hh
    · rw [if_neg hj]
      exact hi.heads j
  · rcases step_does bd h k hh with he | ⟨ii, oo, hs, he⟩ | ⟨pos, cs, res, piece, hs, he⟩
    · rw [he F hi.nodes]
      rcases hi.output with ⟨h1, h2⟩ | ⟨b, h1, h2, L, w, h3, h4, h5⟩
      · refine .inl ⟨h1, fun j => ?_⟩
        by_cases hj : j = i
        · rw [if_pos hj, he _ (hi.nodes' i)]
          exact h2 i
        · rw [if_neg hj]
          exact h2 j
      · refine .inr ⟨b, h1, h2, L, w, ?_⟩
        by_cases hj : L = i
        · subst hj
          rw [if_pos rfl]
          exact ⟨(owns_step bd h k h3).1, by rw [he _ (hi.nodes' L)]; exact h4, h5⟩
        · rw [if_neg hj]
          exact ⟨h3, h4, h5⟩
    · right
      rw [he F hi.nodes]
      refine ⟨[], by simp [FS.set], fun p x hx => by simp at hx, i, [], ?_⟩
      rw [if_pos rfl]
      have hc' : (step bd h k (X i).1 (X i).2).1.content (fs.node out) = some [] := by
        rw [he _ (hi.nodes' i)]
        simp [FS.set]
      refine ⟨?_, hc', List.prefix_rfl⟩
      have hcfg := (asks_iff ..).1 (ha i)
      have hu : Untouched (X i).1 (args i) out (inp i) (X i) := ⟨rfl, by
        rw [hs] at hh ⊢
        exact .inr (.inr (.inl ⟨_, by rw [hh.2]⟩))⟩
      rcases untouched_step hcfg bd h k hu with ⟨hu1, hu2⟩ | ho
      · -- the step has emptied a file that was empty
        have hst := heads_step hcfg (hi.nodes' i) bd h k hh
        rw [hs] at he hu2 hc' hst ⊢
        simp only [step] at hu2 hc' hst ⊢
        split
        · rename_i hcan
          rw [if_pos hcan] at hc' hst
          exact ⟨hst.2, hc'⟩
        · rename_i hcan
          rw [if_neg hcan] at hc'
          exact ⟨[], hc'⟩
      · rwa [(hi.nodes' i).1] at ho
    · right
      have hown : Owns (fs.node out) (X i).1 (X i).2 := by
        obtain ⟨ks, hks⟩ := hi.reach i
        rw [hks]
        rcases opened ((asks_iff ..).1 (ha i)) bd h ks (x := (fs, .start ((args i).map utf8))) ⟨rfl, .inl rfl⟩ with
          ⟨-, hu⟩ | ho
        · rw [← hks, hs] at hu
          rcases hu with hu | hu | ⟨_, hu⟩ | ⟨_, hu⟩ <;> cases hu
        · exact ho
      have hown' := hown
      rw [hs] at hown'
      obtain ⟨-, v, hv, hl⟩ := hown'
      have hX : (step bd h k (X i).1 (X i).2).1.content (fs.node out) = some (v ++ piece) := by
        rw [he _ (hi.nodes' i)]
        simp only [FS.pwrite, FS.set, if_true, hv, Option.getD_some]
        rw [List.take_of_length_le (by omega), List.drop_of_length_le (by omega), show pos - v.length = 0 by omega]
        simp
      have hpre : v ++ piece <+: W := by
        obtain ⟨ks, hks⟩ := hreach
        have ho := (owns_step bd h k hown).1
        rw [hks] at ho hX
        obtain ⟨w, hw, hp⟩ := owns_begun bd h c hc fs (args i) (inp i) out (ha i) W (hW i) ks ho
        rw [hw] at hX
        cases hX
        exact hp
      have hvW : v <+: W := (List.prefix_append v piece).trans hpre
      obtain ⟨b, h1, h2, L, w, h3, h4, h5⟩ : ∃ b, F.content (fs.node out) = some b ∧ Torn W b ∧
          ∃ L w, Owns (fs.node out) (X L).1 (X L).2 ∧ (X L).1.content (fs.node out) = some w ∧ w <+: b := by
        rcases hi.output with ⟨h1, h2⟩ | h1
        · refine ⟨v, by rw [h1]; rwa [h2 i] at hv, fun p x hx => .inl (prefix_get.1 hvW p x hx), i, v, hown, hv, List.prefix_rfl⟩
        · exact h1
      have hF : (step bd h k F (X i).2).1.content (fs.node out) =
          some (b.take pos ++ List.replicate (pos - b.length) 0 ++ piece ++ b.drop (pos + piece.length)) := by
        rw [he F hi.nodes]
        simp only [FS.pwrite, FS.set, if_true, h1, Option.getD_some]
      have hpc : ∀ (q : Nat) x, piece[q]? = some x → W[pos + q]? = some x := by
        intro q x hx
        refine prefix_get.1 hpre _ _ ?_
        rw [List.getElem?_append_right (by omega), ← hl, Nat.add_sub_cancel_left]
        exact hx
      have hlen : v.length + piece.length ≤ W.length := by
        have := hpre.length_le
        rwa [List.length_append] at this
      refine ⟨_, hF, fun p x hx => ?_, L, ?_⟩
      · rw [pwrite_get] at hx
        split at hx
        · split at hx
          · exact h2 p x hx
          · cases hx
            exact .inr ⟨rfl, by omega⟩
        · split at hx
          · have := hpc _ _ hx
            rw [show pos + (p - pos) = p by omega] at this
            exact .inl this
          · exact h2 p x hx
      · by_cases hj : L = i
        · subst hj
          rw [if_pos rfl]
          refine ⟨v ++ piece, (owns_step bd h k hown).1, hX, prefix_get.2 fun p x hx => ?_⟩
          rw [hv] at h4
          cases h4
          rw [pwrite_get]
          by_cases hp : p < pos
          · rw [List.getElem?_append_left (by omega)] at hx
            have hb := prefix_get.1 h5 p x hx
            rw [if_pos hp, if_pos (List.getElem?_eq_some_iff.1 hb).1]
            exact hb
          · rw [List.getElem?_append_right (by omega), hl] at hx
            have := (List.getElem?_eq_some_iff.1 hx).1
            rw [if_neg hp, if_pos (by omega)]
            exact hx
        · rw [if_neg hj]
          refine ⟨w, h3, h4, prefix_get.2 fun p x hx => ?_⟩
          have hb := prefix_get.1 h5 p x hx
          have hwW : w <+: W := by
            obtain ⟨ks, hks⟩ := hi.reach L
            rw [hks] at h3 h4
            obtain ⟨w', hw', hp⟩ := owns_begun bd h c hc fs (args L) (inp L) out (ha L) W (hW L) ks h3
            rw [hw'] at h4
            cases h4
            exact hp
          have hxW := prefix_get.1 hwW p x hx
          rw [pwrite_get]
          by_cases hp : p < pos
          · rw [if_pos hp, if_pos (List.getElem?_eq_some_iff.1 hb).1]
            exact hb
          · rw [if_neg hp]
            split
            · have hq : p - pos < piece.length := by omega
              have := hpc _ _ (List.getElem?_eq_getElem hq)
              rw [show pos + (p - pos) = p by omega, hxW] at this
              rw [List.getElem?_eq_getElem hq]
              exact this.symm
            · exact hb

theorem shared_together {bd : Build} {h : Endian} {c : Bytes → List Bytes} (hc : Splits c) {fs : FS}
    {args : Nat → List Str} {inp : Nat → Str} {out : Str} {W : Bytes} (ha : ∀ j, Asks (args j) (inp j) out)
    (hne : ∀ j, fs.node (inp j) ≠ fs.node out)
    (hW : ∀ j, (main bd h c fs (args j)).1.content (fs.node out) = some W) (sched : List (Nat × Call)) :
    ∀ {F : FS} {S : Nat → At} {X : Nat → FS × At}, Shared bd h fs args inp out W F S X →
    Shared bd h fs args inp out W (together bd h sched (F, S)).1 (together bd h sched (F, S)).2
      (fun j => steps bd h (own j sched) (X j)) := by
  induction sched with
  | nil => exact fun hi => hi
  | cons p sched ih =>
    intro F S X hi
    obtain ⟨i, k⟩ := p
    have := ih (shared_step hc ha hne hW hi i k)
    have he : (fun j => steps bd h (own j ((i, k) :: sched)) (X j)) =
        fun j => steps bd h (own j sched) (if j = i then step bd h k (X i).1 (X i).2 else X j) := by
      funext j
      by_cases hj : j = i
      · subst hj
        rw [if_pos rfl, show own j ((j, k) :: sched) = k :: own j sched by simp [own]]
        rfl
      · rw [if_neg hj, show own j ((i, k) :: sched) = own j sched by simp [own, Ne.symm hj]]
    rw [he]
    exact this

theorem shared_fresh (bd : Build) (h : Endian) (fs : FS) (args : Nat → List Str) (inp : Nat → Str) (out : Str) (W : Bytes) :
    Shared bd h fs args inp out W fs (fresh args) (fun j => (fs, .start ((args j).map utf8))) :=
  ⟨⟨rfl, rfl, rfl⟩, fun _ => rfl, fun _ => rfl, fun _ => ⟨[], rfl⟩, fun _ => ⟨rfl, rfl, rfl⟩, fun _ => rfl,
    fun _ => rfl, .inl ⟨rfl, fun _ => rfl⟩⟩

/-- C109: any number of runs write the same file at the same time, and alone each would leave `W` in it.
At any moment the file is what it was before, or it is no longer than `W` and each of its bytes is the one
that `W` has there, or zero. -/
theorem C109_moment (bd : Build) (h : Endian) (c : Bytes → List Bytes) (hc : Splits c) (fs F : FS)
    (args : Nat → List Str) (inp : Nat → Str) (out : Str) (W : Bytes) (ha : ∀ j, Asks (args j) (inp j) out)
    (hne : ∀ j, fs.node (inp j) ≠ fs.node out)
    (hW : ∀ j, (main bd h c fs (args j)).1.content (fs.node out) = some W) (sched : List (Nat × Call)) (S : Nat → At)
    (hrun : together bd h sched (fs, fresh args) = (F, S)) :
    F.content (fs.node out) = fs.content (fs.node out) ∨
    ∃ b, F.content (fs.node out) = some b ∧ b.length ≤ W.length ∧
      ∀ (p : Nat) x, b[p]? = some x → W[p]? = some x ∨ x = 0 := by
  have hi := shared_together hc ha hne hW sched (shared_fresh bd h fs args inp out W)
  rw [hrun] at hi
  rcases hi.output with ⟨h1, -⟩ | ⟨b, h1, h2, -⟩
  · exact .inl h1
  · refine .inr ⟨b, h1, ?_, fun p x hx => (h2 p x hx).imp_right And.left⟩
    apply Classical.byContradiction
    intro hlt
    rcases h2 W.length _ (List.getElem?_eq_getElem (by omega)) with hx | ⟨-, hx⟩
    · rw [List.getElem?_eq_none (Nat.le_refl _)] at hx
      cases hx
    · omega

/-- C109: when all of them have ended, and none of their calls failed or all of them succeeded, the file is
what each would have left alone, and each has ended as it would have alone. -/
theorem C109_end (bd : Build) (h : Endian) (c : Bytes → List Bytes) (hc : Splits c) (fs F : FS)
    (args : Nat → List Str) (inp : Nat → Str) (out : Str) (W : Bytes) (ha : ∀ j, Asks (args j) (inp j) out)
    (hne : ∀ j, fs.node (inp j) ≠ fs.node out)
    (hW : ∀ j, (main bd h c fs (args j)).1.content (fs.node out) = some W) (sched : List (Nat × Call)) (S : Nat → At)
    (hrun : together bd h sched (fs, fresh args) = (F, S)) (hsome : sched ≠ [])
    (hend : ∀ p ∈ sched, ∃ r, S p.1 = .done r)
    (hfine : (∀ p ∈ sched, Fine p.2) ∨ ∀ p ∈ sched, S p.1 = .done (.ok ())) :
    F.content (fs.node out) = some W ∧ ∀ p ∈ sched, S p.1 = .done (main bd h c fs (args p.1)).2 := by
  have hm := C109_moment bd h c hc fs F args inp out W ha hne hW sched S hrun
  have hi := shared_together hc ha hne hW sched (shared_fresh bd h fs args inp out W)
  rw [hrun] at hi
  have halone : ∀ p ∈ sched, S p.1 = .done (main bd h c fs (args p.1)).2 ∧
      (steps bd h (own p.1 sched) (fs, .start ((args p.1).map utf8))).1.content (fs.node out) = some W := by
    intro p hp
    obtain ⟨r, hr⟩ := hend p hp
    have hs := hi.state p.1
    simp only at hs
    rw [hr] at hs
    have hbase : among bd h ((own p.1 sched).map .own) (fs, .start ((args p.1).map utf8)) =
        ((steps bd h (own p.1 sched) (fs, .start ((args p.1).map utf8))).1, .done r) := by
      rw [among_own]
      exact Prod.ext rfl hs.symm
    have hno : ∀ f, Move.other f ∈ (own p.1 sched).map Move.own →
        Spares (fun n => ∃ inp out, Asks (args p.1) inp out ∧ (n = fs.node inp ∨ n = fs.node out)) f := by
      intro f hf
      obtain ⟨k, -, hk⟩ := List.mem_map.1 hf
      cases hk
    rcases C100_undisturbed bd h c hc fs _ (args p.1) _ hno r hbase with ⟨e1, e2⟩ | ⟨⟨k, hk, hbad⟩, e1, -⟩
    · exact ⟨by rw [hr, e1], (e2 _ _ (ha p.1)).trans (hW p.1)⟩
    · exfalso
      rcases hfine with hf | hf
      · obtain ⟨k', hk', hkk⟩ := List.mem_map.1 hk
        cases hkk
        simp only [own, List.mem_map, List.mem_filter] at hk'
        obtain ⟨q, ⟨hq, -⟩, rfl⟩ := hk'
        exact hbad (hf q hq)
      · rw [hf p hp] at hr
        cases hr
        cases e1
  refine ⟨?_, fun p hp => (halone p hp).1⟩
  rcases hi.output with ⟨h1, h2⟩ | ⟨b, h1, h2, L, w, h3, h4, h5⟩
  · obtain ⟨p, hp⟩ := List.exists_mem_of_ne_nil _ hsome
    have := (halone p hp).2
    rw [h2 p.1] at this
    rw [h1, this]
  · have hL : ∃ p ∈ sched, p.1 = L := by
      apply Classical.byContradiction
      intro hno
      have ho : own L sched = [] := by
        unfold own
        rw [List.map_eq_nil_iff, List.filter_eq_nil_iff]
        intro p hp hx
        exact hno ⟨p, hp, by simpa using hx⟩
      rw [ho] at h3
      exact h3
    obtain ⟨p, hp, rfl⟩ := hL
    rw [(halone p hp).2] at h4
    cases h4
    rw [h1]
    have hle : b.length ≤ W.length := by
      apply Classical.byContradiction
      intro hlt
      rcases h2 W.length _ (List.getElem?_eq_getElem (by omega)) with hx | ⟨-, hx⟩
      · rw [List.getElem?_eq_none (Nat.le_refl _)] at hx
        cases hx
      · omega
    rw [h5.eq_of_length_le hle]

/-! ## Runs whose outputs are not their inputs -/

/-- The runs `S` share the files `F`, and `X j` is what run `j` has done so far, alone; no run has changed
an input. -/
structure Unaware (fs : FS) (args : Nat → List Str) (inp out : Nat → Str) (F : FS) (S : Nat → At) (X : Nat → FS × At) :
    Prop where
  nodes : SameNodes fs F
  input : ∀ j, F.content (fs.node (inp j)) = fs.content (fs.node (inp j))
  state : ∀ j, S j = (X j).2
  nodes' : ∀ j, SameNodes fs (X j).1
  input' : ∀ j, (X j).1.content (fs.node (inp j)) = fs.content (fs.node (inp j))
  heads : ∀ j, Heads fs (args j) (inp j) (out j) (X j).2

theorem unaware_together {bd : Build} {h : Endian} {fs : FS} {args : Nat → List Str} {inp out : Nat → Str}
    (ha : ∀ j, Asks (args j) (inp j) (out j)) (hne : ∀ i j, fs.node (inp i) ≠ fs.node (out j)) (sched : List (Nat × Call)) :
    ∀ {F : FS} {S : Nat → At} {X : Nat → FS × At}, Unaware fs args inp out F S X →
    Unaware fs args inp out (together bd h sched (F, S)).1 (together bd h sched (F, S)).2
      (fun j => steps bd h (own j sched) (X j)) := by
  induction sched with
  | nil => exact fun hi => hi
  | cons p sched ih =>
    intro F S X hi
    obtain ⟨i, k⟩ := p
    have hs : Unaware fs args inp out (step bd h k F (S i)).1 (fun j => if j = i then (step bd h k F (S i)).2 else S j)
        (fun j => if j = i then step bd h k (X i).1 (X i).2 else X j) := by
      have hh := hi.heads i
      rw [hi.state i]
      obtain ⟨k1, k2⟩ := step_keeps bd h k hh hi.nodes
      obtain ⟨l1, l2⟩ := step_keeps bd h k hh (hi.nodes' i)
      refine ⟨k1, fun j => (k2 _ (hne j i)).trans (hi.input j), fun j => ?_, fun j => ?_, fun j => ?_, fun j => ?_⟩
      all_goals
        by_cases hj : j = i
        · subst hj
          simp only [if_true]
          first
            | exact step_blind hi.nodes (hi.nodes' j) ((hi.input j).trans (hi.input' j).symm) bd h k hh
            | exact l1
            | exact (l2 _ (hne j j)).trans (hi.input' j)
            | exact heads_step ((asks_iff ..).1 (ha j)) (hi.nodes' j) bd h k hh
        · simp only [if_neg hj]
          first
            | exact hi.state j
            | exact hi.nodes' j
            | exact hi.input' j
            | exact hi.heads j
    have := ih hs
    have he : (fun j => steps bd h (own j ((i, k) :: sched)) (X j)) =
        fun j => steps bd h (own j sched) (if j = i then step bd h k (X i).1 (X i).2 else X j) := by
      funext j
      by_cases hj : j = i
      · subst hj
        rw [if_pos rfl, show own j ((j, k) :: sched) = k :: own j sched by simp [own]]
        rfl
      · rw [if_neg hj, show own j ((i, k) :: sched) = own j sched by simp [own, Ne.symm hj]]
    rw [he]
    exact this

theorem unaware_fresh (fs : FS) (args : Nat → List Str) (inp out : Nat → Str) :
    Unaware fs args inp out fs (fresh args) (fun j => (fs, .start ((args j).map utf8))) :=
  ⟨⟨rfl, rfl, rfl⟩, fun _ => rfl, fun _ => rfl, fun _ => ⟨rfl, rfl, rfl⟩, fun _ => rfl, fun _ => rfl⟩

/-- C109: whether their outputs are the same files or not, runs that do not write what they read end as
they do alone with ideal I/O; or with a panic, if one of their own calls failed. -/
theorem C109_result (bd : Build) (h : Endian) (c : Bytes → List Bytes) (hc : Splits c) (fs F : FS)
    (args : Nat → List Str) (inp out : Nat → Str) (ha : ∀ j, Asks (args j) (inp j) (out j))
    (hne : ∀ i j, fs.node (inp i) ≠ fs.node (out j)) (sched : List (Nat × Call)) (S : Nat → At)
    (hrun : together bd h sched (fs, fresh args) = (F, S)) (i : Nat) (r : Outcome) (hr : S i = .done r) :
    r = (main bd h c fs (args i)).2 ∨ (∃ k, (i, k) ∈ sched ∧ ¬ Fine k) ∧ r = .error .panic := by
  have hi := unaware_together (bd := bd) (h := h) ha hne sched (unaware_fresh fs args inp out)
  rw [hrun] at hi
  have hs := hi.state i
  simp only at hs
  rw [hr] at hs
  have hbase : among bd h ((own i sched).map .own) (fs, .start ((args i).map utf8)) =
      ((steps bd h (own i sched) (fs, .start ((args i).map utf8))).1, .done r) := by
    rw [among_own]
    exact Prod.ext rfl hs.symm
  have hno : ∀ f, Move.other f ∈ (own i sched).map Move.own →
      Spares (fun n => ∃ inp out, Asks (args i) inp out ∧ (n = fs.node inp ∨ n = fs.node out)) f := by
    intro f hf
    obtain ⟨k, -, hk⟩ := List.mem_map.1 hf
    cases hk
  rcases C100_undisturbed bd h c hc fs _ (args i) _ hno r hbase with ⟨e1, -⟩ | ⟨⟨k, hk, hbad⟩, e1, -⟩
  · exact .inl e1
  · refine .inr ⟨⟨k, ?_, hbad⟩, e1⟩
    obtain ⟨k', hk', hkk⟩ := List.mem_map.1 hk
    cases hkk
    simp only [own, List.mem_map, List.mem_filter, decide_eq_true_eq] at hk'
    obtain ⟨q, ⟨hq, rfl⟩, rfl⟩ := hk'
    exact hq

/-- C109: and in an endless schedule such a run comes to an end if it gets on again and again. -/
theorem C109_ends (bd : Build) (h : Endian) (fs : FS) (args : Nat → List Str) (inp out : Nat → Str)
    (ha : ∀ j, Asks (args j) (inp j) (out j)) (hne : ∀ i j, fs.node (inp i) ≠ fs.node (out j))
    (σ : Nat → Nat × Call) (i : Nat) (hfair : ∀ n, ∃ m, n ≤ m ∧ (σ m).1 = i ∧ (σ m).2 ≠ .interrupted) :
    ∃ n r, ∀ m, n ≤ m → (together bd h (upTo σ m) (fs, fresh args)).2 i = .done r := by
  -- the run alone, in the same schedule
  let only : Nat → List Str := fun j => if j = i then args i else []
  have hsep : Separated fs only := by
    intro a b hab inp₁ out₁ inp₂ out₂ h1 h2
    exfalso
    have hnil : ∀ x y, ¬ Asks [] x y := fun x y hx => by
      rw [asks_iff] at hx
      cases hx
    by_cases haa : a = i
    · have hb : b ≠ i := fun hb => hab (haa.trans hb.symm)
      simp only [only, if_neg hb] at h2
      exact hnil _ _ h2
    · simp only [only, if_neg haa] at h1
      exact hnil _ _ h1
  obtain ⟨n, r, hn⟩ := C98_ends bd h fs only hsep σ i hfair
  refine ⟨n, r, fun m hm => ?_⟩
  have h1 := (unaware_together (bd := bd) (h := h) ha hne (upTo σ m) (unaware_fresh fs args inp out)).state i
  obtain ⟨-, h2, -⟩ := together_apart bd h (upTo σ m) fs (fresh only) (separated_apart hsep)
  have h3 := (h2 i).1
  have h4 : fresh only i = .start ((args i).map utf8) := by simp [fresh, only]
  rw [hn m hm, h4] at h3
  rw [h1]
  exact h3.symm

/-- One source, no output yet. -/
def onceFiles : FS :=
  ⟨fun p => if p = str% "a.s" then 0 else 1,
   fun n => if n = 0 then some (utf8 (str% "f:\nret\n")) else none, fun _ => true, fun _ => true⟩

/-- The same command, any number of times. -/
def onceArgs : Nat → List Str := fun _ => [str% "as", str% "a.s"]

/-- C109: one that succeeds is not enough.  Of two runs of the same command one can end with success, all
calls of both having succeeded, and the file is empty because the other one has just emptied it. -/
theorem C109_one : ∃ (fs F : FS) (args : Nat → List Str) (sched : List (Nat × Call)) (S : Nat → At),
    together .release .little sched (fs, fresh args) = (F, S) ∧ (∀ p ∈ sched, Fine p.2) ∧
    (∀ j, args j = [str% "as", str% "a.s"]) ∧ ending (S 1) = some (.ok ()) ∧
    fs.node (str% "a.s") ≠ fs.node (str% "a.o") ∧ F.content (fs.node (str% "a.o")) = some [] ∧
    ∃ W, W ≠ [] ∧ (main .release .little (fun b => if b = [] then [] else [b]) fs (args 1)).1.content
      (fs.node (str% "a.o")) = some W := by
  let fs := onceFiles
  let args := onceArgs
  let sched : List (Nat × Call) := List.replicate 2 (0, .size 1000) ++ List.replicate 300 (1, .size 1000) ++ [(0, .size 1000)]
  have e : ∃ W, (main .release .little (fun b => if b = [] then [] else [b]) fs (args 1)).1.content 1 = some W ∧
      W.length = 235 := by
    have : ((main .release .little (fun b => if b = [] then [] else [b]) fs (args 1)).1.content 1).map List.length =
      some 235 := by decide +kernel
    exact Option.map_eq_some_iff.1 this
  obtain ⟨W, e1, e2⟩ := e
  refine ⟨fs, (together .release .little sched (fs, fresh args)).1, args, sched,
    (together .release .little sched (fs, fresh args)).2, pair_eq _, fun p hp => ?_, fun _ => rfl, by decide +kernel,
    by decide, by decide +kernel, W, (fun hx => by rw [hx] at e2; cases e2), e1⟩
  simp only [sched, List.mem_append, List.mem_replicate, List.mem_singleton] at hp
  rcases hp with (⟨-, rfl⟩ | ⟨-, rfl⟩) | rfl <;> exact .inr ⟨1000, by omega, rfl⟩

/-- C108: that the runs have different outputs is needed.  While two runs of one command go on, all of whose
calls succeed, their output can look whole and not be so: it has a gap in the middle. -/
theorem C108_shared : ∃ (fs F : FS) (args : Nat → List Str) (sched : List (Nat × Call)) (S : Nat → At),
    together .release .little sched (fs, fresh args) = (F, S) ∧ (∀ p ∈ sched, Fine p.2) ∧
    (∀ j, args j = [str% "as", str% "a.s"]) ∧ fs.node (str% "a.s") ≠ fs.node (str% "a.o") ∧
    fs.content (fs.node (str% "a.o")) = none ∧
    (F.content (fs.node (str% "a.o"))).map (looksWhole .release .little) = some true ∧
    F.content (fs.node (str% "a.o")) ≠ (main .release .little (fun b => if b = [] then [] else [b]) fs (args 0)).1.content
      (fs.node (str% "a.o")) := by
  let sched : List (Nat × Call) := List.replicate 2 (1, .size 1000) ++ List.replicate 90 (0, .size 1000) ++
    [(1, .size 1000)] ++ List.replicate 300 (0, .size 1000) ++ List.replicate 81 (1, .size 1000)
  refine ⟨onceFiles, (together .release .little sched (onceFiles, fresh onceArgs)).1, onceArgs, sched,
    (together .release .little sched (onceFiles, fresh onceArgs)).2, pair_eq _, fun p hp => ?_, fun _ => rfl, by decide,
    by decide, by decide +kernel, by decide +kernel⟩
  simp only [sched, List.mem_append, List.mem_replicate, List.mem_singleton] at hp
  rcases hp with (((⟨-, rfl⟩ | ⟨-, rfl⟩) | rfl) | ⟨-, rfl⟩) | ⟨-, rfl⟩ <;> exact .inr ⟨1000, by omega, rfl⟩

/-- C109 applies to two runs of the same command: the first writes four bytes, the second empties the file,
and the first goes on behind the gap.  When both have ended the file is as one run leaves it. -/
example :
    (let gap := List.replicate 2 ((1 : Nat), Call.size 1000) ++ List.replicate 10 (0, .size 3) ++ [(1, .size 1000)] ++
       List.replicate 4 (0, .size 3)
     let sched := gap ++ List.replicate 300 (1, .size 1000) ++ List.replicate 300 (0, .size 1000)
     (∀ j, Asks (onceArgs j) (str% "a.s") (str% "a.o")) ∧
     onceFiles.node (str% "a.s") ≠ onceFiles.node (str% "a.o") ∧
     (∃ W, W.length = 235 ∧ ∀ j, (main .release .little (fun b => if b = [] then [] else [b]) onceFiles
       (onceArgs j)).1.content (onceFiles.node (str% "a.o")) = some W) ∧
     ((together .release .little gap (onceFiles, fresh onceArgs)).1.content (onceFiles.node (str% "a.o"))) =
       some [0, 0, 0, 0, 7, 0, 0, 1] ∧
     (∀ j, j < 2 → ending ((together .release .little sched (onceFiles, fresh onceArgs)).2 j) = some (.ok ())) ∧
     ((together .release .little sched (onceFiles, fresh onceArgs)).1.content (onceFiles.node (str% "a.o"))) =
       (main .release .little (fun b => if b = [] then [] else [b]) onceFiles (onceArgs 0)).1.content
         (onceFiles.node (str% "a.o"))) := by
  have e : ∃ W, (main .release .little (fun b => if b = [] then [] else [b]) onceFiles (onceArgs 0)).1.content 1 = some W ∧
      W.length = 235 := by
    have : ((main .release .little (fun b => if b = [] then [] else [b]) onceFiles (onceArgs 0)).1.content 1).map
      List.length = some 235 := by decide +kernel
    exact Option.map_eq_some_iff.1 this
  obtain ⟨W, e1, e2⟩ := e
  have hcfg : Config.init (onceArgs 0) = .ok ⟨str% "a.o", str% "a.s"⟩ := by decide +kernel
  refine ⟨fun _ => (asks_iff ..).2 hcfg, by decide, ⟨W, e2, fun _ => e1⟩, by decide +kernel,
    fun j hj => ?_, by decide +kernel⟩
  obtain rfl | rfl : j = 0 ∨ j = 1 := by omega
  · decide +kernel
  · decide +kernel

/-- C109 also applies to the runs of C98 with one output and different sources: what they leave is a
mixture, but no run notices. -/
example : (let args : Nat → List Str := fun j => if j = 0 then raceArgs 0 else raceArgs 1
    let inp : Nat → Str := fun j => if j = 0 then str% "a.s" else str% "b.s"
    (∀ j, Asks (args j) (inp j) (str% "c.o")) ∧ (∀ i, raceFiles.node (inp i) ≠ raceFiles.node (str% "c.o")) ∧
    ∀ j, j < 2 → ending ((together .release .little raceSched (raceFiles, fresh args)).2 j) = some (.ok ())) := by
  have h0 : Config.init (raceArgs 0) = .ok ⟨str% "c.o", str% "a.s"⟩ := by decide +kernel
  have h1 : Config.init (raceArgs 1) = .ok ⟨str% "c.o", str% "b.s"⟩ := by decide +kernel
  refine ⟨fun j => ?_, fun j => ?_, fun j hj => ?_⟩
  · rw [asks_iff]
    by_cases hj : j = 0
    · simp only [if_pos hj]; exact h0
    · simp only [if_neg hj]; exact h1
  · by_cases hj : j = 0
    · simp only [if_pos hj]; decide
    · simp only [if_neg hj]; decide
  · obtain rfl | rfl : j = 0 ∨ j = 1 := by omega
    · decide +kernel
    · decide +kernel

end AT.Props
