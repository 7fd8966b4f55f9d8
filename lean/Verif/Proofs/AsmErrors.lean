import Verif.Spec.AsmErrors
import Verif.Proofs.Decimal
import Verif.Props.AsmInst
/-!
# Lemmas: rejected lines
-/

namespace AT.AsmSpec
open AT.Asm AT.X64

/-! ## Numbers -/

theorem readable_iff {a : Str} : Readable a ↔ ∃ v : UInt64, Number a v.toNat := by
  constructor
  · rintro ⟨n, h, hn⟩; exact ⟨UInt64.ofNat n, number_u64 h hn⟩
  · rintro ⟨v, h⟩; exact ⟨v.toNat, h, v.toNat_lt⟩

theorem not_readable_iff {a : Str} : ¬ Readable a ↔ ∀ n, Number a n → 2 ^ 64 ≤ n := by
  constructor
  · intro h n hn
    exact Nat.le_of_not_lt fun hlt => h ⟨n, hn, hlt⟩
  · rintro h ⟨n, hn, hlt⟩
    have := h n hn
    omega

theorem parseU64_bad {a : Str} (h : ¬ Readable a) :
    parseU64 a = .error (.parseErr (a ++ str% " is invalid u64")) := by
  rw [parseU64, (tryParseNum_none (by decide)).2 (not_readable_iff.1 h)]
  rfl

/-! ## Items -/

theorem firstItem_split {s a rest : Str} (h : FirstItem s a rest) :
    (∃ c r, s = c :: r ∧ c ≠ '"') ∧ splitDelimOnce s = (a, rest) ∧ rest.length < s.length := by
  cases h with
  | last _ hne hd hq =>
    refine ⟨?_, ?_, by simpa using List.length_pos_iff.2 hne⟩
    · cases s with
      | nil => exact absurd rfl hne
      | cons c r => exact ⟨c, r, rfl, by simpa using hq⟩
    · rw [splitDelimOnce, splitOnce_none.2 (fun x hx => by
        have := hd x hx
        rw [← isDelim_iff] at this
        simpa using this)]
  | more a c w rest ha hq hc hw hs =>
    refine ⟨?_, ?_, by simp; omega⟩
    · cases a with
      | nil =>
        refine ⟨c, w ++ rest, rfl, ?_⟩
        rintro rfl
        have := (isDelim_iff _).2 hc
        revert this; decide
      | cons x a => exact ⟨x, a ++ c :: (w ++ rest), rfl, by simpa using hq⟩
    · rw [splitDelimOnce, splitOnce_eq ((isDelim_iff c).2 hc) (fun x hx => by
        have := ha x hx
        rw [← isDelim_iff] at this
        simpa using this)]
      simp only [Prod.mk.injEq, true_and, trimStart, trimStartBy]
      exact dropWhile_all hw hs

theorem firstItem_exists {c : Char} {r : Str} (hc : c ≠ '"') :
    ∃ a rest, FirstItem (c :: r) a rest := by
  cases hs : splitOnce isDelim (c :: r) with
  | none =>
    refine ⟨c :: r, [], .last _ (by simp) (fun x hx => ?_) (by simpa using hc)⟩
    rw [← isDelim_iff, splitOnce_none.1 hs x hx]; simp
  | some p =>
    obtain ⟨a, b⟩ := p
    obtain ⟨d, he, hd, ha⟩ := splitOnce_some hs
    refine ⟨a, b.dropWhile isWs, ?_⟩
    have hb : b = b.takeWhile isWs ++ b.dropWhile isWs := (List.takeWhile_append_dropWhile).symm
    have e : c :: r = a ++ d :: (b.takeWhile isWs ++ b.dropWhile isWs) := by rw [← hb]; exact he
    rw [e]
    refine .more a d _ _ (fun x hx => ?_) ?_ ((isDelim_iff d).1 hd) (blank_takeWhile b)
      (startsSolid_dropWhile b)
    · rw [← isDelim_iff, ha x hx]; simp
    · cases a with
      | nil => simp
      | cons x a =>
        simp only [List.cons_append, List.cons.injEq] at he
        rw [List.head?_cons, ← he.1]
        simpa using hc

theorem next_first {s a rest : Str} (h : FirstItem s a rest) : dataNext s =
    match parseU64 a with
    | .ok n => some (.ok (.num n, rest))
    | .error e => some (.error e) := by
  obtain ⟨⟨c, r, rfl, hq⟩, hs, _⟩ := firstItem_split h
  unfold dataNext
  split
  · rename_i h'; simp at h'
  · rename_i h'; simp only [List.cons.injEq] at h'; exact absurd h'.1 hq
  · rw [hs]
    simp only
    cases parseU64 a <;> rfl

theorem next_unclosed {body : Str} (h : '"' ∉ body) :
    dataNext ('"' :: body) = some (.error (.parseErr (str% "unclosed \" found"))) := by
  have hs : splitOnce (· == '"') body = none := splitOnce_none.2 fun x hx => by
    have : x ≠ '"' := fun he => h (he ▸ hx)
    simpa using this
  simp only [dataNext, hs]
  rfl

theorem next_quoted {body sep rest : Str} (hb : '"' ∉ body) (hw : ∀ c ∈ sep, Delim c)
    (hr : ∀ c, rest.head? = some c → ¬ Delim c) :
    dataNext ('"' :: (body ++ '"' :: (sep ++ rest))) = some (.ok (.str body, rest)) := by
  have hs : splitOnce (· == '"') (body ++ '"' :: (sep ++ rest)) = some (body, sep ++ rest) := by
    apply splitOnce_eq (by decide)
    intro x hx
    have : x ≠ '"' := fun h => hb (h ▸ hx)
    simpa using this
  have hd : trimStartBy isDelim (sep ++ rest) = rest :=
    dropWhile_all (fun c hc => (isDelim_iff c).2 (hw c hc)) (fun c r hcr => by
      have := hr c (by rw [hcr]; rfl)
      rw [← isDelim_iff] at this
      simpa using this)
  simp only [dataNext, hs, hd]

theorem write_large {n : UInt64} {a : Align} (h : 256 ^ alignSize a ≤ n.toNat) :
    (DataDef.num n).write a = .error (.parseErr
      (showNat n.toNat ++ str% " is not a " ++ showNat (8 * alignSize a) ++ str% " bit number")) := by
  have := n.toNat_lt
  cases a <;> simp only [alignSize] at h <;> simp only [DataDef.write, writeNum]
  · rw [if_neg (by omega)]; simp only [perr, List.append_assoc]; rfl
  · rw [if_neg (by omega)]; simp only [perr, List.append_assoc]; rfl
  · rw [if_neg (by omega)]; simp only [perr, List.append_assoc]; rfl
  · omega

theorem write_small {n : UInt64} {a : Align} (h : n.toNat < 256 ^ alignSize a) :
    ∃ b, (DataDef.num n).write a = .ok b := by
  refine ⟨leBytes (alignSize a) n.toNat, ?_⟩
  rw [item_bytes, itemOf, ItemBytes, le_iff]
  exact ⟨h, rfl⟩

theorem loop_step {a : Align} {fuel : Nat} {s s' : Str} {d : DataDef} {b : Bytes}
    (hn : dataNext s = some (.ok (d, s'))) (hw : d.write a = .ok b) {e : Stop} :
    dataLoop a (fuel + 1) s = .error e ↔ dataLoop a fuel s' = .error e := by
  rw [dataLoop, hn]
  simp only [hw, bind, Except.bind]
  cases dataLoop a fuel s' <;> simp [pure, Except.pure]

theorem badItems_loop {a : Align} {w : Nat} (ha : alignSize a = w) {s msg : Str} (h : BadItems w s msg)
    {fuel : Nat} (hf : s.length ≤ fuel) : dataLoop a fuel s = .error (.parseErr msg) := by
  subst ha
  induction h generalizing fuel with
  | notNumber s x rest hi hx =>
    obtain ⟨⟨c, r, rfl, _⟩, _, _⟩ := firstItem_split hi
    cases fuel with
    | zero => simp at hf
    | succ fuel => rw [dataLoop, next_first hi, parseU64_bad hx]
  | tooLarge s x rest n num bits hi hN hn hlarge hnum hbits =>
    obtain ⟨⟨c, r, rfl, _⟩, _, _⟩ := firstItem_split hi
    cases fuel with
    | zero => simp at hf
    | succ fuel =>
      rw [dataLoop, next_first hi, parseU64_ok hN hn]
      have e : (UInt64.ofNat n).toNat = n := by rw [UInt64.toNat_ofNat', Nat.mod_eq_of_lt hn]
      rw [decimal_iff.1 hnum, decimal_iff.1 hbits]
      have := write_large (n := UInt64.ofNat n) (a := a) (by rwa [e])
      rw [e] at this
      simp only [this]
      rfl
  | unclosed body hb =>
    cases fuel with
    | zero => simp at hf
    | succ fuel => rw [dataLoop, next_unclosed hb]
  | afterNumber s x rest n msg hi hN hn hsmall _ ih =>
    obtain ⟨⟨c, r, rfl, _⟩, _, hlt⟩ := firstItem_split hi
    cases fuel with
    | zero => simp at hf
    | succ fuel =>
      have e : (UInt64.ofNat n).toNat = n := by rw [UInt64.toNat_ofNat', Nat.mod_eq_of_lt hn]
      have hnx := next_first hi
      rw [parseU64_ok hN hn] at hnx
      obtain ⟨b, hb⟩ := write_small (n := UInt64.ofNat n) (a := a) (by rwa [e])
      exact (loop_step hnx hb).2 (ih (by omega))
  | afterString body sep rest msg hb hs hr _ ih =>
    cases fuel with
    | zero => simp at hf
    | succ fuel =>
      exact (loop_step (b := writeStr body a) (next_quoted hb hs hr) rfl).2 (ih (by
        simp at hf; omega))

theorem loop_badItems {a : Align} {fuel : Nat} {s msg : Str}
    (h : dataLoop a fuel s = .error (.parseErr msg)) : BadItems (alignSize a) s msg := by
  induction fuel generalizing s with
  | zero => simp [dataLoop, pure, Except.pure] at h
  | succ fuel ih =>
    cases s with
    | nil => simp [dataLoop, dataNext, pure, Except.pure] at h
    | cons c r =>
      by_cases hc : c = '"'
      · subst hc
        cases hs : splitOnce (· == '"') r with
        | none =>
          have hr : '"' ∉ r := fun hm => by simpa using splitOnce_none.1 hs _ hm
          rw [dataLoop, next_unclosed hr] at h
          simp only [Except.error.injEq, Stop.parseErr.injEq] at h
          subst h
          exact .unclosed r hr
        | some p =>
          obtain ⟨body, rmn⟩ := p
          obtain ⟨q, hr, hq, hb⟩ := splitOnce_some hs
          have : q = '"' := by simpa using hq
          subst this
          have hb' : '"' ∉ body := fun hm => by simpa using hb _ hm
          have hsplit : rmn = rmn.takeWhile isDelim ++ rmn.dropWhile isDelim :=
            (List.takeWhile_append_dropWhile).symm
          have hsep : ∀ c ∈ rmn.takeWhile isDelim, Delim c := fun c hc => (isDelim_iff c).1
            (List.all_eq_true.1 (List.all_takeWhile (p := isDelim) (l := rmn)) c hc)
          have hrest : ∀ c, (rmn.dropWhile isDelim).head? = some c → ¬ Delim c := by
            intro c hc
            rw [← isDelim_iff]
            have := List.head?_dropWhile_not isDelim rmn
            rw [hc] at this
            simpa using this
          rw [hsplit] at hr
          rw [hr] at h ⊢
          exact .afterString _ _ _ _ hb' hsep hrest
            (ih ((loop_step (b := writeStr body a) (next_quoted hb' hsep hrest) rfl).1 h))
      · obtain ⟨x, rest, hi⟩ := firstItem_exists (r := r) hc
        have hnx := next_first hi
        by_cases hx : Readable x
        · obtain ⟨n, hN, hn⟩ := hx
          have e : (UInt64.ofNat n).toNat = n := by rw [UInt64.toNat_ofNat', Nat.mod_eq_of_lt hn]
          rw [parseU64_ok hN hn] at hnx
          by_cases hl : 256 ^ alignSize a ≤ n
          · have hw := write_large (n := UInt64.ofNat n) (a := a) (by rwa [e])
            rw [dataLoop, hnx] at h
            simp only [hw, bind, Except.bind, Except.error.injEq, Stop.parseErr.injEq, e] at h
            subst h
            exact .tooLarge _ _ _ n _ _ hi hN hn hl (showNat_decimal _) (showNat_decimal _)
          · obtain ⟨b, hb⟩ := write_small (n := UInt64.ofNat n) (a := a) (by rw [e]; omega)
            exact .afterNumber _ _ _ n _ hi hN hn (by omega) (ih ((loop_step hnx hb).1 h))
        · rw [parseU64_bad hx] at hnx
          rw [dataLoop, hnx] at h
          simp only [Except.error.injEq, Stop.parseErr.injEq] at h
          subst h
          exact .notNumber _ _ _ hi hx

end AT.AsmSpec
