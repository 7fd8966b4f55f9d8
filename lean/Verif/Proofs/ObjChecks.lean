import Verif.Spec.ObjChecks
import Verif.Props.ObjWrap
/-!
# The overflow checks of a debug build

Each function of the writer, in a debug build, gives what it gives in a release build exactly if the
sums of `Spec/ObjChecks.lean` fit.
-/

namespace AT.Props
open AT.Obj AT.Mac AT.MachO AT.ObjSpec

/-- `r` succeeds. -/
def IsOk {α : Type} (r : Res α) : Prop := ∃ a, r = .ok a

/-- `r` succeeds with `n` if it fits 32 bits, and not otherwise. -/
def Exact32 (r : Res UInt32) (n : Nat) : Prop := ∀ c, r = .ok c ↔ c.toNat = n

/-- `r` succeeds with `n` if it fits 64 bits, and not otherwise. -/
def Exact64 (r : Res UInt64) (n : Nat) : Prop := ∀ c, r = .ok c ↔ c.toNat = n

theorem isOk_bind {α β : Type} {r : Res α} {f : α → Res β} :
    IsOk (r >>= f) ↔ ∃ a, r = .ok a ∧ IsOk (f a) := by
  constructor
  · rintro ⟨b, hb⟩
    obtain ⟨a, ha, h⟩ := bind_inv hb
    exact ⟨a, ha, b, h⟩
  · rintro ⟨a, rfl, b, hb⟩
    exact ⟨b, hb⟩

theorem isOk_pure {α : Type} (a : α) : IsOk (pure a : Res α) ↔ True := ⟨fun _ => trivial, fun _ => ⟨a, rfl⟩⟩

theorem isOk_ok {α : Type} (a : α) : IsOk (.ok a : Res α) ↔ True := ⟨fun _ => trivial, fun _ => ⟨a, rfl⟩⟩

theorem Exact32.isOk {r : Res UInt32} {n : Nat} (h : Exact32 r n) : IsOk r ↔ n < 2 ^ 32 := by
  constructor
  · rintro ⟨c, hc⟩
    rw [← (h c).1 hc]
    exact c.toNat_lt
  · intro hn
    exact ⟨UInt32.ofNat n, (h _).2 (u32_ofNat _ hn)⟩

theorem Exact32.bind {β : Type} {r : Res UInt32} {n : Nat} (h : Exact32 r n) {f : UInt32 → Res β} :
    IsOk (r >>= f) ↔ ∃ a : UInt32, a.toNat = n ∧ IsOk (f a) := by
  rw [isOk_bind]
  exact exists_congr fun a => and_congr_left' (h a)

theorem Exact64.bind {β : Type} {r : Res UInt64} {n : Nat} (h : Exact64 r n) {f : UInt64 → Res β} :
    IsOk (r >>= f) ↔ ∃ a : UInt64, a.toNat = n ∧ IsOk (f a) := by
  rw [isOk_bind]
  exact exists_congr fun a => and_congr_left' (h a)

theorem add32_exact (a b : UInt32) : Exact32 (addU32 .debug a b) (a.toNat + b.toNat) := by
  refine fun c => ⟨add32_inv, fun h => ?_⟩
  have := c.toNat_lt
  unfold addU32
  rw [if_pos (.inl (by omega))]
  congr 1
  apply UInt32.toNat.inj
  rw [UInt32.toNat_add, Nat.mod_eq_of_lt (by omega), h]

theorem mul32_exact (a b : UInt32) : Exact32 (mulU32 .debug a b) (a.toNat * b.toNat) := by
  refine fun c => ⟨mul32_inv, fun h => ?_⟩
  have := c.toNat_lt
  unfold mulU32
  rw [if_pos (.inl (by omega))]
  congr 1
  apply UInt32.toNat.inj
  rw [UInt32.toNat_mul, Nat.mod_eq_of_lt (by omega), h]

theorem add64_exact (a b : UInt64) : Exact64 (addU64 .debug a b) (a.toNat + b.toNat) := by
  refine fun c => ⟨add64_inv, fun h => ?_⟩
  have := c.toNat_lt
  unfold addU64
  rw [if_pos (.inl (by omega))]
  congr 1
  apply UInt64.toNat.inj
  rw [UInt64.toNat_add, Nat.mod_eq_of_lt (by omega), h]

/-- Composition: a value that is computed exactly and then used exactly. -/
theorem Exact32.then {r : Res UInt32} {n m : Nat} (h : Exact32 r n) {f : UInt32 → Res UInt32}
    (hf : ∀ a : UInt32, a.toNat = n → Exact32 (f a) m) (hle : n ≤ m) : Exact32 (r >>= f) m := by
  intro c
  constructor
  · intro hc
    obtain ⟨a, ha, hc⟩ := bind_inv hc
    exact (hf a ((h a).1 ha) c).1 hc
  · intro hc
    have hn : n < 2 ^ 32 := by have := c.toNat_lt; omega
    have ha := u32_ofNat n hn
    rw [(h (UInt32.ofNat n)).2 ha]
    exact (hf _ ha c).2 hc

theorem fold32_exact (l : List UInt32) (a : UInt32) :
    Exact32 (l.foldlM (addU32 .debug) a) (a.toNat + (l.map (·.toNat)).sum) := by
  induction l generalizing a with
  | nil =>
    intro c
    simp only [List.foldlM_nil, List.map_nil, List.sum_nil, Nat.add_zero]
    constructor
    · intro h; obtain rfl := Except.ok.inj h; rfl
    · intro h; rw [UInt32.toNat.inj h]; rfl
  | cons x l ih =>
    rw [List.foldlM_cons, List.map_cons, List.sum_cons]
    refine (add32_exact a x).then (fun b hb => ?_) (by omega)
    rw [← Nat.add_assoc, ← hb]
    exact ih b

theorem sum32_exact (l : List UInt32) : Exact32 (sumU32 .debug l) (l.map (·.toNat)).sum := by
  have := fold32_exact l 0
  rwa [show (0 : UInt32).toNat = 0 from rfl, Nat.zero_add] at this

theorem fold64_exact (l : List UInt64) (a : UInt64) :
    Exact64 (l.foldlM (addU64 .debug) a) (a.toNat + (l.map (·.toNat)).sum) := by
  induction l generalizing a with
  | nil =>
    intro c
    simp only [List.foldlM_nil, List.map_nil, List.sum_nil, Nat.add_zero]
    constructor
    · intro h; obtain rfl := Except.ok.inj h; rfl
    · intro h; rw [UInt64.toNat.inj h]; rfl
  | cons x l ih =>
    intro c
    rw [List.foldlM_cons, List.map_cons, List.sum_cons]
    constructor
    · intro hc
      obtain ⟨b, hb, hc⟩ := bind_inv hc
      rw [(ih b c).1 hc, add64_inv hb, Nat.add_assoc]
    · intro hc
      have hn : a.toNat + x.toNat < 2 ^ 64 := by have := c.toNat_lt; omega
      have hb := u64_ofNat _ hn
      rw [(add64_exact a x _).2 hb]
      exact (ih _ c).2 (by omega)

theorem sum64_exact (l : List UInt64) : Exact64 (sumU64 .debug l) (l.map (·.toNat)).sum := by
  have := fold64_exact l 0
  rwa [show (0 : UInt64).toNat = 0 from rfl, Nat.zero_add] at this

theorem aligned_exact (n : UInt32) : Exact32 (alignedU32 .debug n 8) (roundUp8 n.toNat) := by
  have h8 : (8 : UInt32).toNat = 8 := rfl
  have h1 : (1 : UInt32).toNat = 1 := rfl
  have h0 : (0 : UInt32).toNat = 0 := rfl
  have hgt : n % 8 > 0 ↔ n.toNat % 8 > 0 := by
    rw [gt_iff_lt, UInt32.lt_iff_toNat_lt, UInt32.toNat_mod]; rfl
  have hq : (n / 8).toNat + (if n % 8 > 0 then (1 : UInt32) else 0).toNat = (n.toNat + 7) / 8 := by
    rw [UInt32.toNat_div, h8]
    by_cases hc : n % 8 > 0
    · have := hgt.1 hc
      rw [if_pos hc, h1]
      omega
    · have : ¬ n.toNat % 8 > 0 := fun hh => hc (hgt.2 hh)
      rw [if_neg hc, h0]
      omega
  show Exact32 (addU32 .debug _ _ >>= fun q => mulU32 .debug q 8) _
  refine (add32_exact _ _).then (fun a ha => ?_) ?_
  · have := mul32_exact a 8
    rw [ha, hq, h8] at this
    exact this
  · rw [hq]
    unfold roundUp8
    omega

theorem le_sum_of_mem {l : List Nat} {x : Nat} (h : x ∈ l) : x ≤ l.sum := by
  induction l with
  | nil => cases h
  | cons y l ih =>
    rw [List.sum_cons]
    rcases List.mem_cons.1 h with rfl | h
    · omega
    · have := ih h
      omega

/-- Summing numbers that are computed exactly. -/
theorem mapM_exact {α : Type} (f : α → Res UInt32) (g : α → Nat) (l : List α) (hf : ∀ x, Exact32 (f x) (g x)) :
    Exact32 (l.mapM f >>= sumU32 .debug) (l.map g).sum := by
  intro c
  constructor
  · intro h
    obtain ⟨m, hm, h⟩ := bind_inv h
    rw [sum32_inv h, mapM_sum hm (fun x _ y hy => (hf x y).1 hy)]
  · intro h
    have hlt := c.toNat_lt
    have hall : ∀ x ∈ l, g x < 2 ^ 32 := fun x hx => by
      have := le_sum_of_mem (List.mem_map.2 ⟨x, hx, rfl⟩ : g x ∈ l.map g)
      omega
    have hm : l.mapM f = .ok (l.map (fun x => UInt32.ofNat (g x))) :=
      mapM_ok' f _ l (fun x hx => (hf x _).2 (u32_ofNat _ (hall x hx)))
    rw [hm]
    refine (sum32_exact _ c).2 ?_
    rw [List.map_map, h]
    congr 1
    apply List.map_congr_left
    intro x hx
    exact (u32_ofNat _ (hall x hx)).symm

/-- A function of the writer, in a debug build, that succeeds exactly under `P`. -/
theorem stage {α : Type} {d r : Res α} {x : α} {P : Prop} (ha : Agree d r) (hr : r = .ok x)
    (hk : IsOk d ↔ P) : (P → d = .ok x) ∧ (¬ P → d = .error .panic) := by
  subst hr
  rcases ha with h | h
  · refine ⟨fun hP => ?_, fun _ => h⟩
    obtain ⟨y, hy⟩ := hk.2 hP
    rw [h] at hy; cases hy
  · exact ⟨fun _ => h.symm, fun hP => absurd (hk.1 ⟨x, h.symm⟩) hP⟩

variable {o : Object} {ps : List Part}

theorem head_debug : ∀ n ≤ 3,
    (addU32 .debug Header64.SIZE SegmentCommand64.SIZE >>= fun a =>
      mulU32 .debug (UInt32.ofNat n) Section64.SIZE >>= fun sects =>
        addU32 .debug a sects >>= fun a => addU32 .debug a SymtabCommand.SIZE) =
      .ok (UInt32.ofNat (32 + 72 + 80 * n + 24)) ∧
    mulU32 .debug (UInt32.ofNat n) Section64.SIZE = .ok (UInt32.ofNat (80 * n)) ∧
    addU32 .debug SegmentCommand64.SIZE (UInt32.ofNat (80 * n)) = .ok (UInt32.ofNat (72 + 80 * n)) ∧
    addU32 .debug (UInt32.ofNat (72 + 80 * n)) SymtabCommand.SIZE = .ok (UInt32.ofNat (72 + 80 * n + 24)) := by
  decide

theorem count_le (hp : ps = o.sections.iter.map toPart) : ps.length = o.sections.iter.length ∧
    o.sections.iter.length ≤ 3 := by
  refine ⟨by rw [hp, List.length_map], List.length_filter_le _ _⟩

theorem dataStart_debug (hp : ps = o.sections.iter.map toPart) :
    dataStart .debug o = .ok (UInt32.ofNat (cmdsEnd ps)) := by
  obtain ⟨hl, h3⟩ := count_le hp
  unfold cmdsEnd
  rw [hl]
  exact (head_debug _ h3).1

theorem header_debug (hp : ps = o.sections.iter.map toPart) :
    genHeader64 .debug o = .ok (headerOf ps) := by
  refine (stage (P := True) (agree_genHeader64 o) (genHeader64_rel hp) ⟨fun _ => trivial, fun _ => ?_⟩).1 trivial
  obtain ⟨hl, h3⟩ := count_le hp
  obtain ⟨_, h1, h2, h4⟩ := head_debug _ h3
  unfold genHeader64 Sections.len
  rw [h1]
  refine isOk_bind.2 ⟨_, rfl, ?_⟩
  rw [h2]
  refine isOk_bind.2 ⟨_, rfl, ?_⟩
  rw [h4]
  refine isOk_bind.2 ⟨_, rfl, ?_⟩
  exact ⟨_, rfl⟩

theorem castSum_map {α : Type} (l : List α) (f : α → Nat) :
    castSum (l.map f) = (l.map (fun x => f x % 2 ^ 32)).sum := by
  unfold castSum
  rw [List.map_map]
  rfl

theorem fileSizes_cast (hp : ps = o.sections.iter.map toPart) :
    ((o.sections.iter.map SectionRef.fileSize).map (·.toNat)).sum = castSum (ps.map (·.bytes.length)) := by
  unfold castSum
  rw [hp, List.map_map, List.map_map, List.map_map]
  congr 1
  apply List.map_congr_left
  intro s _
  simp only [Function.comp_apply]
  rw [toPart_bytes, ← UInt32.toNat_ofNat']
  rfl

theorem fileSize_exact (hp : ps = o.sections.iter.map toPart) :
    Exact32 (alignedFileSize .debug o) (castData ps) := by
  have e := fileSizes_cast hp
  unfold alignedFileSize castData
  refine (sum32_exact _).then (fun a ha => ?_) ?_
  · have := aligned_exact a
    rwa [ha, e] at this
  · rw [e]
    unfold roundUp8
    omega

theorem segment_ok (hp : ps = o.sections.iter.map toPart) (hv : ∀ s ∈ o.sections.iter, (toPart s).vmsize < 2 ^ 64) :
    IsOk (genSegmentCommand64 .debug o) ↔ vmLen ps < 2 ^ 64 ∧ castData ps < 2 ^ 32 := by
  obtain ⟨hl, h3⟩ := count_le hp
  obtain ⟨_, h1, h2, h4⟩ := head_debug _ h3
  have hvm : ((o.sections.iter.map SectionRef.vmSize).map (·.toNat)).sum = vmLen ps := by
    unfold vmLen
    rw [hp, List.map_map, List.map_map]
    congr 1
    apply List.map_congr_left
    intro s hs
    simp only [Function.comp_apply]
    rw [vmSize_eq, u64_ofNat _ (hv s hs)]
  unfold genSegmentCommand64
  rw [Sections.len, h1, isOk_bind]
  simp only [Except.ok.injEq, exists_eq_left']
  rw [h2, isOk_bind]
  simp only [Except.ok.injEq, exists_eq_left']
  rw [(sum64_exact _).bind, hvm, dataStart_debug hp]
  constructor
  · rintro ⟨a, ha, h⟩
    obtain ⟨_, _, h⟩ := isOk_bind.1 h
    obtain ⟨b, hb, _⟩ := (fileSize_exact hp).bind.1 h
    exact ⟨ha ▸ a.toNat_lt, hb ▸ b.toNat_lt⟩
  · rintro ⟨ha, hb⟩
    refine ⟨_, u64_ofNat _ ha, isOk_bind.2 ⟨_, rfl, (fileSize_exact hp).bind.2 ⟨_, u32_ofNat _ hb, _, rfl⟩⟩⟩

theorem sectionsGo_ok (S : List SectionRef) (hv : ∀ s ∈ S, (toPart s).vmsize < 2 ^ 64)
    (vm : UInt64) (ds rs : UInt32) :
    IsOk (genSection64sGo .debug vm ds rs S) ↔
      vm.toNat + vmLen (S.map toPart) < 2 ^ 64 ∧
      ds.toNat + castSum ((S.map toPart).map (·.bytes.length)) < 2 ^ 32 ∧
      rs.toNat + 8 * castSum ((S.map toPart).map (·.relocs.length)) < 2 ^ 32 := by
  induction S generalizing vm ds rs with
  | nil =>
    simp only [genSection64sGo, isOk_pure, List.map_nil, castSum, vmLen, List.sum_nil, Nat.mul_zero,
      Nat.add_zero, true_iff]
    exact ⟨vm.toNat_lt, ds.toNat_lt, rs.toNat_lt⟩
  | cons s S ih =>
    have hvs : s.vmSize.toNat = (toPart s).vmsize := by
      rw [vmSize_eq, u64_ofNat _ (hv s (by simp))]
    have hfs : s.fileSize.toNat = (toPart s).bytes.length % 2 ^ 32 := by
      rw [toPart_bytes, ← UInt32.toNat_ofNat']; rfl
    have hrl : (UInt32.ofNat s.relocs.length).toNat = (toPart s).relocs.length % 2 ^ 32 := by
      rw [toPart_relocs, UInt32.toNat_ofNat']
    have h8 : RelocationInfo.SIZE.toNat = 8 := rfl
    have ih := ih (fun t ht => hv t (by simp [ht]))
    unfold genSection64sGo
    rw [List.map_cons, List.map_cons, List.map_cons]
    have e1 : vmLen (toPart s :: S.map toPart) = (toPart s).vmsize + vmLen (S.map toPart) := by
      simp [vmLen]
    have e2 : ∀ a l, castSum (a :: l) = a % 2 ^ 32 + castSum l := by
      intro a l; simp [castSum]
    rw [e1, e2, e2]
    constructor
    · intro h
      obtain ⟨a, ha, h⟩ := (add64_exact _ _).bind.1 h
      obtain ⟨b, hb, h⟩ := (add32_exact _ _).bind.1 h
      obtain ⟨c, hc, h⟩ := (mul32_exact _ _).bind.1 h
      obtain ⟨d, hd, h⟩ := (add32_exact _ _).bind.1 h
      obtain ⟨e, he, _⟩ := isOk_bind.1 h
      have := (ih a b d).1 ⟨e, he⟩
      rw [h8] at hc
      omega
    · rintro ⟨h1, h2, h3⟩
      have hm : RelocationInfo.SIZE.toNat * (UInt32.ofNat s.relocs.length).toNat =
          8 * ((toPart s).relocs.length % 2 ^ 32) := by rw [h8, hrl]
      refine (add64_exact _ _).bind.2 ⟨UInt64.ofNat (vm.toNat + (toPart s).vmsize), ?_, ?_⟩
      · rw [u64_ofNat _ (by omega), hvs]
      refine (add32_exact _ _).bind.2 ⟨UInt32.ofNat (ds.toNat + (toPart s).bytes.length % 2 ^ 32), ?_, ?_⟩
      · rw [u32_ofNat _ (by omega), hfs]
      refine (mul32_exact _ _).bind.2 ⟨UInt32.ofNat (8 * ((toPart s).relocs.length % 2 ^ 32)), ?_, ?_⟩
      · rw [u32_ofNat _ (by omega), hm]
      refine (add32_exact _ _).bind.2
        ⟨UInt32.ofNat (rs.toNat + 8 * ((toPart s).relocs.length % 2 ^ 32)), ?_, ?_⟩
      · rw [u32_ofNat _ (by omega), u32_ofNat _ (by omega)]
      refine isOk_bind.2 ?_
      obtain ⟨e, he⟩ := (ih (UInt64.ofNat (vm.toNat + (toPart s).vmsize))
        (UInt32.ofNat (ds.toNat + (toPart s).bytes.length % 2 ^ 32))
        (UInt32.ofNat (rs.toNat + 8 * ((toPart s).relocs.length % 2 ^ 32)))).2 (by
          rw [u64_ofNat _ (by omega), u32_ofNat _ (by omega), u32_ofNat _ (by omega)]
          omega)
      exact ⟨e, he, _, rfl⟩

theorem sections_ok (hp : ps = o.sections.iter.map toPart) (hv : ∀ s ∈ o.sections.iter, (toPart s).vmsize < 2 ^ 64)
    (hvm : vmLen ps < 2 ^ 64) : IsOk (genSection64s .debug o) ↔ castSymStart ps < 2 ^ 32 := by
  have hc := cmdsEnd_lt hp
  have hds := u32_ofNat (cmdsEnd ps) (by omega)
  have hle : castSum (ps.map (·.bytes.length)) ≤ castData ps := by unfold castData roundUp8; omega
  unfold genSection64s castSymStart
  rw [dataStart_debug hp]
  constructor
  · intro h
    obtain ⟨w, hw, h⟩ := isOk_bind.1 h
    cases Except.ok.inj hw
    obtain ⟨a, ha, h⟩ := (fileSize_exact hp).bind.1 h
    obtain ⟨b, hb, h⟩ := (add32_exact _ _).bind.1 h
    have := ((sectionsGo_ok _ hv _ _ _).1 h).2.2
    rw [← hp] at this
    omega
  · intro h
    refine isOk_bind.2 ⟨_, rfl, ?_⟩
    have ha := u32_ofNat (castData ps) (by omega)
    refine (fileSize_exact hp).bind.2 ⟨UInt32.ofNat (castData ps), ha, ?_⟩
    have hb := u32_ofNat (cmdsEnd ps + castData ps) (by omega)
    refine (add32_exact _ _).bind.2 ⟨UInt32.ofNat (cmdsEnd ps + castData ps), by rw [hds, ha, hb], ?_⟩
    refine (sectionsGo_ok _ hv _ _ _).2 ?_
    rw [← hp, hds, hb, show (0 : UInt64).toNat = 0 from rfl]
    omega

/-- Length of the names of a section, cast. -/
def castNames (p : Part) : Nat := (p.symbols.map (fun s => utf8Len s.name % 2 ^ 32 + 1)).sum

theorem sectStrSize_exact (s : SectionRef) : Exact32 (sectStrSize .debug s) (castNames (toPart s)) := by
  unfold sectStrSize castNames
  rw [toPart_symbols]
  refine mapM_exact _ _ _ (fun x => ?_)
  have := add32_exact (UInt32.ofNat (utf8Len x.name)) 1
  rwa [UInt32.toNat_ofNat', show (1 : UInt32).toNat = 1 from rfl] at this

theorem castNames_sum (ps : List Part) : (ps.map castNames).sum =
    (((placed ps).map (·.2.name)).map (fun n => utf8Len n % 2 ^ 32 + 1)).sum := by
  rw [placed_names]
  induction ps with
  | nil => rfl
  | cons p ps ih =>
    rw [List.map_cons, List.sum_cons, ih, List.flatMap_cons, List.map_append, List.map_append, List.sum_append,
      List.map_map (l := p.symbols)]
    rfl

theorem symtab_ok (hp : ps = o.sections.iter.map toPart) :
    IsOk (genSymtabCommand .debug o) ↔ castStrStart ps < 2 ^ 32 ∧ 1 + (ps.map castNames).sum < 2 ^ 32 := by
  have hc := cmdsEnd_lt hp
  have hds := u32_ofNat (cmdsEnd ps) (by omega)
  have h8 : RelocationInfo.SIZE.toNat = 8 := rfl
  have h16 : NList64.SIZE.toNat = 16 := rfl
  have h1 : (1 : UInt32).toNat = 1 := rfl
  have hrel : ((o.sections.iter.map (fun s => UInt32.ofNat s.relocs.length)).map (·.toNat)).sum =
      castSum (ps.map (·.relocs.length)) := by
    unfold castSum
    rw [hp, List.map_map, List.map_map, List.map_map]
    congr 1
    apply List.map_congr_left
    intro s _
    simp [toPart_relocs]
  have hsym : ((o.sections.iter.map (fun s => UInt32.ofNat s.symbols.length)).map (·.toNat)).sum =
      castSum (ps.map (·.symbols.length)) := by
    unfold castSum
    rw [hp, List.map_map, List.map_map, List.map_map]
    congr 1
    apply List.map_congr_left
    intro s _
    simp [toPart_symbols]
  have hstr : Exact32 (o.sections.iter.mapM (sectStrSize .debug) >>= sumU32 .debug) (ps.map castNames).sum := by
    have := mapM_exact (sectStrSize .debug) (fun s => castNames (toPart s)) o.sections.iter sectStrSize_exact
    rw [hp, List.map_map]
    exact this
  unfold genSymtabCommand castStrStart castSymStart
  rw [dataStart_debug hp]
  constructor
  · intro h
    obtain ⟨w, hw, h⟩ := isOk_bind.1 h
    cases Except.ok.inj hw
    obtain ⟨a, ha, h⟩ := (fileSize_exact hp).bind.1 h
    obtain ⟨b, hb, h⟩ := (add32_exact _ _).bind.1 h
    obtain ⟨c, hc, h⟩ := (sum32_exact _).bind.1 h
    obtain ⟨d, hd, h⟩ := (mul32_exact _ _).bind.1 h
    obtain ⟨e, he, h⟩ := (add32_exact _ _).bind.1 h
    obtain ⟨f, hf, h⟩ := (sum32_exact _).bind.1 h
    obtain ⟨g, hg, h⟩ := (mul32_exact _ _).bind.1 h
    obtain ⟨i, hi, h⟩ := (add32_exact _ _).bind.1 h
    obtain ⟨l, hl, h⟩ := isOk_bind.1 h
    obtain ⟨t, ht, h⟩ := isOk_bind.1 h
    obtain ⟨u, hu, h⟩ := (add32_exact _ _).bind.1 h
    have ht' : t.toNat = (ps.map castNames).sum := (hstr t).1 (by rw [hl]; exact ht)
    have := i.toNat_lt
    have := u.toNat_lt
    rw [hrel] at hc
    rw [hsym] at hf
    rw [h8] at hd
    rw [h16] at hg
    rw [h1] at hu
    omega
  · rintro ⟨hF, hN⟩
    have ha := u32_ofNat (castData ps) (by omega)
    have hb := u32_ofNat (cmdsEnd ps + castData ps) (by omega)
    have hC := u32_ofNat (castSum (ps.map (·.relocs.length))) (by omega)
    have hd := u32_ofNat (castSum (ps.map (·.relocs.length)) * 8) (by omega)
    have he := u32_ofNat (cmdsEnd ps + castData ps + castSum (ps.map (·.relocs.length)) * 8) (by omega)
    have hf := u32_ofNat (castSum (ps.map (·.symbols.length))) (by omega)
    have hg := u32_ofNat (castSum (ps.map (·.symbols.length)) * 16) (by omega)
    have hi := u32_ofNat (cmdsEnd ps + castData ps + castSum (ps.map (·.relocs.length)) * 8 +
      castSum (ps.map (·.symbols.length)) * 16) (by omega)
    have ht := u32_ofNat (ps.map castNames).sum (by omega)
    have hu := u32_ofNat ((ps.map castNames).sum + 1) (by omega)
    refine isOk_bind.2 ⟨_, rfl, ?_⟩
    refine (fileSize_exact hp).bind.2 ⟨UInt32.ofNat (castData ps), ha, ?_⟩
    refine (add32_exact _ _).bind.2 ⟨UInt32.ofNat (cmdsEnd ps + castData ps), by rw [hds, ha, hb], ?_⟩
    refine (sum32_exact _).bind.2 ⟨UInt32.ofNat (castSum (ps.map (·.relocs.length))), by rw [hrel, hC], ?_⟩
    refine (mul32_exact _ _).bind.2 
      ⟨UInt32.ofNat (castSum (ps.map (·.relocs.length)) * 8), by rw [hC, h8, hd], ?_⟩
    refine (add32_exact _ _).bind.2 
      ⟨UInt32.ofNat (cmdsEnd ps + castData ps + castSum (ps.map (·.relocs.length)) * 8), by rw [hb, hd, he], ?_⟩
    refine (sum32_exact _).bind.2 ⟨UInt32.ofNat (castSum (ps.map (·.symbols.length))), by rw [hsym, hf], ?_⟩
    refine (mul32_exact _ _).bind.2 
      ⟨UInt32.ofNat (castSum (ps.map (·.symbols.length)) * 16), by rw [hf, h16, hg], ?_⟩
    refine (add32_exact _ _).bind.2 ⟨UInt32.ofNat (cmdsEnd ps + castData ps +
      castSum (ps.map (·.relocs.length)) * 8 + castSum (ps.map (·.symbols.length)) * 16), by rw [he, hg, hi], ?_⟩
    obtain ⟨l, hl, h⟩ := bind_inv ((hstr _).2 ht)
    refine isOk_bind.2 ⟨l, hl, isOk_bind.2 ⟨_, h, ?_⟩⟩
    exact (add32_exact _ _).bind.2 ⟨UInt32.ofNat ((ps.map castNames).sum + 1), by rw [ht, h1, hu], _, rfl⟩

theorem isOk_mapM {α β : Type} (f : α → Res β) (l : List α) : IsOk (l.mapM f) ↔ ∀ x ∈ l, IsOk (f x) := by
  induction l with
  | nil => simp only [List.mapM_nil, isOk_pure, List.not_mem_nil, false_implies, implies_true]
  | cons x l ih =>
    rw [List.mapM_cons, List.forall_mem_cons, ← ih, isOk_bind]
    constructor
    · rintro ⟨a, ha, h⟩
      obtain ⟨b, hb, _⟩ := isOk_bind.1 h
      exact ⟨⟨a, ha⟩, b, hb⟩
    · rintro ⟨⟨a, ha⟩, b, hb⟩
      exact ⟨a, ha, isOk_bind.2 ⟨b, hb, _, rfl⟩⟩

theorem strxGo_exact (n : Str) (l : List Str) (idx : UInt32) (hl : ∀ s ∈ l, strIsAscii s = true) :
    Exact32 (getStrxGo .debug n idx (l.map nameRaw ++ [[]])) (idx.toNat + castOff l n) := by
  have h1 : (1 : UInt32).toNat = 1 := rfl
  induction l generalizing idx with
  | nil =>
    simp only [List.map_nil, List.nil_append, getStrxGo]
    rw [show fromUtf8 [] = some [] from rfl]
    show Exact32 (addU32 .debug idx 1 >>= _) _
    refine (add32_exact idx 1).then (fun a ha => ?_) (by simp [castOff, h1])
    rw [h1] at ha
    split
    · intro c
      simp only [pure, Except.pure, Except.ok.injEq, castOff, List.takeWhile_nil, List.map_nil, List.sum_nil,
        Nat.add_zero]
      rw [← ha, ← UInt32.toNat_inj]
      exact eq_comm
    · rw [show UInt32.ofNat (utf8Len []) = 0 from rfl]
      have := add32_exact a 0
      rw [show (0 : UInt32).toNat = 0 from rfl, ha] at this
      intro c
      rw [show (addU32 .debug a 0 >>= fun idx => pure idx) = addU32 .debug a 0 by
        cases addU32 .debug a 0 <;> rfl]
      rw [this c]
      simp [castOff]
  | cons s l ih =>
    have hs := hl s (by simp)
    simp only [List.map_cons, List.cons_append, getStrxGo]
    rw [show fromUtf8 (nameRaw s) = some s from fromUtf8_ascii s hs]
    show Exact32 (addU32 .debug idx 1 >>= _) _
    refine (add32_exact idx 1).then (fun a ha => ?_) (by simp only [castOff, h1]; omega)
    rw [h1] at ha
    by_cases he : s = n
    · rw [if_pos he]
      intro c
      simp only [pure, Except.pure, Except.ok.injEq]
      rw [← UInt32.toNat_inj, ha]
      simp [castOff, he, eq_comm]
    · rw [if_neg he]
      have e : castOff (s :: l) n = utf8Len s % 2 ^ 32 + 1 + castOff l n := by
        unfold castOff
        rw [List.takeWhile_cons, if_pos (by simpa using he), List.map_cons, List.sum_cons]
        omega
      refine (add32_exact _ _).then (fun b hb => ?_) ?_
      · have := ih b (fun s hs => hl s (by simp [hs]))
        rw [hb, ha, UInt32.toNat_ofNat'] at this
        rw [e]
        rwa [show idx.toNat + (utf8Len s % 2 ^ 32 + 1 + castOff l n) =
          idx.toNat + 1 + utf8Len s % 2 ^ 32 + castOff l n by omega]
      · rw [ha, UInt32.toNat_ofNat', e]
        omega

theorem strx_exact (n : Str) (names : List Str) (hp : ∀ s ∈ names, strIsAscii s = true) :
    Exact32 (getStrx .debug ⟨0 :: cstrs names⟩ n) (castOff (tableStrings names) n) := by
  unfold getStrx
  rw [← cstrs_chunks, rawIter_cstrs _ (chunks_mem hp), tableStrings_chunks]
  have := strxGo_exact n (chunks names) 0 (fun s hs => (chunks_mem hp s hs).1)
  rwa [show (0 : UInt32).toNat = 0 from rfl, Nat.zero_add] at this

/-- The checks of one symbol. -/
def SymbolFits (names : List Str) (ps : List Part) (p : Nat × Symbol) : Prop :=
  castOff (tableStrings names) p.2.name < 2 ^ 32 ∧
  ∀ name addr ext, p.2 = .ref name addr ext → addrOf ps p.1 + addr.toNat < 2 ^ 64

theorem nlist_ok (S : List SectionRef) (ds rs : Nat) (names : List Str)
    (i : Nat) (sym : Symbol) (hi : i < S.length) (hp : ∀ s ∈ names, strIsAscii s = true)
    (hvm : vmLen (S.map toPart) < 2 ^ 64) :
    IsOk (genNList64 .debug (sectionsFrom 0 ds rs S) ⟨0 :: cstrs names⟩ i sym) ↔
      SymbolFits names (S.map toPart) (i, sym) := by
  unfold genNList64 SymbolFits
  have key := fun n => (strx_exact n names hp).isOk
  have hx := fun n => strx_exact n names hp
  cases sym with
  | undef name =>
    simp only [isOk_bind, isOk_pure, and_true, reduceCtorEq, false_implies, implies_true]
    exact key name
  | abs name val ext =>
    simp only [isOk_bind, isOk_pure, and_true, reduceCtorEq, false_implies, implies_true]
    exact key name
  | ref name addr ext =>
    obtain ⟨s, hs⟩ : ∃ s, S[i]? = some s := ⟨S[i], List.getElem?_eq_getElem hi⟩
    have hlt : vmLen ((S.map toPart).take i) < 2 ^ 64 := by
      have e : vmLen (S.map toPart) = vmLen ((S.map toPart).take i ++ (S.map toPart).drop i) := by
        rw [List.take_append_drop]
      have e' : ∀ a b, vmLen (a ++ b) = vmLen a + vmLen b := by
        intro a b; simp [vmLen]
      rw [e, e'] at hvm
      omega
    simp only
    rw [sectionsFrom_get S 0 ds rs i s hs, isOk_bind]
    have e : ∀ strx : UInt32, IsOk (runwrap (some (genSection64 s (UInt64.ofNat (0 + vmLen (List.take i (List.map toPart S))))
        (UInt32.ofNat (ds + dataLen (List.take i (List.map toPart S))))
        (UInt32.ofNat (rs + 8 * relocCount (List.take i (List.map toPart S)))))) >>= fun sect =>
          addU64 .debug sect.addr addr >>= fun value =>
          (pure ⟨strx, .norm false .sect ext, UInt8.ofNat (i + 1), 0, value⟩ : Res NList64)) ↔
        addrOf (S.map toPart) i + addr.toNat < 2 ^ 64 := by
      intro strx
      show IsOk (addU64 .debug (genSection64 _ _ _ _).addr addr >>= _) ↔ _
      rw [(add64_exact _ _).bind, genSection64_addr, Nat.zero_add, u64_ofNat _ hlt]
      constructor
      · rintro ⟨a, ha, _⟩
        have := a.toNat_lt
        unfold addrOf
        omega
      · intro h
        exact ⟨UInt64.ofNat _, u64_ofNat _ h, _, rfl⟩
    constructor
    · rintro ⟨a, ha, h⟩
      refine ⟨(key name).1 ⟨a, ha⟩, ?_⟩
      rintro _ _ _ ⟨⟩
      exact (e a).1 h
    · rintro ⟨h1, h2⟩
      obtain ⟨a, ha⟩ := (key name).2 h1
      exact ⟨a, ha, (e a).2 (h2 _ _ _ rfl)⟩

theorem nlistsGo_ok (secs : List Section64) (stab : StringTable) (S : List SectionRef) (i : Nat) :
    IsOk (genNList64sGo .debug secs stab i S) ↔
      ∀ p ∈ ((S.map toPart).zipIdx i).flatMap (fun p => p.1.symbols.map (fun s => (p.2, s))),
        IsOk (genNList64 .debug secs stab p.1 p.2) := by
  induction S generalizing i with
  | nil =>
    simp only [genNList64sGo, isOk_pure, List.map_nil, List.zipIdx_nil, List.flatMap_nil, List.not_mem_nil,
      false_implies, implies_true]
  | cons s S ih =>
    unfold genNList64sGo
    simp only [List.map_cons, List.zipIdx_cons, List.flatMap_cons, List.mem_append, or_imp, forall_and]
    rw [← ih (i + 1), toPart_symbols]
    have e : IsOk (s.symbols.mapM (genNList64 .debug secs stab i)) ↔
        ∀ x ∈ s.symbols.map (fun t => (i, t)), IsOk (genNList64 .debug secs stab x.1 x.2) := by
      rw [isOk_mapM, List.forall_mem_map]
    rw [← e, isOk_bind]
    constructor
    · rintro ⟨a, ha, h⟩
      obtain ⟨b, hb, _⟩ := isOk_bind.1 h
      exact ⟨⟨a, ha⟩, b, hb⟩
    · rintro ⟨⟨a, ha⟩, b, hb⟩
      exact ⟨a, ha, isOk_bind.2 ⟨b, hb, _, rfl⟩⟩

theorem nlists_ok (hp : ps = o.sections.iter.map toPart) (ds rs : Nat) (hvm : vmLen ps < 2 ^ 64)
    (names : List Str) (hn : ∀ s ∈ names, strIsAscii s = true) :
    IsOk (genNList64s .debug o (sectionsFrom 0 ds rs o.sections.iter) ⟨0 :: cstrs names⟩) ↔
      ∀ p ∈ placed ps, SymbolFits names ps p := by
  unfold genNList64s
  rw [nlistsGo_ok, ← hp]
  refine forall₂_congr fun p hpp => ?_
  obtain ⟨q, hq, _⟩ := placed_mem hpp
  obtain ⟨hi, _⟩ := List.getElem?_eq_some_iff.1 hq
  rw [hp, List.length_map] at hi
  have := nlist_ok o.sections.iter ds rs names p.1 p.2 hi hn (hp ▸ hvm)
  rw [this, ← hp]

theorem writeSectionData_debug (h : castSum ((o.sections.iter.map toPart).map (·.bytes.length)) < 2 ^ 32)
    (h8 : castData (o.sections.iter.map toPart) < 2 ^ 32) :
    writeSectionDataInto .debug o = writeSectionDataInto .release o := by
  have e := fileSizes_cast (o := o) rfl
  obtain ⟨r, hr⟩ := (sum32_exact (o.sections.iter.map SectionRef.fileSize)).isOk.2 (by rw [e]; exact h)
  have hr' : sumU32 .release (o.sections.iter.map SectionRef.fileSize) = .ok r := by
    rcases agree_sumU32 (o.sections.iter.map SectionRef.fileSize) with ha | ha
    · rw [hr] at ha; cases ha
    · rw [ha, hr]
  have hn : r.toNat = castSum ((o.sections.iter.map toPart).map (·.bytes.length)) := by
    rw [(sum32_exact _ r).1 hr, e]
  have hpad : paddingU32 .release r 8 = paddingU32 .debug r 8 := by
    rcases agree_paddingU32 r 8 with ha | ha
    · have : IsOk (paddingU32 .debug r 8) := by
        refine (aligned_exact r).bind.2 ⟨UInt32.ofNat (roundUp8 r.toNat), u32_ofNat _ (by rw [hn]; exact h8), ?_⟩
        have hle : r.toNat ≤ (UInt32.ofNat (roundUp8 r.toNat)).toNat := by
          rw [u32_ofNat _ (by rw [hn]; exact h8)]
          unfold roundUp8
          omega
        unfold subU32
        rw [if_pos (.inl hle)]
        exact ⟨_, rfl⟩
      obtain ⟨x, hx⟩ := this
      rw [ha] at hx; cases hx
    · exact ha
  rw [writeSectionData_sum hr, writeSectionData_sum hr', hpad]

/-- What the writer of a debug build does. -/
theorem writeInto_debug (h : Endian) (o : Object) (ht : o.sections.text.bytes.length < 2 ^ 64)
    (hd : o.sections.data.bytes.length < 2 ^ 64) :
    (¬ SegmentFits o → (writeInto .debug h o).res = .error .panic ∧
      (writeInto .debug h o).out = headerBytes h (headerOf (parts o))) ∧
    (SegmentFits o → ¬ castSymStart (parts o) < 2 ^ 32 → (writeInto .debug h o).res = .error .panic ∧
      (writeInto .debug h o).out = headerBytes h (headerOf (parts o)) ++ segmentBytes h (segmentOf (parts o))) ∧
    (SegmentFits o → castSymStart (parts o) < 2 ^ 32 → ¬ SymtabFits o →
      (writeInto .debug h o).res = .error .panic ∧
      (writeInto .debug h o).out = headerBytes h (headerOf (parts o)) ++ (segmentBytes h (segmentOf (parts o)) ++
        (sectionsFrom 0 (cmdsEnd (parts o)) (relocStart (parts o)) o.sections.iter).flatMap (sectionBytes h))) ∧
    (SegmentFits o → castSymStart (parts o) < 2 ^ 32 → SymtabFits o → ¬ (Expressible o ∧ SymbolsFit o) →
      (writeInto .debug h o).res = .error .panic ∧
      (writeInto .debug h o).out = cmdBytes h (parts o) o.sections.iter ++ dataBytes (parts o)) ∧
    (SegmentFits o → castSymStart (parts o) < 2 ^ 32 → SymtabFits o → Expressible o ∧ SymbolsFit o →
      writeInto .debug h o = writeInto .release h o) := by
  have hp := parts_eq o ht hd
  have hv : ∀ s ∈ o.sections.iter, (toPart s).vmsize < 2 ^ 64 := fun s hs => vmsize_lt ht hd hs
  obtain ⟨s1, s1'⟩ := stage (agree_genSegment o) (genSegmentCommand64_rel hp) (segment_ok hp hv)
  obtain ⟨s3, s3'⟩ := stage (agree_symtab o) (genSymtabCommand_rel hp) (symtab_ok hp)
  have hw1 := header_writes h (headerOf (parts o))
  have hw2 := segment_writes h (segmentOf (parts o)) rfl (by simp [segmentOf])
  have hw3 := Writes.seq (w := Section64.writeInto h) (enc := sectionBytes h)
    (sectionsFrom 0 (cmdsEnd (parts o)) (relocStart (parts o)) o.sections.iter)
    (fun x hx => section_writes h x (sectionsFrom_mem hx).1.ascii
    (sectionsFrom_mem hx).1.len (sectionsFrom_mem hx).2.ascii (sectionsFrom_mem hx).2.len)
  have hw4 := symtab_writes h (symtabOf (parts o))
  have fin : ∀ {w : Wr Unit} {b : Bytes}, After w b (⟨[], .error .panic⟩) → w.res = .error .panic ∧ w.out = b := by
    intro w b hA
    exact ⟨hA.res, by rw [hA.out]; simp [Wr.out]⟩
  have seg : ∀ hs : SegmentFits o, genSegmentCommand64 .debug o = .ok (segmentOf (parts o)) :=
    fun hs => s1 ⟨hs.vm, hs.data⟩
  have sec : ∀ hs : SegmentFits o, (castSymStart (parts o) < 2 ^ 32 → genSection64s .debug o =
        .ok (sectionsFrom 0 (cmdsEnd (parts o)) (relocStart (parts o)) o.sections.iter)) ∧
      (¬ castSymStart (parts o) < 2 ^ 32 → genSection64s .debug o = .error .panic) :=
    fun hs => stage (agree_sections o) (genSection64s_rel hp) (sections_ok hp hv hs.vm)
  have names : (symNames o).map (fun n => utf8Len n % 2 ^ 32 + 1) =
      ((placed (parts o)).map (·.2.name)).map (fun n => utf8Len n % 2 ^ 32 + 1) := rfl
  have sym : SymtabFits o → genSymtabCommand .debug o = .ok (symtabOf (parts o)) := fun hs =>
    s3 ⟨hs.file, by rw [castNames_sum, ← names]; exact hs.strs⟩
  have sym' : ¬ SymtabFits o → genSymtabCommand .debug o = .error .panic := fun hs => s3' (by
    rintro ⟨h1, h2⟩
    rw [castNames_sum, ← names] at h2
    exact hs ⟨h1, h2⟩)
  have hA : SegmentFits o → castSymStart (parts o) < 2 ^ 32 → SymtabFits o →
      After (writeInto .debug h o) (cmdBytes h (parts o) o.sections.iter ++ dataBytes (parts o))
        (tailWr .debug h o (sectionsFrom 0 (cmdsEnd (parts o)) (relocStart (parts o)) o.sections.iter)) := by
    intro h1 h2 h3
    have hle : castSum ((parts o).map (·.bytes.length)) ≤ castData (parts o) := by
      unfold castData roundUp8; omega
    have hdat := h1.data
    have hwd := writeSectionData_rel hp
    rw [← writeSectionData_debug (by rw [← hp]; omega) (by rw [← hp]; exact hdat)] at hwd
    unfold writeInto
    rw [header_debug hp]
    simp only [wr_lift_ok]
    rw [seg h1]
    simp only [wr_lift_ok]
    rw [(sec h1).1 h2]
    simp only [wr_lift_ok]
    rw [sym h3]
    simp only [wr_lift_ok]
    simp only [cmdBytes, List.append_assoc]
    exact After.bind hw1 (After.bind hw2 (After.bind hw3 (After.bind hw4 (After.last hwd))))
  have hR := writeInto_after_rel h hp
  have ascii_or : (∀ n ∈ symNames o, ∀ c ∈ n, c.toNat < 128) ∨
      genStringTable o = .error .panic := by
    by_cases ha : ∀ n ∈ symNames o, ∀ c ∈ n, c.toNat < 128
    · exact .inl ha
    · right
      exact genStringTable_panic hp (fun hall => ha (fun n hn c hc => by
        have := hall n hn
        simp only [strIsAscii, charIsAscii, List.all_eq_true, decide_eq_true_eq] at this
        exact this c hc))
  have fits_iff : SymbolsFit o ↔ ∀ p ∈ placed (parts o),
      SymbolFits ((placed (parts o)).map (·.2.name)) (parts o) p := by
    constructor
    · rintro ⟨h1, h2⟩ ⟨i, s⟩ hm
      refine ⟨h1 _ (List.mem_map.2 ⟨_, hm, rfl⟩), ?_⟩
      rintro name addr ext rfl
      exact h2 _ _ _ _ hm
    · intro hall
      refine ⟨fun n hn => ?_, fun i name addr ext hm => (hall _ hm).2 _ _ _ rfl⟩
      obtain ⟨p, hm, rfl⟩ := List.mem_map.1 hn
      exact (hall p hm).1
  have tail : ∀ (_ : SegmentFits o) (ha : ∀ n ∈ symNames o, ∀ c ∈ n, c.toNat < 128),
      (SymbolsFit o → tailWr .debug h o (sectionsFrom 0 (cmdsEnd (parts o)) (relocStart (parts o)) o.sections.iter) =
        tailWr .release h o (sectionsFrom 0 (cmdsEnd (parts o)) (relocStart (parts o)) o.sections.iter)) ∧
      (¬ SymbolsFit o → tailWr .debug h o
        (sectionsFrom 0 (cmdsEnd (parts o)) (relocStart (parts o)) o.sections.iter) = ⟨[], .error .panic⟩) := by
    intro hseg ha
    have hpl := names_ascii ha
    obtain ⟨t1, t2⟩ := stage (agree_nlistsGo _ _ _ _) (genNList64s_rel hp _ _ hpl)
      (nlists_ok hp (cmdsEnd (parts o)) (relocStart (parts o)) hseg.vm _ hpl)
    rw [← fits_iff] at t1 t2
    unfold tailWr
    rw [genStringTable_ok hp hpl]
    simp only [wr_lift_ok]
    constructor
    · intro hs
      have e := t1 hs
      have e' := genNList64s_rel hp (cmdsEnd (parts o)) (relocStart (parts o)) hpl
      unfold genNList64s at e' ⊢
      rw [e, e']
    · intro hs
      have e := t2 hs
      unfold genNList64s
      rw [e]
      rfl
  refine ⟨fun hn => ?_, fun h1 hn => ?_, fun h1 h2 hn => ?_, fun h1 h2 h3 hn => ?_, fun h1 h2 h3 hy => ?_⟩
  · refine fin ?_
    unfold writeInto
    rw [header_debug hp]
    simp only [wr_lift_ok]
    rw [s1' (fun hc => hn ⟨hc.1, hc.2⟩)]
    exact After.last hw1
  · refine fin ?_
    unfold writeInto
    rw [header_debug hp]
    simp only [wr_lift_ok]
    rw [seg h1]
    simp only [wr_lift_ok]
    rw [(sec h1).2 hn]
    exact After.bind hw1 (After.last hw2)
  · refine fin ?_
    unfold writeInto
    rw [header_debug hp]
    simp only [wr_lift_ok]
    rw [seg h1]
    simp only [wr_lift_ok]
    rw [(sec h1).1 h2]
    simp only [wr_lift_ok]
    rw [sym' hn]
    exact After.bind hw1 (After.bind hw2 (After.last hw3))
  · have hA := hA h1 h2 h3
    rcases ascii_or with ha | ha
    · by_cases hs : SymbolsFit o
      · rw [(tail h1 ha).1 hs] at hA
        have hpn := writeInto_panics_rel h hp (fun hw => hn ⟨hw, hs⟩)
        exact ⟨hA.res.trans (hR.res.symm.trans hpn.1), (hA.out.trans hR.out.symm).trans hpn.2⟩
      · rw [(tail h1 ha).2 hs] at hA
        exact fin hA
    · refine fin ?_
      have e : tailWr .debug h o (sectionsFrom 0 (cmdsEnd (parts o)) (relocStart (parts o)) o.sections.iter) =
          ⟨[], .error .panic⟩ := by
        unfold tailWr
        rw [ha]
        rfl
      rwa [e] at hA
  · have hA := hA h1 h2 h3
    rw [(tail h1 hy.1.ascii).1 hy.2] at hA
    rcases agree_writeInto h o with ⟨hpn, _⟩ | he
    · rw [hA.res, ← hR.res, (writeInto_writes_rel h hp hy.1).res] at hpn
      cases hpn
    · exact he.symm

end AT.Props
