import Verif.Model.MacIo
import Verif.Proofs.Utf8
import Verif.Proofs.X64Basic
/-!
# Reader and writer calculus for at-mac

`Reads r b x`: on any input starting with `b` the reader `r` returns `x` having consumed exactly
`b`, and it panics on every strict prefix of `b`.
`Fixed r n`: `r` either panics or consumes exactly `n` bytes; it panics on shorter inputs.
`Writes w b`: `w` returns normally having written exactly `b`.
-/

namespace AT.Mac

/-! ## Integers -/

theorem leVal_lt (b : Bytes) : leVal b < 256 ^ b.length := by
  induction b with
  | nil => simp [leVal]
  | cons x b ih =>
    have := x.toNat_lt
    simp only [leVal, List.length_cons, Nat.pow_succ]
    omega

theorem leVal_leBytes (k n : Nat) (h : n < 256 ^ k) : leVal (leBytes k n) = n := by
  induction k generalizing n with
  | zero => simp at h; simp [leBytes, leVal, h]
  | succ k ih =>
    have : n / 256 < 256 ^ k := by
      rw [Nat.pow_succ] at h
      exact Nat.div_lt_of_lt_mul (by omega)
    simp only [leBytes, leVal, ih _ this]
    simp
    omega

theorem leBytes_leVal (b : Bytes) : leBytes b.length (leVal b) = b := by
  induction b with
  | nil => rfl
  | cons x b ih =>
    have := x.toNat_lt
    simp only [List.length_cons, leVal, leBytes]
    have h1 : (x.toNat + 256 * leVal b) % 256 = x.toNat := by omega
    have h2 : (x.toNat + 256 * leVal b) / 256 = leVal b := by omega
    rw [h1, h2, ih]; simp

theorem length_intBytes (e : Endian) (k n : Nat) : (intBytes e k n).length = k := by
  cases e <;> simp [intBytes, length_leBytes]

theorem intVal_intBytes (e : Endian) (k n : Nat) (h : n < 256 ^ k) :
    intVal e (intBytes e k n) = n := by
  cases e <;> simp [intBytes, intVal, leVal_leBytes k n h]

theorem intBytes_intVal (e : Endian) (b : Bytes) : intBytes e b.length (intVal e b) = b := by
  cases e
  · exact leBytes_leVal b
  · simp only [intBytes, intVal]
    rw [← List.length_reverse, leBytes_leVal, List.reverse_reverse]

theorem intVal_lt (e : Endian) (b : Bytes) : intVal e b < 256 ^ b.length := by
  cases e
  · exact leVal_lt b
  · have := leVal_lt b.reverse
    rw [List.length_reverse] at this
    exact this

/-! ## Readers -/

structure Reads {α : Type} (r : Rd α) (b : Bytes) (x : α) : Prop where
  ok : ∀ rest, r (b ++ rest) = .ok (x, rest)
  short : ∀ k, k < b.length → r (b.take k) = .error .panic

structure Fixed {α : Type} (r : Rd α) (n : Nat) : Prop where
  short : ∀ s, s.length < n → r s = .error .panic
  ok : ∀ s x s', r s = .ok (x, s') → n ≤ s.length ∧ s' = s.drop n
  err : ∀ s e, r s = .error e → e = .panic

theorem rd_bind {α β : Type} (r : Rd α) (f : α → Rd β) (s : Bytes) :
    (r >>= f) s = match r s with
      | .ok (x, s') => f x s'
      | .error e => .error e := by
  show (do let (a, s) ← r s; f a s) = _
  cases h : r s with
  | error e => simp [bind, Except.bind]
  | ok p => simp [bind, Except.bind]

theorem Reads.pure {α : Type} (x : α) : Reads (Pure.pure x) [] x :=
  ⟨fun _ => rfl, fun k h => by simp at h⟩

theorem Reads.bind {α β : Type} {r : Rd α} {f : α → Rd β} {b b' : Bytes} {x : α} {y : β}
    (h : Reads r b x) (h' : Reads (f x) b' y) : Reads (r >>= f) (b ++ b') y := by
  constructor
  · intro rest
    rw [rd_bind, List.append_assoc, h.ok]
    exact h'.ok rest
  · intro k hk
    rw [rd_bind]
    by_cases hkb : k < b.length
    · rw [List.take_append_of_le_length (by omega), h.short k hkb]
    · rw [List.take_append, List.take_of_length_le (by omega), h.ok]
      apply h'.short
      simp at hk; omega

theorem Reads.lift {α : Type} {r : Res α} {x : α} (h : r = .ok x) : Reads (Rd.lift r) [] x :=
  ⟨fun _ => by subst h; rfl, fun k h => by simp at h⟩

/-- A step that consumes nothing. -/
theorem Reads.lift_bind {α β : Type} {r : Res α} {f : α → Rd β} {b : Bytes} {x : α} {y : β}
    (h : r = .ok x) (h' : Reads (f x) b y) : Reads (Rd.lift r >>= f) b y :=
  (Reads.lift h).bind h'

theorem Reads.bind_last {α β : Type} {r : Rd α} {f : α → Rd β} {b : Bytes} {x : α} {y : β}
    (h : Reads r b x) (h' : Reads (f x) [] y) : Reads (r >>= f) b y := by
  have := h.bind h'
  rwa [List.append_nil] at this

theorem Reads.unique {α : Type} {r : Rd α} {b : Bytes} {x y : α} (h : Reads r b x)
    (h' : Reads r b y) : x = y := by
  have h1 := h.ok []; have h2 := h'.ok []
  rw [h1] at h2
  simpa using h2

theorem Fixed.pure {α : Type} (x : α) : Fixed (Pure.pure x : Rd α) 0 := by
  constructor
  · intro s h; simp at h
  · intro s y s' h; cases h; simp
  · intro s e h; cases h

theorem Fixed.bind {α β : Type} {r : Rd α} {f : α → Rd β} {n m : Nat}
    (h : Fixed r n) (h' : ∀ x, Fixed (f x) m) : Fixed (r >>= f) (n + m) := by
  constructor
  · intro s hs
    rw [rd_bind]
    cases hr : r s with
    | error e => rw [h.err s e hr]
    | ok p =>
      obtain ⟨x, s'⟩ := p
      obtain ⟨hn, rfl⟩ := h.ok s x s' hr
      exact (h' x).short _ (by simp; omega)
  · intro s y s'' hs
    rw [rd_bind] at hs
    cases hr : r s with
    | error e => rw [hr] at hs; simp at hs
    | ok p =>
      obtain ⟨x, s'⟩ := p
      obtain ⟨hn, rfl⟩ := h.ok s x s' hr
      rw [hr] at hs
      obtain ⟨hm, rfl⟩ := (h' x).ok _ _ _ hs
      simp at hm
      exact ⟨by omega, by simp⟩
  · intro s e hs
    rw [rd_bind] at hs
    cases hr : r s with
    | error e' =>
      rw [hr] at hs
      cases hs
      exact h.err _ _ hr
    | ok p =>
      rw [hr] at hs
      exact (h' p.1).err _ _ hs

theorem Fixed.lift {α : Type} {r : Res α} (h : ∀ e, r = .error e → e = .panic) :
    Fixed (Rd.lift r) 0 := by
  constructor
  · intro s hs; simp at hs
  · intro s x s' hs
    cases r with
    | error e => simp [Rd.lift, Except.map] at hs
    | ok a =>
      simp only [Rd.lift, Except.map, Except.ok.injEq, Prod.mk.injEq] at hs
      simp [hs.2]
  · intro s e hs
    cases r with
    | error e' => simp only [Rd.lift, Except.map, Except.error.injEq] at hs; exact h e (by rw [hs])
    | ok a => simp [Rd.lift, Except.map] at hs

theorem Fixed.readExact (n : Nat) : Fixed (readExact n) n := by
  constructor
  · intro s hs
    simp [AT.readExact, Nat.not_le.2 hs]
  · intro s x s' h
    unfold AT.readExact at h
    split at h
    · simp only [Except.ok.injEq, Prod.mk.injEq] at h
      exact ⟨by assumption, h.2.symm⟩
    · simp at h
  · intro s e h
    unfold AT.readExact at h
    split at h <;> simp at h
    exact h.symm

theorem Reads.readExact (b : Bytes) : Reads (readExact b.length) b b := by
  constructor
  · intro rest
    simp [AT.readExact]
  · intro k hk
    exact (Fixed.readExact _).short _ (by simp; omega)

theorem Reads.readExact' {n : Nat} {b : Bytes} (h : b.length = n) :
    Reads (AT.readExact n) b b := h ▸ Reads.readExact b

theorem Fixed.reads {α : Type} {r : Rd α} {n : Nat} (h : Fixed r n) {b : Bytes} {x : α}
    (hb : b.length = n) (hr : ∀ rest, r (b ++ rest) = .ok (x, rest)) : Reads r b x :=
  ⟨hr, fun k hk => h.short _ (by simp; omega)⟩

theorem runwrap_err {α : Type} (o : Option α) (e : Stop) (h : runwrap o = .error e) :
    e = .panic := by
  cases o <;> simp [runwrap] at h
  exact h.symm

theorem rassert_err (c : Bool) (e : Stop) (h : rassert c = .error e) : e = .panic := by
  cases c <;> simp [rassert] at h
  exact h.symm

theorem rassert_true {c : Bool} (h : c = true) : rassert c = .ok () := by
  subst h; rfl

/-! ## Primitive readers -/

theorem reads_pure_bytes {α : Type} {n : Nat} {b : Bytes} (f : Bytes → α) (h : b.length = n) :
    Reads (do let b ← readExact n; pure (f b) : Rd α) b (f b) := by
  have := (Reads.readExact' h).bind (Reads.pure (f b)) (f := fun b => Pure.pure (f b))
  rwa [List.append_nil] at this

theorem reads_u8 (n : UInt8) : Reads readU8 [n] n := by
  have := reads_pure_bytes (n := 1) (b := [n]) (fun b => UInt8.ofNat (leVal b)) rfl
  have h : UInt8.ofNat (leVal [n]) = n := by simp [leVal]
  rw [h] at this
  exact this

theorem reads_u16 (e : Endian) (n : UInt16) : Reads (readU16 e) (intBytes e 2 n.toNat) n := by
  have := reads_pure_bytes (fun b => UInt16.ofNat (intVal e b)) (length_intBytes e 2 n.toNat)
  rw [intVal_intBytes e 2 _ n.toNat_lt, UInt16.ofNat_toNat] at this
  exact this

theorem reads_u32 (e : Endian) (n : UInt32) : Reads (readU32 e) (intBytes e 4 n.toNat) n := by
  have := reads_pure_bytes (fun b => UInt32.ofNat (intVal e b)) (length_intBytes e 4 n.toNat)
  rw [intVal_intBytes e 4 _ n.toNat_lt, UInt32.ofNat_toNat] at this
  exact this

theorem reads_i32 (e : Endian) (n : Int32) :
    Reads (readI32 e) (intBytes e 4 n.toUInt32.toNat) n := by
  have := reads_pure_bytes (fun b => (UInt32.ofNat (intVal e b)).toInt32)
    (length_intBytes e 4 n.toUInt32.toNat)
  rw [intVal_intBytes e 4 _ n.toUInt32.toNat_lt, UInt32.ofNat_toNat, Int32.toInt32_toUInt32] at this
  exact this

theorem reads_u64 (e : Endian) (n : UInt64) : Reads (readU64 e) (intBytes e 8 n.toNat) n := by
  have := reads_pure_bytes (fun b => UInt64.ofNat (intVal e b)) (length_intBytes e 8 n.toNat)
  rw [intVal_intBytes e 8 _ n.toNat_lt, UInt64.ofNat_toNat] at this
  exact this

theorem fixed_pure_bytes {α : Type} (n : Nat) (f : Bytes → α) :
    Fixed (do let b ← readExact n; pure (f b) : Rd α) n :=
  (Fixed.readExact n).bind (fun x => Fixed.pure (f x))

theorem fixed_u8 : Fixed readU8 1 := fixed_pure_bytes 1 _
theorem fixed_u16 (e : Endian) : Fixed (readU16 e) 2 := fixed_pure_bytes 2 _
theorem fixed_u32 (e : Endian) : Fixed (readU32 e) 4 := fixed_pure_bytes 4 _
theorem fixed_i32 (e : Endian) : Fixed (readI32 e) 4 := fixed_pure_bytes 4 _
theorem fixed_u64 (e : Endian) : Fixed (readU64 e) 8 := fixed_pure_bytes 8 _

theorem fixed_str (n : Nat) : Fixed (readFixedStr n) n :=
  (Fixed.readExact n).bind (fun _ => Fixed.lift (runwrap_err _))

/-- A name that survives storage in a NUL-padded field of `n` bytes. -/
structure NameOk (n : Nat) (s : Str) : Prop where
  ascii : strIsAscii s = true
  nul : Char.ofNat 0 ∉ s
  len : s.length ≤ n

/-- The bytes of a padded name. -/
def nameBytes (n : Nat) (s : Str) : Bytes :=
  s.map (fun c => c.toNat.toUInt8) ++ List.replicate (n - s.length) 0

theorem length_nameBytes (n : Nat) (s : Str) (h : s.length ≤ n) : (nameBytes n s).length = n := by
  simp [nameBytes]; omega

theorem takeWhile_name (s : Str) (m : Nat) (ha : strIsAscii s = true) (hn : Char.ofNat 0 ∉ s) :
    (s.map (fun c => c.toNat.toUInt8) ++ List.replicate m (0 : UInt8)).takeWhile (· != 0)
      = s.map (fun c => c.toNat.toUInt8) := by
  induction s with
  | nil => cases m <;> simp [List.replicate_succ]
  | cons c s ih =>
    simp only [strIsAscii, List.all_cons, Bool.and_eq_true] at ha
    simp only [List.mem_cons, not_or] at hn
    have : c.toNat.toUInt8 ≠ 0 := fun h => hn.1 ((ascii_byte_zero c ha.1).1 h).symm
    simp only [List.map_cons, List.cons_append, List.takeWhile_cons]
    rw [if_pos (by simpa using this), ih ha.2 hn.2]

theorem reads_str {n : Nat} {s : Str} (h : NameOk n s) :
    Reads (readFixedStr n) (nameBytes n s) s := by
  have h1 := Reads.readExact' (length_nameBytes n s h.len)
  have h2 : Reads (Rd.lift (runwrap (fromUtf8 ((nameBytes n s).takeWhile (· != 0))))) [] s := by
    apply Reads.lift
    rw [nameBytes, takeWhile_name s _ h.ascii h.nul, fromUtf8_ascii s h.ascii]
    rfl
  have := h1.bind h2 (f := fun b => Rd.lift (runwrap (fromUtf8 (b.takeWhile (· != 0)))))
  rw [List.append_nil] at this
  exact this

/-! ## Writers -/

structure Writes (w : Wr Unit) (b : Bytes) : Prop where
  res : w.res = .ok ()
  out : w.out = b

theorem Writes.bind {w w' : Wr Unit} {b b' : Bytes} (h : Writes w b) (h' : Writes w' b') :
    Writes (w >>= fun _ => w') (b ++ b') := by
  obtain ⟨c, r⟩ := w
  obtain ⟨hr, ho⟩ := h
  simp only at hr
  subst hr
  constructor
  · exact h'.res
  · have := h'.out
    simp only [Wr.out] at *
    show (c ++ w'.chunks).flatten = _
    rw [List.flatten_append, ho, this]

theorem Writes.pure : Writes (Pure.pure ()) [] := ⟨rfl, rfl⟩

theorem Writes.emit (b : Bytes) : Writes (emit b) b := ⟨rfl, by simp [Wr.out, AT.emit]⟩

theorem writes_u8 (n : UInt8) : Writes (writeU8 n) [n] := Writes.emit _
theorem writes_u16 (h : Endian) (n : UInt16) : Writes (writeU16 h n) (intBytes h 2 n.toNat) :=
  Writes.emit _
theorem writes_u32 (h : Endian) (n : UInt32) : Writes (writeU32 h n) (intBytes h 4 n.toNat) :=
  Writes.emit _
theorem writes_i32 (h : Endian) (n : Int32) :
    Writes (writeI32 h n) (intBytes h 4 n.toUInt32.toNat) :=
  Writes.emit _
theorem writes_u64 (h : Endian) (n : UInt64) : Writes (writeU64 h n) (intBytes h 8 n.toNat) :=
  Writes.emit _

theorem writes_str {n : Nat} {s : Str} (ha : strIsAscii s = true) (hl : s.length ≤ n) :
    Writes (writeFixedStr s n) (nameBytes n s) := by
  unfold writeFixedStr
  rw [rassert_true ha, rassert_true (by simpa [utf8Len_ascii s ha] using hl)]
  exact ⟨rfl, by simp [Wr.out, AT.emit, nameBytes, Bind.bind, Wr.lift]⟩

/-- `write_fixed_size_string` returns normally exactly for ASCII names that fit. -/
theorem writeFixedStr_res (s : Str) (n : Nat) :
    (writeFixedStr s n).res = if strIsAscii s = true ∧ utf8Len s ≤ n then .ok () else .error .panic := by
  unfold writeFixedStr
  by_cases h1 : strIsAscii s = true
  · by_cases h2 : utf8Len s ≤ n
    · simp [h1, h2, rassert, Wr.lift, Bind.bind, AT.emit]
    · simp [h1, h2, rassert, Wr.lift, Bind.bind]
  · simp [h1, rassert, Wr.lift, Bind.bind]

theorem Writes.unique {w : Wr Unit} {b b' : Bytes} (h : Writes w b) (h' : Writes w b') : b = b' :=
  h.out.symm.trans h'.out

theorem res_bind_ok {w w' : Wr Unit} :
    (w >>= fun _ => w').res = .ok () ↔ w.res = .ok () ∧ w'.res = .ok () := by
  obtain ⟨c, r⟩ := w
  cases r with
  | ok a => simp [Bind.bind]
  | error e => simp [Bind.bind]

end AT.Mac
