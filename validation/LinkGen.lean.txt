import Verif.Model.ObjMacho
open AT AT.Obj AT.Mac
def lcg (s : UInt64) : UInt64 := s * 6364136223846793005 + 1442695040888963407
abbrev G := StateM UInt64
def rnd (n : Nat) : G Nat := do
  modify lcg
  pure (((← get) >>> 33).toNat % n)
def nm (p : String) (i : Nat) : Str := (p ++ toString i).toList
/-- relocations at places that do not overlap -/
def relocsFor (names : List Str) (len : Nat) : G (List Reloc) := do
  let mut off := 0
  let mut out := []
  for _ in [0:40] do
    let l := if (← rnd 2) = 0 then 3 else 2
    off := off + (← rnd 12)
    if off + 2 ^ l ≤ len ∧ names ≠ [] then
      out := out ++ [⟨Int32.ofNat off, names.getD (← rnd names.length) [], false, UInt8.ofNat l⟩]
      off := off + 2 ^ l
  pure out
def genSet : G (List Object) := do
  let k := (← rnd 4) + 1
  let mut owner : List Nat := []
  for _ in [0:8] do owner := owner ++ [← rnd k]
  let mut objs := []
  for i in [0:k] do
    let tl := (← rnd 60) + (if i = 0 then 1 else 0)
    let dl ← rnd 60
    let bl ← rnd 30
    let bytes (n : Nat) : G Bytes := do
      let mut l := []
      for _ in [0:n] do
        let z ← rnd 3
        let v ← rnd 256
        l := UInt8.ofNat (if z = 0 then v else 0) :: l
      pure l
    let tb ← bytes tl
    -- data has small numbers in place
    let db ← bytes dl
    let mut ts : List Symbol := if i = 0 then [.ref "_main".toList 0 true] else []
    let mut ds : List Symbol := []
    let mut bs : List Symbol := []
    for j in [0:8] do
      let n := nm "g" j
      if owner.getD j 0 = i then
        let c ← rnd 4
        if c = 0 ∧ dl > 0 then ds := ds ++ [.ref n (UInt64.ofNat (← rnd dl)) true]
        else if c = 1 ∧ bl > 0 then bs := bs ++ [.ref n (UInt64.ofNat (← rnd bl)) true]
        else if c = 2 ∨ tl = 0 then
          let v ← rnd 5000
          if dl > 0 then ds := ds ++ [.abs n (UInt64.ofNat v) true]
          else if tl > 0 then ts := ts ++ [.abs n (UInt64.ofNat v) true]
        else ts := ts ++ [.ref n (UInt64.ofNat (← rnd tl)) true]
      else if (← rnd 2) = 0 then
        if tl > 0 then ts := ts ++ [.undef n] else if dl > 0 then ds := ds ++ [.undef n]
    for j in [0:3] do
      let n := nm "l" j
      let c ← rnd 4
      if c = 0 ∧ dl > 0 then ds := ds ++ [.ref n (UInt64.ofNat (← rnd dl)) false]
      else if c = 1 ∧ bl > 0 then bs := bs ++ [.ref n (UInt64.ofNat (← rnd bl)) false]
      else if c = 2 ∧ tl > 0 then ts := ts ++ [.abs n (UInt64.ofNat (← rnd 5000)) false]
      else if tl > 0 then ts := ts ++ [.ref n (UInt64.ofNat (← rnd tl)) false]
    let names := (ts ++ (if dl > 0 then ds else []) ++ (if bl > 0 then bs else [])).map Symbol.name
    let tr ← relocsFor names tl
    let dr ← relocsFor names dl
    let small (bs : Bytes) (rs : List Reloc) : Bytes := bs.mapIdx fun k b =>
      if rs.any fun r => r.addr.toInt.toNat + 2 ≤ k ∧ k < r.addr.toInt.toNat + 2 ^ r.len.toNat then 0 else b
    let tb := small tb tr
    let db := small db dr
    objs := objs ++ [{ sections := { text := ⟨tb, ts, tr⟩, data := ⟨db, ds, dr⟩, bss := ⟨UInt64.ofNat bl, bs⟩ } }]
  -- undefined symbols whose owner could not define them are left undefined: drop such sets
  let defd := objs.flatMap fun o => (o.symbols.filterMap fun s => match s with | .undef _ => none | s => some s.name)
  let und := objs.flatMap fun o => (o.symbols.filterMap fun s => match s with | .undef n => some n | _ => none)
  if und.all (· ∈ defd) then pure objs else pure []
def main : IO Unit := do
  let mut s : UInt64 := 20261116
  let mut n := 0
  while n < 300 do
    let (os, s') := genSet.run s
    s := s'
    if os ≠ [] then
      let mut i := 0
      for o in os do
        let w := Obj.writeInto .release .little o
        match w.res with
        | .ok _ => IO.FS.writeBinFile s!"/tmp/v/lm/p{n}_{i}.o" ⟨w.out.toArray⟩
        | .error e => IO.eprintln s!"{n} write {repr e}"
        i := i + 1
      IO.FS.writeFile s!"/tmp/v/lm/p{n}.n" s!"{i}"
      n := n + 1
