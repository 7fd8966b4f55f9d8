import Verif.Spec.X86
open X86
def hexv (c : Char) : Nat := if c.isDigit then c.toNat - 48 else c.toNat - 87
def parseHex : List Char → List UInt8
  | a :: b :: r => UInt8.ofNat (hexv a * 16 + hexv b) :: parseHex r
  | _ => []
def hexN (s : String) : Nat := s.foldl (fun n c => n * 16 + hexv c) 0
def DATA := 0x20000000
def CODE := 0x10000000
def STUB := 0x4012bd
def words (l : String) : List String := ((l.trimAscii.toString.splitOn " ").filter (· ≠ ""))
def main (args : List String) : IO Unit := do
  let a ← IO.FS.lines args[0]!
  let b ← IO.FS.lines args[1]!
  let mut bad := 0
  let mut ok := 0
  for (x, y) in a.toList.zip b.toList do
    let xs := words x
    let ys := words y
    let bs := parseHex xs[0]!.toList
    let rg := (xs.drop 1).map hexN
    let sp := rg[4]!
    let isret := bs == [0xc3]
    let m0 : BitVec 64 → BitVec 8 := fun p => BitVec.ofNat 8 ((p.toNat * 2654435761) >>> 13)
    let m : BitVec 64 → BitVec 8 := fun p =>
      if isret ∧ sp ≤ p.toNat ∧ p.toNat < sp + 8 then BitVec.ofNat 8 (STUB >>> (8 * (p.toNat - sp))) else m0 p
    let s : State := ⟨fun i => BitVec.ofNat 64 (rg.getD i 0), m, BitVec.ofNat 64 CODE⟩
    match decode bs with
    | some (i, []) =>
      match exec i bs.length s with
      | some t =>
        let rr := (ys.take 16).map hexN
        let regsOk := (List.range 16).all fun k => (t.reg k).toNat == rr[k]!
        let ripOk := t.rip.toNat == (if isret then STUB else CODE + bs.length)
        let mm := (ys.drop 16).map fun w => match w.splitOn ":" with | [p, q] => (hexN p, hexN q) | _ => (0, 0)
        let memOk := (List.range 4096).all fun k =>
          let p := DATA + k
          let v := (t.mem (BitVec.ofNat 64 p)).toNat
          match mm.find? (fun z => z.1 == p) with
          | some z => v == z.2
          | none => v == (m (BitVec.ofNat 64 p)).toNat
        if regsOk && ripOk && memOk then ok := ok + 1 else
          bad := bad + 1
          if bad < 10 then IO.println s!"BAD {regsOk} {ripOk} {memOk} {repr i}\n {x}\n {y}"
      | none => IO.println s!"noexec {x}"
    | _ => bad := bad + 1; IO.println s!"nodecode {x}"
  IO.println s!"ok {ok} bad {bad}"
