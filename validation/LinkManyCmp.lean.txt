import Verif.Spec.LinkMany
open AT AT.Mac AT.ObjSpec
def hexv (c : Char) : Nat := if c.isDigit then c.toNat - 48 else c.toNat - 87
def parseHex : List Char → List UInt8
  | a :: b :: r => UInt8.ofNat (hexv a * 16 + hexv b) :: parseHex r
  | _ => []
/-- size of the section of that name -/
def sizeIn (x : Raw) (n : Str) : Nat := (x.sections.filter (·.sectname = n)).foldl (fun k s => k + s.size.toNat) 0
def main : IO Unit := do
  let mut ok := 0
  let mut bad := 0
  let mut rel := 0
  let mut und := 0
  let mut nf := 0
  for l in ← IO.FS.lines "/tmp/v/lm/exp.txt" do
    match l.trimAscii.toString.splitOn " " with
    | [n, k, ta, da, ba, tx, dx] =>
      let mut xs : List Raw := []
      for i in [0:k.toNat!] do
        let f := (← IO.FS.readBinFile s!"/tmp/v/lm/p{n}_{i}.o").toList
        match readRaw .release .little f with
        | .ok x => xs := xs ++ [x]
        | .error _ => IO.println s!"{n} unreadable"
      let ys := xs
      let base : Nat → Str → Nat := fun i s =>
        (if s = "__text".toList then ta.toNat! else if s = "__data".toList then da.toNat! else ba.toNat!) +
          (ys.take i).foldl (fun k x => k + sizeIn x s) 0
      match linkFiles ys base with
      | none => bad := bad + 1; IO.println s!"{n} refused"
      | some out =>
        let get (nm : String) : Bytes := (ys.zip out).flatMap fun (x, secs) =>
          (x.sections.zip secs).flatMap fun (s, b) => if s.sectname = nm.toList then b else []
        rel := rel + (ys.flatMap (·.relocs)).flatten.length
        nf := nf + ys.length
        und := und + (ys.flatMap fun x => x.relocs.flatten.filter fun e =>
          (x.syms[e.rSymbolnum.toNat]?.map fun t => entryUndefined t.1) = some true).length
        if get "__text" == parseHex (tx.toList.drop 1) && get "__data" == parseHex (dx.toList.drop 1) then ok := ok + 1
        else bad := bad + 1; IO.println s!"{n} differs"
    | _ => IO.println "?"
  IO.println s!"ok {ok} bad {bad} files {nf} relocs {rel} to undefined {und}"
