import Verif.Props.EndToEnd
open AT AT.Asm AT.Mac AT.Props AT.MachO
def hexv (c : Char) : Nat := if c.isDigit then c.toNat - 48 else c.toNat - 87
def parseHex : List Char → List UInt8
  | a :: b :: r => UInt8.ofNat (hexv a * 16 + hexv b) :: parseHex r
  | _ => []
def main : IO Unit := do
  let mut ok := 0
  let mut bad := 0
  let mut rel := 0
  for l in ← IO.FS.lines "ln/exp.txt" do
    match l.trimAscii.toString.splitOn " " with
    | n :: ta :: da :: tx :: dx :: sy =>
      let f := (← IO.FS.readBinFile s!"ln/p{n}.o").toList
      let base : Str → Nat := fun s => if s = "__text".toList then ta.toNat! else da.toNat!
      match view .release .little f with
      | .error _ => bad := bad + 1; IO.println s!"{n} unreadable"
      | .ok (v, _) =>
        let get (nm : String) : Bytes := match v.sections.find? (fun s => s.sectname = nm.toList) with
          | some s => (linkSection .little f v base s).getD []
          | none => []
        let syms := match symbolEntries .little f v with | .ok l => l | .error _ => []
        let so := v.symtab.stroff.toNat
        let mine := syms.map fun t => match cstrAt f (so + t.nStrx.toNat), symbolAddress v base t with
          | some nm, some a => s!"{String.ofList (nm.map fun c => Char.ofNat c.toNat)}={a}"
          | _, _ => "?"
        let symOk := mine.all (· ∈ sy) && sy.all (· ∈ mine)
        let nrel := v.sections.foldl (fun k s => k + s.nreloc.toNat) 0
        rel := rel + nrel
        if (get "__text" == parseHex tx.toList) && (get "__data" == parseHex dx.toList) && symOk then ok := ok + 1
        else bad := bad + 1; IO.println s!"{n} differs {symOk} {mine} {sy}"
    | _ => pure ()
  IO.println s!"ok {ok} bad {bad} relocs {rel}"
