import Verif.Model.Asm
open AT AT.Asm AT.Mac
def main (args : List String) : IO UInt32 := do
  for n in [0:300] do
    let b ← IO.FS.readBinFile s!"ln/p{n}.s"
    match Assembler.new.readFrom .release [b.toList] with
    | .error e => IO.eprintln s!"{n} {repr e}"
    | .ok a =>
      let w := a.writeInto .release .little
      match w.res with
      | .ok _ => IO.FS.writeBinFile s!"ln/p{n}.o" ⟨w.out.toArray⟩
      | .error e => IO.eprintln s!"{n} write {repr e}"
  return 0
