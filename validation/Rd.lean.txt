import Verif.Model.MacDebug
import Verif.Props.Obj
open AT AT.Mac AT.Props
def main (args : List String) : IO Unit := do
  for a in args do
    let f := (← IO.FS.readBinFile a).toList
    IO.println a
    match Header64.readFrom .little f with
    | .error e => IO.println s!"header {repr e}"
    | .ok ((h, e), r) =>
      IO.println s!"{repr h}"
      match readN (LoadCommand.readFromIn .release e) h.nCmds.toNat r with
      | .error e => IO.println s!"cmds {repr e}"
      | .ok (cs, _) =>
        for c in cs do
          IO.println s!"{repr c}"
          match c with
          | .segment64 _ ss =>
            for s in ss do
              match readN (RelocationInfo.readFromIn e) s.nreloc.toNat (f.drop s.reloff.toNat) with
              | .ok (l, _) => for x in l do IO.println s!"  {repr x}"
              | .error e => IO.println s!"relocs {repr e}"
          | .symtab st =>
              match readN (NList64.readFromIn e) st.nsyms.toNat (f.drop st.symoff.toNat) with
              | .ok (l, _) => for x in l do IO.println s!"  {repr x}"
              | .error e => IO.println s!"syms {repr e}"
          | _ => pure ()
