import Lean
import Verif
open Lean Elab Command
/- Writes, for every property theorem, the axioms it depends on. Run with `lake env lean --stdin < ../tools/axioms.lean.txt` in lean/. -/
run_cmd do
  let env ← getEnv
  let mut out : Array (String × String) := #[]
  for (n, ci) in env.constants.map₁.toList do
    if (`Verif).isPrefixOf n then
      let s := match n with | .str _ s => s | _ => ""
      if s.startsWith "C" && s.length > 3 && (s.toList[1]!).isDigit && (s.toList[2]!).isDigit then
        if let .thmInfo _ := ci then
          unless n.isInternal do
            let ax ← liftCoreM (collectAxioms n)
            let l := (ax.toList.map toString).mergeSort (· ≤ ·)
            out := out.push (toString n, if l.isEmpty then "none" else ", ".intercalate l)
  let sorted := out.qsort (fun a b => a.1 < b.1)
  let h ← IO.FS.Handle.mk "../AXIOMS.md" .write
  h.putStrLn "# Axioms of every property theorem (generated by tools/axioms.lean.txt)\n\n| theorem | axioms |\n|---|---|"
  for (a, b) in sorted do h.putStrLn s!"| {a} | {b} |"
