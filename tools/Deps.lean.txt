import Verif
open Lean

/-- Prints, for each theorem of the manifest, the constants of this project on which it depends, as `theorem module:constant ...`. -/
def deps (env : Environment) (n : Name) : Array Name := Id.run do
  let mut seen : NameSet := {}
  let mut todo := #[n]
  let mut out := #[]
  while h : todo.size > 0 do
    let c := todo[todo.size - 1]
    todo := todo.pop
    if seen.contains c then continue
    seen := seen.insert c
    let some m := env.getModuleIdxFor? c | continue
    let mod := env.header.moduleNames[m]!
    unless mod.getRoot == `Verif do continue
    out := out.push (mod ++ c)
    if let some i := env.find? c then
      for d in i.getUsedConstantsAsSet do
        unless seen.contains d do todo := todo.push d
  return out

def main' (names : List Name) : CoreM Unit := do
  let env ← getEnv
  for n in names do
    let some m := env.getModuleIdxFor? n | IO.println s!"{n} MISSING"
    IO.println s!"{n} {env.header.moduleNames[m]!} {" ".intercalate ((deps env n).map toString).toList}"

