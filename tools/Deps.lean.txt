import Verif
open Lean
/-- Print, for each theorem named `C..`, the constants of the project it depends on. -/
def main' : CoreM Unit := do
  let env ← getEnv
  let isOurs (n : Name) : Bool := (`Verif).isPrefixOf n
  let mut memo : Std.HashMap Name (Array Name) := {}
  for (n, ci) in env.constants.map₁.toList do
    if isOurs n then
      let used := ci.type.getUsedConstants ++ (match ci.value? (allowOpaque := true) with | some v => v.getUsedConstants | none => #[])
      memo := memo.insert n (used.filter isOurs)
  for (n, _) in memo.toList do
    let last := n.getString!
    if last.startsWith "C" && last.length > 4 && last.contains '_' && (env.find? n matches some (.thmInfo _)) then
      let mut seen : NameSet := {}
      let mut stack : Array Name := #[n]
      while stack.size > 0 do
        let x := stack.back!
        stack := stack.pop
        for y in (memo[x]?.getD #[]) do
          if !seen.contains y then
            seen := seen.insert y
            stack := stack.push y
      IO.println s!"{n} {" ".intercalate (seen.toList.map toString)}"
#eval main'
