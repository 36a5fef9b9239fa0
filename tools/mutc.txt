import Lean
open Lean Elab

/-- does the proof of `n` rest on an error (following only constants of Verif.* and the current file)? -/
partial def go (env : Environment) (mods : Std.HashSet Nat) (n : Name) (memo : Std.HashMap Name Bool) :
    Bool × Std.HashMap Name Bool := Id.run do
  if n == Name.mkSimple ("sor" ++ "ryAx") then return (true, memo)
  if let some b := memo[n]? then return (b, memo)
  if let some i := env.getModuleIdxFor? n then
    unless mods.contains i do return (false, memo)
  let mut memo := memo.insert n false
  let some ci := env.find? n | return (true, memo.insert n true)
  -- a declaration rejected by the kernel is kept as an axiom
  if let .axiomInfo _ := ci then return (true, memo.insert n true)
  let mut cs := ci.type.getUsedConstants
  if let some v := ci.value? (allowOpaque := true) then cs := cs ++ v.getUsedConstants
  if let .inductInfo i := ci then cs := cs ++ i.ctors.toArray
  let mut r := false
  for c in cs do
    let (b, m') := go env mods c memo
    memo := m'
    if b then r := true; break
  memo := memo.insert n r
  return (r, memo)

unsafe def main (args : List String) : IO UInt32 := do
  let [file, modName, olean] := args | throw <| IO.userError "args"
  initSearchPath (← findSysroot)
  enableInitializersExecution
  let input ← IO.FS.readFile file
  let opts : Options := Elab.async.setIfNotSet {} true
  let opts := Lean.internal.cmdlineSnapshots.setIfNotSet opts true
  let inputCtx := Parser.mkInputContext input file
  let main := modName.toName
  let setup stx := do
    return Except.ok {
        imports := stx.imports
        isModule := stx.isModule
        mainModuleName := main, opts, trustLevel := 0, plugins := #[] : Language.Lean.SetupImportsResult }
  let snap ← Language.Lean.process setup none { inputCtx with }
  let snaps := Language.toSnapshotTree snap
  let msgs := snaps.getAll.map (·.diagnostics.msgLog)
  let mut nerr := 0
  for ml in msgs do
    for m in ml.toList do
      if m.severity == .error then
        nerr := nerr + 1
        IO.println s!"ERR {m.pos.line}"
  let some cmdState := Language.Lean.waitForFinalCmdState? snap | IO.println "NOSTATE"; return 1
  let env := cmdState.env
  writeModule env olean
  let mods : Std.HashSet Nat := env.header.moduleNames.size.fold (fun i h s =>
    if env.header.moduleNames[i].getRoot == `Verif then s.insert i else s) {}
  let mut memo : Std.HashMap Name Bool := {}
  -- theorems of this module and whether they rest on an error
  for (n, ci) in env.constants.map₂.toList do
    if let .thmInfo _ := ci then
      unless n.isInternal do
        let (b, m') := go env mods n memo
        memo := m'
        if b then IO.println s!"BROKEN {n}" else IO.println s!"OK {n}"
  IO.println s!"DONE {nerr}"
  return 0
