import Verif.Model.Service
/-!
# Getters that make library calls

In the model of the other files `get_data` only returns data.  Here a getter may call functions of the library before it returns: `G id u` are the calls made by getter `id` when it
is called in state `u`.  The functions below are those of the model on the way from `ush_service` to the two places where a getter is called (ush_cmd_cat.c:82, ush_cmd_xxd.c:56); all
others are not affected.  Without calls nothing is different (`C79_same`).
-/
namespace Ush

/-- The library calls of the getters. -/
abbrev Getters := Nat → Ush → List Api

/-- Call of `f->get_data(self, f, &data)`. -/
def callGetG (E : Env) (G : Getters) (u : Ush) (id : Nat) : M (Ush × Option (List UInt8)) := do
  let v ← runApis E (u.emit (.getData id)) (G id u)
  return (v, E.userGet id u)

/-- `ush_buildin_cmd_cat_service`, ush_cmd_cat.c:56-101: the state passed on as the next one is read after the getter has returned (ush_cmd_cat.c:82-84). -/
def catServiceG (E : Env) (G : Getters) (u : Ush) : M Ush :=
  match u.state with
  | .processStart => .ok { u with procItem := 1, state := .processService }
  | .processService =>
    if u.procItem ≥ u.argsCount then .ok { u with state := .processFinish }
    else do
      let argv ← getArgs u
      let o ← argAt argv u.procItem
      let name ← cstrAt u.inBuf o
      match ← fileFindByName E u name with
      | none => .error .null
      | some f =>
        match f.getData with
        | none => .error .null
        | some id =>
          match ← callGetG E G u id with
          | (_, none) => .error .uninit
          | (u, some d) =>
            let u := writePointerBin u (.data d) d.length u.state
            return { u with procItem := u.procItem + 1 }
  | .processFinish => .ok { u with state := .resetPrompt }
  | _ => .ok u

/-- `ush_buildin_cmd_xxd_callback`, ush_cmd_xxd.c:36-58. -/
def xxdCallbackG (E : Env) (G : Getters) (u : Ush) (file : FileDesc) (argv : List Nat) : M Ush :=
  if argv.length ≠ 2 then printStatus E u .cmdWrongArguments
  else do
    let o ← argAt argv 1
    let name ← cstrAt u.inBuf o
    match ← fileFindByName E u name with
    | none => printStatus E u .fileNotFound
    | some f =>
      match f.getData with
      | none => printStatus E u .fileNotReadable
      | some id =>
        match ← callGetG E G u id with
        | (u, none) => return processStart { u with procDataSize := 0 } file
        | (u, some d) => return processStart { u with procData := some d, procDataSize := d.length } file

/-- `file->exec(self, file, argc, argv)`, ush_parse.c:60. -/
def callExecG (E : Env) (G : Getters) (u : Ush) (file : FileDesc) (cb : Cb) (argv : List Nat) (strs : List Str) : M Ush :=
  match cb with
  | .builtin .xxd => xxdCallbackG E G (u.emit (.exec cb strs)) file argv
  | cb => callExec E u file cb argv strs

/-- `ush_process_service`, ush_process.c:38-62. -/
def processServiceG (E : Env) (G : Getters) (u : Ush) : M (Option Ush) :=
  match u.state with
  | .processStart | .processService | .processFinish =>
    match u.procFile with
    | none => .error .assert
    | some f =>
      match f.process with
      | some (.builtin .cat) => do return some (← catServiceG E G u)
      | _ => processService E u
  | _ => .ok none

/-- `ush_parse_finish`, ush_parse.c:32-61. -/
def parseFinishG (E : Env) (G : Getters) (u : Ush) : M Ush := do
  let argv ← getArgs u
  if argv.length = 0 then return u
  else
    let strs ← argStrs u argv
    let u ← callHook E u strs
    let o ← argAt argv 0
    let name ← cstrAt u.inBuf o
    match ← fileFindByName E u name with
    | none => printStatus E u .cmdSyntaxError
    | some file =>
      match file.exec with
      | none => printStatus E u .fileNotExecutable
      | some cb => callExecG E G u file cb argv strs

/-- `ush_parse_char`, ush_parse_char.c:28-42. -/
def parseCharG (E : Env) (G : Getters) (u : Ush) : M Ush := do
  let ch ← rd u.inBuf u.inPos
  let u := { u with inPos := u.inPos + 1 }
  if ch = cLf ∨ ch = cCr then
    let u ← putOut u cNul
    parseFinishG E G { u with state := .resetPrompt }
  else parseCharStandard u ch

/-- `ush_parse_service`, ush_parse.c:63-84. -/
def parseServiceG (E : Env) (G : Getters) (u : Ush) : M (Option Ush) :=
  match u.state with
  | .parsePrepare => .ok (some (parseStart u))
  | .parseSearchArg => do return some (← parseCharG E G u)
  | .parseQuoteArg => do return some (← parseCharG E G u)
  | .parseStandardArg => do return some (← parseCharG E G u)
  | _ => .ok none

/-- `ush_service`, ush.c:70-95. -/
def serviceG (E : Env) (G : Getters) (io : Io) (u : Ush) : M (Ush × Bool) := do
  assertM u.current.isSome
  match ← resetService u with
  | some u => return (u, true)
  | none =>
  match ← promptService E u with
  | some u => return (u, true)
  | none =>
  match ← readService E io u with
  | some r => return r
  | none =>
  match ← autocompService E u with
  | some u => return (u, true)
  | none =>
  match ← parseServiceG E G u with
  | some u => return (u, true)
  | none =>
  match ← writeService io u with
  | some u => return (u, true)
  | none =>
  match ← processServiceG E G u with
  | some u => return (u, true)
  | none => return (u, false)

/-- Effect of one step of a history (`step`). -/
def stepG (E : Env) (G : Getters) (u : Ush) : Op → M Ush
  | .service io => do
    let (u, _) ← serviceG E G io u
    return u
  | o => step E u o

/-- Effect of a history (`run`). -/
def runG (E : Env) (G : Getters) : Ush → List Op → M Ush
  | u, [] => .ok u
  | u, o :: os => do
    let u ← stepG E G u o
    runG E G u os

end Ush
