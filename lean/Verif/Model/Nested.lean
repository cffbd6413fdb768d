import Verif.Model.Service
/-!
# Callbacks that call `ush_service`

In the model of the other files callbacks do not call `ush_service`.  Here a callback may do anything more, once it has made the calls given in `Env`: `K c v` is the rest of the
callback `c`, which is in state `v` when it begins.  The functions below are those of the model on the way from `ush_service` to the four places where the callbacks for commands
(ush_parse.c:60), for data (ush_cmd_echo.c:70), for processes (ush_process.c:54) and the general hook (ush_parse.c:47) are called.  With nothing more to do nothing is different (`C80_same`).
-/
namespace Ush

/-- A callback of the application and its arguments. -/
inductive Callback
  | exec (id : Nat) (argv : List Str)
  | set (id : Nat) (d : List UInt8)
  | proc (id : Nat)
  | hook (argv : List Str)

/-- What the callbacks do after the calls given in `Env`. -/
abbrev Rest := Callback → Ush → M Ush

/-- Call of `f->set_data(self, f, data, size)`, ush_cmd_echo.c:70. -/
def callSetK (E : Env) (K : Rest) (u : Ush) (id : Nat) (d : List UInt8) : M Ush := do
  K (.set id d) (← callSet E u id d)

/-- `ush_buildin_cmd_echo_callback`, ush_cmd_echo.c:35-83. -/
def echoCallbackK (E : Env) (K : Rest) (u : Ush) (argv : List Nat) : M Ush :=
  match argv.length with
  | 4 => do
    let o2 ← argAt argv 2
    let s2 ← cstrAt u.inBuf o2
    if s2 ≠ b!">" then printStatus E u .cmdWrongArguments
    else
      let o3 ← argAt argv 3
      let s3 ← cstrAt u.inBuf o3
      match ← fileFindByName E u s3 with
      | none => printStatus E u .fileNotFound
      | some f =>
        match f.setData with
        | none => printStatus E u .fileNotWritable
        | some id => do
          let (u, o, size) ← echoDecode u argv
          callSetK E K u id ((u.inBuf.drop o).take size)
  | 2 => do
    let (u, o, _) ← echoDecode u argv
    ushPrint u (.inBuf o)
  | 1 => .ok { u with state := .reset }
  | _ => printStatus E u .cmdWrongArguments

/-- `file->exec(self, file, argc, argv)`, ush_parse.c:60. -/
def callExecK (E : Env) (K : Rest) (u : Ush) (file : FileDesc) (cb : Cb) (argv : List Nat) (strs : List Str) : M Ush :=
  let v := u.emit (.exec cb strs)
  match cb with
  | .builtin .echo => echoCallbackK E K v argv
  | .builtin b => callExec E u file (.builtin b) argv strs
  | .user id => do K (.exec id strs) (← runApis E v (E.userExec id strs v))

/-- Call of `self->desc->exec(self, NULL, argc, argv)`, ush_parse.c:46-47. -/
def callHookK (E : Env) (K : Rest) (u : Ush) (strs : List Str) : M Ush :=
  match E.hook with
  | none => .ok u
  | some h => do K (.hook strs) (← runApis E (u.emit (.hook strs)) (h strs u))

/-- `ush_process_service`, ush_process.c:38-62. -/
def processServiceK (E : Env) (K : Rest) (u : Ush) : M (Option Ush) :=
  match u.state with
  | .processStart | .processService | .processFinish =>
    match u.procFile with
    | none => .error .assert
    | some f =>
      match f.process with
      | some (.user id) => do return some (← K (.proc id) (← runApis E (u.emit (.proc id)) (E.userProc id u)))
      | _ => processService E u
  | _ => .ok none

/-- The arguments of the command are read again after the hook has returned, since `argv` points into the input buffer.
`ush_parse_finish`, ush_parse.c:32-61. -/
def parseFinishK (E : Env) (K : Rest) (u : Ush) : M Ush := do
  let argv ← getArgs u
  if argv.length = 0 then return u
  else
    let strs ← argStrs u argv
    let u ← callHookK E K u strs
    let o ← argAt argv 0
    let name ← cstrAt u.inBuf o
    match ← fileFindByName E u name with
    | none => printStatus E u .cmdSyntaxError
    | some file =>
      match file.exec with
      | none => printStatus E u .fileNotExecutable
      | some cb => do
        let strs ← argStrs u argv
        callExecK E K u file cb argv strs

/-- `ush_parse_char`, ush_parse_char.c:28-42. -/
def parseCharK (E : Env) (K : Rest) (u : Ush) : M Ush := do
  let ch ← rd u.inBuf u.inPos
  let u := { u with inPos := u.inPos + 1 }
  if ch = cLf ∨ ch = cCr then
    let u ← putOut u cNul
    parseFinishK E K { u with state := .resetPrompt }
  else parseCharStandard u ch

/-- `ush_parse_service`, ush_parse.c:63-84. -/
def parseServiceK (E : Env) (K : Rest) (u : Ush) : M (Option Ush) :=
  match u.state with
  | .parsePrepare => .ok (some (parseStart u))
  | .parseSearchArg => do return some (← parseCharK E K u)
  | .parseQuoteArg => do return some (← parseCharK E K u)
  | .parseStandardArg => do return some (← parseCharK E K u)
  | _ => .ok none

/-- `ush_service`, ush.c:70-95. -/
def serviceK (E : Env) (K : Rest) (io : Io) (u : Ush) : M (Ush × Bool) := do
  assertM u.current.isSome
  match ← resetService u with
  | some u => return (u, true)
  | none =>
  match ← promptService E u with
  | some u => return (u, true)
  | none =>
  match ← readService E io u with
  | some r => return r
  | none =>
  match ← autocompService E u with
  | some u => return (u, true)
  | none =>
  match ← parseServiceK E K u with
  | some u => return (u, true)
  | none =>
  match ← writeService io u with
  | some u => return (u, true)
  | none =>
  match ← processServiceK E K u with
  | some u => return (u, true)
  | none => return (u, false)

end Ush
