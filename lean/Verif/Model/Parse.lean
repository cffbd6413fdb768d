import Verif.Model.Cmd
/-!
# Model of the command line parser: `ush_parse.c`, `ush_parse_char.c`, `ush_parse_utils.c`
-/
namespace Ush

/-- `ush_parse_start`, ush_parse_utils.c:30-39. -/
def parseStart (u : Ush) : Ush :=
  { u with inPos := 0, outPos := 0, argsCount := 0, escapeFlag := false, state := .parseSearchArg }

/-- `self->desc->input_buffer[self->out_pos++] = ch`. -/
def putOut (u : Ush) (ch : UInt8) : M Ush := do
  let buf ← wr u.inBuf u.outPos ch
  return { u with inBuf := buf, outPos := u.outPos + 1 }

/-- The escape branch, ush_parse_utils.c:81-87 and 102-108. -/
def parseEscaped (u : Ush) (ch : UInt8) : M Ush := do
  let u ← (if ch = cX then putOut u cBackslash else pure u)
  let u ← putOut u ch
  return { u with escapeFlag := false }

/-- `ush_parse_char_standard`, ush_parse_utils.c:57-130. -/
def parseCharStandard (u : Ush) (ch : UInt8) : M Ush :=
  match u.state with
  | .parseSearchArg =>
    if ch = cSpace then .ok u
    else if ch = cQuote then
      .ok { u with argsCount := u.argsCount + 1, state := .parseQuoteArg }
    else if ch = cBackslash then
      .ok { u with escapeFlag := true, argsCount := u.argsCount + 1, state := .parseStandardArg }
    else do
      let u ← putOut u ch
      return { u with argsCount := u.argsCount + 1, state := .parseStandardArg }
  | .parseQuoteArg =>
    if u.escapeFlag then parseEscaped u ch
    else if ch = cQuote then .ok { u with state := .parseStandardArg }
    else if ch = cBackslash then .ok { u with escapeFlag := true }
    else putOut u ch
  | .parseStandardArg =>
    if u.escapeFlag then parseEscaped u ch
    else if ch = cSpace then do
      let u ← putOut u cNul
      return { u with state := .parseSearchArg }
    else if ch = cQuote then .ok { u with state := .parseQuoteArg }
    else if ch = cBackslash then .ok { u with escapeFlag := true }
    else putOut u ch
  | _ => .error .assert

/-- Call of `desc->exec`, ush_parse.c:46-47. -/
def callHook (E : Env) (u : Ush) (strs : List Str) : M Ush :=
  match E.hook with
  | none => .ok u
  | some h => runApis E (u.emit (.hook strs)) (h strs u)

/-- `ush_parse_finish`, ush_parse.c:32-61. -/
def parseFinish (E : Env) (u : Ush) : M Ush := do
  let argv ← getArgs u
  if argv.length = 0 then return u
  else
    let strs ← argStrs u argv
    let u ← callHook E u strs
    let o ← argAt argv 0
    let name ← cstrAt u.inBuf o
    match ← fileFindByName E u name with
    | none => printStatus E u .cmdSyntaxError
    | some file =>
      match file.exec with
      | none => printStatus E u .fileNotExecutable
      | some cb => callExec E u file cb argv strs

/-- `ush_parse_char`, ush_parse_char.c:28-42. -/
def parseChar (E : Env) (u : Ush) : M Ush := do
  let ch ← rd u.inBuf u.inPos
  let u := { u with inPos := u.inPos + 1 }
  if ch = cLf ∨ ch = cCr then
    let u ← putOut u cNul
    parseFinish E { u with state := .resetPrompt }
  else parseCharStandard u ch

/-- `ush_parse_service`, ush_parse.c:63-84. -/
def parseService (E : Env) (u : Ush) : M (Option Ush) :=
  match u.state with
  | .parsePrepare => .ok (some (parseStart u))
  | .parseSearchArg => do return some (← parseChar E u)
  | .parseQuoteArg => do return some (← parseChar E u)
  | .parseStandardArg => do return some (← parseChar E u)
  | _ => .ok none

end Ush
