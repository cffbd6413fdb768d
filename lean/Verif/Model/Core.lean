import Verif.Model.Node
/-!
# Model of the write engine, prompt, reset, line reader and the printing API

`ush_write.c`, `ush_write_utils.c`, `ush_reset.c`, `ush_prompt.c`, `ush_read*.c`, `ush_process.c:29-36` and the
printing functions of `ush.c`.

`…Service` functions return `none` when the C function returns `false` ("not processed").
-/
namespace Ush

/-- `ush_write_pointer_bin`, ush_write_utils.c:28-40 (`data != NULL` is asserted; callers that can pass NULL
check it themselves). -/
def writePointerBin (u : Ush) (p : Ptr) (size : Nat) (next : St) : Ush :=
  { u with writePos := 0, writeSize := size, writeBuf := p, state := .writeChar, writeNext := next }

/-- `ush_write_pointer`, ush_write.c:30-37. -/
def writePointer (u : Ush) (p : Ptr) (next : St) : M Ush := do
  assertM (p ≠ .null)
  let s ← ptrStr u p
  return writePointerBin u p s.length next

/-- `ush_write_char`, ush_write_utils.c:42-57. -/
def writeChar (io : Io) (u : Ush) : M Ush :=
  if u.writePos ≥ u.writeSize then .ok { u with state := u.writeNext }
  else do
    let ch ← ptrRead u u.writeBuf u.writePos
    if io.wr then return { u.emit (.out ch) with writePos := u.writePos + 1 }
    else return u

/-- `ush_write_service`, ush_write.c:39-55. -/
def writeService (io : Io) (u : Ush) : M (Option Ush) :=
  match u.state with
  | .writeChar => do return some (← writeChar io u)
  | _ => .ok none

/-- `USH_NAME " " USH_VERSION "\r\n"`, ush_const.h:33-35, ush_reset.c:43. -/
def banner : Str := b!"uShell 0.1.0\r\n"

/-- `"\r\n"`. -/
def crlf : Str := b!"\r\n"

/-- `ush_reset`, ush_reset.c:38-44. -/
def ushReset (u : Ush) : M Ush :=
  writePointer { u with current := u.root } (.str banner) .resetPrompt

/-- `ush_prompt_start`, ush_prompt.c:32-36. -/
def promptStart (u : Ush) (next : St) : Ush :=
  { u with state := .promptPrefix, promptNext := next }

/-- `ush_reset_service`, ush_reset.c:46-65. -/
def resetService (u : Ush) : M (Option Ush) :=
  match u.state with
  | .reset => do return some (← writePointer u (.str crlf) .resetPrompt)
  | .resetPrompt => .ok (some (promptStart u .readPrepare))
  | _ => .ok none

/-- `ush_prompt_service`, ush_prompt.c:38-68. -/
def promptService (E : Env) (u : Ush) : M (Option Ush) :=
  match u.state with
  | .promptPrefix => do return some (← writePointer u (.str (E.colorMagenta ++ b!"[")) .promptHost)
  | .promptHost => do return some (← writePointer u (.str E.hostname) .promptSpace)
  | .promptSpace => do return some (← writePointer u (.str b!" ") .promptPath)
  | .promptPath =>
    match u.current with
    | none => .error .null
    | some c =>
      match (u.nodes c).path with
      | none => .error .assert  -- USH_ASSERT(in_path != NULL), ush_utils.c:173
      | some p => do return some (← writePointer u (.str (pathLast p)) .promptSuffix)
  | .promptSuffix => do return some (← writePointer u (.str (b!"]$ " ++ E.styleReset)) u.promptNext)
  | _ => .ok none

/-- `ush_read_start`, ush_read_utils.c:86-94. -/
def readStart (u : Ush) : M Ush := do
  let buf ← wr u.inBuf 0 cNul
  return { u with inPos := 0, inBuf := buf, state := .readChar, ansiEsc := 0 }

/-- `ush_read_echo_service`, ush_read_utils.c:27-50. -/
def readEcho (u : Ush) (ch : UInt8) : M Ush := do
  let o ← (if ch = cCr then do
      let o ← wr u.outBuf 0 ch
      let o ← wr o 1 cLf
      wr o 2 cNul
    else if ch = cBs ∨ ch = cDel then do
      let o ← wr u.outBuf 0 cBs
      let o ← wr o 1 cSpace
      let o ← wr o 2 cBs
      wr o 3 cNul
    else do
      let o ← wr u.outBuf 0 ch
      wr o 1 cNul)
  let next := if ch = cCr ∨ ch = cLf then St.parsePrepare else St.readChar
  writePointer { u with outBuf := o } .outBuf next

/-- `ush_read_char_by_escape_state`, ush_read_utils.c:52-84; the flag is the return value `echo`. -/
def readCharByEscape (E : Env) (u : Ush) (ch : UInt8) : M (Ush × Bool) :=
  if u.ansiEsc = 0 then do
    let buf ← wr u.inBuf u.inPos ch
    let p := u.inPos + 1
    let p := if p ≥ E.inSize then 0 else p
    let buf ← wr buf p cNul
    return ({ u with inBuf := buf, inPos := p }, true)
  else if u.ansiEsc = 1 then
    if ch = 0x5B ∨ ch = 0x4F then .ok ({ u with ansiEsc := 2 }, false)
    else .ok ({ u with ansiEsc := 0 }, false)
  else if u.ansiEsc = 2 then .ok ({ u with ansiEsc := 0 }, false)
  else .ok (u, true)

/-- `ush_read_char`, ush_read_char.c:28-75; the flag is the return value.
(`ush_autocomp_start`, ush_autocomp_utils.c:34-39, is inlined.) -/
def readChar (E : Env) (io : Io) (u : Ush) : M (Ush × Bool) :=
  match io.rd with
  | none => .ok (u, false)
  | some ch => do
    let u := u.emit (.inp ch)
    let (u, echo) ← (
      if ch = cEtx then do
        let u ← writePointer u (.str b!"^C") .reset
        pure (u, false)
      else if ch = cBs ∨ ch = cDel then
        if u.inPos > 0 then do
          let buf ← wr u.inBuf (u.inPos - 1) cNul
          pure ({ u with inPos := u.inPos - 1, inBuf := buf }, true)
        else pure (u, false)
      else if ch = cTab then pure (if E.autocomplete then { u with state := .acPrepare } else u, false)
      else if ch = cEsc then pure ({ u with ansiEsc := 1 }, false)
      else readCharByEscape E u ch)
    let u ← (if echo then readEcho u ch else pure u)
    return (u, true)

/-- `ush_read_service`, ush_read.c:3-22; the flag is `*read` (`busy` of the caller, initially `false`). -/
def readService (E : Env) (io : Io) (u : Ush) : M (Option (Ush × Bool)) :=
  match u.state with
  | .readPrepare => do return some (← readStart u, false)
  | .readChar => do return some (← readChar E io u)
  | _ => .ok none

/-- `ush_print_status`, ush.c:97-104. -/
def printStatus (E : Env) (u : Ush) (s : Status) : M Ush :=
  writePointer u (.str (statusString E.tr s)) .reset

/-- `ush_print`, ush.c:106-112. -/
def ushPrint (u : Ush) (p : Ptr) : M Ush := writePointer u p .reset

/-- `ush_print_no_newline`, ush.c:173-179. -/
def ushPrintNoNewline (u : Ush) (p : Ptr) : M Ush := writePointer u p .resetPrompt

/-- `ush_flush`, ush.c:181-186. -/
def ushFlush (u : Ush) : M Ush := writePointer u .outBuf .resetPrompt

/-- `error_format`, ush.c:145 (`sizeof` is one more than the length). -/
def msgFormatError : Str := b!"...format error\r\n"

/-- `error_overflow`, ush.c:146. -/
def msgOverflowError : Str := b!"...overflow error\r\n"

/-- Error handling of `ush_printf`, ush.c:156-167. -/
def printfError (E : Env) (u : Ush) (msg : Str) : M Ush := do
  let len ← strlenAt u.outBuf 0
  if E.outSize - len ≥ msg.length then
    let buf ← storeStr u.outBuf len msg
    let n ← strlenAt buf len
    return { u with outBuf := buf, writeSize := u.writeSize + n }
  else if E.outSize < msg.length + 1 then
    .error .oob  -- `end_idx` wraps around: the write lands before the buffer
  else
    let buf ← storeStr u.outBuf (E.outSize - (msg.length + 1)) msg
    return { u with outBuf := buf, writeSize := E.outSize }

/-- `ush_printf`, ush.c:114-171.  The result of `vsnprintf` is a parameter: the complete formatted text, or
a format error after some output.  `vsnprintf` stores at most `write_size_max - 1` characters and a NUL. -/
def ushPrintf (E : Env) (u : Ush) (f : Fmt) : M Ush := do
  let u ← (if u.writeBuf ≠ .outBuf then do
      let o ← wr u.outBuf 0 cNul
      writePointer { u with outBuf := o } .outBuf .resetPrompt
    else pure { u with state := .writeChar, writeNext := .resetPrompt })
  let idx ← strlenAt u.outBuf 0
  let max := E.outSize - idx
  let out := match f with
    | .text s => s
    | .error s => s
  let buf ← storeStr u.outBuf idx (out.take (max - 1))
  let real ← strlenAt buf idx
  let u := { u with outBuf := buf, writeSize := u.writeSize + real }
  match f with
  | .error _ => printfError E u msgFormatError
  | .text s => if s.length > real then printfError E u msgOverflowError else return u

/-- `ush_process_start`, ush_process.c:29-36. -/
def processStart (u : Ush) (f : FileDesc) : Ush :=
  { u with procFile := some f, state := .processStart }

/-- One library call made by the application.  Calls that return a status record it in the log. -/
def runApi (E : Env) (u : Ush) : Api → M Ush
  | .print p => ushPrint u p
  | .printNoNewline p => ushPrintNoNewline u p
  | .printStatus s => printStatus E u s
  | .printf f => ushPrintf E u f
  | .flush => ushFlush u
  | .reset => ushReset u
  | .mount path node files => do
    let (u, s) ← nodeMount E u path node files
    return u.emit (.ret s)
  | .unmount path => do
    let (u, s) ← nodeUnmount E u path
    return u.emit (.ret s)
  | .setCurrentDir path => do
    let (u, s) ← setCurrentDir E u path
    return u.emit (.ret s)
  | .commandsAdd node files => do
    let (u, s) ← commandsAdd u node files
    return u.emit (.ret s)
  | .commandsRemove node => do
    let (u, s) ← commandsRemove E u node
    return u.emit (.ret s)
  | .processStart f => .ok (processStart u f)
  | .setState s => .ok { u with state := s }
  | .fillOut s => do
    let o ← storeStr u.outBuf 0 s
    return { u with outBuf := o }

/-- The library calls made by one application callback, in order. -/
def runApis (E : Env) : Ush → List Api → M Ush
  | u, [] => .ok u
  | u, a :: as => do
    let u ← runApi E u a
    runApis E u as

end Ush
