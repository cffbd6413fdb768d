import Verif.Model.Core
/-!
# Model of the parser's argument access and of the built-in commands

`ush_parse_utils.c:41-55` and `commands/*.c`.  `argv` is a list of offsets into the input buffer.
-/
namespace Ush

/-- Loop of `ush_parse_get_args`, ush_parse_utils.c:49-52: offsets of the arguments. -/
def getArgsLoop (buf : List UInt8) : Nat → Nat → M (List Nat)
  | 0, _ => .ok []
  | n + 1, ptr => do
    let len ← strlenAt buf ptr
    let rest ← getArgsLoop buf n (ptr + len + 1)
    return ptr :: rest

/-- `ush_parse_get_args`, ush_parse_utils.c:41-55. -/
def getArgs (u : Ush) : M (List Nat) := getArgsLoop u.inBuf u.argsCount 0

/-- The strings `argv[0..argc)` point to. -/
def argStrs (u : Ush) (argv : List Nat) : M (List Str) := argv.mapM (cstrAt u.inBuf)

/-- The array access `argv[i]`. -/
def argAt (argv : List Nat) (i : Nat) : M Nat :=
  match argv[i]? with
  | some o => .ok o
  | none => .error .oob

/-- Upper-case hexadecimal digit. -/
def hexDigit (n : Nat) : UInt8 := if n < 10 then UInt8.ofNat (48 + n) else UInt8.ofNat (55 + n)

/-- Hexadecimal digits of `n`, most significant first (`%lX`). -/
def hexLoop : Nat → Nat → Str → Str
  | 0, _, acc => acc
  | fuel + 1, n, acc =>
    if n < 16 then hexDigit n :: acc else hexLoop fuel (n / 16) (hexDigit (n % 16) :: acc)

/-- `%08lX`. -/
def hex8 (n : Nat) : Str :=
  let d := hexLoop (n + 1) n []
  List.replicate (8 - d.length) 48 ++ d

/-- `%02X` of a byte. -/
def hex2 (b : UInt8) : Str := [hexDigit (b.toNat / 16), hexDigit (b.toNat % 16)]

/-- `"%-16s " USH_SHELL_FONT_COLOR_YELLOW "- "` (the width is `USH_CONFIG_FILENAME_ALIGN_SPACE`). -/
def alignedName (E : Env) (name : Str) : Str :=
  name ++ List.replicate (E.alignSpace - name.length) cSpace ++ b!" " ++ E.colorYellow ++ b!"- "

/-- Call of `f->get_data(self, f, &data)`: `none` if the callback does not set `data` (and returns 0). -/
def callGet (E : Env) (u : Ush) (id : Nat) : Ush × Option (List UInt8) :=
  (u.emit (.getData id), E.userGet id u)

/-- Call of `f->set_data(self, f, data, size)`. -/
def callSet (E : Env) (u : Ush) (id : Nat) (d : List UInt8) : M Ush :=
  runApis E (u.emit (.setData id d)) (E.userSet id d u)

/-! ## cat -/

/-- Argument check loop of `ush_buildin_cmd_cat_callback`, ush_cmd_cat.c:41-51: the error to report. -/
def catCheck (E : Env) (u : Ush) : List Nat → M (Option Status)
  | [] => .ok none
  | o :: os => do
    let name ← cstrAt u.inBuf o
    match ← fileFindByName E u name with
    | none => return some .fileNotFound
    | some f => if f.getData = none then return some .fileNotReadable else catCheck E u os

/-- `ush_buildin_cmd_cat_callback`, ush_cmd_cat.c:32-54. -/
def catCallback (E : Env) (u : Ush) (file : FileDesc) (argv : List Nat) : M Ush :=
  if argv.length < 2 then printStatus E u .cmdWrongArguments
  else do
    match ← catCheck E u argv.tail with
    | some s => printStatus E u s
    | none => return processStart u file

/-- `ush_buildin_cmd_cat_service`, ush_cmd_cat.c:56-101. -/
def catService (E : Env) (u : Ush) : M Ush :=
  match u.state with
  | .processStart => .ok { u with procItem := 1, state := .processService }
  | .processService =>
    if u.procItem ≥ u.argsCount then .ok { u with state := .processFinish }
    else do
      let argv ← getArgs u
      let o ← argAt argv u.procItem
      let name ← cstrAt u.inBuf o
      match ← fileFindByName E u name with
      | none => .error .null
      | some f =>
        match f.getData with
        | none => .error .null
        | some id =>
          match callGet E u id with
          | (_, none) => .error .uninit
          | (u, some d) =>
            let u := writePointerBin u (.data d) d.length u.state
            return { u with procItem := u.procItem + 1 }
  | .processFinish => .ok { u with state := .resetPrompt }
  | _ => .ok u

/-! ## cd -/

/-- `ush_buildin_cmd_cd_callback`, ush_cmd_cd.c:31-45. -/
def cdCallback (E : Env) (u : Ush) (argv : List Nat) : M Ush :=
  if argv.length ≠ 2 then printStatus E u .cmdWrongArguments
  else do
    let o ← argAt argv 1
    let path ← cstrAt u.inBuf o
    let (u, s) ← setCurrentDir E u path
    if s ≠ .ok then printStatus E u s else return u

/-! ## pwd -/

/-- `ush_buildin_cmd_pwd_callback`, ush_cmd_pwd.c:31-42. -/
def pwdCallback (E : Env) (u : Ush) (argv : List Nat) : M Ush :=
  if argv.length ≠ 1 then printStatus E u .cmdWrongArguments
  else
    match u.current with
    | none => .error .null
    | some c =>
      match (u.nodes c).path with
      | none => .error .assert  -- USH_ASSERT(buf != NULL), ush.c:109
      | some p => ushPrint u (.str p)

/-! ## echo -/

/-- Decoding step of `echo`, ush_cmd_echo.c:61-66: new state, offset of the data and its size. -/
def echoDecode (u : Ush) (argv : List Nat) : M (Ush × Nat × Nat) := do
  let o ← argAt argv 1
  let max ← strlenAt u.inBuf o
  let (buf, size) ← decodeInPlace u.inBuf o max
  return ({ u with inBuf := buf }, o, size)

/-- `ush_buildin_cmd_echo_callback`, ush_cmd_echo.c:35-83. -/
def echoCallback (E : Env) (u : Ush) (argv : List Nat) : M Ush :=
  match argv.length with
  | 4 => do
    let o2 ← argAt argv 2
    let s2 ← cstrAt u.inBuf o2
    if s2 ≠ b!">" then printStatus E u .cmdWrongArguments
    else
      let o3 ← argAt argv 3
      let s3 ← cstrAt u.inBuf o3
      match ← fileFindByName E u s3 with
      | none => printStatus E u .fileNotFound
      | some f =>
        match f.setData with
        | none => printStatus E u .fileNotWritable
        | some id => do
          let (u, o, size) ← echoDecode u argv
          callSet E u id ((u.inBuf.drop o).take size)
  | 2 => do
    let (u, o, _) ← echoDecode u argv
    ushPrint u (.inBuf o)
  | 1 => .ok { u with state := .reset }
  | _ => printStatus E u .cmdWrongArguments

/-! ## help -/

/-- `ush_buildin_cmd_help_callback`, ush_cmd_help.c:34-62. -/
def helpCallback (E : Env) (u : Ush) (file : FileDesc) (argv : List Nat) : M Ush :=
  match argv.length with
  | 1 => .ok (processStart { u with procNode := u.commands, procIndex := 0, procItem := 0 } file)
  | 2 => do
    let o ← argAt argv 1
    let name ← cstrAt u.inBuf o
    match ← fileFindByName E u name with
    | none => printStatus E u .fileNotFound
    | some f =>
      match f.help with
      | none => printStatus E u .fileNoHelp
      | some h => ushPrintNoNewline u (.str h)
  | _ => printStatus E u .cmdWrongArguments

/-- `ush_buildin_cmd_help_service`, ush_cmd_help.c:64-123. -/
def helpService (E : Env) (u : Ush) : M Ush :=
  match u.state with
  | .processStart =>
    match u.procNode with
    | none => .ok { u with state := .resetPrompt }
    | some n =>
      if u.procItem ≥ (u.nodes n).files.length then
        .ok { u with procIndex := 0, procItem := 0, procNode := (u.nodes n).next }
      else
        match (u.nodes n).files[u.procItem]? with
        | none => .error .oob
        | some f =>
          match u.procIndex with
          | 0 =>
            match f.description with
            | some _ => do
              let o ← storeStr u.outBuf 0 (alignedName E f.name)
              writePointer { u with outBuf := o, procIndex := 1 } .outBuf u.state
            | none => do
              let o ← storeStr u.outBuf 0 f.name
              writePointer { u with outBuf := o, procIndex := 2 } .outBuf u.state
          | 1 =>
            match f.description with
            | some d => writePointer { u with procIndex := 2 } (.str d) u.state
            | none => .error .assert
          | 2 =>
            let text := if f.description ≠ none then E.styleReset ++ crlf else crlf
            writePointer { u with procIndex := 0, procItem := u.procItem + 1 } (.str text) u.state
          | _ => .error .assert
  | _ => .ok u

/-! ## ls -/

/-- `ush_buildin_cmd_ls_callback`, ush_cmd_ls.c:34-59. -/
def lsCallback (E : Env) (u : Ush) (file : FileDesc) (argv : List Nat) : M Ush :=
  match argv.length with
  | 1 => .ok (processStart { u with procNode := u.current } file)
  | 2 => do
    let o ← argAt argv 1
    let path ← cstrAt u.inBuf o
    let abs ← getAbsolutePath E u path
    match ← getByPath E u abs with
    | none => printStatus E { u with procNode := none } .nodeNotFound
    | some n => return processStart { u with procNode := some n } file
  | _ => printStatus E u .cmdWrongArguments

/-- `"d---- " USH_SHELL_FONT_COLOR_GREEN <name> USH_SHELL_FONT_STYLE_RESET "\r\n"`. -/
def lsDots (E : Env) (name : Str) : Str := b!"d---- " ++ E.colorGreen ++ name ++ E.styleReset ++ crlf

/-- `"-%c%c%c%c "`, ush_cmd_ls.c:128-132. -/
def lsFlags (f : FileDesc) : Str :=
  b!"-" ++ (if f.getData ≠ none then b!"r" else b!"-") ++ (if f.setData ≠ none then b!"w" else b!"-") ++
  (if f.exec ≠ none then b!"x" else b!"-") ++ (if f.help ≠ none then b!"h" else b!"-") ++ b!" "

/-- `ush_buildin_cmd_ls_service`, ush_cmd_ls.c:61-171. -/
def lsService (E : Env) (u : Ush) : M Ush :=
  match u.state with
  | .processStart =>
    match u.procNode with
    | none => .error .null
    | some n => do
      let text := if (u.nodes n).parent ≠ none then lsDots E b!"." ++ lsDots E b!".." else lsDots E b!"."
      let u ← writePointer u (.str text) .processService
      return { u with procChild := (u.nodes n).children, procIndex := 0 }
  | .processService =>
    match u.procChild with
    | none => .ok { u with procIndex := 0, procItem := 0, state := .processFinish }
    | some c =>
      match u.procIndex with
      | 0 => writePointer { u with procIndex := 1 } (.str (b!"d---- " ++ E.colorGreen)) u.state
      | 1 =>
        match (u.nodes c).path with
        | none => .error .assert
        | some p => writePointer { u with procIndex := 2 } (.str (pathLast p)) u.state
      | 2 => writePointer { u with procIndex := 3 } (.str (b!"/" ++ E.styleReset ++ crlf)) u.state
      | 3 => .ok { u with procIndex := 0, procChild := (u.nodes c).next }
      | _ => .error .assert
  | .processFinish =>
    match u.procNode with
    | none => .error .null
    | some n =>
      if u.procItem ≥ (u.nodes n).files.length then .ok { u with state := .resetPrompt }
      else
        match (u.nodes n).files[u.procItem]? with
        | none => .error .oob
        | some f =>
          match u.procIndex with
          | 0 => do
            let o ← storeStr u.outBuf 0 (lsFlags f)
            writePointer { u with outBuf := o, procIndex := 1 } .outBuf u.state
          | 1 =>
            match f.description with
            | some _ => do
              let o ← storeStr u.outBuf 0 (alignedName E f.name)
              writePointer { u with outBuf := o, procIndex := 2 } .outBuf u.state
            | none => do
              let o ← storeStr u.outBuf 0 f.name
              writePointer { u with outBuf := o, procIndex := 3 } .outBuf u.state
          | 2 =>
            match f.description with
            | some d => writePointer { u with procIndex := 3 } (.str d) u.state
            | none => .error .assert
          | 3 =>
            let text := if f.description ≠ none then E.styleReset ++ crlf else crlf
            writePointer { u with procIndex := 0, procItem := u.procItem + 1 } (.str text) u.state
          | _ => .error .assert
  | _ => .ok u

/-! ## xxd -/

/-- `ush_buildin_cmd_xxd_callback`, ush_cmd_xxd.c:36-58 (a getter that does not set `process_data` leaves
its old value). -/
def xxdCallback (E : Env) (u : Ush) (file : FileDesc) (argv : List Nat) : M Ush :=
  if argv.length ≠ 2 then printStatus E u .cmdWrongArguments
  else do
    let o ← argAt argv 1
    let name ← cstrAt u.inBuf o
    match ← fileFindByName E u name with
    | none => printStatus E u .fileNotFound
    | some f =>
      match f.getData with
      | none => printStatus E u .fileNotReadable
      | some id =>
        match callGet E u id with
        | (u, none) => return processStart { u with procDataSize := 0 } file
        | (u, some d) => return processStart { u with procData := some d, procDataSize := d.length } file

/-- The access `self->process_data[i]`. -/
def procDataAt (u : Ush) (i : Nat) : M UInt8 :=
  match u.procData with
  | none => .error .null
  | some d => rd d i

/-- `sprintf(&buf[strlen(buf)], ...)` / `strcat(buf, ...)`. -/
def appendStr (buf : List UInt8) (s : Str) : M (List UInt8) := do
  let n ← strlenAt buf 0
  storeStr buf n s

/-- Loop of the hex part, ush_cmd_xxd.c:86-94; `cols` counts down, `off` is `process_index_item + i`. -/
def xxdHexLoop (u : Ush) : Nat → Nat → List UInt8 → M (List UInt8)
  | 0, _, buf => .ok buf
  | cols + 1, off, buf => do
    let buf ← (if off < u.procDataSize then do
        let b ← procDataAt u off
        appendStr buf (hex2 b ++ b!" ")
      else appendStr buf b!"   ")
    xxdHexLoop u cols (off + 1) buf

/-- Loop of the text part, ush_cmd_xxd.c:102-115; returns also the new `process_index_item`. -/
def xxdTextLoop (u : Ush) : Nat → Nat → List UInt8 → M (List UInt8 × Nat)
  | 0, off, buf => .ok (buf, off)
  | cols + 1, off, buf => do
    let buf ← (if off < u.procDataSize then do
        let b ← procDataAt u off
        if isPrintable b then appendStr buf [b] else appendStr buf b!"."
      else appendStr buf b!" ")
    xxdTextLoop u cols (off + 1) buf

/-- `ush_buildin_cmd_xxd_service`, ush_cmd_xxd.c:60-145. -/
def xxdService (E : Env) (u : Ush) : M Ush :=
  match u.state with
  | .processStart => .ok { u with procIndex := 0, procItem := 0, state := .processService }
  | .processService =>
    match u.procIndex with
    | 0 => do
      let o ← storeStr u.outBuf 0 (hex8 u.procItem ++ b!": ")
      writePointer { u with outBuf := o, procIndex := 1 } .outBuf u.state
    | 1 => do
      let o ← wr u.outBuf 0 cNul
      let o ← xxdHexLoop u E.xxdColumns u.procItem o
      let o ← appendStr o b!" "
      writePointer { u with outBuf := o, procIndex := 2 } .outBuf u.state
    | 2 => do
      let o ← wr u.outBuf 0 cNul
      let (o, item) ← xxdTextLoop u E.xxdColumns u.procItem o
      writePointer { u with outBuf := o, procIndex := 3, procItem := item } .outBuf u.state
    | 3 =>
      if u.procItem ≥ u.procDataSize then writePointer u (.str crlf) .processFinish
      else writePointer { u with procIndex := 0 } (.str crlf) u.state
    | _ => .error .assert
  | .processFinish => .ok { u with state := .resetPrompt }
  | _ => .ok u

/-! ## Table of built-in commands and call of function pointers -/

/-- `g_ush_buildin_commands`, ush_cmd.c:62-125, with all commands enabled. -/
def builtinCommands : List FileDesc := [
  { name := b!"help", description := some b!"list available commands",
    help := some b!"usage: help [file]\r\n",
    exec := some (.builtin .help), process := some (.builtin .help) },
  { name := b!"ls", description := some b!"list directory content",
    help := some b!"usage: ls [path]\r\n",
    exec := some (.builtin .ls), process := some (.builtin .ls) },
  { name := b!"cd", description := some b!"change current directory",
    help := some b!"usage: cd <path>\r\n",
    exec := some (.builtin .cd) },
  { name := b!"pwd", description := some b!"print current directory",
    help := some b!"usage: pwd\r\n",
    exec := some (.builtin .pwd) },
  { name := b!"cat", description := some b!"print files content",
    help := some b!"usage: cat <files...>\r\n",
    exec := some (.builtin .cat), process := some (.builtin .cat) },
  { name := b!"xxd", description := some b!"dump file hex content",
    help := some b!"usage: xxd <file>\r\n",
    exec := some (.builtin .xxd), process := some (.builtin .xxd) },
  { name := b!"echo", description := some b!"print string to file",
    help := some (b!"usage: echo <string> > <file>\r\n" ++ b!"       echo [string]\r\n" ++
      b!"       * can be ascii-hex encoded string with \\xNN format.\r\n"),
    exec := some (.builtin .echo) } ]

/-- Is the entry of the table compiled in?  The `#if`s of ush_cmd.c:62-125. -/
def Env.has (E : Env) (f : FileDesc) : Bool :=
  match f.exec with
  | some (.builtin b) => E.cmdOn b
  | _ => true

/-- `g_ush_buildin_commands` with the commands that are not enabled left out. -/
def builtinTable (E : Env) : List FileDesc := builtinCommands.filter E.has

/-- `file->exec(self, file, argc, argv)`, ush_parse.c:60; `strs` are the strings of `argv`. -/
def callExec (E : Env) (u : Ush) (file : FileDesc) (cb : Cb) (argv : List Nat) (strs : List Str) : M Ush :=
  let u := u.emit (.exec cb strs)
  match cb with
  | .builtin .help => helpCallback E u file argv
  | .builtin .ls => lsCallback E u file argv
  | .builtin .cd => cdCallback E u argv
  | .builtin .pwd => pwdCallback E u argv
  | .builtin .cat => catCallback E u file argv
  | .builtin .xxd => xxdCallback E u file argv
  | .builtin .echo => echoCallback E u argv
  | .user id => runApis E u (E.userExec id strs u)

/-- `ush_process_service`, ush_process.c:38-62.  Only help, ls, cat and xxd have a library service
function; `cd`, `pwd`, `echo` have none, so a descriptor naming one is ill-formed. -/
def processService (E : Env) (u : Ush) : M (Option Ush) :=
  let call : M (Option Ush) :=
    match u.procFile with
    | none => .error .assert
    | some f =>
      match f.process with
      | none => .ok (some { u with state := .reset })
      | some (.builtin .help) => do return some (← helpService E u)
      | some (.builtin .ls) => do return some (← lsService E u)
      | some (.builtin .cat) => do return some (← catService E u)
      | some (.builtin .xxd) => do return some (← xxdService E u)
      | some (.builtin _) => .error .null
      | some (.user id) => do return some (← runApis E (u.emit (.proc id)) (E.userProc id u))
  match u.state with
  | .processStart => call
  | .processService => call
  | .processFinish => call
  | _ => .ok none

end Ush
