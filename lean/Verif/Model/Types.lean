import Verif.Model.Utils
/-!
# Model of `src/inc/ush_types.h`: shell object, node objects, file descriptors, environment
-/
namespace Ush

/-- `ush_status_t`, ush_types.h:45-60. -/
inductive Status
  | ok | nodeNotFound | nodeWithChilds | nodeWithoutParent | nodeAlreadyMounted
  | cmdSyntaxError | cmdWrongArguments | fileNotExecutable | fileNotWritable
  | fileNotReadable | fileNoHelp | fileNotFound | fileReadOnly
  deriving DecidableEq, Repr

/-- `ush_state_t`, ush_types.h:63-101. -/
inductive St
  | reset | resetPrompt
  | promptPrefix | promptHost | promptSpace | promptPath | promptSuffix
  | readPrepare | readChar
  | parsePrepare | parseSearchArg | parseQuoteArg | parseStandardArg
  | writeChar
  | processStart | processService | processFinish
  | acPrepare | acCandStart | acCandCount | acCandOptimise | acCandPrint | acCandFinish
  | acPromptPrepare | acPrompt | acRecall | acRecallSuffix
  deriving DecidableEq, Repr

/-- The built-in commands, commands/ush_cmd.c:62-125. -/
inductive Builtin
  | help | ls | cd | pwd | cat | xxd | echo
  deriving DecidableEq, Repr

/-- Function pointer of type `ush_file_execute_callback` (or the process service): one of the library's own
functions, or a function of the application identified by a number. -/
inductive Cb
  | builtin (b : Builtin)
  | user (id : Nat)
  deriving DecidableEq, Repr

/-- `struct ush_file_descriptor`, ush_types.h:165-174. -/
structure FileDesc where
  name : Str
  description : Option Str := none
  help : Option Str := none
  exec : Option Cb := none
  getData : Option Nat := none
  setData : Option Nat := none
  process : Option Cb := none
  deriving DecidableEq, Repr

/-- Identifies a `struct ush_node_object`.  Id 0 is `self->buildin_commands`. -/
abbrev NodeId := Nat

/-- `struct ush_node_object`, ush_types.h:184-192 (`files` is `file_list[0..file_list_size)`). -/
structure Node where
  files : List FileDesc := []
  path : Option Str := none
  parent : Option NodeId := none
  children : Option NodeId := none
  next : Option NodeId := none
  deriving DecidableEq, Repr

/-- A `char *`/`uint8_t *` the shell writes from.  `str s` points to the constant bytes `s` followed by
NUL, `data d` to the bytes `d` (not terminated), `inBuf o` to `&input_buffer[o]`, `outBuf` to
`output_buffer`. -/
inductive Ptr
  | null
  | str (s : Str)
  | data (d : List UInt8)
  | inBuf (off : Nat)
  | outBuf
  deriving DecidableEq, Repr

/-- Observable events, in the order in which they happen. -/
inductive Event
  | inp (b : UInt8)                              -- io->read delivered a byte
  | out (b : UInt8)                              -- io->write accepted a byte
  | hook (argv : List Str)                       -- desc->exec called
  | exec (cb : Cb) (argv : List Str)             -- file->exec called
  | getData (id : Nat)                           -- file->get_data called
  | setData (id : Nat) (d : List UInt8)          -- file->set_data called
  | proc (id : Nat)                              -- application process service called
  | ret (s : Status)                             -- an API call returned a status
  deriving DecidableEq, Repr

/-- `struct ush_object`, ush_types.h:260-304, together with the memory it works on (`inBuf`, `outBuf`:
`desc->input_buffer`, `desc->output_buffer`; `nodes`: all node objects) and the log of observable events.
`acInput` (`autocomp_input`) is an offset into the input buffer. -/
structure Ush where
  state : St := .reset
  writeNext : St := .reset
  promptNext : St := .reset
  writeBuf : Ptr := .null
  writeSize : Nat := 0
  writePos : Nat := 0
  ansiEsc : Nat := 0
  inPos : Nat := 0
  outPos : Nat := 0
  argsCount : Nat := 0
  escapeFlag : Bool := false
  commands : Option NodeId := none
  root : Option NodeId := none
  current : Option NodeId := none
  procNode : Option NodeId := none
  procChild : Option NodeId := none
  procFile : Option FileDesc := none
  procIndex : Nat := 0
  procItem : Nat := 0
  procData : Option (List UInt8) := none
  procDataSize : Nat := 0
  procStage : Nat := 0
  acPrevState : St := .reset
  acInput : Nat := 0
  acCand : Option Str := none
  acName : Option Str := none
  acCount : Nat := 0
  acPrevCount : Nat := 0
  acSuffixLen : Nat := 0
  inBuf : List UInt8 := []
  outBuf : List UInt8 := []
  nodes : NodeId → Node := fun _ => {}
  log : List Event := []

/-- Text handed to `vsnprintf` by `ush_printf`: the fully formatted text, or a format error after the given
partial output. -/
inductive Fmt
  | text (s : Str)
  | error (partialOut : Str)
  deriving DecidableEq, Repr

/-- Library functions an application can call (from outside or from its callbacks).
`processStart` is `ush_process_start`, `setState` the assignment `self->state = ...` a user process service
makes, `fillOut` stands for the application writing a string into `desc->output_buffer`. -/
inductive Api
  | print (p : Ptr)
  | printNoNewline (p : Ptr)
  | printStatus (s : Status)
  | printf (f : Fmt)
  | flush
  | reset
  | mount (path : Str) (node : NodeId) (files : List FileDesc)
  | unmount (path : Str)
  | setCurrentDir (path : Str)
  | commandsAdd (node : NodeId) (files : List FileDesc)
  | commandsRemove (node : NodeId)
  | processStart (f : FileDesc)
  | setState (s : St)
  | fillOut (s : Str)

/-- Translated texts, config/posix/ush_config.h:51-64. -/
structure Translation where
  ok : Str := b!"ok"
  error : Str := b!"error"
  directoryNotFound : Str := b!"directory not found"
  nestedDirectoriesExist : Str := b!"nested directories exist"
  cannotFindParentNode : Str := b!"cannot find parent node"
  directoryAlreadyMounted : Str := b!"directory already mounted"
  syntaxError : Str := b!"syntax error"
  wrongArguments : Str := b!"wrong arguments"
  fileNotExecutable : Str := b!"file not executable"
  fileNotWritable : Str := b!"file not writable"
  fileNotReadable : Str := b!"file not readable"
  noHelpAvailable : Str := b!"no help available"
  fileNotFound : Str := b!"file not found"
  readOnlyFile : Str := b!"read only file"

/-- Everything that does not change while the shell runs: `struct ush_descriptor` (ush_types.h:241-251),
the configuration (`ush_config.h`, `ush_shell.h`), and the behaviour of the application's callbacks as
functions of the shell state including the log.  `nodeCount` is the number of node objects in the
program.  `autocomplete`, `commandsOn` and `cmdOn` are the switches `USH_CONFIG_ENABLE_FEATURE_AUTOCOMPLETE`,
`USH_CONFIG_ENABLE_FEATURE_COMMANDS` and `USH_CONFIG_ENABLE_COMMAND_*` (config/posix/ush_config.h:39-48). -/
structure Env where
  inSize : Nat
  outSize : Nat
  pathMax : Nat
  hostname : Str
  alignSpace : Nat := 16
  xxdColumns : Nat := 8
  styleReset : Str := [27] ++ b!"[0m"
  colorGreen : Str := [27] ++ b!"[32m"
  colorYellow : Str := [27] ++ b!"[33m"
  colorMagenta : Str := [27] ++ b!"[35m"
  tr : Translation := {}
  nodeCount : Nat
  autocomplete : Bool := true
  commandsOn : Bool := true
  cmdOn : Builtin → Bool := fun _ => true
  hook : Option (List Str → Ush → List Api) := none
  userExec : Nat → List Str → Ush → List Api := fun _ _ _ => []
  userProc : Nat → Ush → List Api := fun _ _ => []
  userGet : Nat → Ush → Option (List UInt8) := fun _ _ => none
  userSet : Nat → List UInt8 → Ush → List Api := fun _ _ _ => []

/-- Result of the I/O callbacks during one service call: what `io->read` would deliver (`none`: returns 0)
and whether `io->write` would accept a byte. -/
structure Io where
  rd : Option UInt8 := none
  wr : Bool := true
  deriving DecidableEq, Repr

/-- `ush_utils_get_status_string`, ush_utils.c:223-259. -/
def statusString (t : Translation) : Status → Str
  | .ok => t.ok
  | .nodeNotFound => t.error ++ b!": " ++ t.directoryNotFound
  | .nodeWithChilds => t.error ++ b!": " ++ t.nestedDirectoriesExist
  | .nodeWithoutParent => t.error ++ b!": " ++ t.cannotFindParentNode
  | .nodeAlreadyMounted => t.error ++ b!": " ++ t.directoryAlreadyMounted
  | .cmdSyntaxError => t.error ++ b!": " ++ t.syntaxError
  | .cmdWrongArguments => t.error ++ b!": " ++ t.wrongArguments
  | .fileNotExecutable => t.error ++ b!": " ++ t.fileNotExecutable
  | .fileNotWritable => t.error ++ b!": " ++ t.fileNotWritable
  | .fileNotReadable => t.error ++ b!": " ++ t.fileNotReadable
  | .fileNoHelp => t.error ++ b!": " ++ t.noHelpAvailable
  | .fileNotFound => t.error ++ b!": " ++ t.fileNotFound
  | .fileReadOnly => t.error ++ b!": " ++ t.readOnlyFile

/-- Append an event to the log (ghost state). -/
def Ush.emit (u : Ush) (e : Event) : Ush := { u with log := u.log ++ [e] }

/-- Read `p[i]`. -/
def ptrRead (u : Ush) (p : Ptr) (i : Nat) : M UInt8 :=
  match p with
  | .null => .error .null
  | .str s => rd (s ++ [cNul]) i
  | .data d => rd d i
  | .inBuf off => rd u.inBuf (off + i)
  | .outBuf => rd u.outBuf i

/-- The C string at `p`. -/
def ptrStr (u : Ush) (p : Ptr) : M Str :=
  match p with
  | .null => .error .null
  | .str s => cstrAt (s ++ [cNul]) 0
  | .data d => cstrAt d 0
  | .inBuf off => cstrAt u.inBuf off
  | .outBuf => cstrAt u.outBuf 0

/-- `n`-th node object with one field updated: assignment through a node pointer. -/
def setNode (nodes : NodeId → Node) (id : NodeId) (n : Node) : NodeId → Node :=
  fun i => if i = id then n else nodes i

end Ush
