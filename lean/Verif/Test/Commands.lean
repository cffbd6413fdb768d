import Verif.Test.Machine
/-!
# Unit tests of the built-in commands and of TAB completion replayed on the model

Evaluated by `#guard`, in the manner of `Verif/Test/Machine.lean`; the sources are
tests/unit_tests/test_unit_cmd*.c and test_unit_autocomp*.c.

As there, the cases of each file are represented, not every single assertion.  Two more differences.  In the tests of
completion the word to complete is a separate string; in the model, as in the running program, it lies in the input
buffer, so `in_pos` and the contents of the buffer are chosen to agree with it (the values of the tests of the optimised
continuation are adapted for this).  The test of `cd` only checks that the status of `ush_node_set_current_dir` is
printed; here two of these statuses occur.
-/
namespace Ush.Test
open Ush

/-- A root directory with the files `fs`, working directory `/`, and an input buffer with the arguments `argv`. -/
def cmdShell (fs : List FileDesc) (argv : List Str) : Ush :=
  { root := some 1, current := some 1, argsCount := argv.length,
    inBuf := buf 256 (argv.flatMap (· ++ [0])), outBuf := buf 256 [],
    nodes := fun i => if i = 1 then { files := fs, path := some b!"/" } else {} }

/-- Run a callback on the arguments. -/
def withArgs (fs : List FileDesc) (argv : List Str) (f : Ush → List Nat → M Ush) : M Ush :=
  let u := cmdShell fs argv
  getArgs u >>= f u

def cmdEnv : Env :=
  { unitEnv with
    inSize := 256, outSize := 256,
    userGet := fun id _ => if id = 1 then some b!"file_data" else if id = 2 then some b!"file_data_abc" else none }

def self : FileDesc := { name := b!"self" }

def wrongArgs (m : M Ush) : Bool := yes m fun u => wrote u b!"error: wrong arguments" .reset && u.log = []

/-- `n` arguments `x`. -/
def xs (n : Nat) : List Str := List.replicate n b!"x"

/-! ## test_unit_cmd.c -/

#guard builtinCommands.map (·.name) = [b!"help", b!"ls", b!"cd", b!"pwd", b!"cat", b!"xxd", b!"echo"]
#guard builtinCommands.all fun f => f.description ≠ none && f.help ≠ none && f.getData = none && f.setData = none
#guard builtinCommands.map (·.exec) =
  [Builtin.help, .ls, .cd, .pwd, .cat, .xxd, .echo].map fun b => some (Cb.builtin b)
#guard builtinCommands.map (·.process) =
  [some (.builtin .help), some (.builtin .ls), none, none, some (.builtin .cat), some (.builtin .xxd), none]

/-! ## test_unit_cmd_cat.c -/

#guard (List.range 2).all fun n => wrongArgs (withArgs [] (xs n) fun u a => catCallback cmdEnv u self a)

def catRun (fs : List FileDesc) (argv : List Str) : M Ush := withArgs fs argv fun u a => catCallback cmdEnv u self a

def readable (nm : Str) (id : Nat) : FileDesc := { name := nm, getData := some id }

#guard yes (catRun [] [b!"cat", b!"test"]) fun u => wrote u b!"error: file not found" .reset && u.log = []
#guard yes (catRun [readable b!"test" 1] [b!"cat", b!"test", b!"test2"]) fun u =>
  wrote u b!"error: file not found" .reset && u.log = []
#guard yes (catRun [{ name := b!"test" }] [b!"cat", b!"test"]) fun u =>
  wrote u b!"error: file not readable" .reset && u.log = []
#guard yes (catRun [readable b!"test" 1, { name := b!"test2" }] [b!"cat", b!"test", b!"test2"]) fun u =>
  wrote u b!"error: file not readable" .reset && u.log = []
#guard yes (catRun [readable b!"test" 1, readable b!"test2" 2] [b!"cat", b!"test", b!"test2"]) fun u =>
  u.state = .processStart && u.procFile = some self && u.log = []

#guard allStates.all fun s => yes (catService cmdEnv { state := s, procItem := 10, argsCount := 10 }) fun u =>
  u.log = [] && u.writeBuf = .null && u.argsCount = 10 &&
  match s with
  | .processStart => u.procItem = 1 && u.state = .processService
  | .processService => u.state = .processFinish
  | .processFinish => u.state = .resetPrompt
  | _ => u.state = s && u.procItem = 10

/-- State before a call of the cat service for argument number `i`. -/
def catShell (argv : List Str) (i : Nat) : Ush :=
  { cmdShell [readable b!"test" 1, readable b!"test2" 2] argv with state := .processService, procItem := i }

#guard yes (catService cmdEnv (catShell [b!"test"] 0)) fun u =>
  u.writeBuf = .data b!"file_data" && u.writeSize = 9 && u.writeNext = .processService && u.procItem = 1 &&
  u.log = [.getData 1]
#guard yes (catService cmdEnv (catShell [b!"test", b!"test2"] 1)) fun u =>
  u.writeBuf = .data b!"file_data_abc" && u.writeSize = 13 && u.writeNext = .processService && u.procItem = 2 &&
  u.log = [.getData 2]

/-! ## test_unit_cmd_xxd.c -/

def xxdRun (fs : List FileDesc) (argv : List Str) : M Ush := withArgs fs argv fun u a => xxdCallback cmdEnv u self a

#guard (List.range 10).all fun n => n = 2 || wrongArgs (xxdRun [] (xs n))
#guard yes (xxdRun [] [b!"xxd", b!"test"]) fun u => wrote u b!"error: file not found" .reset && u.log = []
#guard yes (xxdRun [{ name := b!"test2" }] [b!"xxd", b!"test2"]) fun u =>
  wrote u b!"error: file not readable" .reset && u.log = []
#guard yes (xxdRun [readable b!"test3" 2] [b!"xxd", b!"test3"]) fun u =>
  u.state = .processStart && u.procFile = some self && u.procData = some b!"file_data_abc" && u.procDataSize = 13 &&
  u.log = [.getData 2]

#guard yes (xxdService cmdEnv { state := .processStart, procIndex := 10, procItem := 20 }) fun u =>
  u.procIndex = 0 && u.procItem = 0 && u.state = .processService
#guard yes (xxdService cmdEnv { state := .processFinish, procIndex := 10, procItem := 20 }) fun u =>
  u.procIndex = 10 && u.procItem = 20 && u.state = .resetPrompt
#guard allStates.all fun s =>
  s = .processStart || s = .processService || s = .processFinish ||
  yes (xxdService cmdEnv { state := s }) fun u => u.state = s && u.writeBuf = .null

def xxdShell (i item : Nat) (d : List UInt8) : Ush :=
  { state := .processService, procIndex := i, procItem := item, procData := some d, procDataSize := d.length,
    outBuf := buf 256 [] }

#guard yes (xxdService cmdEnv (xxdShell 0 0x11223344 [])) fun u => wrote u b!"11223344: " .processService
#guard yes (xxdService cmdEnv (xxdShell 0 0x00AAFF11 [])) fun u => wrote u b!"00AAFF11: " .processService
#guard yes (xxdService cmdEnv (xxdShell 1 0 [0x00, 0x11, 0x22, 0x33, 0x44, 0x55, 0x66, 0x77])) fun u =>
  wrote u b!"00 11 22 33 44 55 66 77  " .processService
#guard yes (xxdService cmdEnv (xxdShell 1 0 [0xFF, 0xAA, 0x11])) fun u =>
  wrote u b!"FF AA 11                 " .processService
#guard yes (xxdService cmdEnv (xxdShell 2 0 b!"abcd")) fun u => wrote u b!"abcd    " .processService
#guard yes (xxdService cmdEnv (xxdShell 2 0 ([0xFF] ++ b!" cd" ++ [0, 0x13] ++ b!" 1"))) fun u =>
  wrote u b!". cd.. 1" .processService
#guard yes (xxdService cmdEnv (xxdShell 3 10 (List.replicate 10 0))) fun u =>
  wrote u b!"\r\n" .processFinish && u.procIndex = 3
#guard yes (xxdService cmdEnv (xxdShell 3 9 (List.replicate 10 0))) fun u =>
  wrote u b!"\r\n" .processService && u.procIndex = 0
#guard [4, 5, 6, 7, 8, 9].all fun i => faults (xxdService cmdEnv (xxdShell i 0 [])) .assert

/-! ## test_unit_cmd_ls.c -/

def lsRun (argv : List Str) : M Ush :=
  withArgs [] argv fun u a =>
    lsCallback cmdEnv { u with procNode := some 8, current := some 11, root := some 1, nodes := treeNodes } self a

#guard (List.range 10).all fun n => n = 1 || n = 2 || wrongArgs (lsRun (xs n))
#guard yes (lsRun [b!"ls"]) fun u => u.procNode = some 11 && u.procFile = some self && u.state = .processStart
#guard yes (lsRun [b!"ls", b!"abc"]) fun u => u.procNode = none && wrote u b!"error: directory not found" .reset
#guard yes (lsRun [b!"ls", b!"2"]) fun u => u.procNode = some 112 && u.procFile = some self && u.state = .processStart

def lsEsc (code : Str) : Str := [27] ++ code

#guard yes (lsService cmdEnv { state := .processStart, procNode := some 1, procIndex := 10, nodes := treeNodes }) fun u =>
  wrote u (b!"d---- " ++ lsEsc b!"[32m" ++ b!"." ++ lsEsc b!"[0m" ++ b!"\r\n") .processService &&
  u.procChild = some 11 && u.procIndex = 0
#guard yes (lsService cmdEnv { state := .processStart, procNode := some 11, procIndex := 10, nodes := treeNodes }) fun u =>
  wrote u (b!"d---- " ++ lsEsc b!"[32m" ++ b!"." ++ lsEsc b!"[0m" ++ b!"\r\n" ++
    b!"d---- " ++ lsEsc b!"[32m" ++ b!".." ++ lsEsc b!"[0m" ++ b!"\r\n") .processService &&
  u.procChild = some 111 && u.procIndex = 0

#guard (List.range 10).all fun i =>
  yes (lsService cmdEnv { state := .processService, procIndex := i, procItem := 10 }) fun u =>
    u.procIndex = 0 && u.procItem = 0 && u.state = .processFinish && u.writeBuf = .null
#guard (List.range 10).all fun i =>
  let r := lsService cmdEnv {
    state := .processService, procIndex := i, procItem := 10, procChild := some 1,
    nodes := fun _ => { path := some b!"/test/abc", next := some 7 } }
  match i with
  | 0 => yes r fun u => wrote u (b!"d---- " ++ lsEsc b!"[32m") .processService && u.procItem = 10 && u.procIndex = 1
  | 1 => yes r fun u => wrote u b!"abc" .processService && u.procItem = 10 && u.procIndex = 2
  | 2 => yes r fun u =>
      wrote u (b!"/" ++ lsEsc b!"[0m" ++ b!"\r\n") .processService && u.procItem = 10 && u.procIndex = 3
  | 3 => yes r fun u => u.writeBuf = .null && u.procItem = 10 && u.procIndex = 0 && u.procChild = some 7
  | _ => faults r .assert

def lsFiles (f : FileDesc → FileDesc) : List FileDesc :=
  [f { name := b!"test", description := some b!"test_desc" }, { name := b!"qwerty" }]

def lsFinish (f : FileDesc → FileDesc) (i item : Nat) : M Ush :=
  lsService cmdEnv {
    state := .processFinish, procNode := some 1, procIndex := i, procItem := item, outBuf := buf 256 [],
    nodes := fun _ => { files := lsFiles f } }

#guard (List.range 10).all fun i => yes (lsFinish id i 2) fun u =>
  u.procItem = 2 && u.procIndex = i && u.state = .resetPrompt && u.writeBuf = .null
#guard [((fun f => { f with getData := some 1, setData := some 1, exec := some (.user 1), help := some [] }), b!"-rwxh "),
    ((fun f => { f with setData := some 1, exec := some (.user 1), help := some [] }), b!"--wxh "),
    ((fun f => { f with exec := some (.user 1), help := some [] }), b!"---xh "),
    ((fun f => { f with help := some [] }), b!"----h "),
    ((fun f => f : FileDesc → FileDesc), b!"----- ")].all fun (f, text) =>
  yes (lsFinish f 0 0) fun u => wrote u text .processFinish && u.writeBuf = .outBuf && u.procItem = 0 && u.procIndex = 1
#guard yes (lsFinish id 1 0) fun u =>
  wrote u (b!"test             " ++ lsEsc b!"[33m" ++ b!"- ") .processFinish && u.writeBuf = .outBuf &&
  u.procItem = 0 && u.procIndex = 2
#guard yes (lsFinish id 1 1) fun u =>
  wrote u b!"qwerty" .processFinish && u.writeBuf = .outBuf && u.procItem = 1 && u.procIndex = 3
#guard yes (lsFinish id 2 0) fun u => wrote u b!"test_desc" .processFinish && u.procItem = 0 && u.procIndex = 3
#guard yes (lsFinish id 3 0) fun u =>
  wrote u (lsEsc b!"[0m" ++ b!"\r\n") .processFinish && u.procItem = 1 && u.procIndex = 0
#guard yes (lsFinish id 3 1) fun u => wrote u b!"\r\n" .processFinish && u.procItem = 2 && u.procIndex = 0
#guard [4, 5, 6, 7, 8, 9].all fun i => faults (lsFinish id i 0) .assert
#guard allStates.all fun s =>
  s = .processStart || s = .processService || s = .processFinish ||
  yes (lsService cmdEnv { state := s }) fun u => u.state = s && u.writeBuf = .null

/-! ## test_unit_cmd_help.c -/

def helpRun (fs : List FileDesc) (argv : List Str) : M Ush :=
  withArgs fs argv fun u a => helpCallback cmdEnv { u with procIndex := 1, procItem := 1 } self a

#guard [0, 3, 4].all fun n => wrongArgs (helpRun [] (xs n))
#guard yes (withArgs [] [b!"help"] fun u a => helpCallback cmdEnv { u with procIndex := 1, procItem := 1, commands := some 6 } self a)
  fun u => u.procIndex = 0 && u.procItem = 0 && u.procNode = some 6 && u.procFile = some self && u.state = .processStart
#guard yes (helpRun [] [b!"help", b!"test"]) fun u => wrote u b!"error: file not found" .reset
#guard yes (helpRun [{ name := b!"test1" }] [b!"help", b!"test1"]) fun u => wrote u b!"error: no help available" .reset
#guard yes (helpRun [{ name := b!"test2", help := some b!"help" }] [b!"help", b!"test2"]) fun u =>
  wrote u b!"help" .resetPrompt

#guard allStates.all fun s =>
  s = .processStart || yes (helpService cmdEnv { state := s, procItem := 10, argsCount := 10 }) fun u =>
    u.state = s && u.procItem = 10 && u.argsCount = 10 && u.writeBuf = .null
#guard yes (helpService cmdEnv { state := .processStart, procItem := 10, procIndex := 20 }) fun u =>
  u.procItem = 10 && u.procIndex = 20 && u.state = .resetPrompt
#guard yes (helpService cmdEnv {
    state := .processStart, procItem := 10, procIndex := 20, procNode := some 1,
    nodes := fun _ => { files := List.replicate 9 self, next := some 7 } }) fun u =>
  u.procNode = some 7 && u.procItem = 0 && u.procIndex = 0 && u.state = .processStart

def helpItem (i item : Nat) : M Ush :=
  helpService cmdEnv {
    state := .processStart, procNode := some 1, procIndex := i, procItem := item, outBuf := buf 256 [],
    nodes := fun _ =>
      { files := [{ name := b!"test" }, { name := b!"abcd", description := some b!"desc" }], next := some 7 } }

#guard yes (helpItem 0 0) fun u => wrote u b!"test" .processStart && u.writeBuf = .outBuf &&
  u.procNode = some 1 && u.procItem = 0 && u.procIndex = 2
#guard yes (helpItem 0 1) fun u => wrote u (b!"abcd             " ++ lsEsc b!"[33m" ++ b!"- ") .processStart &&
  u.writeBuf = .outBuf && u.procNode = some 1 && u.procItem = 1 && u.procIndex = 1
#guard yes (helpItem 1 1) fun u =>
  wrote u b!"desc" .processStart && u.procNode = some 1 && u.procItem = 1 && u.procIndex = 2
#guard yes (helpItem 2 0) fun u =>
  wrote u b!"\r\n" .processStart && u.procNode = some 1 && u.procItem = 1 && u.procIndex = 0
#guard yes (helpItem 2 1) fun u =>
  wrote u (lsEsc b!"[0m" ++ b!"\r\n") .processStart && u.procNode = some 1 && u.procItem = 2 && u.procIndex = 0
#guard [3, 4, 5, 6, 7, 8, 9].all fun i => faults (helpItem i 0) .assert

/-! ## test_unit_cmd_echo.c -/

def echoRun (fs : List FileDesc) (argv : List Str) : M Ush := withArgs fs argv fun u a => echoCallback cmdEnv u a

#guard [0, 3, 5].all fun n => wrongArgs (echoRun [] (xs n))
#guard allBytes.all fun b => b = 62 || b = 0 || wrongArgs (echoRun [] [b!"echo", b!"a", [b], b!"f"])
#guard yes (echoRun [] [b!"echo", b!"a", b!">", b!"test"]) fun u => wrote u b!"error: file not found" .reset
#guard yes (echoRun [{ name := b!"test" }] [b!"echo", b!"a", b!">", b!"test"]) fun u =>
  wrote u b!"error: file not writable" .reset && u.log = []
#guard yes (echoRun [] [b!"echo"]) fun u => u.state = .reset && u.writeBuf = .null
#guard yes (echoRun [] [b!"echo", b!"test"]) fun u => wrote u b!"test" .reset
#guard yes (echoRun [] [b!"echo", b!"abc\\x00test"]) fun u => wrote u b!"abc" .reset
#guard yes (echoRun [{ name := b!"test_file", setData := some 3 }] [b!"echo", b!"test2", b!">", b!"test_file"]) fun u =>
  u.writeBuf = .null && u.log = [.setData 3 b!"test2"]
#guard yes (echoRun [{ name := b!"test_file", setData := some 3 }] [b!"echo", b!"a\\xA1\\x00b", b!">", b!"test_file"])
  fun u => u.writeBuf = .null && u.log = [.setData 3 [97, 0xA1, 0, 98]]

/-! ## test_unit_cmd_cd.c -/

def cdRun (argv : List Str) : M Ush :=
  withArgs [] argv fun u a => cdCallback cmdEnv { u with current := some 11, nodes := treeNodes } a

#guard (List.range 6).all fun n => n = 2 || wrongArgs (cdRun (xs n))
#guard yes (cdRun [b!"cd", b!"2/1"]) fun u => u.current = some 1121 && u.writeBuf = .null
#guard yes (cdRun [b!"cd", b!"test"]) fun u => u.current = some 11 && wrote u b!"error: directory not found" .reset

/-! ## test_unit_cmd_pwd.c -/

#guard (List.range 6).all fun n => n = 1 || wrongArgs (withArgs [] (xs n) fun u a => pwdCallback cmdEnv u a)
#guard yes (withArgs [] [b!"pwd"] fun u a =>
    pwdCallback cmdEnv { u with current := some 5, nodes := fun _ => { path := some b!"test" } } a)
  fun u => wrote u b!"test" .reset

/-! ## test_unit_autocomp_utils.c -/

#guard
  let u := acPrepareCandidates
    { state := .readChar, commands := some 5, acCount := 10, procStage := 10, procIndex := 10, procItem := 10 }
  u.state = .readChar && u.procNode = some 5 && u.acCount = 0 && u.procStage = 0 && u.procIndex = 0 && u.procItem = 0

/-- Set-up of the tests of `ush_autocomp_optimize_continue`.  In the model the word to complete lies in the input
buffer, so the buffer has more than the 4 bytes of the tests, and `acInput` says where the word begins. -/
def optShell (b : List UInt8) (inp pos suffix : Nat) : Ush :=
  { commands := some 5, acCount := 10, acPrevCount := 1, acInput := inp, acCand := some b!"test", inPos := pos,
    acSuffixLen := suffix, inBuf := b }

#guard yes (acOptimizeContinue { cmdEnv with inSize := 8 } (optShell (buf 8 b!"test") 0 4 0)) fun u =>
  u.state = .acRecallSuffix && u.acCount = 10 && u.acPrevCount = 10
#guard yes (acOptimizeContinue { cmdEnv with inSize := 8 } (optShell (buf 8 b!"tes") 0 3 5)) fun u =>
  u.state = .acCandOptimise && u.procNode = some 5 && u.acCount = 0 && u.acPrevCount = 10 && u.procStage = 0 &&
  u.procIndex = 0 && u.procItem = 0 && u.inPos = 4 && u.inBuf = buf 8 b!"test" && u.acSuffixLen = 6
-- the wrap at the end of the buffer
#guard yes (acOptimizeContinue { cmdEnv with inSize := 4 } (optShell b!"tes\x00" 0 3 2)) fun u =>
  u.state = .acCandOptimise && u.procNode = some 5 && u.acCount = 0 && u.inPos = 0 && u.inBuf = b!"\x00est" &&
  u.acSuffixLen = 3

/-- Tests of `ush_autocomp_check_for_finish`: working directory `/3`, the word is `w`. -/
def finishWord (stage : Nat) (s : St) (w : Str) : M Ush :=
  acCheckForFinish cmdEnv { tree with state := s, current := some 13, procStage := stage, procIndex := 10, procItem := 20, inBuf := buf 256 w }

#guard yes (finishWord 0 .acCandCount []) fun u =>
  u.procNode = some 13 && u.procIndex = 0 && u.procItem = 0 && u.procStage = 1
#guard yes (finishWord 1 .acCandCount b!"/1/2/x") fun u =>
  u.procNode = some 1121 && u.procIndex = 0 && u.procItem = 0 && u.procStage = 2
#guard yes (finishWord 1 .acCandCount b!"") fun u =>
  u.procNode = some 131 && u.procIndex = 0 && u.procItem = 0 && u.procStage = 2
#guard yes (finishWord 1 .acCandCount b!"/no/x") fun u =>
  u.procNode = some 131 && u.procIndex = 0 && u.procItem = 0 && u.procStage = 2
#guard allStates.all fun s => yes (finishWord 2 s []) fun u => u.acPrevState = s && u.state = .acCandFinish
#guard [3, 4, 5, 6, 7, 8, 9].all fun i => faults (finishWord i .acCandCount []) .assert

def nextShell (stage item : Nat) : M (Ush × Bool) :=
  acCheckForNext {
    procStage := stage, procItem := item, procNode := some 1,
    nodes := fun _ => { files := oneFile, next := some 7 } } 1

#guard [0, 1].all fun i => yes (nextShell i 0) fun (u, r) => !r && u.procItem = 0 && u.procNode = some 1
#guard yes (nextShell 0 1) fun (u, r) => r && u.procItem = 0 && u.procNode = some 7
#guard yes (nextShell 1 1) fun (u, r) => r && u.procItem = 0 && u.procNode = none
#guard yes (nextShell 2 0) fun (_, r) => !r
#guard [3, 4, 5, 6, 7, 8, 9].all fun i => faults (nextShell i 0) .assert

def prepShell (stage item : Nat) (w : Str) : M (Ush × Option FileDesc × Bool) :=
  acFilePrepare {
    procStage := stage, procItem := item, procIndex := 10, procNode := some 1, inBuf := buf 16 w,
    nodes := fun _ =>
      { files := [{ name := b!"test" }, { name := b!"abcd" }], path := some b!"/abc/def", next := some 7 } } 1

#guard [0, 1].all fun i => [b!"test", b!"t", b!""].all fun w => yes (prepShell i 0 w) fun (u, f, r) =>
  !r && f = some { name := b!"test" } && u.procItem = 0 && u.procIndex = 10
#guard [0, 1].all fun i => yes (prepShell i 0 b!"tezt") fun (u, f, r) =>
  r && f = some { name := b!"test" } && u.procItem = 1 && u.procIndex = 0
#guard [0, 1].all fun i => [b!"abcd", b!"a", b!""].all fun w => yes (prepShell i 1 w) fun (u, f, r) =>
  !r && f = some { name := b!"abcd" } && u.procItem = 1 && u.procIndex = 10
#guard [0, 1].all fun i => yes (prepShell i 1 b!"abcde") fun (u, f, r) =>
  r && f = some { name := b!"abcd" } && u.procItem = 2 && u.procIndex = 0
#guard [b!"def", b!"d", b!""].all fun w => yes (prepShell 2 0 w) fun (u, _, r) =>
  !r && u.procIndex = 10 && u.procNode = some 1 && u.acName = some b!"def"
#guard yes (prepShell 2 0 b!"defg") fun (u, _, r) => r && u.procIndex = 0 && u.procNode = some 7
#guard [3, 4, 5, 6, 7, 8, 9].all fun i => faults (prepShell i 0 []) .assert

def indexShell (i stage item count : Nat) (s : St) : M Ush :=
  acFileIndex {
    procIndex := i, procStage := stage, procItem := item, state := s, acCount := count, acName := some b!"test",
    procNode := some 1, nodes := fun _ => { files := oneFile, next := some 7 } } 1 (some { name := b!"testabcd" })

#guard [0, 1, 2].all fun stage => allStates.all fun s =>
  let name := if stage = 2 then b!"test" else b!"testabcd"
  yes (indexShell 0 stage 0 12 s) fun u =>
    u.procIndex = 1 && u.acCount = 13 && u.acCand = some name &&
    (if s = .acCandPrint then wrote u name s else u.state = s && u.writeBuf = .null)
#guard [3, 4, 5, 6, 7, 8, 9].all fun stage => faults (indexShell 0 stage 0 0 .acCandCount) .assert
#guard [0, 1, 2].all fun stage => allStates.all fun s => yes (indexShell 1 stage 0 12 s) fun u =>
  u.procIndex = 2 && u.acCount = 12 &&
  (if s = .acCandPrint then wrote u b!"\r\n" s else u.state = s && u.writeBuf = .null)
#guard [0, 1].all fun stage => yes (indexShell 2 stage 20 0 .acCandCount) fun u =>
  u.procItem = 21 && u.procIndex = 0 && u.procNode = some 1
#guard yes (indexShell 2 2 0 0 .acCandCount) fun u => u.procIndex = 0 && u.procNode = some 7
#guard [3, 4, 5, 6, 7, 8, 9].all fun stage => faults (indexShell 2 stage 0 0 .acCandCount) .assert
#guard [3, 4, 5, 6, 7, 8, 9].all fun i => faults (indexShell i 0 0 0 .acCandCount) .assert

/-! ## test_unit_autocomp_state.c -/

#guard yes (acRecallSuffix { inBuf := buf 256 b!"test", acSuffixLen := 3 }) fun u => wrote u b!"est" .readChar
#guard yes (acRecallSuffix { inBuf := buf 256 b!"test", acSuffixLen := 0, commands := some 5 }) fun u =>
  wrote u b!"\r\n" .acCandPrint && u.procNode = some 5
#guard yes (acStatePrepare { inBuf := buf 256 b!"test abc qwerty   " }) fun u =>
  cstrAt u.inBuf u.acInput = .ok b!"" && u.state = .acCandStart
#guard yes (acStatePrepare { inBuf := buf 256 b!"test abc qwerty" }) fun u =>
  cstrAt u.inBuf u.acInput = .ok b!"qwerty" && u.state = .acCandStart
#guard
  let u := acCandidatesStart { acPrevCount := 10, acSuffixLen := 20, commands := some 5 }
  u.acPrevCount = 0 && u.acSuffixLen = 0 && u.state = .acCandCount && u.procNode = some 5

#guard yes (acCandidatesFinish cmdEnv { acPrevState := .acCandPrint }) fun u => u.state = .acPrompt
#guard yes (acCandidatesFinish cmdEnv { acPrevState := .acCandCount, acCount := 0 }) fun u => u.state = .readChar
#guard yes (acCandidatesFinish cmdEnv { acPrevState := .acCandCount, acCount := 1, acInput := 2, acCand := some b!"abcd", inBuf := buf 256 b!"test" }) fun u =>
  wrote u b!"cd" .readChar && u.inPos = 6 && u.inBuf = buf 256 b!"teabcd"
-- two or more: `ush_autocomp_optimize_continue` with the suffix length 0
#guard [2, 3, 4, 5, 6, 7, 8, 9].all fun n =>
  yes (acCandidatesFinish cmdEnv { acPrevState := .acCandCount, acCount := n, acSuffixLen := 10, inPos := 4, acCand := some b!"tests", inBuf := buf 256 b!"test" }) fun u =>
    u.state = .acCandOptimise && u.acSuffixLen = 1 && u.acPrevCount = n && u.inBuf = buf 256 b!"tests"
#guard yes (acCandidatesFinish cmdEnv { acPrevState := .acCandOptimise, acCand := some b!"t", inBuf := buf 256 [] }) fun u =>
  u.state = .acCandOptimise && u.acSuffixLen = 1
#guard yes (acCandidatesFinish cmdEnv { acPrevState := .acCandOptimise, inPos := 2, acPrevCount := 1, acSuffixLen := 2, inBuf := buf 256 [255, 255] }) fun u =>
  u.acSuffixLen = 1 && u.inPos = 1 && u.inBuf.take 2 = [255, 0] && u.state = .acRecallSuffix
#guard yes (acCandidatesFinish cmdEnv { acPrevState := .acCandOptimise, inPos := 0, acPrevCount := 1, acSuffixLen := 1, inBuf := buf 256 [255, 255] }) fun u =>
  u.acSuffixLen = 0 && u.inPos = 0 && u.inBuf.take 2 = [0, 255] && u.state = .acRecallSuffix
#guard allStates.all fun s =>
  s = .acCandPrint || s = .acCandCount || s = .acCandOptimise ||
  faults (acCandidatesFinish cmdEnv { acPrevState := s }) .assert

/-- The four ways through `ush_autocomp_state_candidates_process`. -/
def walk (node : Option NodeId) (item : Nat) (w : Str) : M Ush :=
  acCandidatesProcess cmdEnv {
    state := .acCandCount, procNode := node, procItem := item, current := some 2, inBuf := buf 256 w,
    nodes := fun _ => { files := [{ name := b!"test" }], next := some 7 } }

#guard yes (walk none 0 []) fun u => u.procStage = 1 && u.procNode = some 2
#guard yes (walk (some 1) 1 []) fun u => u.procStage = 0 && u.procNode = some 7 && u.acCount = 0
#guard yes (walk (some 1) 0 b!"x") fun u => u.procNode = some 1 && u.procItem = 1 && u.acCount = 0
#guard yes (walk (some 1) 0 b!"t") fun u => u.procNode = some 1 && u.procItem = 0 && u.procIndex = 1 && u.acCount = 1

/-! ## test_unit_autocomp.c -/

#guard allStates.all fun s =>
  let r := autocompService cmdEnv { serviceShell s with inBuf := buf 256 b!"ls a" }
  match s with
  | .acPrepare => taken r fun u => u.state = .acCandStart && u.acInput = 3
  | .acCandStart => taken r fun u => u.state = .acCandCount
  | .acCandCount | .acCandOptimise | .acCandPrint => taken r fun u => u.state = s && u.procStage = 1
  | .acCandFinish => taken r fun u => u.state = .acPrompt
  | .acPromptPrepare => taken r fun u => wrote u b!"\r\n" .acPrompt
  | .acPrompt => taken r fun u => u.state = .promptPrefix && u.promptNext = .acRecall
  | .acRecall => taken r fun u => wrote u b!"ls a" .readChar
  | .acRecallSuffix => taken r fun u => wrote u b!"\r\n" .acCandPrint
  | _ => refused r

end Ush.Test
