import Verif.Model.Service
/-!
# Unit tests of the state machine replayed on the model

Evaluated by `#guard`; tests of the fidelity of the model, not proofs.  The sources are the files of
tests/unit_tests named at each section.  Those tests replace the callees of the tested function by mocks; here the real
callees run, on a state in which they give the answer that the mock gave.  A mock that counts a failed assertion
corresponds to the outcome `Fault.assert`.

The cases of each file are represented, not every single assertion: the tests count calls of the mocks, here the effect
of the call is compared instead, and repetitions over many values are thinned out.

Not replayed, because the real callee never gives the answer of the mock: unmounting a node that is found by its path
while its parent is not, or is not in the list of its parent; mounting `/` below a parent; looking up a file of a
directory that the given parent does not contain.  Also not replayed: the parser called in a state in which it is never
called (it asserts there), and the count of failed assertions in `ush_init` (the model stops at the first one).
-/
namespace Ush.Test
open Ush

/-! ## Vocabulary of the tests -/

/-- The call succeeds and the result satisfies `p`. -/
def yes {α : Type} (m : M α) (p : α → Bool) : Bool :=
  match m with
  | .ok a => p a
  | .error _ => false

/-- The call ends in the fault `f`. -/
def faults {α : Type} (m : M α) (f : Fault) : Bool :=
  match m with
  | .ok _ => false
  | .error g => g = f

/-- The service function returns `true` and the new state satisfies `p`. -/
def taken {α : Type} (m : M (Option α)) (p : α → Bool) : Bool :=
  yes m fun r => match r with
    | some a => p a
    | none => false

/-- The service function returns `false`. -/
def refused {α : Type} (m : M (Option α)) : Bool := yes m fun r => r.isNone

/-- `ush_write_pointer` has been called with `text` and the state `next`. -/
def wrote (u : Ush) (text : Str) (next : St) : Bool :=
  u.state = .writeChar && u.writeNext = next && u.writePos = 0 && u.writeSize = text.length &&
  yes (ptrStr u u.writeBuf) (· = text)

/-- All values of `ush_state_t`. -/
def allStates : List St :=
  [.reset, .resetPrompt, .promptPrefix, .promptHost, .promptSpace, .promptPath, .promptSuffix, .readPrepare, .readChar,
   .parsePrepare, .parseSearchArg, .parseQuoteArg, .parseStandardArg, .writeChar, .processStart, .processService,
   .processFinish, .acPrepare, .acCandStart, .acCandCount, .acCandOptimise, .acCandPrint, .acCandFinish,
   .acPromptPrepare, .acPrompt, .acRecall, .acRecallSuffix]

/-- All bytes. -/
def allBytes : List UInt8 := (List.range 256).map UInt8.ofNat

/-- A buffer of `n` bytes that begins with `s`, the rest zero. -/
def buf (n : Nat) (s : Str) : List UInt8 := s ++ List.replicate (n - s.length) 0

/-- Configuration of the unit tests (tests/unit_tests/ush_config.h: styles on, align 16, 8 columns). -/
def unitEnv : Env := { inSize := 128, outSize := 128, pathMax := 256, hostname := b!"test_hostname", nodeCount := 20 }

/-! ## test_unit_parse_utils.c -/

#guard allStates.all fun s =>
  (parseStart { inPos := 10, outPos := 5, argsCount := 2, escapeFlag := true, state := s }).state = .parseSearchArg

def args (s : Str) (n : Nat) : M (List Str) :=
  let u : Ush := { inBuf := buf 128 s, argsCount := n }
  getArgs u >>= argStrs u

#guard (List.range 10).all fun n => yes (getArgs { inBuf := buf 128 [], argsCount := n }) (·.length = n)
#guard args b!"test\x00" 1 = .ok [b!"test"]
#guard args b!"test\x00abc\x00" 2 = .ok [b!"test", b!"abc"]
#guard args b!"test\x00abc\x00qwerty\x00" 3 = .ok [b!"test", b!"abc", b!"qwerty"]
#guard args b!"test\x00abc\x00qwerty\x00xyz\x00" 4 = .ok [b!"test", b!"abc", b!"qwerty", b!"xyz"]
#guard args b!"test abc\x00qwerty xyz\x00" 2 = .ok [b!"test abc", b!"qwerty xyz"]

/-- One call of `ush_parse_char_standard` in the set-up of the tests; the check gets the state after it and the byte
that was at position 1. -/
def parse1 (s : St) (esc : Bool) (ch : UInt8) (p : Ush → UInt8 → Bool) : Bool :=
  yes (parseCharStandard { argsCount := 1, outPos := 1, state := s, escapeFlag := esc, inBuf := buf 128 [0, ~~~ch] } ch)
    fun u => p u (~~~ch)

/-- State, argument count, escape flag, output position and the byte at position 1. -/
def after (u : Ush) (s : St) (args : Nat) (esc : Bool) (pos : Nat) (b : UInt8) : Bool :=
  u.state = s && u.argsCount = args && u.escapeFlag = esc && u.outPos = pos && u.inBuf[1]? = some b

#guard allBytes.all fun ch => parse1 .parseSearchArg false ch fun u old =>
  if ch = cSpace then after u .parseSearchArg 1 false 1 old
  else if ch = cQuote then after u .parseQuoteArg 2 false 1 old
  else if ch = cBackslash then after u .parseStandardArg 2 true 1 old
  else after u .parseStandardArg 2 false 2 ch
#guard allBytes.all fun ch => parse1 .parseQuoteArg false ch fun u old =>
  if ch = cQuote then after u .parseStandardArg 1 false 1 old
  else if ch = cBackslash then after u .parseQuoteArg 1 true 1 old
  else after u .parseQuoteArg 1 false 2 ch
#guard allBytes.all fun ch => parse1 .parseQuoteArg true ch fun u _ =>
  if ch = cX then after u .parseQuoteArg 1 false 3 cBackslash && u.inBuf[2]? = some ch
  else after u .parseQuoteArg 1 false 2 ch
#guard allBytes.all fun ch => parse1 .parseStandardArg false ch fun u old =>
  if ch = cSpace then after u .parseSearchArg 1 false 2 0
  else if ch = cQuote then after u .parseQuoteArg 1 false 1 old
  else if ch = cBackslash then after u .parseStandardArg 1 true 1 old
  else after u .parseStandardArg 1 false 2 ch
#guard allBytes.all fun ch => parse1 .parseStandardArg true ch fun u _ =>
  if ch = cX then after u .parseStandardArg 1 false 3 cBackslash && u.inBuf[2]? = some ch
  else after u .parseStandardArg 1 false 2 ch
#guard allStates.all fun s =>
  let r := parseCharStandard { state := s, inBuf := buf 128 [] } 0
  if s = .parseSearchArg ∨ s = .parseQuoteArg ∨ s = .parseStandardArg then yes r fun _ => true else faults r .assert

/-! ## test_unit_parse_char.c -/

#guard allStates.all fun s => [cCr, cLf].all fun ch =>
  yes (parseChar unitEnv { state := s, inBuf := buf 128 [ch] }) fun u =>
    u.state = .resetPrompt && u.inBuf[0]? = some 0 && u.inPos = 1 && u.outPos = 1
#guard allStates.all fun s =>
  yes (parseChar unitEnv { state := s, inPos := 1, outPos := 1, inBuf := buf 128 [84, cCr] }) fun u =>
    u.state = .resetPrompt && u.inBuf.take 2 = [84, 0] && u.inPos = 2 && u.outPos = 2
#guard allStates.all fun s =>
  yes (parseChar unitEnv { state := s, inPos := 1, outPos := 0, inBuf := buf 128 [84, cCr] }) fun u =>
    u.state = .resetPrompt && u.inBuf.take 2 = [0, cCr] && u.inPos = 2 && u.outPos = 1
-- every other byte goes to `ush_parse_char_standard`
#guard [St.parseSearchArg, .parseQuoteArg, .parseStandardArg].all fun s => allBytes.all fun ch =>
  ch = cCr || ch = cLf ||
  yes (parseChar unitEnv { state := s, inBuf := buf 128 [ch] }) fun u =>
    yes (parseCharStandard { state := s, inPos := 1, inBuf := buf 128 [ch] } ch) fun v =>
      u.state = v.state && u.inBuf = v.inBuf && u.inPos = v.inPos && u.outPos = v.outPos &&
      u.argsCount = v.argsCount && u.escapeFlag = v.escapeFlag

/-! ## test_unit_parse.c -/

/-- The shell of the tests of `ush_parse_finish`: one command with the file `f`, the line `test` split up. -/
def finishShell (f : List FileDesc) (line : Str) (n : Nat) : Ush :=
  { state := .resetPrompt, argsCount := n, inBuf := buf 128 line, commands := some 1, root := some 2, current := some 2,
    nodes := fun i => if i = 1 then { files := f } else if i = 2 then { path := some b!"/" } else {} }

def hookEnv : Env := { unitEnv with hook := some fun _ _ => [] }

#guard yes (parseFinish unitEnv (finishShell [] [] 0)) fun u => u.state = .resetPrompt && u.log = []
#guard yes (parseFinish unitEnv (finishShell [] b!"test" 1)) fun u =>
  wrote u b!"error: syntax error" .reset && u.log = []
#guard yes (parseFinish hookEnv (finishShell [] b!"test" 1)) fun u =>
  wrote u b!"error: syntax error" .reset && u.log = [.hook [b!"test"]]
#guard yes (parseFinish hookEnv (finishShell [{ name := b!"test" }] b!"test" 1)) fun u =>
  wrote u b!"error: file not executable" .reset && u.log = [.hook [b!"test"]]
#guard yes (parseFinish hookEnv (finishShell [{ name := b!"test", exec := some (.user 7) }] b!"test" 1)) fun u =>
  u.state = .resetPrompt && u.log = [.hook [b!"test"], .exec (.user 7) [b!"test"]]

#guard allStates.all fun s =>
  let r := parseService unitEnv { state := s, inPos := 3, inBuf := buf 128 b!"abcdef" }
  if s = .parsePrepare then taken r fun u => u.inPos = 0
  else if s = .parseSearchArg ∨ s = .parseQuoteArg ∨ s = .parseStandardArg then taken r fun u => u.inPos = 4
  else refused r

/-! ## test_unit_process.c -/

def procEnv : Env := unitEnv

#guard allStates.all fun s => [b!"one", b!"two"].all fun nm =>
  let u := processStart { state := s } { name := nm }
  u.procFile = some { name := nm } && u.state = .processStart && u.log = []
#guard allStates.all fun s =>
  let r := processService procEnv { state := s, procFile := some { name := [], process := some (.user 5) } }
  if s = .processStart ∨ s = .processService ∨ s = .processFinish then taken r fun u => u.state = s && u.log = [.proc 5]
  else refused r
#guard allStates.all fun s =>
  let r := processService procEnv { state := s, procFile := some { name := [] } }
  if s = .processStart ∨ s = .processService ∨ s = .processFinish then taken r fun u => u.state = .reset && u.log = []
  else refused r

/-! ## test_unit_prompt.c -/

#guard allStates.all fun s => let u := promptStart { state := s } s; u.state = .promptPrefix && u.promptNext = s
#guard allStates.all fun s => allStates.all fun next =>
  let r := promptService unitEnv
    { state := s, promptNext := next, current := some 1, nodes := fun _ => { path := some b!"/dir/test_node" } }
  match s with
  | .promptPrefix => taken r fun u => wrote u ([27] ++ b!"[35m[") .promptHost
  | .promptHost => taken r fun u => wrote u b!"test_hostname" .promptSpace
  | .promptSpace => taken r fun u => wrote u b!" " .promptPath
  | .promptPath => taken r fun u => wrote u b!"test_node" .promptSuffix
  | .promptSuffix => taken r fun u => wrote u (b!"]$ " ++ [27] ++ b!"[0m") next
  | _ => refused r

/-! ## test_unit_reset.c -/

#guard yes (ushReset { root := some 4 }) fun u => u.current = some 4 && wrote u b!"uShell 0.1.0\r\n" .resetPrompt
#guard allStates.all fun s =>
  let r := resetService { state := s }
  match s with
  | .reset => taken r fun u => wrote u b!"\r\n" .resetPrompt
  | .resetPrompt => taken r fun u => u.state = .promptPrefix && u.promptNext = .readPrepare
  | _ => refused r

/-! ## test_unit_read_utils.c -/

#guard allBytes.all fun ch => yes (readEcho { outBuf := buf 128 [] } ch) fun u =>
  u.writeBuf = .outBuf && u.state = .writeChar &&
  u.writeNext = (if ch = cCr ∨ ch = cLf then .parsePrepare else .readChar) &&
  (if ch = cCr then u.outBuf.take 3 = [ch, cLf, 0]
   else if ch = cBs ∨ ch = cDel then u.outBuf.take 4 = [cBs, cSpace, cBs, 0]
   else u.outBuf.take 2 = [ch, 0])
#guard yes (readStart { inPos := 10, ansiEsc := 5, inBuf := List.replicate 128 255 }) fun u =>
  u.inBuf[0]? = some 0 && u.inPos = 0 && u.ansiEsc = 0 && u.state = .readChar
#guard allBytes.all fun ch =>
  yes (readCharByEscape unitEnv { inBuf := buf 128 [] } ch) fun (u, echo) =>
    echo && u.inBuf.take 2 = [ch, 0] && u.inPos = 1 && u.ansiEsc = 0
#guard allBytes.all fun ch =>
  yes (readCharByEscape unitEnv { inPos := 127, inBuf := List.replicate 128 255 } ch) fun (u, echo) =>
    echo && u.inBuf[127]? = some ch && u.inBuf[0]? = some 0 && u.inPos = 0
#guard allBytes.all fun ch =>
  yes (readCharByEscape unitEnv { ansiEsc := 1, inBuf := buf 128 [] } ch) fun (u, echo) =>
    !echo && u.inPos = 0 && u.ansiEsc = (if ch = 0x5B ∨ ch = 0x4F then 2 else 0)
#guard allBytes.all fun ch =>
  yes (readCharByEscape unitEnv { ansiEsc := 2, inBuf := buf 128 [] } ch) fun (u, echo) =>
    !echo && u.inPos = 0 && u.ansiEsc = 0

/-! ## test_unit_read_char.c -/

#guard yes (readChar unitEnv {} { state := .readChar }) fun (u, r) => !r && u.state = .readChar && u.log = []
-- the line is empty
#guard allBytes.all fun ch =>
  yes (readChar unitEnv { rd := some ch } { state := .readChar, inBuf := buf 128 [], outBuf := buf 128 [] })
    fun (u, r) => r && (
      if ch = cEtx then wrote u b!"^C" .reset
      else if ch = cBs ∨ ch = cDel then u.state = .readChar && u.inPos = 0
      else if ch = cTab then u.state = .acPrepare && u.inPos = 0
      else if ch = cEsc then u.state = .readChar && u.ansiEsc = 1 && u.inPos = 0
      else u.state = .writeChar && u.inPos = 1 && u.inBuf[0]? = some ch)
-- the line holds four characters
#guard allBytes.all fun ch =>
  yes (readChar unitEnv { rd := some ch }
    { state := .readChar, inPos := 4, inBuf := buf 128 b!"test", outBuf := buf 128 [] })
    fun (u, r) => r && (
      if ch = cEtx then wrote u b!"^C" .reset && u.inPos = 4
      else if ch = cBs ∨ ch = cDel then wrote u [cBs, cSpace, cBs] .readChar && u.inPos = 3 && u.inBuf[3]? = some 0
      else if ch = cTab then u.state = .acPrepare && u.inPos = 4
      else if ch = cEsc then u.state = .readChar && u.ansiEsc = 1 && u.inPos = 4
      else u.state = .writeChar && u.inPos = 5 && u.inBuf[4]? = some ch)

/-! ## test_unit_read.c -/

#guard allStates.all fun s =>
  let r := readService unitEnv { rd := some 65 } { state := s, inPos := 7, inBuf := buf 128 [], outBuf := buf 128 [] }
  match s with
  | .readPrepare => taken r fun (u, busy) => u.inPos = 0 && u.log = [] && !busy
  | .readChar => taken r fun (u, busy) => u.inPos = 8 && u.log = [.inp 65] && busy
  | _ => refused r
#guard taken (readService unitEnv {} { state := .readChar }) fun (_, busy) => !busy

/-! ## test_unit_write_utils.c -/

#guard allStates.all fun s => [(b!"1234", 4), (b!"12345678", 8)].all fun (d, n) =>
  let u := writePointerBin { state := s, writePos := 99 } (.data d) n s
  u.writePos = 0 && u.writeSize = n && u.writeBuf = .data d && u.state = .writeChar && u.writeNext = s && u.log = []
#guard allStates.all fun s =>
  yes (writeChar {} { writeBuf := .str b!"test_message", writePos := 1, writeSize := 1, writeNext := s }) fun u =>
    u.state = s && u.writePos = 1 && u.writeSize = 1 && u.log = []

def write4 (ok : Bool) : M Ush :=
  (List.range 4).foldlM (fun u _ => writeChar { wr := ok } u) { writeBuf := .str b!"test_message", writeSize := 4 }

#guard yes (write4 true) fun u =>
  u.state = .reset && u.writePos = 4 && u.writeSize = 4 && u.log = (b!"test").map Event.out
#guard yes (write4 false) fun u => u.state = .reset && u.writePos = 0 && u.writeSize = 4 && u.log = []

/-! ## test_unit_write.c -/

#guard allStates.all fun s => [b!"test_string", b!"ush"].all fun t =>
  yes (writePointer {} (.str t) s) fun u => wrote u t s
#guard allStates.all fun s =>
  let r := writeService {} { state := s, writeBuf := .str b!"test_message", writeSize := 12 }
  if s = .writeChar then taken r fun u => u.log = [.out 116] else refused r

/-! ## test_unit_node.c -/

/-- The tree of the tests: 1 is `/`, the others have the digits of their path as number (with a 1 in front). -/
def treeNodes : NodeId → Node
  | 1 => { path := some b!"/", children := some 11 }
  | 11 => { path := some b!"/1", parent := some 1, children := some 111, next := some 12 }
  | 12 => { path := some b!"/2", parent := some 1, children := some 121, next := some 13 }
  | 13 => { path := some b!"/3", parent := some 1, children := some 131 }
  | 111 => { path := some b!"/1/1", parent := some 11, next := some 112 }
  | 112 => { path := some b!"/1/2", children := some 1121 }
  | 1121 => { path := some b!"/1/2/1", parent := some 112 }
  | 121 => { path := some b!"/2/1", parent := some 12 }
  | 131 => { path := some b!"/3/1", parent := some 13, children := some 1311 }
  | 1311 => { path := some b!"/3/1/1", parent := some 131 }
  | _ => {}

def tree : Ush := { root := some 1, nodes := treeNodes }

#guard getByPath unitEnv { tree with root := none } b!"/1" = .ok none
#guard getByPath unitEnv { root := some 5 } b!"/1" = .ok none
#guard [(b!"", 1), (b!"/", 1), (b!"/1", 11), (b!"/2", 12), (b!"/3", 13), (b!"/1/1", 111), (b!"/1/2", 112),
  (b!"/1/2/1", 1121), (b!"/2/1", 121), (b!"/3/1", 131), (b!"/3/1/1", 1311)].all fun (p, n) =>
    getByPath unitEnv tree p = .ok (some n)
#guard [b!"/ 1", b!".", b!"test", b!"/121", b!"/1/2/3", b!"/1/2/"].all fun p => getByPath unitEnv tree p = .ok none

#guard [(b!"/", b!"/"), (b!"/", b!"/."), (b!"/", b!"/.."), (b!"/", b!"/../"), (b!"/1", b!"/../1"),
  (b!"/test", b!"/../test"), (b!"/3/1/1", b!"/../3/1/1"), (b!"/2/1", b!"/2/1"), (b!"/1/2/test", b!"/./1/2/test"),
  (b!"/", b!"/../../../../.."), (b!"/root", b!"/../../../../../root"), (b!"/9/8/7", b!"/9/8/7")].all fun (out, inp) =>
    getAbsolutePath unitEnv tree inp = .ok out
#guard [(b!"/", b!""), (b!"/", b!"."), (b!"/", b!".."), (b!"/", b!"../"), (b!"/1", b!"../1"), (b!"/test", b!"../test"),
  (b!"/3/1/1", b!"../3/1/1"), (b!"/2/1", b!"2/1"), (b!"/1/2/test", b!"./1/2/test"), (b!"/", b!"../../../../.."),
  (b!"/root", b!"../../../../../root"), (b!"/9/8/7", b!"9/8/7")].all fun (out, inp) =>
    getAbsolutePath unitEnv { tree with current := some 1 } inp = .ok out
#guard [(b!"/3/1/1", b!""), (b!"/3/1/1", b!"."), (b!"/3/1", b!".."), (b!"/3/1", b!"../"), (b!"/3/1/1", b!"../1"),
  (b!"/3/1/test", b!"../test"), (b!"/3/1/3/1/1", b!"../3/1/1"), (b!"/3/1/1/2/1", b!"2/1"),
  (b!"/3/1/1/1/2/test", b!"./1/2/test"), (b!"/", b!"../../../../.."), (b!"/root", b!"../../../../../root"),
  (b!"/3/1/1/9/8/7", b!"9/8/7")].all fun (out, inp) =>
    getAbsolutePath unitEnv { tree with current := some 1311 } inp = .ok out
#guard [(b!"/1/2", b!""), (b!"/1/2", b!"."), (b!"/1", b!".."), (b!"/1", b!"../"), (b!"/1/1", b!"../1"),
  (b!"/1/test", b!"../test"), (b!"/1/3/1/1", b!"../3/1/1"), (b!"/1/2/2/1", b!"2/1"),
  (b!"/1/2/1/2/test", b!"./1/2/test"), (b!"/", b!"../../../../.."), (b!"/root", b!"../../../../../root"),
  (b!"/1/2/9/8/7", b!"9/8/7")].all fun (out, inp) =>
    getAbsolutePath unitEnv { tree with current := some 112 } inp = .ok out

#guard yes (deinitRec (fun i =>
    if i = 1 then { path := some b!"x", parent := some 9, next := some 2 }
    else if i = 2 then { path := some b!"y", parent := some 9, children := some 3 }
    else if i = 3 then { path := some b!"z", parent := some 9 } else {}) 20 (some 1)) fun nodes =>
  [1, 2, 3].all fun i => nodes i = {}

/-! ## test_unit_node_utils.c -/

#guard getParentByPath unitEnv tree b!"/3/1/1" = .ok (some 131)
#guard getParentByPath unitEnv tree b!"/" = .ok none
#guard yes (setCurrentDir unitEnv { tree with current := some 121 } b!"") fun (u, s) =>
  s = .nodeNotFound && u.current = some 121
#guard yes (setCurrentDir unitEnv { tree with current := some 121 } b!"../../3") fun (u, s) =>
  s = .ok && u.current = some 13
#guard yes (setCurrentDir unitEnv { tree with current := some 121 } b!"test") fun (u, s) =>
  s = .nodeNotFound && u.current = some 121

/-! ## test_unit_node_mount.c -/

def oneFile : List FileDesc := [{ name := [] }]

#guard yes (nodeMount unitEnv tree b!"/1/1" 5 oneFile) fun (u, s) => s = .nodeAlreadyMounted && u.root = some 1
#guard yes (nodeMount unitEnv tree b!"/1/1" 111 oneFile) fun (u, s) => s = .nodeAlreadyMounted && u.root = some 1
#guard yes (nodeMount unitEnv {} b!"test_some" 5 oneFile) fun (u, s) => s = .nodeWithoutParent && u.root = none
#guard yes (nodeMount unitEnv {} b!"/test_some" 5 oneFile) fun (u, s) => s = .nodeWithoutParent && u.root = none
#guard yes (nodeMount unitEnv { nodes := fun _ => { parent := some 7, next := some 7 } } b!"/" 5 oneFile) fun (u, s) =>
  s = .ok && u.root = some 5 && u.current = some 5 && u.nodes 5 = { files := oneFile, path := some b!"/" }
#guard yes (nodeMount unitEnv tree b!"/2/test" 5 oneFile) fun (u, s) =>
  s = .ok && u.root = some 1 && (u.nodes 12).children = some 5 && (u.nodes 5).next = some 121 &&
  (u.nodes 121).next = none && (u.nodes 5).parent = some 12

#guard yes (nodeUnmount unitEnv tree b!"/test") fun (u, s) => s = .nodeNotFound && u.root = some 1
#guard yes (nodeUnmount unitEnv tree b!"/") fun (u, s) => s = .nodeWithChilds && u.root = some 1
#guard yes (nodeUnmount unitEnv tree b!"/1/2") fun (u, s) =>
  s = .nodeWithChilds && (u.nodes 11).children = some 111 && (u.nodes 111).next = some 112 && (u.nodes 112).next = none
#guard yes (nodeUnmount unitEnv { root := some 5, nodes := fun _ => { path := some b!"/" } } b!"/") fun (u, s) =>
  s = .ok && u.root = none

/-- `/` with the children `/a` and `/b` (in this order). -/
def twoNodes : Ush :=
  { root := some 1, nodes := fun i => if i = 1 then { path := some b!"/", children := some 2 }
      else if i = 2 then { path := some b!"/a", next := some 3 } else if i = 3 then { path := some b!"/b" } else {} }

#guard yes (nodeUnmount unitEnv twoNodes b!"/a") fun (u, s) =>
  s = .ok && u.root = some 1 && (u.nodes 1).children = some 3 && (u.nodes 3).next = none
#guard yes (nodeUnmount unitEnv twoNodes b!"/b") fun (u, s) =>
  s = .ok && u.root = some 1 && (u.nodes 1).children = some 2 && (u.nodes 2).next = none

/-! ## test_unit_commands.c -/

#guard (List.range 4).all fun n =>
  let files := List.replicate n { name := b!"f" }
  let r := commandsAdd { commands := some 9, nodes := fun _ => { path := some b!"test" } } 1 files
  if n = 0 then faults r .assert
  else yes r fun (u, s) => s = .ok && u.nodes 1 = { files := files, next := some 9 } && u.commands = some 1
#guard yes (do
    let (u, _) ← commandsAdd {} 1 oneFile
    let (u, _) ← commandsAdd u 2 oneFile
    commandsAdd u 3 oneFile) fun (u, s) =>
  s = .ok && u.commands = some 3 && (u.nodes 3).next = some 2 && (u.nodes 2).next = some 1 && (u.nodes 1).next = none
#guard yes (commandsRemove unitEnv {} 1) fun (_, s) => s = .nodeNotFound
#guard yes (commandsRemove unitEnv { commands := some 2 } 1) fun (_, s) => s = .nodeNotFound
#guard yes (commandsRemove unitEnv { commands := some 1 } 1) fun (u, s) => s = .ok && u.commands = none

def threeCommands : Ush :=
  { commands := some 1, nodes := fun i => if i = 1 then { next := some 2 } else if i = 2 then { next := some 3 } else {} }

#guard yes (commandsRemove unitEnv threeCommands 1) fun (u, s) =>
  s = .ok && u.commands = some 2 && (u.nodes 2).next = some 3 && (u.nodes 3).next = none
#guard yes (commandsRemove unitEnv threeCommands 2) fun (u, s) =>
  s = .ok && u.commands = some 1 && (u.nodes 1).next = some 3 && (u.nodes 3).next = none
#guard yes (commandsRemove unitEnv threeCommands 3) fun (u, s) =>
  s = .ok && u.commands = some 1 && (u.nodes 1).next = some 2 && (u.nodes 2).next = none

/-! ## test_unit_file.c -/

def filesA : List FileDesc := [{ name := b!"test" }, { name := b!"xyz" }, { name := b!"qwerty" }]
def filesB : List FileDesc := [{ name := b!"abc" }, { name := b!"def" }, { name := b!"ghi" }]

/-- The two groups as commands, with an empty root directory. -/
def asCommands : Ush :=
  { commands := some 1, root := some 3, current := some 3,
    nodes := fun i => if i = 1 then { files := filesA, path := some b!"node1", next := some 2 }
      else if i = 2 then { files := filesB, path := some b!"node2" } else { path := some b!"/" } }

/-- The two groups as directories `/node1` and `/node2`, the working directory `cwd`. -/
def asFiles (cwd : NodeId) : Ush :=
  { root := some 3, current := some cwd,
    nodes := fun i => if i = 1 then { files := filesA, path := some b!"/node1", parent := some 3, next := some 2 }
      else if i = 2 then { files := filesB, path := some b!"/node2", parent := some 3 }
      else { path := some b!"/", children := some 1 } }

#guard [asCommands, asFiles 1, asFiles 2, asFiles 3].all fun u => fileFindByName unitEnv u b!"test_in" = .ok none
#guard [b!"test", b!"xyz", b!"qwerty", b!"abc", b!"def", b!"ghi"].all fun nm =>
  fileFindByName unitEnv asCommands nm = .ok (some { name := nm })
#guard [b!"test", b!"xyz", b!"qwerty"].all fun nm => fileFindByName unitEnv (asFiles 1) nm = .ok (some { name := nm })
#guard [b!"abc", b!"def", b!"ghi"].all fun nm =>
  fileFindByName unitEnv (asFiles 2) nm = .ok (some { name := nm }) &&
  fileFindByName unitEnv (asFiles 1) nm = .ok none &&
  fileFindByName unitEnv (asFiles 1) (b!"../node2/" ++ nm) = .ok (some { name := nm })

/-! ## test_unit_ush.c -/

#guard faults (ushInit { unitEnv with inSize := 0 } {}) .assert
#guard faults (ushInit { unitEnv with outSize := 3 } {}) .assert
#guard yes (ushInit unitEnv { root := some 4 }) fun u =>
  u.root = none && u.commands = some 0 && (u.nodes 0).files = builtinCommands && wrote u banner .resetPrompt
#guard yes (ushDeinit unitEnv { asFiles 2 with state := .readChar, inPos := 3, ansiEsc := 2 }) fun u =>
  u.state = .reset && u.inPos = 0 && u.ansiEsc = 0 && u.root = none && u.current = none &&
  [1, 2, 3].all fun i => u.nodes i = {}

/-- Every state belongs to exactly one of the seven services; only the reader can report `false`. -/
def serviceShell (s : St) : Ush :=
  { state := s, root := some 1, current := some 1, inBuf := buf 128 [], outBuf := buf 128 [], acInput := 0,
    procFile := some { name := [] }, acCand := some b!"a", acPrevState := .acCandPrint, writeBuf := .str b!"x", writeSize := 1,
    nodes := fun _ => { path := some b!"/" } }

#guard allStates.all fun s => yes (service unitEnv {} (serviceShell s)) fun (_, r) =>
  r = decide (s ≠ .readPrepare ∧ s ≠ .readChar)
#guard yes (service unitEnv { rd := some 65 } (serviceShell .readChar)) fun (_, r) => r
#guard allStates.all fun s =>
  let u := serviceShell s
  let on {α : Type} (m : M (Option α)) : Nat := if refused m then 0 else 1
  on (resetService u) + on (promptService unitEnv u) + on (readService unitEnv {} u) + on (autocompService unitEnv u) +
    on (parseService unitEnv u) + on (writeService {} u) + on (processService unitEnv u) = 1

def allStatus : List Status :=
  [.ok, .nodeNotFound, .nodeWithChilds, .nodeWithoutParent, .nodeAlreadyMounted, .cmdSyntaxError, .cmdWrongArguments,
   .fileNotExecutable, .fileNotWritable, .fileNotReadable, .fileNoHelp, .fileNotFound, .fileReadOnly]

#guard allStates.all fun s => allStatus.all fun st =>
  yes (printStatus unitEnv { state := s } st) fun u => wrote u (statusString {} st) .reset
#guard allStates.all fun s => yes (ushPrint { state := s } (.str b!"test")) fun u => wrote u b!"test" .reset
#guard allStates.all fun s =>
  yes (ushPrintNoNewline { state := s } (.str b!"test")) fun u => wrote u b!"test" .resetPrompt
#guard allStates.all fun s =>
  yes (ushFlush { state := s, outBuf := buf 128 b!"test" }) fun u => wrote u b!"test" .resetPrompt

end Ush.Test
