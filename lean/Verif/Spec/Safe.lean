import Verif.Spec.Builtin
import Verif.Spec.Complete
import Verif.Proof.World
/-!
# Specification: what the application has to respect so that nothing goes wrong

`WInv E u W` says that the shell object and the node objects of `u` represent the directories, commands and working directory
`W`.  A *move* is a service call or a block of library calls made between two service calls.
-/
namespace Ush.Spec

/-- Buffer sizes that suffice for all built-in commands: a line of one character, the offset, the hex part and the text part of a
row of `xxd`. -/
structure Roomy (E : Env) : Prop where
  inSize : 2 ≤ E.inSize
  offset : 10 < E.outSize
  cols : 0 < E.xxdColumns
  hex : 3 * E.xxdColumns + 1 < E.outSize

/-- All files of the world. -/
def World.files (W : World) : List FileDesc := W.groups.files ++ W.dirs.flatMap (·.files)

/-- A descriptor of the library, or one with callbacks of the application only. -/
def Proper (f : FileDesc) : Prop :=
  f ∈ builtinCommands ∨ ((∀ b, f.exec ≠ some (.builtin b)) ∧ ∀ b, f.process ≠ some (.builtin b))

/-- The files are proper, a row of `help` or `ls` fits the output buffer up to the description, and in every directory the path
buffers can hold any path shorter than `L`.

`L` is the length of the lines for which the shell is made; the larger it is, the shorter the paths of the directories have to be.
It may be the size of the input buffer, then no line is too long. -/
structure World.Fits (E : Env) (L : Nat) (W : World) : Prop where
  files : ∀ f ∈ W.files, Proper f ∧ (rowHead E f).length < E.outSize
  paths : ∀ m ∈ W.dirs, (fullText (render m.path) []).length + L ≤ E.pathMax
  line : L ≤ E.inSize

/-- Names that TAB may look at: all commands, the files of the working directory, all directories. -/
def World.tabNames (W : World) : List Str :=
  W.groups.files.map (·.name) ++ ((W.cwd.map Mount.files).getD []).map (·.name) ++ W.tree.map (fun m => dirName m.path)

/-- The state the shell is in or, while it prints, is going to be in. -/
def next (u : Ush) : St := if u.state = .writeChar then u.writeNext else u.state

/-- No built-in command and no completion is at work. -/
def Calm (u : Ush) : Prop :=
  match next u with
  | .processStart | .processService | .processFinish => ∀ f, u.procFile = some f → ∀ b, f.process ≠ some (.builtin b)
  | .acPrepare | .acCandStart | .acCandCount | .acCandOptimise | .acCandPrint | .acCandFinish | .acPromptPrepare | .acPrompt
  | .acRecall | .acRecallSuffix => False
  | _ => True

/-- A built-in command that is at work has the property `P`; if a completion is at work, `T` holds. -/
def Steady (u : Ush) (P : Builtin → Prop) (T : Prop) : Prop :=
  match next u with
  | .processStart | .processService | .processFinish => ∀ f, u.procFile = some f → ∀ b, f.process = some (.builtin b) → P b
  | .acPrepare | .acCandStart | .acCandCount | .acCandOptimise | .acCandPrint | .acCandFinish | .acPromptPrepare | .acPrompt
  | .acRecall | .acRecallSuffix => T
  | _ => True

/-- The node object is not that of the working directory (as it could be if the working directory has been unmounted). -/
def World.NotCwd (W : World) (i : NodeId) : Prop := ∀ m, W.cwd = some m → m.id ≠ i

/-- Changes a built-in command does not mind.  `xxd` has got its data at the beginning.  `help` goes from one group of commands
(`procNode`) to the next.  `ls` goes through the sub-directories (`procChild`) and then through the files of a directory (`procNode`).  `cat`
looks up its arguments one after the other, each has to be readable still: a new command must not hide a file, or must be readable
itself. -/
def World.Bears (u : Ush) (W : World) : FsOp → Builtin → Prop
  | _, .xxd => True
  | .removeGroup i, .help => u.procNode ≠ some i
  | _, .help => True
  | .mount p i _, .ls => p ≠ [] ∧ W.NotCwd i
  | .addGroup i _, .ls => W.NotCwd i
  | .removeGroup _, .ls => True
  | .unmount q, .ls => ∀ m, W.tree.findText q = some m → u.procNode ≠ some m.id ∧ u.procChild ≠ some m.id
  | .cd _ _ _, .ls => ∀ m, W.cwd = some m → m ∈ W.tree ∨ u.procNode ≠ some m.id
  | .mount p i _, .cat => p ≠ [] ∧ W.NotCwd i
  | .addGroup i fs, .cat => W.NotCwd i ∧ ∀ f ∈ fs, f.getData.isSome = true ∨ W.file? f.name = none
  | _, _ => False

/-- Changes a completion does not mind: new directories and commands whose names would fit behind the line. -/
def World.BearsTab (L : Nat) (u : Ush) (W : World) : FsOp → Prop
  | .mount p i _ => p ≠ [] ∧ W.NotCwd i ∧ u.inPos + (dirName p).length < L
  | .addGroup i fs => W.NotCwd i ∧ ∀ f ∈ fs, u.inPos + f.name.length < L
  | _ => False

/-- The text in the output buffer (its length does not matter if it is not terminated: then no call that looks at it is allowed). -/
def outText (u : Ush) : Str := u.outBuf.takeWhile (· ≠ cNul)

/-- A change of directories or commands: valid, the new world is fine, and what is at work does not mind. -/
def FsAllowed (E : Env) (L : Nat) (u : Ush) (o : FsOp) : Prop :=
  ∃ W, WInv E u W ∧ W.Ok E ∧ W.Fits E L ∧ Steady u (W.Bears u o) (W.BearsTab L u o) ∧ W.Valid E o ∧ (W.step o).1.Ok E ∧ (W.step o).1.Fits E L

/-- What a library call needs. -/
def Allowed (E : Env) (L : Nat) (u : Ush) (a : Api) : Prop :=
  match a with
  | .print p => p ≠ .null ∧ ∃ s, ptrStr u p = .ok s
  | .printNoNewline p => p ≠ .null ∧ ∃ s, ptrStr u p = .ok s
  | .printStatus _ => True
  | .printf (.text s) => cNul ∉ s ∧
      (20 ≤ E.outSize ∨ (if u.writeBuf = .outBuf then (outText u).length else 0) + s.length < E.outSize)
  | .printf (.error s) => cNul ∉ s ∧ 18 ≤ E.outSize ∧
      (if u.writeBuf = .outBuf then (outText u).length else 0) + s.length + 17 ≠ E.outSize
  | .flush => cNul ∈ u.outBuf
  | .reset => u.root.isSome = true
  | .mount p i fs => ∃ cs, p = render cs ∧ FsAllowed E L u (.mount cs i fs)
  | .unmount q => FsAllowed E L u (.unmount q)
  | .setCurrentDir p => cNul ∉ p ∧ ∃ W, WInv E u W ∧ W.Ok E ∧ W.Fits E L ∧ Steady u (W.Bears u (.cd true [] false)) False ∧ W.Room E p
  | .commandsAdd i fs => FsAllowed E L u (.addGroup i fs)
  | .commandsRemove i => FsAllowed E L u (.removeGroup i)
  | .processStart f => ∀ b, f.process ≠ some (.builtin b)
  | .setState .reset => True
  | .setState .resetPrompt => True
  | .setState .readPrepare => True
  | .setState .processStart => ∃ f, u.procFile = some f ∧ ∀ b, f.process ≠ some (.builtin b)
  | .setState .processService => ∃ f, u.procFile = some f ∧ ∀ b, f.process ≠ some (.builtin b)
  | .setState .processFinish => ∃ f, u.procFile = some f ∧ ∀ b, f.process ≠ some (.builtin b)
  | .setState _ => False
  | .fillOut _ => False

/-- A sequence of library calls. A text may be written into the output buffer if `ush_flush` is the next call. -/
def Calls (E : Env) (L : Nat) : Ush → List Api → Prop
  | _, [] => True
  | u, .fillOut s :: .flush :: as => s.length < E.outSize ∧ ∀ v, runApis E u [.fillOut s, .flush] = .ok v → Calls E L v as
  | u, a :: as => Allowed E L u a ∧ ∀ v, runApi E u a = .ok v → Calls E L v as

/-- A state in which a callback is called. -/
def Site (E : Env) (L : Nat) (u : Ush) : Prop := Sized E u ∧ Calm u ∧ ∃ W, WInv E u W ∧ W.Ok E ∧ W.Fits E L

/-- The callbacks of the application make allowed calls, wherever they are called; getters return data (at most 4 GB). -/
structure Behaves (E : Env) (L : Nat) : Prop where
  hook : ∀ h, E.hook = some h → ∀ argv u, Site E L (u.emit (.hook argv)) → Calls E L (u.emit (.hook argv)) (h argv u)
  exec : ∀ id argv u, Site E L u → Calls E L u (E.userExec id argv u)
  proc : ∀ id u, Site E L (u.emit (.proc id)) → Calls E L (u.emit (.proc id)) (E.userProc id u)
  set : ∀ id d u, Site E L (u.emit (.setData id d)) → Calls E L (u.emit (.setData id d)) (E.userSet id d u)
  get : ∀ id u, ∃ d, E.userGet id u = some d ∧ d.length ≤ 16 ^ 8

/-- The line is shorter than `L` (as it always is when `L` is the size of the input buffer). -/
def Short (E : Env) (L : Nat) (u : Ush) : Prop := L < E.inSize → u.inPos < L

/-- Every name that begins with the last word makes a line shorter than `L`; so does every name that begins with the whole line (one word
after a single space is completed together with that space). -/
def TabFits (L : Nat) (W : World) (line : Str) : Prop :=
  ∀ n ∈ W.tabNames, (lastWord line <+: n → (lineHead line).length + n.length < L) ∧ (line <+: n → n.length < L)

/-- TAB may be pressed: the line is not too long, no NUL has been typed, and the names fit. -/
def TabOk (E : Env) (L : Nat) (u : Ush) : Prop :=
  E.autocomplete = true → Short E L u ∧ cNul ∉ u.inBuf.take u.inPos ∧ ∃ W, WInv E u W ∧ W.Ok E ∧ W.Fits E L ∧ TabFits L W (u.inBuf.take u.inPos)

/-- The next service call calls a process function of the application. -/
def AppTurn (u : Ush) : Prop :=
  (u.state = .processStart ∨ u.state = .processService ∨ u.state = .processFinish) ∧ ∃ f id, u.procFile = some f ∧ f.process = some (.user id)

/-- What happens between two returns of the library to the application. -/
inductive Move
  | service (io : Io)
  | calls (as : List Api)

def Move.ops : Move → List Op
  | .service io => [.service io]
  | .calls as => as.map .api

/-- What a move needs. -/
def Move.Ok (E : Env) (L : Nat) (u : Ush) : Move → Prop
  | .service io => u.state = .readChar → (io.rd = some cTab → TabOk E L u) ∧ (io.rd = some cLf ∨ io.rd = some cCr → Short E L u)
  | .calls as => Calls E L u as

/-- Every move of the history is fine when it is made. -/
def Legal (E : Env) (L : Nat) : Ush → List Move → Prop
  | _, [] => True
  | u, m :: ms => m.Ok E L u ∧ ∀ v, run E u m.ops = .ok v → Legal E L v ms

end Ush.Spec
