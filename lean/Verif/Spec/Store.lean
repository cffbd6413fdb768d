import Verif.Spec.Lines
/-!
# Specification: files as memory

Files whose setter keeps what was written and whose getter returns it.  The user writes with `echo`, and reads with `xxd` and `cat`.
-/
namespace Ush.Spec

/-- What was last written to the file with callbacks `id`; nothing at the beginning. -/
def stored (id : Nat) (l : List Event) : Str :=
  l.foldl (fun s e => match e with | .setData i d => if i = id then d else s | _ => s) []

/-- The callbacks `I` of the application keep what is written. -/
structure App.Stores (A : App) (I : Nat → Prop) : Prop where
  hook : ∀ l argv, A.hook l argv = []
  set : ∀ id, I id → ∀ l d, A.set id l d = []
  get : ∀ id, I id → ∀ l, A.get id l = stored id l

/-- Accesses of the user: writing bytes, a dump, printing the contents. -/
inductive Access
  | write (p : Str) (d : Str)
  | dump (p : Str)
  | print (p : Str)

def Access.path : Access → Str
  | .write p _ => p
  | .dump p => p
  | .print p => p

/-- How to type it: paths are quoted, every byte to be written is given by two hexadecimal digits. -/
def Access.line : Access → Str
  | .write p d => b!"echo \"" ++ encode d ++ b!"\" > " ++ quoteArg p
  | .dump p => b!"xxd " ++ quoteArg p
  | .print p => b!"cat " ++ quoteArg p

/-- The memory cell of a path. -/
def World.cell (W : World) (p : Str) : Nat := ((W.file? p).bind (·.getData)).getD 0

/-- What an access does to the memory `m`. -/
def Access.memory (W : World) (m : Nat → Str) : Access → Nat → Str
  | .write p d => fun i => if i = W.cell p then d else m i
  | _ => m

/-- What it shows. -/
def Access.answer (E : Env) (W : World) (m : Nat → Str) : Access → Str
  | .write _ _ => []
  | .dump p => xxdText E.xxdColumns (m (W.cell p))
  | .print p => m (W.cell p)

/-- The memory after some accesses. -/
def memory (W : World) (m : Nat → Str) (as : List Access) : Nat → Str := as.foldl (Access.memory W) m

/-- The screen during some accesses: the lines, the answers and the prompts. -/
def screen (E : Env) (W : World) (m : Nat → Str) : List Access → Str
  | [] => []
  | a :: as => a.line ++ crlf ++ a.answer E W m ++ W.prompt E ++ screen E W (a.memory W m) as

/-- The path `p` names a file that can be read and written, with callbacks in `I`; it fits the buffers and can be typed. -/
structure World.Cell (E : Env) (W : World) (I : Nat → Prop) (p : Str) : Prop where
  near : W.Near E p
  file : ∃ f id, W.file? p = some f ∧ f.getData = some id ∧ f.setData = some id ∧ I id
  typed : ∀ c ∈ p, isText c = true ∧ isErase c = false ∧ c ≠ cNul

/-- The commands that are used are the built-in ones. -/
structure World.Tools (E : Env) (W : World) : Prop where
  near : W.Near E b!"echo" ∧ W.Near E b!"xxd" ∧ W.Near E b!"cat"
  echo : ∃ f, W.file? b!"echo" = some f ∧ f.exec = some (.builtin .echo)
  xxd : ∃ f, W.file? b!"xxd" = some f ∧ f.exec = some (.builtin .xxd) ∧ f.process = some (.builtin .xxd)
  cat : ∃ f, W.file? b!"cat" = some f ∧ f.exec = some (.builtin .cat) ∧ f.process = some (.builtin .cat)

/-- The access can be made: its path names a cell, its line fits the input buffer, and the size of the data has at most 8 hexadecimal digits. -/
structure Access.Ok (E : Env) (W : World) (I : Nat → Prop) (a : Access) : Prop where
  cell : W.Cell E I a.path
  fits : a.line.length + 1 < E.inSize
  size : ∀ p d, a = .write p d → d.length ≤ 16 ^ 8

end Ush.Spec
