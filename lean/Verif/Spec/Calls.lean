import Verif.Spec.Session
import Verif.Model.Service
/-!
# Specification: library calls made by a callback of the application

`Talk` is what a callback has said so far: the world it has changed, the text in the output buffer and what is going to be
printed when it returns.
-/
namespace Ush.Spec

/-- The calls. `show` is the idiom "write a text into the output buffer and call `ush_flush`". -/
inductive Call
  | fs (o : FsOp)
  | print (s : Str)
  | printNoNewline (s : Str)
  | printStatus (s : Status)
  | printf (s : Str)
  | flush
  | show (s : Str)
  | reset

/-- The library functions called. -/
def Call.apis : Call → List Api
  | .fs o => [o.api]
  | .print s => [.print (.str s)]
  | .printNoNewline s => [.printNoNewline (.str s)]
  | .printStatus s => [.printStatus s]
  | .printf s => [.printf (.text s)]
  | .flush => [.flush]
  | .show s => [.fillOut s, .flush]
  | .reset => [.reset]

/-- What the shell says when it starts. -/
def welcome : Str := b!"uShell 0.1.0\r\n"

/-- What is going to be printed: a text (and a new line), or the text in the output buffer without its first `k` bytes. -/
inductive Pend
  | text (s : Str) (newline : Bool)
  | buf (k : Nat)

structure Talk where
  world : World
  buf : Str
  pend : Pend

/-- Effect of a call. -/
def Talk.step (E : Env) (T : Talk) : Call → Talk × List Status
  | .fs o => ({ T with world := (T.world.step o).1 }, [(T.world.step o).2])
  | .print s => ({ T with pend := .text s true }, [])
  | .printNoNewline s => ({ T with pend := .text s false }, [])
  | .printStatus s => ({ T with pend := .text (statusString E.tr s) true }, [])
  | .printf s =>
    match T.pend with
    | .text .. => ({ T with buf := s, pend := .buf 0 }, [])
    | .buf _ => ({ T with buf := T.buf ++ s }, [])
  | .flush => ({ T with pend := .buf 0 }, [])
  | .show s => ({ T with buf := s, pend := .buf 0 }, [])
  | .reset => ({ T with world := { T.world with cwd := T.world.tree.find [] }, pend := .text welcome false }, [])

/-- What the application has to respect: directory operations as before, texts are C strings that fit the output buffer,
`ush_reset` only with a mounted root. -/
def Talk.Valid (E : Env) (T : Talk) : Call → Prop
  | .fs o => T.world.Valid E o
  | .print s => cNul ∉ s
  | .printNoNewline s => cNul ∉ s
  | .printStatus _ => True
  | .printf s => cNul ∉ s ∧ (match T.pend with
      | .text .. => s.length < E.outSize
      | .buf _ => T.buf.length + s.length < E.outSize)
  | .flush => True
  | .show s => cNul ∉ s ∧ s.length < E.outSize
  | .reset => T.world.tree.find [] ≠ none

/-- Effect of a sequence of calls. -/
def Talk.run (E : Env) (T : Talk) : List Call → Talk × List Status
  | [] => (T, [])
  | c :: cs => let r := T.step E c; let r' := Talk.run E r.1 cs; (r'.1, r.2 ++ r'.2)

def Talk.ValidRun (E : Env) (T : Talk) : List Call → Prop
  | [] => True
  | c :: cs => T.Valid E c ∧ Talk.ValidRun E (T.step E c).1 cs

/-- What is printed before the prompt. -/
def Talk.output (T : Talk) : Str :=
  match T.pend with
  | .text s nl => s ++ (if nl then crlf else [])
  | .buf k => T.buf.drop k

/-- When the callback `f` is called with the log `l`, it makes the calls `cs`. -/
def Says (l : List Event) (f : Ush → List Api) (cs : List Call) : Prop := ∀ u : Ush, u.log = l → f u = cs.flatMap Call.apis

/-- When the general hook is called with the arguments `argv` and the log `l`, it makes the calls `cs`. -/
def HookSays (E : Env) (l : List Event) (argv : List Str) (cs : List Call) : Prop :=
  match E.hook with
  | none => cs = []
  | some h => Says l (h argv) cs

/-- What a callback called after Enter starts with: the echo of Enter is in the output buffer and has been sent. -/
def Talk.start (W : World) (c : UInt8) : Talk := ⟨W, enterEcho c, .buf (enterEcho c).length⟩

end Ush.Spec

namespace Ush.Spec

/-- What happens while a text is printed piece by piece: further `ush_printf` calls and service calls. -/
inductive Act
  | printf (s : Str)
  | service (io : Io)

def Act.op : Act → Op
  | .printf s => .api (.printf (.text s))
  | .service io => .service io

/-- The text so far, how much of it has been sent, and whether the shell has noticed that all of it has been sent. -/
structure Feed where
  text : Str
  sent : Nat
  fin : Bool

/-- A service call sends the next byte if the output accepts it; when there is nothing more to send, it finishes. -/
def Feed.step (F : Feed) : Act → Feed
  | .printf s => { F with text := F.text ++ s, fin := false }
  | .service io => if F.sent < F.text.length then { F with sent := if io.wr then F.sent + 1 else F.sent } else { F with fin := true }

def Feed.run (F : Feed) : List Act → Feed
  | [] => F
  | a :: as => Feed.run (F.step a) as

/-- The combined text fits the output buffer, and the shell has not gone on to the prompt. -/
def Feed.Valid (E : Env) (F : Feed) : Act → Prop
  | .printf s => cNul ∉ s ∧ F.text.length + s.length < E.outSize
  | .service _ => F.fin = false

def Feed.ValidRun (E : Env) (F : Feed) : List Act → Prop
  | [] => True
  | a :: as => F.Valid E a ∧ Feed.ValidRun E (F.step a) as

/-- The texts of the `ush_printf` calls, one after the other. -/
def Act.texts : List Act → Str
  | [] => []
  | .printf s :: as => s ++ Act.texts as
  | .service _ :: as => Act.texts as

end Ush.Spec
