import Verif.Model.Service
/-!
# Specification: the line editor and what the user sees

The editor is described as a function from keys to the line being edited and the bytes sent to the terminal.
-/
namespace Ush.Spec

/-- Part of a terminal escape sequence that has been received. -/
inductive EscSt
  | none | esc | bracket
  deriving DecidableEq

def EscSt.toNat : EscSt → Nat
  | .none => 0
  | .esc => 1
  | .bracket => 2

/-- The line typed so far. -/
structure Editor where
  line : Str := []
  esc : EscSt := .none
  deriving DecidableEq

/-- Keys with a special meaning: Ctrl+C, TAB. -/
def isSpecial (c : UInt8) : Bool := c == cEtx || c == cTab

/-- Enter. -/
def isEnter (c : UInt8) : Bool := c == cCr || c == cLf

/-- Erase key. -/
def isErase (c : UInt8) : Bool := c == cBs || c == cDel

/-- The key is handled by the editor alone: it is neither Ctrl+C nor TAB, and if it is Enter it is swallowed by an
escape sequence. -/
def Editor.takes (e : Editor) (c : UInt8) : Bool := !isSpecial c && !(isEnter c && e.esc == .none)

/-- Effect of a key on a line editor whose buffer has `cap` bytes, and the echo.  A character that does not fit
makes the line empty. -/
def Editor.key (cap : Nat) (e : Editor) (c : UInt8) : Editor × Str :=
  if isErase c then
    if e.line = [] then (e, []) else ({ e with line := e.line.dropLast }, [cBs, cSpace, cBs])
  else if c = cEsc then ({ e with esc := .esc }, [])
  else
    match e.esc with
    | .esc => ({ e with esc := if c = 0x5B ∨ c = 0x4F then .bracket else .none }, [])
    | .bracket => ({ e with esc := .none }, [])
    | .none => ({ e with line := if e.line.length + 1 < cap then e.line ++ [c] else [] }, if c = cNul then [] else [c])

/-- The line that is executed when Enter is pressed and the buffer has `cap` bytes: the line that has been typed, unless it fills the buffer up to the place
for the terminating NUL.  Then Enter takes that place, and the NUL is put where the next character would be, at the beginning. -/
def sent (cap : Nat) (line : Str) : Str := if line.length + 1 < cap then line else cNul :: line.tail

theorem sent_fit {cap : Nat} {line : Str} (h : line.length + 1 < cap) : sent cap line = line := if_pos h

theorem sent_mem {cap : Nat} {line : Str} {c : UInt8} (h : c ∈ sent cap line) : c = cNul ∨ c ∈ line := by
  unfold sent at h
  split at h
  · exact .inr h
  · exact (List.mem_cons.mp h).imp id List.mem_of_mem_tail

/-- The shell waits for a key, with the editor in state `e`. -/
structure Shows (u : Ush) (e : Editor) : Prop where
  state : u.state = .readChar
  esc : u.ansiEsc = e.esc.toNat
  pos : u.inPos = e.line.length
  buf : ∃ rest, u.inBuf = e.line ++ cNul :: rest

/-- The working buffers have the configured sizes. -/
structure Sized (E : Env) (u : Ush) : Prop where
  inLen : u.inBuf.length = E.inSize
  outLen : u.outBuf.length = E.outSize

/-- Directories, commands and working directory are the same objects. -/
structure SameFs (u v : Ush) : Prop where
  nodes : v.nodes = u.nodes
  root : v.root = u.root
  commands : v.commands = u.commands
  current : v.current = u.current

/-- Keys typed one after the other: final editor and log (every key is followed by its echo). -/
def Editor.keys (cap : Nat) : Editor → Str → Editor × List Event
  | e, [] => (e, [])
  | e, c :: cs =>
    let r := e.key cap c
    let r' := Editor.keys cap r.1 cs
    (r'.1, .inp c :: r.2.map .out ++ r'.2)

/-- All keys are handled by the editor. -/
def Editor.takesAll (cap : Nat) : Editor → Str → Bool
  | _, [] => true
  | e, c :: cs => e.takes c && Editor.takesAll cap (e.key cap c).1 cs

/-- A key that is typed into the line or erases: not Ctrl+C, TAB, Enter or ESC. -/
def isText (c : UInt8) : Bool := !isSpecial c && !isEnter c && c != cEsc

/-- The typed text: every erase key removes the last remaining character. -/
def edit (line : Str) (cs : Str) : Str := cs.foldl (fun l c => if isErase c then l.dropLast else l ++ [c]) line

/-- Bytes sent for Enter. -/
def enterEcho (c : UInt8) : Str := if c = cCr then [cCr, cLf] else [c]

/-- Name shown in the prompt: the last component, `/` for the root. -/
def dirName (p : List Str) : Str := p.getLast?.getD b!"/"

/-- The prompt in directory `p`. -/
def promptText (E : Env) (p : List Str) : Str :=
  E.colorMagenta ++ b!"[" ++ E.hostname ++ b!" " ++ dirName p ++ b!"]$ " ++ E.styleReset

/-- Texts of the configuration and of the application contain no NUL (they are C strings). -/
structure CStrings (E : Env) : Prop where
  host : cNul ∉ E.hostname
  styleReset : cNul ∉ E.styleReset
  green : cNul ∉ E.colorGreen
  yellow : cNul ∉ E.colorYellow
  magenta : cNul ∉ E.colorMagenta
  status : ∀ s, cNul ∉ statusString E.tr s

end Ush.Spec
