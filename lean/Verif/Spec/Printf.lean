import Verif.Spec.Calls
/-!
# Specification: `ush_printf`, all cases

The output buffer has `n` bytes.  The text in it grows with every call; a call that fails leaves a message at its end.
-/
namespace Ush.Spec

/-- What happens while something is printed with `ush_printf`: further calls (with whatever `vsnprintf` makes of them) and service calls. -/
inductive Bit
  | printf (f : Fmt)
  | service (io : Io)

def Bit.op : Bit → Op
  | .printf f => .api (.printf f)
  | .service io => .service io

/-- The text in the buffer, whether the NUL byte behind it is going to be printed too, how many bytes have been sent, and whether the shell has noticed that all
of them have been sent. -/
structure Sheet where
  text : Str := []
  nul : Bool := false
  sent : Nat := 0
  fin : Bool := false

/-- All bytes to be printed. -/
def Sheet.bytes (P : Sheet) : Str := P.text ++ if P.nul then [cNul] else []

/-- What a shell is printing from its output buffer.  If what it prints comes from elsewhere, `ush_printf` begins with an empty sheet. -/
def sheet (u : Ush) : Sheet :=
  if u.writeBuf = .outBuf then { text := u.outBuf.takeWhile (· ≠ cNul), nul := decide ((u.outBuf.takeWhile (· ≠ cNul)).length < u.writeSize), sent := u.writePos } else {}

/-- What `vsnprintf` writes (as far as there is room). -/
def _root_.Ush.Fmt.out : Fmt → Str
  | .text s => s
  | .error s => s

/-- The message of a call, when `a` is in the buffer: after a format error, and if not all bytes of the text can be shown, because the buffer is full or because
one of them is NUL. -/
def complaint (n : Nat) (a : Str) : Fmt → Option Str
  | .text s => if cNul ∈ s ∨ n ≤ a.length + s.length then some b!"...overflow error\r\n" else none
  | .error _ => some b!"...format error\r\n"

/-- The message `msg`: if there is room for it and its NUL byte, it is appended; otherwise it takes the end of the buffer, and its NUL byte is printed too.  With
room for the message but not for its NUL byte, that byte is written behind the buffer (`none`); a message that is longer than the buffer is written
in front of it. -/
def Sheet.add (n : Nat) (P : Sheet) (msg : Str) : Option Sheet :=
  if P.text.length + msg.length < n then some { P with text := P.text ++ msg }
  else if P.text.length + msg.length = n ∨ n ≤ msg.length then none
  else some { P with text := P.text.take (n - msg.length - 1) ++ msg, nul := true }

/-- One call: the bytes in front of the first NUL byte are appended, as far as there is room; then there may be a message. -/
def Sheet.printf (n : Nat) (P : Sheet) (f : Fmt) : Option Sheet :=
  let Q := { P with text := (P.text ++ f.out.takeWhile (· ≠ cNul)).take (n - 1), fin := false }
  match complaint n P.text f with
  | none => some Q
  | some msg => Q.add n msg

/-- One step: the new state, and the byte that is printed. -/
def Sheet.step (n : Nat) (P : Sheet) : Bit → Option (Sheet × Str)
  | .printf f => (P.printf n f).map (·, [])
  | .service io =>
    match P.bytes[P.sent]? with
    | some b => some (if io.wr then ({ P with sent := P.sent + 1 }, [b]) else (P, []))
    | none => some ({ P with fin := true }, [])

/-- Some steps: the state at the end, and all that is printed; `none` if something is written outside the buffer. -/
def Sheet.run (n : Nat) (P : Sheet) : List Bit → Option (Sheet × Str)
  | [] => some (P, [])
  | a :: as => do
    let (P1, x) ← P.step n a
    let (P2, y) ← Sheet.run n P1 as
    some (P2, x ++ y)

/-- There are no service calls after the shell has noticed that it has finished. -/
def Sheet.Valid (P : Sheet) : Bit → Prop
  | .printf _ => True
  | .service _ => P.fin = false

def Sheet.ValidRun (n : Nat) (P : Sheet) : List Bit → Prop
  | [] => True
  | a :: as => P.Valid a ∧ ∀ Q x, P.step n a = some (Q, x) → Sheet.ValidRun n Q as

/-- Calls that print something, but not behind what is in the output buffer. -/
def _root_.Ush.Api.Shows : Api → Prop
  | .print _ | .printNoNewline _ | .printStatus _ | .flush | .reset => True
  | _ => False

/-- Library calls (`none`: something else) in which everything the application itself stores in the output buffer is followed immediately by a call that prints. -/
def Tidy : List (Option Api) → Prop
  | some (.fillOut _) :: as => (∃ a bs, as = some a :: bs ∧ a.Shows) ∧ Tidy as
  | _ :: as => Tidy as
  | [] => True

def _root_.Ush.Op.call : Op → Option Api
  | .api a => some a
  | _ => none

/-- The callbacks of the application keep this rule. -/
structure EnvTidy (E : Env) : Prop where
  hook : ∀ h, E.hook = some h → ∀ argv u, Tidy ((h argv u).map some)
  exec : ∀ id argv u, Tidy ((E.userExec id argv u).map some)
  proc : ∀ id u, Tidy ((E.userProc id u).map some)
  set : ∀ id d u, Tidy ((E.userSet id d u).map some)

end Ush.Spec
