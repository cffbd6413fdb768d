import Verif.Spec.Sched
/-!
# Specification: texts and data that change while they are being printed

The shell prints through pointers into memory of the application: data of a getter (`cat`), the data `xxd` is dumping, the hostname, help texts,
names, texts given to `ush_print`.  It takes their size once, and reads byte after byte, in one service call each.  Here the application may write to that memory
between any two calls.
-/
namespace Ush.Spec

/-- The same place of memory, with other contents of the same size. -/
def samePlace : Ptr → Ptr → Prop
  | .str s, .str t => s.length = t.length
  | .data d, .data e => d.length = e.length
  | p, q => p = q

def sameSize : Option (List UInt8) → Option (List UInt8) → Prop
  | some d, some e => d.length = e.length
  | none, none => True
  | _, _ => False

/-- `v` is `u` after the application has written to the memory the shell is printing from. -/
def Rewritten (u v : Ush) : Prop := ∃ w d, v = { u with writeBuf := w, procData := d } ∧ samePlace u.writeBuf w ∧ sameSize u.procData d

/-- The event without the value of a byte that is printed. -/
def byteless : Event → Event
  | .out _ => .out 0
  | e => e

/-- The same events but for the values of the bytes printed. -/
def sameEvents (l k : List Event) : Prop := l.map byteless = k.map byteless

/-- Two buffers with NUL at the same places. -/
def sameNuls (a b : List UInt8) : Prop := a.map (· == cNul) = b.map (· == cNul)

/-- What can be different in two shells that print from memory with different contents. -/
structure Contents where
  buf : Ptr
  data : Option (List UInt8)
  out : List UInt8
  log : List Event

abbrev Contents.put (x : Contents) (u : Ush) : Ush := { u with writeBuf := x.buf, procData := x.data, outBuf := x.out, log := x.log }

structure Contents.Fit (buf : Ptr) (data : Option (List UInt8)) (out : List UInt8) (log : List Event) (x : Contents) : Prop where
  buf : samePlace buf x.buf
  data : sameSize data x.data
  out : sameNuls out x.out
  log : sameEvents log x.log

/-- The same shell but for bytes: of the memory printed from, of the output buffer (with NUL at the same places), and those printed. -/
def Like (u v : Ush) : Prop := ∃ x : Contents, v = x.put u ∧ x.Fit u.writeBuf u.procData u.outBuf u.log

/-- The callbacks do not look at such bytes. -/
structure Unseeing (E : Env) : Prop where
  hook : ∀ h, E.hook = some h → ∀ argv u v, Like u v → h argv v = h argv u
  exec : ∀ id argv u v, Like u v → E.userExec id argv v = E.userExec id argv u
  proc : ∀ id u v, Like u v → E.userProc id v = E.userProc id u
  get : ∀ id u v, Like u v → E.userGet id v = E.userGet id u
  set : ∀ id d u v, Like u v → E.userSet id d v = E.userSet id d u

/-- What the application does to the memory before the `n`-th step. -/
def Rewriter (p : Nat → Ush → Ush) : Prop := ∀ n u, Rewritten u (p n u)

/-- A history, with memory rewritten before every step. -/
def runR (E : Env) (p : Nat → Ush → Ush) : Nat → Ush → List Op → M Ush
  | _, u, [] => .ok u
  | n, u, o :: os => do
    let v ← step E (p n u) o
    runR E p (n + 1) v os

/-- `drive` (Spec/Sched.lean) with memory rewritten before every call. -/
def driveR (E : Env) (p : Nat → Ush → Ush) : Nat → Ush → List UInt8 → List Slot → M (Ush × List UInt8)
  | _, u, inp, [] => .ok (u, inp)
  | n, u, inp, s :: ss => do
    let (v, r) ← drive1 E (p n u) inp s
    driveR E p (n + 1) v r ss

/-- `driveN` with memory rewritten before every call. -/
def driveNR (E : Env) (p : Nat → Ush → Ush) (f : Nat → Slot) (u : Ush) (inp : List UInt8) (n : Nat) : M (Ush × List UInt8) :=
  driveR E p 0 u inp ((List.range n).map f)

end Ush.Spec
