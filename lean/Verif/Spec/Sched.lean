import Verif.Model.Service
/-!
# Specification: running the shell under a schedule

The terminal has typed the bytes `inp`.  A schedule says, for every service call, whether the next byte is
already available and whether the output can take a byte.
-/
namespace Ush

/-- The event is a consumed or an emitted byte. -/
def Event.isIo : Event → Bool
  | .inp _ => true
  | .out _ => true
  | _ => false

/-- The event is a call of a callback of the application. -/
def Event.isCallback : Event → Bool
  | .hook _ => true
  | .exec _ _ => true
  | .getData _ => true
  | .setData _ _ => true
  | .proc _ => true
  | _ => false

namespace Spec

/-- The bytes `s` are printed. -/
abbrev outs (s : Str) : List Event := s.map Event.out

/-- One service call: is an input byte available, does the output accept a byte? -/
structure Slot where
  ready : Bool
  accept : Bool

/-- Both. -/
abbrev Slot.full : Slot := ⟨true, true⟩

/-- One service call with pending input `inp`.  The read callback is called exactly in the state `readChar`. -/
def drive1 (E : Env) (u : Ush) (inp : List UInt8) (s : Slot) : M (Ush × List UInt8) := do
  let (v, _) ← service E ⟨if s.ready then inp.head? else none, s.accept⟩ u
  return (v, if u.state = .readChar ∧ s.ready = true then inp.tail else inp)

/-- A sequence of service calls. -/
def drive (E : Env) : Ush → List UInt8 → List Slot → M (Ush × List UInt8)
  | u, inp, [] => .ok (u, inp)
  | u, inp, s :: ss => do
    let (v, r) ← drive1 E u inp s
    drive E v r ss

/-- All input is consumed and the shell waits for more. -/
def Idle (u : Ush) (inp : List UInt8) : Prop := u.state = .readChar ∧ inp = []

/-- From `u` with pending input `inp` the shell gets to `v` with pending input `r` when it is serviced often enough with
input and output ready. -/
def Steps (E : Env) (u : Ush) (inp : List UInt8) (v : Ush) (r : List UInt8) : Prop :=
  ∃ n, drive E u inp (List.replicate n Slot.full) = .ok (v, r)

/-- `n` service calls with the I/O results `f 0, f 1, …`. -/
def serve (E : Env) (f : Nat → Io) (u : Ush) : Nat → M Ush
  | 0 => .ok u
  | n + 1 => do
    let v ← serve E f u n
    let (w, _) ← service E (f n) v
    return w

/-- The pointer `p` points to the bytes `d`. -/
def Readable (u : Ush) (p : Ptr) (d : List UInt8) : Prop := ∀ i (h : i < d.length), ptrRead u p i = .ok d[i]

/-- The first `n` calls of an endless schedule. -/
def driveN (E : Env) (f : Nat → Slot) (u : Ush) (inp : List UInt8) (n : Nat) : M (Ush × List UInt8) :=
  drive E u inp ((List.range n).map f)

/-- Input is available again and again, and the output accepts bytes again and again. -/
def Fair (f : Nat → Slot) : Prop :=
  (∀ n, ∃ m ≥ n, (f m).ready = true) ∧ (∀ n, ∃ m ≥ n, (f m).accept = true)

end Spec
end Ush
