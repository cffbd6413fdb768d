import Verif.Spec.Nested
import Verif.Spec.Sched
/-!
# Specification: callbacks that write to their arguments

The words of the line given to a command, and the bytes given to a setter, are in the input buffer of the shell, and the application may write to them.
-/
namespace Ush.Spec

/-- What a callback leaves in the input buffer. -/
abbrev Writer := Callback → Ush → List UInt8

/-- It stays within the buffer. -/
def Writer.Within (g : Writer) : Prop := ∀ c u, (g c u).length = u.inBuf.length

/-- Callbacks for commands and for data write to the input buffer before they return. -/
def scribble (g : Writer) : Rest
  | .exec id argv => fun u => .ok { u with inBuf := g (.exec id argv) u }
  | .set id d => fun u => .ok { u with inBuf := g (.set id d) u }
  | .proc _ => .ok
  | .hook _ => .ok

/-- Calls that do not start a process, set the state, or print from the input buffer. -/
def Mild : Api → Prop
  | .print p | .printNoNewline p => ∀ o, p ≠ .inBuf o
  | .processStart _ | .setState _ => False
  | _ => True

/-- Calls that do not start a process of the library, and set the state only to those of a new prompt or a new line. -/
def Harmless : Api → Prop
  | .processStart f => ∀ b, f.process ≠ some (.builtin b)
  | .setState .reset | .setState .resetPrompt | .setState .readPrepare => True
  | .setState _ => False
  | _ => True

/-- `drive1` (Spec/Sched.lean) with such callbacks. -/
def drive1K (E : Env) (K : Rest) (u : Ush) (inp : List UInt8) (s : Slot) : M (Ush × List UInt8) := do
  let (v, _) ← serviceK E K ⟨if s.ready then inp.head? else none, s.accept⟩ u
  return (v, if u.state = .readChar ∧ s.ready = true then inp.tail else inp)

/-- `drive` with such callbacks. -/
def driveK (E : Env) (K : Rest) : Ush → List UInt8 → List Slot → M (Ush × List UInt8)
  | u, inp, [] => .ok (u, inp)
  | u, inp, s :: ss => do
    let (v, r) ← drive1K E K u inp s
    driveK E K v r ss

/-- `driveN` with such callbacks. -/
def driveNK (E : Env) (K : Rest) (f : Nat → Slot) (u : Ush) (inp : List UInt8) (n : Nat) : M (Ush × List UInt8) :=
  driveK E K u inp ((List.range n).map f)

/-- `Steps` with such callbacks. -/
def StepsK (E : Env) (K : Rest) (u : Ush) (inp : List UInt8) (v : Ush) (r : List UInt8) : Prop :=
  ∃ n, driveK E K u inp (List.replicate n Slot.full) = .ok (v, r)

/-- A history (Spec/Safe.lean) with such callbacks. -/
def runK (E : Env) (K : Rest) : Ush → List Move → M Ush
  | u, [] => .ok u
  | u, .service io :: ms => do
    let (v, _) ← serviceK E K io u
    runK E K v ms
  | u, .calls as :: ms => do
    let v ← runApis E u as
    runK E K v ms

/-- Every move of it is fine when it is made. -/
def LegalK (E : Env) (L : Nat) (K : Rest) : Ush → List Move → Prop
  | _, [] => True
  | u, m :: ms => m.Ok E L u ∧ ∀ v, runK E K u [m] = .ok v → LegalK E L K v ms

end Ush.Spec
