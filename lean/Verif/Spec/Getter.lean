import Verif.Model.Getter
import Verif.Spec.Sched
/-!
# Specification: getters that make library calls
-/
namespace Ush.Spec

/-- A call that prints. -/
def IsPrint : Api → Prop
  | .print _ | .printNoNewline _ | .printStatus _ | .printf _ | .flush | .reset => True
  | _ => False

/-- The getter prints, and makes no other calls. -/
def Loud (G : Getters) (id : Nat) : Prop := ∀ u, G id u ≠ [] ∧ ∀ a ∈ G id u, IsPrint a

/-- The getter prints texts with `ush_print` or `ush_print_no_newline`, at least one, and makes no other calls. -/
def Utters (G : Getters) (id : Nat) : Prop :=
  ∀ u, G id u ≠ [] ∧ ∀ a ∈ G id u, ∃ s, cNul ∉ s ∧ (a = .print (.str s) ∨ a = .printNoNewline (.str s))

/-- The getter makes no calls. -/
def Mute (G : Getters) (id : Nat) : Prop := ∀ u, G id u = []

/-- No getter with calls is called in the piece `l` of a log. -/
def Unheard (G : Getters) (l : List Event) : Prop := ∀ id, .getData id ∈ l → Mute G id

/-- `drive1`, with such getters. -/
def drive1G (E : Env) (G : Getters) (u : Ush) (inp : List UInt8) (s : Slot) : M (Ush × List UInt8) := do
  let (v, _) ← serviceG E G ⟨if s.ready then inp.head? else none, s.accept⟩ u
  return (v, if u.state = .readChar ∧ s.ready = true then inp.tail else inp)

/-- `drive`, with such getters. -/
def driveG (E : Env) (G : Getters) : Ush → List UInt8 → List Slot → M (Ush × List UInt8)
  | u, inp, [] => .ok (u, inp)
  | u, inp, s :: ss => do
    let (v, r) ← drive1G E G u inp s
    driveG E G v r ss

/-- `driveN`, with such getters. -/
def driveNG (E : Env) (G : Getters) (f : Nat → Slot) (u : Ush) (inp : List UInt8) (n : Nat) : M (Ush × List UInt8) :=
  driveG E G u inp ((List.range n).map f)

end Ush.Spec
