import Verif.Spec.Own
import Verif.Spec.Sched
/-!
# Specification: two shells in one program, each with its terminal
-/
namespace Ush.Spec

/-- Service calls of the first (`false`) and the second (`true`) shell in any order; `p` and `q` are the keys still to be read from the two terminals. -/
def driveTwo (A B : Env) : Two → List UInt8 → List UInt8 → List (Bool × Slot) → M (Two × List UInt8 × List UInt8)
  | t, p, q, [] => .ok (t, p, q)
  | t, p, q, (false, s) :: ss => do
    let (v, r) ← drive1 A (view t.a t.heap) p s
    driveTwo A B { t with a := v, heap := v.nodes } r q ss
  | t, p, q, (true, s) :: ss => do
    let (v, r) ← drive1 B (view t.b t.heap) q s
    driveTwo A B { t with b := v, heap := v.nodes } p r ss

/-- Both shells are serviced again and again, with input available and with output accepted. -/
def FairTwo (f : Nat → Bool × Slot) : Prop :=
  ∀ w n, (∃ m ≥ n, (f m).1 = w ∧ (f m).2.ready = true) ∧ ∃ m ≥ n, (f m).1 = w ∧ (f m).2.accept = true

/-- The calls for one of them. -/
def slots (w : Bool) (ss : List (Bool × Slot)) : List Slot := ss.filterMap (fun x => if x.1 = w then some x.2 else none)

end Ush.Spec
