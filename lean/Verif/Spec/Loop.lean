import Verif.Spec.Terminal
import Verif.Spec.Sched
/-!
# Calling `ush_service` until it returns `false`

inc/ush.h:66-78: "In case of synchronous blocking environment, it should be called in loop until return false"; `true` is returned
when the shell is busy, `false` when it has nothing to do ("read input interface").
-/
namespace Ush.Spec

/-- `while (ush_service(&ush));` with pending input `inp`.  For every call the list tells whether the terminal took a byte in case one was
offered. -/
inductive Loop (E : Env) : Ush → List UInt8 → List Bool → Ush → List UInt8 → Prop
  | stop {u inp a v} : service E ⟨inp.head?, a⟩ u = .ok (v, false) →
      Loop E u inp [a] v (if u.state = .readChar then inp.tail else inp)
  | again {u inp a v as w r} : service E ⟨inp.head?, a⟩ u = .ok (v, true) →
      Loop E v (if u.state = .readChar then inp.tail else inp) as w r → Loop E u inp (a :: as) w r

/-- Several such loops, one after the other. -/
inductive Loops (E : Env) : Nat → Ush → List UInt8 → Ush → List UInt8 → Prop
  | zero {u inp} : Loops E 0 u inp u inp
  | succ {n u inp as v q w r} : Loop E u inp as v q → Loops E n v q w r → Loops E (n + 1) u inp w r

/-- Does that key end the line?  (ETX always does, CR and LF do unless they are part of an escape sequence.) -/
def Term.ends (t : Term) (c : UInt8) : Bool := c == cEtx || (isEnter c && t.ed.esc == .none)

/-- What is handled by one loop: the keys up to the first one that ends the line.  The second component are the keys left. -/
def Term.round (E : Env) (A : App) (t : Term) : List UInt8 → Term × List UInt8
  | [] => (t, [])
  | c :: cs => if t.ends c then (t.key E A c, cs) else (t.key E A c).round E A cs

/-- How many lines are ended by these keys. -/
def Term.ended (E : Env) (A : App) (t : Term) : List UInt8 → Nat
  | [] => 0
  | c :: cs => (t.key E A c).ended E A cs + if t.ends c then 1 else 0

/-- The states in which a line is executed, from the end of the line up to the next prompt, and the one in which the next line begins. -/
def isLine : St → Bool
  | .parsePrepare | .parseSearchArg | .parseQuoteArg | .parseStandardArg | .processStart | .processService | .processFinish
  | .reset | .resetPrompt | .readPrepare | .writeChar => true
  | _ => false

/-- A process function of the application does not put the shell into another state. -/
def Orderly (E : Env) : Prop := ∀ id u, ∀ s, Api.setState s ∈ E.userProc id u → isLine s = true ∧ s ≠ .writeChar

end Ush.Spec
