import Verif.Spec.Demo
/-!
# Specification: lines entered one after the other

The user types, corrects with the erase keys, and presses Enter.
-/
namespace Ush.Spec

/-- The keys `k` type a line shorter than `L`: neither Ctrl+C, TAB, Enter nor ESC, and the input buffer is never filled. -/
structure Types (E : Env) (L : Nat) (k : Str) : Prop where
  text : ∀ c ∈ k, isText c = true
  fits : ∀ p, p <+: k → (edit [] p).length + 1 < E.inSize
  short : (edit [] k).length < L

/-- The keys with which the lines are entered. -/
def entered (ks : List Str) : List UInt8 := ks.flatMap (· ++ [cCr])

/-- What the terminal shows while `k` is typed, the line so far being `line`: characters (but NUL) are echoed, an erase key erases one character. -/
def typeLog (line : Str) : Str → List Event
  | [] => []
  | c :: k => .inp c :: outs (if isErase c then (if line = [] then [] else [cBs, cSpace, cBs]) else if c = cNul then [] else [c]) ++ typeLog (edit line [c]) k

/-- A line is entered: typing, Enter, the answer of the shell to the words of the line. -/
def Term.enter (E : Env) (A : App) (t : Term) (k : Str) : Term :=
  let l := t.log ++ typeLog [] k ++ .inp cCr :: outs crlf
  let x := lineAnswer E A t.world cCr l (words (edit [] k))
  ⟨x.2, {}, l ++ x.1⟩

end Ush.Spec
