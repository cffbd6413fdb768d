import Verif.Model.Nested
import Verif.Spec.Safe
/-!
# Specification: callbacks that call `ush_service`
-/
namespace Ush.Spec

/-- How the callbacks go on: what the callback does next, given what it has done so far (with the values returned by `ush_service`) and the state of the shell.  `none`: it returns. -/
abbrev Strategy := Callback → List (Move × Bool) → Ush → Option Move

/-- The general hook does nothing more. -/
def PlainHook (K : Rest) : Prop := ∀ argv w, K (.hook argv) w = .ok w

/-- The general hook just returns. -/
def Strategy.NoHook (S : Strategy) : Prop := ∀ argv done u, S (.hook argv) done u = none

/-- The rest of one callback, at most `n` moves.  `srv` is `ush_service`.  `x` stands for "more than `n`". -/
def carryOn (E : Env) (x : Fault) (srv : Io → Ush → M (Ush × Bool)) (s : List (Move × Bool) → Ush → Option Move) : Nat → List (Move × Bool) → Ush → M Ush
  | n, done, u =>
    match s done u with
    | none => .ok u
    | some m =>
      match n with
      | 0 => .error x
      | n + 1 =>
        match m with
        | .service io => do
          let (v, b) ← srv io u
          carryOn E x srv s n (done ++ [(.service io, b)]) v
        | .calls as => do
          let v ← runApis E u as
          carryOn E x srv s n (done ++ [(.calls as, true)]) v

/-- `ush_service` with such callbacks.  Callbacks called by `ush_service` called by callbacks do the same, and so on.  `n` bounds how deep this goes, and the number of moves of each
callback; if it is not enough the result is the fault `x`. -/
def serviceN (E : Env) (S : Strategy) (x : Fault) : Nat → Io → Ush → M (Ush × Bool)
  | 0, _, _ => .error x
  | n + 1, io, u => serviceK E (fun c => carryOn E x (serviceN E S x n) (S c) n []) io u

/-- All moves of the history satisfy `P` in the state in which they are made. -/
def Obeys (E : Env) (P : Ush → Move → Prop) : Ush → List Move → Prop
  | _, [] => True
  | u, m :: ms => P u m ∧ ∀ v, run E u m.ops = .ok v → Obeys E P v ms

/-- Everything the callbacks do is fine by the rules (Spec/Safe.lean) when they do it. -/
def Strategy.Ok (E : Env) (L : Nat) (S : Strategy) : Prop := ∀ c done u m, S c done u = some m → m.Ok E L u

/-- A history with such callbacks. -/
def runN (E : Env) (S : Strategy) (x : Fault) (n : Nat) : Ush → List Move → M Ush
  | u, [] => .ok u
  | u, .service io :: ms => do
    let (v, _) ← serviceN E S x n io u
    runN E S x n v ms
  | u, .calls as :: ms => do
    let v ← runApis E u as
    runN E S x n v ms

/-- Every move of it is fine when it is made. -/
def LegalN (E : Env) (L : Nat) (S : Strategy) (x : Fault) (n : Nat) : Ush → List Move → Prop
  | _, [] => True
  | u, m :: ms => m.Ok E L u ∧ ∀ v, runN E S x n u [m] = .ok v → LegalN E L S x n v ms

/-- A callback that prints texts one after the other: after each of them it calls `ush_service` until it is printed. -/
def pages (ts : List Str) : List (Move × Bool) → Ush → Option Move := fun done u =>
  if u.state = .writeChar then some (.service ⟨none, true⟩)
  else (ts[done.countP fun m => match m.1 with | .calls _ => true | .service _ => false]?).map fun t => .calls [.printNoNewline (.str t)]

/-- All callbacks but the hook do that. -/
def pagesOf (ts : List Str) : Strategy
  | .hook _ => fun _ _ => none
  | _ => pages ts

end Ush.Spec
