import Verif.Spec.Safe
/-!
# Specification: directories and commands that come while something is being printed
-/
namespace Ush.Spec

/-- What happened, without the statuses that library calls returned. -/
def happened (l : List Event) : List Event := l.filter (fun e => match e with | .ret _ => false | _ => true)

/-- The built-in command `b` is at work.  `ls` has at least prepared its first lines. -/
def Started (u : Ush) (b : Builtin) : Prop :=
  ∃ f, u.procFile = some f ∧ f.process = some (.builtin b) ∧
    (next u = .processService ∨ next u = .processFinish ∨ next u = .processStart ∧ b ≠ .ls)

/-- A directory is mounted or a group of commands is added.  `cat` looks up its arguments one after the other, so new commands matter. -/
def Comes (b : Builtin) (u : Ush) : Api → Prop
  | .mount p i _ => p ≠ b!"/" ∧ u.current ≠ some i
  | .commandsAdd i _ => b ≠ .cat ∧ u.current ≠ some i
  | _ => False

/-- Service calls and such changes, until the shell waits for a key. -/
def Meanwhile (E : Env) (b : Builtin) : Ush → List Move → Prop
  | _, [] => True
  | u, m :: ms => u.state ≠ .readChar ∧ (match m with
      | .service _ => True
      | .calls as => ∃ a, as = [a] ∧ Comes b u a) ∧ ∀ v, run E u m.ops = .ok v → Meanwhile E b v ms

/-- The service calls alone. -/
def services (ms : List Move) : List Move := ms.filter (fun m => match m with | .service _ => true | .calls _ => false)

/-- What a file contains depends on what has happened, apart from the statuses of library calls. -/
def Unaware (E : Env) : Prop := ∀ id u v, happened v.log = happened u.log → E.userGet id v = E.userGet id u

end Ush.Spec
