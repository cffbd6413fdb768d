import Verif.Spec.Calls
import Verif.Spec.Sched
/-!
# Specification: commands that answer later

A command of the application may start a process (`ush_process_start`) instead of answering at once.  From then on the
`process` function of the descriptor is called by every service call, until it prints something.
-/
namespace Ush.Spec

/-- The call makes the shell print (possibly an empty text). -/
def Call.speaks : Call → Bool
  | .fs _ => false
  | _ => true

/-- Called again and again, beginning with the log `l` and the talk `T`, the process function `p` at first prints nothing (it
may mount, unmount and so on) and in its last call prints something.  This adds `ev` to the log, ends with `T'`. -/
inductive Later (E : Env) (p : Nat) : List Event → Talk → List Event → Talk → Prop
  | wait {l : List Event} {T : Talk} {cs : List Call} {ev : List Event} {T' : Talk} (hsay : Says l (E.userProc p) cs)
      (quiet : ∀ c ∈ cs, c.speaks = false) (valid : T.ValidRun E cs) (ok : (T.run E cs).1.world.Ok E)
      (rest : Later E p (l ++ .proc p :: (T.run E cs).2.map .ret) (T.run E cs).1 ev T') :
      Later E p l T (.proc p :: (T.run E cs).2.map .ret ++ ev) T'
  | answer {l : List Event} {T : Talk} {cs : List Call} (hsay : Says l (E.userProc p) cs) (speaks : ∃ c ∈ cs, c.speaks = true)
      (valid : T.ValidRun E cs) (ok : (T.run E cs).1.world.Ok E) :
      Later E p l T (.proc p :: (T.run E cs).2.map .ret ++ outs ((T.run E cs).1.output ++ (T.run E cs).1.world.prompt E)) (T.run E cs).1

/-- Called `n` times, beginning with the log `l` and the talk `T`, the process function `p` prints nothing.  This adds `ev` to the
log and leads to `T'`. -/
inductive Silent (E : Env) (p : Nat) : Nat → List Event → Talk → List Event → Talk → Prop
  | none {l : List Event} {T : Talk} : Silent E p 0 l T [] T
  | one {n : Nat} {l : List Event} {T : Talk} {cs : List Call} {ev : List Event} {T' : Talk} (hsay : Says l (E.userProc p) cs)
      (quiet : ∀ c ∈ cs, c.speaks = false) (valid : T.ValidRun E cs) (ok : (T.run E cs).1.world.Ok E)
      (rest : Silent E p n (l ++ .proc p :: (T.run E cs).2.map .ret) (T.run E cs).1 ev T') :
      Silent E p (n + 1) l T (.proc p :: (T.run E cs).2.map .ret ++ ev) T'

/-- When the callback `f` is called with the log `l`, it makes the calls `cs` and then starts the process of the descriptor `g`. -/
def SaysThenStarts (l : List Event) (f : Ush → List Api) (cs : List Call) (g : FileDesc) : Prop :=
  ∀ u : Ush, u.log = l → f u = cs.flatMap Call.apis ++ [.processStart g]

end Ush.Spec
