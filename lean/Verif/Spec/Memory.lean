import Verif.Spec.Safe
import Verif.Spec.History
/-!
# Specification: memory given to `ush_init`
-/
namespace Ush.Spec

/-- What `ush_init` needs of the shell object and of the node objects to be used with it: the list of commands is empty, and no node object has children.  All else may hold anything. -/
structure Unused (E : Env) (u : Ush) : Prop where
  commands : u.commands = none
  children : ∀ i, (u.nodes i).children = none
  inLen : u.inBuf.length = E.inSize
  outLen : u.outBuf.length = E.outSize

/-- From `ush_init` to `ush_deinit`: a valid history, and what happens then. -/
structure OneLife where
  hist : List FsOp
  moves : List Move

def OneLife.ops (x : OneLife) : List Op := steps x.hist ++ x.moves.flatMap Move.ops ++ [.deinit]

/-- Each of the lives, one after the other, respects the rules of C23. -/
def LegalLives (E : Env) (L : Nat) : Ush → List OneLife → Prop
  | _, [] => True
  | u, x :: xs => (initWorld E).ValidRun E x.hist ∧ (after E x.hist).Ok E ∧ (after E x.hist).Fits E L ∧ (∀ v, run E u (steps x.hist) = .ok v → Legal E L v x.moves) ∧
      ∀ v, run E u x.ops = .ok v → LegalLives E L v xs

end Ush.Spec
