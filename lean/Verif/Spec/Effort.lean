import Verif.Spec.Safe
import Verif.Spec.Screen
/-!
# Specification: how many service calls an answer takes

A service call prints one byte, or finds that the output does not take one, or makes one step of the work.  The number of steps is
bounded by the size of the input buffer, the number of commands, files and directories, and the size of the files.
-/
namespace Ush.Spec

/-- The number of command groups, commands, directories and files. -/
def World.entries (W : World) : Nat :=
  W.groups.length + W.groups.files.length + W.tree.length + (W.dirs.flatMap (·.files)).length

/-- Steps to answer a TAB: one scan of all entries for every character that may be added, and two more. -/
def tabEffort (E : Env) (W : World) : Nat := (E.inSize + 2) * (3 * W.entries + 6) + 9

/-- Steps to do what a line asks for, if no file has more than `D` bytes. -/
def runEffort (E : Env) (D : Nat) (W : World) : Nat := max (max (4 * W.entries) (E.inSize + 1)) (4 * D + 3) + 10

/-- Steps to read a line and to do what it asks for. -/
def lineEffort (E : Env) (D : Nat) (W : World) : Nat := E.inSize + 2 + runEffort E D W

/-- How many of the first `n` calls find that the output does not take a byte. -/
def refused (f : Nat → Io) (n : Nat) : Nat := (List.range n).countP (fun i => !(f i).wr)

/-- The shell waits for a key, or the next thing it does is to call a process function of the application. -/
def Answered (u : Ush) : Prop := u.state = .readChar ∨ AppTurn u

/-- Nothing is answered before the last of the first `n` calls. -/
def Busy (E : Env) (f : Nat → Io) (u : Ush) (n : Nat) : Prop := ∀ m < n, ∀ x, serve E f u m = .ok x → ¬ Answered x

end Ush.Spec
