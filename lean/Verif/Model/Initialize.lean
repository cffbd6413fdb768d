import Verif.Spec.History
/-!
# The example application Initialize

`/repo/examples/Initialize/Initialize.ino`: a shell with nothing but its built-in commands.
-/
namespace Ush
open Spec

/-- The configuration (Initialize.ino:53-73).  There are no callbacks (the field `userGet` is never used). -/
def minimal : Env where
  inSize := 32
  outSize := 32
  pathMax := 32
  hostname := b!"arduino"
  nodeCount := 2
  userGet := fun _ _ => some []

/-- `setup`, Initialize.ino:78-91. -/
def minimalSetup : List FsOp := [.mount [] 1 []]

end Ush
