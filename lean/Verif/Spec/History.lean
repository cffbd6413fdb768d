import Verif.Spec.Fs
import Verif.Model.Service
/-!
# Specification: histories that start with `ush_init`
-/
namespace Ush

/-- The world after `ush_init`. -/
def initWorld (E : Env) : Spec.World := ⟨[], if E.commandsOn then [⟨0, builtinTable E⟩] else [], none⟩

/-- A zeroed shell object with arbitrary buffers. -/
def blank (inBuf outBuf : List UInt8) : Ush := { inBuf := inBuf, outBuf := outBuf }

namespace Spec

/-- Configurations accepted by `ush_init`. -/
structure CfgOk (E : Env) : Prop where
  inSize : 0 < E.inSize
  outSize : 4 ≤ E.outSize
  pathMax : 0 < E.pathMax
  nodes : 0 < E.nodeCount
  commands : E.commandsOn = true → builtinTable E ≠ []

/-- The history as steps of the library. -/
def steps (os : List FsOp) : List Op := .init :: os.map (fun o => Op.api o.api)

/-- The state `u` is reached from a zeroed object with some buffers by the valid history `os`. -/
def Reached (E : Env) (os : List FsOp) (u : Ush) : Prop :=
  (initWorld E).ValidRun E os ∧ ∃ inBuf outBuf, run E (blank inBuf outBuf) (steps os) = .ok u

/-- The world after the history. -/
abbrev after (E : Env) (os : List FsOp) : World := ((initWorld E).run os).1

end Spec
end Ush
