import Verif.Model.Parse
import Verif.Model.Autocomp
/-!
# Model of `ush.c`: initialisation, the service function, histories
-/
namespace Ush

/-- `ush_init`, ush.c:33-60, on a shell object with contents `u`.  `commands` keeps its old value: the
object has to be zeroed by the caller. -/
def ushInit (E : Env) (u : Ush) : M Ush := do
  assertM (E.inSize > 0)
  assertM (E.outSize ≥ 4)
  let u := { u with root := none }
  let u ← (if E.commandsOn then do
      let (u, _) ← commandsAdd u 0 (builtinTable E)
      pure u
    else pure u)
  ushReset u

/-- `ush_deinit`, ush.c:62-68: node objects reachable from the root and the shell object (which contains
node 0) become zero; buffers and other nodes are not touched. -/
def ushDeinit (E : Env) (u : Ush) : M Ush := do
  let nodes ← deinitRec u.nodes E.nodeCount u.root
  return { inBuf := u.inBuf, outBuf := u.outBuf, nodes := setNode nodes 0 {}, log := u.log }

/-- `ush_service`, ush.c:70-95; the flag is the return value.  Without `USH_CONFIG_ENABLE_FEATURE_AUTOCOMPLETE` the states of
TAB completion do not exist (ush_types.h:87-98), and `autocompService` does nothing in all other states. -/
def service (E : Env) (io : Io) (u : Ush) : M (Ush × Bool) := do
  assertM u.current.isSome
  match ← resetService u with
  | some u => return (u, true)
  | none =>
  match ← promptService E u with
  | some u => return (u, true)
  | none =>
  match ← readService E io u with
  | some r => return r
  | none =>
  match ← autocompService E u with
  | some u => return (u, true)
  | none =>
  match ← parseService E u with
  | some u => return (u, true)
  | none =>
  match ← writeService io u with
  | some u => return (u, true)
  | none =>
  match ← processService E u with
  | some u => return (u, true)
  | none => return (u, false)

/-- One step of a history: a service call with given I/O results, or a library call made by the
application between two service calls. -/
inductive Op
  | service (io : Io)
  | api (a : Api)
  | init
  | deinit

/-- Effect of one step. -/
def step (E : Env) (u : Ush) : Op → M Ush
  | .service io => do
    let (u, _) ← service E io u
    return u
  | .api a => runApi E u a
  | .init => ushInit E u
  | .deinit => ushDeinit E u

/-- Effect of a history. -/
def run (E : Env) : Ush → List Op → M Ush
  | u, [] => .ok u
  | u, o :: os => do
    let u ← step E u o
    run E u os

end Ush
