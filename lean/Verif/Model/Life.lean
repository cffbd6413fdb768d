import Verif.Model.Service
/-!
# The pointer to the descriptor

`Ush` has no field for `self->desc`: while the shell is in use, the pointer is not NULL and its contents are those of `Env`.  This file adds the
pointer, for histories in which library calls come before `ush_init` or after `ush_deinit`.
-/
namespace Ush

/-- A shell object and whether its pointer `desc` is set.  It is set by `ush_init` (ush.c:49) and zeroed by `ush_deinit` (ush.c:67); nothing else
writes it. -/
structure Bound where
  bound : Bool
  ush : Ush

/-- Does the call read the descriptor?  `ush_printf` (ush.c:120), `ush_flush` (ush.c:185), `ush_node_mount` and `ush_node_unmount` (through
`ush_node_get_by_path`, ush_node.c:35; for the former ush_node_mount.c:44, for the latter ush_node_mount.c:73), `ush_node_set_current_dir` unless the path is
empty (ush_node_utils.c:51-54).  `ush_service` comes to read it in most states, but asserts first that there is a working directory (ush.c:73); `C72_outside`
shows that this assertion fails whenever the pointer is NULL.  The application fills the output buffer through its own pointer. -/
def Op.readsDesc : Op → Bool
  | .api (.printf _) => true
  | .api .flush => true
  | .api (.mount _ _ _) => true
  | .api (.unmount _) => true
  | .api (.setCurrentDir path) => !path.isEmpty
  | _ => false

/-- The pointer after a call. -/
def Op.binds : Op → Bool → Bool
  | .init, _ => true
  | .deinit, _ => false
  | _, b => b

/-- One step of a history. -/
def Bound.step (E : Env) (o : Bound) (x : Op) : M Bound :=
  if x.readsDesc && !o.bound then .error .null
  else do
    let u ← Ush.step E o.ush x
    return ⟨x.binds o.bound, u⟩

/-- A history. -/
def Bound.run (E : Env) : Bound → List Op → M Bound
  | o, [] => .ok o
  | o, x :: xs => do
    let o ← o.step E x
    Bound.run E o xs

end Ush
