import Verif.Spec.History
/-!
# Specification: the working directory, mounted or not

`World` forgets the working directory when it is unmounted.  `Place` follows the node object the shell stays in: the
application may unmount it, give it another path with a second mount (even one that is refused), or make it a command
group, which leaves it without a path.
-/
namespace Ush.Spec

structure Place where
  tree : Tree
  groups : Groups
  /-- The node object of the working directory and its path, if it has one. -/
  here : Option (NodeId × Option (List Str))

/-- The directories and command groups. -/
def Place.world (S : Place) : World := ⟨S.tree, S.groups, none⟩

/-- The path of the working directory. -/
def Place.path (S : Place) : Option (List Str) := S.here.bind (·.2)

/-- The object `id` gets another path. -/
def Place.rename (S : Place) (id : NodeId) (p : Option (List Str)) : Option (NodeId × Option (List Str)) :=
  S.here.map (fun h => if h.1 = id then (id, p) else h)

/-- Meaning of an operation: the new place and the reported status. -/
def Place.step (S : Place) : FsOp → Place × Status
  | .mount p id files =>
    let r := S.tree.mount p id files
    (⟨r.1, S.groups, if r.2 = .ok ∧ p = [] then some (id, some []) else S.rename id (some p)⟩, r.2)
  | .unmount q => let r := S.tree.unmount q; (⟨r.1, S.groups, S.here⟩, r.2)
  | .cd abs comps _ =>
    match S.tree.find (resolve (S.path.getD []) abs comps) with
    | some m => (⟨S.tree, S.groups, some (m.id, some m.path)⟩, .ok)
    | none => (S, .nodeNotFound)
  | .addGroup id files => (⟨S.tree, ⟨id, files⟩ :: S.groups, S.rename id none⟩, .ok)
  | .removeGroup id => let r := S.groups.remove id; (⟨S.tree, r.1, S.here⟩, r.2)

/-- What the application has to respect.  Unlike `World.Valid` this allows `cd` in a directory that is not mounted
any more; a relative path needs a working directory that has a path. -/
def Place.Valid (E : Env) (S : Place) : FsOp → Prop
  | .cd abs comps slash => (∀ c ∈ comps, GoodComp c) ∧ (abs = false → comps ≠ []) ∧
      (if abs then (argText true comps slash).length < E.pathMax
       else ∃ w, S.path = some w ∧ (render w).length + 1 + (argText false comps slash).length < E.pathMax)
  | o => S.world.Valid E o

/-- A history and the statuses it reports. -/
def Place.run (S : Place) : List FsOp → Place × List Status
  | [] => (S, [])
  | o :: os => let r := S.step o; let r' := Place.run r.1 os; (r'.1, r.2 :: r'.2)

/-- Every operation of the history is valid when it is made. -/
def Place.ValidRun (E : Env) (S : Place) : List FsOp → Prop
  | [] => True
  | o :: os => S.Valid E o ∧ Place.ValidRun E (S.step o).1 os

/-- The place after `ush_init`. -/
def initPlace (E : Env) : Place := ⟨(initWorld E).tree, (initWorld E).groups, none⟩

/-- The working directory is one of the mounted directories. -/
def Place.Mounted (S : Place) : Prop := ∃ m ∈ S.tree, S.here = some (m.id, some m.path)

/-- The same seen from outside: looking up the path of the working directory gives the working directory. -/
def AtHome (E : Env) (u : Ush) : Prop := ∃ c p, u.current = some c ∧ currentPath u = .ok p ∧ getByPath E u p = .ok (some c)

/-- The operations that bring the shell into a mounted directory when they succeed: `cd`, the mount of the root, and the mount
of the node object the shell is in. -/
def FsOp.LeadsHome (u : Ush) : FsOp → Prop
  | .cd _ _ _ => True
  | .mount p id _ => p = [] ∨ u.current = some id
  | _ => False

end Ush.Spec
