import Verif.Spec.Tree
/-!
# Specification: histories of directory and command operations

`World` is what an application programmer has in mind: the mounted directories, the command groups and the
working directory.  No pointers.
-/
namespace Ush.Spec

structure World where
  tree : Tree
  groups : Groups
  /-- The working directory.  It need not be in `tree`: it may be unmounted while the shell is there. -/
  cwd : Option Mount

/-- All directories the shell can be in: the mounted ones and the working directory. -/
def World.dirs (W : World) : Tree :=
  match W.cwd with
  | none => W.tree
  | some m => if m ∈ W.tree then W.tree else m :: W.tree

/-- The directories directly below the working directory. -/
def World.below (W : World) : Tree := (W.cwd.map W.tree.under).getD []

/-- The operations. `cd` takes an absolute (`abs`) or relative path given by its components, with or without
a trailing `/`. -/
inductive FsOp
  | mount (p : List Str) (id : NodeId) (files : List FileDesc)
  | unmount (q : Str)
  | cd (abs : Bool) (comps : List Str) (slash : Bool)
  | addGroup (id : NodeId) (files : List FileDesc)
  | removeGroup (id : NodeId)

/-- The text of a path argument. -/
def argText (abs : Bool) (comps : List Str) (slash : Bool) : Str :=
  (if abs then render comps else (render comps).drop 1) ++ (if slash then b!"/" else [])

/-- The library call. -/
def FsOp.api : FsOp → Api
  | .mount p id files => .mount (render p) id files
  | .unmount q => .unmount q
  | .cd abs comps slash => .setCurrentDir (argText abs comps slash)
  | .addGroup id files => .commandsAdd id files
  | .removeGroup id => .commandsRemove id

/-- Where a path argument leads from the directory `cwd`. -/
def resolve (cwd : List Str) (abs : Bool) (comps : List Str) : List Str :=
  normalize (if abs then comps else cwd ++ comps)

/-- Removing a command group. -/
def Groups.remove (g : Groups) (id : NodeId) : Groups × Status :=
  if id ∈ List.map Group.id g then (List.filter (fun c => c.id != id) g, .ok) else (g, .nodeNotFound)

/-- The working directory after `mount`, if the mount does not change it.  A node object that has been unmounted while it was the working
directory can be mounted again.  If that fails it has got another path, and `World` does not follow it any more (see `Place`). -/
def World.remount (W : World) (m : Mount) (ok : Prop) [Decidable ok] : Option Mount :=
  match W.cwd with
  | none => none
  | some d => if d.id = m.id then (if ok then some m else none) else some d

/-- Meaning of an operation: new world and reported status. -/
def World.step (W : World) : FsOp → World × Status
  | .mount p id files =>
    let r := W.tree.mount p id files
    ({ W with tree := r.1, cwd := if r.2 = .ok ∧ p = [] then some ⟨p, id, files⟩ else W.remount ⟨p, id, files⟩ (r.2 = .ok) }, r.2)
  | .unmount q =>
    let r := W.tree.unmount q
    ({ W with tree := r.1 }, r.2)
  | .cd abs comps _ =>
    match W.cwd with
    | none => (W, .nodeNotFound)
    | some m =>
      match W.tree.find (resolve m.path abs comps) with
      | some m' => ({ W with cwd := some m' }, .ok)
      | none => (W, .nodeNotFound)
  | .addGroup id files => ({ W with groups := ⟨id, files⟩ :: W.groups, cwd := W.cwd.filter (fun m => m.id != id) }, .ok)
  | .removeGroup id => let r := W.groups.remove id; ({ W with groups := r.1 }, r.2)

/-- A node object that is in no list. -/
def World.Unlinked (W : World) (id : NodeId) : Prop :=
  (∀ m ∈ W.tree, m.id ≠ id) ∧ (∀ c ∈ W.groups, c.id ≠ id)

/-- What the application has to respect: canonical mount paths, node objects that are not in use, texts
that fit the configured path length, `cd` only while there is a working directory. -/
def World.Valid (E : Env) (W : World) : FsOp → Prop
  | .mount p id _ => (∀ c ∈ p, GoodComp c) ∧ (render p).length < E.pathMax ∧ id < E.nodeCount ∧ W.Unlinked id
  | .unmount q => q ≠ [] ∧ q.length < E.pathMax
  | .cd abs comps slash => (∀ c ∈ comps, GoodComp c) ∧ (abs = false → comps ≠ []) ∧ ∃ m, W.cwd = some m ∧
      (render m.path).length + 1 + (argText abs comps slash).length < E.pathMax
  | .addGroup id files => files ≠ [] ∧ id < E.nodeCount ∧ W.Unlinked id
  | .removeGroup _ => True

/-- A history and the statuses it reports. -/
def World.run (W : World) : List FsOp → World × List Status
  | [] => (W, [])
  | o :: os => let r := W.step o; let r' := World.run r.1 os; (r'.1, r.2 :: r'.2)

/-- Every operation of the history is valid when it is made. -/
def World.ValidRun (E : Env) (W : World) : List FsOp → Prop
  | [] => True
  | o :: os => W.Valid E o ∧ World.ValidRun E (W.step o).1 os

end Ush.Spec
