import Verif.Spec.Path
import Verif.Model.Types
/-!
# Specification vocabulary: the mounted directories and the command groups

A mounted directory is a path (list of components), a node object and its files.  The tree is the list of
mounted directories, newest first; there is no pointer structure here.
-/
namespace Ush.Spec

structure Mount where
  path : List Str
  id : NodeId
  files : List FileDesc
  deriving DecidableEq

abbrev Tree := List Mount

/-- The directory mounted at `p`. -/
def Tree.find (t : Tree) (p : List Str) : Option Mount := List.find? (fun m => m.path == p) t

/-- The directory whose path has the text `q`. -/
def Tree.findText (t : Tree) (q : Str) : Option Mount := List.find? (fun m => render m.path == q) t

/-- `m` lies directly below `p`. -/
def isKid (p : List Str) (m : Mount) : Bool := m.path != [] && m.path.dropLast == p

/-- The directories directly below `p`, newest first. -/
def Tree.kids (t : Tree) (p : List Str) : Tree := List.filter (isKid p) t

/-- The directories directly below the directory `m`: none if `m` is not mounted (any more). -/
def Tree.under (t : Tree) (m : Mount) : Tree := if m ∈ t then t.kids m.path else []

/-- Mounting: the new tree and the status. -/
def Tree.mount (t : Tree) (p : List Str) (id : NodeId) (files : List FileDesc) : Tree × Status :=
  if (t.find p).isSome then (t, .nodeAlreadyMounted)
  else if p ≠ [] ∧ t.find p.dropLast = none then (t, .nodeWithoutParent)
  else (⟨p, id, files⟩ :: t, .ok)

/-- Unmounting the directory whose path has the text `q`. -/
def Tree.unmount (t : Tree) (q : Str) : Tree × Status :=
  match t.findText q with
  | none => (t, .nodeNotFound)
  | some m => if t.kids m.path ≠ [] then (t, .nodeWithChilds)
      else (List.filter (fun x => x.path != m.path) t, .ok)

/-- A command group. -/
structure Group where
  id : NodeId
  files : List FileDesc
  deriving DecidableEq

/-- The command groups, newest first. -/
abbrev Groups := List Group

/-- The files of all groups in search order. -/
def Groups.files (g : Groups) : List FileDesc := List.flatMap (·.files) g

/-- The first file, in mount order (newest directory first), whose full path has the text `q`. -/
def Tree.findFile (t : Tree) (q : Str) : Option FileDesc :=
  List.findSome? (fun m => m.files.find? (fun f => render (m.path ++ [f.name]) == q)) t

end Ush.Spec
