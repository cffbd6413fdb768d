import Verif.Spec.Fs
import Verif.Spec.Lex
/-!
# Specification: what a path or file argument means in a world, for any text
-/
namespace Ush.Spec

/-- A relative argument is put after the working directory. -/
def fullText (cwd arg : Str) : Str :=
  if arg.head? = some cSlash then arg else (if cwd = b!"/" then cwd else cwd ++ b!"/") ++ arg

/-- Removal of one trailing `/`. -/
def stripSlash (a : Str) : Str := if a.length > 1 ∧ a[a.length - 1]? = some cSlash then a.dropLast else a

/-- The parts of the rest of a path text; the first one is (the rest of) the current part.  The flag says that the
current part has no character yet: then even a `/` belongs to it. -/
def parts : Bool → Str → List Str
  | _, [] => [[]]
  | first, c :: s => if c = cSlash ∧ first = false then [] :: parts true s else push [c] (parts false s)

/-- The text to which an argument resolves in the working directory with path `cwd`. -/
def resolveText (cwd : List Str) (arg : Str) : Str :=
  let a := stripSlash (fullText (render cwd) arg)
  if a = b!"/" then b!"/" else render (normalize (parts true (a.drop 1)))

/-- The path of the working directory. -/
def World.path (W : World) : List Str := (W.cwd.map Mount.path).getD []

/-- The directory an argument names. -/
def World.dir? (W : World) (arg : Str) : Option Mount := W.tree.findText (resolveText W.path arg)

/-- The file an argument names: a command, or a file in a mounted directory. -/
def World.file? (W : World) (name : Str) : Option FileDesc :=
  (W.groups.files.find? (fun f => f.name == name)).or (W.tree.findFile (resolveText W.path name))

/-- The path buffers of the library can hold the argument, with the path of the working directory in front of it. -/
def World.Room (E : Env) (W : World) (arg : Str) : Prop := (fullText (render W.path) arg).length < E.pathMax

/-- The argument can be looked up: it is the name of a command, or there is room for its path. -/
def World.Near (E : Env) (W : World) (name : Str) : Prop := name ∈ W.groups.files.map (·.name) ∨ W.Room E name

end Ush.Spec
