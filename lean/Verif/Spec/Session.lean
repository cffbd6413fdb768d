import Verif.Spec.Edit
import Verif.Spec.Sched
import Verif.Spec.Resolve
/-!
# Specification: a session at the prompt
-/
namespace Ush.Spec

/-- The texts of a file descriptor are C strings. -/
structure GoodFile (f : FileDesc) : Prop where
  name : cNul ∉ f.name
  description : ∀ d, f.description = some d → cNul ∉ d
  help : ∀ h, f.help = some h → cNul ∉ h

/-- What the application has to respect so that commands work: there is a working directory, the paths of all files fit the
configured path length, and the texts are C strings. -/
structure World.Ok (E : Env) (W : World) : Prop where
  cwd : W.cwd ≠ none
  names : ∀ m ∈ W.tree, ∀ f ∈ m.files, GoodComp f.name ∧ (render (m.path ++ [f.name])).length < E.pathMax
  treeTexts : ∀ m ∈ W.dirs, ∀ f ∈ m.files, GoodFile f
  cmdTexts : ∀ g ∈ W.groups, ∀ f ∈ g.files, GoodFile f

/-- Configurations: the echo of a key fits the output buffer, texts are C strings. -/
structure Config (E : Env) : Prop where
  outSize : 4 ≤ E.outSize
  texts : CStrings E

/-- The call of the general hook, if there is one. -/
def hookEvents (E : Env) (argv : List Str) : List Event := if E.hook.isSome then [.hook argv] else []

/-- The hook, if any, makes no library calls. -/
def QuietHook (E : Env) : Prop := ∀ h, E.hook = some h → ∀ argv u, h argv u = []

/-- The prompt in the world `W`. -/
def World.prompt (E : Env) (W : World) : Str := promptText E W.path

end Ush.Spec
