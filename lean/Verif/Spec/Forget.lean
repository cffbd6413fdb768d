import Verif.Spec.Terminal
/-!
# Specification: what the shell remembers

The callbacks of an application do not see keys and printed characters; they see that they are called, and what the library returns to them.
-/
namespace Ush.Spec

/-- The events an application takes part in: calls of its callbacks and what its own calls return. -/
def noticed (l : List Event) : List Event := l.filter (fun x => !x.isIo)

/-- The callbacks may depend on everything the application has noticed, but not on keys and printed characters. -/
structure App.Blind (A : App) : Prop where
  hook : ∀ l l' argv, noticed l = noticed l' → A.hook l argv = A.hook l' argv
  exec : ∀ id l l' argv, noticed l = noticed l' → A.exec id l argv = A.exec id l' argv
  get : ∀ id l l', noticed l = noticed l' → A.get id l = A.get id l'
  set : ∀ id l l' d, noticed l = noticed l' → A.set id l d = A.set id l' d

/-- The same directories and commands, the same line, and the same history for the application. -/
structure Term.Alike (t t' : Term) : Prop where
  world : t.world = t'.world
  ed : t.ed = t'.ed
  log : noticed t.log = noticed t'.log

end Ush.Spec
