import Verif.Spec.Terminal
/-!
# Specification: when the application is asked to do something

The callbacks that do something, as opposed to those that are asked for data: `exec` of files and commands, and `set_data`.
-/
namespace Ush.Spec

/-- A callback that does something has been called. -/
def isDeed : Event → Bool
  | .exec _ _ => true
  | .setData _ _ => true
  | _ => false

/-- The calls of such callbacks. -/
def deeds (l : List Event) : List Event := l.filter isDeed

/-- `echo` with the arguments `as`: what is written to a file. -/
def World.written (W : World) : List Str → List Event
  | [a, s, t] =>
    if s = b!">" then
      match (W.file? t).bind (·.setData) with
      | some id => [.setData id (decodeSpec a)]
      | none => []
    else []
  | _ => []

/-- What a command line makes the application (or the library) do: the file named by the first word is executed; if it is `echo`, something
may be written. -/
def World.did (W : World) : List Str → List Event
  | [] => []
  | name :: as =>
    match (W.file? name).bind (·.exec) with
    | none => []
    | some cb => .exec cb (name :: as) :: (if cb = .builtin .echo then W.written as else [])

/-- The general hook leaves directories and commands alone. -/
def App.Aside (E : Env) (A : App) : Prop := ∀ W c l argv, ((Talk.start W c).run E (A.hook l argv)).1.world = W

/-- What the lines entered with the keys `cs` make it do, each in the world of its moment. -/
def Term.jobs (E : Env) (A : App) (t : Term) : List UInt8 → List Event
  | [] => []
  | c :: cs => (if isEnter c && t.ed.esc == .none then t.world.did (words (sent E.inSize t.ed.line)) else []) ++ Term.jobs E A (t.key E A c) cs

end Ush.Spec
