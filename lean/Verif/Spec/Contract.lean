import Verif.Model.Service
/-!
# Specification: what the application's callbacks can rely on
-/
namespace Ush.Spec

/-- The file descriptors the application hands over in a library call all satisfy `F`. -/
def ApiFiles (F : FileDesc → Prop) : Api → Prop
  | .mount _ _ files => ∀ f ∈ files, F f
  | .commandsAdd _ files => ∀ f ∈ files, F f
  | .processStart f => F f
  | _ => True

/-- ... in a step of a history. -/
def OpFiles (F : FileDesc → Prop) : Op → Prop
  | .api a => ApiFiles F a
  | _ => True

/-- ... in the calls made by its callbacks; and the built-in commands satisfy `F`. -/
structure EnvFiles (E : Env) (F : FileDesc → Prop) : Prop where
  builtin : E.commandsOn = true → ∀ f ∈ builtinTable E, F f
  hook : ∀ h, E.hook = some h → ∀ argv u, ∀ a ∈ h argv u, ApiFiles F a
  exec : ∀ id argv u, ∀ a ∈ E.userExec id argv u, ApiFiles F a
  proc : ∀ id u, ∀ a ∈ E.userProc id u, ApiFiles F a
  set : ∀ id d u, ∀ a ∈ E.userSet id d u, ApiFiles F a

/-- An argument vector that fits the input buffer: it is not empty, the arguments are C strings, and with their terminators they are not larger than the buffer. -/
structure ArgvOk (E : Env) (argv : List Str) : Prop where
  some : argv ≠ []
  strings : ∀ a ∈ argv, cNul ∉ a
  size : (argv.map (·.length + 1)).sum ≤ E.inSize

/-- The rules for callbacks: only callbacks of descriptors in `F` are called, with arguments and data that fit the input buffer. -/
def Permitted (E : Env) (F : FileDesc → Prop) : Event → Prop
  | .hook argv => E.hook ≠ none ∧ ArgvOk E argv
  | .exec cb argv => (∃ f, F f ∧ f.exec = some cb) ∧ ArgvOk E argv
  | .proc id => ∃ f, F f ∧ f.process = some (.user id)
  | .getData id => ∃ f, F f ∧ f.getData = some id
  | .setData id d => (∃ f, F f ∧ f.setData = some id) ∧ d.length < E.inSize
  | _ => True

end Ush.Spec
