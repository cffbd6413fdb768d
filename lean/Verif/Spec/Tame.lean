import Verif.Spec.Terminal
import Verif.Spec.Safe
/-!
# Specification: applications that leave the directories alone

For an application whose callbacks may print and may reset the shell, but do not mount or unmount anything, what has to be respected at the keyboard
is a bound on the lengths: nothing has to be known about the commands that are typed.
-/
namespace Ush.Spec

/-- `V` is the world `W`, in some directory. -/
def World.Moved (W V : World) : Prop := V.tree = W.tree ∧ V.groups = W.groups ∧ ∃ m ∈ W.dirs, V.cwd = some m

/-- The calls `cs`, made by a callback in any directory, respect the rules of the library and leave the directories and commands alone. -/
def Chats (E : Env) (W : World) (cs : List Call) : Prop :=
  ∀ V c, W.Moved V → (Talk.start V c).ValidRun E cs ∧ W.Moved ((Talk.start V c).run E cs).1.world

/-- The application leaves the directories and commands of `W` alone. -/
structure App.Tame (E : Env) (A : App) (W : World) : Prop where
  hook : ∀ l argv, A.hook l argv = []
  exec : ∀ id l argv, Chats E W (A.exec id l argv)
  get : ∀ id l, (A.get id l).length ≤ 16 ^ 8
  set : ∀ id l d, Chats E W (A.set id l d)

/-- Names that can be completed: none is longer than `N`, none contains a line end, and the path buffers can hold all of them in every directory. -/
structure World.Plain (E : Env) (N : Nat) (W : World) : Prop where
  files : ∀ f ∈ W.files, f.name.length ≤ N ∧ cLf ∉ f.name ∧ cCr ∉ f.name
  dirs : ∀ m ∈ W.tree, (dirName m.path).length ≤ N ∧ cLf ∉ dirName m.path ∧ cCr ∉ dirName m.path
  paths : ∀ m ∈ W.dirs, (render m.path).length + N + 1 < E.pathMax

/-- Lengths to be respected at the keyboard: the words of a line that is entered are shorter than `L`; where a word is completed, it is shorter than `L` and there is
room for a name of length `N` in its place.  (And NUL is not part of the line when TAB is pressed.) -/
def Term.Short (E : Env) (L N : Nat) (t : Term) (c : UInt8) : Prop :=
  if c = cTab then
    E.autocomplete = true → cNul ∉ t.ed.line ∧ (tabTarget t.ed.line).2.length < L ∧ (tabTarget t.ed.line).1.length + N < E.inSize
  else if isEnter c && t.ed.esc == .none then ∀ w ∈ words (sent E.inSize t.ed.line), w.length < L
  else True

def Term.ShortAll (E : Env) (A : App) (L N : Nat) (t : Term) : List UInt8 → Prop
  | [] => True
  | c :: cs => t.Short E L N c ∧ Term.ShortAll E A L N (t.key E A c) cs

/-- What has to be respected if every line can be entered: where TAB is pressed, the names offered fit the buffers. -/
def Term.TabsAll (E : Env) (A : App) (t : Term) : List UInt8 → Prop
  | [] => True
  | c :: cs => (c = cTab → E.autocomplete = true → t.world.LineFits E t.ed.line ∧ t.world.LineClean E t.ed.line) ∧
      Term.TabsAll E A (t.key E A c) cs

end Ush.Spec
