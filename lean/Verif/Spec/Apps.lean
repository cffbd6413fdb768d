import Verif.Spec.Reach
/-!
# Specification: what the keyboard and what the application has to respect, apart

`Term.Ok` says what has to be respected when a key is typed.  Here it is taken apart: `Term.AppOk` is the part of the application (its callbacks make allowed calls, and
the directories and commands they leave are fine), `Term.NearApp` is the part of the person at the keyboard (there is room for what is typed, and for the rows of what is
asked for).
-/
namespace Ush.Spec

/-- The words of the line. -/
def Term.argv (E : Env) (t : Term) : List Str := words (sent E.inSize t.ed.line)

/-- What has happened when the line end `c` has been read. -/
def Term.entered (t : Term) (c : UInt8) : List Event := t.log ++ .inp c :: outs (enterEcho c)

/-- What the general hook makes of the line. -/
def Term.hooked (E : Env) (A : App) (t : Term) (c : UInt8) : Talk × List Status := (Talk.start t.world c).run E (A.hook (t.entered c) (t.argv E))

/-- The key is a line end that enters the line. -/
def Term.enters (t : Term) (c : UInt8) : Bool := isEnter c && t.ed.esc == .none

/-- There is room in the output buffer for the rows of what is asked for with a built-in command. -/
def builtinShows (E : Env) (A : App) (W : World) (l : List Event) : Builtin → List Str → Prop
  | .help, [] => helpFits E W
  | .ls, [] => ∀ m, W.cwd = some m → lsFits E m
  | .ls, [a] => ∀ m, W.dir? a = some m → lsFits E m
  | .xxd, [a] => ∀ id, (W.file? a).bind (·.getData) = some id → xxdFits E (A.get id l)
  | _, _ => True

/-- ... with a line, after `l` has happened. -/
def lineShows (E : Env) (A : App) (W : World) (l : List Event) : List Str → Prop
  | [] => True
  | name :: as =>
      match (W.file? name).bind (·.exec) with
      | some (.builtin b) => builtinShows E A W (l ++ [.exec (.builtin b) (name :: as)]) b as
      | _ => True

/-- What has happened when the hook is done. -/
def Term.prepared (E : Env) (A : App) (t : Term) (c : UInt8) : List Event :=
  t.entered c ++ (hookEvents E (t.argv E) ++ (t.hooked E A c).2.map .ret)

/-- There is room for what is typed: at Enter for the line end and a NUL, for the words of the line that are looked up (after the hook) and for the rows of what is asked for;
at TAB for the names. -/
def Term.NearApp (E : Env) (A : App) (t : Term) (c : UInt8) : Prop :=
  if c = cTab then E.autocomplete = true → t.world.LineFits E t.ed.line
  else if t.enters c then 2 ≤ E.inSize ∧ (t.hooked E A c).1.world.LineNear E (t.argv E) ∧ lineShows E A (t.hooked E A c).1.world (t.prepared E A c) (t.argv E)
  else True

def Term.NearAppAll (E : Env) (A : App) (t : Term) : List UInt8 → Prop
  | [] => True
  | c :: cs => t.NearApp E A c ∧ Term.NearAppAll E A (t.key E A c) cs

/-- Directories and commands that the shell can work with. -/
structure World.Sound (E : Env) (W : World) : Prop where
  ok : W.Ok E
  proper : ∀ f ∈ W.files, Proper f

/-- The calls `cs` are allowed, and what they leave is fine. -/
def Talk.Civil (E : Env) (T : Talk) (cs : List Call) : Prop := T.ValidRun E cs ∧ (T.run E cs).1.world.Sound E

/-- The callback that the command `f` leads to: that of the application, or the one of the file that `echo` writes to. -/
def fileCivil (E : Env) (A : App) (T : Talk) (l : List Event) (f : FileDesc) (argv : List Str) : Prop :=
  match f.exec, argv with
  | some (.user id), _ => T.Civil E (A.exec id (l ++ [.exec (.user id) argv]) argv)
  | some (.builtin .echo), [_, a, s, t] => s = b!">" → ∀ id, (T.world.file? t).bind (·.setData) = some id →
      T.Civil E (A.set id (l ++ [.exec (.builtin .echo) argv]) (decodeSpec a))
  | _, _ => True

/-- The part of the application.  Enter: the calls of the hook, and those of the command.  TAB: the names contain no line end, and no word is offered more of them than the
empty one. -/
def Term.AppOk (E : Env) (A : App) (t : Term) (c : UInt8) : Prop :=
  if c = cTab then E.autocomplete = true → t.world.LineClean E t.ed.line ∧ t.world.Flat
  else if t.enters c then
    ∀ name as, t.argv E = name :: as → (Talk.start t.world c).Civil E (A.hook (t.entered c) (name :: as)) ∧
      ∀ f, (t.hooked E A c).1.world.file? name = some f →
        fileCivil E A (t.hooked E A c).1 (t.prepared E A c) f (name :: as)
  else True

/-- ... as long as there is room. -/
def Term.AppAll (E : Env) (A : App) (t : Term) : List UInt8 → Prop
  | [] => True
  | c :: cs => t.AppOk E A c ∧ (t.NearApp E A c → Term.AppAll E A (t.key E A c) cs)

/-- Keys, and calls of the application at the prompt. -/
def Term.NearItem (E : Env) (A : App) (t : Term) : Item → Prop
  | .key c => t.NearApp E A c
  | .call _ => True

def Term.NearItems (E : Env) (A : App) (t : Term) : List Item → Prop
  | [] => True
  | i :: is => t.NearItem E A i ∧ Term.NearItems E A (t.item E A i) is

def Term.AppItem (E : Env) (A : App) (t : Term) : Item → Prop
  | .key c => t.AppOk E A c
  | .call c => t.CallOk E c ∧ (t.call E c).world.Sound E

def Term.AppItems (E : Env) (A : App) (t : Term) : List Item → Prop
  | [] => True
  | i :: is => t.AppItem E A i ∧ (t.NearItem E A i → Term.AppItems E A (t.item E A i) is)

/-- An application that always keeps the rules: `P` holds for all directories and commands it can be met with. -/
structure App.Keeps (E : Env) (A : App) (P : World → Prop) : Prop where
  sound : ∀ W, P W → W.Sound E
  flat : ∀ W, P W → W.Flat
  files : ∀ W, P W → ∀ f ∈ W.files, cLf ∉ f.name ∧ cCr ∉ f.name
  dirs : ∀ W, P W → ∀ m ∈ W.tree, cLf ∉ dirName m.path ∧ cCr ∉ dirName m.path
  cd : ∀ W, P W → ∀ m ∈ W.tree, P { W with cwd := some m }
  hook : ∀ W, P W → ∀ c l argv, (Talk.start W c).ValidRun E (A.hook l argv) ∧ P ((Talk.start W c).run E (A.hook l argv)).1.world
  exec : ∀ W, P W → ∀ c l argv id l' argv', let T := ((Talk.start W c).run E (A.hook l argv)).1
    T.ValidRun E (A.exec id l' argv') ∧ P (T.run E (A.exec id l' argv')).1.world
  set : ∀ W, P W → ∀ c l argv id l' d, let T := ((Talk.start W c).run E (A.hook l argv)).1
    T.ValidRun E (A.set id l' d) ∧ P (T.run E (A.set id l' d)).1.world

end Ush.Spec
