import Verif.Spec.Builtin
import Verif.Spec.Calls
import Verif.Spec.Complete
import Verif.Spec.Lex
import Verif.Spec.History
/-!
# Specification: the whole terminal

`Term` is the shell as its user sees it: the directories and commands, the line being edited, and everything that has happened.
`Term.key` says what every key does.  There are no buffers, no states, no pointers and no service calls.
-/
namespace Ush.Spec

/-- What the callbacks of the application do; it may depend on everything that has happened before. -/
structure App where
  hook : List Event → List Str → List Call := fun _ _ => []
  exec : Nat → List Event → List Str → List Call := fun _ _ _ => []
  get : Nat → List Event → Str := fun _ _ => []
  set : Nat → List Event → Str → List Call := fun _ _ _ => []

/-- The callbacks in `E` do what `A` says. -/
structure App.Describes (A : App) (E : Env) : Prop where
  hook : ∀ l argv, HookSays E l argv (A.hook l argv)
  exec : ∀ id l argv, Says l (E.userExec id argv) (A.exec id l argv)
  get : ∀ id l, Gets E l id (A.get id l)
  set : ∀ id l d, Says l (E.userSet id d) (A.set id l d)

/-- The same, but nothing is said about the commands in `S`. -/
structure App.DescribesBut (A : App) (E : Env) (S : Nat → Prop) : Prop where
  hook : ∀ l argv, HookSays E l argv (A.hook l argv)
  exec : ∀ id l argv, ¬ S id → Says l (E.userExec id argv) (A.exec id l argv)
  get : ∀ id l, Gets E l id (A.get id l)
  set : ∀ id l d, Says l (E.userSet id d) (A.set id l d)

theorem App.Describes.all {A : App} {E : Env} (h : A.Describes E) : A.DescribesBut E (fun _ => False) :=
  ⟨h.hook, fun id l argv _ => h.exec id l argv, h.get, h.set⟩

/-- An answer: what is added to the log, and the world afterwards. -/
abbrev Answer := List Event × World

/-- A text and the prompt. -/
def tells (E : Env) (W : World) (s : Str) : Answer := (outs (s ++ W.prompt E), W)

/-- An error message and the prompt. -/
def errs (E : Env) (W : World) (s : Status) : Answer := tells E W (statusString E.tr s ++ crlf)

/-- The getters of the files `as` are called and what they return is printed, one after the other. -/
def catAll (A : App) (W : World) : List Event → List Str → List (Nat × Str)
  | _, [] => []
  | l, a :: as =>
    match (W.file? a).bind (·.getData) with
    | some id => (id, A.get id l) :: catAll A W (l ++ .getData id :: outs (A.get id l)) as
    | none => []

/-- A built-in command with the arguments `as`, called after `l` has happened; `T` is what the general hook has left. -/
def builtinAnswer (E : Env) (A : App) (T : Talk) (l : List Event) : Builtin → List Str → Answer
  | .pwd, [] => tells E T.world (render T.world.path ++ crlf)
  | .cd, [a] =>
    match T.world.cd a with
    | some W' => tells E W' T.output
    | none => errs E T.world .nodeNotFound
  | .cat, a :: as =>
    match catError T.world (a :: as) with
    | some s => errs E T.world s
    | none => (catLog (catAll A T.world l (a :: as)) ++ outs (T.world.prompt E), T.world)
  | .xxd, [a] =>
    match T.world.file? a with
    | none => errs E T.world .fileNotFound
    | some g =>
      match g.getData with
      | none => errs E T.world .fileNotReadable
      | some id => (.getData id :: (tells E T.world (xxdText E.xxdColumns (A.get id l))).1, T.world)
  | .ls, [] =>
    match T.world.cwd with
    | none => errs E T.world .nodeNotFound
    | some m => tells E T.world (lsText E T.world.tree m)
  | .ls, [a] =>
    match T.world.dir? a with
    | none => errs E T.world .nodeNotFound
    | some m => tells E T.world (lsText E T.world.tree m)
  | .help, [] => tells E T.world (helpText E T.world)
  | .help, [a] =>
    match T.world.file? a with
    | none => errs E T.world .fileNotFound
    | some g =>
      match g.help with
      | none => errs E T.world .fileNoHelp
      | some x => tells E T.world x
  | .echo, [] => tells E T.world crlf
  | .echo, [a] => tells E T.world (echoPrints a ++ crlf)
  | .echo, [a, s, t] =>
    if s ≠ b!">" then errs E T.world .cmdWrongArguments
    else
      match T.world.file? t with
      | none => errs E T.world .fileNotFound
      | some g =>
        match g.setData with
        | none => errs E T.world .fileNotWritable
        | some id =>
          let r := T.run E (A.set id l (decodeSpec a))
          (.setData id (decodeSpec a) :: r.2.map .ret ++ (tells E r.1.world r.1.output).1, r.1.world)
  | _, _ => errs E T.world .cmdWrongArguments

/-- The output buffer has room for what `ls` puts there: for each file its flags and its name. -/
def lsFits (E : Env) (m : Mount) : Prop := ∀ g ∈ m.files, 7 ≤ E.outSize ∧ (rowHead E g).length < E.outSize

/-- The output buffer has room for what `help` puts there: the names of the commands. -/
def helpFits (E : Env) (W : World) : Prop := ∀ g ∈ W.groups.files, (rowHead E g).length < E.outSize

/-- The output buffer has room for what `xxd` puts there, the offset and the hexadecimal columns of a row, and the rows come to an end. -/
def xxdFits (E : Env) (d : Str) : Prop := 10 < E.outSize ∧ 3 * E.xxdColumns + 1 < E.outSize ∧ (0 < E.xxdColumns ∨ d = [])

/-- What the application has to respect for that command. -/
def builtinOk (E : Env) (A : App) (T : Talk) (l : List Event) (f : FileDesc) : Builtin → List Str → Prop
  | .cd, [a] => a ≠ [] → T.world.Room E a
  | .cat, as => f.process = some (.builtin .cat) ∧ T.world.CatNear E as
  | .xxd, [a] => T.world.Near E a ∧ f.process = some (.builtin .xxd) ∧
      match (T.world.file? a).bind (·.getData) with
      | some id => xxdFits E (A.get id l) ∧ (A.get id l).length ≤ 16 ^ 8
      | none => True
  | .ls, [] => f.process = some (.builtin .ls) ∧
      match T.world.cwd with
      | some m => lsFits E m
      | none => True
  | .ls, [a] => T.world.Room E a ∧ f.process = some (.builtin .ls) ∧
      match T.world.dir? a with
      | some m => lsFits E m
      | none => True
  | .help, [] => f.process = some (.builtin .help) ∧ helpFits E T.world
  | .help, [a] => T.world.Near E a
  | .echo, [a, s, t] => s = b!">" → T.world.Near E t ∧
      match (T.world.file? t).bind (·.setData) with
      | some id => T.ValidRun E (A.set id l (decodeSpec a)) ∧ (T.run E (A.set id l (decodeSpec a))).1.world.Ok E
      | none => True
  | _, _ => True

/-- The file found for the first word. -/
def fileAnswer (E : Env) (A : App) (T : Talk) (l : List Event) (f : FileDesc) (name : Str) (as : List Str) : Answer :=
  match f.exec with
  | none => errs E T.world .fileNotExecutable
  | some (.user id) =>
    let l' := [Event.exec (.user id) (name :: as)]
    let r := T.run E (A.exec id (l ++ l') (name :: as))
    (l' ++ r.2.map .ret ++ (tells E r.1.world r.1.output).1, r.1.world)
  | some (.builtin b) =>
    let l' := [Event.exec (.builtin b) (name :: as)]
    let r := builtinAnswer E A T (l ++ l') b as
    (l' ++ r.1, r.2)

def fileOk (E : Env) (A : App) (T : Talk) (l : List Event) (f : FileDesc) (name : Str) (as : List Str) : Prop :=
  match f.exec with
  | none => True
  | some (.user id) =>
    let cs := A.exec id (l ++ [.exec (.user id) (name :: as)]) (name :: as)
    T.ValidRun E cs ∧ (T.run E cs).1.world.Ok E
  | some (.builtin b) => builtinOk E A T (l ++ [.exec (.builtin b) (name :: as)]) f b as

/-- A command line with the words `argv`, after `l` has happened. -/
def lineAnswer (E : Env) (A : App) (W : World) (c : UInt8) (l : List Event) : List Str → Answer
  | [] => tells E W []
  | name :: as =>
    let r := (Talk.start W c).run E (A.hook l (name :: as))
    let l' := hookEvents E (name :: as) ++ r.2.map .ret
    let x := match r.1.world.file? name with
      | none => errs E r.1.world .cmdSyntaxError
      | some f => fileAnswer E A r.1 (l ++ l') f name as
    (l' ++ x.1, x.2)

def lineOk (E : Env) (A : App) (W : World) (c : UInt8) (l : List Event) : List Str → Prop
  | [] => True
  | name :: as =>
    let cs := A.hook l (name :: as)
    let r := (Talk.start W c).run E cs
    (Talk.start W c).ValidRun E cs ∧ r.1.world.Ok E ∧ r.1.world.Near E name ∧
      match r.1.world.file? name with
      | none => True
      | some f => fileOk E A r.1 (l ++ (hookEvents E (name :: as) ++ r.2.map .ret)) f name as

/-- The command is none of those in `S`. -/
def lineSpares (S : Nat → Prop) (E : Env) (A : App) (W : World) (c : UInt8) (l : List Event) : List Str → Prop
  | [] => True
  | name :: as => ∀ f id, ((Talk.start W c).run E (A.hook l (name :: as))).1.world.file? name = some f → f.exec = some (.user id) → ¬ S id

/-- The shell as the user sees it. -/
structure Term where
  world : World
  ed : Editor
  log : List Event

/-- Something is added to the log. -/
def Term.add (t : Term) (l : List Event) : Term := { t with log := t.log ++ l }

/-- Effect of a key. -/
def Term.key (E : Env) (A : App) (t : Term) (c : UInt8) : Term :=
  if c = cEtx then { t.add (.inp c :: outs (b!"^C" ++ crlf ++ t.world.prompt E)) with ed := {} }
  else if c = cTab then
    if E.autocomplete then
      let x := t.world.press E t.ed.line
      { t.add (.inp c :: outs x.2) with ed := ⟨x.1, t.ed.esc⟩ }
    else t.add [.inp c]
  else if isEnter c && t.ed.esc == .none then
    let l := .inp c :: outs (enterEcho c)
    let x := lineAnswer E A t.world c (t.log ++ l) (words (sent E.inSize t.ed.line))
    { t.add (l ++ x.1) with ed := {}, world := x.2 }
  else
    let r := t.ed.key E.inSize c
    { t.add (.inp c :: outs r.2) with ed := r.1 }

/-- What has to be respected when that key is typed: the callbacks respect the rules of the library; the paths given as arguments fit into the buffers for paths; for TAB, the names offered fit the buffers (see `C27_overflow`), and behind a NUL in the line nothing has to be tried (see `C23_false_tab`). -/
def Term.Ok (E : Env) (A : App) (t : Term) (c : UInt8) : Prop :=
  if c = cEtx then True
  else if c = cTab then
    E.autocomplete = true → t.world.LineFits E t.ed.line ∧ t.world.LineClean E t.ed.line
  else if isEnter c && t.ed.esc == .none then
    2 ≤ E.inSize ∧ lineOk E A t.world c (t.log ++ .inp c :: outs (enterEcho c)) (words (sent E.inSize t.ed.line))
  else True

/-- The key does not call a command in `S`. -/
def Term.Spares (S : Nat → Prop) (E : Env) (A : App) (t : Term) (c : UInt8) : Prop :=
  isEnter c = true → t.ed.esc = .none → lineSpares S E A t.world c (t.log ++ .inp c :: outs (enterEcho c)) (words (sent E.inSize t.ed.line))

theorem Term.spares_none (E : Env) (A : App) (t : Term) (c : UInt8) : t.Spares (fun _ => False) E A c := by
  intro _ _
  unfold lineSpares
  split
  · trivial
  · exact fun _ _ _ _ h => h

/-- Keys typed one after the other. -/
def Term.keys (E : Env) (A : App) (t : Term) : List UInt8 → Term
  | [] => t
  | c :: cs => Term.keys E A (t.key E A c) cs

def Term.OkAll (E : Env) (A : App) (t : Term) : List UInt8 → Prop
  | [] => True
  | c :: cs => t.Ok E A c ∧ Term.OkAll E A (t.key E A c) cs

/-- The terminal when the shell has been started and the operations `os` have been done. -/
def Term.start (E : Env) (os : List FsOp) : Term :=
  ⟨after E os, {}, ((initWorld E).run os).2.map .ret ++ outs (welcome ++ (after E os).prompt E)⟩

/-- The application calls the library while the shell waits for a key: directory operations leave the line alone, everything else
is printed, followed by a new prompt, and the line is lost. -/
def Term.call (E : Env) (t : Term) : Call → Term
  | .fs o => { t.add [.ret (t.world.step o).2] with world := (t.world.step o).1 }
  | c =>
    let r := (Talk.mk t.world [] (.text [] false)).step E c
    ⟨r.1.world, {}, t.log ++ (tells E r.1.world r.1.output).1⟩

/-- What has to be respected (`ush_printf` and `ush_flush` depend on what the output buffer contains, see C40 and C42). -/
def Term.CallOk (E : Env) (t : Term) (c : Call) : Prop :=
  (match c with | .printf _ => False | .flush => False | _ => True) ∧
    (Talk.mk t.world [] (.text [] false)).Valid E c ∧ (t.call E c).world.Ok E

/-- Keys and calls. -/
inductive Item
  | key (c : UInt8)
  | call (c : Call)

def Term.item (E : Env) (A : App) (t : Term) : Item → Term
  | .key c => t.key E A c
  | .call c => t.call E c

def Term.ItemOk (E : Env) (A : App) (t : Term) : Item → Prop
  | .key c => t.Ok E A c
  | .call c => t.CallOk E c

def Term.items (E : Env) (A : App) (t : Term) : List Item → Term
  | [] => t
  | i :: is => Term.items E A (t.item E A i) is

def Term.ItemsOk (E : Env) (A : App) (t : Term) : List Item → Prop
  | [] => True
  | i :: is => t.ItemOk E A i ∧ Term.ItemsOk E A (t.item E A i) is

/-- The shell object gets from `u` to `v`: for a key, it is serviced until it has consumed the key and waits again; for a call, the
library function is called and the shell is serviced until it waits again. -/
def plays (E : Env) (u : Ush) (v : Ush) : List Item → Prop
  | [] => u = v
  | .key c :: is => ∃ w, Steps E u [c] w [] ∧ w.state = .readChar ∧ plays E w v is
  | .call c :: is => ∃ w x, runApis E u c.apis = .ok w ∧ Steps E w [] x [] ∧ x.state = .readChar ∧ plays E x v is

end Ush.Spec
