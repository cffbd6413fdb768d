import Verif.Spec.Terminal
import Verif.Spec.Safe
/-!
# Specification: the screen of a VT100 terminal

What the bytes printed by the shell look like.  Characters are one byte each, rows are as long as needed (no wrapping at the right margin), and
the cursor is always in the last row, because the library prints nothing that moves it up.
-/
namespace Ush.Spec

/-- A character that has a width of one column. -/
def isGraphic (c : UInt8) : Bool := 0x20 ≤ c && c != 0x7F && !(0x80 ≤ c && c < 0xA0)

/-- A text of such characters. -/
def Graphic (s : Str) : Prop := ∀ c ∈ s, isGraphic c = true

instance (s : Str) : Decidable (Graphic s) := by unfold Graphic; infer_instance

/-- The part of a control sequence that has been received. -/
inductive Seq
  | ground | esc | csi
  deriving DecidableEq, Repr

/-- The rows above the cursor, the row of the cursor, and the column of the cursor. -/
structure Screen where
  above : List Str := []
  row : Str := []
  col : Nat := 0
  seq : Seq := .ground
  deriving DecidableEq, Repr

/-- A character is written over what is in column `n`. -/
def writeAt (row : Str) (n : Nat) (c : UInt8) : Str := row.take n ++ List.replicate (n - row.length) cSpace ++ c :: row.drop (n + 1)

/-- A byte arrives.  Line feed keeps the column.  Of the control sequences `ESC [ … x` only those with `x = m` are used by the library (styles and colours);
they do not change the text.  Other sequences are not described here: they do nothing. -/
def Screen.put (s : Screen) (c : UInt8) : Screen :=
  match s.seq with
  | .esc => { s with seq := if c = 0x5B then .csi else .ground }
  | .csi => { s with seq := if 0x40 ≤ c ∧ c ≤ 0x7E then .ground else .csi }
  | .ground =>
    if c = cEsc then { s with seq := .esc }
    else if c = cCr then { s with col := 0 }
    else if c = cLf then { s with above := s.above ++ [s.row], row := List.replicate s.col cSpace }
    else if c = cBs then { s with col := s.col - 1 }
    else if c = cTab then { s with col := (s.col / 8 + 1) * 8 }
    else if isGraphic c then { s with row := writeAt s.row s.col c, col := s.col + 1 }
    else s

/-- A text arrives. -/
def Screen.feed (s : Screen) (x : Str) : Screen := x.foldl Screen.put s

/-- The printed bytes. -/
def printed (l : List Event) : Str := l.filterMap (fun e => match e with | .out c => some c | _ => none)

/-- The screen after `l` has happened, empty before. -/
def display (l : List Event) : Screen := Screen.feed {} (printed l)

/-- The row of the cursor is `x` (and perhaps blanks), with the cursor right behind `x`. -/
structure Screen.Shows (s : Screen) (x : Str) : Prop where
  seq : s.seq = .ground
  col : s.col = x.length
  row : ∃ k, s.row = x ++ List.replicate k cSpace

/-- What may come next in a text that can be shown anywhere. -/
inductive Next
  | any | bracket | param | newline
  deriving DecidableEq

def Next.byte : Next → UInt8 → Option Next
  | .any, c =>
    if c = cEsc then some .bracket
    else if c = cCr then some .newline
    else if c = cLf ∨ isGraphic c then some .any
    else none
  | .bracket, c => if c = 0x5B then some .param else none
  | .param, c => if c = 0x6D then some .any else if (0x30 ≤ c ∧ c ≤ 0x39) ∨ c = 0x3B then some .param else none
  | .newline, c => if c = cLf then some .any else none

/-- The text consists of characters, line feeds (with or without a carriage return before them), and sequences for styles. -/
def Printable (s : Str) : Prop := s.foldlM Next.byte .any = some .any

instance (s : Str) : Decidable (Printable s) := by unfold Printable; infer_instance

/-- A sequence for a style, or nothing. -/
def Style (s : Str) : Prop := s = [] ∨ ∃ p, s = cEsc :: 0x5B :: (p ++ [0x6D]) ∧ ∀ c ∈ p, (0x30 ≤ c ∧ c ≤ 0x39) ∨ c = 0x3B

/-- The configuration: styles are styles, and the hostname can be shown. -/
structure Showable (E : Env) : Prop where
  magenta : Style E.colorMagenta
  reset : Style E.styleReset
  host : Graphic E.hostname

/-- What the prompt looks like. -/
def World.promptSeen (E : Env) (W : World) : Str := b!"[" ++ E.hostname ++ b!" " ++ dirName W.path ++ b!"]$ "

/-- What is printed before the prompt. -/
def foretext (E : Env) (x : Answer) : Str := (printed x.1).take ((printed x.1).length - (x.2.prompt E).length)

/-- The answer to a line that is entered with `c`. -/
def Term.answer (E : Env) (A : App) (t : Term) (c : UInt8) : Answer :=
  lineAnswer E A t.world c (t.log ++ .inp c :: outs (enterEcho c)) (words (sent E.inSize t.ed.line))

/-- What has to be respected when that key is typed: characters have a width of one column and fit the line; what TAB offers and what commands print can be shown. -/
def Term.Neat (E : Env) (A : App) (t : Term) (c : UInt8) : Prop :=
  Graphic (dirName (t.key E A c).world.path) ∧
  if c = cEtx then True
  else if c = cTab then E.autocomplete = true → ∀ n ∈ t.world.considered E (tabTarget t.ed.line).2, Graphic n
  else if isEnter c && t.ed.esc == .none then Printable (foretext E (t.answer E A c))
  else isErase c = true ∨ c = cEsc ∨ t.ed.esc ≠ .none ∨ (isGraphic c = true ∧ t.ed.line.length + 1 < E.inSize)

def Term.NeatAll (E : Env) (A : App) (t : Term) : List UInt8 → Prop
  | [] => True
  | c :: cs => t.Neat E A c ∧ Term.NeatAll E A (t.key E A c) cs

/-- What a command prints ends with the end of a row. -/
def Term.Ends (E : Env) (A : App) (t : Term) (c : UInt8) : Prop :=
  isEnter c && t.ed.esc == .none → crlf <:+ enterEcho c ++ foretext E (t.answer E A c)

def Term.EndsAll (E : Env) (A : App) (t : Term) : List UInt8 → Prop
  | [] => True
  | c :: cs => t.Ends E A c ∧ Term.EndsAll E A (t.key E A c) cs

/-- A text of whole rows. -/
def Rows (s : Str) : Prop := Printable s ∧ (s = [] ∨ crlf <:+ s)

instance (s : Str) : Decidable (Rows s) := by unfold Rows; infer_instance

/-- Everything that `ls`, `help`, `pwd` and error messages may contain can be shown. -/
structure World.Legible (E : Env) (W : World) : Prop where
  green : Style E.colorGreen
  yellow : Style E.colorYellow
  reset : Style E.styleReset
  status : ∀ s, Graphic (statusString E.tr s)
  paths : ∀ m ∈ W.dirs, ∀ c ∈ m.path, Graphic c
  names : ∀ f ∈ W.files, Graphic f.name
  descriptions : ∀ f ∈ W.files, ∀ d, f.description = some d → Graphic d
  helps : ∀ f ∈ W.files, ∀ h, f.help = some h → Rows h

/-- What the built-in commands print for the user or the application consists of whole rows: `cat` the contents of files, `echo` its argument, a setter what it likes. -/
def builtinRows (E : Env) (A : App) (T : Talk) (l : List Event) : Builtin → List Str → Prop
  | .cat, as => ∀ r ∈ catAll A T.world l as, Rows r.2
  | .cd, _ => Rows T.output
  | .echo, [a] => Printable (echoPrints a)
  | .echo, [a, _, t] =>
    match (T.world.file? t).bind (·.setData) with
    | some id => Rows (T.run E (A.set id l (decodeSpec a))).1.output
    | none => True
  | _, _ => True

/-- The same for a command line: the names and texts can be shown when the command is looked up, and a command of the application prints whole rows. -/
def lineRows (E : Env) (A : App) (W : World) (c : UInt8) (l : List Event) : List Str → Prop
  | [] => True
  | name :: as =>
    let r := (Talk.start W c).run E (A.hook l (name :: as))
    let l' := l ++ (hookEvents E (name :: as) ++ r.2.map .ret)
    r.1.world.Legible E ∧
      match (r.1.world.file? name).bind (·.exec) with
      | none => True
      | some (.user id) => Rows (r.1.run E (A.exec id (l' ++ [.exec (.user id) (name :: as)]) (name :: as))).1.output
      | some (.builtin b) => builtinRows E A r.1 (l' ++ [.exec (.builtin b) (name :: as)]) b as

end Ush.Spec
