import Verif.Spec.Tame
/-!
# Specification: which words there is room for

Commands, files and directories are looked up under a path that is put together in a buffer of `path_max_length` bytes.  `World.Room` says that the
path fits, `World.Near` that it fits or is not needed.  Here: which of the words of a line are looked up, and with that which lines can be entered at all.
-/
namespace Ush.Spec

/-- The arguments of a built-in command that are looked up. -/
def World.ArgsNear (E : Env) (W : World) : Builtin → List Str → Prop
  | .cd, [a] => a ≠ [] → W.Room E a
  | .ls, [a] => W.Room E a
  | .cat, as => W.CatNear E as
  | .xxd, [a] => W.Near E a
  | .help, [a] => W.Near E a
  | .echo, [_, s, t] => s = b!">" → W.Near E t
  | _, _ => True

/-- A line: its first word, and the arguments if that is a built-in command. -/
def World.LineNear (E : Env) (W : World) : List Str → Prop
  | [] => True
  | name :: as => W.Near E name ∧
      match (W.file? name).bind (·.exec) with
      | some (.builtin b) => W.ArgsNear E b as
      | _ => True

/-- A key, where nothing happens before the command is called: Enter looks up the words of the line, TAB the words that are tried. -/
def Term.Near (E : Env) (t : Term) (c : UInt8) : Prop :=
  if c = cTab then E.autocomplete = true → t.world.LineFits E t.ed.line
  else if isEnter c && t.ed.esc == .none then t.world.LineNear E (words (sent E.inSize t.ed.line))
  else True

def Term.NearAll (E : Env) (A : App) (t : Term) : List UInt8 → Prop
  | [] => True
  | c :: cs => t.Near E c ∧ Term.NearAll E A (t.key E A c) cs

/-- One of the words that are tried while the first word of a line is completed does not fit the input buffer.  The position then wraps around to the beginning of the line. -/
def World.Wraps (E : Env) (W : World) (head w : Str) : Prop := head = [] ∧ ∃ z ∈ W.tried E w, E.inSize ≤ z.length

/-- No word is offered more names than the empty one (see `C69_flat`). -/
def World.Flat (W : World) : Prop := ∀ x, (W.offers x).length ≤ (W.offers []).length

/-- There are `N` names, at least two; all of them begin with `p`, for which there is no room in the input buffer. -/
structure Endless (E : Env) (W : World) (p : Str) (N : Nat) : Prop where
  long : E.inSize ≤ p.length
  many : 2 ≤ N
  room : ∀ x, x <+: p → x.length < E.inSize → W.Room E x
  names : ∀ x, x <+: p → x.length < E.inSize → (W.offers x).length = N ∧ ∀ c ∈ W.offers x, p <+: c

/-- What has to be respected besides, as long as there is room: where TAB is pressed, there is no NUL in the line, what is added contains no line end, and the position
does not wrap around. -/
def Term.TabsFit (E : Env) (A : App) (t : Term) : List UInt8 → Prop
  | [] => True
  | c :: cs => (c = cTab → E.autocomplete = true → cNul ∉ t.ed.line ∧ ¬ t.world.Wraps E (tabTarget t.ed.line).1 (tabTarget t.ed.line).2 ∧
        cLf ∉ (t.world.grown E (tabTarget t.ed.line).2).drop (tabTarget t.ed.line).2.length ∧
        cCr ∉ (t.world.grown E (tabTarget t.ed.line).2).drop (tabTarget t.ed.line).2.length) ∧
      (t.Near E c → Term.TabsFit E A (t.key E A c) cs)

/-- ... where it may wrap around, and NUL may be typed. -/
def Term.TabsClean (E : Env) (A : App) (t : Term) : List UInt8 → Prop
  | [] => True
  | c :: cs => (c = cTab → E.autocomplete = true → t.world.LineClean E t.ed.line) ∧
      (t.Near E c → Term.TabsClean E A (t.key E A c) cs)

end Ush.Spec
