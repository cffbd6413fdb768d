import Verif.Spec.Session
import Verif.Spec.Text
/-!
# Specification: what TAB does
-/
namespace Ush.Spec

/-- The part of the line before its last word. -/
def lineHead (line : Str) : Str := line.take (line.length - (lastWord line).length)

/-- Everything that can be completed, in this order: the commands, the files of the working directory, the directories below
it. -/
def World.names (W : World) : List Str :=
  W.groups.files.map (·.name) ++ ((W.cwd.map Mount.files).getD []).map (·.name) ++ W.below.map (fun m => dirName m.path)

/-- The candidates for the word `w`. -/
def World.candidates (W : World) (w : Str) : List Str := W.names.filter (fun n => w.isPrefixOf n)

/-- Longest common prefix of two texts. -/
def common : Str → Str → Str
  | a :: s, b :: t => if a = b then a :: common s t else []
  | _, _ => []

/-- Longest common prefix of a list of texts. -/
def commonPrefix : List Str → Str
  | [] => []
  | [a] => a
  | a :: l => common a (commonPrefix l)

/-- The working directory has no component `.` or `..`, and where the word `w` may be the beginning of `.` or `..`, no directory has
such a name or one that begins like this.  If the working directory has been unmounted, no other directory has been mounted in its place. -/
def World.Usual (W : World) (w : Str) : Prop :=
  (∀ c ∈ W.path, c ≠ b!"." ∧ c ≠ b!"..") ∧ (∀ d ∈ [b!".", b!".."], w <+: d → ∀ m ∈ W.tree, ∀ c ∈ m.path, ¬ d <+: c) ∧
    (W.tree.find W.path).or W.cwd = W.cwd

/-- Completing the word `w` after `head`: the line after TAB and what is printed. -/
def World.complete (E : Env) (W : World) (head w : Str) : Str × Str :=
  let cs := W.candidates w
  let p := commonPrefix cs
  if cs = [] then (head ++ w, [])
  else if p ≠ w then (head ++ p, p.drop w.length)
  else if cs.length = 1 then (head ++ w, [])
  else (head ++ w, crlf ++ cs.flatMap (· ++ crlf) ++ W.prompt E ++ (head ++ w))

/-- The line after TAB and what is printed. -/
def World.tab (E : Env) (W : World) (line : Str) : Str × Str := W.complete E (lineHead line) (lastWord line)

/-- The word `w` after `head` can be completed: the candidates fit the input buffer after `head`, contain no line end, and there is
room for the paths of `w` and of the candidates. -/
def World.Typable (E : Env) (W : World) (head w : Str) : Prop :=
  W.Room E w ∧ ∀ c ∈ W.candidates w, head.length + c.length < E.inSize ∧ W.Room E c ∧ cLf ∉ c ∧ cCr ∉ c

/-! ### In every case

What TAB does for every word, also where it is not what one expects. -/

/-- The directory whose sub-directories are offered for the word `w`: the one that would contain `w`.  For `.` and `..` this is not the working directory. -/
def World.tabDir (W : World) (w : Str) : Option Mount :=
  let q := resolve W.path false [w]
  if w = [] ∨ q = [] then W.cwd else (W.tree.find q.dropLast).or W.cwd

/-- The names that are offered for the word `w`. -/
def World.offers (W : World) (w : Str) : List Str :=
  (W.groups.files.map (·.name) ++ ((W.cwd.map Mount.files).getD []).map (·.name) ++ (((W.tabDir w).map W.tree.under).getD []).map (fun m => dirName m.path)).filter
    (fun n => w.isPrefixOf n)

/-- One more character: the next one of the last name that is offered, if that does not make the names fewer. -/
def World.more (W : World) (w : Str) : Option Str :=
  (W.offers w).getLast?.bind fun c => c[w.length]?.bind fun a =>
    if 2 ≤ (W.offers w).length ∧ (W.offers w).length ≤ (W.offers (w ++ [a])).length then some (w ++ [a]) else none

/-- The word `w`, with one more character, ... as long as possible (at most `k` characters). -/
def World.growth (W : World) : Nat → Str → List Str
  | 0, w => [w]
  | k + 1, w => w :: ((W.more w).map (World.growth W k)).getD []

/-- What the word `w` becomes: the only name offered, or as much as can be added. -/
def World.grown (E : Env) (W : World) (w : Str) : Str :=
  match W.offers w with
  | [c] => c
  | _ => ((W.growth E.inSize w).getLast?).getD w

/-- The line after TAB and what is printed. -/
def World.tabs (E : Env) (W : World) (head w : Str) : Str × Str :=
  (head ++ W.grown E w,
    if 2 ≤ (W.offers w).length ∧ W.grown E w = w then crlf ++ (W.offers w).flatMap (· ++ crlf) ++ W.prompt E ++ (head ++ w) else (W.grown E w).drop w.length)

/-- All names offered while `w` is being completed. -/
def World.considered (E : Env) (W : World) (w : Str) : List Str := (W.growth E.inSize w).flatMap W.offers

/-- The word with the next character of the last name that is offered. -/
def World.next (W : World) (w : Str) : Option Str := (W.offers w).getLast?.bind fun c => c[w.length]?.map fun a => w ++ [a]

/-- The words that are tried while `w` is being completed, also the one that is not taken. -/
def World.tried (E : Env) (W : World) (w : Str) : List Str := if 2 ≤ (W.offers w).length then (W.growth E.inSize w).filterMap W.next else []

/-- There is room for the completion of the word `w` after `head`: there is room for the path of `w`; if a single name is offered, it fits the input buffer after `head`;
otherwise the words that are tried fit, and there is room for their paths. -/
def World.TabFits (E : Env) (W : World) (head w : Str) : Prop :=
  W.Room E w ∧ (∀ c ∈ W.offers w, (W.offers w).length = 1 → head.length + c.length < E.inSize) ∧
    ∀ z ∈ W.tried E w, head.length + z.length < E.inSize ∧ W.Room E z

/-- The word `w` after `head` can be completed: there is room for it, and what is added contains no line end. -/
def World.TabOk (E : Env) (W : World) (head w : Str) : Prop :=
  W.TabFits E head w ∧ cLf ∉ (W.grown E w).drop w.length ∧ cCr ∉ (W.grown E w).drop w.length

/-- A line that consists of one space and one word. -/
def spaceWord (line : Str) : Prop := line.head? = some cSpace ∧ line ≠ [cSpace] ∧ cSpace ∉ line.tail

instance (line : Str) : Decidable (spaceWord line) := by unfold spaceWord; infer_instance

/-- What TAB takes for the word to be completed, and what is before it: the last word, but on a line that consists of one space and one word, the
whole line including the space (see C05 and C27). -/
def tabTarget (line : Str) : Str × Str := if spaceWord line then ([], line) else (lineHead line, lastWord line)

/-- The part of the line that is a C string: NUL can be typed, and ends it. -/
def seen (line : Str) : Str := line.takeWhile (· ≠ cNul)

/-- The line after TAB and what is printed, for every line.  Behind a NUL nothing is added; a single name that is offered replaces everything behind the word, otherwise
the line stays as it is. -/
def World.press (E : Env) (W : World) (line : Str) : Str × Str :=
  let p := tabTarget (seen line)
  let x := W.tabs E p.1 p.2
  (if cNul ∈ line ∧ (W.offers p.2).length ≠ 1 then line else x.1, x.2)

/-- There is room for what TAB does.  On a line with a NUL, several names can be listed, but not be tried: the last of them has to be the word itself. -/
def World.LineFits (E : Env) (W : World) (line : Str) : Prop :=
  let p := tabTarget (seen line)
  W.TabFits E p.1 p.2 ∧ (cNul ∈ line → 2 ≤ (W.offers p.2).length → (W.offers p.2).getLast? = some p.2)

/-- What is added contains no line end. -/
def World.LineClean (E : Env) (W : World) (line : Str) : Prop :=
  let p := tabTarget (seen line)
  cLf ∉ (W.grown E p.2).drop p.2.length ∧ cCr ∉ (W.grown E p.2).drop p.2.length

theorem seen_plain {line : Str} (h : cNul ∉ line) : seen line = line := by
  unfold seen
  induction line with
  | nil => rfl
  | cons a l ih =>
    have h1 : a ≠ cNul := fun e => h (by simp [e])
    rw [List.takeWhile_cons_of_pos (by simpa using h1), ih (fun h' => h (by simp [h']))]

theorem press_plain {E : Env} {W : World} {line : Str} (h : cNul ∉ line) : W.press E line = W.tabs E (tabTarget line).1 (tabTarget line).2 := by
  unfold World.press
  rw [seen_plain h]
  simp [h]

theorem lineFits_plain {E : Env} {W : World} {line : Str} (h : cNul ∉ line) : W.LineFits E line ↔ W.TabFits E (tabTarget line).1 (tabTarget line).2 := by
  unfold World.LineFits
  rw [seen_plain h]
  simp [h]

theorem lineOk_plain {E : Env} {W : World} {line : Str} (h : cNul ∉ line) : W.LineFits E line ∧ W.LineClean E line ↔ W.TabOk E (tabTarget line).1 (tabTarget line).2 := by
  rw [lineFits_plain h]
  unfold World.LineClean
  rw [seen_plain h]
  exact Iff.rfl

end Ush.Spec
