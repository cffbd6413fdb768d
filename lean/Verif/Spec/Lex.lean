import Verif.Model.Basic
/-!
# Specification: words of a command line
-/
namespace Ush.Spec

/-- Where in the line we are: between words, in an unquoted or in a quoted part of a word. -/
inductive Mode
  | gap | bare | quoted
  deriving DecidableEq

/-- Put `p` in front of the first word. -/
def push (p : Str) : List Str → List Str
  | [] => [p]
  | w :: ws => (p ++ w) :: ws

/-- The words of the rest of the line.  In mode `bare` and `quoted` the first word is the rest of the current word.  The
flag says that the last character was an escaping backslash. -/
def lex : Mode → Bool → Str → List Str
  | .gap, _, [] => []
  | _, _, [] => [[]]
  | .gap, _, c :: s =>
    if c = cSpace then lex .gap false s
    else if c = cQuote then lex .quoted false s
    else if c = cBackslash then lex .bare true s
    else push [c] (lex .bare false s)
  | m, true, c :: s => push (if c = cX then [cBackslash, cX] else [c]) (lex m false s)
  | .bare, false, c :: s =>
    if c = cSpace then [] :: lex .gap false s
    else if c = cQuote then lex .quoted false s
    else if c = cBackslash then lex .bare true s
    else push [c] (lex .bare false s)
  | .quoted, false, c :: s =>
    if c = cQuote then lex .bare false s
    else if c = cBackslash then lex .quoted true s
    else push [c] (lex .quoted false s)

/-- The pieces of a text between NUL bytes. -/
def pieces : Str → List Str
  | [] => [[]]
  | c :: s => if c = cNul then [] :: pieces s else push [c] (pieces s)

/-- The arguments that the words `ws` make.  If no NUL has been typed, they are the words.  A NUL byte ends an argument, as it ends every C
string, but the number of arguments is the number of words: as many words as NULs have been typed are lost at the end. -/
def cut (ws : List Str) : List Str := (ws.flatMap pieces).take ws.length

/-- The words of a command line. -/
def words (line : Str) : List Str := cut (lex .gap false line)

/-- How to type one argument: quoted, with `"` and `\` escaped. -/
def quoteArg (a : Str) : Str :=
  cQuote :: a.flatMap (fun c => if c = cQuote ∨ c = cBackslash then [cBackslash, c] else [c]) ++ [cQuote]

/-- How to type an argument vector. -/
def typeArgs (as : List Str) : Str := as.flatMap (fun a => quoteArg a ++ [cSpace])

/-- Splitting at single spaces. -/
def splitSpaces : Str → List Str
  | [] => [[]]
  | c :: s => if c = cSpace then [] :: splitSpaces s else push [c] (splitSpaces s)

end Ush.Spec
