import Verif.Spec.Resolve
/-!
# Specification: the path functions of ush_utils.c on every text

`Spec/Path.lean` speaks about paths given as lists of components.  Here a path is any text.
-/
namespace Ush.Spec

/-- The parts of a text, as far as normalisation is concerned: what is in front of the first `/` is dropped. -/
def partsOf (p : Str) : List Str :=
  match p.dropWhile (· ≠ cSlash) with
  | [] => []
  | _ :: s => parts true s

/-- Number of levels of a text. -/
def levelCount (p : Str) : Nat := if p = b!"/" ∨ p = [] then 0 else 1 + p.tail.count cSlash

/-- The text up to the `n`-th `/`. -/
def upToSlash : Nat → Str → Str
  | _, [] => []
  | 0, _ => []
  | n + 1, c :: s => if c = cSlash then (if n = 0 then [] else c :: upToSlash n s) else c :: upToSlash (n + 1) s

/-- The first `n` levels of a text; a `/` at its beginning does not count. -/
def firstLevels (n : Nat) (p : Str) : Str :=
  if n = 0 then b!"/" else
  match p with
  | [] => []
  | c :: s => c :: upToSlash n s

/-- What follows the last `/`. -/
def afterSlash (p : Str) : Str := (p.reverse.takeWhile (· ≠ cSlash)).reverse

/-- What precedes the last `/`; of the first `/` itself nothing is taken away. -/
def beforeSlash (p : Str) : Str :=
  if cSlash ∉ p then p
  else if p.length - (afterSlash p).length = 1 then b!"/"
  else p.take (p.length - (afterSlash p).length - 1)

end Ush.Spec
