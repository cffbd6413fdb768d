import Verif.Model.Basic
/-!
# Specification vocabulary for text: escapes and words
-/
namespace Ush.Spec

/-- Position of `c` in `s`, if any. -/
def posIn (c : UInt8) (s : Str) : Option Nat := s.findIdx? (· == c)

/-- Value of a hexadecimal digit; characters that are not digits count as zero. -/
def nibble (c : UInt8) : Nat :=
  match posIn c b!"0123456789ABCDEF" with
  | some n => n
  | none =>
    match posIn c b!"0123456789abcdef" with
    | some n => n
    | none => 0

/-- Meaning of a text with escapes: `\xHH` is the byte HH, any other `\c` is `c`, the rest is literal;
an escape cut off by the end of the text produces nothing. -/
def decodeSpec : Str → Str
  | [] => []
  | [c] => if c = cBackslash then [] else [c]
  | c :: d :: r =>
    if c = cBackslash then
      if d = cX then
        match r with
        | a :: b :: r' => UInt8.ofNat (16 * nibble a + nibble b) :: decodeSpec r'
        | _ => []
      else d :: decodeSpec r
    else c :: decodeSpec (d :: r)

/-- The digit for a value below 16. -/
def digit (n : Nat) : UInt8 := (b!"0123456789abcdef").getD n 0

/-- A text that stands for the given bytes: every byte is written `\xHH`. -/
def encode (bs : Str) : Str := bs.flatMap fun b => b!"\\x" ++ [digit (b.toNat / 16), digit (b.toNat % 16)]

/-- The longest suffix without a space. -/
def lastWord (s : Str) : Str := (s.reverse.takeWhile (fun c => c != cSpace)).reverse

end Ush.Spec
