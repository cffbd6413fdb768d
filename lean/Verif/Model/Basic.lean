/-!
# Basic vocabulary of the model: bytes, faults, checked buffer access

Everything that is undefined behaviour, a failed assertion or an endless loop in C is an explicit
`Fault` outcome here.  Byte strings that the C code only reads through `const char *` are modelled by the
list of bytes before the terminating NUL (`Str`); the working buffers are byte lists of fixed length with
checked access.
-/
namespace Ush

/-- The bytes of a C string before its terminating NUL, or plain binary data. -/
abbrev Str := List UInt8

/-- How an execution can go wrong. -/
inductive Fault
  | oob      -- access outside a buffer (read past the end / missing NUL, or write)
  | null     -- NULL pointer dereference
  | assert   -- USH_ASSERT fails (process exits, or undefined behaviour where asserts are compiled out)
  | diverge  -- endless loop (cyclic list of nodes)
  | uninit   -- use of an uninitialised pointer
  | vla      -- variable length array of size zero
  deriving DecidableEq, Repr

/-- Computations that may fault. -/
abbrev M := Except Fault

instance {α : Type} [DecidableEq α] : DecidableEq (M α) := fun a b =>
  match a, b with
  | .ok x, .ok y => if h : x = y then isTrue (h ▸ rfl) else isFalse (fun e => by cases e; exact h rfl)
  | .error x, .error y => if h : x = y then isTrue (h ▸ rfl) else isFalse (fun e => by cases e; exact h rfl)
  | .ok _, .error _ => isFalse (fun e => by cases e)
  | .error _, .ok _ => isFalse (fun e => by cases e)

open Lean in
/-- `b!"text"` is the list of bytes of the literal (expanded at elaboration time). -/
macro:max "b!" s:str : term => do
  let bs := s.getString.toUTF8.toList
  let elems ← bs.mapM fun b => `(($(Syntax.mkNumLit (toString b.toNat)) : UInt8))
  let arr := elems.toArray
  `(([$arr,*] : List UInt8))

/-! Character constants. -/
abbrev cNul : UInt8 := 0
abbrev cEtx : UInt8 := 3      -- '\x03'
abbrev cBs : UInt8 := 8       -- '\x08'
abbrev cTab : UInt8 := 9      -- '\x09'
abbrev cLf : UInt8 := 10      -- '\n'
abbrev cCr : UInt8 := 13      -- '\r'
abbrev cEsc : UInt8 := 27     -- '\x1B'
abbrev cSpace : UInt8 := 32   -- ' '
abbrev cQuote : UInt8 := 34   -- '"'
abbrev cSlash : UInt8 := 47   -- '/'
abbrev cBackslash : UInt8 := 92 -- '\\'
abbrev cX : UInt8 := 120      -- 'x'
abbrev cDel : UInt8 := 127    -- '\x7F'

/-- C array read `b[i]`. -/
def rd (b : List UInt8) (i : Nat) : M UInt8 :=
  match b[i]? with
  | some x => .ok x
  | none => .error .oob

/-- C array write `b[i] = x`. -/
def wr (b : List UInt8) (i : Nat) (x : UInt8) : M (List UInt8) :=
  if i < b.length then .ok (b.set i x) else .error .oob

/-- The C string that starts at `&b[off]`; faults if there is no NUL before the end of the buffer. -/
def cstrAt (b : List UInt8) (off : Nat) : M Str :=
  if cNul ∈ b.drop off then .ok ((b.drop off).takeWhile (· ≠ cNul)) else .error .oob

/-- `strlen(&b[off])`. -/
def strlenAt (b : List UInt8) (off : Nat) : M Nat := do
  let s ← cstrAt b off
  return s.length

/-- Write the bytes `s` followed by NUL at `&b[off]` (`strcpy`, `sprintf`, ... into a working buffer). -/
def storeStr (b : List UInt8) (off : Nat) (s : Str) : M (List UInt8) :=
  if off + s.length < b.length then
    .ok (b.take off ++ s ++ [cNul] ++ b.drop (off + s.length + 1))
  else .error .oob

/-- `strcpy(dst, s)` into a local array of `cap` bytes; the result is the new contents of `dst`. -/
def strcpy (cap : Nat) (s : Str) : M Str :=
  if s.length < cap then .ok s else .error .oob

/-- `strcat(dst, s)` where the array `dst` has `cap` bytes and holds the string `d`. -/
def strcat (cap : Nat) (d s : Str) : M Str :=
  if d.length + s.length < cap then .ok (d ++ s) else .error .oob

/-- Declaration of a variable length array of `n` elements. -/
def vla (n : Nat) : M Unit := if n = 0 then .error .vla else .ok ()

/-- `USH_ASSERT(c)`. -/
def assertM (c : Bool) : M Unit := if c then .ok () else .error .assert

end Ush
