import Verif.Spec.Session
import Verif.Spec.Text
/-!
# Specification: what the built-in commands do
-/
namespace Ush.Spec

/-! ## cd -/

/-- The world after a successful `cd`. -/
def World.cd (W : World) (a : Str) : Option World := if a = [] then none else (W.dir? a).map (fun m => { W with cwd := some m })

/-! ## echo -/

/-- What the C string at the argument's place looks like after decoding: the decoded bytes overwrite the beginning of the
text, the rest of the text is still there. -/
def echoPrints (s : Str) : Str := (decodeSpec s ++ s.drop (decodeSpec s).length).takeWhile (· ≠ cNul)

/-! ## Getters -/

/-- When the getter `id` is called with the log `l`, it returns the bytes `d`. -/
def Gets (E : Env) (l : List Event) (id : Nat) (d : Str) : Prop := ∀ u : Ush, u.log = l → E.userGet id u = some d

/-! ## cat -/

/-- The first problem with the arguments of `cat`. -/
def catError (W : World) : List Str → Option Status
  | [] => none
  | a :: as =>
    match W.file? a with
    | none => some .fileNotFound
    | some f => if f.getData = none then some .fileNotReadable else catError W as

/-- The arguments of `cat` can be looked up: one after the other, up to the first that cannot be read. -/
def World.CatNear (E : Env) (W : World) : List Str → Prop
  | [] => True
  | a :: as => W.Near E a ∧ (catError W [a] = none → W.CatNear E as)

/-- The files `as` have getters which return, called one after the other (each after the bytes of the one before have been
printed), `rs` (getter and bytes). -/
def CatReads (E : Env) (W : World) : List Event → List Str → List (Nat × Str) → Prop
  | _, [], [] => True
  | l, a :: as, r :: rs => (∃ f, W.file? a = some f ∧ f.getData = some r.1) ∧ Gets E l r.1 r.2 ∧
      CatReads E W (l ++ .getData r.1 :: outs r.2) as rs
  | _, _, _ => False

/-- The calls of the getters, and the bytes printed. -/
def catLog (rs : List (Nat × Str)) : List Event := rs.flatMap (fun r => .getData r.1 :: outs r.2)

/-! ## help and ls -/

/-- A name in a column of the given width. -/
def padRight (n : Nat) (s : Str) : Str := s ++ List.replicate (n - s.length) cSpace

/-- The part of a row before the description. -/
def rowHead (E : Env) (f : FileDesc) : Str :=
  match f.description with
  | some _ => padRight E.alignSpace f.name ++ b!" " ++ E.colorYellow ++ b!"- "
  | none => f.name

/-- Name and description of a file. -/
def fileRow (E : Env) (f : FileDesc) : Str :=
  rowHead E f ++ (match f.description with
    | some d => d ++ E.styleReset
    | none => []) ++ crlf

/-- The rows printed by `help`. -/
def helpText (E : Env) (W : World) : Str := W.groups.files.flatMap (fileRow E)

/-- A directory in the output of `ls`. -/
def dirRow (E : Env) (name : Str) : Str := b!"d---- " ++ E.colorGreen ++ name ++ E.styleReset ++ crlf

/-- `r`, `w`, `x` or `h` if the file has that feature. -/
def flag (c : Char) {α : Type} (x : Option α) : UInt8 := if x.isSome then UInt8.ofNat c.toNat else 45

/-- The flags of a file. -/
def flags (f : FileDesc) : Str := [45, flag 'r' f.getData, flag 'w' f.setData, flag 'x' f.exec, flag 'h' f.help, cSpace]

/-- The rows printed by `ls` for the directory `m`. -/
def lsText (E : Env) (t : Tree) (m : Mount) : Str :=
  dirRow E b!"." ++ (if m.path = [] then [] else dirRow E b!"..") ++
  (t.under m).flatMap (fun k => dirRow E ((k.path.getLast?.getD []) ++ b!"/")) ++
  m.files.flatMap (fun f => flags f ++ fileRow E f)

/-! ## xxd -/

/-- Hexadecimal digit. -/
def hexChar (n : Nat) : UInt8 := if n < 10 then UInt8.ofNat (48 + n) else UInt8.ofNat (55 + n)

/-- The last `w` hexadecimal digits of `n`. -/
def hexFixed : Nat → Nat → Str
  | 0, _ => []
  | w + 1, n => hexFixed w (n / 16) ++ [hexChar (n % 16)]

/-- The bytes of a row in hexadecimal; columns without a byte are blank. -/
def hexCols : Nat → Str → Str
  | 0, _ => []
  | n + 1, [] => b!"   " ++ hexCols n []
  | n + 1, b :: bs => hexFixed 2 b.toNat ++ b!" " ++ hexCols n bs

/-- The bytes of a row as characters. -/
def textCols : Nat → Str → Str
  | 0, _ => []
  | n + 1, [] => b!" " ++ textCols n []
  | n + 1, b :: bs => (if 32 ≤ b.toNat ∧ b.toNat ≤ 126 then b else 46) :: textCols n bs

/-- The row at offset `off` with the bytes `bs`. -/
def xxdRow (cols off : Nat) (bs : Str) : Str := hexFixed 8 off ++ b!": " ++ hexCols cols bs ++ b!" " ++ textCols cols bs ++ crlf

/-- The rows from offset `off` on, for the rest `d` of the file. -/
def xxdRows (cols : Nat) : Nat → Nat → Str → Str
  | 0, _, _ => []
  | n + 1, off, d => xxdRow cols off (d.take cols) ++ (if d.length ≤ cols then [] else xxdRows cols n (off + cols) (d.drop cols))

/-- The whole dump (there are at most `d.length + 1` rows). -/
def xxdText (cols : Nat) (d : Str) : Str := xxdRows cols (d.length + 1) 0 d

/-- The bytes shown in the hexadecimal columns of a row. -/
def readCols : Nat → Str → Str
  | n + 1, a :: b :: _ :: rest => if a = cSpace then [] else UInt8.ofNat (16 * nibble a + nibble b) :: readCols n rest
  | _, _ => []

/-- The bytes shown in the first rows of a dump. -/
def readDump (cols : Nat) : Nat → Str → Str
  | 0, _ => []
  | n + 1, s => if s = [] then [] else readCols cols (s.drop 10) ++ readDump cols n (s.drop (13 + 4 * cols))

end Ush.Spec
