import Verif.Spec.Tame
import Verif.Spec.Demo
import Verif.Spec.Host
/-!
# Specification: the example demo_linux as a machine

What its user has to know: there is a working directory, a hostname, and two memories; the lines that are entered change them.
-/
namespace Ush.Spec

/-- The machine. -/
structure Machine where
  dir : List Str := []
  host : Str := b!"host"
  ram : Str := List.replicate 256 0
  eeprom : Str := List.replicate 32 0xFF
  deriving DecidableEq

/-- Its directories. -/
def Machine.dirs : List (List Str) := [[], [b!"etc"], [b!"dev"], [b!"dev", b!"bus"], [b!"dev", b!"mem"], [b!"bin"]]

/-- Its texts. -/
def Machine.readme : Str := b!"Welcome to MicroShell DEMO implementation!\r\nYou will see how most common features work.\r\nEnjoy!\r\n"
def Machine.config : Str := b!"# system configuration\r\nfreq = 16MHz\r\nram = 4kB\r\n"

/-- The bytes `d` replace the first bytes of `m`; if there are too many, the memory behind `m` is overwritten. -/
def overwrite (m d : Str) : Option Str := if d.length ≤ m.length then some (d ++ m.drop d.length) else none

/-- `echo a > t`, where `t` names the file `p`. -/
def Machine.echo (x : Machine) (a p : Str) : Option Machine :=
  if p = b!"/etc/hostname" then some { x with host := (echoPrints a).take 16 }
  else if p = b!"/dev/mem/ram" then (overwrite x.ram (decodeSpec a)).map (fun m => { x with ram := m })
  else if p = b!"/dev/mem/eeprom" then (overwrite x.eeprom (decodeSpec a)).map (fun m => { x with eeprom := m })
  else some x

/-- Effect of a command line; `none` if it writes outside the memories. -/
def Machine.line (x : Machine) : List Str → Option Machine
  | [] => some x
  | name :: as =>
    if name = b!"cd" then
      match as with
      | [a] => some (if a = [] then x else { x with dir := (Machine.dirs.find? (fun p => render p == resolveText x.dir a)).getD x.dir })
      | _ => some x
    else if name = b!"reset" then some { x with dir := [] }
    else if name = b!"echo" then
      match as with
      | [a, s, t] => if s = b!">" then x.echo a (resolveText x.dir t) else some x
      | _ => some x
    else some x

/-- Effect of some lines. -/
def Machine.run (x : Machine) (lines : List Str) : Option Machine := lines.foldlM (fun x l => x.line (words l)) x

/-- `s` is the number `n` in decimal: digits, and no superfluous zero. -/
def Numeral (s : Str) (n : Nat) : Prop :=
  s ≠ [] ∧ (∀ c ∈ s, b!"0"[0] ≤ c ∧ c ≤ b!"9"[0]) ∧ (s.head? = b!"0".head? → s = b!"0") ∧ s.foldl (fun v c => 10 * v + (c.toNat - 48)) 0 = n

instance (s : Str) (n : Nat) : Decidable (Numeral s n) := by unfold Numeral; infer_instance

/-- The lines entered with the keys `cs`. -/
def Term.linesH (E : Env) (host : Host) (A : App) (t : Term) : List UInt8 → List Str
  | [] => []
  | c :: cs => (if isEnter c && t.ed.esc == .none then [sent E.inSize t.ed.line] else []) ++ Term.linesH E host A (t.keyH E host A c) cs

def Term.ShortAllH (E : Env) (host : Host) (A : App) (L N : Nat) (t : Term) : List UInt8 → Prop
  | [] => True
  | c :: cs => t.Short E L N c ∧ Term.ShortAllH E host A L N (t.keyH E host A c) cs

end Ush.Spec
