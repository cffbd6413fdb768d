import Verif.Spec.Tame
/-!
# Specification: the example DemoBasic as a device

What its user has to know: the device has an LED and a working directory; the lines that are entered switch the LED and change the directory.
-/
namespace Ush.Spec

/-- The device: working directory and LED. -/
structure Device where
  dir : List Str := []
  led : Bool := false
  deriving DecidableEq

/-- The text of the arguments for switching the LED. -/
def switch (s : Bool) (a : Str) : Bool := if a = b!"1" then true else if a = b!"0" then false else s

/-- Effect of a command line: `cd` to one of the three directories; the file /bin/toggle, however it is named; /bin/set with one argument; and `echo` into the
file /dev/led, of which only the first byte counts. -/
def Device.line (d : Device) : List Str → Device
  | [] => d
  | name :: as =>
    if name = b!"cd" then
      match as with
      | [a] => if a = [] then d else
        { d with dir := if resolveText d.dir a = b!"/" then [] else if resolveText d.dir a = b!"/dev" then [b!"dev"]
                        else if resolveText d.dir a = b!"/bin" then [b!"bin"] else d.dir }
      | _ => d
    else if name = b!"echo" then
      match as with
      | [a, s, t] => if s = b!">" ∧ resolveText d.dir t = b!"/dev/led" then { d with led := switch d.led ((decodeSpec a).take 1) } else d
      | _ => d
    else if resolveText d.dir name = b!"/bin/toggle" then { d with led := !d.led }
    else if resolveText d.dir name = b!"/bin/set" then
      match as with
      | [a] => { d with led := switch d.led a }
      | _ => d
    else d

/-- The lines entered with the keys `cs`. -/
def Term.lines (E : Env) (A : App) (t : Term) : List UInt8 → List Str
  | [] => []
  | c :: cs => (if isEnter c && t.ed.esc == .none then [sent E.inSize t.ed.line] else []) ++ Term.lines E A (t.key E A c) cs

/-- The device after some lines. -/
def Device.run (d : Device) (lines : List Str) : Device := lines.foldl (fun d l => d.line (words l)) d

end Ush.Spec
