import Verif.Spec.History
/-!
# The example application DemoBasic

`/repo/examples/DemoBasic/DemoBasic.ino`, for a board without support for rebooting (line 95).  The level of the LED pin is what the
callbacks have written to it, so it is a function of the log.  `/repo/examples/DemoAdvanced` is the same program, split over several
files, with the same callbacks and the same order of calls in `setup`.
-/
namespace Ush
open Spec

/-- What a callback does to the LED pin: `toggle_exec_callback` (DemoBasic.ino:80-84), `set_exec_callback` (100-121), `led_set_data_callback` (146-160). -/
def ledStep (s : Bool) : Event → Bool
  | .exec (.user 1) _ => !s
  | .exec (.user 2) argv =>
    if argv.length ≠ 2 then s
    else if argv[1]? = some b!"1" then true
    else if argv[1]? = some b!"0" then false
    else s
  | .setData 5 d =>
    if d.length < 1 then s
    else if d[0]? = some 0x31 then true
    else if d[0]? = some 0x30 then false
    else s
  | _ => s

/-- Level of the LED pin; low after a reset of the board. -/
def led (l : List Event) : Bool := l.foldl ledStep false

/-- The configuration (DemoBasic.ino:52-77), with `n` for the three sizes, and the callbacks (80-175).  `time` is the text that `snprintf` makes of the
current time; it is cut to 15 bytes by `time_buf`. -/
def demo (n : Nat) (time : List Event → Str) : Env where
  inSize := n
  outSize := n
  pathMax := n
  hostname := b!"arduino"
  nodeCount := 5
  userExec := fun id argv _ =>
    match id with
    | 2 => if argv.length ≠ 2 ∨ (argv[1]? ≠ some b!"1" ∧ argv[1]? ≠ some b!"0") then [.printStatus .cmdWrongArguments] else []
    | 3 => [.print (.str b!"error: reboot not supported...")]
    | _ => []
  userGet := fun id u =>
    match id with
    | 4 => some b!"Use MicroShell and make fun!\r\n"
    | 5 => some (if led u.log then b!"1\r\n" else b!"0\r\n")
    | _ => some ((time u.log).take 15)

/-- `setup`, DemoBasic.ino:243-263, with the file descriptors of lines 178-231. -/
def demoSetup : List FsOp :=
  [.addGroup 4 [{ name := b!"reboot", description := some b!"reboot device", exec := some (.user 3) }],
   .mount [] 1 [{ name := b!"info.txt", getData := some 4 }],
   .mount [b!"dev"] 2 [{ name := b!"led", getData := some 5, setData := some 5 }, { name := b!"time", getData := some 6 }],
   .mount [b!"bin"] 3 [{ name := b!"toggle", description := some b!"toggle led", help := some b!"usage: toggle\r\n", exec := some (.user 1) },
     { name := b!"set", description := some b!"set led", help := some b!"usage: set {0,1}\r\n", exec := some (.user 2) }]]

end Ush
