import Verif.Spec.History
import Verif.Spec.Host
/-!
# The example application demo_linux

`/repo/examples/demo_linux`: shell.c, commands.c, fs/fs.c, fs/path/*.c.  The variables of the program (`g_hostname_data`,
`g_ram_buffer`, `g_eeprom_buffer`) contain what the callbacks have written into them, so they are functions of the log.
-/
namespace Ush
open Spec

/-- What the program gets from the machine: `time(NULL) - start_time`, the numbers returned by `rand`, the random contents of `g_rom_buffer`,
and what `cat /dev/null` finds in the pointer that `null_data_getter` (fs/path/dev.c:31-40) does not set. -/
structure Machinery where
  time : List Event → UInt64
  rand : List Event → UInt32
  rom : Nat → UInt8
  null : Option Str

/-- The variables: `arg` is the argument of the last `echo`, as it was typed; it is overwritten by the decoded bytes before a setter is called. -/
structure LinuxVars where
  arg : Str := []
  host : Str := b!"host"
  ram : Str := List.replicate 256 0
  eeprom : Str := List.replicate 32 0xFF
  deriving DecidableEq

/-- `memcpy(buffer, data, size)`. -/
def memcpy (buffer data : Str) : M Str := if data.length ≤ buffer.length then .ok (data ++ buffer.drop data.length) else .error .oob

/-- What the setters do: `g_hostname_data_setter` (fs/path/etc.c:53-60) with `shell_set_hostname` (shell.c:70-74), which takes the data as a C string of at most
16 bytes; `ram_data_setter` and `eeprom_data_setter` (fs/path/dev.c:104-110, 121-127). -/
def LinuxVars.step (s : LinuxVars) : Event → M LinuxVars
  | .exec (.builtin .echo) argv => .ok { s with arg := argv[1]?.getD [] }
  | .setData 3 d => .ok { s with host := ((d ++ s.arg.drop d.length).takeWhile (· ≠ cNul)).take 16 }
  | .setData 6 d => do return { s with ram := ← memcpy s.ram d }
  | .setData 7 d => do return { s with eeprom := ← memcpy s.eeprom d }
  | _ => .ok s

/-- The variables after a history. -/
def linuxVars (l : List Event) : M LinuxVars := l.foldlM LinuxVars.step {}

/-- The variable `x`; after an overflow there is nothing to say, and nothing is read in the model. -/
def linuxRead (x : LinuxVars → Str) (l : List Event) : Str :=
  match linuxVars l with
  | .ok s => x s
  | .error _ => []

/-- `desc->hostname` points to `g_hostname_data` (shell.c:43-51). -/
def linuxHost : Host := linuxRead (·.host)

/-- `%lu`. -/
def decimal : Nat → Nat → Str
  | 0, _ => []
  | k + 1, n => (if n < 10 then [] else decimal k (n / 10)) ++ [48 + UInt8.ofNat (n % 10)]

/-- The bytes of an `int`. -/
def intBytes (n : UInt32) : Str := [n.toUInt8, (n >>> 8).toUInt8, (n >>> 16).toUInt8, (n >>> 24).toUInt8]

/-- `g_readme_data`, fs/path/root.c:30-33. -/
def readmeData : Str := b!"Welcome to MicroShell DEMO implementation!\r\nYou will see how most common features work.\r\nEnjoy!\r\n"

/-- `g_config_data`, fs/path/etc.c:30-33. -/
def configData : Str := b!"# system configuration\r\nfreq = 16MHz\r\nram = 4kB\r\n"

/-- `g_rom_buffer`, filled by `dev_mount`, fs/path/dev.c:159-162. -/
def Machinery.romData (m : Machinery) : Str := (List.range 1024).map m.rom

/-- The configuration, shell.c:35-51. -/
def linuxCfg : Env where
  inSize := 256
  outSize := 256
  pathMax := 256
  hostname := b!"host"
  nodeCount := 8

/-- A configuration with callbacks of commands and getters. -/
def Env.equip (E : Env) (x : Nat → List Str → Ush → List Api) (g : Nat → Ush → Option Str) : Env := { E with userExec := x, userGet := g }

/-- The callbacks.  `print_exec_callback` prints from the input buffer, which does not change before the next key; here it prints a copy. -/
def linux (m : Machinery) : Env := linuxCfg.equip
  (fun id argv u =>
    match id with
    | 1 => [.reset]                                                         -- commands.c:29-36
    | 2 => if argv.length ≠ 1 then [.printStatus .cmdWrongArguments]        -- fs/path/bin.c:44-56
           else [.printf (.text (b!"time: " ++ decimal 20 (m.time u.log).toNat ++ b!"s\r\n"))]
    | _ => if argv.length ≠ 2 then [.printStatus .cmdWrongArguments]        -- fs/path/bin.c:31-42
           else [.print (.str ((argv[1]?.getD []).takeWhile (· ≠ cNul)))])
  (fun id u =>
    match id with
    | 1 => some readmeData                       -- fs/path/root.c:35-42
    | 2 => some configData                       -- fs/path/etc.c:35-42
    | 3 => some (linuxHost u.log)                -- fs/path/etc.c:44-51
    | 4 => m.null                                -- fs/path/dev.c:31-40
    | 5 => some (intBytes (m.rand u.log))        -- fs/path/dev.c:52-62
    | 6 => some (linuxRead (·.ram) u.log)        -- fs/path/dev.c:95-102
    | 7 => some (linuxRead (·.eeprom) u.log)     -- fs/path/dev.c:112-119
    | _ => some m.romData)                       -- fs/path/dev.c:129-136

/-- `commands_register` (commands.c:38-51) and `fs_mount` (fs/fs.c:32-38, fs/path/root.c:44-56, etc.c:62-81, dev.c:64-87, 138-170, bin.c:58-79). -/
def linuxSetup : List FsOp :=
  [.addGroup 1 [{ name := b!"reset", description := some b!"reset shell", exec := some (.user 1) }],
   .mount [] 2 [{ name := b!"readme.txt", getData := some 1 }],
   .mount [b!"etc"] 3 [{ name := b!"config", description := some b!"system configuration", getData := some 2 },
     { name := b!"hostname", description := some b!"shell hostname", getData := some 3, setData := some 3 }],
   .mount [b!"dev"] 4 [{ name := b!"null", getData := some 4, setData := some 4 }, { name := b!"random", getData := some 5 }],
   .mount [b!"dev", b!"bus"] 5 [{ name := b!"spi", help := some b!"not implemented yet\r\n" }, { name := b!"uart", help := some b!"not implemented yet\r\n" }],
   .mount [b!"dev", b!"mem"] 6 [{ name := b!"ram", getData := some 6, setData := some 6 }, { name := b!"eeprom", getData := some 7, setData := some 7 },
     { name := b!"rom", getData := some 8 }],
   .mount [b!"bin"] 7 [{ name := b!"uptime", help := some b!"usage: uptime\r\n  show system uptime\r\n", exec := some (.user 2) },
     { name := b!"print", help := some b!"usage: print <arg>\r\n  print argument to shell\r\n", exec := some (.user 3) }]]

end Ush
