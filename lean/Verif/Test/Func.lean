import Verif.Model.Service
/-!
# The repository's functional tests replayed on the model

These are tests of the fidelity of the model (evaluated by `#guard`), not proofs.  The set-up is
tests/func_tests/test_func.c:115-240 (styles disabled, all buffers 256 bytes, host name "test").
`cat /data/null` of test_func_cmd_cat.c is not replayed: that getter does not set `data`, so the C test reads an
uninitialised pointer; the model reports `Fault.uninit`.
-/
namespace Ush.Test
open Ush

def fRoot : List FileDesc :=
  [{ name := b!"test", description := some b!"test file", exec := some (.user 1), help := some b!"nothing special\r\n" }]
def f111 : List FileDesc := [{ name := b!"joke" }]
def fData : List FileDesc :=
  [{ name := b!"text" }, { name := b!"text_file1" }, { name := b!"text_file2" },
   { name := b!"null", getData := some 1, setData := some 1 },
   { name := b!"buffer", getData := some 2, setData := some 2 },
   { name := b!"binary", getData := some 3 }]
def fCmd : List FileDesc :=
  [{ name := b!"cmd1", description := some b!"additional cmd1" },
   { name := b!"cmd2", description := some b!"additional cmd2", exec := some (.user 2) }]

def env (content : List UInt8 := []) : Env where
  inSize := 256
  outSize := 256
  pathMax := 256
  hostname := b!"test"
  styleReset := []
  colorGreen := []
  colorYellow := []
  colorMagenta := []
  nodeCount := 20
  userExec := fun id argv _ =>
    if id = 1 then [.print (.str b!"test_exec_callback")]
    else [.printNoNewline (.str (b!"test cmd2\r\n" ++ (argv.tail.flatMap (fun s => s ++ b!"\r\n"))))]
  userGet := fun id _ =>
    if id = 1 then none else if id = 2 then some content else some ((List.range 256).map UInt8.ofNat)

def zero : Ush := { inBuf := List.replicate 256 0, outBuf := List.replicate 256 0 }

/-- `while (ush_service(&g_ush) != false) {};` with the given input available. -/
def readAll (E : Env) : Nat → Ush → List UInt8 → M Ush
  | 0, _, _ => .error .diverge
  | fuel + 1, u, inp => do
    let (u', busy) ← service E { rd := inp.head?, wr := true } u
    let inp' := if u'.log.getLast? = (inp.head?.map Event.inp) ∧ u'.log.length > u.log.length then inp.tail else inp
    if busy then readAll E fuel u' inp' else return u'

def outputOf (l : List Event) : List UInt8 := l.filterMap (fun e => match e with | .out b => some b | _ => none)

/-- Input is typed, the shell is serviced until idle: new state and the output. -/
def ask (E : Env) (u : Ush) (inp : List UInt8) : M (Ush × List UInt8) := do
  let u' ← readAll E 20000 { u with log := [] } inp
  return (u', outputOf u'.log)

def setup : List Op := [.init, .api (.mount b!"/" 1 fRoot), .api (.mount b!"/data" 2 fData), .api (.mount b!"/dir" 3 []),
  .api (.mount b!"/dir/1" 4 []), .api (.mount b!"/dir/2" 5 []), .api (.mount b!"/dir/1/11" 6 []),
  .api (.mount b!"/dir/1/11/111" 7 f111), .api (.mount b!"/dir/1/12" 8 []), .api (.mount b!"/dir/1/13" 9 []),
  .api (.mount b!"/dir/2/21" 10 []), .api (.mount b!"/dir/2/21/211" 11 []), .api (.mount b!"/dir/2/21/212" 12 [])]

def start : M (Ush × List UInt8) := do
  let u ← run env zero setup
  ask env u []

#guard (start.map (·.2)) = .ok b!"uShell 0.1.0\r\n[test /]$ "

def started : Ush := match start with | .ok (u, _) => u | .error _ => {}

/-- A script: library calls and typed inputs with the expected output. -/
inductive S
  | call (a : Api)
  | ty (inp out : List UInt8)

/-- `TEST_FUNC_ASK`: command without the newline; the echo is part of the output. -/
def S.ask (inp out : List UInt8) : S := .ty (inp ++ b!"\n") (inp ++ b!"\n" ++ out)

def script (E : Env) : Ush → List S → Bool
  | _, [] => true
  | u, .call a :: r => match runApi E { u with log := [] } a with
    | .ok u => (u.log = [] ∨ u.log = [.ret .ok]) && script E u r
    | .error _ => false
  | u, .ty i o :: r => match Test.ask E u i with
    | .ok (u, out) => out = o && script E u r
    | .error _ => false

-- test_func_cmd_cat.c, test_cmd_cat_single
#guard script (env b!"test_data") started [
  .ask b!"cat /data/buffer"
    b!"test_data[test /]$ "]

-- test_func_cmd_cat.c, test_cmd_cat_single
#guard script (env [1, 2, 97, 98, 99, 100, 3, 255]) started [
  .ask b!"cat /data/buffer"
    [1, 2, 97, 98, 99, 100, 3, 255, 91, 116, 101, 115, 116, 32, 47, 93, 36, 32]]

-- test_func_cmd_cat.c, test_cmd_cat_multi
#guard script (env b!"test") started [
  .ask b!"cat /data/buffer /data/buffer data/../dir/../data/buffer"
    b!"testtesttest[test /]$ "]

-- test_func_cmd_cat.c, test_cmd_cat_help
#guard script env started [
  .ask b!"help cat"
    b!"usage: cat <files...>\r\n[test /]$ "]

-- test_func_cmd_cat.c, test_cmd_cat_error
#guard script env started [
  .ask b!"cat"
    b!"error: wrong arguments\r\n[test /]$ ",
  .ask b!"cat 1"
    b!"error: file not found\r\n[test /]$ ",
  .ask b!"cat test"
    b!"error: file not readable\r\n[test /]$ ",
  .ask b!"cat /data/null 1"
    b!"error: file not found\r\n[test /]$ "]

-- test_func_cmd_cd.c, test_cmd_cd_abs
#guard script env started [
  .ask b!"cd /data"
    b!"[test data]$ ",
  .ask b!"cd /dir/1"
    b!"[test 1]$ ",
  .ask b!"cd /dir/2/21"
    b!"[test 21]$ ",
  .ask b!"cd /dir/../data"
    b!"[test data]$ ",
  .ask b!"cd /dir/../../../../../dir/1/12/../11"
    b!"[test 11]$ "]

-- test_func_cmd_cd.c, test_cmd_cd_rel
#guard script env started [
  .ask b!"cd data"
    b!"[test data]$ ",
  .ask b!"cd ."
    b!"[test data]$ ",
  .ask b!"cd ./../dir/2/21"
    b!"[test 21]$ ",
  .ask b!"cd ../../../data"
    b!"[test data]$ ",
  .ask b!"cd ../../../../../data"
    b!"[test data]$ ",
  .ask b!"cd ././../../dir/1/12/../11"
    b!"[test 11]$ "]

-- test_func_cmd_cd.c, test_cmd_cd_error
#guard script env started [
  .ask b!"cd"
    b!"error: wrong arguments\r\n[test /]$ ",
  .ask b!"cd 1 2"
    b!"error: wrong arguments\r\n[test /]$ ",
  .ask b!"cd test"
    b!"error: directory not found\r\n[test /]$ ",
  .ask b!"cd di"
    b!"error: directory not found\r\n[test /]$ "]

-- test_func_cmd_cd.c, test_cmd_cd_help
#guard script env started [
  .ask b!"help cd"
    b!"usage: cd <path>\r\n[test /]$ "]

-- test_func_cmd_echo.c, test_cmd_echo_shell
#guard script env started [
  .ask b!"echo"
    b!"\r\n[test /]$ ",
  .ask b!"echo abc"
    b!"abc\r\n[test /]$ ",
  .ask b!"echo \"a b c\""
    b!"a b c\r\n[test /]$ "]

-- test_func_cmd_echo.c, test_cmd_echo_error
#guard script env started [
  .ask b!"echo 1 2"
    b!"error: wrong arguments\r\n[test /]$ ",
  .ask b!"echo 1 2 3"
    b!"error: wrong arguments\r\n[test /]$ ",
  .ask b!"echo 1 > 2 3"
    b!"error: wrong arguments\r\n[test /]$ ",
  .ask b!"echo 1 > qwerty"
    b!"error: file not found\r\n[test /]$ ",
  .ask b!"echo \"a b c\" > qwerty"
    b!"error: file not found\r\n[test /]$ ",
  .ask b!"echo abc > /test"
    b!"error: file not writable\r\n[test /]$ ",
  .ask b!"echo abc > test"
    b!"error: file not writable\r\n[test /]$ "]

-- test_func_cmd_echo.c, test_cmd_echo_help
#guard script env started [
  .ask b!"help echo"
    b!"usage: echo <string> > <file>\r\n       echo [string]\r\n       * can be ascii-hex encoded string with \\xNN format.\r\n[test /]$ "]

-- test_func_cmd_echo.c, test_cmd_echo_redirect
#guard script env started [
  .ask b!"echo abc > /data/null"
    b!"[test /]$ ",
  .ask b!"echo abc > /data/buffer"
    b!"[test /]$ ",
  .call (.setCurrentDir b!"/data"),
  .ask b!"echo \"xy\" > buffer"
    b!"[test data]$ ",
  .ask b!"echo \"qwe rty\" > ./buffer"
    b!"[test data]$ ",
  .ask b!"echo \"\\x00a cd\\x00\\xAA\" > ./buffer"
    b!"[test data]$ ",
  .ask b!"echo aaaaaaaaaaaaaaaaaaaaaaaaaaaaaaaaaaaaaaaaaaaaaaaaaaaaaaaaaaaaaaaaaaaaaaaaaaaaaaaaaaaaaaaaaaaaaaaaaaaaaaaaaaaaaaaaaaaaaaaaaaaaaaaaq > buffer"
    b!"[test data]$ "]

-- test_func_cmd_help.c, test_cmd_help_self
#guard script env started [
  .ask b!"help"
    b!"help             - list available commands\r\nls               - list directory content\r\ncd               - change current directory\r\npwd              - print current directory\r\ncat              - print files content\r\nxxd              - dump file hex content\r\necho             - print string to file\r\n[test /]$ "]

-- test_func_cmd_help.c, test_cmd_help_help
#guard script env started [
  .ask b!"help help"
    b!"usage: help [file]\r\n[test /]$ "]

-- test_func_cmd_help.c, test_cmd_help_error
#guard script env started [
  .ask b!"help help abc"
    b!"error: wrong arguments\r\n[test /]$ ",
  .ask b!"help hel"
    b!"error: file not found\r\n[test /]$ ",
  .ask b!"help /data/binary"
    b!"error: no help available\r\n[test /]$ "]

-- test_func_cmd_help.c, test_cmd_help_file
#guard script env started [
  .ask b!"help ./test"
    b!"nothing special\r\n[test /]$ "]

-- test_func_cmd_ls.c, test_cmd_ls_current
#guard script env started [
  .ask b!"ls"
    b!"d---- .\r\nd---- dir/\r\nd---- data/\r\n---xh test             - test file\r\n[test /]$ ",
  .call (.setCurrentDir b!"/data"),
  .ask b!"ls"
    b!"d---- .\r\nd---- ..\r\n----- text\r\n----- text_file1\r\n----- text_file2\r\n-rw-- null\r\n-rw-- buffer\r\n-r--- binary\r\n[test data]$ ",
  .call (.setCurrentDir b!"/dir"),
  .ask b!"ls"
    b!"d---- .\r\nd---- ..\r\nd---- 2/\r\nd---- 1/\r\n[test dir]$ "]

-- test_func_cmd_ls.c, test_cmd_ls_abs
#guard script env started [
  .ask b!"ls /dir/1"
    b!"d---- .\r\nd---- ..\r\nd---- 13/\r\nd---- 12/\r\nd---- 11/\r\n[test /]$ ",
  .ask b!"ls /dir/../"
    b!"d---- .\r\nd---- dir/\r\nd---- data/\r\n---xh test             - test file\r\n[test /]$ ",
  .call (.setCurrentDir b!"/dir/1/11/111"),
  .ask b!"ls /dir/1"
    b!"d---- .\r\nd---- ..\r\nd---- 13/\r\nd---- 12/\r\nd---- 11/\r\n[test 111]$ ",
  .ask b!"ls /dir/../"
    b!"d---- .\r\nd---- dir/\r\nd---- data/\r\n---xh test             - test file\r\n[test 111]$ "]

-- test_func_cmd_ls.c, test_cmd_ls_rel
#guard script env started [
  .ask b!"ls .."
    b!"d---- .\r\nd---- dir/\r\nd---- data/\r\n---xh test             - test file\r\n[test /]$ ",
  .ask b!"ls ./../../.."
    b!"d---- .\r\nd---- dir/\r\nd---- data/\r\n---xh test             - test file\r\n[test /]$ ",
  .ask b!"ls ./../"
    b!"d---- .\r\nd---- dir/\r\nd---- data/\r\n---xh test             - test file\r\n[test /]$ ",
  .ask b!"ls dir/.."
    b!"d---- .\r\nd---- dir/\r\nd---- data/\r\n---xh test             - test file\r\n[test /]$ ",
  .ask b!"ls dir/../dir/1"
    b!"d---- .\r\nd---- ..\r\nd---- 13/\r\nd---- 12/\r\nd---- 11/\r\n[test /]$ ",
  .call (.setCurrentDir b!"/dir/1/11/111"),
  .ask b!"ls .."
    b!"d---- .\r\nd---- ..\r\nd---- 111/\r\n[test 111]$ ",
  .ask b!"ls ../../../../data"
    b!"d---- .\r\nd---- ..\r\n----- text\r\n----- text_file1\r\n----- text_file2\r\n-rw-- null\r\n-rw-- buffer\r\n-r--- binary\r\n[test 111]$ ",
  .ask b!"ls"
    b!"d---- .\r\nd---- ..\r\n----- joke\r\n[test 111]$ "]

-- test_func_cmd_ls.c, test_cmd_ls_error
#guard script env started [
  .ask b!"ls 1 2"
    b!"error: wrong arguments\r\n[test /]$ ",
  .ask b!"ls /test"
    b!"error: directory not found\r\n[test /]$ ",
  .ask b!"ls di"
    b!"error: directory not found\r\n[test /]$ "]

-- test_func_cmd_ls.c, test_cmd_ls_help
#guard script env started [
  .ask b!"help ls"
    b!"usage: ls [path]\r\n[test /]$ "]

-- test_func_cmd_pwd.c, test_cmd_pwd_root
#guard script env started [
  .ask b!"pwd"
    b!"/\r\n[test /]$ "]

-- test_func_cmd_pwd.c, test_cmd_pwd_misc
#guard script env started [
  .call (.setCurrentDir b!"/data"),
  .ask b!"pwd"
    b!"/data\r\n[test data]$ ",
  .call (.setCurrentDir b!"/dir/1/11/111"),
  .ask b!"pwd"
    b!"/dir/1/11/111\r\n[test 111]$ ",
  .call (.setCurrentDir b!"/dir/2/21"),
  .ask b!"pwd"
    b!"/dir/2/21\r\n[test 21]$ "]

-- test_func_cmd_pwd.c, test_cmd_pwd_error
#guard script env started [
  .ask b!"pwd 1"
    b!"error: wrong arguments\r\n[test /]$ "]

-- test_func_cmd_pwd.c, test_cmd_pwd_help
#guard script env started [
  .ask b!"help pwd"
    b!"usage: pwd\r\n[test /]$ "]

-- test_func_cmd_xxd.c, test_cmd_xxd
#guard script env started [
  .ask b!"xxd /data/null"
    b!"00000000:                                  \r\n[test /]$ "]

-- test_func_cmd_xxd.c, test_cmd_xxd
#guard script (env b!"abcdefg") started [
  .ask b!"xxd /data/buffer"
    b!"00000000: 61 62 63 64 65 66 67     abcdefg \r\n[test /]$ "]

-- test_func_cmd_xxd.c, test_cmd_xxd
#guard script (env b!"abcdefgh") started [
  .ask b!"xxd /data/buffer"
    b!"00000000: 61 62 63 64 65 66 67 68  abcdefgh\r\n[test /]$ "]

-- test_func_cmd_xxd.c, test_cmd_xxd
#guard script (env b!"abcdefghi") started [
  .ask b!"xxd /data/buffer"
    b!"00000000: 61 62 63 64 65 66 67 68  abcdefgh\r\n00000008: 69                       i       \r\n[test /]$ ",
  .ask b!"xxd /data/binary"
    b!"00000000: 00 01 02 03 04 05 06 07  ........\r\n00000008: 08 09 0A 0B 0C 0D 0E 0F  ........\r\n00000010: 10 11 12 13 14 15 16 17  ........\r\n00000018: 18 19 1A 1B 1C 1D 1E 1F  ........\r\n00000020: 20 21 22 23 24 25 26 27   !\"#$%&'\r\n00000028: 28 29 2A 2B 2C 2D 2E 2F  ()*+,-./\r\n00000030: 30 31 32 33 34 35 36 37  01234567\r\n00000038: 38 39 3A 3B 3C 3D 3E 3F  89:;<=>?\r\n00000040: 40 41 42 43 44 45 46 47  @ABCDEFG\r\n00000048: 48 49 4A 4B 4C 4D 4E 4F  HIJKLMNO\r\n00000050: 50 51 52 53 54 55 56 57  PQRSTUVW\r\n00000058: 58 59 5A 5B 5C 5D 5E 5F  XYZ[\\]^_\r\n00000060: 60 61 62 63 64 65 66 67  `abcdefg\r\n00000068: 68 69 6A 6B 6C 6D 6E 6F  hijklmno\r\n00000070: 70 71 72 73 74 75 76 77  pqrstuvw\r\n00000078: 78 79 7A 7B 7C 7D 7E 7F  xyz{|}~.\r\n00000080: 80 81 82 83 84 85 86 87  ........\r\n00000088: 88 89 8A 8B 8C 8D 8E 8F  ........\r\n00000090: 90 91 92 93 94 95 96 97  ........\r\n00000098: 98 99 9A 9B 9C 9D 9E 9F  ........\r\n000000A0: A0 A1 A2 A3 A4 A5 A6 A7  ........\r\n000000A8: A8 A9 AA AB AC AD AE AF  ........\r\n000000B0: B0 B1 B2 B3 B4 B5 B6 B7  ........\r\n000000B8: B8 B9 BA BB BC BD BE BF  ........\r\n000000C0: C0 C1 C2 C3 C4 C5 C6 C7  ........\r\n000000C8: C8 C9 CA CB CC CD CE CF  ........\r\n000000D0: D0 D1 D2 D3 D4 D5 D6 D7  ........\r\n000000D8: D8 D9 DA DB DC DD DE DF  ........\r\n000000E0: E0 E1 E2 E3 E4 E5 E6 E7  ........\r\n000000E8: E8 E9 EA EB EC ED EE EF  ........\r\n000000F0: F0 F1 F2 F3 F4 F5 F6 F7  ........\r\n000000F8: F8 F9 FA FB FC FD FE FF  ........\r\n[test /]$ "]

-- test_func_cmd_xxd.c, test_cmd_xxd_help
#guard script env started [
  .ask b!"help xxd"
    b!"usage: xxd <file>\r\n[test /]$ "]

-- test_func_cmd_xxd.c, test_cmd_xxd_error
#guard script env started [
  .ask b!"xxd"
    b!"error: wrong arguments\r\n[test /]$ ",
  .ask b!"xxd 1"
    b!"error: file not found\r\n[test /]$ ",
  .ask b!"xxd test"
    b!"error: file not readable\r\n[test /]$ ",
  .ask b!"xxd /data/null 1"
    b!"error: wrong arguments\r\n[test /]$ "]

-- test_func_input.c, test_input_empty
#guard script env started [
  .ask b!""
    b!"[test /]$ "]

-- test_func_input.c, test_input_error
#guard script env started [
  .ask b!"abcd"
    b!"error: syntax error\r\n[test /]$ "]

-- test_func_input.c, test_input_backspace
#guard script env started [
  .ty [116, 101, 115, 116, 8, 8, 8, 8, 10]
    [116, 101, 115, 116, 8, 32, 8, 8, 32, 8, 8, 32, 8, 8, 32, 8, 10, 91, 116, 101, 115, 116, 32, 47, 93, 36, 32],
  .ty [112, 119, 120, 8, 100, 10]
    [112, 119, 120, 8, 32, 8, 100, 10, 47, 13, 10, 91, 116, 101, 115, 116, 32, 47, 93, 36, 32],
  .ty [116, 8, 8, 8, 8, 112, 119, 8, 119, 100, 10]
    [116, 8, 32, 8, 112, 119, 8, 32, 8, 119, 100, 10, 47, 13, 10, 91, 116, 101, 115, 116, 32, 47, 93, 36, 32]]

-- test_func_reset.c, test_reset
#guard script env started [
  .call .reset,
  .ty b!""
    b!"uShell 0.1.0\r\n[test /]$ "]

-- test_func_exec.c, test_exec_ok
#guard script env started [
  .ask b!"test"
    b!"test_exec_callback\r\n[test /]$ ",
  .call (.setCurrentDir b!"/dir/2/21"),
  .ask b!"../../../test"
    b!"test_exec_callback\r\n[test 21]$ ",
  .ask b!"./../../../test"
    b!"test_exec_callback\r\n[test 21]$ ",
  .ask b!"/test"
    b!"test_exec_callback\r\n[test 21]$ "]

-- test_func_exec.c, test_exec_error
#guard script env started [
  .ask b!"/data/binary"
    b!"error: file not executable\r\n[test /]$ ",
  .ask b!"data/binary"
    b!"error: file not executable\r\n[test /]$ ",
  .ask b!"data/bin"
    b!"error: syntax error\r\n[test /]$ "]

-- test_func_autocomp.c, test_autocomp_full
#guard script env started [
  .ty b!"\t"
    b!"\r\nhelp\r\nls\r\ncd\r\npwd\r\ncat\r\nxxd\r\necho\r\ntest\r\ndir\r\ndata\r\n[test /]$ "]

-- test_func_autocomp.c, test_autocomp_part
#guard script env started [
  .ty b!"d\t"
    b!"d\r\ndir\r\ndata\r\n[test /]$ d"]

-- test_func_autocomp.c, test_autocomp_finish
#guard script env started [
  .ty b!"da\t"
    b!"data"]

-- test_func_autocomp.c, test_autocomp_finish
#guard script env started [
  .ty b!"h\t"
    b!"help"]

-- test_func_autocomp.c, test_autocomp_finish
#guard script env started [
  .ty b!"di\t"
    b!"dir"]

-- test_func_autocomp.c, test_autocomp_finish
#guard script env started [
  .ty b!"p\t\n"
    b!"pwd\n/\r\n[test /]$ "]

-- test_func_autocomp.c, test_autocomp_unknown
#guard script env started [
  .ty b!"q\t"
    b!"q"]

-- test_func_autocomp.c, test_autocomp_args
#guard script env started [
  .ty b!"abcd d\t"
    b!"abcd d\r\ndir\r\ndata\r\n[test /]$ abcd d",
  .ty b!"i\t"
    b!"ir"]

-- test_func_autocomp.c, test_autocomp_args
#guard script env started [
  .call (.setCurrentDir b!"/dir"),
  .ty b!"\t"
    b!"\r\nhelp\r\nls\r\ncd\r\npwd\r\ncat\r\nxxd\r\necho\r\n2\r\n1\r\n[test dir]$ ",
  .ty b!"qwe qwe   pw\t"
    b!"qwe qwe   pwd",
  .ty b!"\t"
    b!"",
  .ty b!" \t"
    b!" \r\nhelp\r\nls\r\ncd\r\npwd\r\ncat\r\nxxd\r\necho\r\n2\r\n1\r\n[test dir]$ qwe qwe   pwd "]

-- test_func_autocomp.c, test_autocomp_complex
#guard script env started [
  .call (.setCurrentDir b!"/data"),
  .ty b!"te\t"
    b!"text",
  .ty b!"\t"
    b!"\r\ntext\r\ntext_file1\r\ntext_file2\r\n[test data]$ text",
  .ty b!"_\t"
    b!"_file",
  .ty b!"\t"
    b!"\r\ntext_file1\r\ntext_file2\r\n[test data]$ text_file"]

-- test_func_cmd_cat.c, test_cmd_cat_multi_binary
#guard script (env b!"abcd") started [.call (.setCurrentDir b!"/data"),
  .ask b!"cat /data/buffer ./binary" (b!"abcd" ++ (List.range 256).map UInt8.ofNat ++ b!"[test data]$ ")]
#guard script (env [0, 84]) started [.call (.setCurrentDir b!"/dir"),
  .ask b!"cat /data/binary ../data/buffer" ((List.range 256).map UInt8.ofNat ++ [0, 84] ++ b!"[test dir]$ ")]

-- test_func_cmd_echo.c, test_cmd_echo_redirect: what the setter receives
def setterOf (r : M (Ush × List UInt8)) : List (List UInt8) := match r with
  | .ok (u, _) => u.log.filterMap (fun e => match e with | .setData 2 d => some d | _ => none)
  | .error _ => []
#guard setterOf (ask env started b!"echo abc > /data/buffer\n") = [b!"abc"]
#guard setterOf (ask env started b!"echo \"\\x00a cd\\x00\\xAA\" > ./data/buffer\n") = [[0, 97, 32, 99, 100, 0, 0xAA]]

-- test_func_commands.c
#guard script env started [.ask b!"cmd1" b!"error: syntax error\r\n[test /]$ ",
  .call (.commandsAdd 13 fCmd),
  .ask b!"cmd1" b!"error: file not executable\r\n[test /]$ ",
  .ask b!"help cmd1" b!"error: no help available\r\n[test /]$ ",
  .ask b!"cmd2 a b c xyz" b!"test cmd2\r\na\r\nb\r\nc\r\nxyz\r\n[test /]$ "]
#guard (runApi env { started with log := [] } (.commandsRemove 13)).map (·.log) = .ok [.ret .nodeNotFound]
#guard script env started [.call (.commandsAdd 13 fCmd), .call (.commandsRemove 0),
  .ask b!"pwd" b!"error: syntax error\r\n[test /]$ ",
  .ask b!"cmd2 test" b!"test cmd2\r\ntest\r\n[test /]$ "]

-- test_func_print.c
#guard script env started [.call (.print (.str b!"test")), .ty [] b!"test\r\n[test /]$ "]
#guard script env started [.call (.printNoNewline (.str b!"test")), .ty [] b!"test[test /]$ "]
#guard script env started [.call (.fillOut b!"test123\r\n"), .call .flush, .ty [] b!"test123\r\n[test /]$ "]
#guard script env started [.call (.printf (.text (List.replicate 255 84))), .ty [] (List.replicate 255 84 ++ b!"[test /]$ ")]
#guard script env started [.call (.printf (.text b!"string0")), .call (.printf (.error [])),
  .ty [] b!"string0...format error\r\n[test /]$ "]
-- the overflow case: the terminating NUL is sent, too
#guard script env started [.call (.printf (.text b!"string0")), .call (.printf (.text (List.replicate 248 84))),
  .call (.printf (.text b!"O")),
  .ty [] (b!"string0" ++ List.replicate (256 - 7 - 20) 84 ++ b!"...overflow error\r\n" ++ [0] ++ b!"[test /]$ ")]
#guard [Status.ok, .nodeNotFound, .nodeWithChilds, .nodeWithoutParent, .nodeAlreadyMounted, .cmdSyntaxError, .cmdWrongArguments,
  .fileNotExecutable, .fileNotWritable, .fileNotReadable, .fileNoHelp, .fileNotFound, .fileReadOnly].all (fun s =>
  script env started [.call (.printStatus s), .ty [] (statusString {} s ++ b!"\r\n[test /]$ ")])

-- findings
#guard setterOf (ask env started b!"echo \\x41 > data/buffer\n") = [b!"A"]
#guard script env started [.ask b!"echo \\x41" b!"Ax41\r\n[test /]$ "]
#guard (ask env started b!"cat /data/null\n").map (·.2) = .error .uninit


-- test_func_mount.c
def stats (l : List Api) : M (List Event) := (run env { started with log := [] } (l.map Op.api)).map (·.log)
#guard stats [.setCurrentDir b!"/abc", .mount b!"/abc" 13 [], .setCurrentDir b!"/abc"] =
  .ok [.ret .nodeNotFound, .ret .ok, .ret .ok]
#guard stats [.mount b!"/dir" 13 [], .mount b!"/test/abc" 13 [], .unmount b!"/test", .unmount b!"/dir"] =
  .ok [.ret .nodeAlreadyMounted, .ret .nodeWithoutParent, .ret .nodeNotFound, .ret .nodeWithChilds]
#guard stats [.setCurrentDir b!"/data", .unmount b!"/data", .setCurrentDir b!"/", .setCurrentDir b!"/data"] =
  .ok [.ret .ok, .ret .ok, .ret .ok, .ret .nodeNotFound]

-- test_func_node.c
#guard getByPath env started b!"/test" = .ok none
#guard getByPath env started b!"/data/binary" = .ok none
#guard getByPath env started b!"/dir/../" = .ok none
#guard getByPath env started b!"/" = .ok (some 1)
#guard getByPath env started b!"/data" = .ok (some 2)
#guard getByPath env started b!"/dir/1/11/111" = .ok (some 7)
#guard getParentByPath env started b!"/test" = .ok (some 1)
#guard getParentByPath env started b!"/data/binary" = .ok (some 2)
#guard getParentByPath env started b!"/dir/../" = .ok none
#guard getParentByPath env started b!"/" = .ok none
#guard getParentByPath env started b!"/dir/1/11/111" = .ok (some 6)
def at111 : Ush := { started with current := some 7 }
def absTests : List (Str × Str) := [(b!"/", b!"/"), (b!"/test", b!"/test"), (b!"/", b!"/test/.."), (b!"/", b!"/test/../"),
  (b!"/abc", b!"/test/../abc"), (b!"/abc", b!"/test/../abc/"), (b!"/abc", b!"/test/.././abc/"),
  (b!"/qwerty", b!"/test/../abc/../../../qwerty"), (b!"/qwerty/xyz", b!"/test/../abc/../../../qwerty/xyz")]
def absDeeper : List (Str × Str) := [(b!"/dir/1/11/111", b!""), (b!"/dir/1/11/111", b!"."), (b!"/dir/1/11/111/test", b!"./test"),
  (b!"/dir/1/11/111/test", b!"test"), (b!"/dir/1/11/111", b!"test/.."), (b!"/dir/1/11/111", b!"test/../"),
  (b!"/dir/1/11/111/abc", b!"test/../abc"), (b!"/dir/1/11/111/abc", b!"test/../abc/"), (b!"/dir/1/11/111/abc", b!"test/.././abc/"),
  (b!"/dir/1/qwerty", b!"test/../abc/../../../qwerty"), (b!"/dir/1/qwerty/xyz", b!"test/../abc/../../../qwerty/xyz")]
#guard absTests.all (fun (e, i) => getAbsolutePath env started i = .ok e && getAbsolutePath env at111 i = .ok e)
#guard absDeeper.all (fun (e, i) => getAbsolutePath env at111 i = .ok e)

end Ush.Test
