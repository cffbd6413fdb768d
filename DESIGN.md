# Formal model of microshell in Lean 4

## 1. What is modelled

The whole library in `/repo/src/src` (every `.c` file), as an executable, total Lean function per C
function, in `lean/Verif/Model/*.lean`. Each definition cites the file and lines it models.

* **State.** `Ush` mirrors `struct ush_object` field by field, plus the memory the object works on: the input
  and output buffers (byte lists of fixed length), the node objects (a map from node ids to
  `struct ush_node_object`), and a monotone `log` of observable events (byte emitted, byte consumed,
  callback called with arguments, status returned).
* **Undefined behaviour is an outcome.** Functions return `Except Fault α`. Out-of-bounds access
  (including reads past a missing NUL and overflow of the `path_max_length` stack buffers), NULL dereference,
  failed `USH_ASSERT`, use of an uninitialised pointer, a zero-length VLA and an endless loop over a cyclic
  list are distinct `Fault`s. No definition silently repairs such an access.
* **Pointers.** `char *write_buf` etc. are `Ptr` values: NULL, a constant NUL-terminated string, caller
  data, an offset into the input buffer, or the output buffer. Reads through the last two see the current
  contents of the buffer. Node pointers are node ids; lists of nodes are followed through
  `next`/`children` exactly like in C; loops over them take fuel `nodeCount` (the number of node objects that
  exist), so running out of fuel means the list is cyclic and the C loop does not terminate (`Fault.diverge`).
* **Environment.** `Env` holds the descriptor (sizes, host name, hook), the configuration strings and
  numbers of `ush_config.h`, and the behaviour of user callbacks as functions of the *whole* state
  including the log: a user callback is an arbitrary, history-dependent list of library API calls. The read and
  write callbacks of the I/O interface are inputs of every service call (`Io`).
* **Histories.** `Op` is either a service call with the I/O results of this call, or an API call made by the
  application between two service calls; a history is a list of `Op`s.

### Not modelled / simplifications
* `int`/`size_t` are `Nat` (no wrap-around except where the code subtracts, where it is checked). C63 bounds every counter of the shell
  object in all histories of C23, so the fields do not wrap around if the sizes of the application's objects fit the C types.
* `char` is `UInt8`. Whether it is signed does not matter: the code compares characters with `<` only in `ush_utils_is_printable` (an
  `uint8_t`) and `hex_to_dec` (ush_utils.c:261-276), and bytes from 0x80 on fail those comparisons either way.
* `vsnprintf` is a parameter of `ush_printf`: the formatted text or "format error".
* `ush_reset_start` (ush_reset.c:31-36) is internal and never called; it is not modelled.
* User callbacks do not call `ush_service` recursively (except in Model/Nested.lean, C80: callbacks for commands, data
  and processes do; the hook and getters do not), and do not write into `struct ush_object` fields
  or into `argv` directly, except in Spec/Scribble.lean (C81) (a user `process` callback may set the FSM to a reset/process state).
* A getter (`get_data`) only returns data; it makes no library calls, except in Model/Getter.lean (C79). A getter that sets the data pointer to NULL is treated like one that does not
  set it (a fault in `cat`).
* An application can print from the output buffer of the descriptor only from its beginning (`Ptr.outBuf` has no offset).
* `ush_deinit` on a list of siblings that is a cycle is `Fault.diverge` in the model; the C code would stop, since the `memset` of the
  first node cuts the cycle (ush_node.c:94-108). No theorem depends on it: within the rules lists are not cyclic.
* `Ush` has no field for the pointer `self->desc`: it is set from `ush_init` to `ush_deinit`. Model/Life.lean adds it (`Bound`), and C72 shows for all
  histories what happens outside of that time; inside, the pointer plays no part (C72_same).
* File names and paths stored in nodes and descriptors do not change. The contents of memory that is being printed (getter data, hostname, texts)
  are copied into the model when the printing starts; what happens if the application writes to that memory meanwhile is C77.
* Preprocessor switches (autocompletion, built-in commands as a whole and one by one) are fields of `Env`. A
  disabled callback would not exist in the program; the model still allows an application to name it. Shell
  styles, translations, column count and alignment are parameters.
* Each of `strcpy`/`strcat`/`sprintf` into a local or output buffer is one checked operation on the
  contents up to the NUL (the bytes after the NUL are not tracked for stack buffers).
* Concurrency: the library is single threaded; interleavings are those of service calls and API calls.

## 2. Files

* `Verif/Model/` — the model: `Basic` (bytes, faults, checked access), `Types` (structures, environment), `Utils`
  (ush_utils.c), `Node` (node, mount, commands, file lookup), `Core` (write engine, prompt, reset, line reader,
  print functions), `Parse` (parser), `Cmd` (argument access, built-in commands and their processes), `Autocomp`
  (TAB), `Service` (ush.c, histories), `Linux`, `Demo`, `Initialize` (the examples), `Getter` (getters that make library calls), `Nested` (callbacks
  that call `ush_service`).
* `Verif/Spec/` — small specifications used in the statements, written without the helper functions of the model:
  `Path`, `Paths` (any text), `Text`, `Lex` (words of a line), `Edit` (line editor), `Tree`/`Fs` (abstract `World`: mounted paths, command
  groups, working directory, mounted or not), `Resolve`, `Sched` (schedules), `Session`, `Builtin` (texts of the built-in commands),
  `Complete` (TAB), `Calls` (calls made by callbacks), `History`, `Safe` (rules for the application), `Own` (two
  instances), `Terminal` (the whole shell as its user sees it), `Screen` (a VT100 screen), `Both` (two terminals),
  `Printf` (all cases of `ush_printf`), `Notes` (`ush_printf` while somebody is typing),
  `Effort` (number of service calls), `Place` (the working directory, mounted or not),
  `Width` (bounds for the counters), `Later`, `Lives` (processes of the application; in a terminal),
  `Forget` (when two terminals are alike), `Loop` (calling `ush_service` until it returns `false`),
  `Reach` (which words there is room for, also for TAB), `Moment` (the same with the hostname of the moment),
  `Life` (the order of `ush_init`, `ush_deinit` and other calls), `Apps` (any application), `AppsHost` (the same with the hostname of the moment),
  `Unseen` (new directories and commands while something is being printed), `Torn` (texts and data that change while they are being printed), `Memory` (memory given to `ush_init`),
  `Getter` (getters that make library calls), `Nested` (callbacks
  that call `ush_service`), `Scribble` (callbacks that write to their arguments).
* `Verif/Proof/` — lemmas. `Verif/Props/` — the property theorems with non-vacuity examples beside them;
  `Props/Samples` holds the concrete shells used in the examples.
* `Verif/Test/` — the repository's own functional and unit tests replayed on the model (`#guard`). They test the
  fidelity of the model; no theorem depends on them. Each of the 29 files of
  `tests/unit_tests` is represented by its cases; the replay was not compared with the C files assertion by assertion.
  Where a unit test replaces callees by mocks, the real callees run. The headers of `Test/Machine` and `Test/Commands`
  name the differences and the cases that were left out.
* `tools/claims.py`, `tools/gen_manifest.py` write `MANIFEST.json`; `tools/axioms.py` writes section 6;
  `tools/mutate.py`, `tools/automut.py` test the theorems against wrong programs (section 7).

## 3. How the proofs work

* **Text helpers** (C01–C05, C44): index loops over buffers against recursive functions on component lists or words.
* **Directory tree** (C06–C12, C39): `TreeInv` says that the pointer structure (`parent`, `next`, `children`)
  represents the abstract `World`; each operation of `ush_node*.c`/`ush_commands.c` refines the operation of the
  specification; histories by induction.
* **An unmounted working directory** (C65): the node object stays readable, so `CwdInv` describes it whether it is mounted or not;
  `World.dirs` are the mounted directories and the working directory. All theorems about the shell are stated for these worlds.
* **The working directory** (C62): the invariant of the tree without its clause for the working directory, with the effect of every operation on
  `current` and on the `path` fields of all node objects.
* **Service loop** (C20–C22): `service_eq` (Proof/Service) turns the service function into one case distinction.
  Refused I/O changes nothing (stuttering), so all fair schedules give the same sequence of states.
* **Line and dispatch** (C13–C19, C25–C26): "run until it waits" theorems: from the prompt, typed keys lead to
  the state the line editor specification gives; Enter leads to the call of the command with the words of the line.
* **Built-in commands** (C30–C36): from Enter to the next prompt, with the exact output.
* **TAB** (C27–C29, C60): the scan finds exactly `World.offers`; the search adds characters as `World.growth` says (`optimise_run`); where no
  directory begins with a dot this is the longest common prefix (`Proof/TabIdeal`).
* **Safety** (C23, C24): an invariant `WInv` of the whole shell, preserved by every operation under the rules of
  `Spec/Safe`; with a measure for the return to the prompt. Changes of directories and commands in the middle of a command or of a
  completion are in `Proof/SafeBusy`: the world of a state is unique (`WInv.uniq`), and what is at work keeps what it needs. Each rule has a witness (`C23_false_*` etc.) that shows
  the fault without it.
* **Changes that are not seen** (C74): two runs side by side, `Beside` says that what the built-in command is going to look at (the rest of a list
  of siblings, the files of a node, the files its arguments name) is the same in both; a service call keeps this, and so does a call that brings
  something new into one of the runs, since the node object it changes is in none of these lists (by the invariant of C23).
* **Feature switches** (C46): fields of `Env`; all theorems are for all values of them.
* **The whole terminal** (C47): the theorems about keys, lines, commands, TAB and calls, composed: `Shell E t u` (the
  shell object `u` represents the terminal `t`) is preserved by every key and every call at the prompt; with C20 for
  every fair schedule.
* **Applications that leave the directories alone** (C48): the conditions of C47 follow from bounds on the lengths, by a
  case distinction over all commands. The example DemoBasic is one of them (C49); the effect of its lines on the LED is
  computed from the events that the lines add to the log. DemoAdvanced is the same program split over several files.
* **A hostname that changes** (C52): `Env.hostname` is constant, but nothing uses it except the state that prints it (`drive1_named`).
  From that state until the shell waits again only bytes are printed (`chain_closing`; the invariant `Aims` says that a prompt is
  followed by a new line or by the line being completed), so the run with the final hostname throughout is the run with the
  hostname of every moment (`chain_dynamic`).
* **What the shell remembers** (C66): from C47, since the specified terminal uses nothing else.
* **Loops until `false`** (C67): the states are divided into those that lead to a new line and those that lead back to the line being typed
  (`OnLine`, `OnKey`; `Proof/Lane` shows that no step changes sides); the steps of C47 are cut where `false` is returned first.
* **The limit for paths** (C68): where there is no room, the unchecked `strcpy`/`strcat` of the model is a fault, in the very call that looks up the word; where there is
  room, C47. For applications as in C48 the room for the words is the only thing that can be missing. A fault is reached under every fair timing (`fair_stuck`).
* **TAB without room** (C69): the search is followed up to the first word that does not fit (`tab_full`). Behind another word the read past the end of the line is a fault;
  on the first word the position is 0 again (`Wrapped`), and an invariant (`Lost`: fewer characters in the line than are to be shown at the end) excludes that the search
  comes to an end. For names with a long common beginning the search comes back to the state it began with (`Counted.step`).
* **TAB behind a NUL** (C70): the word does not change while characters are added (`Drift`), until the position has gone around the buffer and the word is overwritten; then `Lost` again.
* **Every key with a changing hostname** (C71): up to the next prompt the run is the one with a fixed hostname; from the prompt on nothing is added to the history except output, which leaves the hostname alone.
* **Calls before `ush_init`** (C72): the object with the pointer runs as the object without it, as long as the calls are in order (`bound_run`); `ush_init` on an object with groups
  of commands is one more addition to their list (`ushInit_late`).
* **Any application** (C73): `Term.Ok` of C47 is the application's part and the part of the keys together (`civil_key`, `ok_near`); a key with no room leads into the endless search or the overflow of C68 and C70,
  after the hook (`civil_far`).
* **Rows that do not fit** (C75): the command is followed row by row up to the first one that does not fit (`Proof/Rows`); there the unchecked `sprintf`/`strcpy` of the model
  is a fault. With no columns `xxd` prints offsets for ever (`Dumping.never`).
* **Any application with a changing hostname** (C76): C73 for each hostname, joined as in C71 (`never_dynamic`), calls at the prompt by `chain_dynamic`.
  With an input buffer of one byte no line is ever survived (`enter_one`, in C73 and C76).
* **Memory that changes while it is printed** (C77): a simulation of every function of the model with itself (`Proof/Torn`), for two shells that differ only in bytes of the memory printed
  from, in non-NUL bytes of the output buffer, and in the bytes printed (`Like`).
* **Memory given to `ush_init`** (C78): `ushInit_free` (Proof/World) sets up the representation of the empty world from any object without commands and any nodes without children;
  the theorems about zeroed objects only use that.
* **Getters that make library calls** (C79): a service call is that of the model, or the step of `cat` or the line of `xxd` that calls a getter (`step_cases`, Proof/Getter); the first call of
  a getter that prints is found in the log of the model (`first_get`), and after it the write engine is its own successor (`printsOn`).
* **Callbacks that call ush_service** (C80): the callbacks are in tail position (`Tail`, `service_tail` in Proof/Nested), so the rest of a callback can be taken out of the service call;
  then induction on the bound (`carry_flat`, `serviceN_flat`).
* **The rules for calls that print are exact** (C82): from the sheets of C57 (`draws_printf`), since the fault does not depend on how much has been printed (`ushPrintf_any`).
* **Callbacks that write to their arguments** (C81): after the callback the shell is in a state (`Parked`) in which nothing reads the input buffer until the next line is begun; the two
  shells are equal but for that buffer (`Unread`) at every service call, and the specification of a new line does not depend on it.
* **Callbacks that act** (C53): the events of this kind in the answers of C47.
* **Initialize** (C61): as C48, with the bound on the words of a line that the input buffer gives (`sent_words`).
* **demo_linux** (C54): the variables of the program are a function of the log (`linuxVars`); the events that a line adds (C53) change
  them as the specification (`Machine`) says. The tables of the example are checked by evaluation.
* **Files as memory** (C51): C47 with the answers of echo, xxd and cat, by induction over the accesses.
* **Contract for callbacks** (C50): an invariant of every model function, without any condition on the application.
* **Instances** (C43): every model function commutes with replacing the nodes that the instance does not own.
* **The screen** (C56): the echo of every key of C47 fed to a small VT100 screen; texts are followed by an automaton (`Next`).
* **ush_printf** (C57): an invariant of all histories (`Drawn`): if the output buffer is what is printed, it holds a C string, the positions fit it, and an extra byte is
  printed only when the buffer is full.
* **ush_printf at the prompt** (C58): a second invariant of all histories (`Calm`): while a line is read or completed everything has been sent, and if it came from the output
  buffer it was at most three bytes long; with `Drawn` this gives the case of C57 that applies.
* **Two terminals** (C55): C43 and C47; the calls of one shell in a fair order of both are a fair schedule of it (`nthSlot`).
* **Number of calls** (C59): the invariant of C23 contains a bound on the remaining steps; `Live.run`, `Live.tab`, `Live.lex` replace it by a
  formula in the sizes of the world. A step that is not a step of the write engine lowers it, so calls that neither print nor are refused are
  at most two per step (the step, and the end of the message it prints).
* **Counters** (C63): `Slim`, an invariant of one call of the service beside that of C23; where a counter is increased, the invariant of C23
  (`Ready`) gives the bound (the line has an end, the file has another byte, the search has another step).

## 4. What the model says about the code (defects and limits)

Proved with a concrete witness in Lean (theorem in brackets):

* A line longer than the input buffer is not dropped: the line starts again whenever the buffer is full, and what is
  typed after that is executed (C16_wrap, C16_false). A line that just fills the buffer is executed with its first character
  replaced by NUL (C16_full; `sent` in Spec/Edit.lean).
* `ush_utils_get_last_arg` on `" word"` returns the whole line (C05_false); TAB on such a line is wrong (C27_false).
* `echo` of a text with `\xNN` prints bytes behind the decoded text (C34_false).
* The working directory can be unmounted (C10_false). The shell stays in it: its files are listed and offered by TAB, but not found;
  when another directory is mounted at its path, TAB offers the old files and the new sub-directories (C65). A refused mount of its node object changes its path; when the object is made a command
  group, a relative path dereferences a null pointer (C62_where, C62_null).
* `ush_utils_path_collapse("")` makes an array of length 0 (C01_empty). With the commands feature on and every single command
  switched off `ush_init` fails an assertion (C46_none).
* TAB writes a candidate that does not fit behind the input buffer (C27_overflow). Where several names have a common beginning that does not fit, the word that is
  being completed loses its NUL and is read over the end of the buffer (C69_far), or, as the first word of a line, becomes empty: the search begins again and never ends
  properly (C69_dead); without a fault it goes on for ever if all names begin like this (C69_endless).
* TAB on the words `.`/`..`/empty looks at another directory if hidden directories exist (C27_hidden, C29_false; which one: C60_dir).
* `ush_printf` writes outside output buffers smaller than 20 bytes (C41_false); a format error with exactly 17 bytes left
  writes the NUL behind the buffer, for any size (C45_false).
* `ush_init` accepts sizes for which the parser and `help` leave the buffers (C23_false_line, C23_false_help). Where `help`, `ls` and `xxd` do, for every size: C75.
* A typed word, together with the working directory, may be longer than `path_max_length`: the path is written behind
  an array on the stack (C23_false_path). `ush_init` checks nothing of the kind, and in all examples of the library
  `path_max_length` equals the size of the input buffer. In the example DemoBasic on a board with buffers of 32 bytes,
  27 letters typed in /dev are enough (C49_false_long); with 26 letters nothing happens (C49_demo). The
  exact border for every line: C68.
* Unmounting a directory while `cat` prints a file of it: NULL dereference (C23_false_unmount). The same happens when a new
  command without data hides the file (C23_false_hide) or the directory is changed (C23_false_cd).
* A node object given to `ush_commands_add` twice, or a second `ush_init`, makes a cyclic list (C23_false_twice,
  C39_init_twice).
* A node used by two instances is shared memory (C43_shared).

* `mount("//a")` succeeds, but the directory is never found and cannot be unmounted (C07_double_slash).
* A typed NUL ends a word without changing argc, so that the last words of the line are lost (C13_nul; `Spec.words` is exact
  for such lines). TAB on a line with a typed NUL adds characters behind the NUL without an end if there are several names
  (C70_nul; it may also read in front of the input buffer: C23_false_tab). In DemoBasic, NUL and TAB at the first prompt are enough (Props/Press.lean).
* A getter that does not set `*data` makes `cat` read an uninitialised pointer (C30_uninitialised); `null_data_getter` of
  the example demo_linux is such a getter, so `cat /dev/null` is undefined there (C54_false_null).
* A general hook that calls `ush_service` lets the user overwrite the words of the line that is being executed, so another command is executed (C80_hook).
* A general hook that writes to `argv[0]` changes the command that is executed (C81_hook); it may be what an application wants (aliases).
* A getter that prints makes `cat` hang: the shell never reads a key again (C79_cat, C79_life). With `xxd` its text is lost (C79_xxd).
* demo_linux: the setters of /dev/mem copy any number of bytes into arrays of fixed size (C54_false_eeprom); the setter of
  /etc/hostname takes its data as a C string and ignores the size, so bytes behind the decoded text become part of the
  name (C54_false_hostname); 247 letters entered in /dev/mem overflow the path buffer, 246 do not (C54_false_long).
* Control characters are echoed as they are and count as characters of the line: erasing one erases a character of the prompt on the
  screen (C56_false_control). Enter sent as a line feed is echoed without carriage return (C56_false_lf).
* `ush_printf` with a NUL byte in the text (`%c` with 0) reports an overflow although the text fits (C57_nul).
* `USH_CONFIG_CMD_XXD_COLUMNS = 0` makes `xxd` endless (C24_columns).
* `ush_flush` before anything has been written to the output buffer reads behind it, unless the application has cleared
  the buffer (C42_flush_first).

Read off the code without a theorem of its own: ush_cmd.c:30-60 declares the service
functions of the commands with result `void`, the files define them with result `bool` (and the pointers in the descriptors
have result `void`), which is undefined in C although harmless on usual machines; `ush_reset_start` (ush_reset.c:31-36) is never called. In the example demo_linux
`read_char` hands the end of its input to the shell as the byte 0xFF again and again, so the program never ends (C54_eof says what it does then).

## 5. Properties and results

All properties of `properties.jsonl` are claimed in `MANIFEST.json`. `_partial` means: the property as written is false
of the code; the negation is proved with a witness and the theorem with suffix `_partial` says what does hold.

<!-- claims begin -->
* **C01** proved: `C01_collapse`, `C01_no_dots`, `C01_keep`, `C01_dotdot`, `C01_idempotent`, `C01_false_with_empty_component`, `C01_empty`, `C01_every`, `C01_parts`. Paths without empty components, as stated; C01_every describes the result for every other text.
* **C02** proved: `C02_levels`, `C02_split_join`, `C02_root`, `C02_every`, `C02_spec`
* **C03** proved: `C03_resolve`, `C03_total`, `C03_independent`, `C03_every`. The first theorem gives the result in terms of components; the last one for every text, with empty components too.
* **C04** proved: `C04_decode`, `C04_size`, `C04_in_place`, `C04_roundtrip`, `C04_plain`
* **C05** partial: `C05_last_arg_partial`, `C05_single_space`, `C05_spec`, `C05_false`. False of the code for lines of the form ' word' (one leading space, one word); proved for every other line, and the behaviour on those lines is proved too.
* **C06** proved: `C06_finite_map`, `C06_only_mounted`
* **C07** proved: `C07_mount`, `C07_double_slash`
* **C08** proved: `C08_unmount`, `C08_empty_text`. The empty string names the root; shown by the second theorem.
* **C09** proved: `C09_set_current_dir`, `C09_target`, `C09_cd_command`, `C09_cd`, `C09_cd_missing`, `C09_cd_wrong_arguments`
* **C10** partial: `C10_cwd_mounted_partial`, `C10_false`. False of the code: the application may unmount the working directory. Proved when it does not; exactly when it is mounted: C62_exact; what the shell does then: C65.
* **C11** proved: `C11_lookup`, `C11_in_cwd`, `C11_at_cwd`
* **C12** proved: `C12_groups`, `C12_remove`
* **C13** proved: `C13_argv`, `C13_plain`, `C26_exec`, `C13_nul`. C26_exec is the same statement for hooks and commands that make library calls. The words are exact for all lines, also with NUL bytes.
* **C14** proved: `C14_words`, `C14_typed`. C14_typed types the line key by key, so its arguments have no control keys of the line editor (Ctrl+C, TAB, BS, DEL, ESC).
* **C15** proved: `C15_line`, `C15_buffer`, `C26_exec`
* **C16** partial: `C16_in_bounds`, `C16_wrap`, `C16_dropped_partial`, `C16_full`, `C16_false`. The first half (no access outside the buffer) is proved. The second half is false of the code: the end of a line that is too long is executed (C16_false); C16_wrap says exactly which part. A line that just fills the buffer loses its first character to a NUL (C16_full).
* **C17** proved: `C17_echo`, `C17_key`, `C17_enter`, `C20_fair`
* **C18** proved: `C18_ctrl_c`, `C18_independent`
* **C19** proved: `C19_cursor_keys`
* **C20** proved: `C20_prefix`, `C20_same_result`, `C20_faults`, `C20_fair`
* **C21** proved: `C21_delivery`, `C21_text`, `C21_buffer`
* **C22** proved: `C22_one_io`, `C22_only_offered`, `C22_false_waiting`, `C22_waiting_false`. The service function also returns false for the call that clears the line after a prompt; the shell waits for input after that call.
* **C23** partial: `C23_memory_safe_partial`, `C23_typing_partial`, `C23_mount_any_time`, `C23_world`, `C23_false_line`, `C23_false_help`, `C23_false_unmount`, `C23_false_hide`, `C23_false_cd`, `C23_false_twice`, `C23_false_path`, `C23_false_tab`, `C27_overflow`, `C41_false`. False of the code for small buffers, for some calls of the application, and for TAB on a line with a typed NUL (the C23_false theorems, C27_overflow, C41_false). Proved for buffers that hold the texts of the built-in commands and for every history of keys, callbacks and calls that respects the rules in Spec/Safe.lean (directories and commands may be changed also while a built-in command or a completion is at work, as far as these bear it); where the path buffers are small, lines that are too long for them must not be entered (the bound L).
* **C24** proved: `C24_returns`, `C24_columns`, `C24_columns_reached`. For every state reached by a history as in C23. A process function of the application may run as long as it likes; the theorem ends when it is called.
* **C25** proved: `C25_prompt`
* **C26** proved: `C26_empty`, `C26_unknown`, `C26_not_executable`, `C26_exec`. Hook and command may make any valid calls of the library (Spec/Calls.lean).
* **C27** partial: `C27_common`, `C27_longest`, `C27_candidates`, `C27_tab_partial`, `C27_extends_partial`, `C27_single_partial`, `C27_target`, `C27_space`, `C27_false`, `C27_overflow`, `C27_hidden`. False of the code for lines of one space and one word (C27_false) and for the words '.' and '..' (and the empty word) where directories have names that begin with a dot (C27_hidden), and where another directory has been mounted in place of the unmounted working directory (World.Usual); proved for all other lines and worlds; C27_target says what happens on every line, including those of one space and one word. C27_overflow: a candidate that does not fit is written outside the input buffer.
* **C28** partial: `C28_list_partial`, `C28_when`. Same exceptions as C27; what is printed in every case: C60_keeps.
* **C29** partial: `C29_keeps_partial`, `C29_false`. False of the code for the words '.' and '..' (and the empty word) where directories have names that begin with a dot (C29_false); proved for all other lines (World.Usual, as C27), when the candidates fit (see C27_overflow). That the line begins with what was typed holds in every case (C60_keeps).
* **C30** proved: `C30_cat`, `C30_error`, `C30_no_arguments`, `C30_cases`, `C30_uninitialised`. Getters as functions of the history; a getter that does not set the data pointer is excluded (it makes cat read an uninitialised pointer).
* **C31** proved: `C31_xxd`, `C31_complete`, `C31_empty`, `C31_missing`, `C31_unreadable`, `C31_wrong_arguments`. Files up to 16^8 bytes (the offset column has 8 digits); the output buffer must hold one row of hexadecimal columns.
* **C32** proved: `C32_ls`, `C32_ls_path`, `C32_missing`, `C32_wrong_arguments`. The output buffer must hold a padded file name.
* **C33** proved: `C33_help`, `C33_help_file`, `C33_no_help`, `C33_missing`, `C33_wrong_arguments`. The output buffer must hold a padded file name.
* **C34** partial: `C34_echo`, `C34_echo_partial`, `C34_false`, `C34_nothing`, `C34_wrong_arguments`. False of the code for arguments with a backslash: the decoded bytes are not terminated (C34_false). C34_echo says exactly what is printed for every argument.
* **C35** proved: `C35_write`, `C35_missing`, `C35_not_writable`, `C35_syntax`
* **C36** proved: `C36_pwd`, `C36_after_cd`, `C36_wrong_arguments`
* **C37** proved: `C37_reset`
* **C38** proved: `C38_startup`, `C38_builtins`, `C38_texts`, `C38_functions`, `C20_fair`
* **C39** proved: `C39_deinit`, `C39_again`, `C39_any_time`, `C39_init_twice`. Node objects of command groups are not cleared (they are not mounted); they can be used again after the next ush_init.
* **C40** proved: `C40_accumulate`, `C40_more`
* **C41** partial: `C41_overflow_partial`, `C41_false`, `C41_false_nul`. False of the code for output buffers smaller than 20 bytes (write outside the buffer); with larger buffers the message is followed by a NUL byte.
* **C42** proved: `C42_print`, `C42_print_no_newline`, `C42_print_status`, `C42_flush`, `C42_flush_first`, `C42_bytes`
* **C43** proved: `C43_frame`, `C43_interleaved`, `C43_alone`, `C43_shared`. For instances with disjoint node objects and callbacks that name their own nodes only. A node used by both is shared memory: C43_shared.
* **C44** proved: `C44_injective`, `C44_prefix`, `C44_table`, `C44_default`
* **C45** partial: `C45_fits_partial`, `C45_long_partial`, `C45_false`, `C45_false_witness`. False of the code when exactly 17 bytes are left (the NUL byte is written behind the buffer) and for buffers of less than 18 bytes. The other cases are proved.
* **C46** proved: `C46_tab_ignored`, `C46_table`, `C46_init`, `C46_disabled`, `C46_none`. All other theorems hold for all values of the switches, except those about TAB, which assume that the feature is on.
* **C47** proved: `C47_keys`, `C47_timing`, `C47_prefix`, `C47_life`, `C47_items`. Preconditions per key: Term.Ok in Spec/Terminal.lean (callbacks respect the rules of the library, rows of ls, help and xxd fit the output buffer; for TAB those of C60_tab).
* **C48** proved: `C48_keys`, `C48_life`, `C48_prefix`, `C48_lines`. Conditions: Term.Short in Spec/Tame.lean (lengths, and no NUL in the line when TAB is pressed); for the application App.Tame.
* **C49** proved: `C49_demo`, `C49_lines`, `C49_device`, `C49_read`, `C49_false_long`. For a board without support for rebooting. TAB: the head of the line and a name of 8 bytes fit the input buffer.
* **C50** proved: `C50_contract`, `C50_sizes`. For all histories that do not fault, without any rule for the application. Histories in which the application breaks the rules of the library may fault (C23); then the theorem speaks about the time before.
* **C51** proved: `C51_memory`, `C51_life`, `C51_roundtrip`. For files whose setter keeps the data and whose getter returns it (App.Stores), directories without own commands named echo, xxd or cat (World.Tools), and lines that fit the input buffer.
* **C52** proved: `C52_current`, `C52_key`, `C52_keys`, `C52_life`. The hostname is any function of what has happened that printing alone does not change (Host.Ok); preconditions per key as in C47. Process functions of the application must not put the shell into the middle of the prompt (NoPrompt).
* **C53** proved: `C53_spec`, `C53_calls`, `C53_moment`, `C53_life`. Preconditions per key as in C47; the general hook leaves directories and commands alone (App.Aside).
* **C54** proved: `C54_linux`, `C54_machine`, `C54_read`, `C54_random`, `C54_uptime`, `C54_print`, `C54_usage`, `C54_eof`, `C54_false_eeprom`, `C54_false_hostname`, `C54_false_long`, `C54_false_null`. C54_false theorems: a write of 33 bytes to the eeprom overflows the array; the hostname gets bytes behind the decoded text; lines of 247 bytes overflow the path buffer; cat /dev/null uses an uninitialised pointer.
* **C55** proved: `C55_moment`, `C55_timing`, `C55_life`. The node objects of the two are disjoint and callbacks name their own nodes only (Private); the callbacks of one application depend on what has happened in its own shell (App.Describes). Conditions per key as in C47.
* **C56** proved: `C56_row`, `C56_life`, `C56_line`, `C56_false_control`, `C56_false_long`, `C56_false_lf`. Conditions per key: Term.Neat in Spec/Screen.lean. The screen has no right margin; a byte is a character (no UTF-8).
* **C57** proved: `C57_calls`, `C57_sheet`, `C57_nul`. Sheet in Spec/Printf.lean says what is printed and when something is written outside the buffer (this does happen: C41_false, C45_false). C57_nul: a text with a NUL byte is reported as an overflow even if it fits.
* **C58** proved: `C58_sheet`, `C58_printf`, `C58_items`, `C58_life`, `C58_tight`. Conditions per key as in C47. C58_tight: with a text of the buffer size minus three bytes the result depends on the last key.
* **C59** proved: `C59_calls`, `C59_key`. For histories that respect the rules of C23, and files of at most D bytes. Calls in which the output does not take a byte are counted separately; the time between the calls, and the time spent within one call, are not part of the model.
* **C60** proved: `C60_tab`, `C60_keeps`, `C60_ideal`, `C60_offers`, `C60_dir`, `C60_dir_mounted`, `C60_grown`, `C60_again`, `C60_overflow`. The exact behaviour behind the exceptions of C27 to C29. Conditions: no NUL in the line, the names offered fit the buffers (TabOk in Spec/Complete.lean; C60_overflow shows what happens otherwise).
* **C61** proved: `C61_keys`, `C61_initialize`, `C61_prompt`, `C61_tab`, `C61_false_tab`, `C61_false_word`. Where TAB is pressed: the names offered fit the buffers, no NUL in the line (or C70) (C61_tab; C61_false_tab and C61_false_word show what happens otherwise).
* **C62** proved: `C62_where`, `C62_exact`, `C62_null`. The exact behaviour behind the exception of C10. C62_null: a relative path is undefined behaviour when the node object of the working directory has been made a command group.
* **C63** proved: `C63_counters`, `C63_width`. For histories that respect the rules of C23, arrays of at most B descriptors and files of at most B bytes. The state between two calls; lengths computed within a call are bounded by the objects they measure. The bound on the number of candidates is the number of steps of the search (coarse).
* **C64** proved: `C64_answer`, `C64_none`, `C64_each`, `C64_deaf`, `C64_keys`, `C64_timing`, `C64_life`. The callback starts the process as its last call; there is a working directory (World.Ok) after every call of the function. ush_process_start is declared in ush_internal.h. Steps of C64_answer and C64_none: input and output ready; C64_timing, C64_life: any fair timing.
* **C65** proved: `C65_unmount`, `C65_followed`, `C65_again`, `C65_pwd`, `C65_ls`, `C65_files`, `C65_tab`, `C65_dot`, `C65_up`. What becomes of the shell in the exceptional case of C10. Names of directories are proper (Named). The last sentence is the form of the other theorems: World.cwd need not be in World.tree.
* **C66** proved: `C66_same`, `C66_timing`, `C66_typed`, `C66_ctrl_c`. Conditions of the keys as in C47 (they are the same for both shells).
* **C67** proved: `C67_round`, `C67_unique`, `C67_start`, `C67_all`, `C67_all_unique`, `C67_late`. One loop handles one line: it does not read all pending keys, since the call that clears the line after a prompt returns false as well (C22).
* **C68** proved: `C68_resolve`, `C68_find`, `C68_cd`, `C68_line`, `C68_tab`, `C68_keys`, `C68_life`, `C68_exact`, `C68_demo`. C68_line holds for every application and hook; C68_keys/life/exact for applications that leave the directories alone (as C48), where TAB does not make the position wrap around (C69).
* **C69** proved: `C69_flat`, `C69_far`, `C69_dead`, `C69_exact`, `C69_endless`, `C69_life`, `C69_alive`, `C69_demo`. World.Flat (no word is offered more names than the empty one) is a hypothesis of C69_dead, C69_exact, C69_life and C69_alive; C69_flat: it holds in the usual directories. No NUL in the line, except for C69_life and C69_alive.
* **C70** proved: `C70_tab`, `C70_dead`, `C70_exact`, `C70_nul`, `C69_life`, `C69_alive`, `C70_demo`, `C70_device`. World.press, LineFits and LineClean in Spec/Complete.lean. World.Flat is a hypothesis of C70_dead, C70_exact and C70_nul. Sessions in general: C69_life and C69_alive.
* **C71** proved: `C71_life`, `C71_machine`, `C71_linux`, `C52_started`. The hostname is as in C52 (Host.Ok), the application as in C48 (Tame), no line end in names, World.Flat (C69_flat). C71_linux: the read callbacks as in C54.
* **C72** proved: `C72_order`, `C72_same`, `C72_outside`, `C72_quiet`, `C72_early`, `C72_builtins`. Bound (Model/Life.lean): the shell object with its pointer to the descriptor. C72_same: for histories that start with ush_init and have no ush_deinit the pointer plays no part, so the other theorems hold for it.
* **C73** proved: `C73_shows`, `C73_near`, `C73_split`, `C73_keys`, `C73_items`, `C73_life`, `C73_alive`, `C73_keeps`, `C73_keeps_items`, `C73_plug`. Term.AppOk (the application's part) and Term.NearApp (the part of the keys, with the rows that have to fit) in Spec/Apps.lean. C73_shows: with Roomy and World.Fits all rows fit. Getters return at most 16^8 bytes, names contain no line end where TAB is pressed, World.Flat (C69_flat). C73_plug: a device that is plugged in and out, with all keys.
* **C74** proved: `C74_unseen`, `C74_false_early`, `C74_false_unmount`, `C74_false_cat`. Within the rules of C23; the data of a file depend on the events only, statuses of library calls aside (Unaware); the call does not mount / and does not use the node object of the working directory. happened: the log without the returned statuses.
* **C75** proved: `C75_help`, `C75_ls`, `C75_ls_path`, `C75_xxd`, `C75_row`, `C75_ls_empty`, `C75_help_builtin`, `C75_small`. Ends: after Enter, whatever comes next, the shell never waits for a key again. Files read by xxd have at most 16^8 bytes. C75_small: a device with 12 bytes of output buffer, all keys and all fair timings (by C73).
* **C76** proved: `C76_key`, `C76_keys`, `C76_items`, `C76_life`, `C76_keeps`, `C76_plug`. The hostname as in C52 (Host.Ok), the application as in C73 (AppAllH, Spec/AppsHost.lean); process functions of the application do not put the shell into the middle of the prompt (NoPrompt).
* **C77** proved: `C77_step`, `C77_run`, `C77_safe`, `C77_life`, `C77_keeps`, `C77_byte`, `C77_torn`, `C77_plug`, `C77_rise`, `C77_false_peek`, `C77_false_size`. C77_safe: the rules are those of C23 (Roomy, Behaves, Legal). The memory keeps its size (C77_false_size). The callbacks do not look at the bytes printed or about to be printed (Unseeing; C77_false_peek). Rewritten, Rewriter and Like in Spec/Torn.lean.
* **C78** proved: `C78_startup`, `C78_safe`, `C78_life`, `C78_keeps`, `C78_deinit`, `C78_lives`, `C78_children`, `C78_twice`, `C78_again`, `C78_plug`. Unused in Spec/Memory.lean says which fields count; the sizes of the two buffers are those of the descriptor. C78_lives: the rules of C23 in each life. C78_twice is stated for the loop of ush_file_find_by_name (findCommand), C78_again for the function; C39_init_twice shows it at the prompt.
* **C79** proved: `C79_same`, `C79_unheard`, `C79_cat`, `C79_utters`, `C79_xxd`, `C79_lives`, `C79_life`, `C79_alive`, `C79_plug`. Model/Getter.lean has the functions on the way to the two places where getters are called, with the calls of the getter; C79_same: without calls they are those of the model. C79_cat and C79_life are for all getters that only print, C79_utters, C79_alive and C79_xxd for those that print texts with ush_print or ush_print_no_newline. C79_life, C79_lives and C79_alive: keys as in C73. The text says that the shell never answers any more, which is undesirable, but it is what the code does.
* **C80** proved: `C80_same`, `C80_flat`, `C80_bound`, `C80_run`, `C80_safe`, `C80_pages`, `C80_hook`. Model/Nested.lean has the functions on the way to the four places where callbacks are called, with a continuation of the callback; C80_same: with none they are those of the model. The number n bounds depth and moves, since callbacks may go on for ever; C80_bound: it does not matter if it is large enough. A callback gets the arguments as they are when it is called; the stack is not modelled. C80_hook: a concrete shell in which the hook calls ush_service and another command is executed.
* **C81** proved: `C81_keys`, `C81_timing`, `C81_safe`, `C81_hook`. The writes are made when the callback returns (after its library calls, which do not read the buffer). C81_keys and C81_timing are about the shells of C47 (commands print a text or do nothing); C81_safe about all callbacks of C23 for commands, data and the hook that set the state only to reset, reset_prompt or read_prepare (they may start processes of their own). C81_hook: a concrete shell whose hook replaces the first word, so another command is executed.
* **C82** proved: `C82_print`, `C82_memory`, `C82_printf`, `C82_fill`, `C82_reset`, `C82_state`, `C82_later`. Allowed in Spec/Safe.lean is the rule of C23. C82_printf: formatted texts without NUL bytes (C57_nul is about those); the text that is being printed from the output buffer is terminated, as it is in the histories of C23. C82_later: concrete.
<!-- claims end -->

## 6. Axioms

From `#print axioms` (no own axioms, no `sorry`, no `native_decide`):

<!-- axioms begin -->
* **none** (6): `C38_functions`, `C38_texts`, `C42_bytes`, `C44_default`, `C44_prefix`, `C44_table`

* **propext** (19): `C01_empty`, `C01_false_with_empty_component`, `C01_keep`, `C01_no_dots`, `C02_root`, `C03_independent`, `C04_plain`, `C05_false`, `C15_buffer`, `C17_key`, `C36_after_cd`, `C41_false`, `C41_false_nul`, `C44_injective`, `C45_false_witness`, `C46_none`, `C46_table`, `C54_false_hostname`, `C57_nul`

* **propext, Quot.sound** (119): `C01_dotdot`, `C01_parts`, `C02_spec`, `C02_split_join`, `C04_decode`, `C04_in_place`, `C04_roundtrip`, `C05_last_arg_partial`, `C05_single_space`, `C05_spec`, `C07_double_slash`, `C08_empty_text`, `C10_false`, `C13_nul`, `C13_plain`, `C14_words`, `C17_enter`, `C18_ctrl_c`, `C20_faults`, `C20_same_result`, `C21_buffer`, `C21_delivery`, `C21_text`, `C22_false_waiting`, `C22_only_offered`, `C22_waiting_false`, `C23_false_cd`, `C23_false_help`, `C23_false_hide`, `C23_false_line`, `C23_false_path`, `C23_false_tab`, `C23_false_twice`, `C23_false_unmount`, `C24_columns`, `C24_columns_reached`, `C25_prompt`, `C26_empty`, `C27_candidates`, `C27_common`, `C27_hidden`, `C27_longest`, `C28_when`, `C29_false`, `C30_cases`, `C30_uninitialised`, `C31_complete`, `C31_empty`, `C39_init_twice`, `C40_accumulate`, `C41_overflow_partial`, `C42_flush`, `C42_flush_first`, `C42_print`, `C42_print_no_newline`, `C42_print_status`, `C43_alone`, `C43_frame`, `C43_interleaved`, `C43_shared`, `C45_false`, `C45_fits_partial`, `C45_long_partial`, `C49_device`, `C49_false_long`, `C49_read`, `C50_contract`, `C50_sizes`, `C51_roundtrip`, `C52_current`, `C54_false_long`, `C54_false_null`, `C56_false_control`, `C56_false_lf`, `C56_false_long`, `C56_line`, `C58_tight`, `C60_grown`, `C60_offers`, `C61_false_tab`, `C61_false_word`, `C61_prompt`, `C61_tab`, `C63_width`, `C65_followed`, `C67_all_unique`, `C67_unique`, `C70_device`, `C72_order`, `C72_outside`, `C72_quiet`, `C72_same`, `C73_near`, `C73_shows`, `C74_false_cat`, `C74_false_early`, `C74_false_unmount`, `C75_help_builtin`, `C75_ls_empty`, `C75_row`, `C77_byte`, `C77_false_peek`, `C77_false_size`, `C77_rise`, `C77_run`, `C77_step`, `C77_torn`, `C78_again`, `C78_children`, `C78_twice`, `C79_same`, `C80_hook`, `C81_hook`, `C82_fill`, `C82_later`, `C82_memory`, `C82_print`, `C82_reset`, `C82_state`

* **propext, Classical.choice, Quot.sound** (248): `C01_collapse`, `C01_every`, `C01_idempotent`, `C02_every`, `C02_levels`, `C03_every`, `C03_resolve`, `C03_total`, `C04_size`, `C06_finite_map`, `C06_only_mounted`, `C07_mount`, `C08_unmount`, `C09_cd`, `C09_cd_command`, `C09_cd_missing`, `C09_cd_wrong_arguments`, `C09_set_current_dir`, `C09_target`, `C10_cwd_mounted_partial`, `C11_at_cwd`, `C11_in_cwd`, `C11_lookup`, `C12_groups`, `C12_remove`, `C13_argv`, `C14_typed`, `C15_line`, `C16_dropped_partial`, `C16_false`, `C16_full`, `C16_in_bounds`, `C16_wrap`, `C17_echo`, `C18_independent`, `C19_cursor_keys`, `C20_fair`, `C20_prefix`, `C22_one_io`, `C23_memory_safe_partial`, `C23_mount_any_time`, `C23_typing_partial`, `C23_world`, `C24_returns`, `C26_exec`, `C26_not_executable`, `C26_unknown`, `C27_extends_partial`, `C27_false`, `C27_overflow`, `C27_single_partial`, `C27_space`, `C27_tab_partial`, `C27_target`, `C28_list_partial`, `C29_keeps_partial`, `C30_cat`, `C30_error`, `C30_no_arguments`, `C31_missing`, `C31_unreadable`, `C31_wrong_arguments`, `C31_xxd`, `C32_ls`, `C32_ls_path`, `C32_missing`, `C32_wrong_arguments`, `C33_help`, `C33_help_file`, `C33_missing`, `C33_no_help`, `C33_wrong_arguments`, `C34_echo`, `C34_echo_partial`, `C34_false`, `C34_nothing`, `C34_wrong_arguments`, `C35_missing`, `C35_not_writable`, `C35_syntax`, `C35_write`, `C36_pwd`, `C36_wrong_arguments`, `C37_reset`, `C38_builtins`, `C38_startup`, `C39_again`, `C39_any_time`, `C39_deinit`, `C40_more`, `C46_disabled`, `C46_init`, `C46_tab_ignored`, `C47_items`, `C47_keys`, `C47_life`, `C47_prefix`, `C47_timing`, `C48_keys`, `C48_life`, `C48_lines`, `C48_prefix`, `C49_demo`, `C49_lines`, `C51_life`, `C51_memory`, `C52_key`, `C52_keys`, `C52_life`, `C52_started`, `C53_calls`, `C53_life`, `C53_moment`, `C53_spec`, `C54_eof`, `C54_false_eeprom`, `C54_linux`, `C54_machine`, `C54_print`, `C54_random`, `C54_read`, `C54_uptime`, `C54_usage`, `C55_life`, `C55_moment`, `C55_timing`, `C56_life`, `C56_row`, `C57_calls`, `C57_sheet`, `C58_items`, `C58_life`, `C58_printf`, `C58_sheet`, `C59_calls`, `C59_key`, `C60_again`, `C60_dir`, `C60_dir_mounted`, `C60_ideal`, `C60_keeps`, `C60_overflow`, `C60_tab`, `C61_initialize`, `C61_keys`, `C62_exact`, `C62_null`, `C62_where`, `C63_counters`, `C64_answer`, `C64_deaf`, `C64_each`, `C64_keys`, `C64_life`, `C64_none`, `C64_timing`, `C65_again`, `C65_dot`, `C65_files`, `C65_ls`, `C65_pwd`, `C65_tab`, `C65_unmount`, `C65_up`, `C66_ctrl_c`, `C66_same`, `C66_timing`, `C66_typed`, `C67_all`, `C67_late`, `C67_round`, `C67_start`, `C68_cd`, `C68_demo`, `C68_exact`, `C68_find`, `C68_keys`, `C68_life`, `C68_line`, `C68_resolve`, `C68_tab`, `C69_alive`, `C69_dead`, `C69_demo`, `C69_endless`, `C69_exact`, `C69_far`, `C69_flat`, `C69_life`, `C70_dead`, `C70_demo`, `C70_exact`, `C70_nul`, `C70_tab`, `C71_life`, `C71_linux`, `C71_machine`, `C72_builtins`, `C72_early`, `C73_alive`, `C73_items`, `C73_keeps`, `C73_keeps_items`, `C73_keys`, `C73_life`, `C73_plug`, `C73_split`, `C74_unseen`, `C75_help`, `C75_ls`, `C75_ls_path`, `C75_small`, `C75_xxd`, `C76_items`, `C76_keeps`, `C76_key`, `C76_keys`, `C76_life`, `C76_plug`, `C77_keeps`, `C77_life`, `C77_plug`, `C77_safe`, `C78_deinit`, `C78_keeps`, `C78_life`, `C78_lives`, `C78_plug`, `C78_safe`, `C78_startup`, `C79_alive`, `C79_cat`, `C79_life`, `C79_lives`, `C79_plug`, `C79_unheard`, `C79_utters`, `C79_xxd`, `C80_bound`, `C80_flat`, `C80_pages`, `C80_run`, `C80_safe`, `C80_same`, `C81_keys`, `C81_safe`, `C81_timing`, `C82_printf`
<!-- axioms end -->

## 7. Testing the theorems

`tools/mutate.py` edits one definition of the model in a scratch copy, rebuilds, replaces every declaration that no
longer proves by `sorry` and reports the property theorems that now depend on it. This shows that a theorem depends on
the edited behaviour through some lemma; it does not by itself show that the theorem became false. Mutants that no
theorem notices are the interesting result. Results: `seeded/LOG.jsonl`.

## 8. Trusted base

* Lean's kernel and the standard axioms of section 6 (checked by `vcheck`).
* The faithfulness of the model to the C code: every definition cites the lines it models; after the model was
  written, the whole source was compared with it three times more, function by function (by the same author; no difference the last two times), and the
  repository's tests were replayed on it (`Verif/Test`). The C code itself was never compiled or run.
* The statements in `Verif/Props` and the definitions in `Verif/Spec` they use.
