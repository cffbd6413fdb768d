{"id": "C01", "title": "Path normalisation is stack normalisation", "statement": "ush_utils_get_collapse_path on an absolute path without empty components returns exactly the path obtained by reading the components left to right, dropping '.', and letting '..' remove the previous surviving component (never escaping the root). The result starts with '/', has no '.' or '..' component, normalising it again changes nothing, and it is never longer than the input. For any other text that is not empty, what precedes the first '/' is dropped, the rest is cut at every '/' that does not directly follow a cut, and the parts are normalised in the same way.", "quantifier": "all absolute path strings of any length and depth; all texts that are not empty", "why_tests_cant": "The set of paths is infinite; the test-suite checks 25 literals.", "anchors": ["src/src/ush_utils.c:ush_utils_get_collapse_path", "src/src/ush_node.c:ush_node_get_absolute_path"]}
{"id": "C02", "title": "Path split functions agree with component structure", "statement": "For every canonical absolute path with components c1..cn: the level count is n, the level-i prefix is the path c1..ci, the 'upper' path is c1..c(n-1), the 'last' part is cn, and joining upper and last gives the path back. On every other text the level count is one plus the number of '/' after the first character, the level-n prefix ends before the n-th of them, and upper and last part are what precedes and what follows the last '/'.", "quantifier": "all canonical absolute paths, all levels; all texts", "why_tests_cant": "Unbounded depth and component length.", "anchors": ["src/src/ush_utils.c:ush_utils_get_path_level", "src/src/ush_utils.c:ush_utils_get_path_levels_count", "src/src/ush_utils.c:ush_utils_path_upper", "src/src/ush_utils.c:ush_utils_path_last", "src/src/ush_utils.c:ush_utils_join_path"]}
{"id": "C03", "title": "Relative paths resolve against the working directory", "statement": "ush_node_get_absolute_path turns an absolute argument into its normal form and a relative argument into the normal form of cwd/argument; one trailing '/' is ignored. The resolution never depends on which paths are mounted.", "quantifier": "all working directories (mounted, or unmounted while the shell is there), all argument strings that fit the configured path length", "why_tests_cant": "Pairs (cwd, argument) are unbounded.", "anchors": ["src/src/ush_node.c:ush_node_get_absolute_path"]}
{"id": "C04", "title": "\\xNN decoding", "statement": "ush_utils_decode_ascii replaces every \\xHH by the byte HH and every other \\c by c, copies all other characters, never produces more than max_size bytes, never produces more bytes than the input has, and gives the same result when input and output are the same buffer. Every byte string has an encoding that decodes back to it.", "quantifier": "all byte strings and all max_size", "why_tests_cant": "Tests cover single bytes and eight-byte outputs only; aliasing is never tested exhaustively.", "anchors": ["src/src/ush_utils.c:ush_utils_decode_ascii", "src/src/commands/ush_cmd_echo.c"]}
{"id": "C05", "title": "Last argument extraction", "statement": "ush_utils_get_last_arg returns the longest suffix of the line that contains no space, for every line.", "quantifier": "all strings", "why_tests_cant": "Infinite domain; the tests miss the one-leading-space case.", "anchors": ["src/src/ush_utils.c:ush_utils_get_last_arg"]}
{"id": "C06", "title": "The directory tree behaves like a finite map from paths to nodes", "statement": "After any history of mount, unmount and cd calls, ush_node_get_by_path(p) returns the node most recently mounted at p and not unmounted since, and NULL for every path that is not mounted. Mounting one path never hides, removes or redirects another.", "quantifier": "all histories of mount/unmount with canonical paths and unlinked nodes, all query strings", "why_tests_cant": "Histories are unbounded and the implementation is an intrusive linked structure.", "anchors": ["src/src/ush_node.c:ush_node_get_by_path", "src/src/ush_node_mount.c"]}
{"id": "C07", "title": "Mount status is exact and failures change nothing in the tree", "statement": "ush_node_mount returns ALREADY_MOUNTED iff the path is mounted, WITHOUT_PARENT iff it is not mounted, is not the root and its parent is not mounted, and OK otherwise; after OK the path maps to the given node with the given files, and after an error every path maps to what it did before.", "quantifier": "all reachable trees, all canonical paths, all unlinked nodes", "why_tests_cant": "Unbounded trees.", "anchors": ["src/src/ush_node_mount.c:ush_node_mount"]}
{"id": "C08", "title": "Unmount status is exact and removes only the named path", "statement": "ush_node_unmount returns NOT_FOUND iff the path is not mounted, WITH_CHILDS iff some mounted path lies directly below it, and OK otherwise; after OK exactly that path disappears, after an error nothing changes.", "quantifier": "all reachable trees, all path strings", "why_tests_cant": "Unbounded trees and sibling positions.", "anchors": ["src/src/ush_node_mount.c:ush_node_unmount"]}
{"id": "C09", "title": "cd moves exactly to mounted directories", "statement": "ush_node_set_current_dir and the cd command change the working directory to the directory named by the resolved path iff that path is mounted, and otherwise report 'directory not found' and leave the working directory unchanged.", "quantifier": "all reachable trees, all working directories, all argument strings", "why_tests_cant": "Unbounded.", "anchors": ["src/src/ush_node_utils.c:ush_node_set_current_dir", "src/src/commands/ush_cmd_cd.c"]}
{"id": "C10", "title": "The working directory is always a mounted directory", "statement": "Once the root is mounted, the shell's working directory is at all times a directory that is mounted.", "quantifier": "all histories of API calls", "why_tests_cant": "Safety over unbounded histories; needs an invariant.", "anchors": ["src/src/ush_node_mount.c:ush_node_unmount", "src/src/ush_node_utils.c"]}
{"id": "C11", "title": "File lookup order", "statement": "ush_file_find_by_name(name) returns the first command called name, searching command groups newest first; if there is none, it returns the first file whose directory is mounted and whose full path is the resolved name; otherwise NULL.", "quantifier": "all reachable trees and command registrations, all names", "why_tests_cant": "Unbounded registrations and names.", "anchors": ["src/src/ush_file.c:ush_file_find_by_name"]}
{"id": "C12", "title": "Command groups form a stack with deletion", "statement": "After any sequence of ush_commands_add and ush_commands_remove the active groups are exactly the added and not removed ones, newest first; removing an absent group reports NOT_FOUND and changes nothing; removing a present group leaves the order of the others.", "quantifier": "all sequences of add/remove with unlinked nodes", "why_tests_cant": "Unbounded histories of an intrusive list.", "anchors": ["src/src/ush_commands.c"]}
{"id": "C13", "title": "Command line tokenisation", "statement": "A command line is split at unquoted, unescaped spaces; double quotes group text and are removed, a backslash takes the next character literally (and \\x is kept for later decoding); argc and argv passed to callbacks are exactly these words, in order, for every line, including unterminated quotes and trailing backslashes. A typed NUL byte ends an argument and does not change argc, so that the last words of the line are lost.", "quantifier": "all lines that fit the input buffer", "why_tests_cant": "Infinite set of lines; the parser works in place over the input buffer.", "anchors": ["src/src/ush_parse_utils.c", "src/src/ush_parse_char.c", "src/src/ush_parse.c"]}
{"id": "C14", "title": "Every argument vector can be typed", "statement": "For every list of arguments free of NUL, CR and LF there is a line (quote every argument and escape '\"' and '\\\\') that makes the shell pass exactly this argument vector.", "quantifier": "all argument vectors", "why_tests_cant": "Unbounded round-trip.", "anchors": ["src/src/ush_parse_utils.c"]}
{"id": "C15", "title": "Line editing", "statement": "The command that is executed when Enter is pressed is exactly the typed text with every backspace/delete removing the last remaining character (and doing nothing on an empty line), as long as the line fits in the input buffer.", "quantifier": "all sequences of typed characters", "why_tests_cant": "Unbounded typing histories.", "anchors": ["src/src/ush_read_char.c", "src/src/ush_read_utils.c"]}
{"id": "C16", "title": "A line that does not fit is dropped, not corrupted", "statement": "Typing more characters than the input buffer holds never writes outside the buffer, and a line that is too long is not executed as some other command.", "quantifier": "all typed sequences and all buffer sizes", "why_tests_cant": "Boundary behaviour for every size.", "anchors": ["src/src/ush_read_utils.c:ush_read_char_by_escape_state", "src/src/ush_parse_char.c"]}
{"id": "C17", "title": "Echo is exact", "statement": "While a line is edited the terminal receives exactly the typed printable characters, backspace-space-backspace for each effective backspace, CR LF for Enter sent as CR, and nothing for ignored keys.", "quantifier": "all typed sequences, all write schedules", "why_tests_cant": "Unbounded sequences and schedules.", "anchors": ["src/src/ush_read_utils.c:ush_read_echo_service"]}
{"id": "C18", "title": "Ctrl+C discards the line", "statement": "Pressing Ctrl+C while editing prints ^C, a new line and a fresh prompt, executes nothing, and the next command does not depend on the discarded text.", "quantifier": "all partially typed lines", "why_tests_cant": "Unbounded prefixes.", "anchors": ["src/src/ush_read_char.c"]}
{"id": "C19", "title": "Cursor keys are ignored", "statement": "A terminal escape sequence ESC [ X or ESC O X changes neither the line nor the output, at any point of a line.", "quantifier": "all lines, all final characters other than control keys", "why_tests_cant": "Unbounded interleavings of escape sequences and text.", "anchors": ["src/src/ush_read_utils.c:ush_read_char_by_escape_state"]}
{"id": "C20", "title": "Output does not depend on timing", "statement": "For a fixed input byte stream, refusing writes, delaying input and calling the service function more or less often never changes what is printed, which callbacks run or in which order; it only changes when.", "quantifier": "all schedules of read/write readiness, all inputs, all states", "why_tests_cant": "All interleavings of two unbounded readiness streams.", "anchors": ["src/src/ush.c:ush_service", "src/src/ush_write_utils.c:ush_write_char", "src/src/ush_read_char.c"]}
{"id": "C21", "title": "Messages are delivered completely, once, in order", "statement": "Every message handed to the output engine reaches the write callback byte for byte exactly once and in order, whatever bytes it contains, however often the callback refuses, before anything else happens.", "quantifier": "all messages (text and binary), all refusal patterns", "why_tests_cant": "Unbounded refusal patterns and message sizes.", "anchors": ["src/src/ush_write_utils.c", "src/src/ush_write.c"]}
{"id": "C22", "title": "One I/O operation per service call", "statement": "One call of ush_service consumes at most one input byte or emits at most one output byte, never both, and returns false only when the shell is waiting for input.", "quantifier": "all states and all I/O results", "why_tests_cant": "Must hold in every reachable state.", "anchors": ["src/src/ush.c:ush_service", "src/src/ush_read.c"]}
{"id": "C23", "title": "Memory safety", "statement": "For every history of input bytes and API calls the library never reads or writes outside the buffers it was given or its path buffers, never dereferences NULL and never trips an assertion.", "quantifier": "all histories, all buffer sizes accepted by ush_init", "why_tests_cant": "Every history, every boundary.", "anchors": ["src/src/ush.c", "src/src/ush_parse_char.c", "src/src/ush_autocomp_state.c", "src/src/ush_node.c", "src/src/commands"]}
{"id": "C24", "title": "The shell always returns to the prompt", "statement": "After any input the shell, if it is serviced and its output is accepted, finishes the current command or completion in finitely many service calls and waits for input again.", "quantifier": "all reachable states with built-in commands", "why_tests_cant": "Termination for every state needs a measure.", "anchors": ["src/src/ush.c:ush_service", "src/src/ush_autocomp_state.c", "src/src/commands"]}
{"id": "C25", "title": "Prompt", "statement": "Whenever the shell gets ready for a new command it prints '[<hostname> <last part of the working directory>]$ ' (with the configured colours) and then accepts input with an empty line.", "quantifier": "all working directories and host names", "why_tests_cant": "Holds after every command.", "anchors": ["src/src/ush_prompt.c", "src/src/ush_reset.c"]}
{"id": "C26", "title": "Dispatch", "statement": "For a non-empty command line the general hook (if any) is called once with argc/argv, then the file found for argv[0] is executed exactly once with the same argc/argv; an unknown name prints 'syntax error' and a file without execute callback prints 'file not executable', and then no file callback runs. An empty line runs nothing.", "quantifier": "all lines, all registrations", "why_tests_cant": "Unbounded inputs and registrations.", "anchors": ["src/src/ush_parse.c:ush_parse_finish"]}
{"id": "C27", "title": "TAB extends to the longest common prefix", "statement": "On TAB the last word is replaced by the longest common prefix of all candidates (commands, files of the working directory, its sub-directories) that start with it; with a single candidate the word becomes that candidate; only the added characters are printed.", "quantifier": "all lines, all sets of names, when the result fits in the input buffer", "why_tests_cant": "Unbounded sets of names and lines.", "anchors": ["src/src/ush_autocomp_state.c", "src/src/ush_autocomp_utils.c"]}
{"id": "C28", "title": "TAB lists every candidate exactly once", "statement": "If TAB cannot extend the word and there are several candidates, the shell prints each candidate exactly once, in registration order, one per line, then the prompt and the unchanged line.", "quantifier": "all lines and sets of names", "why_tests_cant": "Unbounded sets.", "anchors": ["src/src/ush_autocomp_utils.c:ush_autocomp_process_file_index"]}
{"id": "C29", "title": "TAB never changes what was typed", "statement": "After TAB the line still starts with what was typed before; without candidates nothing changes and nothing is printed.", "quantifier": "all lines and sets of names", "why_tests_cant": "Unbounded sets.", "anchors": ["src/src/ush_autocomp_state.c"]}
{"id": "C30", "title": "cat prints file contents verbatim", "statement": "cat f1..fn prints the bytes returned by each file's getter, in order, binary safe, followed by the prompt; if any argument is missing or unreadable it prints only the error and no data.", "quantifier": "all argument lists, all contents", "why_tests_cant": "Unbounded contents and argument counts.", "anchors": ["src/src/commands/ush_cmd_cat.c"]}
{"id": "C31", "title": "xxd prints a complete hex dump", "statement": "xxd f prints, for every row of USH_CONFIG_CMD_XXD_COLUMNS bytes, the offset, the bytes in hex and the printable characters; the dump contains every byte of the file exactly once and in order (the file can be reconstructed from it); an empty file gives one blank row.", "quantifier": "all file contents, all column counts >= 1", "why_tests_cant": "Unbounded contents; last-row padding for every length.", "anchors": ["src/src/commands/ush_cmd_xxd.c"]}
{"id": "C32", "title": "ls lists a directory completely", "statement": "ls [path] prints '.', '..' unless it is the root, each sub-directory once and each file once with its r/w/x/h flags and description, or 'directory not found'.", "quantifier": "all reachable trees and paths", "why_tests_cant": "Unbounded directories.", "anchors": ["src/src/commands/ush_cmd_ls.c"]}
{"id": "C33", "title": "help lists all commands", "statement": "help prints every registered command of every group once, newest group first, with its description; help f prints the help text of f or the appropriate error.", "quantifier": "all registrations", "why_tests_cant": "Unbounded registrations.", "anchors": ["src/src/commands/ush_cmd_help.c"]}
{"id": "C34", "title": "echo prints its decoded argument", "statement": "echo s prints the decoded form of s followed by a new line; echo alone prints a new line; other argument counts print 'wrong arguments'.", "quantifier": "all argument strings", "why_tests_cant": "Infinite domain.", "anchors": ["src/src/commands/ush_cmd_echo.c"]}
{"id": "C35", "title": "echo > file writes once", "statement": "echo s > f calls f's setter exactly once with exactly the decoded bytes of s, prints nothing but the prompt, and calls no setter when f is missing, not writable or the syntax is wrong.", "quantifier": "all strings and files", "why_tests_cant": "Infinite domain.", "anchors": ["src/src/commands/ush_cmd_echo.c"]}
{"id": "C36", "title": "pwd prints the working directory", "statement": "pwd prints the path under which the working directory was mounted; after a successful cd p it prints the resolved path of p.", "quantifier": "all trees, all paths", "why_tests_cant": "Unbounded histories.", "anchors": ["src/src/commands/ush_cmd_pwd.c"]}
{"id": "C37", "title": "ush_reset", "statement": "From every state ush_reset abandons whatever is in progress, moves to the root directory, prints the banner and then a fresh prompt with an empty line.", "quantifier": "all states", "why_tests_cant": "Every reachable state.", "anchors": ["src/src/ush_reset.c:ush_reset"]}
{"id": "C38", "title": "Start-up", "statement": "After ush_init and mounting '/', the shell prints the banner and the prompt and waits for input with an empty line and the built-in commands available, whatever the working buffers contained.", "quantifier": "all initial buffer contents and write schedules", "why_tests_cant": "All initial contents.", "anchors": ["src/src/ush.c:ush_init"]}
{"id": "C39", "title": "ush_deinit releases the tree", "statement": "ush_deinit clears every mounted node object and the shell object, touches no other node, terminates, and afterwards every node can be mounted again.", "quantifier": "all reachable trees", "why_tests_cant": "Unbounded trees.", "anchors": ["src/src/ush.c:ush_deinit", "src/src/ush_node.c:ush_node_deinit_recursive"]}
{"id": "C40", "title": "ush_printf output accumulates", "statement": "Consecutive ush_printf calls whose combined text fits the output buffer print the concatenation of all texts, no matter how much of the earlier text was already sent.", "quantifier": "all sequences of texts, all interleavings with service calls", "why_tests_cant": "Unbounded interleavings.", "anchors": ["src/src/ush.c:ush_printf"]}
{"id": "C41", "title": "ush_printf overflow is contained", "statement": "If the text does not fit in the output buffer, ush_printf never writes outside the buffer and the printed output ends with the overflow message.", "quantifier": "all texts, all buffer sizes accepted by ush_init", "why_tests_cant": "All boundary sizes.", "anchors": ["src/src/ush.c:ush_printf"]}
{"id": "C42", "title": "Print primitives", "statement": "ush_print prints text and a new line, ush_print_no_newline prints text only, ush_print_status prints the status text and a new line, ush_flush prints the output buffer; each is followed by the prompt, from every state.", "quantifier": "all texts, all states", "why_tests_cant": "Every state and text.", "anchors": ["src/src/ush.c"]}
{"id": "C43", "title": "Shell instances do not interfere", "statement": "Operations on one shell instance leave every other instance with its own descriptor, buffers and nodes unchanged.", "quantifier": "all interleavings of operations on two instances", "why_tests_cant": "All interleavings.", "anchors": ["src/inc/ush_types.h:struct ush_object", "README.md"]}
{"id": "C44", "title": "Status messages are distinguishable", "statement": "Each status has its own text; every error text starts with the configured error word; OK does not.", "quantifier": "all statuses and all translations with distinct texts", "why_tests_cant": "Depends on every translation table.", "anchors": ["src/src/ush_utils.c:ush_utils_get_status_string"]}
{"id": "C45", "title": "ush_printf reports format errors", "statement": "If vsnprintf reports a format error, ush_printf never writes outside the output buffer, and what is printed is the text stored so far, cut if necessary, followed by the message '...format error'.", "quantifier": "all texts stored before the error, all buffer sizes accepted by ush_init", "why_tests_cant": "A conforming vsnprintf rarely fails; the boundary where the message exactly fills the buffer is one size among many.", "anchors": ["src/src/ush.c:ush_printf"]}
{"id": "C46", "title": "Switched-off features", "statement": "Without the autocompletion feature the TAB key is ignored: line and echo are those of the other keys. After ush_init the shell has exactly the built-in commands that are enabled, or no commands if the feature is off; the name of a disabled command that the application does not use itself is answered like any unknown word.", "quantifier": "all combinations of the feature switches, all keys, all worlds", "why_tests_cant": "All shipped configurations and tests enable everything; the switches multiply to hundreds of builds.", "anchors": ["src/src/ush_read_char.c:ush_read_char", "src/src/ush.c:ush_init", "src/src/commands/ush_cmd.c:g_ush_buildin_commands"]}
{"id": "C47", "title": "The whole terminal", "statement": "From ush_init on, for every sequence of keys and every timing of the terminal, everything that happens (bytes echoed and printed, callbacks called with their arguments, statuses, in their order) and the line, directories, commands and working directory at the end are those of a terminal without buffers, states and service calls, in which every key has a one-line meaning: Enter runs the words of the line as a command, Ctrl+C drops it, TAB completes, other keys edit. At every moment the log is a beginning of that of the specified terminal. Calls of the application at the prompt (directory operations, printing, ush_reset) may be mixed with the keys.", "quantifier": "all configurations, all applications (callbacks may depend on everything that happened before), all histories of directory operations, all key sequences (all bytes; lines of any length; a line that fills the buffer is executed with its first character replaced by NUL) whose path arguments and completions fit (TAB behind a NUL in the line: see C70), all fair schedules", "why_tests_cant": "Tests replay single commands on a fresh shell; sessions, and the dependence of one command on the leftovers of the ones before (buffers, argument vector, editor state), are unbounded.", "anchors": ["src/src/ush.c:ush_service", "src/src/ush_read_char.c:ush_read_char", "src/src/ush_parse.c:ush_parse_service", "src/src/ush_write.c:ush_write_service", "src/src/ush_process.c:ush_process_service"]}
{"id": "C48", "title": "With callbacks that only print, the user only has to respect lengths", "statement": "If the callbacks of the application print, report statuses or reset the shell, but do not mount, unmount, add or remove anything, and the paths, names and rows fit the buffers, then every key sequence is answered as the specified terminal (C47) answers it, under conditions on the lengths alone: the words of an entered line are shorter than L, a completed word is shorter than L and leaves room for a name of N bytes. Nothing has to be known about the commands, arguments and paths that are typed. No fault occurs at any moment, and the working directory is always a mounted directory.", "quantifier": "all configurations with the stated sizes, all such applications, all histories of directory operations, all key sequences (including TAB, Ctrl+C and escape sequences), all fair schedules, all moments", "why_tests_cant": "That no combination of commands and arguments leads to an access outside the buffers or to a wrong answer is a statement about all lines and all sessions.", "anchors": ["src/src/ush_read_char.c:ush_read_char", "src/src/ush_parse_char.c:ush_parse_char", "src/src/ush_file.c:ush_file_find_by_name", "src/src/ush_node.c:ush_node_get_by_path", "src/src/ush_autocomp.c:ush_autocomp_service"]}
{"id": "C49", "title": "The example DemoBasic is a device with an LED and a working directory", "statement": "The shipped example DemoBasic (with buffers of 32 bytes or more), started and used through any key sequence whose entered words are shorter than n-5 bytes, never faults, shows exactly what the specified terminal shows, and at every prompt its LED and its working directory are those obtained from the entered lines by a ten-line rule: cd to /, /dev or /bin; the file /bin/toggle under any of its names toggles; /bin/set with the argument 0 or 1 switches; echo into /dev/led under any of its names switches by the first decoded byte; no other line changes anything. cat of /dev/led prints the LED. A line of 27 letters in /dev overflows the path buffer of the 32 byte boards, so the bound is exact.", "quantifier": "all sizes n >= 32, all clocks, all initial buffer contents, all key sequences with words shorter than n-5, all fair schedules", "why_tests_cant": "The claim is about all sessions of a complete application, and about paths written in any of the infinitely many equivalent ways.", "anchors": ["examples/DemoBasic/DemoBasic.ino:setup", "src/src/ush.c:ush_service", "src/src/ush_parse.c:ush_parse_service", "src/src/commands/ush_cmd_echo.c:ush_buildin_cmd_echo_callback", "src/src/commands/ush_cmd_cd.c:ush_buildin_cmd_cd_callback"]}
{"id": "C50", "title": "What the application's callbacks can rely on", "statement": "In every history of library calls, service calls and keys that has not faulted, whatever the application does and whether or not it keeps the rules of the library: only callbacks of file descriptors that were handed over (or belong to built-in commands) are called; argv has at least one entry, every entry is a C string, and all entries with their terminators together are not larger than the input buffer; what a setter gets is shorter than the input buffer. So a buffer of the size of the input buffer can take every argument and everything that is written to a file.", "quantifier": "all configurations, all applications and callbacks, all initial buffer contents, all histories of operations of any length", "why_tests_cant": "The application's buffers are safe only if the bound holds for all lines, escapes and states of the parser.", "anchors": ["src/src/ush_parse_utils.c:ush_parse_get_args", "src/src/ush_parse.c:ush_parse_service", "src/src/commands/ush_cmd_echo.c:ush_buildin_cmd_echo_callback", "src/src/ush_utils.c:ush_utils_decode_ascii"]}
{"id": "C51", "title": "Files are a memory that can hold any bytes", "statement": "For files whose setter keeps what is written and whose getter returns it: whatever bytes are written with echo (every byte typed as a backslash, x and two digits) to whatever files, and read with xxd and cat, in any order and number and with paths written in any way, the screen shows exactly what a memory with one cell per file contains, and the shell ends at a prompt. In particular any byte string, including NUL, line ends and control characters, that is written to a file and dumped later, after accesses to other files, can be read off the screen byte by byte.", "quantifier": "all configurations, all applications with such files, all histories of directory operations, all sequences of accesses whose lines fit, all byte strings, all paths, all fair schedules", "why_tests_cant": "The statement combines line editing, quoting, escapes, path resolution, the setters and getters and the dump, for all byte strings and all interleavings of accesses.", "anchors": ["src/src/commands/ush_cmd_echo.c:ush_buildin_cmd_echo_callback", "src/src/commands/ush_cmd_xxd.c:ush_buildin_cmd_xxd_service", "src/src/commands/ush_cmd_cat.c:ush_buildin_cmd_cat_service", "src/src/ush_utils.c:ush_utils_decode_ascii", "src/src/ush_parse_char.c:ush_parse_char"]}
{"id": "C52", "title": "The prompt shows the current hostname", "statement": "The hostname in the descriptor is memory of the application and may be changed by its callbacks (as the file /etc/hostname of the examples does). If every service call finds the text of that moment, the shell does exactly what a terminal does whose prompts show the hostname as it is when the command before the prompt has been executed: a command that changes the name changes the next prompt and nothing else, whatever the timing of the terminal.", "quantifier": "all configurations, applications, hostnames that change with any callback or key, histories of directory operations, key sequences and fair schedules", "why_tests_cant": "The prompt is printed in several steps between which output may be refused; the statement is about every way the name may change and every schedule.", "anchors": ["src/src/ush_prompt.c:ush_prompt_service", "src/inc/ush_types.h:ush_descriptor", "src/src/ush_write.c:ush_write_pointer"]}
{"id": "C53", "title": "Callbacks that act are called by entered lines only", "statement": "The callbacks that make the application do something (exec of files and commands, set_data) are called exactly when a line is entered, once per line at most each, in the order of the lines: a line executes the file named by its first word, with the words of the line; a line `echo text > file` also hands the decoded text to the setter of the file. Keys of editing, TAB, cursor keys and lines given up with Ctrl-C call none of them. At every moment, whatever the terminal does, the calls made so far are the first ones of that list.", "quantifier": "all configurations, applications whose general hook leaves directories and commands alone, histories of directory operations, key sequences and schedules", "why_tests_cant": "That a callback is not called cannot be seen from any finite set of key sequences; TAB and editing search the same tables of files.", "anchors": ["src/src/ush_parse.c:ush_parse_finish", "src/src/ush_file.c:ush_file_find_by_name", "src/src/commands/ush_cmd_echo.c:ush_buildin_cmd_echo_callback", "src/src/ush_autocomp.c:ush_autocomp_service"]}
{"id": "C54", "title": "The example demo_linux behaves as a machine with a hostname and two memories", "statement": "The example program demo_linux, started, does what the terminal of C47 and C52 does. After any keys its working directory, its hostname and the contents of its memories /dev/mem/ram and /dev/mem/eeprom are what the entered lines make of them (cd, reset, echo into one of the three files; nothing else changes them), every prompt shows the current hostname, and cat of one of these files shows the contents. cat of the other files shows their constant contents or, for /dev/random, the four bytes of the random number; uptime prints the seconds as a decimal number, print prints its argument. When the input of the program ends, it is told so again and again (the byte 0xFF); nothing is executed and no file is read or written then. If a line writes more bytes into a memory than it has, the program leaves its arrays. Conditions: words shorter than 247 bytes; the pointer that the getter of /dev/null does not set happens to be readable.", "quantifier": "all key sequences with words shorter than 247 bytes, all fair schedules, all clocks and random numbers, all initial contents of the buffers", "why_tests_cant": "The program is interactive and its callbacks have state; the statement covers every session.", "anchors": ["examples/demo_linux/shell.c", "examples/demo_linux/commands.c", "examples/demo_linux/fs/path/dev.c", "examples/demo_linux/fs/path/etc.c", "examples/demo_linux/fs/path/bin.c", "examples/demo_linux/interface.c"]}
{"id": "C55", "title": "Two shells in one program, each with its own terminal, behave as if alone", "statement": "A program has two shell objects with their own node objects, both initialised with ush_init and serviced with ush_service in any order. Each terminal sees exactly the output that it would see if its shell were the only one: at every moment a beginning of it, and if both shells are serviced again and again all of it. The initialisations and mounts of the two may be interleaved in any way. No call faults. The callbacks of each application use only its own shell object and nodes.", "quantifier": "all pairs of applications with disjoint nodes, all key sequences on both terminals that meet the conditions of C47, all orders of service calls", "why_tests_cant": "The number of interleavings of the service calls of two shells is exponential; static data shared by accident between instances would show in some of them only.", "anchors": ["src/src/ush.c:ush_init", "src/src/ush.c:ush_service", "src/inc/ush_types.h:struct ush_object", "src/src/ush_read.c:ush_read_service", "src/src/ush_write.c:ush_write_service"]}
{"id": "C56", "title": "The row of the cursor on the screen is the prompt and the line being edited", "statement": "On a VT100 screen (rows as long as needed) that gets everything the shell prints, after any keys (characters, erase keys, TAB, cursor keys, Enter, Ctrl+C) the row of the cursor ends with the prompt followed by the line being edited, the cursor is right behind it, and there are only blanks to the right. If what the commands print ends with the end of a row, there is nothing in front of the prompt. What the built-in commands print except the data of cat and echo, and all error messages, are whole rows, if the names and texts of the application can be shown. Conditions: typed characters have a width of one column and fit the input buffer; the application prints characters, line feeds and style sequences only. Without them: a control character (e.g. Ctrl+A) that is erased erases a character of the prompt; a line that is too long stays on the screen but is empty; Enter sent as a line feed makes the next prompt begin in the column where the line ended.", "quantifier": "all key sequences that meet the conditions of C47 and the conditions above, all fair schedules, all directory trees and texts", "why_tests_cant": "The echo, the erase sequence, the completion output and the redrawn prompt are produced by different modules; that they add up to a consistent screen is a property of all their combinations.", "anchors": ["src/src/ush_read_utils.c:ush_read_echo_service", "src/src/ush_read_char.c:ush_read_char", "src/src/ush_autocomp_state.c", "src/src/ush_prompt.c:ush_prompt_service", "src/inc/ush_shell.h"]}
{"id": "C57", "title": "ush_printf completely: all texts, format errors and NUL bytes, at any moment", "statement": "At any moment of any history, ush_printf followed by further ush_printf and ush_service calls in any order (until the shell goes on to the prompt) prints exactly the following, then the prompt. If what is being printed (or was printed last) is in the output buffer, the new text is appended to it, otherwise the rest of it is dropped and the output buffer begins anew. Bytes behind the first NUL byte of a text, and bytes for which there is no room, are not printed; then, and after a format error, there is a message behind the text. If there is no room for the message it takes the last bytes of the buffer, and a NUL byte is printed behind it. The shell writes outside the output buffer exactly if a message fits but its terminator does not, or if a message has to be written that is longer than the buffer. Condition: the application itself does not write to the output buffer without printing it at once.", "quantifier": "all histories without faults, all results of vsnprintf, all sizes of the output buffer, all interleavings of ush_printf and ush_service calls", "why_tests_cant": "The result depends on the text already in the buffer, how much of it has been sent, the sizes and the previous messages; the boundary cases (a message that fits but for its terminator) occur for single lengths only.", "anchors": ["src/src/ush.c:ush_printf", "src/src/ush_write_utils.c:ush_write_char", "src/src/ush_write.c:ush_write_pointer"]}
{"id": "C58", "title": "ush_printf while somebody is typing", "statement": "Whenever the shell waits for a key, whatever has happened before, ush_printf with a text without NUL bytes that is at least four bytes shorter than the output buffer prints exactly this text and then a new prompt; the line typed so far is lost, directories and commands stay as they are. So keys (with completion, erasing, commands, callbacks) and calls of the application at the prompt (directory operations, ush_print, ush_print_no_newline, ush_print_status, ush_printf, ush_reset, a text in the output buffer with ush_flush) can be mixed in any order, and what happens is what the specified terminal says. The limit is exact: the echo of an erased character takes three bytes of the buffer, and a text of the size of the buffer minus three is cut and reported as an overflow. Condition: the application does not write to the output buffer without printing it at once, and does not itself put the shell into a state of reading or printing.", "quantifier": "all histories without faults, all texts, all sizes of the buffers, all sequences of keys and calls, all terminals and callbacks", "why_tests_cant": "ush_printf appends to what the last output left in the output buffer, so its result depends on which of the library's functions printed last; there are unboundedly many histories that lead to a prompt, and all of them have to leave at most three bytes.", "anchors": ["src/src/ush.c:ush_printf", "src/src/ush_read_utils.c:ush_read_echo_service", "src/src/ush_autocomp_state.c", "src/src/ush_prompt.c:ush_prompt_service", "src/src/ush_write_utils.c:ush_write_char"]}
{"id": "C59", "title": "The number of service calls until the answer is bounded", "statement": "After any key at any moment of any history (keys, schedules, calls of the application, callbacks), the shell waits for the next key, or calls a process function of the application, after at most 2k+1 calls of ush_service, plus one call for every byte it prints meanwhile, plus one for every call in which the output does not take a byte. For all keys but TAB, k = n + 12 + max(4e, n + 1, 4d + 3), where n is the size of the input buffer, e the number of command groups, commands, directories and files, and d the size of the largest file; for TAB, k = (n + 2)(3e + 6) + 9.", "quantifier": "all histories that respect the rules of the library, all keys, all schedules, all configurations, directories, commands and files", "why_tests_cant": "A test can measure the number of calls for a few lines and directories; the bound is a formula in the sizes of the configuration and holds for all lines, states of the state machine and interleavings with refused output.", "anchors": ["src/src/ush.c:ush_service", "src/src/ush_autocomp_state.c", "src/src/ush_autocomp_utils.c", "src/src/ush_process.c:ush_process_service", "src/src/ush_parse.c:ush_parse_service", "src/src/ush_write_utils.c:ush_write_char"]}
{"id": "C60", "title": "TAB in every case", "statement": "On TAB the shell takes the last word (on a line of one space and one word: the whole line) and the names that begin with it: commands, files of the working directory and sub-directories of one directory, which is the working directory (or what is mounted at its path now, if it has been unmounted), except for the word `.` (its parent) and the word `..` (the parent of its parent). If one name is offered the word becomes this name; if none, nothing happens; if several, the next character of the last name is added as long as the number of names offered for the longer word does not get smaller, and if no character can be added the names are printed, one per line, then the prompt and the line. The line always begins with what has been typed. Where no name of a directory begins with a dot this is the completion to the longest common prefix, and a second TAB does not change the line.", "quantifier": "all lines without NUL, all commands, files and directories (also with names that begin with a dot) whose names fit the buffers", "why_tests_cant": "Unbounded sets of names; the deviations for `.` and `..` need particular combinations of directories, which no test has.", "anchors": ["src/src/ush_autocomp_state.c", "src/src/ush_autocomp_utils.c", "src/src/ush_autocomp.c"]}
{"id": "C61", "title": "Every line can be entered; the example Initialize", "statement": "If in every directory the path buffers can hold any word that fits the input buffer, and the callbacks leave directories and commands alone, then every key sequence is answered as the specified terminal (C47) answers it: lines of any length, with any bytes and any arguments, also lines that overflow or just fill the input buffer. Only TAB has a condition (the names offered fit the buffers). The shipped example Initialize is such a program: whatever is typed, it does what the terminal is specified to do, never faults, and its working directory stays /.", "quantifier": "all such applications and configurations; for Initialize all initial buffer contents, all key sequences (TAB: at most 27 bytes in front of the word, word shorter than 31 bytes, no NUL in the line), all fair schedules, all moments", "why_tests_cant": "The statement is about all key sequences, in particular those that fill or overflow the input buffer in any state of the session.", "anchors": ["examples/Initialize/Initialize.ino:setup", "src/src/ush_read_char.c:ush_read_char", "src/src/ush_read_utils.c:ush_read_char_by_escape_state", "src/src/ush_node.c:ush_node_get_absolute_path"]}
{"id": "C62", "title": "Which node is the working directory, and exactly when it is mounted", "statement": "After every history of mount, unmount, cd and command group operations, also those that unmount the working directory, the shell is in the node object it entered last; its path is the one that object was given last, even by a refused mount, and relative paths resolve against that text. An operation leaves the working directory mounted exactly when it was mounted and the operation did not unmount it, or the operation is a successful cd, mount of the root, or mount of that node object. If the object has been made a command group it has no path, and a relative path dereferences a null pointer.", "quantifier": "all configurations, all valid histories of API calls including those that unmount the working directory, all next calls", "why_tests_cant": "The exact state after arbitrary histories, including calls on stale node objects, needs an invariant over unbounded histories.", "anchors": ["src/src/ush_node_mount.c:ush_node_mount", "src/src/ush_node_mount.c:ush_node_unmount", "src/src/ush_node_utils.c:ush_node_set_current_dir", "src/src/ush_commands.c:ush_commands_add"]}
{"id": "C63", "title": "No counter of the shell object wraps around", "statement": "In every history that respects the rules of the library, however long, every numeric field of the shell object is bounded by the sizes of the buffers and of the objects the application hands over: positions in the line and the number of arguments by the input buffer size, the position in a printed text by its length, the length by the object it points to, the item of a built-in command by the largest array of descriptors or file, the number of completion candidates by four times the number of names. So if these sizes fit size_t and int, no field ever overflows.", "quantifier": "all histories that respect the rules (keys, schedules, application calls, callbacks), all configurations, all bounds B on descriptor arrays and file sizes, all word widths", "why_tests_cant": "An overflow that needs many commands, or a counter that is never reset on one of the paths through the state machine, does not show in a short test; the bound holds after histories of any length.", "anchors": ["src/inc/ush_types.h:ush_object", "src/src/ush.c:ush_service", "src/src/ush_autocomp_utils.c", "src/src/commands/ush_cmd_xxd.c", "src/src/ush_parse_char.c"]}
{"id": "C64", "title": "A command that answers later", "statement": "A command of the application may start a process instead of answering at once. Then every service call calls the process function of the named descriptor exactly once, and no input is read, until a call in which the function prints; that text (with what the command itself has printed with ush_printf, if the function uses ush_printf) is shown, followed by the prompt, and the keys typed meanwhile are still there. What the function mounts or unmounts meanwhile takes effect. A descriptor without process function gives an empty line and the prompt, and a text handed over before is lost. A function that never does anything keeps the shell deaf for ever, also to Ctrl+C. Lines with such commands and all other keys can follow each other in any order, with any timing of the terminal: the shell behaves as the terminal of C47 with these answers.", "quantifier": "all configurations, all directories and lines, all commands and process functions (their calls may depend on everything that happened before), any number of waiting calls, all pending input; C64_deaf: all schedules", "why_tests_cant": "The unit test calls the service function once with a mocked process; a process that waits for any number of calls, changes directories meanwhile and then prints, with keys typed during the wait, is never run.", "anchors": ["src/src/ush_process.c:ush_process_start", "src/src/ush_process.c:ush_process_service", "src/inc/ush_types.h:ush_file_descriptor", "src/src/ush.c:ush_service"]}
{"id": "C65", "title": "The shell goes on working in a directory that has been unmounted", "statement": "Unmounting the working directory succeeds if it has no sub-directories, and the shell stays in it: relative paths still resolve against its path, the prompt and pwd show the path, ls shows its files and no directories, TAB offers its files. A plain file name finds only commands, ls . and cd . report 'directory not found', unless another directory has been mounted at the path; cd .. leads to the directory above if that is mounted. Mounting its node object again puts the shell at the new path. As long as the application does not use that node object for commands or for a mount that is refused, there is always a working directory after the root has been mounted, and everything else said about the shell (commands, completion, terminal, memory safety) holds as before.", "quantifier": "all configurations, all valid histories that unmount the working directory, all lines and names", "why_tests_cant": "No test unmounts the directory the shell is in and goes on typing; the current-directory pointer to an unlinked node is used by every command, by completion and by the prompt.", "anchors": ["src/src/ush_node_mount.c:ush_node_unmount", "src/src/ush_node_utils.c", "src/src/ush_node_utils.c:ush_node_set_current_dir", "src/src/commands/ush_cmd_ls.c", "src/src/ush_autocomp_utils.c:ush_autocomp_check_for_finish"]}
{"id": "C66", "title": "What the shell remembers", "statement": "Two shells of the same configuration with different pasts behave in the same way from now on if they have the same directories, commands and working directory, the same line being edited, and if their applications have noticed the same calls and results; whatever else the shell objects contain (old text in buffers, counters, pointers) has no influence on output or calls of callbacks, whatever the timing of the two terminals. In particular it does not matter how a line has been typed (corrections, cursor keys), and after Ctrl+C it does not matter what the line was.", "quantifier": "all configurations, all pairs of shells reachable at a prompt, all callbacks that do not look at keys or printed characters (they may depend on all their own history), all keys that follow (with their conditions as in C47), all fair timings", "why_tests_cant": "A test compares one history with one expectation; this compares all pairs of histories with the same visible state.", "anchors": ["src/src/ush.c:ush_service", "src/src/ush_read.c", "src/src/ush_parse.c", "src/src/ush_autocomp.c", "src/src/ush_reset.c"]}
{"id": "C67", "title": "Calling ush_service until it returns false", "statement": "The documented use in a blocking environment, `while (ush_service(&ush));`, works line by line. After ush_init the first such loop prints the greeting and the prompt and reads nothing. At the prompt, with any keys pending, the loop ends; it has read the keys up to and including the first one that ends the line (Enter outside an escape sequence, Ctrl+C), or all of them if none does, and has printed everything that answers them, up to and including the next prompt; also if the command answers later (a process of the application). The result does not depend on how slowly the terminal takes the output. With n lines pending, n+1 loops handle everything, and the terminal is then as in C47.", "quantifier": "all configurations, all applications described as in C47 (for commands that answer later: as in C64) whose process functions only set states of line execution, all shells at a prompt, all pending input, all behaviours of an output that takes a byte again and again", "why_tests_cant": "The functional tests use this loop to collect output; they cannot show that it ends, and ends at the right place, for all inputs and timings.", "anchors": ["src/inc/ush.h:ush_service", "src/src/ush.c:ush_service", "src/src/ush_read.c:ush_read_service", "src/src/ush_write.c:ush_write_service"]}
{"id": "C68", "title": "The limit for the length of paths is exact", "statement": "Commands, files and directories are looked up under a path put together in a buffer of path_max_length bytes, without a check. A word can be looked up exactly if the path of the working directory, a slash and the word (or the word alone if it begins with a slash) are shorter than path_max_length, or if it is the name of a command (which is found before the path is put together; not for ls, cd and TAB); otherwise ush_node_get_absolute_path, ush_file_find_by_name and ush_node_set_current_dir write over the end of the buffer. For a whole session of an application that does not mount or unmount: if at every Enter the first word and, for the built-in commands, the arguments that are looked up (for cat: up to the first that cannot be read) and at every TAB the word to be completed and the words tried for it (see C69) fit in this sense, then the shell does exactly what the terminal of C47 does; if not, then under every fair timing it comes to a service call that writes over the end of the buffer. The conditions of C47 and C48 on the lengths of words are thereby not only sufficient but necessary.", "quantifier": "all configurations, applications as in C48, histories of directory operations, key sequences (where TAB is pressed, no NUL in the line, no line end in what is added, and the position does not wrap around: see C69), all fair timings", "why_tests_cant": "The unit tests use short paths; an overflow of the stack buffer need not show in a test, and the exact border depends on directory, command and argument.", "anchors": ["src/src/ush_node.c:ush_node_get_absolute_path", "src/src/ush_file.c:ush_file_find_by_name", "src/src/ush_node_utils.c:ush_node_set_current_dir", "src/src/ush_autocomp_utils.c:ush_autocomp_check_for_finish", "src/inc/ush_types.h:path_max_length"]}
{"id": "C69", "title": "What TAB needs is exact", "statement": "TAB completes the last word of the line without checking sizes. It is over at some time (the shell waits for the next key) exactly if there is room for the path of the word; if a single name is offered, the line with that name is shorter than the input buffer; and if several names are offered, every word tried (one more character of the last name offered, as long as that does not make the names fewer, including the one that is given up) fits the input buffer behind the rest of the line, and its path fits the buffer for paths. Otherwise no further key is ever read: the shell comes to a service call that reads or writes outside a buffer, or (only if the word is the first on its line and a word tried fills the input buffer, so that the position wraps around to the beginning) it may also search for ever. If all names begin with the same text as long as the input buffer or longer, then TAB at its beginning searches for ever without a fault. For whole sessions of an application that does not mount or unmount: the shell survives the keys exactly if at every Enter (C68) and at every TAB there is room; in the example DemoBasic, for all keys other than NUL, it then does what the terminal of C47 does, and otherwise comes to an overflow.", "quantifier": "all configurations, directories (no word is offered more names than the empty word; so in all usual directories), shells waiting for a key (with no NUL in the line; for others see C70), all timings; sessions: applications as in C48, no line end in what TAB adds", "why_tests_cant": "The tests complete short names in large buffers. Whether a completion survives depends on the lengths of the line, the directory, the names and their common beginnings.", "anchors": ["src/src/ush_autocomp_utils.c:ush_autocomp_optimize_continue", "src/src/ush_autocomp_utils.c:ush_autocomp_check_for_finish", "src/src/ush_autocomp.c:ush_autocomp_service", "src/src/ush_read_char.c:ush_read_char"]}
{"id": "C70", "title": "TAB on every line", "statement": "NUL can be typed; it is part of the line, but TAB looks only at what is in front of the first NUL. There the word is completed as in C60: if one name is offered, it replaces the word and everything behind it (the NUL and what has been typed after it is lost), and the rest of the name is printed; if none is offered, nothing happens; if several are offered and the last of them is the word itself, they are listed, the prompt and the part of the line in front of the NUL are printed, and the line stays as it is. If several are offered and the last one is longer than the word, then characters are added behind the NUL again and again, without changing the word, until they have gone around the buffer: no further key is ever read. So on every line TAB is over at some time exactly if there is room (C69) and this case does not occur. For whole sessions of an application that does not mount or unmount the shell survives the keys exactly if this holds at every TAB and C68 at every Enter; in the example DemoBasic this decides for every sequence of keys whatsoever and every timing whether it behaves like the terminal of C47 or stops for ever; as long as it does not stop, its LED and its working directory are what the entered lines make of them (NUL and TAB at the first prompt, for instance, stop it).", "quantifier": "all configurations, directories (where the shell stops: no word is offered more names than the empty word), all lines, all timings; sessions: applications as in C48, no line end in what TAB adds; DemoBasic: all key sequences", "why_tests_cant": "No test types a NUL; what happens then depends on the number and order of the names and on bytes of the buffer behind the end of the string.", "anchors": ["src/src/ush_autocomp_state.c:ush_autocomp_state_candidates_finish", "src/src/ush_autocomp_utils.c:ush_autocomp_optimize_continue", "src/src/ush_autocomp_state.c:ush_autocomp_state_recall_suffix", "src/src/ush_read_char.c:ush_read_char"]}
{"id": "C71", "title": "Every key, with the hostname of the moment", "statement": "If the hostname changes while the shell is in use (as in C52), then for an application that does not mount or unmount, and any keys at all, with any fair timing of the terminal: if at every Enter there is room for the words of the line (C68) and at every TAB there is room for the names (C69) and no NUL makes TAB endless (C70), the shell reads all the keys, writes what the terminal of C47 writes with every prompt showing the hostname of the moment, and waits for the next key. Otherwise there is a time after which it never waits for a key again. In particular this decides for the example demo_linux, for every sequence of keys whatsoever, whether it goes on or stops; as long as it goes on, its working directory, its hostname and its two memories are what the entered lines make of them.", "quantifier": "all configurations with room for the names, directories as in C69, all hostnames as in C52, all key sequences (NUL, TAB and escape sequences included), all fair timings; demo_linux: all key sequences and all contents of the files it reads", "why_tests_cant": "No test runs demo_linux; the statement is about all sequences of keys, and about what never happens again afterwards.", "anchors": ["src/src/ush_prompt.c", "src/src/ush_autocomp_state.c", "src/src/ush_autocomp_utils.c", "src/src/ush_node_utils.c", "examples/demo_linux/demo.c","examples/demo_linux/shell.c"]}
{"id": "C72", "title": "Calls before ush_init and after ush_deinit", "statement": "Starting from a zeroed shell object, a history of library calls is without error exactly if it is so with the descriptor always present and every call that reads the descriptor (ush_printf, ush_flush, ush_node_mount, ush_node_unmount, ush_node_set_current_dir with a non-empty path) comes after an ush_init with no ush_deinit in between. At all other times there are no directories, ush_service stops at its assertion, and the shell neither reads nor writes a character nor calls a callback: it only answers calls. Groups of commands may be added and removed before ush_init: they are kept, the shell starts with the welcome text and the prompt as without them, and the built-in commands come in front of them, so that a built-in command of the same name wins (added after ush_init, the application's command wins).", "quantifier": "all histories of calls, in any order and with any number of ush_init and ush_deinit, all configurations, directories and groups", "why_tests_cant": "The tests call ush_init first; the statement is about all orders of calls.", "anchors": ["src/src/ush.c:ush_init", "src/src/ush.c:ush_deinit", "src/src/ush.c:ush_service", "src/src/ush_commands.c:ush_commands_add", "src/src/ush_node_mount.c"]}
{"id": "C73", "title": "The keyboard against any application", "statement": "The application may do anything its callbacks are allowed to do: a general hook that answers every line first, commands and write callbacks that print, mount, unmount (also the working directory), change directory, add and remove commands. If these calls are allowed ones and leave directories and commands the shell can work with, then for any keys and any fair timing of the terminal: if at every Enter the input buffer has at least two bytes, the words of the line have room in the directories the hook leaves and the rows that help, ls or xxd is going to print fit the output buffer, and at every TAB the names have room, the shell reads all the keys, writes what the terminal of C47 writes, and waits for the next key. Otherwise there is a time after which it never waits for a key again. The same holds with calls of the application at the prompt in between: then it is always one of the keys that the shell does not survive, never one of the calls.", "quantifier": "all configurations, all applications (hook, commands, getters, setters), all initial directories, all key sequences and calls at the prompt, all fair timings", "why_tests_cant": "The statement is about all applications and all sequences of keys, and about what never happens again afterwards; the tests have no hook that mounts or unmounts.", "anchors": ["src/src/ush_parse.c", "src/src/ush_process.c", "src/src/ush_autocomp.c", "src/src/ush_node_mount.c", "src/src/ush_node_utils.c", "src/src/ush_file.c"]}
{"id": "C74", "title": "What is being printed does not show what comes in the meantime", "statement": "While help, ls, cat or xxd is printing its answer, the application mounts further directories and (except during cat) adds further commands between the service calls. Until the shell waits for the next key, it writes exactly the same bytes at exactly the same service calls, calls the same read functions, and ends in the same state (apart from the directories and commands themselves) as if the application had not made these calls. A directory mounted after ls has found its directory but before it has begun is listed; a directory unmounted in the meantime may be missing from the list; a command added while cat is printing takes the place of a file with its name.", "quantifier": "all configurations with room, all applications within the rules of memory safety, all initial directories, all histories that lead to a built-in command at work, all sequences of service calls and such changes up to the prompt, all timings", "why_tests_cant": "The statement compares two runs for every moment at which the call can come and every sequence of such calls; the tests change no directories while a command prints.", "anchors": ["src/src/commands/ush_cmd_ls.c", "src/src/commands/ush_cmd_help.c", "src/src/commands/ush_cmd_cat.c", "src/src/commands/ush_cmd_xxd.c", "src/src/ush_node_mount.c", "src/src/ush_commands.c"]}
{"id": "C75", "title": "help, ls and xxd with any output buffer", "statement": "The rows of help, ls and xxd are put together in the output buffer. Whatever its size: the command prints its whole answer, as specified, and the shell comes back to the prompt exactly if every row fits. Otherwise there is no answer, and the shell never waits for a key again, whatever is typed. The first part of a row needs one byte more than the name of the file, or, for a file with a description, than the aligned name, the colour and the dash; for help that is every file of every group of commands, for ls every file of the directory, and 7 bytes if there is a file at all; a directory without files can always be listed. A dump needs at least 11 bytes, and at least three bytes per column and 2 more, whatever the file contains, and with no columns at all only an empty file can be dumped. With the sizes of the configurations that come with the library help needs 25 bytes and xxd 26.", "quantifier": "all configurations (buffer sizes, columns, alignment, colours), all applications, all directories and commands, all lines that call one of the three commands; for the example device all key sequences and all fair timings", "why_tests_cant": "The boundary depends on configuration constants that the tests compile in once; what happens behind it is memory corruption or an endless loop, which a test cannot show to last for ever.", "anchors": ["src/src/commands/ush_cmd_help.c", "src/src/commands/ush_cmd_ls.c", "src/src/commands/ush_cmd_xxd.c", "src/config/posix/ush_config.h"]}
{"id": "C76", "title": "Any application with a hostname that changes", "statement": "As in C73, but the text the hostname pointer refers to may change with everything that happens: it is any function of the history that only keys, callbacks and calls change, not the bytes the shell prints. For any application that keeps its part, any keys, any calls at the prompt and any fair timing: if there is room for the keys (as in C73, where the hostname plays no part), the shell reads them all and writes what the specified terminal writes, every prompt showing the hostname of that moment; otherwise there is a time after which it never waits for a key again, and it is a key that the shell does not survive, never a call.", "quantifier": "all configurations, all applications (hook, commands, getters, setters), all hostnames as functions of the history, all initial directories, all key sequences and calls at the prompt, all fair timings", "why_tests_cant": "The tests have a constant hostname and neither hooks nor commands that change directories.", "anchors": ["src/src/ush_prompt.c", "src/src/ush_parse.c", "src/inc/ush_types.h", "src/src/ush_process.c", "src/src/ush_node_mount.c"]}
{"id": "C77", "title": "Texts and data that change while they are being printed", "statement": "The shell prints through pointers into memory of the application (data of a getter, data dumped by xxd, hostname, help texts, texts given to ush_print), one byte per service call. If the application writes anything to that memory between any two calls, keeping its size, then the bytes printed are those the memory holds at the moment each of them is printed. Nothing else is different from what happens without such writes: the same number of bytes is printed, the same keys are read, the same callbacks are called with the same arguments, the same statuses are returned, the shell is in the same states, and it goes wrong at the same moment in the same way, if at all. In particular, histories that respect the rules of C23 remain memory safe, and with any application as in C73 and any keys the shell reads them all and waits for the next exactly if there is room for them.", "quantifier": "all configurations, all applications whose callbacks do not look at the bytes printed, all histories of service calls, API calls, ush_init and ush_deinit, all writes to the memory before each step, all key sequences and fair timings", "why_tests_cant": "The tests use constant data; a value that changes between two bytes is a race that depends on the moment, and that nothing but bytes differ is a statement about two executions for every possible moment.", "anchors": ["src/src/ush_write_utils.c", "src/src/ush_write.c", "src/src/commands/ush_cmd_cat.c", "src/src/commands/ush_cmd_xxd.c", "src/src/ush_prompt.c"]}
{"id": "C78", "title": "What ush_init needs of the memory it is given", "statement": "ush_init does not clear the shell object, and ush_node_mount does not clear the node object. The shell object may hold anything but one thing, and so may the node objects: the pointer to the list of commands and the pointers to the children of all nodes have to be NULL. Then everything is as with zeroed objects: the start-up (C38), memory safety (C23), and with any application and any keys the terminal (C73). ush_deinit leaves such memory, so that ush_init, any history within the rules and ush_deinit may follow each other any number of times on the same objects. The two pointers are needed: if a node object with a child pointer other than NULL is mounted, the directory cannot be unmounted although nothing is mounted below it, and exactly then; and if the built-in commands are still in the list (ush_init again without ush_deinit) the list becomes a ring, and the search for any unknown name never ends, whereas it ends if they are not.", "quantifier": "all configurations, all contents of the shell object and of the node objects, all histories and numbers of lives, all applications, key sequences and fair timings", "why_tests_cant": "Tests start with static, zeroed objects; garbage in memory has unboundedly many values.", "anchors": ["src/src/ush.c", "src/src/ush_node_mount.c", "src/src/ush_commands.c", "src/src/ush_reset.c", "src/inc/ush_types.h"]}
{"id": "C79", "title": "Getters that make library calls", "statement": "A getter (get_data) may call functions of the library before it returns. As long as no getter with calls is called, nothing is different. If the first getter with calls is called by cat and prints something (ush_print, ush_printf, a status, ...), the shell hangs: for every application, all keys and every fair timing of the terminal it prints the data of the getter and nothing after it, reads no further key and never waits for a key again; the text the getter printed is lost. So a shell with one getter that prints texts survives keys without xxd exactly if that getter is not called. With xxd the text is lost as well, but nothing else happens: two service calls after the one in which the getter was called the shell is in the state in which it would be if nothing had been printed.", "quantifier": "all configurations, applications, getters with calls, key sequences, timings of the terminal, and states of the shell", "why_tests_cant": "Getters in tests return a constant; the hang is a property of infinite runs for all timings.", "anchors": ["src/src/commands/ush_cmd_cat.c", "src/src/commands/ush_cmd_xxd.c", "src/src/ush_write.c", "src/src/ush.c"]}
{"id": "C80", "title": "Callbacks that call ush_service", "statement": "Callbacks for commands (exec), for data (set_data) and for processes (process) may call ush_service and the other functions of the library themselves, and callbacks called in these calls may do so again, to any depth: a service call with all that is done in it has exactly the effect of the service call followed by everything that was done, one after the other, as if the callbacks had returned first. So the rules of C23 are enough for memory safety also for such callbacks. In particular a callback can print any number of texts, calling ush_service after each until it is printed: all of them are printed in order, and the prompt follows. The general hook (desc->exec) must not call ush_service: the words of the line can be overwritten, and another command than the one entered is executed.", "quantifier": "all configurations, states, callbacks (strategies that depend on everything they have seen), depths of recursion, histories and texts", "why_tests_cant": "Recursion of any depth and arbitrary adaptive callbacks; tests would need callbacks that drive the shell.", "anchors": ["src/src/ush.c", "src/src/ush_parse.c", "src/src/ush_process.c", "src/src/commands/ush_cmd_echo.c"]}
{"id": "C81", "title": "Callbacks that write to their arguments", "statement": "The words given to a command (exec) and the bytes given to a setter (set_data) are in the input buffer of the descriptor. A callback may write to them, and to any other byte of that buffer, whatever it likes: the output, the callbacks called and their arguments, the editing of all later lines and what is mounted are the same as if it had not, for all keys and whatever the timing of the terminal; and memory safety (C23) is kept. The general hook (desc->exec) is different: what it writes to the words is what is looked up and executed afterwards.", "quantifier": "all configurations, applications, key sequences, schedules, legal histories, and contents written (any function of the callback and the state)", "why_tests_cant": "All contents of the buffer after every callback, for all keys and schedules; tests have callbacks that do not write to their arguments.", "anchors": ["src/src/ush_parse.c", "src/src/ush_parse_utils.c", "src/src/ush_read_utils.c", "src/src/ush_prompt.c", "src/src/commands/ush_cmd_echo.c"]}
{"id": "C82", "title": "The rules for calls that print are exact", "statement": "ush_print and ush_print_no_newline stay within memory if and only if the pointer is not NULL and the string ends within its object; ush_flush if and only if the output buffer holds a NUL byte; ush_printf with a formatted text if and only if the output buffer has at least 20 bytes or the text, after what is being printed from that buffer, fits with its NUL byte; ush_printf when vsnprintf reports an error if and only if the buffer has at least 18 bytes and what is in it afterwards is not exactly 17 bytes shorter than the buffer; a text written to the output buffer by the application and flushed if and only if it fits with its NUL byte. The service call after ush_reset succeeds if and only if there is a root directory; after the state has been set to one of a process, when there is none, it fails an assertion, whatever the terminal does. So the rules under which memory safety is proved (C23) forbid nothing that is harmless here. Setting the state to one of the parser or the completion, and starting a process of the library directly, lead to faults or failed assertions in later service calls.", "quantifier": "all configurations, states, pointers and texts (the last sentence: concrete shells)", "why_tests_cant": "An equivalence over all buffer sizes, buffer contents and texts.", "anchors": ["src/src/ush.c", "src/src/ush_write_utils.c", "src/src/ush_process.c", "src/src/ush_parse.c"]}
