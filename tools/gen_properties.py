#!/usr/bin/env python3
# Generates /verif/properties.jsonl (kept as a script so the list is easy to extend).
import json, os
P = []
def p(id, title, statement, quantifier, why, anchors):
    P.append(dict(id=id, title=title, statement=statement, quantifier=quantifier, why_tests_cant=why, anchors=anchors))

p("C01", "Path normalisation is stack normalisation",
  "ush_utils_get_collapse_path on an absolute path without empty components returns exactly the path obtained by reading the components left to right, dropping '.', and letting '..' remove the previous surviving component (never escaping the root). The result starts with '/', has no '.' or '..' component, normalising it again changes nothing, and it is never longer than the input.",
  "all absolute path strings of any length and depth",
  "The set of paths is infinite; the test-suite checks 25 literals.",
  ["src/src/ush_utils.c:ush_utils_get_collapse_path", "src/src/ush_node.c:ush_node_get_absolute_path"])
p("C02", "Path split functions agree with component structure",
  "For every canonical absolute path with components c1..cn: the level count is n, the level-i prefix is the path c1..ci, the 'upper' path is c1..c(n-1), the 'last' part is cn, and joining upper and last gives the path back.",
  "all canonical absolute paths, all levels", "Unbounded depth and component length.",
  ["src/src/ush_utils.c:ush_utils_get_path_level", "src/src/ush_utils.c:ush_utils_get_path_levels_count", "src/src/ush_utils.c:ush_utils_path_upper", "src/src/ush_utils.c:ush_utils_path_last", "src/src/ush_utils.c:ush_utils_join_path"])
p("C03", "Relative paths resolve against the working directory",
  "ush_node_get_absolute_path turns an absolute argument into its normal form and a relative argument into the normal form of cwd/argument; one trailing '/' is ignored. The resolution never depends on which paths are mounted.",
  "all mounted working directories, all argument strings that fit the configured path length",
  "Pairs (cwd, argument) are unbounded.",
  ["src/src/ush_node.c:ush_node_get_absolute_path"])
p("C04", "\\xNN decoding",
  "ush_utils_decode_ascii replaces every \\xHH by the byte HH and every other \\c by c, copies all other characters, never produces more than max_size bytes, never produces more bytes than the input has, and gives the same result when input and output are the same buffer. Every byte string has an encoding that decodes back to it.",
  "all byte strings and all max_size", "Tests cover single bytes and eight-byte outputs only; aliasing is never tested exhaustively.",
  ["src/src/ush_utils.c:ush_utils_decode_ascii", "src/src/commands/ush_cmd_echo.c"])
p("C05", "Last argument extraction",
  "ush_utils_get_last_arg returns the longest suffix of the line that contains no space, for every line.",
  "all strings", "Infinite domain; the tests miss the one-leading-space case.",
  ["src/src/ush_utils.c:ush_utils_get_last_arg"])
p("C06", "The directory tree behaves like a finite map from paths to nodes",
  "After any history of mount, unmount and cd calls, ush_node_get_by_path(p) returns the node most recently mounted at p and not unmounted since, and NULL for every path that is not mounted. Mounting one path never hides, removes or redirects another.",
  "all histories of mount/unmount with canonical paths and unlinked nodes, all query strings",
  "Histories are unbounded and the implementation is an intrusive linked structure.",
  ["src/src/ush_node.c:ush_node_get_by_path", "src/src/ush_node_mount.c"])
p("C07", "Mount status is exact and failures change nothing in the tree",
  "ush_node_mount returns ALREADY_MOUNTED iff the path is mounted, WITHOUT_PARENT iff it is not mounted, is not the root and its parent is not mounted, and OK otherwise; after OK the path maps to the given node with the given files, and after an error every path maps to what it did before.",
  "all reachable trees, all canonical paths, all unlinked nodes", "Unbounded trees.",
  ["src/src/ush_node_mount.c:ush_node_mount"])
p("C08", "Unmount status is exact and removes only the named path",
  "ush_node_unmount returns NOT_FOUND iff the path is not mounted, WITH_CHILDS iff some mounted path lies directly below it, and OK otherwise; after OK exactly that path disappears, after an error nothing changes.",
  "all reachable trees, all path strings", "Unbounded trees and sibling positions.",
  ["src/src/ush_node_mount.c:ush_node_unmount"])
p("C09", "cd moves exactly to mounted directories",
  "ush_node_set_current_dir and the cd command change the working directory to the directory named by the resolved path iff that path is mounted, and otherwise report 'directory not found' and leave the working directory unchanged.",
  "all reachable trees, all working directories, all argument strings", "Unbounded.",
  ["src/src/ush_node_utils.c:ush_node_set_current_dir", "src/src/commands/ush_cmd_cd.c"])
p("C10", "The working directory is always a mounted directory",
  "Once the root is mounted, the shell's working directory is at all times a directory that is mounted.",
  "all histories of API calls", "Safety over unbounded histories; needs an invariant.",
  ["src/src/ush_node_mount.c:ush_node_unmount", "src/src/ush_node_utils.c"])
p("C11", "File lookup order",
  "ush_file_find_by_name(name) returns the first command called name, searching command groups newest first; if there is none, it returns the first file whose directory is mounted and whose full path is the resolved name; otherwise NULL.",
  "all reachable trees and command registrations, all names", "Unbounded registrations and names.",
  ["src/src/ush_file.c:ush_file_find_by_name"])
p("C12", "Command groups form a stack with deletion",
  "After any sequence of ush_commands_add and ush_commands_remove the active groups are exactly the added and not removed ones, newest first; removing an absent group reports NOT_FOUND and changes nothing; removing a present group leaves the order of the others.",
  "all sequences of add/remove with unlinked nodes", "Unbounded histories of an intrusive list.",
  ["src/src/ush_commands.c"])
p("C13", "Command line tokenisation",
  "A command line is split at unquoted, unescaped spaces; double quotes group text and are removed, a backslash takes the next character literally (and \\x is kept for later decoding); argc and argv passed to callbacks are exactly these words, in order, for every line, including unterminated quotes and trailing backslashes.",
  "all NUL-free lines that fit the input buffer", "Infinite set of lines; the parser works in place over the input buffer.",
  ["src/src/ush_parse_utils.c", "src/src/ush_parse_char.c", "src/src/ush_parse.c"])
p("C14", "Every argument vector can be typed",
  "For every list of arguments free of NUL, CR and LF there is a line (quote every argument and escape '\"' and '\\\\') that makes the shell pass exactly this argument vector.",
  "all argument vectors", "Unbounded round-trip.",
  ["src/src/ush_parse_utils.c"])
p("C15", "Line editing",
  "The command that is executed when Enter is pressed is exactly the typed text with every backspace/delete removing the last remaining character (and doing nothing on an empty line), as long as the line fits in the input buffer.",
  "all sequences of typed characters", "Unbounded typing histories.",
  ["src/src/ush_read_char.c", "src/src/ush_read_utils.c"])
p("C16", "A line that does not fit is dropped, not corrupted",
  "Typing more characters than the input buffer holds never writes outside the buffer, and a line that is too long is not executed as some other command.",
  "all typed sequences and all buffer sizes", "Boundary behaviour for every size.",
  ["src/src/ush_read_utils.c:ush_read_char_by_escape_state", "src/src/ush_parse_char.c"])
p("C17", "Echo is exact",
  "While a line is edited the terminal receives exactly the typed printable characters, backspace-space-backspace for each effective backspace, CR LF for Enter sent as CR, and nothing for ignored keys.",
  "all typed sequences, all write schedules", "Unbounded sequences and schedules.",
  ["src/src/ush_read_utils.c:ush_read_echo_service"])
p("C18", "Ctrl+C discards the line",
  "Pressing Ctrl+C while editing prints ^C, a new line and a fresh prompt, executes nothing, and the next command does not depend on the discarded text.",
  "all partially typed lines", "Unbounded prefixes.",
  ["src/src/ush_read_char.c"])
p("C19", "Cursor keys are ignored",
  "A terminal escape sequence ESC [ X or ESC O X changes neither the line nor the output, at any point of a line.",
  "all lines, all final characters other than control keys", "Unbounded interleavings of escape sequences and text.",
  ["src/src/ush_read_utils.c:ush_read_char_by_escape_state"])
p("C20", "Output does not depend on timing",
  "For a fixed input byte stream, refusing writes, delaying input and calling the service function more or less often never changes what is printed, which callbacks run or in which order; it only changes when.",
  "all schedules of read/write readiness, all inputs, all states", "All interleavings of two unbounded readiness streams.",
  ["src/src/ush.c:ush_service", "src/src/ush_write_utils.c:ush_write_char", "src/src/ush_read_char.c"])
p("C21", "Messages are delivered completely, once, in order",
  "Every message handed to the output engine reaches the write callback byte for byte exactly once and in order, whatever bytes it contains, however often the callback refuses, before anything else happens.",
  "all messages (text and binary), all refusal patterns", "Unbounded refusal patterns and message sizes.",
  ["src/src/ush_write_utils.c", "src/src/ush_write.c"])
p("C22", "One I/O operation per service call",
  "One call of ush_service consumes at most one input byte or emits at most one output byte, never both, and returns false only when the shell is waiting for input.",
  "all states and all I/O results", "Must hold in every reachable state.",
  ["src/src/ush.c:ush_service", "src/src/ush_read.c"])
p("C23", "Memory safety",
  "For every history of input bytes and API calls the library never reads or writes outside the buffers it was given or its path buffers, never dereferences NULL and never trips an assertion.",
  "all histories, all buffer sizes accepted by ush_init", "Every history, every boundary.",
  ["src/src/ush.c", "src/src/ush_parse_char.c", "src/src/ush_autocomp_state.c", "src/src/ush_node.c", "src/src/commands"])
p("C24", "The shell always returns to the prompt",
  "After any input the shell, if it is serviced and its output is accepted, finishes the current command or completion in finitely many service calls and waits for input again.",
  "all reachable states with built-in commands", "Termination for every state needs a measure.",
  ["src/src/ush.c:ush_service", "src/src/ush_autocomp_state.c", "src/src/commands"])
p("C25", "Prompt",
  "Whenever the shell gets ready for a new command it prints '[<hostname> <last part of the working directory>]$ ' (with the configured colours) and then accepts input with an empty line.",
  "all working directories and host names", "Holds after every command.",
  ["src/src/ush_prompt.c", "src/src/ush_reset.c"])
p("C26", "Dispatch",
  "For a non-empty command line the general hook (if any) is called once with argc/argv, then the file found for argv[0] is executed exactly once with the same argc/argv; an unknown name prints 'syntax error' and a file without execute callback prints 'file not executable', and then no file callback runs. An empty line runs nothing.",
  "all lines, all registrations", "Unbounded inputs and registrations.",
  ["src/src/ush_parse.c:ush_parse_finish"])
p("C27", "TAB extends to the longest common prefix",
  "On TAB the last word is replaced by the longest common prefix of all candidates (commands, files of the working directory, its sub-directories) that start with it; with a single candidate the word becomes that candidate; only the added characters are printed.",
  "all lines, all sets of names, when the result fits in the input buffer", "Unbounded sets of names and lines.",
  ["src/src/ush_autocomp_state.c", "src/src/ush_autocomp_utils.c"])
p("C28", "TAB lists every candidate exactly once",
  "If TAB cannot extend the word and there are several candidates, the shell prints each candidate exactly once, in registration order, one per line, then the prompt and the unchanged line.",
  "all lines and sets of names", "Unbounded sets.",
  ["src/src/ush_autocomp_utils.c:ush_autocomp_process_file_index"])
p("C29", "TAB never changes what was typed",
  "After TAB the line still starts with what was typed before; without candidates nothing changes and nothing is printed.",
  "all lines and sets of names", "Unbounded sets.",
  ["src/src/ush_autocomp_state.c"])
p("C30", "cat prints file contents verbatim",
  "cat f1..fn prints the bytes returned by each file's getter, in order, binary safe, followed by the prompt; if any argument is missing or unreadable it prints only the error and no data.",
  "all argument lists, all contents", "Unbounded contents and argument counts.",
  ["src/src/commands/ush_cmd_cat.c"])
p("C31", "xxd prints a complete hex dump",
  "xxd f prints, for every row of USH_CONFIG_CMD_XXD_COLUMNS bytes, the offset, the bytes in hex and the printable characters; the dump contains every byte of the file exactly once and in order (the file can be reconstructed from it); an empty file gives one blank row.",
  "all file contents, all column counts >= 1", "Unbounded contents; last-row padding for every length.",
  ["src/src/commands/ush_cmd_xxd.c"])
p("C32", "ls lists a directory completely",
  "ls [path] prints '.', '..' unless it is the root, each sub-directory once and each file once with its r/w/x/h flags and description, or 'directory not found'.",
  "all reachable trees and paths", "Unbounded directories.",
  ["src/src/commands/ush_cmd_ls.c"])
p("C33", "help lists all commands",
  "help prints every registered command of every group once, newest group first, with its description; help f prints the help text of f or the appropriate error.",
  "all registrations", "Unbounded registrations.",
  ["src/src/commands/ush_cmd_help.c"])
p("C34", "echo prints its decoded argument",
  "echo s prints the decoded form of s followed by a new line; echo alone prints a new line; other argument counts print 'wrong arguments'.",
  "all argument strings", "Infinite domain.",
  ["src/src/commands/ush_cmd_echo.c"])
p("C35", "echo > file writes once",
  "echo s > f calls f's setter exactly once with exactly the decoded bytes of s, prints nothing but the prompt, and calls no setter when f is missing, not writable or the syntax is wrong.",
  "all strings and files", "Infinite domain.",
  ["src/src/commands/ush_cmd_echo.c"])
p("C36", "pwd prints the working directory",
  "pwd prints the path under which the working directory was mounted; after a successful cd p it prints the resolved path of p.",
  "all trees, all paths", "Unbounded histories.",
  ["src/src/commands/ush_cmd_pwd.c"])
p("C37", "ush_reset",
  "From every state ush_reset abandons whatever is in progress, moves to the root directory, prints the banner and then a fresh prompt with an empty line.",
  "all states", "Every reachable state.",
  ["src/src/ush_reset.c:ush_reset"])
p("C38", "Start-up",
  "After ush_init and mounting '/', the shell prints the banner and the prompt and waits for input with an empty line and the built-in commands available, whatever the working buffers contained.",
  "all initial buffer contents and write schedules", "All initial contents.",
  ["src/src/ush.c:ush_init"])
p("C39", "ush_deinit releases the tree",
  "ush_deinit clears every mounted node object and the shell object, touches no other node, terminates, and afterwards every node can be mounted again.",
  "all reachable trees", "Unbounded trees.",
  ["src/src/ush.c:ush_deinit", "src/src/ush_node.c:ush_node_deinit_recursive"])
p("C40", "ush_printf output accumulates",
  "Consecutive ush_printf calls whose combined text fits the output buffer print the concatenation of all texts, no matter how much of the earlier text was already sent.",
  "all sequences of texts, all interleavings with service calls", "Unbounded interleavings.",
  ["src/src/ush.c:ush_printf"])
p("C41", "ush_printf overflow is contained",
  "If the text does not fit in the output buffer, ush_printf never writes outside the buffer and the printed output ends with the overflow message.",
  "all texts, all buffer sizes accepted by ush_init", "All boundary sizes.",
  ["src/src/ush.c:ush_printf"])
p("C42", "Print primitives",
  "ush_print prints text and a new line, ush_print_no_newline prints text only, ush_print_status prints the status text and a new line, ush_flush prints the output buffer; each is followed by the prompt, from every state.",
  "all texts, all states", "Every state and text.",
  ["src/src/ush.c"])
p("C43", "Shell instances do not interfere",
  "Operations on one shell instance leave every other instance with its own descriptor, buffers and nodes unchanged.",
  "all interleavings of operations on two instances", "All interleavings.",
  ["src/inc/ush_types.h:struct ush_object", "README.md"])
p("C44", "Status messages are distinguishable",
  "Each status has its own text; every error text starts with the configured error word; OK does not.",
  "all statuses and all translations with distinct texts", "Depends on every translation table.",
  ["src/src/ush_utils.c:ush_utils_get_status_string"])

with open(os.path.join(os.path.dirname(__file__), "..", "properties.jsonl"), "w") as f:
    for x in P:
        f.write(json.dumps(x) + "\n")
print(len(P))
