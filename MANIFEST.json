{
 "claims": [
  {
   "property": "C01",
   "status": "proved",
   "theorems": [
    "Ush.Props.C01_collapse",
    "Ush.Props.C01_no_dots",
    "Ush.Props.C01_keep",
    "Ush.Props.C01_dotdot",
    "Ush.Props.C01_idempotent",
    "Ush.Props.C01_false_with_empty_component",
    "Ush.Props.C01_empty",
    "Ush.Props.C01_every",
    "Ush.Props.C01_parts"
   ],
   "note": "Paths without empty components, as stated; C01_every describes the result for every other text."
  },
  {
   "property": "C02",
   "status": "proved",
   "theorems": [
    "Ush.Props.C02_levels",
    "Ush.Props.C02_split_join",
    "Ush.Props.C02_root",
    "Ush.Props.C02_every",
    "Ush.Props.C02_spec"
   ],
   "note": ""
  },
  {
   "property": "C04",
   "status": "proved",
   "theorems": [
    "Ush.Props.C04_decode",
    "Ush.Props.C04_size",
    "Ush.Props.C04_in_place",
    "Ush.Props.C04_roundtrip",
    "Ush.Props.C04_plain"
   ],
   "note": ""
  },
  {
   "property": "C05",
   "status": "partial",
   "theorems": [
    "Ush.Props.C05_last_arg_partial",
    "Ush.Props.C05_single_space",
    "Ush.Props.C05_spec",
    "Ush.Props.C05_false"
   ],
   "note": "False of the code for lines of the form ' word' (one leading space, one word); proved for every other line, and the behaviour on those lines is proved too."
  },
  {
   "property": "C44",
   "status": "proved",
   "theorems": [
    "Ush.Props.C44_injective",
    "Ush.Props.C44_prefix",
    "Ush.Props.C44_table",
    "Ush.Props.C44_default"
   ],
   "note": ""
  },
  {
   "property": "C03",
   "status": "proved",
   "theorems": [
    "Ush.Props.C03_resolve",
    "Ush.Props.C03_total",
    "Ush.Props.C03_independent",
    "Ush.Props.C03_every"
   ],
   "note": "The first theorem gives the result in terms of components; the last one for every text, with empty components too."
  },
  {
   "property": "C06",
   "status": "proved",
   "theorems": [
    "Ush.Props.C06_finite_map",
    "Ush.Props.C06_only_mounted"
   ],
   "note": ""
  },
  {
   "property": "C07",
   "status": "proved",
   "theorems": [
    "Ush.Props.C07_mount",
    "Ush.Props.C07_double_slash"
   ],
   "note": ""
  },
  {
   "property": "C08",
   "status": "proved",
   "theorems": [
    "Ush.Props.C08_unmount",
    "Ush.Props.C08_empty_text"
   ],
   "note": "The empty string names the root; shown by the second theorem."
  },
  {
   "property": "C09",
   "status": "proved",
   "theorems": [
    "Ush.Props.C09_set_current_dir",
    "Ush.Props.C09_target",
    "Ush.Props.C09_cd_command",
    "Ush.Props.C09_cd",
    "Ush.Props.C09_cd_missing",
    "Ush.Props.C09_cd_wrong_arguments"
   ],
   "note": ""
  },
  {
   "property": "C10",
   "status": "partial",
   "theorems": [
    "Ush.Props.C10_cwd_mounted_partial",
    "Ush.Props.C10_false"
   ],
   "note": "False of the code: the application may unmount the working directory. Proved when it does not; exactly when it is mounted: C62_exact; what the shell does then: C65."
  },
  {
   "property": "C11",
   "status": "proved",
   "theorems": [
    "Ush.Props.C11_lookup",
    "Ush.Props.C11_in_cwd",
    "Ush.Props.C11_at_cwd"
   ],
   "note": ""
  },
  {
   "property": "C12",
   "status": "proved",
   "theorems": [
    "Ush.Props.C12_groups",
    "Ush.Props.C12_remove"
   ],
   "note": ""
  },
  {
   "property": "C20",
   "status": "proved",
   "theorems": [
    "Ush.Props.C20_prefix",
    "Ush.Props.C20_same_result",
    "Ush.Props.C20_faults",
    "Ush.Props.C20_fair"
   ],
   "note": ""
  },
  {
   "property": "C21",
   "status": "proved",
   "theorems": [
    "Ush.Props.C21_delivery",
    "Ush.Props.C21_text",
    "Ush.Props.C21_buffer"
   ],
   "note": ""
  },
  {
   "property": "C22",
   "status": "proved",
   "theorems": [
    "Ush.Props.C22_one_io",
    "Ush.Props.C22_only_offered",
    "Ush.Props.C22_false_waiting",
    "Ush.Props.C22_waiting_false"
   ],
   "note": "The service function also returns false for the call that clears the line after a prompt; the shell waits for input after that call."
  },
  {
   "property": "C13",
   "status": "proved",
   "theorems": [
    "Ush.Props.C13_argv",
    "Ush.Props.C13_plain",
    "Ush.Props.C26_exec",
    "Ush.Props.C13_nul"
   ],
   "note": "C26_exec is the same statement for hooks and commands that make library calls. The words are exact for all lines, also with NUL bytes."
  },
  {
   "property": "C14",
   "status": "proved",
   "theorems": [
    "Ush.Props.C14_words",
    "Ush.Props.C14_typed"
   ],
   "note": "C14_typed types the line key by key, so its arguments have no control keys of the line editor (Ctrl+C, TAB, BS, DEL, ESC)."
  },
  {
   "property": "C15",
   "status": "proved",
   "theorems": [
    "Ush.Props.C15_line",
    "Ush.Props.C15_buffer",
    "Ush.Props.C26_exec"
   ],
   "note": ""
  },
  {
   "property": "C16",
   "status": "partial",
   "theorems": [
    "Ush.Props.C16_in_bounds",
    "Ush.Props.C16_wrap",
    "Ush.Props.C16_dropped_partial",
    "Ush.Props.C16_full",
    "Ush.Props.C16_false"
   ],
   "note": "The first half (no access outside the buffer) is proved. The second half is false of the code: the end of a line that is too long is executed (C16_false); C16_wrap says exactly which part. A line that just fills the buffer loses its first character to a NUL (C16_full)."
  },
  {
   "property": "C17",
   "status": "proved",
   "theorems": [
    "Ush.Props.C17_echo",
    "Ush.Props.C17_key",
    "Ush.Props.C17_enter",
    "Ush.Props.C20_fair"
   ],
   "note": ""
  },
  {
   "property": "C18",
   "status": "proved",
   "theorems": [
    "Ush.Props.C18_ctrl_c",
    "Ush.Props.C18_independent"
   ],
   "note": ""
  },
  {
   "property": "C19",
   "status": "proved",
   "theorems": [
    "Ush.Props.C19_cursor_keys"
   ],
   "note": ""
  },
  {
   "property": "C25",
   "status": "proved",
   "theorems": [
    "Ush.Props.C25_prompt"
   ],
   "note": ""
  },
  {
   "property": "C26",
   "status": "proved",
   "theorems": [
    "Ush.Props.C26_empty",
    "Ush.Props.C26_unknown",
    "Ush.Props.C26_not_executable",
    "Ush.Props.C26_exec"
   ],
   "note": "Hook and command may make any valid calls of the library (Spec/Calls.lean)."
  },
  {
   "property": "C37",
   "status": "proved",
   "theorems": [
    "Ush.Props.C37_reset"
   ],
   "note": ""
  },
  {
   "property": "C38",
   "status": "proved",
   "theorems": [
    "Ush.Props.C38_startup",
    "Ush.Props.C38_builtins",
    "Ush.Props.C38_texts",
    "Ush.Props.C38_functions",
    "Ush.Props.C20_fair"
   ],
   "note": ""
  },
  {
   "property": "C40",
   "status": "proved",
   "theorems": [
    "Ush.Props.C40_accumulate",
    "Ush.Props.C40_more"
   ],
   "note": ""
  },
  {
   "property": "C41",
   "status": "partial",
   "theorems": [
    "Ush.Props.C41_overflow_partial",
    "Ush.Props.C41_false",
    "Ush.Props.C41_false_nul"
   ],
   "note": "False of the code for output buffers smaller than 20 bytes (write outside the buffer); with larger buffers the message is followed by a NUL byte."
  },
  {
   "property": "C42",
   "status": "proved",
   "theorems": [
    "Ush.Props.C42_print",
    "Ush.Props.C42_print_no_newline",
    "Ush.Props.C42_print_status",
    "Ush.Props.C42_flush",
    "Ush.Props.C42_flush_first",
    "Ush.Props.C42_bytes"
   ],
   "note": ""
  },
  {
   "property": "C30",
   "status": "proved",
   "theorems": [
    "Ush.Props.C30_cat",
    "Ush.Props.C30_error",
    "Ush.Props.C30_no_arguments",
    "Ush.Props.C30_cases",
    "Ush.Props.C30_uninitialised"
   ],
   "note": "Getters as functions of the history; a getter that does not set the data pointer is excluded (it makes cat read an uninitialised pointer)."
  },
  {
   "property": "C31",
   "status": "proved",
   "theorems": [
    "Ush.Props.C31_xxd",
    "Ush.Props.C31_complete",
    "Ush.Props.C31_empty",
    "Ush.Props.C31_missing",
    "Ush.Props.C31_unreadable",
    "Ush.Props.C31_wrong_arguments"
   ],
   "note": "Files up to 16^8 bytes (the offset column has 8 digits); the output buffer must hold one row of hexadecimal columns."
  },
  {
   "property": "C32",
   "status": "proved",
   "theorems": [
    "Ush.Props.C32_ls",
    "Ush.Props.C32_ls_path",
    "Ush.Props.C32_missing",
    "Ush.Props.C32_wrong_arguments"
   ],
   "note": "The output buffer must hold a padded file name."
  },
  {
   "property": "C33",
   "status": "proved",
   "theorems": [
    "Ush.Props.C33_help",
    "Ush.Props.C33_help_file",
    "Ush.Props.C33_no_help",
    "Ush.Props.C33_missing",
    "Ush.Props.C33_wrong_arguments"
   ],
   "note": "The output buffer must hold a padded file name."
  },
  {
   "property": "C34",
   "status": "partial",
   "theorems": [
    "Ush.Props.C34_echo",
    "Ush.Props.C34_echo_partial",
    "Ush.Props.C34_false",
    "Ush.Props.C34_nothing",
    "Ush.Props.C34_wrong_arguments"
   ],
   "note": "False of the code for arguments with a backslash: the decoded bytes are not terminated (C34_false). C34_echo says exactly what is printed for every argument."
  },
  {
   "property": "C35",
   "status": "proved",
   "theorems": [
    "Ush.Props.C35_write",
    "Ush.Props.C35_missing",
    "Ush.Props.C35_not_writable",
    "Ush.Props.C35_syntax"
   ],
   "note": ""
  },
  {
   "property": "C36",
   "status": "proved",
   "theorems": [
    "Ush.Props.C36_pwd",
    "Ush.Props.C36_after_cd",
    "Ush.Props.C36_wrong_arguments"
   ],
   "note": ""
  },
  {
   "property": "C27",
   "status": "partial",
   "theorems": [
    "Ush.Props.C27_common",
    "Ush.Props.C27_longest",
    "Ush.Props.C27_candidates",
    "Ush.Props.C27_tab_partial",
    "Ush.Props.C27_extends_partial",
    "Ush.Props.C27_single_partial",
    "Ush.Props.C27_target",
    "Ush.Props.C27_space",
    "Ush.Props.C27_false",
    "Ush.Props.C27_overflow",
    "Ush.Props.C27_hidden"
   ],
   "note": "False of the code for lines of one space and one word (C27_false) and for the words '.' and '..' (and the empty word) where directories have names that begin with a dot (C27_hidden), and where another directory has been mounted in place of the unmounted working directory (World.Usual); proved for all other lines and worlds; C27_target says what happens on every line, including those of one space and one word. C27_overflow: a candidate that does not fit is written outside the input buffer."
  },
  {
   "property": "C28",
   "status": "partial",
   "theorems": [
    "Ush.Props.C28_list_partial",
    "Ush.Props.C28_when"
   ],
   "note": "Same exceptions as C27; what is printed in every case: C60_keeps."
  },
  {
   "property": "C29",
   "status": "partial",
   "theorems": [
    "Ush.Props.C29_keeps_partial",
    "Ush.Props.C29_false"
   ],
   "note": "False of the code for the words '.' and '..' (and the empty word) where directories have names that begin with a dot (C29_false); proved for all other lines (World.Usual, as C27), when the candidates fit (see C27_overflow). That the line begins with what was typed holds in every case (C60_keeps)."
  },
  {
   "property": "C23",
   "status": "partial",
   "theorems": [
    "Ush.Props.C23_memory_safe_partial",
    "Ush.Props.C23_typing_partial",
    "Ush.Props.C23_mount_any_time",
    "Ush.Props.C23_world",
    "Ush.Props.C23_false_line",
    "Ush.Props.C23_false_help",
    "Ush.Props.C23_false_unmount",
    "Ush.Props.C23_false_hide",
    "Ush.Props.C23_false_cd",
    "Ush.Props.C23_false_twice",
    "Ush.Props.C23_false_path",
    "Ush.Props.C23_false_tab",
    "Ush.Props.C27_overflow",
    "Ush.Props.C41_false"
   ],
   "note": "False of the code for small buffers, for some calls of the application, and for TAB on a line with a typed NUL (the C23_false theorems, C27_overflow, C41_false). Proved for buffers that hold the texts of the built-in commands and for every history of keys, callbacks and calls that respects the rules in Spec/Safe.lean (directories and commands may be changed also while a built-in command or a completion is at work, as far as these bear it); where the path buffers are small, lines that are too long for them must not be entered (the bound L)."
  },
  {
   "property": "C24",
   "status": "proved",
   "theorems": [
    "Ush.Props.C24_returns",
    "Ush.Props.C24_columns",
    "Ush.Props.C24_columns_reached"
   ],
   "note": "For every state reached by a history as in C23. A process function of the application may run as long as it likes; the theorem ends when it is called."
  },
  {
   "property": "C39",
   "status": "proved",
   "theorems": [
    "Ush.Props.C39_deinit",
    "Ush.Props.C39_again",
    "Ush.Props.C39_any_time",
    "Ush.Props.C39_init_twice"
   ],
   "note": "Node objects of command groups are not cleared (they are not mounted); they can be used again after the next ush_init."
  },
  {
   "property": "C45",
   "status": "partial",
   "theorems": [
    "Ush.Props.C45_fits_partial",
    "Ush.Props.C45_long_partial",
    "Ush.Props.C45_false",
    "Ush.Props.C45_false_witness"
   ],
   "note": "False of the code when exactly 17 bytes are left (the NUL byte is written behind the buffer) and for buffers of less than 18 bytes. The other cases are proved."
  },
  {
   "property": "C43",
   "status": "proved",
   "theorems": [
    "Ush.Props.C43_frame",
    "Ush.Props.C43_interleaved",
    "Ush.Props.C43_alone",
    "Ush.Props.C43_shared"
   ],
   "note": "For instances with disjoint node objects and callbacks that name their own nodes only. A node used by both is shared memory: C43_shared."
  },
  {
   "property": "C46",
   "status": "proved",
   "theorems": [
    "Ush.Props.C46_tab_ignored",
    "Ush.Props.C46_table",
    "Ush.Props.C46_init",
    "Ush.Props.C46_disabled",
    "Ush.Props.C46_none"
   ],
   "note": "All other theorems hold for all values of the switches, except those about TAB, which assume that the feature is on."
  },
  {
   "property": "C47",
   "status": "proved",
   "theorems": [
    "Ush.Props.C47_keys",
    "Ush.Props.C47_timing",
    "Ush.Props.C47_prefix",
    "Ush.Props.C47_life",
    "Ush.Props.C47_items"
   ],
   "note": "Preconditions per key: Term.Ok in Spec/Terminal.lean (callbacks respect the rules of the library, rows of ls, help and xxd fit the output buffer; for TAB those of C60_tab)."
  },
  {
   "property": "C48",
   "status": "proved",
   "theorems": [
    "Ush.Props.C48_keys",
    "Ush.Props.C48_life",
    "Ush.Props.C48_prefix",
    "Ush.Props.C48_lines"
   ],
   "note": "Conditions: Term.Short in Spec/Tame.lean (lengths, and no NUL in the line when TAB is pressed); for the application App.Tame."
  },
  {
   "property": "C49",
   "status": "proved",
   "theorems": [
    "Ush.Props.C49_demo",
    "Ush.Props.C49_lines",
    "Ush.Props.C49_device",
    "Ush.Props.C49_read",
    "Ush.Props.C49_false_long"
   ],
   "note": "For a board without support for rebooting. TAB: the head of the line and a name of 8 bytes fit the input buffer."
  },
  {
   "property": "C50",
   "status": "proved",
   "theorems": [
    "Ush.Props.C50_contract",
    "Ush.Props.C50_sizes"
   ],
   "note": "For all histories that do not fault, without any rule for the application. Histories in which the application breaks the rules of the library may fault (C23); then the theorem speaks about the time before."
  },
  {
   "property": "C51",
   "status": "proved",
   "theorems": [
    "Ush.Props.C51_memory",
    "Ush.Props.C51_life",
    "Ush.Props.C51_roundtrip"
   ],
   "note": "For files whose setter keeps the data and whose getter returns it (App.Stores), directories without own commands named echo, xxd or cat (World.Tools), and lines that fit the input buffer."
  },
  {
   "property": "C52",
   "status": "proved",
   "theorems": [
    "Ush.Props.C52_current",
    "Ush.Props.C52_key",
    "Ush.Props.C52_keys",
    "Ush.Props.C52_life"
   ],
   "note": "The hostname is any function of what has happened that printing alone does not change (Host.Ok); preconditions per key as in C47. Process functions of the application must not put the shell into the middle of the prompt (NoPrompt)."
  },
  {
   "property": "C53",
   "status": "proved",
   "theorems": [
    "Ush.Props.C53_spec",
    "Ush.Props.C53_calls",
    "Ush.Props.C53_moment",
    "Ush.Props.C53_life"
   ],
   "note": "Preconditions per key as in C47; the general hook leaves directories and commands alone (App.Aside)."
  },
  {
   "property": "C54",
   "status": "proved",
   "theorems": [
    "Ush.Props.C54_linux",
    "Ush.Props.C54_machine",
    "Ush.Props.C54_read",
    "Ush.Props.C54_random",
    "Ush.Props.C54_uptime",
    "Ush.Props.C54_print",
    "Ush.Props.C54_usage",
    "Ush.Props.C54_eof",
    "Ush.Props.C54_false_eeprom",
    "Ush.Props.C54_false_hostname",
    "Ush.Props.C54_false_long",
    "Ush.Props.C54_false_null"
   ],
   "note": "C54_false theorems: a write of 33 bytes to the eeprom overflows the array; the hostname gets bytes behind the decoded text; lines of 247 bytes overflow the path buffer; cat /dev/null uses an uninitialised pointer."
  },
  {
   "property": "C55",
   "status": "proved",
   "theorems": [
    "Ush.Props.C55_moment",
    "Ush.Props.C55_timing",
    "Ush.Props.C55_life"
   ],
   "note": "The node objects of the two are disjoint and callbacks name their own nodes only (Private); the callbacks of one application depend on what has happened in its own shell (App.Describes). Conditions per key as in C47."
  },
  {
   "property": "C56",
   "status": "proved",
   "theorems": [
    "Ush.Props.C56_row",
    "Ush.Props.C56_life",
    "Ush.Props.C56_line",
    "Ush.Props.C56_false_control",
    "Ush.Props.C56_false_long",
    "Ush.Props.C56_false_lf"
   ],
   "note": "Conditions per key: Term.Neat in Spec/Screen.lean. The screen has no right margin; a byte is a character (no UTF-8)."
  },
  {
   "property": "C57",
   "status": "proved",
   "theorems": [
    "Ush.Props.C57_calls",
    "Ush.Props.C57_sheet",
    "Ush.Props.C57_nul"
   ],
   "note": "Sheet in Spec/Printf.lean says what is printed and when something is written outside the buffer (this does happen: C41_false, C45_false). C57_nul: a text with a NUL byte is reported as an overflow even if it fits."
  },
  {
   "property": "C58",
   "status": "proved",
   "theorems": [
    "Ush.Props.C58_sheet",
    "Ush.Props.C58_printf",
    "Ush.Props.C58_items",
    "Ush.Props.C58_life",
    "Ush.Props.C58_tight"
   ],
   "note": "Conditions per key as in C47. C58_tight: with a text of the buffer size minus three bytes the result depends on the last key."
  },
  {
   "property": "C59",
   "status": "proved",
   "theorems": [
    "Ush.Props.C59_calls",
    "Ush.Props.C59_key"
   ],
   "note": "For histories that respect the rules of C23, and files of at most D bytes. Calls in which the output does not take a byte are counted separately; the time between the calls, and the time spent within one call, are not part of the model."
  },
  {
   "property": "C61",
   "status": "proved",
   "theorems": [
    "Ush.Props.C61_keys",
    "Ush.Props.C61_initialize",
    "Ush.Props.C61_prompt",
    "Ush.Props.C61_tab",
    "Ush.Props.C61_false_tab",
    "Ush.Props.C61_false_word"
   ],
   "note": "Where TAB is pressed: the names offered fit the buffers, no NUL in the line (or C70) (C61_tab; C61_false_tab and C61_false_word show what happens otherwise)."
  },
  {
   "property": "C60",
   "status": "proved",
   "theorems": [
    "Ush.Props.C60_tab",
    "Ush.Props.C60_keeps",
    "Ush.Props.C60_ideal",
    "Ush.Props.C60_offers",
    "Ush.Props.C60_dir",
    "Ush.Props.C60_dir_mounted",
    "Ush.Props.C60_grown",
    "Ush.Props.C60_again",
    "Ush.Props.C60_overflow"
   ],
   "note": "The exact behaviour behind the exceptions of C27 to C29. Conditions: no NUL in the line, the names offered fit the buffers (TabOk in Spec/Complete.lean; C60_overflow shows what happens otherwise)."
  },
  {
   "property": "C62",
   "status": "proved",
   "theorems": [
    "Ush.Props.C62_where",
    "Ush.Props.C62_exact",
    "Ush.Props.C62_null"
   ],
   "note": "The exact behaviour behind the exception of C10. C62_null: a relative path is undefined behaviour when the node object of the working directory has been made a command group."
  },
  {
   "property": "C63",
   "status": "proved",
   "theorems": [
    "Ush.Props.C63_counters",
    "Ush.Props.C63_width"
   ],
   "note": "For histories that respect the rules of C23, arrays of at most B descriptors and files of at most B bytes. The state between two calls; lengths computed within a call are bounded by the objects they measure. The bound on the number of candidates is the number of steps of the search (coarse)."
  },
  {
   "property": "C64",
   "status": "proved",
   "theorems": [
    "Ush.Props.C64_answer",
    "Ush.Props.C64_none",
    "Ush.Props.C64_each",
    "Ush.Props.C64_deaf",
    "Ush.Props.C64_keys",
    "Ush.Props.C64_timing",
    "Ush.Props.C64_life"
   ],
   "note": "The callback starts the process as its last call; there is a working directory (World.Ok) after every call of the function. ush_process_start is declared in ush_internal.h. Steps of C64_answer and C64_none: input and output ready; C64_timing, C64_life: any fair timing."
  },
  {
   "property": "C65",
   "status": "proved",
   "theorems": [
    "Ush.Props.C65_unmount",
    "Ush.Props.C65_followed",
    "Ush.Props.C65_again",
    "Ush.Props.C65_pwd",
    "Ush.Props.C65_ls",
    "Ush.Props.C65_files",
    "Ush.Props.C65_tab",
    "Ush.Props.C65_dot",
    "Ush.Props.C65_up"
   ],
   "note": "What becomes of the shell in the exceptional case of C10. Names of directories are proper (Named). The last sentence is the form of the other theorems: World.cwd need not be in World.tree."
  },
  {
   "property": "C66",
   "status": "proved",
   "theorems": [
    "Ush.Props.C66_same",
    "Ush.Props.C66_timing",
    "Ush.Props.C66_typed",
    "Ush.Props.C66_ctrl_c"
   ],
   "note": "Conditions of the keys as in C47 (they are the same for both shells)."
  },
  {
   "property": "C67",
   "status": "proved",
   "theorems": [
    "Ush.Props.C67_round",
    "Ush.Props.C67_unique",
    "Ush.Props.C67_start",
    "Ush.Props.C67_all",
    "Ush.Props.C67_all_unique",
    "Ush.Props.C67_late"
   ],
   "note": "One loop handles one line: it does not read all pending keys, since the call that clears the line after a prompt returns false as well (C22)."
  },
  {
   "property": "C68",
   "status": "proved",
   "theorems": [
    "Ush.Props.C68_resolve",
    "Ush.Props.C68_find",
    "Ush.Props.C68_cd",
    "Ush.Props.C68_line",
    "Ush.Props.C68_tab",
    "Ush.Props.C68_keys",
    "Ush.Props.C68_life",
    "Ush.Props.C68_exact",
    "Ush.Props.C68_demo"
   ],
   "note": "C68_line holds for every application and hook; C68_keys/life/exact for applications that leave the directories alone (as C48), where TAB does not make the position wrap around (C69)."
  },
  {
   "property": "C69",
   "status": "proved",
   "theorems": [
    "Ush.Props.C69_flat",
    "Ush.Props.C69_far",
    "Ush.Props.C69_dead",
    "Ush.Props.C69_exact",
    "Ush.Props.C69_endless",
    "Ush.Props.C69_life",
    "Ush.Props.C69_alive",
    "Ush.Props.C69_demo"
   ],
   "note": "World.Flat (no word is offered more names than the empty one) is a hypothesis of C69_dead, C69_exact, C69_life and C69_alive; C69_flat: it holds in the usual directories. No NUL in the line, except for C69_life and C69_alive."
  },
  {
   "property": "C70",
   "status": "proved",
   "theorems": [
    "Ush.Props.C70_tab",
    "Ush.Props.C70_dead",
    "Ush.Props.C70_exact",
    "Ush.Props.C70_nul",
    "Ush.Props.C69_life",
    "Ush.Props.C69_alive",
    "Ush.Props.C70_demo",
    "Ush.Props.C70_device"
   ],
   "note": "World.press, LineFits and LineClean in Spec/Complete.lean. World.Flat is a hypothesis of C70_dead, C70_exact and C70_nul. Sessions in general: C69_life and C69_alive."
  },
  {
   "property": "C71",
   "status": "proved",
   "theorems": [
    "Ush.Props.C71_life",
    "Ush.Props.C71_machine",
    "Ush.Props.C71_linux",
    "Ush.Props.C52_started"
   ],
   "note": "The hostname is as in C52 (Host.Ok), the application as in C48 (Tame), no line end in names, World.Flat (C69_flat). C71_linux: the read callbacks as in C54."
  },
  {
   "property": "C72",
   "status": "proved",
   "theorems": [
    "Ush.Props.C72_order",
    "Ush.Props.C72_same",
    "Ush.Props.C72_outside",
    "Ush.Props.C72_quiet",
    "Ush.Props.C72_early",
    "Ush.Props.C72_builtins"
   ],
   "note": "Bound (Model/Life.lean): the shell object with its pointer to the descriptor. C72_same: for histories that start with ush_init and have no ush_deinit the pointer plays no part, so the other theorems hold for it."
  },
  {
   "property": "C73",
   "status": "proved",
   "theorems": [
    "Ush.Props.C73_shows",
    "Ush.Props.C73_near",
    "Ush.Props.C73_split",
    "Ush.Props.C73_keys",
    "Ush.Props.C73_items",
    "Ush.Props.C73_life",
    "Ush.Props.C73_alive",
    "Ush.Props.C73_keeps",
    "Ush.Props.C73_keeps_items",
    "Ush.Props.C73_plug"
   ],
   "note": "Term.AppOk (the application's part) and Term.NearApp (the part of the keys, with the rows that have to fit) in Spec/Apps.lean. C73_shows: with Roomy and World.Fits all rows fit. Getters return at most 16^8 bytes, names contain no line end where TAB is pressed, World.Flat (C69_flat). C73_plug: a device that is plugged in and out, with all keys."
  },
  {
   "property": "C74",
   "status": "proved",
   "theorems": [
    "Ush.Props.C74_unseen",
    "Ush.Props.C74_false_early",
    "Ush.Props.C74_false_unmount",
    "Ush.Props.C74_false_cat"
   ],
   "note": "Within the rules of C23; the data of a file depend on the events only, statuses of library calls aside (Unaware); the call does not mount / and does not use the node object of the working directory. happened: the log without the returned statuses."
  },
  {
   "property": "C75",
   "status": "proved",
   "theorems": [
    "Ush.Props.C75_help",
    "Ush.Props.C75_ls",
    "Ush.Props.C75_ls_path",
    "Ush.Props.C75_xxd",
    "Ush.Props.C75_row",
    "Ush.Props.C75_ls_empty",
    "Ush.Props.C75_help_builtin",
    "Ush.Props.C75_small"
   ],
   "note": "Ends: after Enter, whatever comes next, the shell never waits for a key again. Files read by xxd have at most 16^8 bytes. C75_small: a device with 12 bytes of output buffer, all keys and all fair timings (by C73)."
  },
  {
   "property": "C76",
   "status": "proved",
   "theorems": [
    "Ush.Props.C76_key",
    "Ush.Props.C76_keys",
    "Ush.Props.C76_items",
    "Ush.Props.C76_life",
    "Ush.Props.C76_keeps",
    "Ush.Props.C76_plug"
   ],
   "note": "The hostname as in C52 (Host.Ok), the application as in C73 (AppAllH, Spec/AppsHost.lean); process functions of the application do not put the shell into the middle of the prompt (NoPrompt)."
  },
  {
   "property": "C77",
   "status": "proved",
   "theorems": [
    "Ush.Props.C77_step",
    "Ush.Props.C77_run",
    "Ush.Props.C77_safe",
    "Ush.Props.C77_life",
    "Ush.Props.C77_keeps",
    "Ush.Props.C77_byte",
    "Ush.Props.C77_torn",
    "Ush.Props.C77_plug",
    "Ush.Props.C77_rise",
    "Ush.Props.C77_false_peek",
    "Ush.Props.C77_false_size"
   ],
   "note": "C77_safe: the rules are those of C23 (Roomy, Behaves, Legal). The memory keeps its size (C77_false_size). The callbacks do not look at the bytes printed or about to be printed (Unseeing; C77_false_peek). Rewritten, Rewriter and Like in Spec/Torn.lean."
  },
  {
   "property": "C78",
   "status": "proved",
   "theorems": [
    "Ush.Props.C78_startup",
    "Ush.Props.C78_safe",
    "Ush.Props.C78_life",
    "Ush.Props.C78_keeps",
    "Ush.Props.C78_deinit",
    "Ush.Props.C78_lives",
    "Ush.Props.C78_children",
    "Ush.Props.C78_twice",
    "Ush.Props.C78_again",
    "Ush.Props.C78_plug"
   ],
   "note": "Unused in Spec/Memory.lean says which fields count; the sizes of the two buffers are those of the descriptor. C78_lives: the rules of C23 in each life. C78_twice is stated for the loop of ush_file_find_by_name (findCommand), C78_again for the function; C39_init_twice shows it at the prompt."
  },
  {
   "property": "C79",
   "status": "proved",
   "theorems": [
    "Ush.Props.C79_same",
    "Ush.Props.C79_unheard",
    "Ush.Props.C79_cat",
    "Ush.Props.C79_utters",
    "Ush.Props.C79_xxd",
    "Ush.Props.C79_lives",
    "Ush.Props.C79_life",
    "Ush.Props.C79_alive",
    "Ush.Props.C79_plug"
   ],
   "note": "Model/Getter.lean has the functions on the way to the two places where getters are called, with the calls of the getter; C79_same: without calls they are those of the model. C79_cat and C79_life are for all getters that only print, C79_utters, C79_alive and C79_xxd for those that print texts with ush_print or ush_print_no_newline. C79_life, C79_lives and C79_alive: keys as in C73. The text says that the shell never answers any more, which is undesirable, but it is what the code does."
  },
  {
   "property": "C80",
   "status": "proved",
   "theorems": [
    "Ush.Props.C80_same",
    "Ush.Props.C80_flat",
    "Ush.Props.C80_bound",
    "Ush.Props.C80_run",
    "Ush.Props.C80_safe",
    "Ush.Props.C80_pages",
    "Ush.Props.C80_hook"
   ],
   "note": "Model/Nested.lean has the functions on the way to the four places where callbacks are called, with a continuation of the callback; C80_same: with none they are those of the model. The number n bounds depth and moves, since callbacks may go on for ever; C80_bound: it does not matter if it is large enough. A callback gets the arguments as they are when it is called; the stack is not modelled. C80_hook: a concrete shell in which the hook calls ush_service and another command is executed."
  },
  {
   "property": "C81",
   "status": "proved",
   "theorems": [
    "Ush.Props.C81_keys",
    "Ush.Props.C81_timing",
    "Ush.Props.C81_safe",
    "Ush.Props.C81_hook"
   ],
   "note": "The writes are made when the callback returns (after its library calls, which do not read the buffer). C81_keys and C81_timing are about the shells of C47 (commands print a text or do nothing); C81_safe about all callbacks of C23 for commands, data and the hook that set the state only to reset, reset_prompt or read_prepare (they may start processes of their own). C81_hook: a concrete shell whose hook replaces the first word, so another command is executed."
  },
  {
   "property": "C82",
   "status": "proved",
   "theorems": [
    "Ush.Props.C82_print",
    "Ush.Props.C82_memory",
    "Ush.Props.C82_printf",
    "Ush.Props.C82_fill",
    "Ush.Props.C82_reset",
    "Ush.Props.C82_state",
    "Ush.Props.C82_later"
   ],
   "note": "Allowed in Spec/Safe.lean is the rule of C23. C82_printf: formatted texts without NUL bytes (C57_nul is about those); the text that is being printed from the output buffer is terminated, as it is in the histories of C23. C82_later: concrete."
  }
 ]
}