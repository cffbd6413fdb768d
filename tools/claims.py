claim("C01", "proved", ["C01_collapse", "C01_no_dots", "C01_keep", "C01_dotdot", "C01_idempotent", "C01_false_with_empty_component", "C01_empty", "C01_every", "C01_parts"],
      "Paths without empty components, as stated; C01_every describes the result for every other text.")
claim("C02", "proved", ["C02_levels", "C02_split_join", "C02_root", "C02_every", "C02_spec"])
claim("C04", "proved", ["C04_decode", "C04_size", "C04_in_place", "C04_roundtrip", "C04_plain"])
claim("C05", "partial", ["C05_last_arg_partial", "C05_single_space", "C05_spec", "C05_false"],
      "False of the code for lines of the form ' word' (one leading space, one word); proved for every other line, and the behaviour on those lines is proved too.")
claim("C44", "proved", ["C44_injective", "C44_prefix", "C44_table", "C44_default"])
claim("C03", "proved", ["C03_resolve", "C03_total", "C03_independent", "C03_every"],
      "The first theorem gives the result in terms of components; the last one for every text, with empty components too.")
claim("C06", "proved", ["C06_finite_map", "C06_only_mounted"])
claim("C07", "proved", ["C07_mount", "C07_double_slash"])
claim("C08", "proved", ["C08_unmount", "C08_empty_text"], "The empty string names the root; shown by the second theorem.")
claim("C09", "proved", ["C09_set_current_dir", "C09_target", "C09_cd_command", "C09_cd", "C09_cd_missing", "C09_cd_wrong_arguments"])
claim("C10", "partial", ["C10_cwd_mounted_partial", "C10_false"],
      "False of the code: the application may unmount the working directory. Proved when it does not; exactly when it is mounted: C62_exact; what the shell does then: C65.")
claim("C11", "proved", ["C11_lookup", "C11_in_cwd", "C11_at_cwd"])
claim("C12", "proved", ["C12_groups", "C12_remove"])
claim("C20", "proved", ["C20_prefix", "C20_same_result", "C20_faults", "C20_fair"])
claim("C21", "proved", ["C21_delivery", "C21_text", "C21_buffer"])
claim("C22", "proved", ["C22_one_io", "C22_only_offered", "C22_false_waiting", "C22_waiting_false"],
      "The service function also returns false for the call that clears the line after a prompt; the shell waits for input after that call.")
claim("C13", "proved", ["C13_argv", "C13_plain", "C26_exec", "C13_nul"],
      "C26_exec is the same statement for hooks and commands that make library calls. The words are exact for all lines, also with NUL bytes.")
claim("C14", "proved", ["C14_words", "C14_typed"],
      "C14_typed types the line key by key, so its arguments have no control keys of the line editor (Ctrl+C, TAB, BS, DEL, ESC).")
claim("C15", "proved", ["C15_line", "C15_buffer", "C26_exec"])
claim("C16", "partial", ["C16_in_bounds", "C16_wrap", "C16_dropped_partial", "C16_full", "C16_false"],
      "The first half (no access outside the buffer) is proved. The second half is false of the code: the end of a line that is too long is executed (C16_false); C16_wrap says exactly which part. A line that just fills the buffer loses its first character to a NUL (C16_full).")
claim("C17", "proved", ["C17_echo", "C17_key", "C17_enter", "C20_fair"])
claim("C18", "proved", ["C18_ctrl_c", "C18_independent"])
claim("C19", "proved", ["C19_cursor_keys"])
claim("C25", "proved", ["C25_prompt"])
claim("C26", "proved", ["C26_empty", "C26_unknown", "C26_not_executable", "C26_exec"],
      "Hook and command may make any valid calls of the library (Spec/Calls.lean).")
claim("C37", "proved", ["C37_reset"])
claim("C38", "proved", ["C38_startup", "C38_builtins", "C38_texts", "C38_functions", "C20_fair"])
claim("C40", "proved", ["C40_accumulate", "C40_more"])
claim("C41", "partial", ["C41_overflow_partial", "C41_false", "C41_false_nul"],
      "False of the code for output buffers smaller than 20 bytes (write outside the buffer); with larger buffers the message is followed by a NUL byte.")
claim("C42", "proved", ["C42_print", "C42_print_no_newline", "C42_print_status", "C42_flush", "C42_flush_first", "C42_bytes"])
claim("C30", "proved", ["C30_cat", "C30_error", "C30_no_arguments", "C30_cases", "C30_uninitialised"],
      "Getters as functions of the history; a getter that does not set the data pointer is excluded (it makes cat read an uninitialised pointer).")
claim("C31", "proved", ["C31_xxd", "C31_complete", "C31_empty", "C31_missing", "C31_unreadable", "C31_wrong_arguments"],
      "Files up to 16^8 bytes (the offset column has 8 digits); the output buffer must hold one row of hexadecimal columns.")
claim("C32", "proved", ["C32_ls", "C32_ls_path", "C32_missing", "C32_wrong_arguments"],
      "The output buffer must hold a padded file name.")
claim("C33", "proved", ["C33_help", "C33_help_file", "C33_no_help", "C33_missing", "C33_wrong_arguments"],
      "The output buffer must hold a padded file name.")
claim("C34", "partial", ["C34_echo", "C34_echo_partial", "C34_false", "C34_nothing", "C34_wrong_arguments"],
      "False of the code for arguments with a backslash: the decoded bytes are not terminated (C34_false). C34_echo says exactly what is printed for every argument.")
claim("C35", "proved", ["C35_write", "C35_missing", "C35_not_writable", "C35_syntax"])
claim("C36", "proved", ["C36_pwd", "C36_after_cd", "C36_wrong_arguments"])
claim("C27", "partial", ["C27_common", "C27_longest", "C27_candidates", "C27_tab_partial", "C27_extends_partial", "C27_single_partial", "C27_target", "C27_space", "C27_false", "C27_overflow", "C27_hidden"],
      "False of the code for lines of one space and one word (C27_false) and for the words '.' and '..' (and the empty word) where directories have names that begin with a dot (C27_hidden), and where another directory has been mounted in place of the unmounted working directory (World.Usual); proved for all other lines and worlds; C27_target says what happens on every line, including those of one space and one word. C27_overflow: a candidate that does not fit is written outside the input buffer.")
claim("C28", "partial", ["C28_list_partial", "C28_when"],
      "Same exceptions as C27; what is printed in every case: C60_keeps.")
claim("C29", "partial", ["C29_keeps_partial", "C29_false"],
      "False of the code for the words '.' and '..' (and the empty word) where directories have names that begin with a dot (C29_false); proved for all other lines (World.Usual, as C27), when the candidates fit (see C27_overflow). That the line begins with what was typed holds in every case (C60_keeps).")
claim("C23", "partial", ["C23_memory_safe_partial", "C23_typing_partial", "C23_mount_any_time", "C23_world", "C23_false_line", "C23_false_help", "C23_false_unmount", "C23_false_hide", "C23_false_cd", "C23_false_twice", "C23_false_path", "C23_false_tab", "C27_overflow", "C41_false"],
      "False of the code for small buffers, for some calls of the application, and for TAB on a line with a typed NUL (the C23_false theorems, C27_overflow, C41_false). Proved for buffers that hold the texts of the built-in commands and for every history of keys, callbacks and calls that respects the rules in Spec/Safe.lean (directories and commands may be changed also while a built-in command or a completion is at work, as far as these bear it); where the path buffers are small, lines that are too long for them must not be entered (the bound L).")
claim("C24", "proved", ["C24_returns", "C24_columns", "C24_columns_reached"],
      "For every state reached by a history as in C23. A process function of the application may run as long as it likes; the theorem ends when it is called.")
claim("C39", "proved", ["C39_deinit", "C39_again", "C39_any_time", "C39_init_twice"],
      "Node objects of command groups are not cleared (they are not mounted); they can be used again after the next ush_init.")
claim("C45", "partial", ["C45_fits_partial", "C45_long_partial", "C45_false", "C45_false_witness"],
      "False of the code when exactly 17 bytes are left (the NUL byte is written behind the buffer) and for buffers of less than 18 bytes. The other cases are proved.")
claim("C43", "proved", ["C43_frame", "C43_interleaved", "C43_alone", "C43_shared"],
      "For instances with disjoint node objects and callbacks that name their own nodes only. A node used by both is shared memory: C43_shared.")
claim("C46", "proved", ["C46_tab_ignored", "C46_table", "C46_init", "C46_disabled", "C46_none"],
      "All other theorems hold for all values of the switches, except those about TAB, which assume that the feature is on.")
claim("C47", "proved", ["C47_keys", "C47_timing", "C47_prefix", "C47_life", "C47_items"],
      "Preconditions per key: Term.Ok in Spec/Terminal.lean (callbacks respect the rules of the library, rows of ls, help and xxd fit the output buffer; for TAB those of C60_tab).")
claim("C48", "proved", ["C48_keys", "C48_life", "C48_prefix", "C48_lines"],
      "Conditions: Term.Short in Spec/Tame.lean (lengths, and no NUL in the line when TAB is pressed); for the application App.Tame.")
claim("C49", "proved", ["C49_demo", "C49_lines", "C49_device", "C49_read", "C49_false_long"],
      "For a board without support for rebooting. TAB: the head of the line and a name of 8 bytes fit the input buffer.")
claim("C50", "proved", ["C50_contract", "C50_sizes"],
      "For all histories that do not fault, without any rule for the application. Histories in which the application breaks the rules of the library may fault (C23); then the theorem speaks about the time before.")
claim("C51", "proved", ["C51_memory", "C51_life", "C51_roundtrip"],
      "For files whose setter keeps the data and whose getter returns it (App.Stores), directories without own commands named echo, xxd or cat (World.Tools), and lines that fit the input buffer.")
claim("C52", "proved", ["C52_current", "C52_key", "C52_keys", "C52_life"],
      "The hostname is any function of what has happened that printing alone does not change (Host.Ok); preconditions per key as in C47. Process functions of the application must not put the shell into the middle of the prompt (NoPrompt).")
claim("C53", "proved", ["C53_spec", "C53_calls", "C53_moment", "C53_life"],
      "Preconditions per key as in C47; the general hook leaves directories and commands alone (App.Aside).")
claim("C54", "proved", ["C54_linux", "C54_machine", "C54_read", "C54_random", "C54_uptime", "C54_print", "C54_usage", "C54_eof", "C54_false_eeprom", "C54_false_hostname", "C54_false_long", "C54_false_null"],
      "C54_false theorems: a write of 33 bytes to the eeprom overflows the array; the hostname gets bytes behind the decoded text; lines of 247 bytes overflow the path buffer; cat /dev/null uses an uninitialised pointer.")
claim("C55", "proved", ["C55_moment", "C55_timing", "C55_life"],
      "The node objects of the two are disjoint and callbacks name their own nodes only (Private); the callbacks of one application depend on what has happened in its own shell (App.Describes). Conditions per key as in C47.")
claim("C56", "proved", ["C56_row", "C56_life", "C56_line", "C56_false_control", "C56_false_long", "C56_false_lf"],
      "Conditions per key: Term.Neat in Spec/Screen.lean. The screen has no right margin; a byte is a character (no UTF-8).")
claim("C57", "proved", ["C57_calls", "C57_sheet", "C57_nul"],
      "Sheet in Spec/Printf.lean says what is printed and when something is written outside the buffer (this does happen: C41_false, C45_false). C57_nul: a text with a NUL byte is reported as an overflow even if it fits.")
claim("C58", "proved", ["C58_sheet", "C58_printf", "C58_items", "C58_life", "C58_tight"],
      "Conditions per key as in C47. C58_tight: with a text of the buffer size minus three bytes the result depends on the last key.")
claim("C59", "proved", ["C59_calls", "C59_key"],
      "For histories that respect the rules of C23, and files of at most D bytes. Calls in which the output does not take a byte are counted separately; the time between the calls, and the time spent within one call, are not part of the model.")
claim("C61", "proved", ["C61_keys", "C61_initialize", "C61_prompt", "C61_tab", "C61_false_tab", "C61_false_word"],
      "Where TAB is pressed: the names offered fit the buffers, no NUL in the line (or C70) (C61_tab; C61_false_tab and C61_false_word show what happens otherwise).")
claim("C60", "proved", ["C60_tab", "C60_keeps", "C60_ideal", "C60_offers", "C60_dir", "C60_dir_mounted", "C60_grown", "C60_again", "C60_overflow"],
      "The exact behaviour behind the exceptions of C27 to C29. Conditions: no NUL in the line, the names offered fit the buffers (TabOk in Spec/Complete.lean; C60_overflow shows what happens otherwise).")
claim("C62", "proved", ["C62_where", "C62_exact", "C62_null"],
      "The exact behaviour behind the exception of C10. C62_null: a relative path is undefined behaviour when the node object of the working directory has been made a command group.")
claim("C63", "proved", ["C63_counters", "C63_width"],
      "For histories that respect the rules of C23, arrays of at most B descriptors and files of at most B bytes. The state between two calls; lengths computed within a call are bounded by the objects they measure. The bound on the number of candidates is the number of steps of the search (coarse).")
claim("C64", "proved", ["C64_answer", "C64_none", "C64_each", "C64_deaf", "C64_keys", "C64_timing", "C64_life"],
      "The callback starts the process as its last call; there is a working directory (World.Ok) after every call of the function. ush_process_start is declared in ush_internal.h. Steps of C64_answer and C64_none: input and output ready; C64_timing, C64_life: any fair timing.")
claim("C65", "proved", ["C65_unmount", "C65_followed", "C65_again", "C65_pwd", "C65_ls", "C65_files", "C65_tab", "C65_dot", "C65_up"],
      "What becomes of the shell in the exceptional case of C10. Names of directories are proper (Named). The last sentence is the form of the other theorems: World.cwd need not be in World.tree.")
claim("C66", "proved", ["C66_same", "C66_timing", "C66_typed", "C66_ctrl_c"],
      "Conditions of the keys as in C47 (they are the same for both shells).")
claim("C67", "proved", ["C67_round", "C67_unique", "C67_start", "C67_all", "C67_all_unique", "C67_late"],
      "One loop handles one line: it does not read all pending keys, since the call that clears the line after a prompt returns false as well (C22).")
claim("C68", "proved", ["C68_resolve", "C68_find", "C68_cd", "C68_line", "C68_tab", "C68_keys", "C68_life", "C68_exact", "C68_demo"],
      "C68_line holds for every application and hook; C68_keys/life/exact for applications that leave the directories alone (as C48), where TAB does not make the position wrap around (C69).")
claim("C69", "proved", ["C69_flat", "C69_far", "C69_dead", "C69_exact", "C69_endless", "C69_life", "C69_alive", "C69_demo"],
      "World.Flat (no word is offered more names than the empty one) is a hypothesis of C69_dead, C69_exact, C69_life and C69_alive; C69_flat: it holds in the usual directories. No NUL in the line, except for C69_life and C69_alive.")
claim("C70", "proved", ["C70_tab", "C70_dead", "C70_exact", "C70_nul", "C69_life", "C69_alive", "C70_demo", "C70_device"],
      "World.press, LineFits and LineClean in Spec/Complete.lean. World.Flat is a hypothesis of C70_dead, C70_exact and C70_nul. Sessions in general: C69_life and C69_alive.")
claim("C71", "proved", ["C71_life", "C71_machine", "C71_linux", "C52_started"],
      "The hostname is as in C52 (Host.Ok), the application as in C48 (Tame), no line end in names, World.Flat (C69_flat). C71_linux: the read callbacks as in C54.")
claim("C72", "proved", ["C72_order", "C72_same", "C72_outside", "C72_quiet", "C72_early", "C72_builtins"],
      "Bound (Model/Life.lean): the shell object with its pointer to the descriptor. C72_same: for histories that start with ush_init and have no ush_deinit the pointer plays no part, so the other theorems hold for it.")
claim("C73", "proved", ["C73_shows", "C73_near", "C73_split", "C73_keys", "C73_items", "C73_life", "C73_alive", "C73_keeps", "C73_keeps_items", "C73_plug"],
      "Term.AppOk (the application's part) and Term.NearApp (the part of the keys, with the rows that have to fit) in Spec/Apps.lean. C73_shows: with Roomy and World.Fits all rows fit. Getters return at most 16^8 bytes, names contain no line end where TAB is pressed, World.Flat (C69_flat). C73_plug: a device that is plugged in and out, with all keys.")
claim("C74", "proved", ["C74_unseen", "C74_false_early", "C74_false_unmount", "C74_false_cat"],
      "Within the rules of C23; the data of a file depend on the events only, statuses of library calls aside (Unaware); the call does not mount / and does not use the node object of the working directory. happened: the log without the returned statuses.")
claim("C75", "proved", ["C75_help", "C75_ls", "C75_ls_path", "C75_xxd", "C75_row", "C75_ls_empty", "C75_help_builtin", "C75_small"],
      "Ends: after Enter, whatever comes next, the shell never waits for a key again. Files read by xxd have at most 16^8 bytes. C75_small: a device with 12 bytes of output buffer, all keys and all fair timings (by C73).")
claim("C76", "proved", ["C76_key", "C76_keys", "C76_items", "C76_life", "C76_keeps", "C76_plug"],
      "The hostname as in C52 (Host.Ok), the application as in C73 (AppAllH, Spec/AppsHost.lean); process functions of the application do not put the shell into the middle of the prompt (NoPrompt).")
claim("C77", "proved", ["C77_step", "C77_run", "C77_safe", "C77_life", "C77_keeps", "C77_byte", "C77_torn", "C77_plug", "C77_rise", "C77_false_peek", "C77_false_size"],
      "C77_safe: the rules are those of C23 (Roomy, Behaves, Legal). The memory keeps its size (C77_false_size). The callbacks do not look at the bytes printed or about to be printed (Unseeing; C77_false_peek). Rewritten, Rewriter and Like in Spec/Torn.lean.")
claim("C78", "proved", ["C78_startup", "C78_safe", "C78_life", "C78_keeps", "C78_deinit", "C78_lives", "C78_children", "C78_twice", "C78_again", "C78_plug"],
      "Unused in Spec/Memory.lean says which fields count; the sizes of the two buffers are those of the descriptor. C78_lives: the rules of C23 in each life. C78_twice is stated for the loop of ush_file_find_by_name (findCommand), C78_again for the function; C39_init_twice shows it at the prompt.")
claim("C79", "proved", ["C79_same", "C79_unheard", "C79_cat", "C79_utters", "C79_xxd", "C79_lives", "C79_life", "C79_alive", "C79_plug"],
      "Model/Getter.lean has the functions on the way to the two places where getters are called, with the calls of the getter; C79_same: without calls they are those of the model. C79_cat and C79_life are for all getters that only print, C79_utters, C79_alive and C79_xxd for those that print texts with ush_print or ush_print_no_newline. C79_life, C79_lives and C79_alive: keys as in C73. The text says that the shell never answers any more, which is undesirable, but it is what the code does.")
claim("C80", "proved", ["C80_same", "C80_flat", "C80_bound", "C80_run", "C80_safe", "C80_pages", "C80_hook"],
      "Model/Nested.lean has the functions on the way to the four places where callbacks are called, with a continuation of the callback; C80_same: with none they are those of the model. The number n bounds depth and moves, since callbacks may go on for ever; C80_bound: it does not matter if it is large enough. A callback gets the arguments as they are when it is called; the stack is not modelled. C80_hook: a concrete shell in which the hook calls ush_service and another command is executed.")
claim("C81", "proved", ["C81_keys", "C81_timing", "C81_safe", "C81_hook"],
      "The writes are made when the callback returns (after its library calls, which do not read the buffer). C81_keys and C81_timing are about the shells of C47 (commands print a text or do nothing); C81_safe about all callbacks of C23 for commands, data and the hook that set the state only to reset, reset_prompt or read_prepare (they may start processes of their own). C81_hook: a concrete shell whose hook replaces the first word, so another command is executed.")
claim("C82", "proved", ["C82_print", "C82_memory", "C82_printf", "C82_fill", "C82_reset", "C82_state", "C82_later"],
      "Allowed in Spec/Safe.lean is the rule of C23. C82_printf: formatted texts without NUL bytes (C57_nul is about those); the text that is being printed from the output buffer is terminated, as it is in the histories of C23. C82_later: concrete.")
