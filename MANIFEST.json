{
 "claims": [
  {
   "property": "C01",
   "status": "proved",
   "theorems": [
    "RL.C01_indexAll",
    "RL.C01_empty_exception"
   ],
   "note": "Full statement for all slices and both fold values; the empty-haystack exception is part of the theorem."
  },
  {
   "property": "C02",
   "status": "proved",
   "theorems": [
    "RL.C02_indexAllBck"
   ],
   "note": "Full statement."
  },
  {
   "property": "C03",
   "status": "proved",
   "theorems": [
    "RL.C03_fold"
   ],
   "note": "Full statement, including EqualFold/HasPrefixFold."
  },
  {
   "property": "C04",
   "status": "proved",
   "theorems": [
    "RL.C04_aggregate"
   ],
   "note": "Full statement for non-empty candidate lists (the empty list panics in the code)."
  },
  {
   "property": "C05",
   "status": "proved",
   "theorems": [
    "RL.C05_colorFilter",
    "RL.C05_plain"
   ],
   "note": "Exact characterisation of result and panic by a grammar."
  },
  {
   "property": "C06",
   "status": "proved",
   "theorems": [
    "RL.C06_splitByLine",
    "RL.C06_lineCount"
   ],
   "note": "Pieces are characterised uniquely."
  },
  {
   "property": "C07",
   "status": "partial",
   "theorems": [
    "RL.C07_cursor_partial",
    "RL.C07_defined_partial",
    "RL.C07_triggers_are_real",
    "RL.C07_false"
   ],
   "note": "False of the code: Ctrl-T at the end of a one-rune line moves the cursor out of the line and the next key panics (C07_false). Proved for every command sequence avoiding that case; every command is defined except Replace at end of line and MoveToEndWord on a trailing word rune."
  },
  {
   "property": "C08",
   "status": "proved",
   "theorems": [
    "RL.C08_editor",
    "RL.C08_total"
   ],
   "note": "Refinement to a textbook editor for all command sequences; termination under the explicit condition that drawing works (see C16)."
  },
  {
   "property": "C09",
   "status": "proved",
   "theorems": [
    "RL.C09_word_motion"
   ],
   "note": ""
  },
  {
   "property": "C10",
   "status": "partial",
   "theorems": [
    "RL.C10_cut_yank_partial",
    "RL.C10_false"
   ],
   "note": "False for Ctrl-W on the first word (C10_false); proved for all other cuts."
  },
  {
   "property": "C100",
   "status": "partial",
   "theorems": [
    "RL.C100_redraw_partial",
    "RL.C100_commands_partial",
    "RL.C100_start_partial",
    "RL.C100_cursor_iff",
    "RL.C100_submit",
    "RL.C100_false_cursor",
    "RL.C100_false_wide",
    "RL.C100_false_full"
   ],
   "note": "The cursor is in the wrong column unless it is at the end (C100_cursor_iff says exactly when), and rows above are erased for full rows and wide runes (counterexamples). Proved for lines that leave a column of the row free, counted both ways. Missing: masked lines of several rows."
  },
  {
   "property": "C101",
   "status": "partial",
   "theorems": [
    "RL.C101_clear",
    "RL.C101_transcript_partial",
    "RL.C101_end_partial",
    "RL.C101_line_partial"
   ],
   "note": "One Ctrl-L is proved for every state reached by C95's keys; the session theorems keep C95's conditions (room for the banner and the list, the keys while they are open, safe vim commands). Missing: what C95 misses apart from Ctrl-L."
  },
  {
   "property": "C102",
   "status": "partial",
   "theorems": [
    "RL.C102_transcript_partial",
    "RL.C102_end_partial",
    "RL.C102_line_partial",
    "RL.C102_secret_partial",
    "RL.C102_false_hint",
    "RL.C102_false_interrupt"
   ],
   "note": "Proved with the hints masked as well, which is what the code does; as stated the claim is false (C102_false_hint, C102_false_interrupt). Missing: lines that fill their row (C100_false_full, C100_false_wide), the incremental search, completion, Ctrl-L, Ctrl-T and vim keys, and UniqueEditLine."
  },
  {
   "property": "C103",
   "status": "partial",
   "theorems": [
    "RL.C103_off",
    "RL.C103_on",
    "RL.C103_on_save",
    "RL.C103_false_newest",
    "RL.C103_false_blank",
    "RL.C103_on_newest"
   ],
   "note": "The recording clauses are proved on the operations of the history for a history that has been opened (not empty) and is within its limit. The browsing clause is false (C103_false_newest, C103_false_blank). Missing: closing and reopening the file while the history is off."
  },
  {
   "property": "C104",
   "status": "partial",
   "theorems": [
    "RL.C104_once",
    "RL.C104_alone_partial",
    "RL.C104_answered_partial",
    "RL.C104_false_shifted",
    "RL.C104_false_key",
    "RL.C104_false_stale",
    "RL.C104_false_dropped",
    "RL.C104_false_swapped"
   ],
   "note": "At most one call of each callback, with reports that were read, in order: all schedules. The right answer, and that there is one: for a call made while nothing is going on. False otherwise (witnesses; C104_false_shifted for any number of calls). The editing loop reads only between a kick and the end of a line (C38_decode); until then a call is not answered."
  },
  {
   "property": "C105",
   "status": "partial",
   "theorems": [
    "RL.C105_woken",
    "RL.C105_stopped_partial",
    "RL.C105_idle",
    "RL.C105_false_hang",
    "RL.C105_false_ignored",
    "RL.C105_false_quick",
    "RL.C105_false_busy"
   ],
   "note": "Woken after every stop of more than 100 ms, whatever the lag. Not before, for lags up to 100 ms and up to the lag: a stop of between 100 ms less the lag and 100 ms may or may not be noticed. The claim is false otherwise (witnesses of any length). Clocks are exact and monotonic."
  },
  {
   "property": "C106",
   "status": "partial",
   "theorems": [
    "RL.C106_same",
    "RL.C106_within_partial",
    "RL.C106_false_set",
    "RL.C106_false_crash"
   ],
   "note": "Proved for cursors within the line; false for negative ones, for all states, lines, widths other than 0 and commands. C106_same ties the functions on integers to the model. Missing: cursors beyond the end of the line, where the outcome depends on the capacity of the slice; a display that is not interactive."
  },
  {
   "property": "C107",
   "status": "partial",
   "theorems": [
    "RL.C107_editor",
    "RL.C107_decoder",
    "RL.C107_agree_partial",
    "RL.C107_repaired",
    "RL.C107_insert",
    "RL.C107_deaf_keys",
    "RL.C107_deaf",
    "RL.C107_false_on",
    "RL.C107_false_config",
    "RL.C107_false_off",
    "RL.C107_normal_partial",
    "RL.C107_false_field"
   ],
   "note": "C107_editor and C107_decoder say for all sequences of calls what decides the mode of either side; they agree as long as the first configuration is kept. False after SetConfig with another one, three ways. Missing: calls that overlap with the handling of a key."
  },
  {
   "property": "C108",
   "status": "partial",
   "theorems": [
    "RL.C108_buffer",
    "RL.C108_list",
    "RL.C108_search_partial",
    "RL.C108_recovers",
    "RL.C108_column",
    "RL.C108_false_password",
    "RL.C108_false_lasts",
    "RL.C108_false_window",
    "RL.C108_false_column"
   ],
   "note": "Proved for the line and, with one window, for the list; for the search if the window changed only while its configuration was current. False for every change during a password, for all widths and configurations. Missing: the callback running in the middle of another step."
  },
  {
   "property": "C109",
   "status": "partial",
   "theorems": [
    "RL.C109_process",
    "RL.C109_default_partial",
    "RL.C109_after",
    "RL.C109_start",
    "RL.C109_false_remote",
    "RL.C109_false_pipe",
    "RL.C109_false_force"
   ],
   "note": "Proved for programs that set neither FuncIsTerminal nor ForceUseInteractive; what happens afterwards holds for all. False for every RemoteSvr whose client differs from the server process, and for ForceUseInteractive. Missing: what the completion and search modes write while a password is read without drawing."
  },
  {
   "property": "C11",
   "status": "partial",
   "theorems": [
    "RL.C11_ctrlW_partial",
    "RL.C11_first_word",
    "RL.C11_false"
   ],
   "note": "False when the previous word starts at column 0: the whole line is erased (C11_first_word, C11_false). Proved otherwise."
  },
  {
   "property": "C110",
   "status": "partial",
   "theorems": [
    "RL.C110_false_cancel",
    "RL.C110_false_password",
    "RL.C110_false_unbounded",
    "RL.C110_false_setConfig",
    "RL.C110_close",
    "RL.C110_own_partial",
    "RL.C110_all_partial",
    "RL.C110_clone",
    "RL.C110_std"
   ],
   "note": "Proved for programs that set Stdin in all configurations, do not call ReadPassword, and close an instance holding each stream. False for a default Stdin, for ReadPassword (two goroutines each time, without bound) and for a configuration replaced by SetConfig. Missing: the loops of Terminal and Operation, and a CancelableStdin the program closes itself."
  },
  {
   "property": "C111",
   "status": "partial",
   "theorems": [
    "RL.C111_first",
    "RL.C111_again",
    "RL.C111_partial",
    "RL.C111_start",
    "RL.C111_save",
    "RL.C111_false_back",
    "RL.C111_false_leaves",
    "RL.C111_password",
    "RL.C111_line"
   ],
   "note": "Proved for programs that set no configuration twice, passwords included. False for a program that goes back to a configuration used before. Uses of the history are arbitrary functions that leave the file handle alone; C111_line proves that of Readline and SaveHistory. Missing: the two are not calls of the program itself but follow it, and the line of a password is such a function."
  },
  {
   "property": "C12",
   "status": "proved",
   "theorems": [
    "RL.C12_deleteWord"
   ],
   "note": ""
  },
  {
   "property": "C13",
   "status": "partial",
   "theorems": [
    "RL.C13_transpose_partial",
    "RL.C13_false"
   ],
   "note": "Text part proved in full; cursor leaves one-rune lines (C13_false)."
  },
  {
   "property": "C14",
   "status": "proved",
   "theorems": [
    "RL.C14_moveTo"
   ],
   "note": ""
  },
  {
   "property": "C15",
   "status": "partial",
   "theorems": [
    "RL.C15_no_crash_partial",
    "RL.C15_invariant_partial",
    "RL.C15_crash_transpose",
    "RL.C15_crash_search_cancel",
    "RL.C15_crash_menu_kill",
    "RL.C15_crash_menu_narrow",
    "RL.C15_crash_vim_menu",
    "RL.C15_crash_vim_search",
    "RL.C15_crash_vim_keys",
    "RL.C15_crash_wide",
    "RL.C15_crash_no_terminal",
    "RL.C15_hang_prompt",
    "RL.C15_crash_listener"
   ],
   "note": "False of the code as stated; crashing sessions are given. Partial: no crash from any reachable state unless one of the six kinds of key in Op.Risky is pressed, for positive width, drawable prompt, completer answers that fit the line and a listener that only observes."
  },
  {
   "property": "C16",
   "status": "partial",
   "theorems": [
    "RL.C16_redraw_partial",
    "RL.C16_hang_is_divergence",
    "RL.C16_false"
   ],
   "note": "False of the code: redraw never ends when the prompt width is a positive multiple of the terminal width (or width <= 0) and the cursor is inside the line. Termination is characterised exactly."
  },
  {
   "property": "C17",
   "status": "partial",
   "theorems": [
    "RL.C17_redraw_partial",
    "RL.C17_commands_partial",
    "RL.C17_start",
    "RL.C17_submit",
    "RL.C17_false_prompt",
    "RL.C17_false_mask",
    "RL.C17_false_mask_cursor"
   ],
   "note": "Against a character terminal with deferred automatic wrap (Verif.Spec.Screen), reading the characters written. Proved for every redraw, every sequence of editing commands, the start and submitting a line; prompt with colour sequences and any painter that only adds colours. The terminal is tall enough not to scroll. False in one corner (empty line, prompt one column shorter than the screen) and for masked lines. Search and menu display are not covered."
  },
  {
   "property": "C18",
   "status": "proved",
   "theorems": [
    "RL.C18_mask_session",
    "RL.C18_mask_output",
    "RL.C18_width_leak"
   ],
   "note": "Two sessions inserting same-shape texts write the same tokens; the single-width restriction is shown necessary by C18_width_leak. Whole sessions of the loop: C97."
  },
  {
   "property": "C19",
   "status": "proved",
   "theorems": [
    "RL.C19_append",
    "RL.C19_stale_edit"
   ],
   "note": "For all well-formed histories; C19_stale_edit shows the condition on the recalled entry is needed (the code records the pending edit instead)."
  },
  {
   "property": "C20",
   "status": "partial",
   "theorems": [
    "RL.C20_bound_partial",
    "RL.C20_step",
    "RL.C20_false",
    "RL.C20_reopened",
    "RL.C20_recovers",
    "RL.C20_false_unbounded"
   ],
   "note": "Holds for all operation sequences without reopening the history file. False with reopening (as ReadPassword does): C20_false, and C20_false_unbounded for any excess. C20_reopened bounds the excess by the number of openings since an edit was last noted; C20_recovers: the next key brings the history back within the limit."
  },
  {
   "property": "C21",
   "status": "proved",
   "theorems": [
    "RL.C21_entries",
    "RL.C21_browse",
    "RL.C21_prev_next",
    "RL.C21_next_prev",
    "RL.C21_edits"
   ],
   "note": ""
  },
  {
   "property": "C22",
   "status": "partial",
   "theorems": [
    "RL.C22_unchanged_partial",
    "RL.C22_false"
   ],
   "note": "C22_false: a fresh instance without history file records an empty first line."
  },
  {
   "property": "C23",
   "status": "proved",
   "theorems": [
    "RL.C23_load",
    "RL.C23_roundtrip",
    "RL.C23_trimmed",
    "RL.C23_blank"
   ],
   "note": "Files are byte lists; loading is proved for every file, the round trip for every sequence of recorded lines."
  },
  {
   "property": "C24",
   "status": "proved",
   "theorems": [
    "RL.C24_crash_append",
    "RL.C24_glued"
   ],
   "note": "Cutting the file at any byte of an append; C24_glued records that the next append after a torn line glues onto it."
  },
  {
   "property": "C25",
   "status": "proved",
   "theorems": [
    "RL.C25_rewrite_atomic",
    "RL.C25_rewrite_content",
    "RL.C25_disk_full"
   ],
   "note": "Any crash point of rewriteLocked; C25_disk_full records that ignored write errors make a full disk lose entries."
  },
  {
   "property": "C26",
   "status": "proved",
   "theorems": [
    "RL.C26_findBck"
   ],
   "note": ""
  },
  {
   "property": "C27",
   "status": "proved",
   "theorems": [
    "RL.C27_findFwd"
   ],
   "note": ""
  },
  {
   "property": "C28",
   "status": "partial",
   "theorems": [
    "RL.C28_cancel_partial",
    "RL.C28_in_step",
    "RL.C28_false_again",
    "RL.C28_false_first",
    "RL.C28_false_nil",
    "RL.C28_false_cursor",
    "RL.C28_false_vim",
    "RL.C28_false_interrupted"
   ],
   "note": "Proved for every safe state whose line is noted in the history, any text keys and backspaces during the search, ended by Ctrl-G or Ctrl-C; C28_in_step says when the line is noted. The cursor is not restored, and pressing Ctrl-R again, the first line of an instance and vim edits break the property: the C28_false theorems are concrete sessions."
  },
  {
   "property": "C29",
   "status": "proved",
   "theorems": [
    "RL.C29_readline",
    "RL.C29_enter"
   ],
   "note": "Whole calls of Readline from any ready state and any line, for every sequence of textbook editing keys followed by Enter or Ctrl-J; C29_enter covers every other mode outside the menu."
  },
  {
   "property": "C30",
   "status": "proved",
   "theorems": [
    "RL.C30_interrupt",
    "RL.C30_readline"
   ],
   "note": "Emacs and both vim modes; no filter, listener that only observes."
  },
  {
   "property": "C31",
   "status": "partial",
   "theorems": [
    "RL.C31_eof_partial",
    "RL.C31_delete_partial",
    "RL.C31_vim_normal"
   ],
   "note": "False in vim normal mode (C31_vim_normal: bell, then stall). Proved for emacs keys and vim's insert mode, during searches and with candidates listed or being chosen from."
  },
  {
   "property": "C32",
   "status": "proved",
   "theorems": [
    "RL.C32_end_of_input",
    "RL.C32_pending"
   ],
   "note": "Whole calls after any editing keys, and single iterations in search, completion and vim normal mode."
  },
  {
   "property": "C33",
   "status": "partial",
   "theorems": [
    "RL.C33_recorded_partial",
    "RL.C33_false_search",
    "RL.C33_false_search_edited",
    "RL.C33_false_vim",
    "RL.C33_false_first"
   ],
   "note": "Proved for every state reachable in an emacs session (any typing, recalling, editing, completing before), outside search and menu: Enter records exactly the submitted line. False during a search, with vim keys and for the very first empty line: the C33_false theorems are concrete sessions that record another text."
  },
  {
   "property": "C34",
   "status": "proved",
   "theorems": [
    "RL.C34_tab",
    "RL.C34_menu"
   ],
   "note": "Every reachable state, every completer whose answers fit the line (Friendly), every key history without the crashing keys of C15. Tab in the selection menu is navigation (C35); in vim's normal mode it does nothing."
  },
  {
   "property": "C35",
   "status": "proved",
   "theorems": [
    "RL.C35_navigation",
    "RL.C35_enter"
   ],
   "note": "Every reachable menu state with at least one column, every sequence of navigation keys. With zero columns (screen narrower than a candidate) Ctrl-A, Ctrl-E and Ctrl-N panic: C15_crash_menu_narrow."
  },
  {
   "property": "C36",
   "status": "proved",
   "theorems": [
    "RL.C36_walk",
    "RL.C36_nowhere",
    "RL.C36_total",
    "RL.C36_offered"
   ],
   "note": "Trees with fixed and computed words; finite trees built by PcItem and PcItemDynamic."
  },
  {
   "property": "C37",
   "status": "proved",
   "theorems": [
    "RL.C37_split",
    "RL.C37_complete"
   ],
   "note": "Slices are values: the append in SegmentComplete.Do is assumed not to write into the callback's candidates."
  },
  {
   "property": "C38",
   "status": "partial",
   "theorems": [
    "RL.C38_decode",
    "RL.C38_keys",
    "RL.C38_total",
    "RL.C38_reports",
    "RL.C38_same_partial",
    "RL.C38_meta",
    "RL.C38_bytes",
    "RL.C38_false_vim",
    "RL.C38_false_delete",
    "RL.C38_params",
    "RL.C38_row_column"
   ],
   "note": "Full description of the decoder in emacs mode on every input, interrupted reads and cut-off sequences included. False in vim mode (nothing is decoded) and for Delete with a modifier."
  },
  {
   "property": "C39",
   "status": "partial",
   "theorems": [
    "RL.C39_text",
    "RL.C39_vim",
    "RL.C39_swallow_partial",
    "RL.C39_false"
   ],
   "note": "Text passes unchanged. Swallowing of unknown sequences holds when the parameters are numbers and semicolons; false for private markers."
  },
  {
   "property": "C40",
   "status": "partial",
   "theorems": [
    "RL.C40_readline_partial",
    "RL.C40_vim_partial",
    "RL.C40_step_partial",
    "RL.C40_stop_keys",
    "RL.C40_stall_vim",
    "RL.C40_stall_filter"
   ],
   "note": "Emacs keys: every key sequence, state and callback, except filters that translate a stopping key into another key. Vim: inputs without Ctrl-J, Ctrl-D and without a stopping key as a command's argument. The remaining cases are false of the code; C40_stall_vim and C40_stall_filter are the witnesses."
  },
  {
   "property": "C41",
   "status": "proved",
   "theorems": [
    "RL.C41_insert",
    "RL.C41_escape",
    "RL.C41_enter",
    "RL.C41_stays"
   ],
   "note": "All states for C41_insert (whole calls of Readline) and C41_stays; outside the selection menu for ESC and the normal-mode keys (in the menu they first act on the menu). Filters: any for C41_insert, none for the others."
  },
  {
   "property": "C42",
   "status": "proved",
   "theorems": [
    "RL.C42_layout",
    "RL.C42_roundtrip",
    "RL.C42_kinds"
   ],
   "note": "Payload length below 2^31-2, type in the int16 range."
  },
  {
   "property": "C43",
   "status": "proved",
   "theorems": [
    "RL.C43_stream",
    "RL.C43_cut",
    "RL.C43_every_cut",
    "RL.C43_received"
   ],
   "note": ""
  },
  {
   "property": "C44",
   "status": "partial",
   "theorems": [
    "RL.C44_false_length",
    "RL.C44_false_report",
    "RL.C44_decode_partial",
    "RL.C44_serve_partial"
   ],
   "note": "False of the code: a declared length below 2 and report payloads below 2 bytes crash the server (witnesses). Proved: every frame with a sane length is decoded or rejected, and streams of harmless messages are served."
  },
  {
   "property": "C45",
   "status": "proved",
   "theorems": [
    "RL.Remote.C45_order",
    "RL.Remote.C45_eof_sound",
    "RL.Remote.C45_eof_before_data",
    "RL.Remote.C45_spurious_eof",
    "RL.Remote.C45_spurious_eof_any"
   ],
   "note": "All schedules of receive loop and one reader. Two defects next to the claim are recorded as witnesses: end of input before buffered data, and end of input after an empty data message."
  },
  {
   "property": "C46",
   "status": "partial",
   "theorems": [
    "RL.Remote.C46_false_lost",
    "RL.Remote.C46_false_eof",
    "RL.Remote.C46_false_closed",
    "RL.Remote.C46_woken_partial",
    "RL.Remote.C46_data_partial",
    "RL.Remote.C46_eof_partial"
   ],
   "note": "False of the code: the wake-up signal is dropped when the reader has not blocked yet, and a broken connection wakes nobody. Proved: a reader already blocked is woken and returns."
  },
  {
   "property": "C47",
   "status": "partial",
   "theorems": [
    "RL.SvrW.C47_frames",
    "RL.SvrW.C47_peer",
    "RL.SvrW.C47_count",
    "RL.SvrW.C47_progress_partial",
    "RL.SvrW.C47_false_count",
    "RL.SvrW.C47_false_closed",
    "RL.CliW.C47_client"
   ],
   "note": "Frames and answers hold for all schedules of any number of writers. False of the code on the server side: the count is that of the frame (data + 6), and a Write after Close can wait for ever. The client side is proved completely."
  },
  {
   "property": "C48",
   "status": "partial",
   "theorems": [
    "RL.Stdin.C48_order",
    "RL.Stdin.C48_complete",
    "RL.Stdin.C48_fits",
    "RL.Stdin.C48_prompt",
    "RL.Stdin.C48_later",
    "RL.Stdin.C48_close",
    "RL.Stdin.C48_false_pending",
    "RL.Stdin.C48_input_lost"
   ],
   "note": "Proved for every schedule of any number of readers and closers: order, content, errors, no loss while open, progress after Close, end of input for every Read that starts after Close, idempotent Close. The clause about pending reads is false as stated: C48_false_pending shows a pending Read returning data after Close (select picks either ready case), and C48_input_lost shows the background reader swallowing input after Close."
  },
  {
   "property": "C49",
   "status": "partial",
   "theorems": [
    "RL.Fill.C49_order_partial",
    "RL.Fill.C49_complete_partial",
    "RL.Fill.C49_long_partial",
    "RL.Fill.C49_first_partial",
    "RL.Fill.C49_false_lost",
    "RL.Fill.C49_false_late"
   ],
   "note": "False as stated: C49_false_lost (a read shorter than the prefill discards the rest) and C49_false_late (WriteStdin returns before the bytes are stored, so real input may come first). Proved in every schedule: order, no duplication, all bytes when reads are long enough, prefill first once stored."
  },
  {
   "property": "C50",
   "status": "partial",
   "theorems": [
    "RL.Shut.C50_concurrent",
    "RL.Shut.C50_pending",
    "RL.Shut.C50_waits",
    "RL.Shut.C50_returns_partial",
    "RL.Shut.C50_false_hang",
    "RL.Shut.C50_false_stuck"
   ],
   "note": "False of the code: Close waits for the terminal loop, which may be blocked reading standard input (C50_false_hang), and a kick left over can leave it waiting for ever (C50_false_stuck). Proved in every schedule: the terminal is stopped at most once, a pending Readline can return the end of file, Close returns only after the loop ended; Close can return once the pending read has (C50_returns_partial)."
  },
  {
   "property": "C51",
   "status": "partial",
   "theorems": [
    "RL.Conf.C51_defaults",
    "RL.Conf.C51_once",
    "RL.Conf.C51_usable",
    "RL.Conf.C51_false_writer",
    "RL.Conf.C51_no_painter",
    "RL.Conf.C51_clone"
   ],
   "note": "Proved for every configuration except that a StdinWriter set by the caller is replaced (C51_false_writer)."
  },
  {
   "property": "C52",
   "status": "partial",
   "theorems": [
    "RL.Pw.C52_after_partial",
    "RL.Pw.C52_restored_partial",
    "RL.Pw.C52_file_partial",
    "RL.Pw.C52_false_prompt",
    "RL.Pw.C52_false_mask",
    "RL.Pw.C52_false_history"
   ],
   "note": "False as stated: prompt, mask and history can all differ afterwards (three witnesses). C52_after_partial says exactly what is left after the call; C52_restored_partial gives sufficient conditions for full restoration; C52_file_partial says what the history holds when there is a file."
  },
  {
   "property": "C53",
   "status": "partial",
   "theorems": [
    "RL.Pw.C53_partial",
    "RL.Pw.C53_memory_partial",
    "RL.Pw.C53_false"
   ],
   "note": "False as stated: C53_false is a schedule that writes the password to the instance's history and history file. C53_partial: in every schedule in which the configuration is switched back after the editing loop is done with the line, the instance's history does not depend on the passwords."
  },
  {
   "property": "C54",
   "status": "partial",
   "theorems": [
    "RL.C54_partial",
    "RL.C54_idle",
    "RL.C54_false_window"
   ],
   "note": "Proved for every reachable state in which Readline is waiting for keys, in plain, search and menu display. False of the code in the window between drawing the prompt and the terminal loop taking the kick (C54_false_window). The write is taken as atomic with respect to iterations of ioloop."
  },
  {
   "property": "C55",
   "status": "partial",
   "theorems": [
    "RL.Mem.C55_entries_kept_partial",
    "RL.Mem.C55_recall_copies",
    "RL.Mem.C55_false_edit",
    "RL.Mem.C55_false_submit"
   ],
   "note": "Slices are windows of arrays. Without search hits no editing command changes a stored entry or its pending edit, for all capacities. False after a search hit: the entry's own slice is put into the line, so deleting a rune of it (C55_false_edit), or with UniqueEditLine typing the next line (C55_false_submit), changes the stored entry. Commands that leave the line (C07) are excluded."
  },
  {
   "property": "C56",
   "status": "partial",
   "theorems": [
    "RL.Mem.C56_restore_partial",
    "RL.Mem.C56_false"
   ],
   "note": "Restore brings text and cursor back if every command in between works behind the saved text, only shortens the line, or comes after Set or Yank moved the line to another array. False in general: Backup keeps the array of the line, and deleting and typing overwrites it (C56_false)."
  },
  {
   "property": "C57",
   "status": "partial",
   "theorems": [
    "RL.C57_rejected",
    "RL.C57_rejected_ok",
    "RL.C57_translated",
    "RL.C57_listener_partial",
    "RL.C57_false_menu",
    "RL.C57_false_vim",
    "RL.C57_false_argument"
   ],
   "note": "Filter: all states, all filters. Listener: all states except the selection menu and vim's normal mode, where the code does not call it (witnesses). The argument of a vim command bypasses the filter (witness). Negative positions: C106."
  },
  {
   "property": "C58",
   "status": "partial",
   "theorems": [
    "RL.Chan.C58_once",
    "RL.Chan.C58_order_partial",
    "RL.Chan.C58_false_order",
    "RL.Chan.C58_false_callers"
   ],
   "note": "None lost, none duplicated, lines in order and errors in order: proved for all schedules and any number of callers (C58_once). Relative order of lines and errors is false of the code when a stale kick exists (C58_false_order, C58_false_callers); proved for one caller at a time with the channel discipline of C40 (C58_order_partial)."
  },
  {
   "property": "C59",
   "status": "partial",
   "theorems": [
    "RL.Locks.C59_progress_partial",
    "RL.Locks.C59_held",
    "RL.Locks.C59_false_painter"
   ],
   "note": "Proved for any number of goroutines and calls: every call in progress can be completed by calls in progress, no mutex is re-taken by its holder, all are released. Callbacks called with a mutex held (Painter, writers, FuncIsTerminal/FuncGetWidth) must not take Operation.m or the buffer mutex again: C59_false_painter shows the deadlock. Mutexes only; channels are in C50/C58; CancelableStdin.mutex is included as a mutex, waiting for input under it is not."
  },
  {
   "property": "C60",
   "status": "proved",
   "theorems": [
    "RL.C60_roundtrip",
    "RL.C60_standard",
    "RL.C60_newline",
    "RL.C60_decode"
   ],
   "note": ""
  },
  {
   "property": "C61",
   "status": "proved",
   "theorems": [
    "RL.C61_after_eof",
    "RL.C61_session"
   ],
   "note": "Blocking is Fault.block of the model: the waiting caller has no goroutine left to answer it."
  },
  {
   "property": "C62",
   "status": "partial",
   "theorems": [
    "RL.C62_command",
    "RL.C62_commands"
   ],
   "note": "All commands except where they crash (e/E on the last character of a word that ends the line, r at the end of the line; see C15) and j/k; no search or completion open, no filter, a listener that only looks on."
  },
  {
   "property": "C63",
   "status": "proved",
   "theorems": [
    "RL.C63_silent"
   ],
   "note": "The line editor (RuneBuffer); completion menus and search prompts write through other paths."
  },
  {
   "property": "C64",
   "status": "proved",
   "theorems": [
    "RL.C64_width"
   ],
   "note": ""
  },
  {
   "property": "C65",
   "status": "proved",
   "theorems": [
    "RL.Mem.C65_command",
    "RL.Mem.C65_runs_as_values"
   ],
   "note": "Commands for every memory layout in which line, killed text and argument have arrays of their own; sequences from a fresh instance, without search hits and Backup/Restore and without commands that leave the line (C07)."
  },
  {
   "property": "C66",
   "status": "partial",
   "theorems": [
    "RL.C66_search",
    "RL.C66_tidy",
    "RL.C66_banner",
    "RL.C66_accept",
    "RL.C66_false_underline"
   ],
   "note": "Proved for emacs keys and vim's insert mode without input filter. The underline part is false: a match in column 0 is not underlined (C66_false_underline); C66_banner says what is written."
  },
  {
   "property": "C67",
   "status": "proved",
   "theorems": [
    "RL.C67_session",
    "RL.C67_readline",
    "RL.C67_start",
    "RL.C67_start_file",
    "RL.C67_nosave",
    "RL.C67_false_cancel"
   ],
   "note": "Emacs keys or vim's insert mode, no input filter, a listener that does not change the line. C67_false_cancel shows a trace the notebook's keys cannot see but a search can."
  },
  {
   "property": "C68",
   "status": "partial",
   "theorems": [
    "RL.C68_list_partial",
    "RL.C68_open_partial",
    "RL.C68_cursor",
    "RL.C68_close",
    "RL.C68_highlight",
    "RL.C68_false_row",
    "RL.C68_false_column",
    "RL.C68_false_long",
    "RL.C68_slice"
   ],
   "note": "Terminal emulator of C17, printable single-cell runes, every candidate shorter than a row. The full statement is false: on lines of several rows the cursor comes back in the last column, a list of less than a row below a line that ends at the screen's edge (or is empty, with an empty prompt) makes the cursor go up one row too many, and a candidate longer than a row makes it go up too few; each with a concrete witness. The highlight (C68_highlight) is unrestricted."
  },
  {
   "property": "C69",
   "status": "partial",
   "theorems": [
    "RL.C69_transcript_partial",
    "RL.C69_line_partial",
    "RL.C69_end_partial",
    "RL.C69_unique_partial",
    "RL.C69_clear",
    "RL.C69_false_unique"
   ],
   "note": "Emacs keys (insert mode of vim) without Ctrl-T, history, Enter, Ctrl-C, Ctrl-D, Ctrl-G, Ctrl-Z, end of input; runes of one cell, no mask. Sessions with searches are C78, sessions with completion C93, with vim commands and Ctrl-T C94. Missing: wide runes. False with UniqueEditLine and Ctrl-C (C69_false_unique)."
  },
  {
   "property": "C70",
   "status": "partial",
   "theorems": [
    "RL.Win.C70_stream_partial",
    "RL.Win.C70_text",
    "RL.Win.C70_line_partial",
    "RL.Win.C70_false_default_colour",
    "RL.Win.C70_false_empty_colour",
    "RL.Win.C70_false_reset_colour",
    "RL.Win.C70_false_swallow",
    "RL.Win.C70_false_bracket",
    "RL.Win.C70_false_order",
    "RL.Win.C70_false_large",
    "RL.Win.C70_false_column",
    "RL.Win.C70_numbers",
    "RL.Win.C70_colours",
    "RL.Win.C70_malformed"
   ],
   "note": "False for several sequences, large buffers and the cursor column (C70_false_*). Proved: text without ESC for all bytes; streams of text and the sequences the library emits (cursor movement, erasing, single colours), cut anywhere, on buffers of at most 32768 cells; a line drawn and edited by any commands, with runes of one cell, as long as it does not reach the end of the buffer."
  },
  {
   "property": "C71",
   "status": "partial",
   "theorems": [
    "RL.Tty.C71_raw",
    "RL.Tty.C71_during",
    "RL.Tty.C71_restored",
    "RL.Tty.C71_close_partial",
    "RL.Tty.C71_false_close",
    "RL.Tty.C71_false_two",
    "RL.Tty.C71_password",
    "RL.Tty.C71_after_password_partial",
    "RL.Tty.C71_false_echo",
    "RL.Tty.C71_windows_partial",
    "RL.Tty.C71_false_linefeed",
    "RL.Tty.C71_exit",
    "RL.Tty.C71_windows_raw",
    "RL.Tty.C71_windows_mode"
   ],
   "note": "False for ReadPassword(fd) on Unix (a pointer is copied, echo stays off), for Close after the program changed the settings, for two calls at once, and on Windows for passwords of length 15 modulo 16 (the line feed stays in the input). Proved: raw mode and everything it leaves alone for all settings and platform constants, restoration over any number of calls and suspensions, the password itself for all lengths, what ReadPassword leaves changed."
  },
  {
   "property": "C72",
   "status": "partial",
   "theorems": [
    "RL.Win.C72_keys_partial",
    "RL.Win.C72_false_surrogates",
    "RL.Win.C72_false_repeat",
    "RL.Win.C72_false_keys",
    "RL.Win.C72_false_altgr",
    "RL.Win.C72_false_ctrl",
    "RL.Win.C72_false_alt_tab"
   ],
   "note": "False for characters outside the Basic Multilingual Plane, repeat counts, Home/End/Delete, AltGr brackets, Ctrl with letters other than A, E, R, S, and Alt released in another window (C72_false_*). Proved through the reader, UTF-8 and the key decoder, for all other sequences of presses and all events in between, in emacs and vim mode."
  },
  {
   "property": "C73",
   "status": "partial",
   "theorems": [
    "RL.C73_windows_partial",
    "RL.C73_terminal_partial",
    "RL.C73_false_terminal",
    "RL.C73_false_up",
    "RL.C73_false_windows"
   ],
   "note": "False: the sequence written is a control sequence without an end, so the title is never set. Proved: on Windows titles without seven letters leave the console alone; on a terminal exactly the text behind the first letter of the title is printed."
  },
  {
   "property": "C74",
   "status": "proved",
   "theorems": [
    "RL.C74_runs",
    "RL.C74_session",
    "RL.C74_example"
   ],
   "note": "Any number of runs, any bytes that encode keys of the notebook; the bytes may end inside a sequence. Lines submitted must be empty or storable (C23), the limit at least 2, auto-save on."
  },
  {
   "property": "C75",
   "status": "partial",
   "theorems": [
    "RL.C75_redraw_partial",
    "RL.C75_cursor_partial",
    "RL.C75_commands_partial",
    "RL.C75_start",
    "RL.C75_false_cursor",
    "RL.C75_false_edge",
    "RL.C75_false_combining"
   ],
   "note": "False of the code: one backspace is written per rune instead of per column (C75_false_cursor, C75_false_combining), and SplitByLine places a wide rune that does not fit into the row differently from a terminal (C75_false_edge). Proved: as long as no wide rune is cut by the edge and the cursor is at the end or the line takes one row, the text shown is right and the cursor is right exactly if every rune at or behind it takes one column."
  },
  {
   "property": "C76",
   "status": "partial",
   "theorems": [
    "RL.C76_readline_partial",
    "RL.C76_session_partial",
    "RL.C76_start",
    "RL.C76_false_lost",
    "RL.C76_false_record",
    "RL.C76_false_repeat"
   ],
   "note": "False of the code: commands of normal mode other than h, l, j and k do not note the line in the history, so j and k lose the change (C76_false_lost) and Enter on a recalled entry records the old text (C76_false_record, C76_false_repeat). Proved with that reservation for whole sessions: results, stored entries, pages and line are those of the book; if the line is noted when Enter is pressed, Enter does what it does in C67 (Book.submitted_eq)."
  },
  {
   "property": "C77",
   "status": "partial",
   "theorems": [
    "RL.C77_runs_partial"
   ],
   "note": "Composition of C38, C74 and C69, with the restrictions of C69: emacs keys without Ctrl-T, search, completion and Ctrl-L, runes of one cell, no mask, no UniqueEditLine. The terminal reads the characters written (their UTF-8 encoding is C60)."
  },
  {
   "property": "C78",
   "status": "partial",
   "theorems": [
    "RL.C78_refresh_partial",
    "RL.C78_transcript_partial",
    "RL.C78_line_partial",
    "RL.C78_end_partial",
    "RL.C78_false_row",
    "RL.C78_false_long",
    "RL.C78_false_wrapped",
    "RL.C78_false_mark"
   ],
   "note": "The banner and the line found are all the screen shows during a search, and whole sessions with searches leave exactly one paragraph per result, for all widths, prompts, histories and keys, as long as each search has room (RoomFor). False without room: four concrete counterexamples. Completion, vim mode and Ctrl-T in the same session: C95. Ctrl-L: C101. Missing: wide runes, masks; terminal attributes (underline) are not part of the emulator; histories are values as in C33 (aliasing of a hit that is edited: C55)."
  },
  {
   "property": "C79",
   "status": "partial",
   "theorems": [
    "RL.C79_no_crash_partial",
    "RL.C79_session",
    "RL.C79_readline",
    "RL.C79_same_results",
    "RL.C79_screen_partial",
    "RL.C79_false_two",
    "RL.C79_false_prompt",
    "RL.C79_false_menu",
    "RL.C79_false_rows"
   ],
   "note": "Safety for all sessions of C15 with any width changes (editing, search, menu); results and history of C67's sessions do not depend on the widths; on a rewrapping terminal the keys of C69 show the line in the new width. False: four counterexamples. Missing: the keys excluded in C15; widths in which the prompt fills whole rows; the callback running in the middle of a key (in the code it runs in another goroutine without a lock). Results of sessions with completion, search and vim commands under width changes: C99."
  },
  {
   "property": "C80",
   "status": "partial",
   "theorems": [
    "RL.C80_session",
    "RL.C80_readline",
    "RL.C80_false_stale",
    "RL.C80_dismiss"
   ],
   "note": "Every key of a session with completion, in each of the three modes of the list, over any number of calls. False: Ctrl-K leaves a stale list open. Missing: moves in a list without columns and Ctrl-K while a candidate is highlighted (both can crash, C15); search, vim commands and a listener that edits the line."
  },
  {
   "property": "C81",
   "status": "partial",
   "theorems": [
    "RL.C81_transcript_partial",
    "RL.C81_line_partial",
    "RL.C81_end_partial",
    "RL.C81_false_tall"
   ],
   "note": "The screen is a window on the transcript at every moment, the window moves no further than the tallest line requires, cursor exact if it is in the window. False: the cursor of a line taller than the screen. Missing: what is missing in C69 (Ctrl-L, UniqueEditLine; search, completion lists and vim commands are in C96)."
  },
  {
   "property": "C82",
   "status": "partial",
   "theorems": [
    "RL.C82_session_partial",
    "RL.C82_readline_partial",
    "RL.C82_recorded",
    "RL.C82_start",
    "RL.C82_false_record",
    "RL.C82_false_full"
   ],
   "note": "Every key of a session with completion and search, over any number of calls; what Enter during a search records is described exactly, and is the line if the page was last edited to what it shows. False: in general Enter during a search records something else; a search as first key in a full history loses its place. Missing: searches with less than two pages or in an over-full history, the cases missing in C80, vim commands."
  },
  {
   "property": "C83",
   "status": "partial",
   "theorems": [
    "RL.C83_program_partial",
    "RL.C83_start",
    "RL.C83_false_path",
    "RL.C83_false_password",
    "RL.C83_false_auto",
    "RL.C83_false_add",
    "RL.C83_config"
   ],
   "note": "Every program of such calls behaves like the shelf, which says exactly what AddHistory and SetAutoComplete do. False: Instance.SetHistoryPath does not use the file; ReadPassword then mixes two files; SetAutoComplete forgets a history without file; AddHistory may record something else. Missing: files that cannot be opened, Password among the calls, two histories on one file, the cases missing in C82."
  },
  {
   "property": "C84",
   "status": "partial",
   "theorems": [
    "RL.C84_alone",
    "RL.C84_sessions_partial",
    "RL.C84_kept_partial",
    "RL.C84_whole_partial",
    "RL.C84_false_detached",
    "RL.C84_false_window",
    "RL.C84_false_tmp",
    "RL.C84_false_mixed"
   ],
   "note": "Exact behaviour if sessions begin one at a time; nothing lost while the file is within the limit; the file whole at every moment if no two sessions replace it at the same time. False otherwise (four schedules). Missing: errors of the file system other than a missing temporary file; an append torn by the system."
  },
  {
   "property": "C85",
   "status": "partial",
   "theorems": [
    "RL.C85_line",
    "RL.C85_demo",
    "RL.C85_doc",
    "RL.C85_study_partial",
    "RL.C85_false_slice"
   ],
   "note": "For all sessions, with no assumption; with C82 the keys determine what the loop gets (that one with the restrictions of C82). False of ReadSlice."
  },
  {
   "property": "C86",
   "status": "partial",
   "theorems": [
    "RL.C86_picture",
    "RL.C86_determines",
    "RL.C86_false_dynamic",
    "RL.C86_false_names"
   ],
   "note": "Proved as stated. False of dynamic items (not drawn). Missing: implementations of PrefixCompleterInterface other than PrefixCompleter."
  },
  {
   "property": "C87",
   "status": "partial",
   "theorems": [
    "RL.C87_same",
    "RL.C87_width",
    "RL.C87_false_tab"
   ],
   "note": "Proved for all functions but the width of a tab, where the claim is false."
  },
  {
   "property": "C88",
   "status": "partial",
   "theorems": [
    "RL.Cli.C88_sent",
    "RL.Cli.C88_input",
    "RL.Cli.C88_calm_partial",
    "RL.Cli.C88_output",
    "RL.Cli.C88_raw",
    "RL.Cli.C88_session_partial",
    "RL.Cli.C88_false_eof",
    "RL.Cli.C88_false_swallow",
    "RL.Cli.C88_false_width",
    "RL.Cli.C88_false_raw"
   ],
   "note": "Order and content of input and output and the settings: all schedules, all cuts (output: no two calls of Readline at once). That the end of input comes after all bytes, and so the results of the calls: only in schedules in which a message is handled while the reader waits or is not reading; false in others (C88_false_eof, C45_eof_before_data). Missing in the session: what is missing in C74."
  },
  {
   "property": "C89",
   "status": "partial",
   "theorems": [
    "RL.C89_partial",
    "RL.C89_false"
   ],
   "note": "The claim is false; proved is exactly which runes are accepted wrongly, and that none is rejected wrongly."
  },
  {
   "property": "C90",
   "status": "partial",
   "theorems": [
    "RL.Spec.C90_decoded",
    "RL.C90_session_partial",
    "RL.C90_false_interrupt",
    "RL.C90_false_tab",
    "RL.C90_false_transpose",
    "RL.C90_false_word",
    "RL.C69_clear"
   ],
   "note": "The claim is false for Ctrl-C, for Tab in complete select mode, for Meta-T and for Ctrl-W in the first word. Proved for the other rows as relations DocEdit, DocKey and DocEnd, with a completer and a history file; Ctrl-L is C69_clear."
  },
  {
   "property": "C91",
   "status": "partial",
   "theorems": [
    "RL.C91_width",
    "RL.C91_zero_start",
    "RL.C91_zero_partial",
    "RL.C91_negative_start",
    "RL.C91_climbs",
    "RL.C91_false_climbs",
    "RL.C91_false_left"
   ],
   "note": "The claim is false for negative widths (the line climbs, exactly n(n-1)/2 rows for n runes typed) and whenever the cursor is not at the end (the redraw hangs). Proved for width 0 with the cursor at the end, two columns free, single-cell runes, no mask."
  },
  {
   "property": "C92",
   "status": "partial",
   "theorems": [
    "RL.C92_commands",
    "RL.C92_commands_unique",
    "RL.C92_multiline_partial",
    "RL.C92_start",
    "RL.C92_restart_partial",
    "RL.C92_example",
    "RL.C92_false_recall"
   ],
   "note": "The claim is false if the last line of a command was entered on another page of the history than the last: SaveHistory then records that page's draft. Proved for all other sessions over the keys of C67 (no completion, no search, no vim mode)."
  },
  {
   "property": "C93",
   "status": "partial",
   "theorems": [
    "RL.C93_transcript_partial",
    "RL.C93_end_partial",
    "RL.C93_line_partial",
    "RL.C93_false_kill",
    "RL.C93_false_end"
   ],
   "note": "The claim is false for Ctrl-K and the end of the input while a list is open, and for lists that do not fit (C68's exceptions). Proved for all other sessions over the keys of C69 plus Tab with a completer (search, vim mode and Ctrl-T in the same session: C95; Ctrl-L: C101; candidates of one-cell runes). The column of the cursor while a list is open is only right if the line up to the cursor fits in a row (C68_false_column)."
  },
  {
   "property": "C94",
   "status": "partial",
   "theorems": [
    "RL.C94_transcript_partial",
    "RL.C94_end_partial",
    "RL.C94_line_partial",
    "RL.C94_false_replace",
    "RL.C94_false_transpose"
   ],
   "note": "The claim is false for r followed by anything but a one-cell rune, and for Ctrl-T at the end of a line of one rune. Proved for all other sessions over the keys of C69 plus ESC (vim mode) and Ctrl-T; every command of normal mode is covered, with all its second keys. Search and completion in the same session: C95. Ctrl-L: C101. Not covered: wide runes, masked lines."
  },
  {
   "property": "C95",
   "status": "partial",
   "theorems": [
    "RL.C95_transcript_partial",
    "RL.C95_end_partial",
    "RL.C95_line_partial",
    "RL.C95_false_tab",
    "RL.C95_false_search",
    "RL.C95_false_escape",
    "RL.C95_false_escapeList",
    "RL.Op.iter_shaped"
   ],
   "note": "The claim is false where two modes meet (four counterexamples) and in the situations that make C78, C93 and C94 false. Proved for all other sessions over the keys of C69, C78, C93 and C94. Ctrl-L: C101. Not covered: Ctrl-T during a search or with a list open, wide runes, masked lines."
  },
  {
   "property": "C96",
   "status": "partial",
   "theorems": [
    "RL.C96_transcript_partial",
    "RL.C96_end_partial",
    "RL.C96_line_partial",
    "RL.C96_false_list",
    "RL.Op.readline_pre",
    "RL.never_above"
   ],
   "note": "The claim is false for a list of candidates as tall as the screen (counterexample). Proved for all sessions covered by C95 in which the cursor never goes up by the height of the screen or more, which is a condition on the output of the calls. Not covered: what C95 does not cover, and what such a tall list leaves behind after it is closed."
  },
  {
   "property": "C97",
   "status": "partial",
   "theorems": [
    "RL.C97_session_partial",
    "RL.C97_results_partial",
    "RL.C97_blotted_partial",
    "RL.C97_false_search",
    "RL.C97_false_history",
    "RL.C97_false_words"
   ],
   "note": "The claim is false for Ctrl-R and Ctrl-S (counterexample: the found part of the password is drawn in clear) and for a masked prompt with an ordinary history. Proved for all other keys of the emacs mode, all states and all moments of all sessions, with a history that records nothing. Not covered: vim mode, completers, input filters and listeners that change the line at a masked prompt."
  },
  {
   "property": "C98",
   "status": "partial",
   "theorems": [
    "RL.C98_redraw_partial",
    "RL.C98_commands_partial",
    "RL.C98_start_partial",
    "RL.C98_cursor_iff",
    "RL.C98_false_cursor",
    "RL.C98_false_edge"
   ],
   "note": "The claim is false when a tab is at or after the cursor and when a tab meets the edge of the screen (counterexamples). Proved for all command sequences on lines that stay in one row: the row shows the expanded line, and the terminal's cursor is right exactly if no tab is at or after the editing cursor. Not covered: lines of several rows in which no tab meets the edge, painters other than the default one."
  },
  {
   "property": "C99",
   "status": "partial",
   "theorems": [
    "RL.C99_key_partial",
    "RL.C99_readline_partial",
    "RL.C99_session_partial",
    "RL.C99_start",
    "RL.C99_false_menu",
    "RL.C99_false_width",
    "RL.C99_false_prompt"
   ],
   "note": "The claim is false for menu keys that move by rows and columns, for windows of width 0, and where a key crashes or spins on one display (counterexamples). Proved for all other keys and all pairs of runs that both return. C79_no_crash_partial and C15 say when a key returns."
  }
 ]
}