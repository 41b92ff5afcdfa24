# Formal model of chzyer/readline in Lean 4

## Layout

* `lean/Verif/Model/*`   the model: one Lean definition per Go function, each citing `/repo` file and lines.
* `lean/Verif/Spec/*`    small independent specifications (text editor, occurrence, wrapping, screen, ...).
* `lean/Verif/Proofs/*`  helper lemmas.
* `lean/Verif/Props/*`   the property theorems (named `Cnn_...`) with non-vacuity examples. Nothing else.
* `properties.jsonl`, `MANIFEST.json`, `seeded/LOG.jsonl`.

## Modelling conventions

* `rune` is `Int` (Meta keys are negative runes in the code), `[]rune` is `List Rune`.
  Go `int`/`int64` are unbounded integers; overflow of 64-bit counters is not modelled.
  `int32`/`int16` on the wire are modelled with their real ranges.
* A Go run-time panic, an endless loop and a blocked channel operation are explicit outcomes:
  `R α := Except Fault α` with `Fault = panic | hang | block`.
* Pointers into the history list are identifiers, so that a pointer to a removed element is representable.
* Callbacks (completer, listener, painter, filter) are arbitrary pure functions, universally quantified.
* Unicode range tables (`Mn, Me, Cc, Cf, Han, Hangul, Hiragana, Katakana`, `unicode.IsNumber`) are an arbitrary
  parameter `U : UTables`; a theorem that needs a fact about ASCII takes it as an explicit hypothesis that a concrete
  table is shown to meet.
* Output to the terminal is a sequence of runes/escape characters (one list element per character), not UTF-8 bytes.
* Slices are values (`List`) except in `Model/Heap*`, where slices are (array, offset, length, capacity) over an explicit
  heap with Go's `append`/`copy` semantics; used for the aliasing properties.
* Goroutines are transition systems; a theorem about "all schedules" is an induction over the reachable states.

## Trusted base

* Lean 4.33.0's kernel (every module is replayed by it), and its standard library. Mathlib is not imported by any file.
* Axioms: only Lean's own `propext`, `Quot.sound` and `Classical.choice`. None are added, and no proof uses `sorry`,
  `native_decide` or `bv_decide`. The section "Axioms" lists what each theorem uses; `tools/axioms.py` regenerates it.
* That the model says what the Go code does. Each definition in `Model/` cites the lines it transcribes, so it can be compared
  with the source line by line; nothing was executed. Simplifications are listed below.
* That the specifications in `Spec/` and the statements in `Props/` say what is meant. They are written without the model's
  helper functions wherever the property speaks about behaviour.
* For the terminal display (C17, C54, C68, C69): that the terminal behaves like `Spec/Screen.lean` (deferred automatic wrap, the control
  sequences the code emits, no scrolling); for C81 and C96, that it behaves like `Spec/Scroll.lean` (the same with `h` rows and
  scrolling); for C75, that it behaves like `Spec/Wide.lean` (in addition: wide characters take two
  cells and are not split between rows, characters without width join the one before).
* For the Windows console (C70): that it behaves like `Spec/Console.lean` (immediate wrap, scrolling at the end of the buffer, cursor
  positions outside the buffer refused, one cell per character).
* For interleavings: that Go's channels, mutexes and atomics behave as the transition systems say (unbuffered and buffered
  channels, `select` choosing any ready case, a mutex as in `Model/Locks.lean`).

## What is modelled

| file | modelled | not modelled |
|------|----------|--------------|
| runes.go | everything except the trivial `Backspace` | the contents of Go's Unicode tables (parameter `U`) |
| runebuf.go | every editing method, `output`, `getBackspaceSequence`, `clean`, `SetStyle`, `Print`, `Refresh` | `SetOffset` (its field is never read) |
| history.go | every function except `debug` and `IsHistoryClosed`; several sessions on one file (C84) | `fsync`; errors of the file system other than those named |
| search.go | everything | |
| operation.go | `ioloop` as one step per key, all accessors that matter for the line, history and configuration | output wrappers beyond `wrapWriter` |
| complete.go, complete_helper.go, complete_segment.go | candidate computation, menu, navigation, display, `Tree` | cyclic completer trees |
| runes/runes.go (deprecated) | everything except `Copy` | |
| examples | the loops of readline-im and readline-demo around `Readline` (C85), readline-multiline (C92) | the rest of the programs |
| vim.go | everything | |
| terminal.go | `ioloop` (key decoder, kick protocol), `Close`, `WriteStdin`, `SleepToResume` (what it does to the settings), `GetOffset` and `sizeChan` | the signal itself |
| utils.go | key constants, `escapeKey`, `escapeExKey`, `escapeSS3Key`, `readEscKey`, `SplitByLine`, `LineCount`, `IsWordBreak`, `RawMode` (`WaitForResume` as a loop over the times of its ticks) | |
| readline.go | `Config.Init`, `NewEx`, `Close`, `Readline`, `ReadlineWithDefault`, `ReadSlice`, `Line` and `Result`, `WriteStdin`, history switches, `Clone`, `SetConfig`, `SetVimMode` (C107) | `CaptureExitSignal` |
| password.go | all of it, in `Model/Password.lean` and `Model/PassTty.lean` | |
| std.go | `CancelableStdin`, `FillableStdin`, `Line`, `AddHistory`, `SetHistoryPath`, `SetAutoComplete`; which goroutines `getInstance` and `Password` start (C110) | the once-only guard of `getInstance`; for what `Password` reads see `ReadPassword` |
| remote.go | message codec, `RemoteSvr` reading and writing, `RemoteCli`: `ServeBy` with `io.Copy`, writing, reading, raw mode | dialling and listening, `net.Conn` deadlines, the allocation of a huge declared length |
| ansi_windows.go | everything; its mutex is in `Model/Locks.lean` | failing console calls other than a cursor position out of range |
| term.go, term_windows.go | `MakeRaw`, `Restore`, `ReadPassword` in `Model/Tty.lean` | system calls (the settings are one value that can be read and written, or refuses); `IsTerminal`, `GetSize` |
| rawreader_windows.go | everything | failing console calls; the position of Ctrl and Alt at the start |
| utils_unix.go | `DefaultOnWidthChanged` (its registration and effect, in `Model/Resize.lean`), `getWidth`, `GetScreenWidth`, `DefaultIsTerminal` (`Model/Width.lean`) | system calls, the moment of the callback within a key |
| other *_windows.go | | system calls |

Further simplifications:

* Drawing in `operation.go` and `runebuf.go` is a list of tokens; C17 interprets them as characters on a screen.
* Go `int` is unbounded. Positions returned by a `Listener` are `Nat` in `Model/Operation.lean`; negative ones are in `Model/Negative.lean` (C106).
* `Terminal.ioloop` reads runes; an interrupted read (EINTR) can happen only between runes.
* Completer trees are finite (they come from `PcItem`).
* History files: distinct paths are distinct files; a write is a sequence of byte appends that may stop anywhere (crash).
* A write through `wrapWriter` is atomic with respect to iterations of `ioloop` (they share `Operation`'s and the buffer's mutex).
* C59: `CancelableStdin.mutex` counts as released at once, although it is held while the reader waits for input (C48, C50).
* History theorems other than C55, C56 and C65 treat texts as values. C65 proves that this is right as long as no edit follows a
  search hit; C55_false_edit shows what happens otherwise.
* `UTables`: theorems that need printable ASCII to have width one take it as a hypothesis; `U0` in the examples meets it.

## Where the code does not do what was asked

Each line is a theorem about a concrete run (checked by evaluation in the kernel), next to a `_partial` theorem that says what holds.

| defect | witness |
|--------|---------|
| Ctrl-T at the end of a one-rune line moves the cursor out of the line; the next key panics | `C07_false`, `C13_false`, `C15_crash_transpose` |
| Ctrl-W on the first word erases the whole line and does not keep the cut text | `C10_false`, `C11_false` |
| vim `e` on the last rune of a word at the end of the line, `r` at the end of the line: panic | `C15_crash_vim_keys`, `C07_triggers_are_real` |
| Redrawing never ends if the prompt width is a multiple of the screen width | `C16_false`, `C15_hang_prompt` |
| Redraw misplaces the cursor: empty line with a prompt one column short of the screen; masked lines | `C17_false_prompt`, `C17_false_mask`, `C17_false_mask_cursor` |
| Cancelling the first search of a fresh instance: nil dereference | `C15_crash_search_cancel`, `C28_false_nil` |
| Ctrl-R pressed again forgets the original line; cursor not restored | `C28_false_again`, `C28_false_cursor` |
| Ctrl-K and others in the selection menu: division by zero; narrow screens | `C15_crash_menu_kill`, `C15_crash_menu_narrow` |
| vim ESC inside menu or search | `C15_crash_vim_menu`, `C15_crash_vim_search`, `C28_false_vim` |
| The line recorded is not the line submitted (search, vim, first empty line) | `C33_false_search`, `C33_false_vim`, `C33_false_first` |
| Recalled and edited entries: a stale edit is recorded | `C19_stale_edit` |
| History exceeds its limit after reopening, by any number; empty first line recorded | `C20_false`, `C20_false_unbounded`, `C22_false` |
| A torn last line swallows the next entry; full disk loses entries on rewrite | `C24_glued`, `C25_disk_full` |
| Ctrl-D in vim normal mode stalls the reader; so do Ctrl-J and filters that translate Enter | `C31_vim_normal`, `C40_stall_vim`, `C40_stall_filter` |
| In vim mode arrow keys are not decoded; Delete with a modifier; private markers | `C38_false_vim`, `C38_false_delete`, `C39_false` |
| Remote: short length or report crashes the server | `C44_false_length`, `C44_false_report` |
| Remote: lost wake-ups, end of input before data, wrong byte count, hanging Write | `C45_*`, `C46_false_*`, `C47_false_*` |
| CancelableStdin: data after Close, swallowed input | `C48_false_pending`, `C48_input_lost` |
| FillableStdin: bytes lost, prefill late | `C49_false_lost`, `C49_false_late` |
| Close can hang | `C50_false_hang`, `C50_false_stuck` |
| Config.Init replaces the caller's StdinWriter | `C51_false_writer` |
| ReadPassword changes prompt, mask, history; a password can reach the history file | `C52_false_*`, `C53_false` |
| Output printed while the prompt is being drawn is erased | `C54_false_window` |
| Editing an entry found by search changes the stored entry | `C55_false_edit`, `C55_false_submit` |
| Restore returns corrupted text | `C56_false` |
| Listener and filter bypassed by menu and vim keys | `C57_false_*` |
| Results out of order after a stale kick | `C58_false_order`, `C58_false_callers` |
| A painter that calls back into the instance deadlocks | `C59_false_painter` |
| After the end of input a second Readline never returns | `C61_after_eof` |
| A search match that starts in column 0 of the line is not underlined | `C66_false_underline` |
| Cancelling the first line of an instance without history leaves its first rune where a search finds it | `C67_false_cancel` |
| With DisableAutoSaveHistory the next line starts on the page recalled for the previous one | `C67_nosave` |
| The list of candidates below a line of several rows leaves the cursor in the last column (`ESC [ n C` by the position in the text) | `C68_false_column` |
| A list of less than a row, below a line that ends at the edge of the screen or is empty with an empty prompt, moves the cursor up a row too many (`ESC [ 0 A`); the next key erases what was above | `C68_false_row` |
| With a candidate longer than a row the rows of the list are not counted; the line is drawn again inside the list | `C68_false_long` |
| With `UniqueEditLine`, Ctrl-C on a line of several rows leaves the upper rows on the screen | `C69_false_unique` |
| Windows: `ESC[39m`, `ESC[49m` crash; `ESC[m` is black on black; `ESC[0;31m` is white | `C70_false_default_colour`, `C70_false_empty_colour`, `C70_false_reset_colour` |
| Windows: any other control sequence swallows the text behind it; a stray ESC turns a later bracket into a sequence | `C70_false_swallow`, `C70_false_bracket` |
| Windows: an unreadable colour sequence is printed after what follows it | `C70_false_order` |
| Windows: erasing below counts in 16 bits; on large buffers it erases too little or nothing | `C70_false_large` |
| Windows: the cursor is in column 0 whenever it is not in the last row of the line | `C70_false_column` |
| `terminal.ReadPassword` on Unix copies a pointer where it means the settings: echo stays off afterwards | `C71_false_echo` |
| `Close` undoes what the program changed since the last call; two calls at once leave the terminal in raw mode | `C71_false_close`, `C71_false_two` |
| Windows: after a password of 15 characters (31, 47, ...) the next line read is empty | `C71_false_linefeed` |
| Windows: characters outside the BMP arrive as two replacement characters; repeat counts are ignored; Home, End, Delete do nothing | `C72_false_surrogates`, `C72_false_repeat`, `C72_false_keys` |
| Windows: `[` typed with AltGr begins a sequence and is lost with the next character; Alt stays down after Alt-Tab; Ctrl is translated for four capital letters only | `C72_false_altgr`, `C72_false_alt_tab`, `C72_false_ctrl` |
| `SetTitle` writes `ESC [` where `ESC ]` is meant: part of the title appears on the screen | `C73_false_terminal`, `C73_false_up`, `C73_false_windows` |
| Stepping back over a wide rune writes one backspace, so the cursor is shown one column too far to the right for each wide rune at or behind it; over a combining rune it goes back too far | `C75_false_cursor`, `C75_false_combining` |
| A wide rune that does not fit into the rest of a row is counted in the wrong row: a later key leaves a copy of the first row on the screen | `C75_false_edge` |
| Changes made by commands of vim's normal mode (all but `h`, `l`, `j`, `k`) are not noted in the history: `k` and `j` lose them | `C76_false_lost` |
| After such a change on a recalled entry, Enter returns the changed line but records the unchanged entry again, even directly after itself | `C76_false_record`, `C76_false_repeat` |
| Ctrl-R on a line that ends at the edge of the screen, or on an empty line without a prompt, writes the banner over that row and moves the cursor up a row; the next key erases what is above | `C78_false_row` |
| A search banner longer than a row leaves the cursor a row too low, and the line is drawn a second time | `C78_false_long` |
| Underlining a match that runs over the edge of the screen, or starts in an earlier row, draws the line twice or writes the match over other text of the line | `C78_false_wrapped`, `C78_false_mark` |
| When the window is resized to a width that divides the width of the prompt, the next key that redraws never returns | `C79_false_prompt` |
| When the window gets narrower than a candidate while the menu is open, moving in the menu divides by zero | `C79_false_menu` |
| A change of the width draws nothing and the next key counts rows in the new width: on a terminal that does not rewrap, rows above the prompt are overwritten or the line is left on the screen twice | `C79_false_rows` |
| Of two instances only the one created last learns of a new width | `C79_false_two` |
| Ctrl-K leaves the list of candidates open for a text that is gone; typing it again highlights candidates meant for another place in the line, and Enter inserts one | `C80_false_stale` |
| On a line taller than the screen the cursor is shown on a wrong rune when the editing cursor has left the screen at the top | `C81_false_tall` |
| A line accepted with Enter during a search is returned but not recorded: an empty entry, or an old draft of that page, is stored and written to the file instead | `C82_false_record` |
| With a history file as long as the limit, a search as the first thing in a session can end on an element that the next key removes; Ctrl-P and Ctrl-N are then stuck | `C82_false_full` |
| `Instance.SetHistoryPath` closes the history in use and makes an empty one that neither loads nor writes the file it was given; `Ctrl-R` goes on searching the old one | `C83_false_path` |
| After `Instance.SetHistoryPath` a `ReadPassword` (or any change of configuration and back) brings the old history back and appends the entries of the new file to it, with an empty entry between | `C83_false_password` |
| `SetAutoComplete` of the package forgets all history if there is no history file | `C83_false_auto` |
| `SaveHistory` and `AddHistory` after a recalled line record the recalled line instead of their argument, if lines are not saved automatically | `C83_false_add` |
| A session that began before another one shortened the history file goes on writing to the file that was replaced: its lines are lost | `C84_false_detached` |
| A line recorded while another session shortens the history file is lost | `C84_false_window` |
| Two sessions that shorten the history file at the same time share the temporary file: the history may end up empty | `C84_false_tmp` |
| … or with its lines doubled or torn | `C84_false_mixed` |
| `ReadSlice`, documented as the same as `Readline`, does not return the text that Ctrl-C gave up | `C85_false_slice` |
| `Tree` does not draw dynamic items and draws what is below them as if it were below their parent | `C86_false_dynamic` |
| `Width` of the deprecated package gives a tab no width | `C87_false_tab` |
| A `Read` of a remote terminal can report the end of input while the connection is open and more is coming: data taken before its signal was sent | `Cli.C88_false_eof` |
| After the connection broke, the client goes on reading what the user types and throws it away (`Write` reports success to `io.Copy`) | `Cli.C88_false_swallow` |
| A client without a terminal reports the width 65535 | `Cli.C88_false_width` |
| A server that enters raw mode twice leaves the client's terminal raw for ever | `Cli.C88_false_raw` |
| `IsPrintable` accepts Delete, the C1 controls, low surrogates and numbers beyond U+10FFFF | `C89_false` |
| Ctrl-C is documented to send `io.EOF`; `Readline` returns `ErrInterrupt` | `C90_false_interrupt` |
| Tab is documented to use the highlighted candidate; it moves to the next one | `C90_false_tab` |
| Meta-T types a `t`; Escape Ctrl-T puts the rune -5 into the line | `C90_false_transpose` |
| Width unknown (-1): every redraw climbs one row per rune in front of the cursor and erases what was there | `C91_climbs`, `C91_false_climbs` |
| Width unknown (0 or -1): moving the cursor left hangs | `C91_false_left` |
| Program that saves commands of several lines: if the last line was recalled from the history, `SaveHistory(command)` records that line instead of the command | `C92_false_recall` |
| Ctrl-K while a list of candidates is open: the list is drawn again with the candidates for the line before the kill | `C93_false_kill` |
| The input ends while a list of candidates is open: after the line is returned, an empty line with its prompt is drawn below it | `C93_false_end` |
| vim: `r` followed by a control character (ESC, to change one's mind) or by the end of the input puts that character into the line; an ESC in the line then swallows the characters after it on the terminal | `C94_false_replace` |
| Tab during a search: the list is drawn, then erased by the end of the search; the completion is on, but nothing shows it | `C95_false_tab` |
| Ctrl-R or Ctrl-S with a list open: the banner is drawn, then erased by the end of the completion; the search is on, but nothing shows it | `C95_false_search` |
| vim: ESC during a search or with a list open does not end it; the next command of normal mode erases the banner or the list, and search or completion stays on unseen | `C95_false_escape`, `C95_false_escapeList` |
| A list of candidates as tall as the screen pushes the line off the screen; the cursor ends up in the row of a candidate | `C96_false_list` |
| At a password prompt Ctrl-R and Ctrl-S search the password typed so far, and the part found is shown in clear | `C97_false_search` |
| At a masked prompt with an ordinary history the history keys show whether two lines were the same | `C97_false_history` |
| With a tab at or after the cursor, the terminal's cursor is too far to the right | `C98_false_cursor`, `C98_cursor_iff` |
| A tab that meets the edge of the screen is counted as the end of the row; redraws then start in the wrong row | `C98_false_edge` |
| Which candidate of the menu is chosen by Ctrl-N and Ctrl-P depends on the width of the window | `C99_false_menu` |
| In a window of width 0 Ctrl-R does not start a search and what is typed for the search becomes the line | `C99_false_width` |
| With the default mask (rune 0) Left in a password moves the terminal's cursor into the prompt, two columns for each rune | `C100_false_cursor`, `C100_cursor_iff` |
| A password of wide runes erases the row above the prompt although it is shown in one row | `C100_false_wide` |
| The hints of Ctrl-C and Ctrl-D are written into a masked line and masked with it; with `GenPasswordConfig` and a visible mask an interrupted password is shown one mask rune too long | `C102_false_hint`, `C102_false_interrupt` |
| With the history off, `New` returns before it moves back to the end and advances the version: an entry that was recalled and submitted reads as an empty line from then on, and in the next call Up starts from it instead of the newest entry | `C103_false_newest`, `C103_false_blank` |
| A position report nobody asked for, such as Shift-F3, stays in `sizeChan`; every later `GetOffset` gets the answer of the call before it. Of two calls at the same time one may never be answered, or they get each other's answers | `C104_false_shifted`, `C104_false_key`, `C104_false_stale`, `C104_false_dropped`, `C104_false_swapped` |
| Ctrl-Z hangs for ever if the process is not stopped (SIGTSTP ignored or without effect; always on Windows) or is continued within about 100 ms; if a tick is 100 ms late it returns before the process is stopped | `C105_false_hang`, `C105_false_ignored`, `C105_false_quick`, `C105_false_busy` |
| A negative cursor returned by a `Listener` is accepted; the next command that redraws panics | `C106_false_set`, `C106_false_crash` |
| After `SetConfig` with another configuration vim mode cannot be switched: editor and key decoder ask different configurations | `C107_false_on`, `C107_deaf`, `C107_false_config`, `C107_false_off`, `C107_false_field` |
| A window resized while a password is read: the search keeps the old width until the next change | `C108_false_password`, `C108_false_lasts`, `C108_false_column` |
| A configuration with its own `FuncGetWidth`: the line keeps the old width, changes are not noticed | `C108_false_window` |
| Passwords read through a `RemoteSvr`, or with `ForceUseInteractive`: drawn if the server's own streams are a terminal, whatever the client has | `C109_process`, `C109_false_remote`, `C109_false_pipe`, `C109_false_force` |
| Goroutines of the standard input: a `CancelableStdin` is never closed, so a default `Stdin` leaves one for good; every `ReadPassword` leaves two; after `SetConfig`, `Close` does not reach the configuration before | `C110_false_cancel`, `C110_false_password`, `C110_false_unbounded`, `C110_false_setConfig` |
| Going back to a configuration used before (`SetConfig` returns it for that purpose): the history file of the one left stays open, also after `Close` | `C111_again`, `C111_false_back`, `C111_false_leaves` |

## Plan per property

| id | what is modelled | how it is proved |
|----|------------------|------------------|
| C01,C02 | the two nested search loops | loop invariants; spec = "occurs at" predicate |
| C03 | EqualRune and lifted functions | case analysis + omega |
| C04 | Aggregate loops | characterise size as longest common prefix |
| C05 | ColorFilter with panic | induction over scan position, spec grammar |
| C06 | SplitByLine, LineCount | induction; spec predicate on pieces |
| C07-C14 | every RuneBuffer mutator | invariant and refinement to a zipper editor; counterexamples where the code deviates |
| C15 | whole ioloop iteration with panics explicit | invariant + case analysis on all keys; crash witnesses for every excluded trigger |
| C16 | getBackspaceSequence loop with fuel | termination characterised exactly; divergence witness |
| C17 | output/clean + terminal emulator with autowrap | simulation: emulator state after redraw |
| C18 | output with mask | equality of outputs of two lines |
| C19-C22 | opHistory over pointer-like element ids | invariants over op sequences |
| C23-C25 | history file as text, append/rename steps, crash points | round trip by induction; crash = prefix of the step list |
| C26,C27 | FindBck, FindFwd | list lemmas from C01/C02 |
| C28 | SearchMode/search/ExitSearchMode in ioloop | state relation; counterexample for re-pressed Ctrl-R and empty history |
| C29-C33 | whole ioloop iteration | refinement of key sequences to the editor spec |
| C34,C35 | opCompleter | invariant; arithmetic of the candidate grid |
| C36,C37 | doInternal tree recursion; segments | induction over tree / line |
| C38,C39 | Terminal.ioloop decoder as a state machine | induction over input |
| C40 | kick protocol between terminal and ioloop | invariant; witness for vim mode |
| C41 | HandleVim | case analysis |
| C42-C44 | byte-level codec with int32/int16 ranges | round trip, framing induction; panic witness |
| C45-C47 | transition systems for Read/readLoop and Write/writeLoop | inductive invariants; lost wake-up witness |
| C48-C50 | transition systems for stdin wrappers and Close | inductive invariants; witnesses |
| C51 | Config.Init | case analysis |
| C52,C53 | SetConfig/password, interleaved with ioloop | witnesses and partial theorems |
| C54 | wrapWriter.Write | equation on state and output |
| C55,C56 | heap model with aliasing | separation invariant; witnesses |
| C57 | ioloop with filter/listener | case analysis |
| C58 | channels between ioloop and callers | inductive invariant |
| C59 | lock programs of every API entry | rank argument over all interleavings |
| C60 | UTF-8 encode/decode | round trip by arithmetic |
| C61 | ioloop after the end of input | case analysis; blocking is an outcome |
| C62 | vim normal mode | one theorem per command, composed over sequences |
| C63 | Refresh, clean | induction over command sequences |
| C64 | Width, WidthAll | induction |
| C65 | heap model | simulation of values by slices |
| C66 | search keys in ioloop | step relation on what a search shows |
| C67 | whole sessions of emacs keys | refinement to a notebook |
| C68 | `CompleteRefresh` on the terminal of C17 | picture of a list in columns, invariant over the printing loop |
| C69 | whole sessions on the terminal of C17 | paragraphs below one another, invariant over keys and calls |
| C70 | `ANSIWriter` over a model of the console; the line of C17 on it | buffering removed by simulation; effect of each sequence; redraw as in C17 |
| C71 | settings as one value, raw mode by bits, `ReadPassword` with pointers | invariant of a call over suspensions; the loop of reads by induction |
| C72 | keyboard events, `RawReader`, composed with UTF-8 and the decoder of C38 | each press is a chunk of C38 |
| C73 | what `SetTitle` writes, on the terminal of C17 and the console of C70 | the sequence swallows characters one by one |
| C74 | C38, C67 and C23 composed: from the bytes each run receives to the results of its calls and the history file it leaves | the entries in the file and those in memory are cut to the limit at different times; they agree on the last one, which is all that deciding about repetitions needs |
| C75 | the redraw of C17 on a terminal with wide characters | cells instead of runes; the row breaks of `SplitByLine` agree with the terminal's when no rune is cut by the edge |
| C76 | vim sessions as the notebook of C67 with two modes | `VimStep`/`VimRun`; one iteration per step (C62, C41), the key switch for `h j k l`; what Enter records is the line or the text noted on the open page |
| C77 | from the bytes typed to results, file and screen | composition of C38 (bytes to keys), C67/C74 (notebook, file) and C69 (screen); paragraphs of successive runs are put one below the other (`Over.trans`) |
| C78 | searchRefresh, SetStyle, search keys in ioloop | terminal emulator, `paper` of C69 with the banner below the line |
| C79 | OnWidthChange of Operation, RuneBuffer, completer and search; DefaultOnWidthChanged | C15's safety and the notebook of C67 with width changes between keys; the terminal of C17, rewrapped |
| C80 | the loop of Operation with opCompleter, over whole sessions | the notebook of C67 beside a list of candidates that is closed, shown, or shown with a highlight |
| C81 | whole sessions on a terminal of `h` rows that scrolls | simulation: the screen is a window (from row `k`) on the terminal of C69; printing moves the window down, erasing a line taller than the screen moves it back to the start of the line |
| C82 | the loop of Operation with opCompleter and opSearch, over whole sessions | the notebook of C67, the list of C80 and a finder on page numbers; searches have one outcome, whatever the elements are called; a draft per page says what Enter records during a search |
| C83 | `SetConfig`, `SetHistoryPath`, `SaveHistory` and the functions of std.go, with configurations and histories as pointers and one content per path | a shelf: entries per file, the file in use, the notebook of C82; taking a file into use keeps its newest entries; an induction over the calls of a program |
| C84 | files behind names and open files, one step per system call of `historyUpdatePath`, `rewriteLocked` and `New`, sessions numbered | a list of lines, the entries of each session, and who still reaches the file; a simulation for sessions that begin one at a time; an invariant (every file that is open or named is whole) for all orders with one writer |
| C85 | `Result`, `String`, `Slice` and three loops over `Readline` | the lines submitted up to the event that leaves; induction over the calls |
| C86 | `Print` and `Tree` on the trees of C29 | items with names as a forest; rows of depth and name; the picture is injective |
| C87 | the deprecated package with its index loops | the functions of the main package (C01-C06); inductions over the indices |
| C88 | the client with `io.Copy`; the schedules of C45 and C47 | bytes typed; composition of C43, C45, C47, C71, C38 and C74; an invariant of calm schedules |
| C89 | `IsPrintable` | Unicode scalar values without C0, Delete and C1; arithmetic |
| C90 | bytes, decoder, key switch, history, completion, search | the tables of doc/shortcut.md as a relation on a notebook, a list and a finder; C38 and C82 |
| C91 | redraw with width <= 0 | screen emulator of C17; `Blind`, `InRow`; erasing with `\r\b` (width 0) and with one row per rune (width < 0) |
| C92 | the multi-line example over several calls | C67's notebook without auto-save, `Dialogue`; grouping of lines is unique (`Commands`) |
| C93 | sessions with completion on the screen | C69's machinery with a third state, the open list (`MenuUp`: the list on the screen is the completer's answer to the current line); C68 for drawing and closing |
| C94 | vim sessions on the screen | C69's machinery with the mode as part of the state; every command of normal mode is a sequence of commands of C17 |
| C95 | searches, completion and vim commands in one session on the screen | one step lemma from those of C78, C93 and C94; what a mode leaves behind for the others is `Op.Shaped`, kept by every iteration (`iter_shaped`) |
| C96 | C95 on a terminal that scrolls | what the functions write does not depend on what has been written before (`Op.readline_pre`), so C95 for a terminal whose cursor is in row 0 shows that no call ever goes above its first row (`never_above`); then `Win.feed` of C81, as long as the cursor does not go up by the height of the screen (`Shallow`) |
| C97 | a password never reaches the screen | a relation between two states of the loop (`OVeil`: line, kill buffer and history entries of the same shape, everything else equal) is kept by every key, every call and every fault; the history records nothing (`Unrecorded`), so nothing depends on whether two lines are equal |
| C98 | lines with tabs | the redraw of C17 for one row with the text expanded (`Tabbed.drawn`); the column of the terminal's cursor is given exactly, whether right or not, so the invariant goes through all commands |
| C99 | results do not depend on the display | relation of two states that differ in display fields only (`Op.Tw`), carried through every function of the loop with a combinator for pairs of runs that both return (`Both`) |
| C100 | what a masked line looks like | as C98, with the row of mask runes and a lemma for backspaces that stop at the left edge |
| C101 | Ctrl-L in the course of a session | one iteration: Ctrl-L by the redraw lemma of C69 for any line that is up, other keys by C95; a page that is wiped or grows, folded over the calls |
| C102 | sessions with masked lines | C100's redraw lemma through the editing loop, as C69 does with C17's: one iteration keeps the masked row or ends the call with its paragraph; induction over the calls; secrecy because the paragraph is a function of kind and length |
| C103 | switching the history off and on | every operation while it is off keeps entries, file, switch and length; induction over the operations; the next line by C19 with the pending edit of wherever `current` has been left; the browsing clause refuted by two runs |
| C104 | `GetOffset` | a transition system of calls, goroutines, the wire and the channel of capacity 1; one invariant of schedules (calls are permuted, reports handed over are a sublist of those read, beginning with the first), composed along the schedule; one call at a time as a corollary; shifted answers by induction over the calls |
| C105 | coming back from Ctrl-Z | the loop over the times of the ticks; a process with stops and a lag as a relation on tick times; induction over the ticks |
| C106 | the cursor a `Listener` returns | the redraw written down for a cursor in `Int`, equal to the model on cursors ≥ 0; `clean` slices at the cursor before the command runs |
| C107 | switching vim mode at run time | the four pointers to configurations as numbers; the editor follows the first, the decoder the last; a decoder in emacs mode never delivers Escape, so by C41 the session is one of emacs mode |
| C108 | who knows the width of the window | the three widths and the configurations as a transition system; invariants for line and list; for the search, the changes must happen while its configuration is current |
| C109 | where a password is asked for | the fields of the configuration that decide whether the line is drawn; with C63, nothing is written for any commands |
| C110 | goroutines behind the standard input | streams are numbers, made by `Init` and closed by `Close`; `Terminal.ioloop`, `Operation.ioloop` and the width goroutine are not in it |
| C111 | the history files a program has open | the instances of C83; uses of the history are any functions that leave its file handle alone; `C111_line` proves that of `Readline`, through the whole loop, and of `SaveHistory` |

## Axioms

* **Classical.choice, Quot.sound, propext** (339 theorems): `RL.C01_indexAll`, `RL.C02_indexAllBck`, `RL.C03_fold`, `RL.C04_aggregate`, `RL.C07_cursor_partial`, `RL.C07_defined_partial`, `RL.C07_triggers_are_real`, `RL.C08_editor`, `RL.C08_total`, `RL.C09_word_motion`, `RL.C10_cut_yank_partial`, `RL.C100_redraw_partial`, `RL.C100_commands_partial`, `RL.C100_start_partial`, `RL.C100_cursor_iff`, `RL.C100_submit`, `RL.C100_false_cursor`, `RL.C100_false_wide`, `RL.C100_false_full`, `RL.C101_clear`, `RL.C101_transcript_partial`, `RL.C101_end_partial`, `RL.C101_line_partial`, `RL.C102_transcript_partial`, `RL.C102_end_partial`, `RL.C102_line_partial`, `RL.C102_secret_partial`, `RL.C102_false_hint`, `RL.C102_false_interrupt`, `RL.C103_on`, `RL.C103_on_save`, `RL.C103_false_newest`, `RL.C103_false_blank`, `RL.C103_on_newest`, `RL.C104_once`, `RL.C104_alone_partial`, `RL.C104_answered_partial`, `RL.C107_deaf`, `RL.C107_false_on`, `RL.C107_false_config`, `RL.C108_column`, `RL.C108_false_column`, `RL.C11_ctrlW_partial`, `RL.C11_first_word`, `RL.C11_false`, `RL.C110_all_partial`, `RL.C111_line`, `RL.C12_deleteWord`, `RL.C13_transpose_partial`, `RL.C15_no_crash_partial`, `RL.C15_invariant_partial`, `RL.C15_crash_transpose`, `RL.C15_crash_search_cancel`, `RL.C15_crash_menu_kill`, `RL.C15_crash_menu_narrow`, `RL.C15_crash_vim_menu`, `RL.C15_crash_vim_search`, `RL.C15_crash_vim_keys`, `RL.C15_crash_wide`, `RL.C15_crash_no_terminal`, `RL.C15_hang_prompt`, `RL.C15_crash_listener`, `RL.C17_redraw_partial`, `RL.C17_commands_partial`, `RL.C17_start`, `RL.C17_submit`, `RL.C17_false_prompt`, `RL.C17_false_mask`, `RL.C17_false_mask_cursor`, `RL.C19_append`, `RL.C20_bound_partial`, `RL.C20_step`, `RL.C20_reopened`, `RL.C20_recovers`, `RL.C22_unchanged_partial`, `RL.C23_load`, `RL.C23_roundtrip`, `RL.C23_trimmed`, `RL.C23_blank`, `RL.C24_crash_append`, `RL.C26_findBck`, `RL.C27_findFwd`, `RL.C28_cancel_partial`, `RL.C28_in_step`, `RL.C28_false_again`, `RL.C28_false_first`, `RL.C28_false_nil`, `RL.C28_false_cursor`, `RL.C28_false_vim`, `RL.C28_false_interrupted`, `RL.C29_readline`, `RL.C29_enter`, `RL.C30_interrupt`, `RL.C30_readline`, `RL.C31_eof_partial`, `RL.C31_delete_partial`, `RL.C31_vim_normal`, `RL.C32_end_of_input`, `RL.C32_pending`, `RL.C33_recorded_partial`, `RL.C33_false_search`, `RL.C33_false_search_edited`, `RL.C33_false_vim`, `RL.C33_false_first`, `RL.C34_tab`, `RL.C34_menu`, `RL.C35_navigation`, `RL.C35_enter`, `RL.C36_walk`, `RL.C36_nowhere`, `RL.C37_split`, `RL.C37_complete`, `RL.C38_total`, `RL.C38_bytes`, `RL.C38_params`, `RL.C39_false`, `RL.C40_readline_partial`, `RL.C40_vim_partial`, `RL.C40_step_partial`, `RL.C40_stall_vim`, `RL.C40_stall_filter`, `RL.C41_insert`, `RL.C41_escape`, `RL.C41_enter`, `RL.C41_stays`, `RL.C42_kinds`, `RL.C43_stream`, `RL.C43_cut`, `RL.C43_received`, `RL.C44_serve_partial`, `RL.Remote.C46_eof_partial`, `RL.SvrW.C47_peer`, `RL.Stdin.C48_order`, `RL.Stdin.C48_complete`, `RL.Stdin.C48_fits`, `RL.Stdin.C48_prompt`, `RL.Stdin.C48_close`, `RL.Fill.C49_first_partial`, `RL.Shut.C50_false_hang`, `RL.Pw.C52_file_partial`, `RL.C54_partial`, `RL.C54_idle`, `RL.C54_false_window`, `RL.Mem.C55_entries_kept_partial`, `RL.Mem.C55_recall_copies`, `RL.Mem.C56_restore_partial`, `RL.C57_rejected`, `RL.C57_rejected_ok`, `RL.C57_translated`, `RL.C57_listener_partial`, `RL.C57_false_menu`, `RL.C57_false_vim`, `RL.C57_false_argument`, `RL.Chan.C58_order_partial`, `RL.C60_roundtrip`, `RL.C60_standard`, `RL.C60_newline`, `RL.C60_decode`, `RL.C61_after_eof`, `RL.C61_session`, `RL.C62_command`, `RL.C62_commands`, `RL.Mem.C65_command`, `RL.Mem.C65_runs_as_values`, `RL.C66_search`, `RL.C66_tidy`, `RL.C66_banner`, `RL.C66_accept`, `RL.C66_false_underline`, `RL.C67_session`, `RL.C67_readline`, `RL.C67_start_file`, `RL.C67_nosave`, `RL.C67_false_cancel`, `RL.C68_list_partial`, `RL.C68_open_partial`, `RL.C68_cursor`, `RL.C68_close`, `RL.C68_highlight`, `RL.C68_false_row`, `RL.C68_false_column`, `RL.C68_false_long`, `RL.C68_slice`, `RL.C69_transcript_partial`, `RL.C69_line_partial`, `RL.C69_end_partial`, `RL.C69_unique_partial`, `RL.C69_clear`, `RL.C69_false_unique`, `RL.Win.C70_stream_partial`, `RL.Win.C70_text`, `RL.Win.C70_line_partial`, `RL.Win.C70_false_default_colour`, `RL.Win.C70_false_empty_colour`, `RL.Win.C70_false_reset_colour`, `RL.Win.C70_false_swallow`, `RL.Win.C70_false_bracket`, `RL.Win.C70_false_order`, `RL.Win.C70_false_large`, `RL.Win.C70_false_column`, `RL.Win.C70_colours`, `RL.Win.C70_malformed`, `RL.Tty.C71_raw`, `RL.Tty.C71_during`, `RL.Tty.C71_false_two`, `RL.Tty.C71_after_password_partial`, `RL.Tty.C71_windows_partial`, `RL.Tty.C71_windows_raw`, `RL.Tty.C71_windows_mode`, `RL.Win.C72_keys_partial`, `RL.C73_windows_partial`, `RL.C73_terminal_partial`, `RL.C73_false_terminal`, `RL.C73_false_up`, `RL.C73_false_windows`, `RL.C74_runs`, `RL.C74_session`, `RL.C75_redraw_partial`, `RL.C75_cursor_partial`, `RL.C75_commands_partial`, `RL.C75_start`, `RL.C75_false_cursor`, `RL.C75_false_edge`, `RL.C75_false_combining`, `RL.C76_readline_partial`, `RL.C76_session_partial`, `RL.C76_start`, `RL.C76_false_lost`, `RL.C76_false_record`, `RL.C76_false_repeat`, `RL.C77_runs_partial`, `RL.C78_refresh_partial`, `RL.C78_transcript_partial`, `RL.C78_line_partial`, `RL.C78_end_partial`, `RL.C78_false_row`, `RL.C78_false_long`, `RL.C78_false_wrapped`, `RL.C78_false_mark`, `RL.C79_no_crash_partial`, `RL.C79_session`, `RL.C79_readline`, `RL.C79_same_results`, `RL.C79_screen_partial`, `RL.C79_false_prompt`, `RL.C79_false_menu`, `RL.C79_false_rows`, `RL.C80_session`, `RL.C80_readline`, `RL.C80_false_stale`, `RL.C80_dismiss`, `RL.C81_transcript_partial`, `RL.C81_line_partial`, `RL.C81_end_partial`, `RL.C81_false_tall`, `RL.C82_session_partial`, `RL.C82_readline_partial`, `RL.C82_false_record`, `RL.C82_false_full`, `RL.C83_program_partial`, `RL.C83_start`, `RL.C83_false_path`, `RL.C83_false_auto`, `RL.C83_false_add`, `RL.C84_sessions_partial`, `RL.C84_kept_partial`, `RL.C84_whole_partial`, `RL.C85_line`, `RL.C85_doc`, `RL.C85_study_partial`, `RL.C85_false_slice`, `RL.C87_same`, `RL.Cli.C88_input`, `RL.Cli.C88_calm_partial`, `RL.Cli.C88_output`, `RL.Cli.C88_raw`, `RL.Cli.C88_session_partial`, `RL.Cli.C88_false_raw`, `RL.C89_partial`, `RL.C89_false`, `RL.Spec.C90_decoded`, `RL.C90_session_partial`, `RL.C90_false_interrupt`, `RL.C90_false_tab`, `RL.C90_false_transpose`, `RL.C90_false_word`, `RL.C69_clear`, `RL.C91_zero_start`, `RL.C91_zero_partial`, `RL.C91_negative_start`, `RL.C91_climbs`, `RL.C91_false_climbs`, `RL.C92_commands`, `RL.C92_multiline_partial`, `RL.C92_start`, `RL.C92_restart_partial`, `RL.C92_example`, `RL.C92_false_recall`, `RL.C93_transcript_partial`, `RL.C93_end_partial`, `RL.C93_line_partial`, `RL.C93_false_kill`, `RL.C93_false_end`, `RL.C94_transcript_partial`, `RL.C94_end_partial`, `RL.C94_line_partial`, `RL.C94_false_replace`, `RL.C94_false_transpose`, `RL.C95_transcript_partial`, `RL.C95_end_partial`, `RL.C95_line_partial`, `RL.C95_false_tab`, `RL.C95_false_search`, `RL.C95_false_escape`, `RL.C95_false_escapeList`, `RL.Op.iter_shaped`, `RL.C96_transcript_partial`, `RL.C96_end_partial`, `RL.C96_line_partial`, `RL.C96_false_list`, `RL.Op.readline_pre`, `RL.C97_session_partial`, `RL.C97_results_partial`, `RL.C97_blotted_partial`, `RL.C97_false_search`, `RL.C97_false_history`, `RL.C97_false_words`, `RL.C98_redraw_partial`, `RL.C98_commands_partial`, `RL.C98_start_partial`, `RL.C98_cursor_iff`, `RL.C98_false_cursor`, `RL.C98_false_edge`, `RL.C99_key_partial`, `RL.C99_readline_partial`, `RL.C99_session_partial`, `RL.C99_false_menu`, `RL.C99_false_width`, `RL.C99_false_prompt`
* **Quot.sound, propext** (106 theorems): `RL.C05_colorFilter`, `RL.C05_plain`, `RL.C06_splitByLine`, `RL.C06_lineCount`, `RL.C07_false`, `RL.C10_false`, `RL.C103_off`, `RL.C104_false_shifted`, `RL.C104_false_key`, `RL.C104_false_stale`, `RL.C104_false_dropped`, `RL.C104_false_swapped`, `RL.C105_woken`, `RL.C105_stopped_partial`, `RL.C105_idle`, `RL.C105_false_hang`, `RL.C105_false_ignored`, `RL.C105_false_quick`, `RL.C105_false_busy`, `RL.C106_same`, `RL.C106_within_partial`, `RL.C106_false_set`, `RL.C106_false_crash`, `RL.C109_false_remote`, `RL.C110_false_password`, `RL.C110_false_unbounded`, `RL.C110_false_setConfig`, `RL.C110_close`, `RL.C110_clone`, `RL.C110_std`, `RL.C111_first`, `RL.C111_again`, `RL.C111_partial`, `RL.C111_false_leaves`, `RL.C111_password`, `RL.C13_false`, `RL.C14_moveTo`, `RL.C16_redraw_partial`, `RL.C16_hang_is_divergence`, `RL.C16_false`, `RL.C18_mask_session`, `RL.C18_mask_output`, `RL.C18_width_leak`, `RL.C20_false_unbounded`, `RL.C21_entries`, `RL.C21_browse`, `RL.C21_prev_next`, `RL.C21_next_prev`, `RL.C21_edits`, `RL.C25_rewrite_atomic`, `RL.C25_rewrite_content`, `RL.C36_total`, `RL.C36_offered`, `RL.C38_decode`, `RL.C38_keys`, `RL.C38_reports`, `RL.C38_same_partial`, `RL.C38_meta`, `RL.C38_row_column`, `RL.C39_text`, `RL.C39_vim`, `RL.C39_swallow_partial`, `RL.C40_stop_keys`, `RL.C42_layout`, `RL.C42_roundtrip`, `RL.C43_every_cut`, `RL.C44_decode_partial`, `RL.Remote.C45_order`, `RL.Remote.C45_eof_sound`, `RL.SvrW.C47_frames`, `RL.SvrW.C47_count`, `RL.SvrW.C47_progress_partial`, `RL.CliW.C47_client`, `RL.Fill.C49_long_partial`, `RL.Conf.C51_defaults`, `RL.Conf.C51_usable`, `RL.Pw.C52_after_partial`, `RL.Pw.C52_restored_partial`, `RL.Pw.C53_partial`, `RL.Pw.C53_memory_partial`, `RL.Pw.C53_false`, `RL.Locks.C59_progress_partial`, `RL.Locks.C59_held`, `RL.C63_silent`, `RL.C64_width`, `RL.Win.C70_numbers`, `RL.Tty.C71_restored`, `RL.Tty.C71_close_partial`, `RL.Tty.C71_false_close`, `RL.Tty.C71_password`, `RL.Tty.C71_false_echo`, `RL.Tty.C71_false_linefeed`, `RL.C74_example`, `RL.C82_start`, `RL.C83_config`, `RL.C84_alone`, `RL.C86_picture`, `RL.C86_determines`, `RL.C86_false_dynamic`, `RL.C87_width`, `RL.Cli.C88_sent`, `RL.Cli.C88_false_swallow`, `RL.C91_width`, `RL.C91_false_left`, `RL.C92_commands_unique`, `RL.never_above`
* **none** (31 theorems): `RL.C01_empty_exception`, `RL.C107_insert`, `RL.C107_false_off`, `RL.C107_normal_partial`, `RL.C107_false_field`, `RL.C108_recovers`, `RL.C108_false_password`, `RL.C108_false_lasts`, `RL.C108_false_window`, `RL.C109_process`, `RL.C109_default_partial`, `RL.C109_after`, `RL.C109_start`, `RL.C109_false_pipe`, `RL.C109_false_force`, `RL.C110_false_cancel`, `RL.C111_false_back`, `RL.Remote.C45_eof_before_data`, `RL.Stdin.C48_false_pending`, `RL.Fill.C49_false_lost`, `RL.Fill.C49_false_late`, `RL.Conf.C51_once`, `RL.Conf.C51_false_writer`, `RL.Conf.C51_no_painter`, `RL.Conf.C51_clone`, `RL.Chan.C58_false_callers`, `RL.C83_false_password`, `RL.C86_false_names`, `RL.C87_false_tab`, `RL.Cli.C88_false_eof`, `RL.C99_start`
* **propext** (63 theorems): `RL.C107_editor`, `RL.C107_decoder`, `RL.C107_agree_partial`, `RL.C107_repaired`, `RL.C107_deaf_keys`, `RL.C108_buffer`, `RL.C108_list`, `RL.C108_search_partial`, `RL.C110_own_partial`, `RL.C111_start`, `RL.C111_save`, `RL.C19_stale_edit`, `RL.C20_false`, `RL.C22_false`, `RL.C24_glued`, `RL.C25_disk_full`, `RL.C38_false_vim`, `RL.C38_false_delete`, `RL.C44_false_length`, `RL.C44_false_report`, `RL.Remote.C45_spurious_eof`, `RL.Remote.C45_spurious_eof_any`, `RL.Remote.C46_false_lost`, `RL.Remote.C46_false_eof`, `RL.Remote.C46_false_closed`, `RL.Remote.C46_woken_partial`, `RL.Remote.C46_data_partial`, `RL.SvrW.C47_false_count`, `RL.SvrW.C47_false_closed`, `RL.Stdin.C48_later`, `RL.Stdin.C48_input_lost`, `RL.Fill.C49_order_partial`, `RL.Fill.C49_complete_partial`, `RL.Shut.C50_concurrent`, `RL.Shut.C50_pending`, `RL.Shut.C50_waits`, `RL.Shut.C50_returns_partial`, `RL.Shut.C50_false_stuck`, `RL.Pw.C52_false_prompt`, `RL.Pw.C52_false_mask`, `RL.Pw.C52_false_history`, `RL.Mem.C55_false_edit`, `RL.Mem.C55_false_submit`, `RL.Mem.C56_false`, `RL.Chan.C58_once`, `RL.Chan.C58_false_order`, `RL.Locks.C59_false_painter`, `RL.C67_start`, `RL.Tty.C71_exit`, `RL.Win.C72_false_surrogates`, `RL.Win.C72_false_repeat`, `RL.Win.C72_false_keys`, `RL.Win.C72_false_altgr`, `RL.Win.C72_false_ctrl`, `RL.Win.C72_false_alt_tab`, `RL.C79_false_two`, `RL.C82_recorded`, `RL.C84_false_detached`, `RL.C84_false_window`, `RL.C84_false_tmp`, `RL.C84_false_mixed`, `RL.C85_demo`, `RL.Cli.C88_false_width`
