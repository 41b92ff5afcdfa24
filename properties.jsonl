{"id": "C01", "title": "Forward substring search", "statement": "Runes.IndexAll / IndexAllEx(r, sub, fold) returns the smallest offset at which sub occurs in r (rune by rune, ASCII case-insensitively when fold is set) and -1 exactly when there is no such offset; the only exception is the empty haystack, for which -1 is returned even if sub is empty.", "quantifier": "all rune slices r and sub of any length, both values of fold", "why_tests_cant": "Tests sample a few pairs; 'smallest' and 'none' are universally quantified over offsets, lengths and alphabets.", "anchors": ["runes.go: Runes.IndexAllEx, Runes.IndexAll, Runes.EqualRune"]}
{"id": "C02", "title": "Backward substring search", "statement": "Runes.IndexAllBck / IndexAllBckEx(r, sub, fold) returns the largest offset at which sub occurs in r and -1 exactly when sub does not occur; an empty sub is found at len(r).", "quantifier": "all rune slices r and sub, both values of fold", "why_tests_cant": "Largest / none are universal statements over unbounded inputs.", "anchors": ["runes.go: Runes.IndexAllBckEx, Runes.IndexAllBck"]}
{"id": "C03", "title": "Case folding is exactly ASCII case-insensitivity", "statement": "EqualRune(a,b,fold) without fold is equality; with fold it holds exactly when a and b are the same rune after mapping A-Z to a-z and leaving every other rune alone. It is symmetric, and EqualFold / HasPrefixFold lift it pointwise.", "quantifier": "all pairs of runes (the whole int32 range and beyond), all slices", "why_tests_cant": "The rune space squared cannot be enumerated by tests.", "anchors": ["runes.go: Runes.EqualRune, EqualRuneFold, EqualFold, HasPrefix, HasPrefixFold, Equal"]}
{"id": "C04", "title": "Aggregate factors out the longest common prefix", "statement": "For a non-empty list of candidates Aggregate returns the longest common prefix and its length, and rewrites every candidate to the remainder, so prefix ++ remainder is the original candidate.", "quantifier": "all non-empty lists of rune slices", "why_tests_cant": "Longest common prefix over arbitrary many candidates of arbitrary length is a universal claim.", "anchors": ["runes.go: Runes.Aggregate"]}
{"id": "C05", "title": "Prompt colour filtering", "statement": "ColorFilter removes exactly the ESC [ ... m sequences (shortest, left to right) and the ESC of an unterminated ESC [; every other rune is kept in order. It crashes exactly when the filtered scan reaches an ESC that is the last rune.", "quantifier": "all rune slices", "why_tests_cant": "Prompts are arbitrary strings; the crash depends on the position of one rune after arbitrary prefixes.", "anchors": ["runes.go: Runes.ColorFilter", "runebuf.go: RuneBuffer.promptLen"]}
{"id": "C06", "title": "Wrapping the line loses nothing and counts rows correctly", "statement": "SplitByLine cuts its input into consecutive pieces whose concatenation is the input; every piece but the last ends at the first rune at which the row is full, and the last piece never fills a row (when the screen is wider than the starting column). LineCount(width, w) is w divided by width rounded up.", "quantifier": "all rune slices, all starting columns, all positive screen widths", "why_tests_cant": "Any test fixes width and text; wrapping errors appear at exact boundaries for particular width/prompt/text combinations.", "anchors": ["utils.go: SplitByLine, LineCount", "runebuf.go: RuneBuffer.idxLine, LineCount, CursorLineCount"]}
{"id": "C07", "title": "The cursor never leaves the line", "statement": "After any sequence of editing commands the cursor offset reported by Pos() lies between 0 and Len(), so every later command is defined.", "quantifier": "all sequences of RuneBuffer commands from an empty buffer, any inserted text", "why_tests_cant": "It is an invariant over unbounded command histories.", "anchors": ["runebuf.go: all RuneBuffer mutators", "operation.go: Operation.ioloop"]}
{"id": "C08", "title": "Basic editing is a text editor", "statement": "Insert, Backspace, Delete, forward, backward, line start, line end, kill to end, kill to start, erase and yank act on the pair (text left of cursor, text right of cursor) exactly as the textbook editor does, for every command history; nothing else in the line changes.", "quantifier": "all sequences of these commands, all texts and cursor positions", "why_tests_cant": "Refinement to an abstract editor over unbounded histories.", "anchors": ["runebuf.go: WriteRunes, Backspace, Delete, MoveForward, MoveBackward, MoveToLineStart, MoveToLineEnd, Kill, KillFront, Erase, Yank"]}
{"id": "C09", "title": "Word motion lands on word boundaries", "statement": "Meta-B moves to the last start of a word strictly between 0 and the cursor, else to 0; Meta-F moves to the first start of a word strictly right of the cursor, else to the end. A word is a maximal run of ASCII letters and digits. The text is unchanged.", "quantifier": "all lines and cursor positions", "why_tests_cant": "First/last boundary are universal claims over positions.", "anchors": ["runebuf.go: MoveToPrevWord, MoveToNextWord, MoveToEndWord", "utils.go: IsWordBreak"]}
{"id": "C10", "title": "Killed text can be yanked back", "statement": "Every command that cuts text (Ctrl-K, Ctrl-U, Ctrl-D, Meta-D, Ctrl-W, erase) removes one contiguous block adjacent to or around the cursor, puts exactly that block in the kill buffer, and a Yank right after it re-inserts the block so that the line is the original line.", "quantifier": "all lines and cursor positions, all cut commands", "why_tests_cant": "Universal over line contents and cursor positions.", "anchors": ["runebuf.go: Kill, KillFront, Delete, DeleteWord, BackEscapeWord, Erase, Yank, pushKill"]}
{"id": "C11", "title": "Ctrl-W only cuts the previous word", "statement": "BackEscapeWord (Ctrl-W, Meta-Backspace) removes only text left of the cursor, namely from the start of the previous word up to the cursor; text right of the cursor is preserved and the cut text goes to the kill buffer.", "quantifier": "all lines and cursor positions", "why_tests_cant": "The failing case needs the cursor inside a line whose first word is being cut.", "anchors": ["runebuf.go: BackEscapeWord", "doc/shortcut.md"]}
{"id": "C12", "title": "Meta-D only cuts text right of the cursor", "statement": "DeleteWord removes a block starting at the cursor, keeps the cursor in place, keeps everything left of the cursor and keeps the suffix of the line from one position before the next word start after the word being deleted; with no such word it cuts to the end of the line.", "quantifier": "all lines and cursor positions", "why_tests_cant": "Boundary behaviour over all word layouts.", "anchors": ["runebuf.go: DeleteWord"]}
{"id": "C13", "title": "Transpose permutes the line", "statement": "Ctrl-T on a line of at least two runes swaps exactly two neighbouring runes next to the cursor and moves the cursor right of them; on shorter lines the text is unchanged. The line is always a permutation of the old one and the cursor stays in the line.", "quantifier": "all lines and cursor positions", "why_tests_cant": "Universal over lines; the one-rune line with the cursor at the end is easy to miss.", "anchors": ["runebuf.go: Transpose"]}
{"id": "C14", "title": "Vim character search lands on the searched rune", "statement": "f/F/t/T followed by c move to the nearest occurrence of c strictly right (f,t) or left (F,T) of the cursor (or next to it for t,T); with no occurrence the cursor does not move. The text never changes and success is reported exactly when an occurrence exists.", "quantifier": "all lines, cursor positions, searched runes", "why_tests_cant": "Nearest / none are universal claims.", "anchors": ["runebuf.go: MoveTo", "vim.go: handleVimNormalMovement"]}
{"id": "C15", "title": "No editing key crashes the program", "statement": "From any reachable editor state any key can be processed without a run-time panic (index out of range, nil dereference, division by zero).", "quantifier": "all reachable states (line, cursor, history, search, completion and vim state), all keys", "why_tests_cant": "Panics sit in rare state/key combinations that tests do not visit.", "anchors": ["operation.go: Operation.ioloop", "runebuf.go", "complete.go", "search.go", "vim.go"]}
{"id": "C16", "title": "Redrawing the line always finishes", "statement": "Refreshing the edit line returns for every prompt, terminal width, line and cursor position.", "quantifier": "all prompts, all widths, all lines, all cursor positions", "why_tests_cant": "Non-termination depends on arithmetic relations between prompt width and terminal width.", "anchors": ["runebuf.go: getBackspaceSequence, output, Refresh"]}
{"id": "C17", "title": "The screen shows the line and the cursor is where it should be", "statement": "After a redraw on a terminal of width w, the screen shows the prompt followed by the line wrapped at w, and the terminal cursor is on the cell of the rune under the editing cursor.", "quantifier": "all prompts shorter than the screen, all lines of single-width runes, all cursor positions, all widths", "why_tests_cant": "Wrapping and cursor addressing have boundary cases for every width/length combination.", "anchors": ["runebuf.go: output, getBackspaceSequence, isInLineEdge, cleanOutput, Refresh"]}
{"id": "C18", "title": "Masked input does not reach the screen", "statement": "With EnableMask set what is written to the terminal depends only on the number of runes, the cursor and whether the line ends in a newline, never on which (single-width) runes were typed.", "quantifier": "all pairs of lines with the same length, all prompts, widths, cursors, mask runes", "why_tests_cant": "Non-interference compares all pairs of inputs.", "anchors": ["runebuf.go: output", "password.go: PasswordConfig"]}
{"id": "C19", "title": "Saving history appends exactly the submitted line", "statement": "SaveHistory / Enter with auto-save adds the line as newest entry and leaves all older entries and their order unchanged (dropping only the oldest ones beyond HistoryLimit).", "quantifier": "all history contents, all lines, all navigation states in which the pending edit of the recalled entry is the submitted line", "why_tests_cant": "Invariant over unbounded histories of commands.", "anchors": ["history.go: New, Update, Push, Compact"]}
{"id": "C20", "title": "History length is bounded by HistoryLimit", "statement": "After any sequence of history operations at most HistoryLimit entries plus the line being edited are kept (and with a negative limit nothing but the line being edited).", "quantifier": "all sequences of history operations, all limits", "why_tests_cant": "Invariant over unbounded histories.", "anchors": ["history.go: Compact, Push, New, Update, historyUpdatePath"]}
{"id": "C21", "title": "Browsing history never changes it", "statement": "Prev, Next, Revert and non-committing Update never change, drop (below the limit) or reorder stored entries; Next after a successful Prev returns to the entry left; edits made to recalled entries are shown again while the same line is edited and are gone after the line is submitted or cancelled.", "quantifier": "all histories, all sequences of browsing operations", "why_tests_cant": "Universal over histories and unbounded operation sequences.", "anchors": ["history.go: Prev, Next, Update, Revert, showItem"]}
{"id": "C22", "title": "Empty lines and repeats are not recorded", "statement": "Submitting an empty line or a line equal to the newest stored entry leaves the stored entries unchanged.", "quantifier": "all histories, all lines", "why_tests_cant": "Universal over histories.", "anchors": ["history.go: New"]}
{"id": "C23", "title": "History file round trip", "statement": "Entries written to the history file are read back in the same order by the next session, limited to the newest HistoryLimit ones, provided they are non-empty, contain no newline and have no surrounding blanks; other entries are changed by the round trip.", "quantifier": "all lists of entries, all limits", "why_tests_cant": "Round trip over all entry lists.", "anchors": ["history.go: Update, historyUpdatePath, rewriteLocked"]}
{"id": "C24", "title": "A crash while appending to the history file loses at most the line being written", "statement": "If the process stops at any point while a line is appended, the next session loads all previously committed entries and nothing else or additionally the complete new entry.", "quantifier": "all file contents produced by committed entries, all crash points inside the append", "why_tests_cant": "Crash points cannot be enumerated by tests.", "anchors": ["history.go: Update, historyUpdatePath"]}
{"id": "C25", "title": "Compaction of the history file is atomic", "statement": "If the process stops at any point of the rewrite, the history file is either the complete old file or the complete new file.", "quantifier": "all old and new contents, all crash points", "why_tests_cant": "Crash points cannot be enumerated by tests.", "anchors": ["history.go: rewriteLocked"]}
{"id": "C26", "title": "Backward incremental search finds the nearest match", "statement": "FindBck returns an entry not newer than the current one containing the searched text, such that no entry between it and the current one contains it, at the rightmost offset; in the current entry only matches ending at or before the cursor (plus the typed text when the search text has just changed) count; it reports failure exactly if there is none.", "quantifier": "all histories, all positions, all non-empty search texts, both fold settings", "why_tests_cant": "Nearest / none are universal claims.", "anchors": ["history.go: FindBck", "search.go: search"]}
{"id": "C27", "title": "Forward incremental search finds the nearest match", "statement": "FindFwd returns the nearest entry not older than the current one containing the searched text, at the leftmost offset (in the current entry not before the cursor), and reports failure exactly if there is none.", "quantifier": "all histories, all positions, all non-empty search texts, both fold settings", "why_tests_cant": "Nearest / none are universal claims.", "anchors": ["history.go: FindFwd", "search.go: search"]}
{"id": "C28", "title": "Cancelling a search restores the line", "statement": "Ctrl-G / Ctrl-C in search mode ends the search, and the line and history position are what they were when the search was started, whatever was typed during the search.", "quantifier": "all states, all sequences of search keys", "why_tests_cant": "Universal over search histories.", "anchors": ["search.go: SearchMode, ExitSearchMode", "doc/shortcut.md"]}
{"id": "C29", "title": "Readline returns the edited line", "statement": "If a line is typed and edited with any sequence of editing keys and Enter is pressed, Readline returns exactly the text the textbook editor holds after these keys, without the newline; the buffer is empty for the next call.", "quantifier": "all sequences of editing keys (text, movement, delete, cut, yank, word keys, transpose; Ctrl-W on the first word and Ctrl-T on a single rune are the subject of C11 and C13), all initial lines (ReadlineWithDefault)", "why_tests_cant": "Refinement over unbounded key sequences.", "anchors": ["operation.go: Operation.ioloop, Runes, SetBuffer", "readline.go: Readline"]}
{"id": "C30", "title": "Ctrl-C returns the partial line as an interrupt", "statement": "Ctrl-C outside search and completion makes Readline return the current line with ErrInterrupt, whatever the interrupt prompt is; the buffer is emptied, and history is unchanged and points to its end again.", "quantifier": "all lines, cursor positions, interrupt prompts, histories", "why_tests_cant": "Universal over states.", "anchors": ["operation.go: ioloop case CharInterrupt"]}
{"id": "C31", "title": "Ctrl-D deletes or ends", "statement": "Ctrl-D on an empty line outside search and completion makes Readline return io.EOF and leaves buffer and history empty/unchanged; otherwise it deletes the rune under the cursor (bell at end of line) and Readline does not return.", "quantifier": "all states", "why_tests_cant": "Universal over states.", "anchors": ["operation.go: ioloop case CharDelete"]}
{"id": "C32", "title": "End of input flushes the pending line and then reports EOF", "statement": "When standard input ends, a non-empty pending line is returned first, as if Enter had been pressed, and the next call returns io.EOF.", "quantifier": "all pending lines and states", "why_tests_cant": "Universal over states.", "anchors": ["operation.go: ioloop r==0", "terminal.go: ReadRune"]}
{"id": "C33", "title": "The submitted line is what history records", "statement": "With auto-save the entry appended to history on Enter is the line that Readline returns.", "quantifier": "all key sequences, including history recall, search, completion and vim editing", "why_tests_cant": "Depends on bookkeeping kept in step with the edit buffer over arbitrary key histories.", "anchors": ["operation.go: ioloop case CharEnter", "history.go: New"]}
{"id": "C34", "title": "Completion inserts only what the completer offers", "statement": "Tab inserts at the cursor the single candidate, or the longest common prefix of several candidates, or leaves the line unchanged and shows the menu; it never deletes or alters existing text.", "quantifier": "all lines, cursors, candidate lists", "why_tests_cant": "Universal over completer answers and lines.", "anchors": ["complete.go: OnComplete, EnterCompleteMode, doSelect"]}
{"id": "C35", "title": "The highlighted candidate is always a valid candidate", "statement": "In the selection menu any sequence of navigation keys keeps the highlighted index within the candidate list, moves by one candidate, one row or to the row ends as documented, and Enter inserts exactly the highlighted candidate at the cursor.", "quantifier": "all candidate lists, all column counts >= 1, all sequences of navigation keys", "why_tests_cant": "Grid wrap-around has boundary cases for every list length/column count.", "anchors": ["complete.go: HandleCompleteSelect, nextCandidate, getMatrixSize"]}
{"id": "C36", "title": "Prefix completer walks the command tree", "statement": "PrefixCompleter.Do on a line whose earlier words name a path in the tree returns exactly the remainders of the names of the children of the node reached that start with the last partial word, with the length of that word; leading and repeated blanks do not matter.", "quantifier": "all trees with distinct blank-free sibling names, all lines and positions", "why_tests_cant": "Universal over trees and lines.", "anchors": ["complete_helper.go: Do, doInternal, PcItem, NewPrefixCompleter"]}
{"id": "C37", "title": "Segment completer", "statement": "SplitSegment cuts the line left of the cursor at blanks (joining the pieces with blanks gives it back) and reports the length of the last piece; SegmentComplete.Do returns, for exactly the offered candidates that extend the last piece, the missing text followed by a blank.", "quantifier": "all lines, positions, candidate functions", "why_tests_cant": "Universal over lines and candidates.", "anchors": ["complete_segment.go: SplitSegment, RetSegment, SegmentComplete.Do"]}
{"id": "C38", "title": "Escape sequences decode to the documented keys", "statement": "ESC [ and ESC O sequences for arrows, Home, End, Delete (with any numeric parameters) produce the same single key as the documented control character; ESC b/f/d/DEL produce the Meta keys; decoding does not depend on what precedes or follows.", "quantifier": "all inputs before and after, all numeric parameter strings", "why_tests_cant": "Parameter strings and contexts are unbounded.", "anchors": ["terminal.go: Terminal.ioloop", "utils.go: escapeExKey, escapeSS3Key, escapeKey, readEscKey"]}
{"id": "C39", "title": "Ordinary text passes the decoder unchanged", "statement": "A run of runes without ESC is delivered rune by rune, in order, nothing added or dropped; an unrecognised ESC [ sequence is swallowed completely and delivers nothing.", "quantifier": "all inputs", "why_tests_cant": "Universal over unbounded inputs.", "anchors": ["terminal.go: Terminal.ioloop"]}
{"id": "C40", "title": "The reader never stalls", "statement": "After any key that does not end the current Readline call the library goes on to read the next key; it never waits for a wake-up that nobody will send.", "quantifier": "all key sequences, all modes", "why_tests_cant": "Lost wake-ups depend on mode and key history.", "anchors": ["terminal.go: Terminal.ioloop, KickRead", "operation.go: ioloop", "vim.go: HandleVimNormal"]}
{"id": "C41", "title": "Vim mode switching", "statement": "With vim mode on, in insert mode every key but ESC is handled as in emacs mode; ESC enters normal mode; i I a A s S c enter insert mode; in normal mode every other key that does not end the line stays in normal mode, and adds no text except p (pastes the cut text), r (replaces one rune) and j, k (recall history).", "quantifier": "all states and key sequences", "why_tests_cant": "Universal over states.", "anchors": ["vim.go: HandleVim, HandleVimNormal, handleVimNormalMovement, handleVimNormalEnterInsert"]}
{"id": "C42", "title": "Wire message round trip", "statement": "Reading what Message.WriteTo produced yields the same type and data and consumes exactly those bytes, whatever follows.", "quantifier": "all message types, all payloads shorter than 2^31-2 bytes, all following bytes", "why_tests_cant": "Round trip over all payloads.", "anchors": ["remote.go: Message.WriteTo, ReadMessage, NewMessage"]}
{"id": "C43", "title": "Wire stream framing", "statement": "A stream of concatenated messages is read back as the same sequence of messages; a stream cut at any byte yields the complete messages before the cut and then an error.", "quantifier": "all message sequences, all cut points", "why_tests_cant": "Universal over sequences and cuts.", "anchors": ["remote.go: ReadMessage, RemoteSvr.readLoop, RemoteCli.readLoop"]}
{"id": "C44", "title": "Malformed frames are rejected", "statement": "Any byte sequence sent by a peer is either decoded or rejected with an error; it cannot crash the server.", "quantifier": "all byte sequences", "why_tests_cant": "Adversarial inputs.", "anchors": ["remote.go: ReadMessage, GotIsTerminal, GotReportWidth, RemoteSvr.init, readLoop"]}
{"id": "C45", "title": "Remote input is delivered in order exactly once", "statement": "The bytes returned by RemoteSvr.Read over all calls are, in every schedule of receive loop and reader, a prefix of the concatenated data payloads received.", "quantifier": "all message sequences, all read sizes, all interleavings", "why_tests_cant": "All schedules.", "anchors": ["remote.go: RemoteSvr.Read, readLoop"]}
{"id": "C46", "title": "Remote input wakes the reader", "statement": "When data or end-of-input has been received, a reader waiting in RemoteSvr.Read returns.", "quantifier": "all interleavings of receive loop and reader", "why_tests_cant": "Lost wake-up needs a particular schedule.", "anchors": ["remote.go: RemoteSvr.Read, readLoop"]}
{"id": "C47", "title": "Remote writes are atomic and acknowledged", "statement": "Concurrent Write calls put complete frames on the connection in some order, each call is answered exactly once with the outcome of its own frame, and the reported count is the number of bytes of the caller's data.", "quantifier": "all numbers of writers, all interleavings", "why_tests_cant": "All schedules.", "anchors": ["remote.go: RemoteSvr.Write, writeMsg, writeLoop, RemoteCli.Write"]}
{"id": "C48", "title": "Cancelable stdin", "statement": "CancelableStdin.Read returns the bytes of the underlying reader in order, each once; after Close every pending and later Read returns io.EOF without waiting for input; Close may be called any number of times.", "quantifier": "all interleavings of Read, the background reader and Close", "why_tests_cant": "All schedules.", "anchors": ["std.go: CancelableStdin.Read, ioloop, Close"]}
{"id": "C49", "title": "Prefilled input comes first and complete", "statement": "Bytes given to WriteStdin are returned by the following reads before any byte of the real input, all of them and in order.", "quantifier": "all prefill contents, all read buffer sizes, all interleavings of the filler goroutine and reads", "why_tests_cant": "Depends on read buffer sizes and timing.", "anchors": ["std.go: FillableStdin.Read, ioloop", "readline.go: WriteStdin"]}
{"id": "C50", "title": "Close ends a pending Readline and returns", "statement": "Instance.Close makes a pending Readline return io.EOF, may be called repeatedly and concurrently, and itself returns.", "quantifier": "all interleavings of Close, the pending Readline, the terminal loop and the input", "why_tests_cant": "All schedules.", "anchors": ["readline.go: Instance.Close", "operation.go: Operation.Close, Runes", "terminal.go: Terminal.Close, ioloop", "std.go: FillableStdin.Close"]}
{"id": "C51", "title": "Config.Init sets defaults once", "statement": "Init replaces unset fields by the documented defaults (history limit 500, prompts ^C and ^D, a newline meaning an empty prompt), keeps set fields, never fails, and a second Init changes nothing.", "quantifier": "all configurations", "why_tests_cant": "Universal over configurations.", "anchors": ["readline.go: Config.Init, Config.Clone, NewEx"]}
{"id": "C52", "title": "ReadPassword leaves the instance as it was", "statement": "After ReadPassword returns, prompt, mask, and history of the instance are those before the call.", "quantifier": "all instance states", "why_tests_cant": "Universal over states.", "anchors": ["operation.go: PasswordWithConfig, SetConfig, SetHistoryPath", "password.go: EnterPasswordMode, ExitPasswordMode", "history.go: Init"]}
{"id": "C53", "title": "Passwords are never recorded in history", "statement": "A line read by ReadPassword is not stored in the instance's history nor its history file.", "quantifier": "all schedules of the caller and the editing goroutine", "why_tests_cant": "All schedules.", "anchors": ["operation.go: ioloop case CharEnter, PasswordWithConfig", "password.go"]}
{"id": "C54", "title": "Printing while a line is edited keeps the line", "statement": "Writing through Stdout()/Stderr() during editing delivers exactly the written bytes once, between erasing and redrawing the edit line, and does not change the line, the cursor or the history.", "quantifier": "all states, all written texts", "why_tests_cant": "Universal over states.", "anchors": ["operation.go: wrapWriter.Write", "runebuf.go: Refresh"]}
{"id": "C55", "title": "Editing the line never corrupts stored history", "statement": "Whatever editing commands are applied to the current line, the stored text of history entries in memory is not modified.", "quantifier": "all editing command sequences, all ways a history entry can get into the line (recall, search), all slice capacities", "why_tests_cant": "Aliasing depends on slice capacities and on how the line was obtained.", "anchors": ["history.go: Prev, Next, showItem, Update, Push", "search.go: search, ExitSearchMode", "runebuf.go: SetWithIdx and in-place edits"]}
{"id": "C56", "title": "Backup and Restore", "statement": "RuneBuffer.Restore after Backup brings back text and cursor at the time of the Backup whatever edits happened in between.", "quantifier": "all edit sequences, all slice capacities", "why_tests_cant": "Aliasing depends on capacities.", "anchors": ["runebuf.go: Backup, Restore"]}
{"id": "C57", "title": "Input filter and listener", "statement": "FuncFilterInputRune sees every key first, a rejected key has no effect on line and history, a translated key acts as the translation; the Listener sees the line after every handled key and, if it returns ok, its line and position replace the edited ones.", "quantifier": "all keys, all filters, all listeners", "why_tests_cant": "Universal over callbacks.", "anchors": ["operation.go: ioloop, FuncFilterInputRune, Listener"]}
{"id": "C58", "title": "Lines reach callers in order exactly once", "statement": "Over consecutive Readline calls the results are exactly the results produced by the editing goroutine, in order, none lost or duplicated, in every schedule.", "quantifier": "all interleavings of caller and editing goroutine, any number of calls", "why_tests_cant": "All schedules.", "anchors": ["operation.go: outchan, errchan, Runes, ioloop"]}
{"id": "C59", "title": "Locks cannot deadlock", "statement": "The library's mutexes are always taken in one fixed order and never re-entered, so no set of concurrent API calls deadlocks on them.", "quantifier": "any number of concurrent calls, all interleavings", "why_tests_cant": "All schedules.", "anchors": ["operation.go: Operation.m", "runebuf.go: RuneBuffer.Mutex", "history.go: fdLock", "terminal.go: Terminal.m"]}
{"id": "C60", "title": "Text survives the byte encoding", "statement": "Lines are turned into UTF-8 bytes (history file, ReadSlice, Readline) and back without change as long as they consist of valid code points; the newline byte occurs only for the newline rune; invalid runes become U+FFFD; arbitrary bytes are read as the encoding of a scalar value where they start with one, and otherwise as one U+FFFD per byte.", "quantifier": "all rune sequences, all byte sequences", "why_tests_cant": "The code space and sequences are unbounded.", "anchors": ["operation.go: String, Slice", "history.go: Update, historyUpdatePath"]}
{"id": "C61", "title": "After end of input no call returns", "statement": "Once Readline has reported io.EOF because the input ended, the editing goroutine is gone and every later call of Readline waits for ever.", "quantifier": "all sessions, all key sequences before the end of input", "why_tests_cant": "A test can only observe that a call has not returned yet.", "anchors": ["operation.go: ioloop (case r == 0), Runes"]}
{"id": "C62", "title": "Vim normal-mode commands", "statement": "Each command of vim's normal mode (0 ^ $ h l b B w W e E f F t T x r d{d,w,h,l} p i I a A s S c{c,w,h,l}) changes line, cursor and cut text exactly as its definition says, consumes exactly its keys, and touches neither history nor results.", "quantifier": "all lines, cursor positions, cut texts, all commands and arguments, all sequences of commands", "why_tests_cant": "Lines and command sequences are unbounded.", "anchors": ["vim.go: handleVimNormalMovement, handleVimNormalEnterInsert, HandleVimNormal", "runebuf.go: MoveToEndWord, MoveTo, DeleteWord, Replace"]}
{"id": "C63", "title": "Nothing is drawn when the output is not a terminal", "statement": "On an instance whose output is not a terminal, no editing command, erase or redraw writes a byte.", "quantifier": "all command sequences, all buffer states", "why_tests_cant": "Tests sample a few commands; the claim covers every sequence of commands from every state.", "anchors": ["runebuf.go: Refresh, clean, cleanWithIdxLine"]}
{"id": "C64", "title": "Display width of a text", "statement": "The width of a text is TabWidth per tab, nothing per control or combining rune, two per rune of a double-width script and one per other rune.", "quantifier": "all texts, all Unicode tables, all tab widths", "why_tests_cant": "Tests sample a few strings; the claim covers all texts and table contents.", "anchors": ["runes.go: Width, WidthAll"]}
{"id": "C65", "title": "Editing in place has the effect of editing values", "statement": "Whatever capacities append chooses, each editing command leaves the text, cursor and killed text it would leave if texts were immutable values, and writes to no array but that of the line, the spare room of its argument and new ones; so sequences of edits, recalls and submissions (without search hits and Backup) behave as on values.", "quantifier": "all commands and command sequences, all slice capacities, all memory layouts in which line, killed text and argument have arrays of their own", "why_tests_cant": "Whether append reuses an array depends on capacities that tests do not control.", "anchors": ["runebuf.go: editing methods", "runes.go: Copy", "history.go: Prev, Next, Update, New, Push"]}
{"id": "C66", "title": "Incremental search, key by key", "statement": "Ctrl-R or Ctrl-S starts a search with an empty search text; after every further key (text, backspace, Ctrl-R, Ctrl-S) the search text is what was typed, and the line, cursor and marked part are those of the nearest history element with a match on the side searched; a failed search changes only the banner; no result, history text or clipboard changes; the match is underlined and the banner names state, direction and search text.", "quantifier": "all key sequences during a search, all histories, both letter-case settings", "why_tests_cant": "Tests replay a few searches; the claim covers all sequences of keys over all histories.", "anchors": ["search.go: SearchMode, SearchChar, SearchBackspace, search, SearchRefresh, ExitSearchMode", "operation.go: ioloop"]}
{"id": "C67", "title": "A whole session behaves like a notebook", "statement": "With the editing keys (apart from the misbehaving uses of Ctrl-W and Ctrl-T, C11 and C13), Ctrl-P, Ctrl-N, Enter, Ctrl-C and Ctrl-D, every call of Readline returns the line a notebook shows: one page per stored entry plus one for the new line; Ctrl-P and Ctrl-N turn pages and put the cursor at the end; changes stay on their page until the line ends; Enter records the line and drops all other changes (without auto-save it records nothing and drops nothing); Ctrl-C and Ctrl-D on an empty line drop all changes; the oldest pages are torn out beyond the limit. Left out: Enter as the very first key of an instance without history (C33).", "quantifier": "all sessions: any number of calls, all key sequences, all history files with storable entries, all limits of at least 2", "why_tests_cant": "Tests replay a few sessions; the claim covers every interleaving of edits, recalls and calls.", "anchors": ["operation.go: ioloop", "history.go: Prev, Next, New, Update, Revert", "runebuf.go: Set"]}
{"id": "C68", "title": "The list of candidates on the screen", "statement": "When the list of completion candidates is drawn, the terminal shows the line unchanged, below it every candidate (with the text it completes) in equal columns that fit in the screen's width and as many of them as fit, in order, with only the selected candidate highlighted and nothing else; what is above the line is untouched; the cursor returns to its place in the line; and the next redraw of the line removes the list.", "quantifier": "all lines, cursor positions, screen widths, candidate lists and earlier contents of the screen", "why_tests_cant": "Rows, wrapping and cursor movement depend on line length, cursor, width and the number and lengths of candidates together; tests look at returned lines, not at a screen.", "anchors": ["complete.go: CompleteRefresh", "runebuf.go: CursorLineCount"]}
{"id": "C69", "title": "What a session leaves on the screen", "statement": "At any moment of a session the terminal shows, from the row in which the session began, one paragraph for each finished call of Readline (prompt and returned line, wrapped at the width; after Ctrl-C and Ctrl-D with the configured hint), then the prompt and the line being edited, with the cursor on the rune under the editing cursor, and nothing else; what stood above is untouched. With UniqueEditLine only the line being edited is shown. Ctrl-L moves the line to the top of an otherwise empty screen.", "quantifier": "all key sequences, numbers of calls, prompts, screen widths and earlier contents of the screen", "why_tests_cant": "The screen is the sum of everything written since the start; a wrong row count in one redraw destroys text of earlier calls, and no test looks at the screen after several calls.", "anchors": ["operation.go: ioloop", "runebuf.go: Refresh, Clean, Reset", "utils_unix.go: ClearScreen"]}
{"id": "C70", "title": "Escape sequences on the Windows console", "statement": "What is written through ANSIWriter, in parts of any size, appears on the Windows console as it would on a terminal: text is printed in order, cursor movements, erasures and colours take effect where they stand, unknown sequences are ignored, no input crashes the writer. In particular, after any editing the console shows the prompt and the line wrapped at the width, nothing else below, everything above untouched, and the cursor on the rune under the editing cursor.", "quantifier": "all byte streams, all ways of cutting them into writes, all console sizes and contents, all editing commands", "why_tests_cant": "There is no test for the Windows files, and the console buffer, its cursor and the pending text depend on everything written before and on how it was cut into writes.", "anchors": ["ansi_windows.go: Write, process, ioloopEscSeq, killLines, eraseLine", "runebuf.go: isInLineEdge, output"]}
{"id": "C71", "title": "The settings of the terminal", "statement": "During a call of Readline the terminal is in raw mode (no echo, no line editing, no signals, no input translation, eight bits, reads of one byte) with every other setting kept; after the call, however often it was suspended by Ctrl-Z and whatever others changed meanwhile, the settings are what others have made of them, as though the library had not been there; Close changes nothing more. ReadPassword(fd) returns one line without its line break, of any length, without echo, leaves the rest of the input alone and restores the settings.", "quantifier": "all settings and platform constants, any number of calls and suspensions, any changes by others, all input lines", "why_tests_cant": "The settings live in the operating system and are saved and restored in different places; the tests run without a terminal.", "anchors": ["term.go: MakeRaw, Restore, ReadPassword", "term_windows.go: ReadPassword", "utils.go: RawMode", "terminal.go: SleepToResume"]}
{"id": "C72", "title": "The keyboard of the Windows console", "statement": "What is typed on the Windows console arrives as the keys meant: characters as themselves (as often as the key repeats), arrows, Home, End and Delete as on other systems, Alt with a key like Escape and the key, Alt with Backspace as deleting a word, Ctrl with a letter as its control character; events that mean nothing (mouse, focus, releases, Shift) have no effect wherever they occur; in vim mode Alt arrives as Escape and the key.", "quantifier": "all sequences of presses and all interleavings with other events", "why_tests_cant": "There is no test for the Windows files; the reader keeps state between events, so a wrong state shows only in later keys.", "anchors": ["rawreader_windows.go: Read, write, writeEsc", "terminal.go: ioloop"]}
{"id": "C73", "title": "Setting the title", "statement": "SetTitle sets the title of the window and leaves the text on the screen, the cursor and the meaning of what is written afterwards as they were, on a terminal and on the Windows console.", "quantifier": "all titles, all screens", "why_tests_cant": "What a sequence does depends on the terminal, which the tests do not have; the wrong introducer goes unnoticed unless the screen is examined.", "anchors": ["operation.go: SetTitle", "ansi_windows.go: ioloopEscSeq"]}
{"id": "C74", "title": "From the bytes typed to the lines returned, over several runs", "statement": "When a program is run several times on one history file, every call of Readline returns the line obtained by editing and browsing with the keys that the bytes from the terminal encode, where the entries to browse are the newest ones that all earlier calls and runs left; after the last run the history file holds exactly the entries recorded.", "quantifier": "all numbers of runs, all byte sequences encoding keys of the notebook (editing keys, Ctrl-P, Ctrl-N, Enter, Ctrl-C, Ctrl-D), all initial history files of storable entries, all limits of at least 2", "why_tests_cant": "The result of a call depends on all bytes typed before, in this run and the earlier ones, through the decoder, the editor, the history and the file; tests exercise these parts one at a time.", "anchors": ["terminal.go: ioloop", "operation.go: ioloop", "history.go: New", "history.go: historyUpdatePath"]}
{"id": "C75", "title": "Wide runes on the terminal", "statement": "For lines that contain runes of two columns, a redraw shows the prompt and the line wrapped at the width and nothing else, leaves the rows above untouched, and puts the terminal's cursor on the cell of the rune under the editing cursor.", "quantifier": "all sequences of editing commands, all lines of printable runes of at least one column, all prompts shorter than a row, all terminal widths", "why_tests_cant": "Whether a wide rune meets the edge of the screen, and what the cursor has to step over, depends on the whole line and the width; the tests check the strings written for single-column text only.", "anchors": ["runebuf.go: output", "runebuf.go: getBackspaceSequence", "runebuf.go: idxLine", "utils.go: SplitByLine", "runes.go: Width"]}
{"id": "C76", "title": "Whole sessions in vim mode", "statement": "In vim mode a session is the notebook of C67 with an insert and a normal mode: ESC and the insert commands switch between them, each command of normal mode changes the line as C62 says, j and k open other pages, a changed line stays changed on its page while other pages are open, and Enter in either mode returns the line and records the line it returns.", "quantifier": "all sequences of calls of Readline and of keys in them, in both modes; all history contents and limits; with and without auto-save", "why_tests_cant": "The states that matter combine mode, open page and whether the last change was noted in the history; a test visits a few of the infinitely many key sequences, and the tests never leave insert mode.", "anchors": ["vim.go: HandleVim", "vim.go: HandleVimNormal", "vim.go: handleVimNormalMovement", "operation.go: ioloop", "history.go: New", "history.go: Update"]}
{"id": "C77", "title": "From the bytes typed to the screen, over several runs", "statement": "A program that calls Readline is run several times on one terminal and one history file. For the bytes the keyboard sends, the calls return what the notebook of C67 says, the file holds the recorded lines, and the screen shows one paragraph per call, prompt and line, over all runs, below what was there before and with nothing after it; the cursor is at the start of the next row.", "quantifier": "all byte streams that encode such keys, all numbers of runs and calls, all history contents, screen widths, prompts and previous screens", "why_tests_cant": "The claim is about the whole path from the bytes read to the cells of the screen; tests check single stages on single inputs, and none of them looks at a screen.", "anchors": ["operation.go: Runes", "operation.go: ioloop", "terminal.go: ioloop", "runebuf.go: output", "history.go: historyUpdatePath", "history.go: New"]}
{"id": "C78", "title": "What the incremental search shows on the terminal, and what it leaves behind", "statement": "While an incremental search is on, the terminal shows what was above, the prompt and the line found, in the row below the banner (whether the search is failing, its direction, the runes typed, a blank), and nothing else, with the cursor on the rune under the editing cursor. Over a whole session in which searches are started, extended, shortened, repeated, accepted, edited out of or given up, no trace of them remains: after n calls of Readline the screen shows exactly one paragraph per result. The code breaks it in four situations: the line ends at the edge of the screen with the cursor there (also an empty line without a prompt), the banner is longer than a row, the match runs over the edge of the screen, or it starts in a row above the cursor.", "quantifier": "all widths, prompts, histories, key sequences of the keys of C69 plus Ctrl-R and Ctrl-S, numbers of calls and moments within a call, as long as the screen has room for each search; all earlier screen contents", "why_tests_cant": "The effect of a search on the screen depends on the width, the lengths of prompt, line, match and banner, the position of the cursor and everything written before; a test looks at one combination, and the project has no test that looks at a screen at all.", "anchors": ["search.go:67-113", "search.go:115-164", "runebuf.go:549-583", "operation.go:187-200", "operation.go:217-262", "operation.go:346-355"]}
{"id": "C79", "title": "Resizing the window while lines are read", "statement": "Changing the width of the window between two keys or two calls does not change what is read: the calls of Readline return the lines, interrupts and end of input the keys describe, and the history holds the same entries, whatever widths the window takes, as long as the prompt can be drawn in them. No key crashes the loop or makes it spin because of a new width, also while a search runs or the menu of candidates is open. On a terminal that rewraps its lines, the next key redraws prompt and line wrapped at the new width, with the rows above untouched. The code breaks it when the new width divides the width of the prompt (the redraw never ends), when the window gets narrower than a candidate of the open menu (division by zero), on terminals that do not rewrap (rows above are overwritten, or the line is shown twice, because nothing is drawn at the change and rows are counted in the new width), and with two instances (only the one created last is told).", "quantifier": "all sessions of keys, histories, prompts, and all schedules of width changes between keys and calls", "why_tests_cant": "A change of width can fall between any two keys, in any mode, to any width; a test tries a few widths at a few moments, and needs a real terminal and SIGWINCH.", "anchors": ["operation.go:82-87", "complete.go:184-186", "search.go:45-47", "runebuf.go:42-46", "utils_unix.go:57-82"]}
{"id": "C80", "title": "A session with completion behaves like a notebook and a list of candidates", "statement": "A whole session of text, editing keys, history keys, Tab and the keys of the list of candidates behaves like the notebook of C67 with a list beside it. Tab completes what the candidates share, lists them, or highlights the first; the list follows the text typed while it is shown, and any other key closes it; while a candidate is highlighted the arrows and Tab move the highlight by row and column, Enter takes the candidate, Ctrl-G and Ctrl-C give it up, and any other key gives it up and then acts as usual. The calls of Readline return the lines, interrupts and end of input that notebook and list describe, and the history, the line and the page shown afterwards are those of the notebook. The code breaks it for Ctrl-K: it leaves the list open for a text that is gone, and typing that text again highlights candidates that belong to another place in the line.", "quantifier": "all sessions of such keys, all completers whose shared part lies left of the cursor, all stored histories, window widths and prompts", "why_tests_cant": "The list is a mode that every key treats differently, the candidates come from a caller's function, and each key may be pressed in each mode on each line; tests drive a few keys in one mode.", "anchors": ["complete.go:42-283", "operation.go:142-370"]}
{"id": "C81", "title": "On a terminal of finite height a session scrolls like printed text", "statement": "The terminal has h rows and scrolls when the cursor leaves the last one. At every moment of a session the screen is a window of h rows on the transcript of C69: what stood above the first prompt, one paragraph for each result, and the prompt with the line being edited. Nothing of the transcript is below the window, the window moves only as far as the tallest line so far requires, and the cursor is on the rune under the editing cursor. The code breaks the last clause for a line taller than the screen: its start has scrolled away, and a cursor at the start of the line is shown on a rune further on.", "quantifier": "all sessions of text, editing and history keys, all screens of at least one row and their contents, all prompts and lines, also lines taller than the screen", "why_tests_cant": "The line is redrawn by moving up over its rows and erasing; whether that hits the right row depends on whether the terminal has scrolled since, hence on the height, the place of the prompt and the history of heights of the line.", "anchors": ["runebuf.go:453-607", "operation.go:142-370"]}
{"id": "C82", "title": "A session with completion and search behaves like a notebook, a list of candidates and a finder", "statement": "A whole session of text, editing keys, history keys, completion and incremental search behaves like the notebook of C67 with either the list of C80 or a finder beside it. Ctrl-R and Ctrl-S start the finder from any state of the list; text, Backspace, Ctrl-R and Ctrl-S show the nearest page with a hit and put the cursor at it; Ctrl-G and Ctrl-C go back to the page from which the last Ctrl-R or Ctrl-S was pressed; every other key keeps the page found and acts on it, and Enter returns its line. The calls of Readline return the lines, interrupts and ends of input that this describes, each line returned is recorded unless it is empty or the last entry again, and history, line and page shown afterwards are those of the notebook. The code breaks it for Enter during a search: the line is returned, but what is recorded is the last draft of the page found, often nothing.", "quantifier": "all sessions of such keys, all completers whose shared part lies left of the cursor, all stored histories, window widths and prompts", "why_tests_cant": "The three modes share one history position, one line and one list of edited pages; what Enter records depends on which pages were edited in any earlier call of the session.", "anchors": ["search.go:16-164", "history.go:106-330", "complete.go:42-283", "operation.go:142-370"]}
{"id": "C83", "title": "The history file and the completer can be changed while the program runs", "statement": "A program may call Line, AddHistory, SetHistoryPath and SetAutoComplete in any order. At every moment one history file is in use, or none. SetHistoryPath takes another file into use: the newest entries of that file, up to the limit, are what can be recalled from then on, and no entry of the file used before is lost from that file or mixed into the new one. AddHistory adds its line to the entries and to the end of the file in use, and to no other file, unless it is empty or repeats the newest entry. Line returns what the session of C82 returns. SetAutoComplete changes only the completer. The code breaks this in several ways: the method SetHistoryPath of an Instance neither loads nor writes the file; SetAutoComplete forgets a history that has no file; AddHistory after a recalled line adds that line instead of its argument.", "quantifier": "all programs of such calls, all keys typed meanwhile, all sets of history files with any entries, all completers, window widths, prompts and limits of at least two", "why_tests_cant": "Each change of configuration makes a new history and leaves the old one behind with its file; whether some later call still reaches the old one depends on the whole sequence of calls before it.", "anchors": ["std.go:21-67", "operation.go:446-500", "readline.go:147-199", "readline.go:262-264", "readline.go:315-324", "history.go:33-104", "history.go:139-145"]}
{"id": "C84", "title": "Several sessions can share one history file", "statement": "Several sessions, in one process or in several, use the same history file at the same time. A session that begins has the newest lines of the file, up to its limit. Every line a session records goes to the end of the file, after the lines recorded earlier by itself and the others, and is found by all sessions that begin later. The file consists of whole recorded lines at every moment, even if a session dies while it shortens a file that has become too long. The code keeps this as long as the file is not longer than the limit; the file stays whole as long as no two sessions shorten it at the same time. Otherwise lines are lost: a session that began before the file was shortened goes on writing to the file that was replaced; a line recorded while another session shortens the file is lost; two sessions that shorten the file use the same temporary file, and may empty the history, double or tear its lines.", "quantifier": "all numbers of sessions, all orders of their system calls, all files of storable lines, all lines recorded, all limits of at least one, deaths at any moment, any temporary file left over", "why_tests_cant": "The outcome depends on the order of the system calls of several processes and on how long the file was when each of them began.", "anchors": ["history.go:66-95", "history.go:103-145", "history.go:305-324", "remote.go:424-466"]}
{"id": "C85", "title": "The loop around Readline gets exactly the submitted lines", "statement": "A program calls Line in a loop, skips results with CanContinue and stops at results with CanBreak. Its body then gets exactly the lines the user submitted, as UTF-8 bytes, in order, empty ones included, up to the moment the user leaves by end of input or by Ctrl-C on an empty line; a line given up with Ctrl-C is skipped; nothing is read after the user has left. The loop of the demo, which tests the error itself, does the same. The loop of the package documentation ends at the first Ctrl-C. ReadSlice is said to be the same as Readline but does not return the text given up, so with it the loop of the demo ends at any Ctrl-C.", "quantifier": "all sessions: all configurations, callbacks, keys and numbers of calls", "why_tests_cant": "Whether a result is skipped depends on the text left in the line when Ctrl-C was typed, after any editing.", "anchors": ["readline.go:1-17", "readline.go:237-259", "readline.go:270-273", "operation.go:376-401", "operation.go:429-435", "example/readline-im/readline-im.go:48-56", "example/readline-demo/readline-demo.go:97-107"]}
{"id": "C86", "title": "The printed tree of a completer shows its items", "statement": "Tree draws one line per item of a PrefixCompleter that has a name, in the order of the tree, each with the given prefix and with dashes that show its depth. The picture determines the items: two completers whose names fit on one line and do not begin with the branch sign look the same only if they have the same items in the same places. Dynamic items are not drawn, and what is below them is drawn one level up.", "quantifier": "all finite completers, all prefixes without line breaks", "why_tests_cant": "That no two trees look the same is a statement about all pairs of trees.", "anchors": ["complete_helper.go:25-56", "complete_helper.go:82-101"]}
{"id": "C87", "title": "The deprecated rune package agrees with the current one", "statement": "Equal, IndexAllBck, IndexAll, Index, ColorFilter, HasPrefix and Aggregate of the deprecated package runes return what the functions of the main package return without case folding, and panic on the same arguments. Width, WidthAll and Backspace agree except that a tab has no width.", "quantifier": "all texts, all lists of candidates, all Unicode tables in which a tab is a control character", "why_tests_cant": "Agreement on all inputs, including where both panic.", "anchors": ["runes/runes.go:11-155", "runes.go:50-212"]}
{"id": "C88", "title": "A session over a connection is a local session", "statement": "A user types at RemoteCli and a program calls Readline at the other end of the connection (RemoteSvr). The program gets the bytes the user typed, in order and without additions, up to where the connection broke, and the end of input only after all of them; so the calls return, and the history file holds, what a local session with the same keys would give. The client writes to its standard output exactly the texts the server wrote, in order, up to where the connection broke; its terminal is in raw mode exactly while the server asks for it, and its settings are restored when ServeBy returns.", "quantifier": "all inputs and all ways the reads cut them, reports of the width anywhere, all points at which the connection breaks in either direction, all schedules of the goroutines, all terminal settings and platforms", "why_tests_cant": "Cuts, schedules and inputs are unbounded; the wrong results need a particular interleaving.", "anchors": ["remote.go:127-150", "remote.go:200-228", "remote.go:287-416", "utils.go:264-278"]}
{"id": "C89", "title": "IsPrintable accepts what can be shown", "statement": "IsPrintable accepts a rune exactly if it is a Unicode scalar value and not a control character.", "quantifier": "all integers", "why_tests_cant": "A claim about all runes, including those that are no scalar values.", "anchors": ["utils.go:97-100"]}
{"id": "C90", "title": "The documented shortcuts do what is documented", "statement": "Whatever keys of the tables of doc/shortcut.md are pressed, from the bytes the terminal sends for them to the lines Readline returns and the lines appended to the history file, the session goes as the tables say, in normal mode, in search mode and in complete select mode.", "quantifier": "all sequences of documented keys and text, both modes of the keypad, all history files, all well-behaved completers", "why_tests_cant": "All key sequences in three modes, from the bytes on.", "anchors": ["doc/shortcut.md:1-62", "utils.go:103-213", "terminal.go:103-180", "operation.go:130-340", "search.go:60-160", "complete.go:50-200"]}
{"id": "C91", "title": "A terminal whose width is not known", "statement": "If the library cannot find out the width of the terminal (0 columns reported, or -1), a line that fits into one row is still shown on its row while it is edited, with the cursor where the editing cursor is, and nothing else on the screen changes.", "quantifier": "all sequences of editing commands, all prompts, all real widths, all contents of the screen", "why_tests_cant": "Tests have no terminal, and a width of 0 or -1 shows only on a screen that remembers what was above.", "anchors": ["runebuf.go:420-448", "runebuf.go:479-540", "runebuf.go:591-629", "utils_unix.go:30-54", "utils.go:215-231"]}
{"id": "C92", "title": "The example that reads commands of several lines", "statement": "The program example/readline-multiline prints, for the lines entered, exactly the commands they make: the lines without the blanks around them, up to and including the first that ends with a semicolon, joined by single blanks. The prompt is '>>> ' exactly while a command is incomplete. Each command printed is appended to the history file as one entry, unless it repeats the entry before, and the next run finds it there.", "quantifier": "all sequences of editing and history keys, all contents of the history file, all window widths that suit the prompts", "why_tests_cant": "What is recorded depends on the page of the history that is open when the last line is entered, over all earlier lines of the command; the tests never call SaveHistory after recalling lines.", "anchors": ["example/readline-multiline/readline-multiline.go:9-41", "operation.go:92-94", "operation.go:496-501", "history.go:246-294"]}
{"id": "C93", "title": "What completion shows on the terminal over a whole session, and what it leaves behind", "statement": "While a list of candidates is open, the terminal shows what was above, the prompt and the line, and from the next row on the answer of the completer to the line as it is at the moment (each candidate after the text it completes, in as many equal columns as fit), and nothing else, with the cursor in the row of the editing cursor. Over a whole session in which lists are opened, narrowed by typing, browsed as a menu, accepted, left by any editing key or given up, no trace of them remains: after n calls of Readline the screen shows exactly one paragraph per result. The code breaks it if Ctrl-K is typed while a list is open (the candidates for the old line stay, and in the menu the program crashes), if the input ends while a list is open (an extra prompt is drawn), and where a list does not fit (C68).", "quantifier": "all widths, prompts, histories, completers with candidates of one-cell runes, key sequences of the keys of C69 plus Tab, numbers of calls and moments within a call, as long as the screen has room for each list; all earlier screen contents", "why_tests_cant": "What remains on the screen depends on the width, the line, the candidates, the way each list was left and everything written before; the project has no test that looks at a screen, and its completion tests call the completer alone.", "anchors": ["complete.go:49-174", "complete.go:184-285", "operation.go:137-156", "operation.go:175-185", "operation.go:201-203", "operation.go:346-366"]}
{"id": "C94", "title": "What sessions with vim commands and Ctrl-T show on the terminal", "statement": "In vim mode, at any moment of a session - in normal or insert mode, between the keys of a command of several keys, after any movement, deletion, change, replacement or recall of a line of the history - the terminal shows the paragraphs of the results so far, below them the prompt and the line as it is, with the cursor on the rune under the editing cursor, and nothing else; after n calls of Readline it shows one paragraph per result. The same holds for Ctrl-T with and without vim mode. The code breaks it if the command r is followed by a control character or the end of the input (the control character becomes part of the line and is sent to the terminal), and for Ctrl-T at the end of a line of one rune (C07).", "quantifier": "all widths, prompts, histories, key sequences of the keys of C69, ESC and Ctrl-T (outside the two situations), numbers of calls and moments within a call; all earlier screen contents", "why_tests_cant": "Every command of normal mode redraws the line in its own way, and what the screen shows depends on the width, the line, the cursor and everything written before; the project has no test of vim mode and none that looks at a screen.", "anchors": ["vim.go:40-172", "operation.go:158-164", "runebuf.go:170-420"]}
{"id": "C95", "title": "What sessions mixing searches, completion and vim commands show on the terminal", "statement": "In a session in which searches, lists of candidates, menus and vim commands follow one another in any order, at any moment the terminal shows the paragraphs of the results so far, below them the prompt and the line as it is, and below it exactly what belongs to the mode at the moment: nothing, the banner of the search, or the completer's answer to the line in columns. After n calls of Readline it shows one paragraph per result and no trace of banners and lists. The code breaks it when two modes meet: Tab during a search opens a list that is never seen, Ctrl-R or Ctrl-S with a list open begins a search that is never seen, and ESC in vim mode during a search or with a list open leaves the mode on while its banner or list disappears with the next command.", "quantifier": "all widths, prompts, histories, completers whose candidates are runes of one cell, key sequences of the keys of C69, Ctrl-R, Ctrl-S, Tab, ESC and Ctrl-T (outside the excluded moments), with and without vim mode and a completer, numbers of calls and moments within a call; all earlier screen contents", "why_tests_cant": "Each mode has its own drawing code and relies on the others having cleaned up; the combinations are unbounded sequences of keys, and the project has no test that looks at a screen.", "anchors": ["operation.go:100-366", "search.go:27-164", "complete.go:49-285", "vim.go:40-172"]}
{"id": "C96", "title": "Sessions mixing searches, completion and vim commands on a terminal that scrolls", "statement": "On a terminal with h rows that scrolls at the bottom, a session of searches, lists of candidates, menus and vim commands shows a window on what it would show on a terminal without end (C95): at any moment the rows from some row k on, with nothing below the window, the cursor in the row of the editing cursor, and k just large enough for the lowest row written to. Earlier rows leave the screen at the top unchanged, and no list or banner leaves a trace in the window. The code breaks it when the list of candidates is as tall as the screen: going back up to the line stops at the top of the screen, the line is gone, and the cursor stands in the row of a candidate.", "quantifier": "all heights, widths, starting rows, prompts, histories, completers whose candidates are runes of one cell, key sequences of the keys of C95, numbers of calls and moments within a call, as long as the cursor never goes up by h rows or more; all earlier screen contents", "why_tests_cant": "Whether relative cursor movements are right depends on how far the terminal has scrolled between them, which depends on everything drawn before; the project has no test that looks at a screen.", "anchors": ["operation.go:100-366", "search.go:27-164", "complete.go:49-285", "runebuf.go:489-560"]}
{"id": "C97", "title": "A password never reaches the screen, over whole sessions", "statement": "At a masked prompt, what the terminal is sent at any moment of any session depends only on the shape of what is typed: two users who press the same control keys and type runes of the same widths with word breaks at the same places produce the same output and fail in the same way, and the results of the calls have the same kinds and the same shapes. The code breaks it with Ctrl-R and Ctrl-S, which are live at a password prompt: the line typed so far is an entry of the history, and the part of it that a search hits is written without the mask. It also breaks it at a masked prompt with an ordinary history, where the history keys show whether two lines were the same.", "quantifier": "all pairs of key sequences that differ only in the typed runes (same width, same word breaks); all states, prompts, widths, mask runes, painters, numbers of calls and moments within a call; masked configurations without vim mode, completer, filter and interfering listener, whose history records nothing (as that of ReadPassword)", "why_tests_cant": "Non-interference compares all pairs of inputs, over whole sessions; the project has one test of the mask rune and none that compares two runs.", "anchors": ["password.go:22-32", "operation.go:100-366", "runebuf.go:489-560", "search.go:27-164", "history.go:246-294"]}
{"id": "C98", "title": "Lines with tabs on the terminal", "statement": "A tab in the line (from the history, a default text, a completer or a listener) is shown as TabWidth blanks: after every editing command the screen shows the prompt and the line with its tabs expanded and nothing else, the rows above are untouched, and the terminal's cursor is on the cell of the rune under the editing cursor. The code breaks it when a tab is at or after the cursor: the way back counts runes, not columns. It also breaks it when a tab meets the edge of the screen: the terminal wraps it in the middle, the code counts it as the end of the row, and a redraw starts in the wrong row.", "quantifier": "all sequences of editing commands, all lines of tabs and printable runes of one column, all prompts, tab widths, starting rows, earlier screen contents and terminal widths, as long as the line with its tabs expanded leaves a column of its row free", "why_tests_cant": "Where the tabs and the cursor are relative to each other and to the edge depends on the whole line; the tests never print a tab.", "anchors": ["runebuf.go:479-540", "runes.go:10", "runes.go:146-164", "utils.go:215-231"]}
{"id": "C99", "title": "Results do not depend on the display", "statement": "What Readline returns depends on the keys, the callbacks and the history, not on what is displayed: two sessions with the same keys on different displays (prompt, window width and its changes during the session, mask, Painter, width tables, interactive terminal or not) return the same results and leave the same line, cursor, kill buffer, history, search and candidates. The code breaks it in three ways: Ctrl-A, Ctrl-E, Ctrl-N and Ctrl-P in the menu move by rows and columns, so that which candidate ends up in the line depends on the width; in a window without a width, search and completion are switched off and their keys become text; and on some displays a key crashes or never ends (C15).", "quantifier": "all pairs of displays, all key sequences including search, completion, menu and vim commands, all filters, completers and listeners, any number of calls, resizes at any time in either session", "why_tests_cant": "A relation between all pairs of runs; the drawing code and the editing code are interleaved in every method, so a read of a display field anywhere in the editing code could break it for some pair only.", "anchors": ["runebuf.go:450-466", "operation.go:93-367", "search.go:53-164", "complete.go:49-285", "vim.go:40-176"]}
{"id": "C100", "title": "What a masked line looks like on the terminal", "statement": "While a password is typed the screen shows, in the row of the prompt, the prompt and one mask rune for every rune of the line (nothing, if the mask is the rune 0 that GenPasswordConfig leaves), nothing else, with the rows above untouched; after Enter this stays and the cursor is at the start of the next row. The cursor should be behind the mask runes of the text before the editing cursor. The code breaks it in three ways: the way back to the cursor is written twice, so the cursor is right exactly at the end of the line (or at the left edge); a line that fills its row leaves the wrap pending and the next key erases the row above; and the rows are counted by the widths of the runes typed, so wide runes erase the row above although their mask runes take one row.", "quantifier": "all prompts (with colours), all lines of any runes but line breaks that leave a column of the row free, all editing commands, all mask runes that are printable or 0", "why_tests_cant": "Holds for all lines, commands and cursor positions; what is on the screen depends on the interplay of counted and shown columns and the state of the terminal.", "anchors": ["runebuf.go:479-543", "password.go:22-33"]}
{"id": "C101", "title": "What Ctrl-L leaves of a session on the screen", "statement": "Pressing Ctrl-L (outside vim's normal mode, where it does nothing) ends a search and closes a list of candidates, keeps the line and the cursor, and leaves the prompt and the line at the top of the screen and nothing else. Over a whole session the screen always shows the paragraphs of the calls since the last Ctrl-L, from the top row on (or, if it was never pressed, below what stood there before, which is untouched), then the line being edited with its banner or list, and the cursor is where the editing cursor is.", "quantifier": "all sessions of any number of calls with the keys of C95 and Ctrl-L at any moment (also while searching and with a list open), all plain prompts and widths, under the conditions of C95 on room and modes", "why_tests_cant": "Holds for all sessions and all positions of Ctrl-L in them; what remains on the screen depends on everything since the last one.", "anchors": ["operation.go:235-237", "operation.go:330-352", "utils_unix.go:47-50", "runebuf.go:479-596"]}
{"id": "C102", "title": "What sessions with masked lines look like on the terminal", "statement": "With EnableMask, after any number of calls of Readline the screen shows one paragraph per call, from the row on in which the session began: the prompt, one mask rune for every rune of the line (nothing for the mask rune 0), and after Ctrl-C and Ctrl-D the hint; what stood above is untouched and the cursor is at the start of the row below. In the course of a call the screen shows these paragraphs, then the prompt and one mask rune for every rune of the line of the moment. So two sessions whose results have the same kinds and lengths cannot be told apart on the screen.", "quantifier": "all sessions of any number of calls, all texts of runes of any width, all editing and history keys in any order, all prompts and widths, as long as every line leaves a column of its row free", "why_tests_cant": "Holds for all sessions; that nothing of a password is left on the screen is a statement about every cell after every key sequence.", "anchors": ["runebuf.go:479-596", "operation.go:264-340", "password.go:22-33"]}
{"id": "C103", "title": "HistoryDisable stops recording and nothing else", "statement": "After HistoryDisable, whatever is entered, saved, recalled, edited or cancelled, no entry is added, changed or dropped and nothing is written to the history file. After HistoryEnable the next line is recorded behind what was there before HistoryDisable, in memory and in the file. In between, browsing works as always: a call of Readline begins below the newest entry, and every entry reads as it was recorded. The code breaks the last sentence: with the history off an entry that was recalled and submitted reads as an empty line from then on, and in the next call Up starts from that entry.", "quantifier": "all histories within the limit, all sequences of saving, recalling, noting edits, cancelling and switching off in any order and number, all lines", "why_tests_cant": "Holds for all sequences of operations while the history is off; what the list is left in matters only after it is switched on again.", "anchors": ["history.go:229-236", "history.go:246-251", "readline.go:330-338", "operation.go:360-363"]}
{"id": "C104", "title": "GetOffset passes on the position the terminal reports", "statement": "Every call of Terminal.GetOffset calls its callback exactly once, with the position the terminal reports in answer to the query of that call. The code guarantees this only for calls made one at a time with no other report in between. A report nobody asked for (Shift-F3 of xterm is one) stays in the channel, and from then on every call gets the answer of the call before it; of two calls at the same time one may never be answered, or they get each other's answers.", "quantifier": "all schedules of any number of calls of GetOffset, their goroutines, the editing loop reading reports, and keys that look like reports", "why_tests_cant": "The outcome depends on the order in which goroutine, terminal and reader run, and on what was left in a channel of capacity one by earlier input.", "anchors": ["terminal.go:23", "terminal.go:35", "terminal.go:79-84", "terminal.go:172-179", "utils.go:153-167"]}
{"id": "C105", "title": "Ctrl-Z waits until the process has been stopped and continued", "statement": "After Ctrl-Z the program goes on (switches raw mode on and redraws) once it has been stopped and continued, and not before. The code infers this from a gap of more than 100 ms between two ticks. It goes on after every stop of more than 100 ms, at the first tick after the process is continued. After a shorter stop, or if the process is not stopped at all (the signal is ignored; on Windows nothing is sent), it waits for ever; and a machine that delays a tick by more than 100 ms lets it go on before it has been stopped.", "quantifier": "all sequences of ticks of any length, all sets of stops, all lags", "why_tests_cant": "The outcome depends on when the process is stopped, for how long, and how late its ticks are.", "anchors": ["utils.go:59-82", "terminal.go:42-53", "operation.go:231-234", "utils_windows.go:10-11", "utils_unix.go:23-28"]}
{"id": "C106", "title": "A cursor returned by a Listener cannot break the editor", "statement": "Whatever line and cursor a Listener returns, the editor goes on: the line is shown, and the next key is handled. The code checks nothing. A cursor within the line is fine; a negative one is accepted without complaint, the terminal's cursor goes into the prompt, and the next command that redraws the line crashes, whatever it is.", "quantifier": "all states, lines, prompts, widths and integers as cursor, all commands that follow", "why_tests_cant": "The crash comes one key after the call that causes it, for every negative cursor and every command.", "anchors": ["operation.go:339-345", "runebuf.go:574-579", "runebuf.go:438-444", "runebuf.go:450-466", "runebuf.go:512-540"]}
{"id": "C107", "title": "Vim mode can be switched while the program runs", "statement": "After any sequence of SetVimMode, SetConfig, assignments to a configuration's VimMode and passwords, the key decoder and the editor agree on whether vim mode is on, and IsVimMode, decoder and editor do what the current configuration says; SetVimMode changes the current configuration and starts in insert mode.", "quantifier": "all sequences of calls, all configurations, all terminal input, all sessions", "why_tests_cant": "The example programs set vim mode once, in the first configuration; the disagreement needs a second configuration, and its effect (no Escape whatever is typed) is a statement about all inputs.", "anchors": ["vim.go:9-38", "readline.go:211-218", "readline.go:315-324", "terminal.go:201", "terminal.go:246-254", "operation.go:158-164", "operation.go:458-491", "password.go:12-20"]}
{"id": "C108", "title": "Every part of the editor knows the width of the window", "statement": "After any sequence of window changes, SetConfig calls and passwords, the edit line, the list of candidates and the search all use the width of the window of the current configuration. The line always has the width of the first configuration's window; a search that was not current when the window changed keeps the old width.", "quantifier": "all sequences of window changes, configurations and passwords, all widths", "why_tests_cant": "It needs a window change at a certain time (while a password is being read), and shows only in a later search in a line longer than the window.", "anchors": ["operation.go:69-90", "operation.go:414-420", "operation.go:458-491", "search.go:35-47", "search.go:127-164", "complete.go:41-47", "complete.go:184-186", "runebuf.go:42-46", "password.go:12-20"]}
{"id": "C109", "title": "A password is asked for on the terminal of the instance", "statement": "ReadPassword draws its prompt exactly when the instance draws its lines: where FuncIsTerminal of the configuration (for a RemoteSvr, the client's report) or ForceUseInteractive says so; afterwards everything is as before. In the code the configuration for passwords asks the standard streams of the process instead.", "quantifier": "all configurations, all answers of FuncIsTerminal and of the process's own streams, all prompts, widths and commands typed", "why_tests_cant": "It takes a server without a terminal and a client with one, or the reverse; tests run both in one process.", "anchors": ["operation.go:403-420", "password.go:12-33", "readline.go:88-93", "readline.go:133-135", "remote.go:102-114", "runebuf.go:75-80", "runebuf.go:450-466"]}
{"id": "C110", "title": "Closing an instance ends what was started for its input", "statement": "Every goroutine that Config.Init starts for the standard input of an instance (of CancelableStdin and of FillableStdin), for its own configurations and for those of passwords, has been told to end once the instance is closed. In the code no CancelableStdin is ever closed, each ReadPassword leaves two goroutines, and Close reaches only the configuration the instance has last.", "quantifier": "all programs: all sequences of NewEx, SetConfig, Clone, PasswordWithConfig, ReadPassword and Close over any instances and configurations", "why_tests_cant": "A leaked goroutine changes no result; it shows only as growth over many calls, and a test ends its process.", "anchors": ["readline.go:95-104", "readline.go:150-154", "readline.go:277-284", "readline.go:315-324", "std.go:80-105", "std.go:128-133", "std.go:146-172", "std.go:194-197", "terminal.go:220-230", "password.go:22-33", "operation.go:403-420", "std.go:21-61"]}
{"id": "C111", "title": "No history file stays open", "statement": "At every moment at most the file of the history in use is open, and once the instance is closed no history file is. In the code a configuration set for a second time takes its own history into use without closing the other, whose file then stays open, also after Close.", "quantifier": "all sequences of SetConfig with new clones or with configurations used before, SetHistoryPath, uses of the history and passwords; all files and configurations", "why_tests_cant": "A file left open changes no result; it takes a program that goes back to a configuration SetConfig returned, and a count of the descriptors afterwards.", "anchors": ["operation.go:438-452", "operation.go:458-491", "password.go:12-33", "history.go:47-73", "history.go:139-145", "readline.go:150-154", "readline.go:197-199", "readline.go:277-284", "readline.go:315-324", "std.go:35-48"]}
