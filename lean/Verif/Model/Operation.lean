import Verif.Model.Search
import Verif.Model.Complete
import Verif.Model.Cmd
/-!
# /repo/operation.go (the editing loop) and /repo/vim.go

`Op` is the state owned by the goroutine `Operation.ioloop` together with the part of the terminal it depends on.
One iteration of the loop is `Op.iter`.

Terminal (/repo/terminal.go:98-116, 118-214), seen from the editing goroutine: `inp` is the sequence of keys the decoder
will still deliver (see `Verif.Model.Terminal` for the decoder), followed by the end of input.  After delivering Ctrl-C,
Enter, Ctrl-J or Ctrl-D the terminal goroutine waits for a token in `kickChan` (capacity 1) before reading on: `gate` says
that it waits, `kick` that a token is there.  Reading from a terminal that waits without a token is `Fault.block`.

Simplifications: callbacks are pure functions; the configuration does not change while the loop runs; results are
appended to `events` instead of being sent on `outchan`/`errchan` (see `Verif.Model.Channels`); suspending the process
(Ctrl-Z, `SleepToResume`) is a no-op; slices are values (see `Verif.Model.Heap`); a `Listener` returns a cursor that is
not negative.
-/

namespace RL

/-- What `Readline` can return: a line, io.EOF, or `ErrInterrupt` with a line. -/
inductive Event where
  | line (l : List Rune)
  | eof
  | interrupt (l : List Rune)
deriving DecidableEq, Repr

/-- The fields of `Config` the loop reads (/repo/readline.go:29-100). -/
structure OCfg where
  U : UTables
  d : DCfg
  h : HCfg
  /-- `FuncFilterInputRune` -/
  filter : Option (Rune → Rune × Bool)
  /-- `AutoComplete` -/
  auto : Option Completer
  /-- `Listener`; `none` as result means `ok == false` -/
  listener : Option (List Rune → Nat → Rune → Option (List Rune × Nat))
  /-- `UniqueEditLine` -/
  unique : Bool
  /-- `DisableAutoSaveHistory` -/
  noSave : Bool
  /-- `VimMode` -/
  vim : Bool
  interruptPrompt : List Rune
  eofPrompt : List Rune

/-- /repo/operation.go:21-35 `Operation`, with the terminal as described above. -/
structure Op where
  rb : RB
  hist : Hist
  search : Search
  comp : Comp
  /-- `vimMode == VIM_NORMAL` (the third mode, VIM_VISUAL, is never entered) -/
  vimNormal : Bool
  inp : List Rune
  gate : Bool
  kick : Bool
  events : List Event
  /-- `ioloop` has returned -/
  stopped : Bool

/-- The keys after which the terminal waits for a kick (/repo/terminal.go:206). -/
def stopKey (r : Rune) : Bool := r == CharInterrupt || r == CharEnter || r == CharCtrlJ || r == CharDelete

namespace Op

/-- /repo/terminal.go:98-105 `ReadRune` (0 at the end of input). -/
def readRune (o : Op) : R (Rune × Op) :=
  if o.gate = true ∧ o.kick = false then .error .block
  else
    let kick := if o.gate then false else o.kick
    match o.inp with
    | [] => .ok (0, { o with gate := false, kick := kick })
    | r :: rest => .ok (r, { o with inp := rest, gate := stopKey r, kick := kick })

/-- /repo/terminal.go:111-116 `KickRead`. -/
def kickRead (o : Op) : Op := { o with kick := true }

/-- /repo/terminal.go:107-109 `IsReading`; the flag is set a moment after the token is taken, here at once. -/
def isReading (o : Op) : Bool := !o.gate

/-- /repo/terminal.go:216-218 `Bell`. -/
def bell (o : Op) : Op := { o with rb := o.rb.write [.bell] }

/-- Run an editing method of the buffer. -/
def edit (c : OCfg) (k : Cmd) (o : Op) : R Op := do
  let rb ← k.apply c.U c.d o.rb
  .ok { o with rb := rb }

/-- `o.buf.Refresh(nil)` -/
def refreshNil (c : OCfg) (o : Op) : R Op := do
  let rb ← o.rb.refreshNil c.U c.d
  .ok { o with rb := rb }

/-- /repo/operation.go:503-507 `Refresh`. -/
def refresh (c : OCfg) (o : Op) : R Op := if o.isReading then o.refreshNil c else .ok o

/-- `o.buf.Clean()` -/
def clean (c : OCfg) (o : Op) : R Op := do
  let rb ← o.rb.clean c.U
  .ok { o with rb := rb }

/-- /repo/operation.go:454-456 `IsNormalMode`. -/
def isNormalMode (o : Op) : Bool := !o.comp.inComplete && !o.search.inMode

/-- `o.ExitSearchMode(revert)` -/
def exitSearch (c : OCfg) (revert : Bool) (o : Op) : R Op := do
  let (s, h, rb) ← Search.exitSearchMode c.U c.d revert o.search o.hist o.rb
  .ok { o with search := s, hist := h, rb := rb }

/-- `o.SearchMode(dir)` -/
def enterSearch (c : OCfg) (fwd : Bool) (o : Op) : R (Bool × Op) := do
  let (ok, s, h, rb) ← Search.searchMode c.U c.d c.h fwd o.search o.hist o.rb
  .ok (ok, { o with search := s, hist := h, rb := rb })

/-- `o.SearchChar(r)` -/
def searchChar (c : OCfg) (r : Rune) (o : Op) : R Op := do
  let (s, h, rb) ← Search.searchChar c.U c.d c.h r o.search o.hist o.rb
  .ok { o with search := s, hist := h, rb := rb }

/-- `o.SearchBackspace()` -/
def searchBackspace (c : OCfg) (o : Op) : R Op := do
  let (s, h, rb) ← Search.searchBackspace c.U c.d c.h o.search o.hist o.rb
  .ok { o with search := s, hist := h, rb := rb }

/-- `o.OnComplete()` -/
def onComplete (c : OCfg) (o : Op) : R (Bool × Op) := do
  let (ok, cm, rb) ← Comp.onComplete c.U c.d c.auto o.comp o.rb
  .ok (ok, { o with comp := cm, rb := rb })

/-- `o.CompleteRefresh()` -/
def completeRefresh (c : OCfg) (o : Op) : R Op := do
  let (cm, rb) ← o.comp.completeRefresh c.U o.rb
  .ok { o with comp := cm, rb := rb }

/-- `o.history.Update(o.buf.Runes(), false)` -/
def updateHistory (c : OCfg) (o : Op) : Op := { o with hist := o.hist.update c.h o.rb.buf false }

/-- What the callback registered with `FuncOnWidthChanged` does (/repo/operation.go:82-87, /repo/complete.go:184-186,
/repo/search.go:45-47, /repo/runebuf.go:42-46): the three parts of the editor learn the new width of the window.  Nothing is
drawn.  The callback runs in a goroutine of its own; here it runs while the loop waits for a key. -/
def resize (w : Int) (o : Op) : Op :=
  { o with comp := { o.comp with width := w }, search := { o.search with width := w }, rb := o.rb.onWidthChange w }

/-! ### Vim (/repo/vim.go) -/

/-- /repo/vim.go:40-96 `handleVimNormalMovement`; `none` means not handled. -/
def vimMovement (c : OCfg) (r : Rune) (o : Op) : R (Option (Rune × Op)) :=
  let ed (k : Cmd) (o : Op) : R (Option (Rune × Op)) := do let o ← o.edit c k; .ok (some (0, o))
  if r = 104 then .ok (some (CharBackward, o))
  else if r = 106 then .ok (some (CharNext, o))
  else if r = 107 then .ok (some (CharPrev, o))
  else if r = 108 then .ok (some (CharForward, o))
  else if r = 48 ∨ r = 94 then ed .home o
  else if r = 36 then ed .toEnd o
  else if r = 120 then do
    let o ← o.edit c .delete
    if o.rb.idx = o.rb.buf.length then ed .left o else .ok (some (0, o))
  else if r = 114 then do
    let (next, o) ← o.readRune
    ed (.replace next) o
  else if r = 100 then do
    let (next, o) ← o.readRune
    if next = 100 then ed .erase o
    else if next = 119 then ed .deleteWord o
    else if next = 104 then ed .backspace o
    else if next = 108 then ed .delete o
    else .ok (some (0, o))
  else if r = 112 then ed .yank o
  else if r = 98 ∨ r = 66 then ed .prevWord o
  else if r = 119 ∨ r = 87 then ed .nextWord o
  else if r = 101 ∨ r = 69 then ed .endWord o
  else if r = 102 ∨ r = 70 ∨ r = 116 ∨ r = 84 then do
    let (next, o) ← o.readRune
    if next = CharEsc then .ok (some (0, o))
    else ed (.moveTo next (r == 116 || r == 84) (r == 70 || r == 84)) o
  else .ok none

/-- /repo/vim.go:98-131 `handleVimNormalEnterInsert`; `none` means not handled. -/
def vimEnterInsert (c : OCfg) (r : Rune) (o : Op) : R (Option (Rune × Op)) :=
  let ed (k : Cmd) (o : Op) : R (Option (Rune × Op)) := do let o ← o.edit c k; .ok (some (0, { o with vimNormal := false }))
  if r = 105 then .ok (some (0, { o with vimNormal := false }))
  else if r = 73 then ed .home o
  else if r = 97 then ed .right o
  else if r = 65 then ed .toEnd o
  else if r = 115 then ed .delete o
  else if r = 83 then ed .erase o
  else if r = 99 then do
    let (next, o) ← o.readRune
    if next = 99 then ed .erase o
    else if next = 119 then ed .deleteWord o
    else if next = 104 then ed .backspace o
    else if next = 108 then ed .delete o
    else .ok (some (0, { o with vimNormal := false }))
  else .ok none

/-- /repo/vim.go:133-151 `HandleVimNormal`. -/
def vimNormalKey (c : OCfg) (r : Rune) (o : Op) : R (Rune × Op) :=
  if r = CharEnter ∨ r = CharInterrupt then .ok (r, { o with vimNormal := false })
  else do
    match ← vimMovement c r o with
    | some x => .ok x
    | none =>
      match ← vimEnterInsert c r o with
      | some x => .ok x
      | none => .ok (0, o.bell)

/-- /repo/vim.go:161-176 `HandleVim`. -/
def handleVim (c : OCfg) (r : Rune) (o : Op) : R (Rune × Op) :=
  if o.vimNormal then vimNormalKey c r o
  else if r = CharEsc then .ok (0, { o with vimNormal := true })
  else .ok (r, o)

/-! ### The key switch -/

/-- Result of the key switch: the local variables `keepInSearchMode`, `keepInCompleteMode`, `isUpdateHistory`
(/repo/operation.go:109,110,137). -/
structure KeyRes where
  op : Op
  keepSearch : Bool := false
  keepComplete : Bool := false
  update : Bool := true

/-- `case CharBell` (/repo/operation.go:166-174) -/
def keyBell (c : OCfg) (o : Op) : R KeyRes := do
  let o ← if o.search.inMode then do
      let o ← o.exitSearch c true
      o.refreshNil c
    else .ok o
  let o ← if o.comp.inComplete then refreshNil c { o with comp := o.comp.exitComplete } else .ok o
  .ok { op := o }

/-- `case CharTab` (/repo/operation.go:175-185) -/
def keyTab (c : OCfg) (o : Op) : R KeyRes :=
  match c.auto with
  | none => .ok { op := o.bell }
  | some _ => do
    let (ok, o) ← o.onComplete c
    if ok then .ok { op := o, keepComplete := true } else .ok { op := o.bell }

/-- `case CharBckSearch`, `case CharFwdSearch` (/repo/operation.go:187-192, 195-200) -/
def keySearch (c : OCfg) (fwd : Bool) (o : Op) : R KeyRes := do
  let (ok, o) ← o.enterSearch c fwd
  if ok then .ok { op := o, keepSearch := true } else .ok { op := o.bell }

/-- `case CharBackspace, CharCtrlH` (/repo/operation.go:216-230) -/
def keyBackspace (c : OCfg) (o : Op) : R KeyRes :=
  if o.search.inMode then do
    let o ← o.searchBackspace c
    .ok { op := o, keepSearch := true }
  else if o.rb.buf.length = 0 then .ok { op := o.bell }
  else do
    let o ← o.edit c .backspace
    if o.comp.inComplete then do
      let (_, o) ← o.onComplete c
      .ok { op := o }
    else .ok { op := o }

/-- `case CharEnter, CharCtrlJ` (/repo/operation.go:242-262) -/
def keyEnter (c : OCfg) (o : Op) : R KeyRes := do
  let o ← if o.search.inMode then o.exitSearch c false else .ok o
  let o ← o.edit c .toEnd
  let (data, o) ←
    if c.unique = false then do
      let o ← o.edit c (.insert [10])
      let (data, rb) := o.rb.reset
      if data.length = 0 then .error .panic else .ok (data.take (data.length - 1), { o with rb := rb })
    else do
      let o ← o.clean c
      let (data, rb) := o.rb.reset
      .ok (data, { o with rb := rb })
  let o := { o with events := o.events ++ [.line data] }
  if c.noSave = false then do
    let h ← o.hist.new c.h data
    .ok { op := { o with hist := h } }
  else .ok { op := o, update := false }

/-- `case CharPrev` (/repo/operation.go:267-273) -/
def keyPrev (c : OCfg) (o : Op) : R KeyRes :=
  match o.hist.prev with
  | (some b, h) => do
    let o ← edit c (.set b) { o with hist := h }
    .ok { op := o }
  | (none, h) => .ok { op := bell { o with hist := h } }

/-- `case CharNext` (/repo/operation.go:274-280) -/
def keyNext (c : OCfg) (o : Op) : R KeyRes :=
  match o.hist.nextLine with
  | (some b, h) => do
    let o ← edit c (.set b) { o with hist := h }
    .ok { op := o }
  | (none, h) => .ok { op := bell { o with hist := h } }

/-- `case CharDelete` (/repo/operation.go:281-300) -/
def keyDelete (c : OCfg) (o : Op) : R KeyRes :=
  if o.rb.buf.length > 0 ∨ o.isNormalMode = false then do
    let o := o.kickRead
    let (ok, rb) ← o.rb.delete c.U c.d
    let o := { o with rb := rb }
    if ok then .ok { op := o } else .ok { op := o.bell }
  else do
    let o ← if c.unique = false then o.edit c (.insert (c.eofPrompt ++ [10])) else .ok o
    let (_, rb) := o.rb.reset
    let o := { o with rb := rb, hist := o.hist.revert, events := o.events ++ [.eof] }
    let o ← if c.unique then o.clean c else .ok o
    .ok { op := o, update := false }

/-- `case CharInterrupt` (/repo/operation.go:301-325) -/
def keyInterrupt (c : OCfg) (o : Op) : R KeyRes :=
  if o.search.inMode then do
    let o ← o.kickRead.exitSearch c true
    .ok { op := o }
  else if o.comp.inComplete then do
    let o ← refreshNil c { o.kickRead with comp := o.comp.exitComplete }
    .ok { op := o }
  else do
    let o ← o.edit c .toEnd
    let o ← o.refreshNil c
    let hint := c.interruptPrompt ++ [10]
    let o ← if c.unique = false then o.edit c (.insert hint) else .ok o
    let (remain, rb) := o.rb.reset
    let remain ←
      if c.unique = false then
        (if remain.length < hint.length then .error .panic else .ok (remain.take (remain.length - hint.length)))
      else .ok remain
    .ok { op := { o with rb := rb, hist := o.hist.revert, events := o.events ++ [.interrupt remain] }, update := false }

/-- `default` (/repo/operation.go:326-336) -/
def keyText (c : OCfg) (r : Rune) (o : Op) : R KeyRes :=
  if o.search.inMode then do
    let o ← o.searchChar c r
    .ok { op := o, keepSearch := true }
  else do
    let o ← o.edit c (.insert [r])
    if o.comp.inComplete then do
      let (_, o) ← o.onComplete c
      .ok { op := o, keepComplete := true }
    else .ok { op := o }

/-- An editing key that only calls one method of the buffer (/repo/operation.go:193-215, 238-241, 263-266). -/
def simpleKey (r : Rune) : Option Cmd :=
  if r = CharCtrlU then some .killFront
  else if r = CharKill then some .kill
  else if r = MetaForward then some .nextWord
  else if r = CharTranspose then some .transpose
  else if r = MetaBackward then some .prevWord
  else if r = MetaDelete then some .deleteWord
  else if r = CharLineStart then some .home
  else if r = CharLineEnd then some .toEnd
  else if r = MetaBackspace ∨ r = CharCtrlW then some .backEscapeWord
  else if r = CharCtrlY then some .yank
  else if r = CharBackward then some .left
  else if r = CharForward then some .right
  else none

/-- The key switch (/repo/operation.go:165-337). -/
def key (c : OCfg) (r : Rune) (o : Op) : R KeyRes :=
  match simpleKey r with
  | some k => do
    let o ← o.edit c k
    .ok { op := o, keepComplete := r == CharKill }
  | none =>
    if r = CharBell then keyBell c o
    else if r = CharTab then keyTab c o
    else if r = CharBckSearch then keySearch c false o
    else if r = CharFwdSearch then keySearch c true o
    else if r = CharBackspace ∨ r = CharCtrlH then keyBackspace c o
    else if r = CharCtrlZ then do
      let o ← o.clean c
      let o ← o.refresh c
      .ok { op := o }
    else if r = CharCtrlL then do
      let o ← refresh c { o with rb := o.rb.write [.home] }
      .ok { op := o }
    else if r = CharEnter ∨ r = CharCtrlJ then keyEnter c o
    else if r = CharPrev then keyPrev c o
    else if r = CharNext then keyNext c o
    else if r = CharDelete then keyDelete c o
    else if r = CharInterrupt then keyInterrupt c o
    else keyText c r o

/-- The listener call (/repo/operation.go:339-345). -/
def listen (c : OCfg) (r : Rune) (k : KeyRes) : R KeyRes :=
  match c.listener with
  | none => .ok k
  | some f =>
    match f k.op.rb.buf k.op.rb.idx r with
    | none => .ok k
    | some (l, p) => do
      let rb ← k.op.rb.setWithIdx c.U c.d p l
      .ok { k with op := { k.op with rb := rb } }

/-- Leaving search and completion mode (/repo/operation.go:348-361). -/
def settle (c : OCfg) (k : KeyRes) : R Op :=
  if k.keepSearch = false ∧ k.op.search.inMode then do
    let o ← k.op.exitSearch c false
    o.refreshNil c
  else if k.op.comp.inComplete then
    if k.keepComplete = false then refresh c { k.op with comp := k.op.comp.exitComplete }
    else do
      let o ← k.op.refreshNil c
      o.completeRefresh c
  else .ok k.op

/-- The end of the loop body (/repo/operation.go:347-366). -/
def finish (c : OCfg) (k : KeyRes) : R Op := do
  let o ← settle c k
  if k.update ∧ o.search.inMode = false then .ok (o.updateHistory c) else .ok o

/-- Key switch, listener and end of the loop body. -/
def dispatch (c : OCfg) (r : Rune) (o : Op) : R Op := do
  let k ← o.key c r
  let k ← listen c r k
  finish c k

/-- Vim translation (/repo/operation.go:158-163), then the key switch. -/
def viaVim (c : OCfg) (r : Rune) (o : Op) : R Op :=
  if c.vim then do
    let (r, o) ← o.handleVim c r
    if r = 0 then .ok o else o.dispatch c r
  else o.dispatch c r

/-- Selection menu (/repo/operation.go:139-156), then the rest. -/
def viaMenu (c : OCfg) (r : Rune) (o : Op) : R Op :=
  if o.comp.inSelect then do
    let (keep, cm, rb) ← o.comp.handleSelect c.U c.d r o.rb
    let o := { o with comp := cm, rb := rb }
    if keep then .ok o
    else do
      let o ← o.refreshNil c
      if r = CharEnter ∨ r = CharCtrlJ then .ok (o.updateHistory c).kickRead
      else if r = CharInterrupt then .ok o.kickRead
      else if r = CharBell then .ok o
      else o.viaVim c r
  else o.viaVim c r

/-- The loop body after the filter (/repo/operation.go:122-364). -/
def handle (c : OCfg) (r : Rune) (o : Op) : R Op :=
  if r = 0 then
    if o.rb.buf.length = 0 then do
      let o ← o.clean c
      .ok { o with events := o.events ++ [.eof], stopped := true }
    else o.viaMenu c CharEnter
  else o.viaMenu c r

/-- The filter (/repo/operation.go:113-121), then the rest. -/
def accept (c : OCfg) (r : Rune) (o : Op) : R Op :=
  match c.filter with
  | none => o.handle c r
  | some f =>
    match f r with
    | (_, false) => o.kickRead.refreshNil c
    | (r', true) => o.handle c r'

/-- One iteration of `ioloop` (/repo/operation.go:108-365). -/
def iter (c : OCfg) (o : Op) : R Op := do
  let (r, o) ← o.readRune
  o.accept c r

/-- `n` iterations, stopping early when the loop has returned. -/
def iters (c : OCfg) : Nat → Op → R Op
  | 0, o => .ok o
  | n + 1, o => if o.stopped then .ok o else o.iter c >>= iters c n

/-- What the caller of `Readline` waits for (/repo/operation.go:393-400): iterate until there is a result.  The number
bounds the iterations; a result that needs more is reported as `Fault.hang`. -/
def await (c : OCfg) : Nat → Op → R (Event × Op)
  | n, o =>
    match o.events with
    | e :: es => .ok (e, { o with events := es })
    | [] =>
      match n with
      | 0 => .error .hang
      | n + 1 => if o.stopped then .error .block else o.iter c >>= await c n

/-- `Runes` (/repo/operation.go:381-401), `Readline` (/repo/readline.go).  The first call of the listener, whose result is
ignored, and the switch to raw mode have no effect on the state. -/
def readline (c : OCfg) (fuel : Nat) (o : Op) : R (Event × Op) := do
  let o ← o.refreshNil c
  await c fuel o.kickRead

/-- `NewOperation` (/repo/operation.go:69-90) for a history that has been set up as `h`; the terminal waits for the first
kick. -/
def init (prompt : List Rune) (interactive : Bool) (width : Int) (h : Hist) (inp : List Rune) : Op :=
  { rb := RB.new prompt interactive width, hist := h, search := Search.new width, comp := Comp.new width,
    vimNormal := false, inp := inp, gate := true, kick := false, events := [], stopped := false }

end Op
end RL
