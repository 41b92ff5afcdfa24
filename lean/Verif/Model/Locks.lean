/-!
# The mutexes of the library and where they are taken

Every function that takes a mutex is a program over `lock`, sequence and choice: which mutexes it takes, in which order and
nesting; everything else it does is left out.  Conditions are choices, so every path through the code is a path of the program (and
more).  `lock k p` takes a mutex of class `k` on some instance, runs `p` and releases it; all uses in the code have this
shape (`defer`, or `Unlock` on every path).

Callbacks are programs too (`CB`), run with the mutexes held that the code holds when it calls them.

`CancelableStdin.mutex` (/repo/std.go:108) is held while the reader waits for input; as far as mutexes are concerned it is released at once.

Not included: channels (`Verif.Model.Close`, `Verif.Model.Channels`); `sync.Once`; the mutex of the Windows writer.
-/

namespace RL.Locks

/-- The classes of mutexes. -/
inductive K where
  /-- `Operation.m` (/repo/operation.go:22) -/
  | op
  /-- `RuneBuffer.Mutex` (/repo/runebuf.go:35) -/
  | buf
  /-- `opHistory.fdLock` (/repo/history.go:29) -/
  | fd
  /-- `Terminal.m` (/repo/terminal.go:13) -/
  | term
  /-- `FillableStdin.Mutex` (/repo/std.go:138) -/
  | fill
  /-- `RemoteSvr.dataBufM` (/repo/remote.go:38) -/
  | svr
  /-- `RemoteCli.dataM` (/repo/remote.go:295) -/
  | cli
  /-- `CancelableStdin.mutex` (/repo/std.go:71) -/
  | cancel
deriving DecidableEq

/-- Programs. -/
inductive P where
  | skip
  | lock (k : K) (p : P)
  | seq (p q : P)
  | alt (p q : P)
deriving DecidableEq

/-- A mutex: class and instance. -/
abbrev Lk := K × Nat

inductive Act where
  | acq (l : Lk)
  | rel (l : Lk)
deriving DecidableEq

/-- The sequences of actions of a program. -/
inductive Runs : P → List Act → Prop
  | skip : Runs .skip []
  | lock {k p tr} (i : Nat) : Runs p tr → Runs (.lock k p) (.acq (k, i) :: (tr ++ [.rel (k, i)]))
  | seq {p q a b} : Runs p a → Runs q b → Runs (.seq p q) (a ++ b)
  | left {p q a} : Runs p a → Runs (.alt p q) a
  | right {p q a} : Runs q a → Runs (.alt p q) a

local infixr:55 " ;; " => P.seq
local infixr:50 " ?? " => P.alt

/-- Maybe. -/
def P.opt (p : P) : P := p ?? .skip

/-- What the callbacks of the configuration do with the mutexes of the library. -/
structure CB where
  /-- `Painter.Paint` -/
  paint : P
  /-- `Write` of `Stdout`/`Stderr` -/
  write : P
  /-- `FuncGetWidth`, `FuncIsTerminal` -/
  query : P
  /-- `Listener.OnChange`, `FuncFilterInputRune`, `AutoCompleter.Do`, `FuncMakeRaw`, `FuncExitRaw` -/
  user : P

section
variable (c : CB)

/-! ### runebuf.go -/

/-- `OnWidthChange` (:42), `Backup` (:48), `SetMask` (:82), `CurrentWidth` (:88), `PromptLen` (:94), `RuneSlice` (:105), `Runes` (:119),
`Pos` (:127), `Len` (:133), `IsCursorInEnd` (:182), `IdxLine` (:432), `SetOffset` (:468), `SetPrompt` (:585): they call nothing
that takes a mutex. -/
def field : P := .lock .buf .skip
/-- :75-80 `SetConfig` (`useInteractive` calls `FuncIsTerminal`) -/
def bufSetConfig : P := .lock .buf c.query
/-- :450-466 `Refresh` with closure `f` -/
def refresh (f : P) : P := .lock .buf (f ?? c.write ;; f ;; c.paint ;; c.write)
/-- The editing methods (`Refresh` with a closure that takes no mutex). -/
def edit : P := refresh c .skip
/-- :214-232 `DeleteWord` -/
def deleteWord : P := .skip ?? edit c
/-- :348-360 `Yank` -/
def yank : P := .skip ?? edit c
/-- :613-617 `Clean` -/
def clean : P := .lock .buf c.write
/-- :383-389 `LineCount` -/
def lineCount : P := field
/-- :446-448 `CursorLineCount` -/
def cursorLineCount : P := lineCount ;; field
/-- :556-572 `SetStyle` (no mutex) -/
def setStyle : P := c.write ;; c.write

/-! ### history.go -/

/-- `IsHistoryClosed` (:47), `historyUpdatePath` (:66), `Rewrite` (:103), `Close` (:139), `Update` (:301): what they call takes no
mutex. -/
def file : P := .lock .fd .skip
/-- :53-57 `Init` -/
def histInit : P := file ;; file.opt
/-- :246-294 `New` -/
def histNew : P := file.opt

/-! ### search.go -/

/-- :127-164 -/
def searchRefresh : P := field ;; field ;; (setStyle c).opt ;; cursorLineCount ;; c.write
/-- :67-92 -/
def search : P := searchRefresh c ?? (edit c).opt ;; searchRefresh c
/-- :53-58 -/
def searchBackspace : P := (search c).opt
/-- :99-113 -/
def searchMode : P := .skip ?? search c ?? searchRefresh c
/-- :115-125 -/
def exitSearch : P := (edit c).opt

/-! ### complete.go -/

/-- :188-242 -/
def completeRefresh : P := (cursorLineCount ;; field ;; c.write ;; field ;; c.write).opt
/-- :49-57 -/
def doSelect : P := edit c ?? completeRefresh c
/-- :67-111 -/
def onComplete : P :=
  .skip ?? doSelect c ?? field ;; (completeRefresh c ;; doSelect c ?? c.user ;; (.skip ?? edit c ?? completeRefresh c))
/-- :121-174 -/
def handleSelect : P := (edit c ?? .skip ?? doSelect c) ;; (completeRefresh c).opt

/-! ### vim.go -/

/-- :40-96 -/
def vimMovement : P := .skip ?? edit c ?? edit c ;; field ;; (edit c).opt ?? deleteWord c ?? yank c
/-- :98-131 -/
def vimInsert : P := .skip ?? edit c ?? deleteWord c
/-- :133-176 `HandleVim`, `HandleVimNormal` -/
def handleVim : P := .skip ?? vimMovement c ;; (vimInsert c).opt ;; c.write.opt

/-! ### operation.go -/

/-- :100-105 -/
def getConfig : P := .lock .op .skip
/-- :503-507 -/
def opRefresh : P := (edit c).opt
/-- terminal.go:216 `Bell` -/
def bell : P := c.write
/-- terminal.go:43-54 -/
def sleep : P := (c.user ;; c.user).opt

/-- The key switch (:165-337). -/
def keySwitch : P :=
  -- CharBell
  ((exitSearch c ;; edit c).opt ;; (edit c).opt) ??
  -- CharTab
  (getConfig ;; (bell c ?? onComplete c ;; (bell c).opt)) ??
  -- CharBckSearch, CharFwdSearch
  (searchMode c ;; (bell c).opt) ??
  -- editing keys
  edit c ?? deleteWord c ?? yank c ??
  -- CharBackspace, CharCtrlH
  (searchBackspace c ?? field ;; (bell c ?? edit c ;; (onComplete c).opt)) ??
  -- CharCtrlZ
  (clean c ;; sleep c ;; opRefresh c) ??
  -- CharCtrlL
  (c.write ;; opRefresh c) ??
  -- CharEnter, CharCtrlJ
  ((exitSearch c).opt ;; edit c ;; getConfig ;; (edit c ?? clean c) ;; getConfig ;; histNew.opt) ??
  -- CharPrev, CharNext
  (edit c ?? bell c) ??
  -- CharDelete
  (field ;; (edit c ;; (bell c).opt ?? getConfig ;; (getConfig ;; edit c).opt ;; getConfig ;; (clean c).opt)) ??
  -- CharInterrupt
  (exitSearch c ?? edit c ?? edit c ;; edit c ;; getConfig ;; getConfig ;; (edit c).opt ;; getConfig) ??
  -- default
  (search c ?? edit c ;; (onComplete c).opt)

/-- The end of the loop body (:347-366), under `Operation.m`. -/
def loopEnd : P := .lock .op (
  (exitSearch c ;; edit c ?? opRefresh c ?? edit c ;; completeRefresh c ?? .skip) ;; (field ;; file).opt)

/-- One iteration of `ioloop` (:108-366). -/
def ioloop : P :=
  getConfig ;; (getConfig ;; c.user ;; (edit c).opt).opt ;;
  (field ;; (clean c).opt).opt ;;
  (handleSelect c ;; (edit c ;; (field ;; file).opt).opt).opt ;;
  (handleVim c).opt ;;
  keySwitch c ;;
  getConfig ;; (field ;; field ;; c.user ;; (edit c).opt).opt ;;
  loopEnd c

/-- :448-454 `SetHistoryPath` -/
def setHistoryPath : P := file.opt
/-- :458-492 `SetConfig` -/
def setConfig : P := .lock .op (
  .skip ?? field ;; field ;; bufSetConfig c ;; c.query ;; setHistoryPath.opt ;; histInit)
/-- :381-401 `Runes` -/
def runes : P := c.user ;; getConfig ;; c.user.opt ;; edit c ;; c.user
/-- :48-67 `wrapWriter.Write` -/
def wrapWrite : P := c.write ?? refresh c c.write ;; (searchRefresh c).opt ;; (completeRefresh c).opt
/-- :418-424 `PasswordWithConfig` -/
def password : P := setConfig c ;; (runes c ;; setConfig c).opt
/-- :440-446 `Close` with terminal.go:220-230 -/
def close : P := file ;; c.user.opt
/-- terminal.go:232-254 `GetConfig`, `getStdin`, `SetConfig` -/
def termField : P := .lock .term .skip
/-- readline.go `SetConfig` -/
def instSetConfig : P := .skip ?? setConfig c ;; termField
/-- operation.go:83-88 the width callback -/
def widthChange : P := c.query ;; field
/-- operation.go:69-90 `NewOperation` -/
def newOperation : P := c.query ;; field ;; setConfig c ;; c.query
/-- terminal.go:118-214 the terminal loop: `getStdin`, then reading, in which `FillableStdin` (std.go:176) or `RemoteSvr.Read`
(remote.go:128) take their own mutex for a moment; `FillableStdin` then reads from `CancelableStdin` (std.go:107-126) or what the caller gave -/
def termLoop : P := termField ;; (.lock .fill .skip ;; (P.lock .cancel .skip).opt ?? .lock .svr .skip ;; (P.lock .svr .skip).opt)
/-- std.go:107-126 `CancelableStdin.Read`, called by the program itself -/
def cancelRead : P := .lock .cancel .skip
/-- std.go:160-170 -/
def fillLoop : P := .lock .fill .skip
/-- remote.go:202-229 `readLoop`: storing data, or a width report and its callback -/
def svrLoop : P := .lock .svr .skip ?? widthChange c
/-- remote.go:330-344 -/
def cliWrite : P := .lock .cli .skip

/-- Everything that runs concurrently on an instance: the methods of `Instance` and `Operation` and the goroutines. -/
def entries : List P :=
  [field, edit c, clean c, deleteWord c, yank c, bufSetConfig c, file, histInit, histNew, getConfig, opRefresh c, ioloop c, setHistoryPath,
    setConfig c, runes c, wrapWrite c, getConfig ;; wrapWrite c, password c, close c, termField, instSetConfig c, widthChange c,
    newOperation c, termLoop, cancelRead, fillLoop, svrLoop c, cliWrite, edit c ;; runes c]

end

/-- Threads: what each still has to do of its current call; and who holds what. -/
structure St where
  rem : Nat → List Act
  owner : Lk → Option Nat

def St.init : St := ⟨fun _ => [], fun _ => none⟩

def set {α β} [DecidableEq α] (f : α → β) (i : α) (p : β) : α → β := fun j => if j = i then p else f j

/-- One step of a thread: take a free mutex, release one (Go allows any goroutine to unlock; the programs release only
what they hold), or start another call of one of `ps`. -/
inductive Step (ps : List P) : Nat → St → St → Prop
  | acq {s i l rest} (h : s.rem i = .acq l :: rest) (hf : s.owner l = none) :
      Step ps i s ⟨set s.rem i rest, set s.owner l (some i)⟩
  | rel {s i l rest} (h : s.rem i = .rel l :: rest) :
      Step ps i s ⟨set s.rem i rest, set s.owner l none⟩
  | call {s i p tr} (h : s.rem i = []) (hp : p ∈ ps) (hr : Runs p tr) : Step ps i s ⟨set s.rem i tr, s.owner⟩

inductive Reach (ps : List P) : St → Prop
  | init : Reach ps St.init
  | step {s t i} : Reach ps s → Step ps i s t → Reach ps t

end RL.Locks
