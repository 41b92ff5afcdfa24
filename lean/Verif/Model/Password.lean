import Verif.Model.History
/-! Model of configuration switching and `ReadPassword`: /repo/operation.go:403-424, 446-452, 458-491, /repo/password.go, and the
part of the editing loop that records a submitted line (/repo/operation.go:256-262, 339-364).

Configurations and histories are pointers; they are identified by numbers.  Only the fields read or written here are present.
`Config.Init` (which may replace unset fields) is in `Verif.Model.Config`; configurations are taken as already initialised.
The histories of different configurations are assumed to use different files. -/

namespace RL.Pw

/-- What is used of a `Config`. -/
structure PCfg where
  prompt : List Rune
  /-- `MaskRune` -/
  mask : Rune
  /-- `DisableAutoSaveHistory` -/
  noSave : Bool
  /-- what the history uses -/
  h : HCfg
  /-- contents of its history file before it is first opened -/
  disk : List Nat
  /-- `opHistory` (/repo/readline.go:84) -/
  hist : Option Nat

/-- What is used of an `Operation` and its `RuneBuffer`. -/
structure PSt where
  cfgs : Nat → PCfg
  /-- `op.cfg` -/
  cur : Nat
  /-- `op.buf.cfg` -/
  bufCfg : Nat
  /-- `op.buf.prompt` -/
  prompt : List Rune
  /-- `op.history` -/
  hist : Nat
  hists : Nat → Hist
  /-- the next unused history number -/
  next : Nat

def upd {α} (f : Nat → α) (i : Nat) (x : α) : Nat → α := fun j => if j = i then x else f j

/-- /repo/runebuf.go:82-86 `SetMask`: the rune goes into the configuration the buffer uses at that moment. -/
def PSt.setMask (m : Rune) (s : PSt) : PSt := { s with cfgs := upd s.cfgs s.bufCfg { s.cfgs s.bufCfg with mask := m } }

/-- /repo/operation.go:446-452 `SetHistoryPath` for the configuration `c`, followed by :476: the old history is closed, a new
one is made. -/
def PSt.freshHist (c : Nat) (s : PSt) : PSt :=
  { s with
    hists := upd (upd s.hists s.hist (s.hists s.hist).close) s.next (Hist.fresh (s.cfgs c).disk)
    hist := s.next
    cfgs := upd s.cfgs c { s.cfgs c with hist := some s.next }
    next := s.next + 1 }

/-- /repo/operation.go:458-491 `SetConfig`. -/
def PSt.setConfig (c : Nat) (s : PSt) : PSt :=
  if s.cur = c then s
  else
    let s := { s with cur := c, prompt := (s.cfgs c).prompt }
    let s := s.setMask (s.cfgs c).mask
    let s := { s with bufCfg := c }
    let s := match (s.cfgs c).hist with
      | none => s.freshHist c
      | some k => { s with hist := k }
    { s with hists := upd s.hists s.hist ((s.hists s.hist).init (s.cfgs c).h) }

/-- Where the caller of `ReadPassword` is (/repo/operation.go:414-420). -/
inductive CPc where
  | idle
  /-- in `Slice`, waiting for the line; the configuration to go back to is `backupCfg` -/
  | waiting (backup : Nat)
  /-- got the line, `ExitPasswordMode` not yet run -/
  | got (backup : Nat)
deriving DecidableEq

/-- Where the editing loop is. -/
inductive LPc where
  | editing
  /-- after `o.outchan <- data` (/repo/operation.go:256) -/
  | sent (data : List Rune)
  /-- after the test of `DisableAutoSaveHistory` (:257) -/
  | save (data : List Rune)
  /-- before the end of the iteration (:347); the flag is `isUpdateHistory` -/
  | tail (update : Bool)
deriving DecidableEq

structure St where
  p : PSt
  caller : CPc
  loop : LPc

inductive Step : St → St → Prop
  /-- :415 `EnterPasswordMode(cfg)` with a configuration that is not the current one -/
  | enter {s} (c : Nat) (h : s.caller = .idle) (hc : c ≠ s.p.cur) :
      Step s { s with p := s.p.setConfig c, caller := .waiting s.p.cur }
  /-- :256 and :393: the user presses Enter with `data` in the line -/
  | submit {s b} (data : List Rune) (h : s.caller = .waiting b) (hl : s.loop = .editing) :
      Step s { s with caller := .got b, loop := .sent data }
  /-- :418 `ExitPasswordMode` -/
  | exit {s b} (h : s.caller = .got b) : Step s { s with p := s.p.setConfig b, caller := .idle }
  /-- :257: auto-save is off -/
  | skip {s d} (h : s.loop = .sent d) (hn : (s.p.cfgs s.p.cur).noSave = true) : Step s { s with loop := .tail false }
  /-- :257: auto-save is on -/
  | check {s d} (h : s.loop = .sent d) (hn : (s.p.cfgs s.p.cur).noSave = false) : Step s { s with loop := .save d }
  /-- :259 `o.history.New(data)` on the history current at this moment -/
  | save {s d k h'} (h : s.loop = .save d) (hk : (s.p.cfgs k).hist = some s.p.hist)
      (hn : (s.p.hists s.p.hist).new (s.p.cfgs k).h d = .ok h') :
      Step s { s with p := { s.p with hists := upd s.p.hists s.p.hist h' }, loop := .tail true }
  /-- :360-363 -/
  | update {s k} (h : s.loop = .tail true) (hk : (s.p.cfgs k).hist = some s.p.hist) :
      Step s { s with p := { s.p with hists := upd s.p.hists s.p.hist ((s.p.hists s.p.hist).update (s.p.cfgs k).h [] false) },
                      loop := .editing }
  | noUpdate {s} (h : s.loop = .tail false) : Step s { s with loop := .editing }

inductive Steps : St → St → Prop
  | refl {s} : Steps s s
  | step {s t u} : Steps s t → Step t u → Steps s u

end RL.Pw
