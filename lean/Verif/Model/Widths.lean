import Verif.Model.Go
/-!
# Who knows the width of the window

Three parts of the editor keep the width: the `RuneBuffer`, the `opCompleter` and the `opSearch`.  They learn it when they are
made and from one callback (/repo/operation.go:69-90 `NewOperation`, 458-491 `SetConfig`, /repo/runebuf.go:42-46, 64-74,
/repo/complete.go:41-47, 184-186, /repo/search.go:35-47).  The `opSearch` belongs to a configuration and is kept with it
(/repo/readline.go:85, /repo/operation.go:475-478, 489); passwords are read with a configuration of their own
(/repo/operation.go:414-420, /repo/password.go:12-20).

Configurations and windows are identified by numbers; the functions `FuncGetWidth` and `FuncOnWidthChanged` of a configuration
belong to one window.  Simplifications: the callback has run before anything else happens; configurations are initialised, so that
`AutoComplete` is not nil (/repo/readline.go:127-129) and `SetConfig` always makes a new `opCompleter`.
-/

namespace RL.Wid

structure St where
  /-- the width of every window -/
  win : Nat → Int
  /-- the configuration `NewOperation` was called with -/
  first : Nat
  /-- `op.cfg` -/
  cur : Nat
  /-- `opPassword.backupCfg` -/
  backup : Option Nat
  /-- `op.buf.width` -/
  buf : Int
  /-- `op.opCompleter.width` -/
  comp : Int
  /-- `cfg.opSearch.width` of every configuration that has been set -/
  search : Nat → Option Int

/-- What can happen. -/
inductive Act where
  /-- window `j` gets the width `w` -/
  | resize (j : Nat) (w : Int)
  /-- `Operation.SetConfig(cfg)` -/
  | setConfig (c : Nat)
  /-- `PasswordWithConfig` begins -/
  | enter (c : Nat)
  /-- and ends -/
  | leave

variable (src : Nat → Nat)

/-- /repo/operation.go:69-90 `NewOperation`; `src` says which window a configuration belongs to. -/
def new (win : Nat → Int) (c : Nat) : St :=
  { win := win, first := c, cur := c, backup := none, buf := win (src c), comp := win (src c),
    search := fun k => if k = c then some (win (src c)) else none }

/-- /repo/operation.go:82-87: the callback, registered with the first configuration, which it also asks for the width. -/
def St.notify (s : St) : St :=
  let w := s.win (src s.first)
  { s with comp := w, search := fun k => if k = s.cur then some w else s.search k, buf := w }

/-- /repo/operation.go:458-491 `SetConfig`. -/
def St.setConfig (c : Nat) (s : St) : St :=
  if s.cur = c then s
  else
    let w := s.win (src c)
    { s with cur := c, comp := w,
             search := fun k => if k = c then (match s.search c with | none => some w | some v => some v) else s.search k }

/-- One step. -/
def St.act (s : St) : Act → St
  | .resize j w =>
    let s := { s with win := fun k => if k = j then w else s.win k }
    if j = src s.first then s.notify src else s
  | .setConfig c => s.setConfig src c
  | .enter c => { s.setConfig src c with backup := some s.cur }
  | .leave =>
    match s.backup with
    | none => s
    | some c => { s.setConfig src c with backup := none }

def St.acts : List Act → St → St
  | [], s => s
  | a :: as, s => acts as (s.act src a)

/-- `op.opSearch.width`. -/
def St.searchWidth (s : St) : Option Int := s.search s.cur

end RL.Wid
