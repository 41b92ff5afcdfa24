import Verif.Model.Operation
/-!
# Where a password is asked for

/repo/operation.go:403-420 `PasswordEx`, `GenPasswordConfig`, `PasswordWithConfig`; /repo/password.go:12-33; the parts of
`Config.Init` (/repo/readline.go:95-148), `useInteractive` (88-93), `RemoteSvr.HandleConfig` (/repo/remote.go:102-114), `SetConfig`
(/repo/operation.go:458-491) and `RuneBuffer.SetConfig` (/repo/runebuf.go:75-80) that decide whether the line is drawn.

`sys` is what `DefaultIsTerminal` answers: whether the standard streams of the process are a terminal.  Simplification: functions
called `FuncIsTerminal` always answer the same.
-/

namespace RL.PTty

/-- What decides the drawing, of a `Config`. -/
structure TCfg where
  prompt : List Rune
  /-- `ForceUseInteractive` -/
  force : Bool
  /-- `FuncIsTerminal`: unset, or what it answers -/
  tty : Option Bool
deriving DecidableEq

/-- /repo/readline.go:133-135, in `Init`. -/
def TCfg.init (sys : Bool) (c : TCfg) : TCfg := { c with tty := some (c.tty.getD sys) }

/-- /repo/readline.go:88-93 `useInteractive`, after `Init`. -/
def TCfg.useInteractive (sys : Bool) (c : TCfg) : Bool := c.force || (c.init sys).tty.getD false

/-- /repo/remote.go:102-114 `HandleConfig`: the client's report decides. -/
def TCfg.remote (client : Bool) (c : TCfg) : TCfg := { c with tty := some client }

/-- /repo/password.go:22-33 `PasswordConfig` with the prompt of `PasswordEx`: of the program's configuration only the two output
streams are taken over. -/
def passwordCfg (prompt : List Rune) : TCfg := { prompt := prompt, force := false, tty := none }

/-- The configuration in use, the one to go back to, and the line. -/
structure St where
  cfg : TCfg
  backup : Option TCfg
  rb : RB

/-- /repo/operation.go:465-471 in `SetConfig`. -/
def St.setConfig (sys : Bool) (c : TCfg) (s : St) : St :=
  { s with cfg := c.init sys, rb := { s.rb.setPrompt c.prompt with interactive := c.useInteractive sys } }

/-- /repo/operation.go:69-78 `NewOperation`. -/
def new (sys : Bool) (c : TCfg) (width : Int) : St :=
  { cfg := c.init sys, backup := none, rb := RB.new c.prompt (c.useInteractive sys) width }

/-- /repo/operation.go:403-417: `PasswordEx` up to reading the line. -/
def St.enter (sys : Bool) (prompt : List Rune) (s : St) : St := { s.setConfig sys (passwordCfg prompt) with backup := some s.cfg }

/-- /repo/password.go:12-15 `ExitPasswordMode`. -/
def St.leave (sys : Bool) (s : St) : St :=
  match s.backup with
  | none => s
  | some c => { s.setConfig sys c with backup := none }

/-- `ReadPassword`, with whatever happens to the line in between. -/
def St.password (sys : Bool) (prompt : List Rune) (f : RB → R RB) (s : St) : R St := do
  let s := s.enter sys prompt
  let rb ← f s.rb
  .ok (St.leave sys { s with rb := rb })

end RL.PTty
