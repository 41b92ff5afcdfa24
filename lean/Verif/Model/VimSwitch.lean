import Verif.Model.Go
/-!
# Switching vim mode while the program runs

/repo/vim.go:9-38 `opVim`, `newVimMode`, `SetVimMode`, `ExitVimMode`, `IsEnableVimMode`; /repo/readline.go:164-178 `NewEx`,
211-218 `SetVimMode`, `IsVimMode`, 315-324 `SetConfig`; /repo/terminal.go:246-254 `SetConfig`; /repo/operation.go:458-491
`SetConfig` and /repo/password.go:12-20, of which only the pointer to the configuration matters here.

Configurations are pointers, identified by numbers; of a `Config` only the field `VimMode` is present.  Four places hold such a
pointer: the `Instance`, the `Operation`, the `Terminal`, and the `opVim`.

Simplifications: the calls do not overlap, `Config.Init` does not fail (it never does, /repo/readline.go:95-148), and what the
keys do to the mode is arbitrary.
-/

namespace RL.VSw

/-- The pointers, and the mode of the editor. -/
structure St where
  /-- `VimMode` of every configuration -/
  vim : Nat → Bool
  /-- `Instance.Config` -/
  inst : Nat
  /-- `Operation.cfg` -/
  op : Nat
  /-- `Terminal.cfg`, which the decoder asks (/repo/terminal.go:201) -/
  term : Nat
  /-- `opVim.cfg`, which the editor asks (/repo/operation.go:158, /repo/vim.go:36-38) -/
  ov : Nat
  /-- `opPassword.backupCfg` -/
  backup : Nat
  /-- `vimMode == VIM_NORMAL` -/
  normal : Bool

/-- What a program, or a user, may do. -/
inductive Act where
  /-- `Instance.SetVimMode(on)` -/
  | setVim (on : Bool)
  /-- `Instance.SetConfig(cfg)` -/
  | setConfig (c : Nat)
  /-- the program writes to the field `VimMode` of a configuration -/
  | assign (c : Nat) (on : Bool)
  /-- `PasswordWithConfig` begins (/repo/operation.go:414-417) -/
  | enter (c : Nat)
  /-- and ends (/repo/operation.go:418) -/
  | leave
  /-- the user presses keys, which leave normal mode switched on or off -/
  | keys (normal : Bool)

/-- /repo/readline.go:164-178 `NewEx`, /repo/operation.go:78-79, /repo/vim.go:15-22 `newVimMode`: one configuration everywhere. -/
def new (vim : Nat → Bool) (c : Nat) : St :=
  { vim := vim, inst := c, op := c, term := c, ov := c, backup := 0, normal := false }

/-- /repo/vim.go:24-30 `SetVimMode`: the configuration of the `opVim` is written. -/
def St.setVim (on : Bool) (s : St) : St :=
  { s with vim := fun k => if k = s.ov then on else s.vim k, normal := false }

/-- /repo/readline.go:315-324 `SetConfig`: the `opVim` keeps its configuration. -/
def St.setConfig (c : Nat) (s : St) : St :=
  if s.inst = c then s else { s with inst := c, op := c, term := c }

/-- /repo/operation.go:414-420, /repo/password.go:12-20: only the `Operation` gets the other configuration. -/
def St.enter (c : Nat) (s : St) : St := { s with backup := s.op, op := c }

/-- One action.  The keys reach the vim part only when it is switched on (/repo/operation.go:158-164). -/
def St.act (s : St) : Act → St
  | .setVim on => s.setVim on
  | .setConfig c => s.setConfig c
  | .assign c on => { s with vim := fun k => if k = c then on else s.vim k }
  | .enter c => s.enter c
  | .leave => { s with op := s.backup }
  | .keys n => if s.vim s.ov then { s with normal := n } else s

def St.acts : List Act → St → St
  | [], s => s
  | a :: as, s => acts as (s.act a)

/-- Does the decoder hand Escape over as a key (/repo/terminal.go:201)? -/
def St.decoder (s : St) : Bool := s.vim s.term

/-- `IsVimMode` (/repo/readline.go:216-218): does the editor have normal mode? -/
def St.editor (s : St) : Bool := s.vim s.ov

end RL.VSw
