import Verif.Model.Instance
/-!
# The history files a program has open

Each configuration gets a history of its own the first time it is set (/repo/operation.go:474-478), and `SetHistoryPath` (446-452) closes
the one in use then.  A configuration set again has its history opened again (479-483), and nothing closes the one in use.
`Instance.Close` (/repo/readline.go:277-284) closes the history in use (/repo/operation.go:438-444).  Built on `Verif.Model.Instance`.

Simplification: what lines typed, `SaveHistory`, `ResetHistory` and the like do to the history in use is any function; of the code in
/repo/history.go only `historyUpdatePath`, `rewriteLocked` and `Close` touch `fd`, and none of those runs during a line (`C111_line`).
-/

namespace RL.Inst

/-- History `k` has its file open. -/
def isOpen (k : Nat) (s : Inst) : Prop := (s.objs k).h.fd = .opened

instance (k : Nat) (s : Inst) : Decidable (s.isOpen k) := inferInstanceAs (Decidable (_ = _))

/-- A use of the history in use: a line typed (/repo/operation.go:100-379), `SaveHistory` (496-500), `ResetHistory` (493-495). -/
def touch (g : Hist → Hist) (s : Inst) : Inst := s.putHist s.hist (g (s.histAt s.hist))

/-- `EnterPasswordMode` (/repo/password.go:17-20) with the configuration of /repo/password.go:22-33, in which `HistoryFile` is not set. -/
def enterPassword (c : ICfg) (s : Inst) : Inst :=
  setConfig s.nCfg { s with cfgs := upd s.cfgs s.nCfg { c with path := [], hist := none, search := none }, nCfg := s.nCfg + 1 }

/-- `Instance.Close` as far as the history goes (/repo/readline.go:279, /repo/operation.go:438-444). -/
def closeHist (s : Inst) : Inst := { s with objs := upd s.objs s.hist { s.objs s.hist with h := (s.objs s.hist).h.close } }

/-- What a program does with an instance. -/
inductive HAct where
  /-- `Instance.SetConfig` with a changed clone of the configuration (/repo/std.go:35-48) -/
  | change (f : ICfg → ICfg)
  /-- `Instance.SetConfig` with a configuration used before (/repo/readline.go:315-324) -/
  | back (c : Nat)
  /-- the method `SetHistoryPath` (/repo/readline.go:197-199) -/
  | path (p : List Rune)
  /-- the history in use is used -/
  | use (g : Hist → Hist)
  /-- `ReadPassword` (/repo/operation.go:403-420) -/
  | password (c : ICfg) (g : Hist → Hist)

/-- One call. -/
def hact : HAct → Inst → Inst
  | .change f, s => s.change f
  | .back c, s => s.useConfig c
  | .path p, s => s.setHistoryPath p
  | .use g, s => s.touch g
  | .password c g, s => ((s.enterPassword c).touch g).setConfig s.cur

/-- The calls in turn. -/
def hacts : List HAct → Inst → Inst
  | [], s => s
  | a :: as, s => hacts as (hact a s)

end RL.Inst
