import Verif.Model.Operation
/-! Model of what changes configuration and history file while a program runs: /repo/operation.go:446-452 (`SetHistoryPath`), 458-491
(`SetConfig`), 496-500 (`SaveHistory`), the methods of `Instance` that call them (/repo/readline.go:196-199, 262-264, 315-324), and the
package-level functions of /repo/std.go:21-67.

Configurations and histories are pointers; they are identified by numbers.  A history is the `Hist` of `Verif.Model.History`; the contents of
the files are kept outside, one per path, and handed to a history whenever it is used.

Simplifications: the configurations are already initialised (`Config.Init` does nothing to a copy of an initialised one, /repo/readline.go:96-98);
`FuncGetWidth` returns the width the buffer has (`Verif.Model.Widths` is about when it does not); `FuncIsTerminal` returns what it returned at first; two histories do not have the same file open
at once (with the package-level functions at most one is open); the loop is done with a line before the next call (see `Verif.Model.Password` for
the other case). -/

namespace RL

/-- `Config` (/repo/readline.go:30-86). -/
structure ICfg where
  /-- what the loop reads; `oc.h.hasFile` is not used, see `hcfg` -/
  oc : OCfg
  /-- `Prompt` -/
  prompt : List Rune
  /-- `HistoryFile` -/
  path : List Rune
  /-- `opHistory` -/
  hist : Option Nat
  /-- `opSearch`: the history it was made for -/
  search : Option Nat

/-- What the history reads of its configuration. -/
def ICfg.hcfg (c : ICfg) : HCfg := { c.oc.h with hasFile := c.path ≠ [] }

/-- What the loop reads. -/
def ICfg.ocfg (c : ICfg) : OCfg := { c.oc with h := c.hcfg }

/-- /repo/readline.go:150-154 `Clone`. -/
def ICfg.clone (c : ICfg) : ICfg := { c with hist := none, search := none }

/-- `opHistory`: its configuration, the list, and the path under which its file was opened last. -/
structure HObj where
  cfg : Nat
  h : Hist
  file : List Rune

/-- `Instance` (/repo/readline.go:24-28) and `Operation`. -/
structure Inst where
  cfgs : Nat → ICfg
  /-- the next unused configuration -/
  nCfg : Nat
  /-- `Instance.Config` -/
  icfg : Nat
  /-- `Operation.cfg` -/
  cur : Nat
  /-- `RuneBuffer.cfg` -/
  bufCfg : Nat
  objs : Nat → HObj
  /-- the next unused history -/
  nHist : Nat
  /-- `Operation.history` -/
  hist : Nat
  /-- `Operation.opSearch.history` -/
  search : Nat
  /-- the files -/
  files : List Rune → List Nat
  /-- the rest of `Operation`; its field `hist` is not used -/
  op : Op

namespace Inst

def upd {α β} [DecidableEq α] (f : α → β) (i : α) (x : β) : α → β := fun j => if j = i then x else f j

/-- The file a history uses or would open. -/
def pathAt (k : Nat) (s : Inst) : List Rune := if (s.objs k).h.fd = .opened then (s.objs k).file else (s.cfgs (s.objs k).cfg).path

/-- History `k` with its file. -/
def histAt (k : Nat) (s : Inst) : Hist := { (s.objs k).h with disk := s.files (s.pathAt k) }

/-- History `k` and its file after they have been used. -/
def putHist (k : Nat) (h : Hist) (s : Inst) : Inst :=
  { s with objs := upd s.objs k { s.objs k with h := h, file := s.pathAt k }, files := upd s.files (s.pathAt k) h.disk }

/-- /repo/operation.go:446-452 `SetHistoryPath`: the history in use is closed, a new one is made (/repo/history.go:33-40), which does not open its
file.  (The test for a nil history is in `start`.) -/
def setHistoryPath (p : List Rune) (s : Inst) : Inst :=
  { s with
    objs := upd (upd s.objs s.hist { s.objs s.hist with h := (s.objs s.hist).h.close }) s.nHist ⟨s.cur, Hist.fresh [], []⟩
    cfgs := upd s.cfgs s.cur { s.cfgs s.cur with path := p }
    hist := s.nHist
    nHist := s.nHist + 1 }

/-- /repo/operation.go:96-98 `SetMaskRune`, /repo/runebuf.go:82-86: the rune goes into the configuration the buffer uses at that moment. -/
def setMask (m : Rune) (s : Inst) : Inst :=
  let c := s.cfgs s.bufCfg
  { s with cfgs := upd s.cfgs s.bufCfg { c with oc := { c.oc with d := { c.oc.d with maskRune := m } } } }

/-- /repo/operation.go:93-95 `SetPrompt`. -/
def setPrompt (p : List Rune) (s : Inst) : Inst := { s with op := { s.op with rb := s.op.rb.setPrompt p } }

/-- /repo/operation.go:458-491 `Operation.SetConfig`. -/
def setConfig (c : Nat) (s : Inst) : Inst :=
  if s.cur = c then s
  else
    let s := { s with cur := c }
    let s := s.setPrompt (s.cfgs c).prompt
    let s := s.setMask (s.cfgs c).oc.d.maskRune
    let s := { s with bufCfg := c }
    -- 474-478
    let s :=
      match (s.cfgs c).hist with
      | some _ => s
      | none =>
        let s := s.setHistoryPath (s.cfgs c).path
        { s with cfgs := upd s.cfgs c { s.cfgs c with hist := some s.hist, search := some s.hist } }
    let s := { s with hist := (s.cfgs c).hist.getD s.hist }
    -- 483 `op.history.Init()`
    let s := s.putHist s.hist ((s.histAt s.hist).init (s.cfgs (s.objs s.hist).cfg).hcfg)
    let s := if (s.cfgs c).oc.auto.isSome then { s with op := { s.op with comp := Comp.new s.op.rb.width } } else s
    -- a search made for this configuration before is not running now
    { s with search := (s.cfgs c).search.getD s.search, op := { s.op with search := Search.new s.op.rb.width } }

/-- /repo/readline.go:315-324 `Instance.SetConfig`. -/
def useConfig (c : Nat) (s : Inst) : Inst := if s.icfg = c then s else setConfig c { s with icfg := c }

/-- /repo/operation.go:496-500 `SaveHistory`. -/
def saveHistory (t : List Rune) (s : Inst) : R Inst := do
  let h ← (s.histAt s.hist).new (s.cfgs (s.objs s.hist).cfg).hcfg t
  .ok (s.putHist s.hist h)

/-- The loop, with the history in use.  The loop of `Verif.Model.Operation` searches the history it records in; so does this one only if
`s.search = s.hist`. -/
def loop (s : Inst) : Op := { s.op with hist := s.histAt s.hist }

/-- `Instance.Readline` (/repo/readline.go:251-254). -/
def readline (fuel : Nat) (s : Inst) : R (Event × Inst) := do
  let (e, o) ← s.loop.readline (s.cfgs s.cur).ocfg fuel
  .ok (e, { s.putHist s.hist o.hist with op := o })

/-- `ins.Config.Clone()`, changed by `f`, and `ins.SetConfig` with it (/repo/std.go:36-39, 43-47). -/
def change (f : ICfg → ICfg) (s : Inst) : Inst :=
  useConfig s.nCfg { s with cfgs := upd s.cfgs s.nCfg (f (s.cfgs s.icfg).clone), nCfg := s.nCfg + 1 }

/-- What a program does with the package-level functions. -/
inductive Act where
  /-- /repo/std.go:63-67 `Line` -/
  | line (prompt : List Rune)
  /-- /repo/std.go:52-55 `AddHistory` -/
  | add (t : List Rune)
  /-- /repo/std.go:35-40 `SetHistoryPath` -/
  | path (p : List Rune)
  /-- /repo/std.go:43-48 `SetAutoComplete` -/
  | auto (f : Completer)

def act (fuel : Nat) : Act → Inst → R (List Event × Inst)
  | .line p, s => do
    let (e, s) ← (s.setPrompt p).readline fuel
    .ok ([e], s)
  | .add t, s => do
    let s ← s.saveHistory t
    .ok ([], s)
  | .path p, s => .ok ([], s.change fun c => { c with path := p })
  | .auto f, s => .ok ([], s.change fun c => { c with oc := { c.oc with auto := some f } })

/-- A program: the results of its calls of `Line`. -/
def program (fuel : Nat) : List Act → Inst → R (List Event × Inst)
  | [], s => .ok ([], s)
  | a :: as, s => do
    let (es, s) ← s.act fuel a
    let (es', s) ← program fuel as s
    .ok (es ++ es', s)

/-- /repo/operation.go:66-91 `NewOperation` with /repo/readline.go:164-178 `NewEx`: the first `SetConfig` finds no history.  The keys typed are
`inp`. -/
def start (c : ICfg) (w : Int) (files : List Rune → List Nat) (inp : List Rune) : Inst :=
  let s : Inst :=
    { cfgs := fun _ => { c with hist := some 0, search := some 0 }, nCfg := 1, icfg := 0, cur := 0, bufCfg := 0,
      objs := fun _ => ⟨0, Hist.fresh [], []⟩, nHist := 1, hist := 0, search := 0, files := files,
      op := Op.init c.prompt true w (Hist.fresh []) inp }
  s.putHist 0 ((s.histAt 0).init c.hcfg)

end Inst
end RL
