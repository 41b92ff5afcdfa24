import Verif.Model.Go
/-! Model of `Config`, /repo/readline.go:30-178: `Init`, `Clone`, and the painter default of `NewEx`.

Interface values, functions and pointers are identities: `given n` is a value supplied by the caller, the others are what the
library supplies.  The goroutines started by `NewCancelableStdin` and `NewFillableStdin` are modelled in `Verif.Model.Stdin`
and `Verif.Model.Fillable`. -/

namespace RL.Conf

/-- Values held by the fields of a `Config`. -/
inductive Val where
  | given (n : Nat)
  /-- the process's standard streams, `readline.Stdin`, `Stdout`, `Stderr` (/repo/std.go:10-14) -/
  | stdin | stdout | stderr
  /-- `NewCancelableStdin(v)` (/repo/std.go:80) -/
  | cancelable (v : Val)
  /-- the reader returned by `NewFillableStdin(v)` (/repo/std.go:146) -/
  | fillable (v : Val)
  /-- the writer returned by `NewFillableStdin(v)` -/
  | filler (v : Val)
  /-- `&TabCompleter{}` -/
  | tabCompleter
  | getScreenWidth | defaultIsTerminal | defaultOnWidthChanged
  /-- `rm.Enter`, `rm.Exit` of a fresh `RawMode` -/
  | rawEnter | rawExit
  /-- `&defaultPainter{}` -/
  | defaultPainter
deriving DecidableEq

/-- /repo/readline.go:30-86; `none` is nil, `[]` the empty string. -/
structure Config where
  prompt : List Nat
  historyFile : List Nat
  historyLimit : Int
  disableAutoSaveHistory : Bool
  historySearchFold : Bool
  autoComplete : Option Val
  listener : Option Val
  painter : Option Val
  vimMode : Bool
  interruptPrompt : List Nat
  eofPrompt : List Nat
  funcGetWidth : Option Val
  stdin : Option Val
  stdinWriter : Option Val
  stdout : Option Val
  stderr : Option Val
  enableMask : Bool
  maskRune : Int
  uniqueEditLine : Bool
  funcFilterInputRune : Option Val
  funcIsTerminal : Option Val
  funcMakeRaw : Option Val
  funcExitRaw : Option Val
  funcOnWidthChanged : Option Val
  forceUseInteractive : Bool
  inited : Bool
  opHistory : Option Nat
  opSearch : Option Nat
deriving DecidableEq

/-- `if v == nil { v = d }`. -/
def dflt (v : Option Val) (d : Val) : Option Val := match v with
  | none => some d
  | some x => some x

/-- /repo/readline.go:116-125: `if s == "" {s = d} else if s == "\n" {s = ""}`. -/
def promptDflt (s d : List Nat) : List Nat := if s = [] then d else if s = [10] then [] else s

/-- /repo/readline.go:99-147, the assignments of `Init` (to different fields, each looking only at its own field). -/
def Config.fill (c : Config) : Config :=
  { c with
    inited := true
    stdin := some (.fillable (c.stdin.getD (.cancelable .stdin)))
    stdinWriter := some (.filler (c.stdin.getD (.cancelable .stdin)))
    stdout := dflt c.stdout .stdout
    stderr := dflt c.stderr .stderr
    historyLimit := if c.historyLimit = 0 then 500 else c.historyLimit
    interruptPrompt := promptDflt c.interruptPrompt [94, 67]
    eofPrompt := promptDflt c.eofPrompt [94, 68]
    autoComplete := dflt c.autoComplete .tabCompleter
    funcGetWidth := dflt c.funcGetWidth .getScreenWidth
    funcIsTerminal := dflt c.funcIsTerminal .defaultIsTerminal
    funcMakeRaw := dflt c.funcMakeRaw .rawEnter
    funcExitRaw := dflt c.funcExitRaw .rawExit
    funcOnWidthChanged := dflt c.funcOnWidthChanged .defaultOnWidthChanged }

/-- /repo/readline.go:95-148 `Init`; its error is always nil. -/
def Config.init (c : Config) : Config := if c.inited then c else c.fill

/-- /repo/readline.go:150-154 `Clone`. -/
def Config.clone (c : Config) : Config := { c with opHistory := none, opSearch := none }

/-- The effect of /repo/readline.go:164-178 `NewEx` on the configuration: `NewTerminal` calls `Init` (/repo/terminal.go:27),
then the painter is set.  (The history and search fields set by `SetConfig` are in `Verif.Model.Password`.) -/
def Config.newEx (c : Config) : Config :=
  let c := c.init
  { c with painter := dflt c.painter .defaultPainter }

/-- /repo/readline.go:88-93 `useInteractive`; `call` runs `FuncIsTerminal`. -/
def Config.useInteractive (call : Option Val → Bool) (c : Config) : Bool :=
  if c.forceUseInteractive then true else call c.funcIsTerminal

end RL.Conf
