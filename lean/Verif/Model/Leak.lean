import Verif.Model.Go
/-!
# The goroutines behind the standard input

`Config.Init` (/repo/readline.go:95-148) starts goroutines: one in `NewCancelableStdin` (/repo/std.go:80-105) unless the program has set
`Stdin`, and one in `NewFillableStdin` (/repo/std.go:146-172).  The first ends when `CancelableStdin.Close` (128-133) is called, the
second when `FillableStdin.Close` (194-197) is.  What calls `Init`: `NewTerminal` (/repo/terminal.go:26-40), `SetConfig`
(/repo/operation.go:458-491, /repo/terminal.go:246-254), and so `PasswordWithConfig`
(/repo/operation.go:414-420); a clone is not initialised again (/repo/readline.go:95-98, 150-154).  What calls `Close` on a stream: `Instance.Close` (/repo/readline.go:277-284) and `Terminal.Close`
(/repo/terminal.go:220-230), both on the `FillableStdin` of the instance's configuration.

Configurations and instances are numbers; a stream is the number of the `Init` that made it.  Simplifications: the program itself does
not close or replace the streams of a configuration that has been initialised; a goroutine ends as soon as it is told to; a call
of `SetConfig` on an instance that does not exist counts as making it.  Not modelled: `Terminal.ioloop`, `Operation.ioloop` and the
goroutine of `DefaultOnWidthChanged`.
-/

namespace RL.Leak

/-- What `Config.Init` has started and who holds it (/repo/readline.go:95-104, /repo/std.go:80-105, 146-172). -/
structure St where
  /-- the program has set `Stdin` -/
  own : Nat → Bool
  /-- the stream of a configuration; none before `Init` -/
  stream : Nat → Option Nat
  /-- the number of the next stream -/
  next : Nat
  /-- goroutines of `FillableStdin` that run -/
  fills : List Nat
  /-- goroutines of `CancelableStdin` that run -/
  cancels : List Nat
  /-- `Instance.Config` -/
  inst : Nat → Option Nat

/-- The calls of a program that start or end one of these goroutines (/repo/readline.go:150-178, 277-284, 315-324,
/repo/operation.go:403-420). -/
inductive Act where
  /-- `NewEx(cfg)` makes the instance `i` -/
  | new (i c : Nat)
  /-- `Instance.SetConfig(cfg)` -/
  | setConfig (i c : Nat)
  /-- `d := c.Clone()`; a clone is a new configuration, so the number `d` must not be in use (else nothing happens) -/
  | clone (c d : Nat)
  /-- `PasswordWithConfig(cfg)` -/
  | passwordWith (c : Nat)
  /-- `ReadPassword`, with a configuration of its own (/repo/password.go:22-33, `Stdin` is not set) -/
  | password
  /-- `Instance.Close` -/
  | close (i : Nat)

/-- Before any call: no `Init` has run (/repo/readline.go:95-99). -/
def start (own : Nat → Bool) : St :=
  { own := own, stream := fun _ => none, next := 0, fills := [], cancels := [], inst := fun _ => none }

/-- /repo/readline.go:95-104: `Init` of a configuration that has (`own`) or has not set `Stdin`. -/
def St.open (own : Bool) (s : St) : St :=
  { s with next := s.next + 1, fills := s.next :: s.fills, cancels := if own then s.cancels else s.next :: s.cancels }

/-- `Init`: nothing the second time (/repo/readline.go:95-104). -/
def St.init (c : Nat) (s : St) : St :=
  match s.stream c with
  | some _ => s
  | none => { s.open (s.own c) with stream := fun k => if k = c then some s.next else s.stream k }

/-- One call: `NewEx` (/repo/readline.go:164-178), `Instance.SetConfig` (315-324), `Clone` (150-154), `PasswordWithConfig` and
`PasswordEx` (/repo/operation.go:403-420; the former configuration, put back afterwards, is already initialised), `Close`
(/repo/readline.go:277-284). -/
def St.act (s : St) : Act → St
  | .new i c => { s.init c with inst := fun k => if k = i then some c else s.inst k }
  | .setConfig i c => { s.init c with inst := fun k => if k = i then some c else s.inst k }
  | .clone c d =>
    match s.stream d with
    | some _ => s
    | none => { s with stream := fun k => if k = d then s.stream c else s.stream k, own := fun k => if k = d then s.own c else s.own k }
  | .passwordWith c => s.init c
  | .password => s.open false
  | .close i =>
    match (s.inst i).bind s.stream with
    | none => s
    | some x => { s with fills := s.fills.filter (· != x) }

/-- A program: its calls in turn. -/
def St.acts : List Act → St → St
  | [], s => s
  | a :: as, s => acts as (s.act a)

/-- The calls a program makes with the package-level functions, from the first, which makes the instance (/repo/std.go:21-29, `Stdin`
is not set): `true` is `SetHistoryPath` or `SetAutoComplete` (35-48), `false` is `Password` (57-60).  `k` is the configuration in use. -/
def stdCalls (k : Nat) : List Bool → List Act
  | [] => []
  | true :: l => .clone k (k + 1) :: .setConfig 0 (k + 1) :: stdCalls (k + 1) l
  | false :: l => .password :: stdCalls k l

/-- Goroutines that run. -/
def St.running (s : St) : Nat := s.fills.length + s.cancels.length

end RL.Leak
