import Verif.Model.Terminal
/-! # `GetOffset`

/repo/terminal.go:23, 35 `sizeChan` (a channel of capacity 1), 79-84 `GetOffset`, 172-179 the part of `ioloop` that hands a position report over.
The decoder that finds the reports in the input is Model/Terminal (`TEv.size`); here the reports are already decoded.

`go func() { f(<-t.sizeChan) }()` and `t.Write("\033[6n")` are two steps, so the goroutine may run before or after the query is written.  A receiver that is
already blocked takes a value out of the channel in the step `recv`; the channel counts as full until then, as it is for a goroutine that has not
started yet.  A call is known by a number. -/

namespace RL

structure OffSys where
  /-- calls whose callback has not been called -/
  wait : List Nat
  /-- the channel -/
  chan : Option (List Rune)
  /-- reports on their way from the terminal to `ioloop`, in order -/
  wire : List (List Rune)
  /-- calls of the callbacks, in order -/
  got : List (Nat × List Rune)

namespace OffSys

inductive Step where
  /-- terminal.go:80-82: the goroutine of call `c` -/
  | spawn (c : Nat)
  /-- terminal.go:83: the query reaches the terminal, which answers with the position `p` -/
  | ask (p : List Rune)
  /-- a key that sends the same sequence as a report -/
  | key (p : List Rune)
  /-- terminal.go:172-179: `ioloop` reads the next report; it is dropped if the channel is full -/
  | read
  /-- terminal.go:81: the goroutine of call `c` receives and calls `f` -/
  | recv (c : Nat)
deriving DecidableEq

/-- One step; `none` if it is not possible. -/
def step (s : OffSys) : Step → Option OffSys
  | .spawn c => some { s with wait := s.wait ++ [c] }
  | .ask p | .key p => some { s with wire := s.wire ++ [p] }
  | .read =>
    match s.wire with
    | [] => none
    | p :: w => some { s with wire := w, chan := match s.chan with | none => some p | some q => some q }
  | .recv c =>
    match s.chan with
    | none => none
    | some p => if c ∈ s.wait then some { s with wait := s.wait.erase c, chan := none, got := s.got ++ [(c, p)] } else none

/-- A schedule. -/
def run : List Step → OffSys → Option OffSys
  | [], s => some s
  | a :: as, s => (s.step a).bind (run as)

/-- terminal.go:26-40 `NewTerminal`: nothing has been asked. -/
def init : OffSys := ⟨[], none, [], []⟩

end OffSys
end RL
