import Verif.Model.Config
/-! The width and the kind of the standard streams: /repo/utils_unix.go.

A standard stream is either no terminal or a terminal that reports a number of columns (0 if nobody told it its size). -/

namespace RL

/-- The standard streams: the columns reported, `none` if the stream is no terminal. -/
structure Streams where
  stdin : Option Nat
  stdout : Option Nat
  stderr : Option Nat

/-- /repo/utils_unix.go:30-37 `getWidth`, on a stream that is a terminal exactly if it reports a size (/repo/term.go:30-33 `IsTerminal`). -/
def getWidth (s : Option Nat) : Int :=
  match s with
  | some cols => cols
  | none => -1

/-- /repo/utils_unix.go:39-45 `GetScreenWidth`. -/
def getScreenWidth (s : Streams) : Int :=
  let w := getWidth s.stdout
  if w < 0 then getWidth s.stderr else w

/-- /repo/utils_unix.go:52-54 `DefaultIsTerminal`. -/
def defaultIsTerminal (s : Streams) : Bool := s.stdin.isSome && (s.stdout.isSome || s.stderr.isSome)

end RL
