import Verif.Model.Operation
import Verif.Model.Utf8
/-! Model of `Result` (/repo/readline.go:237-253), of `String` and `Slice` (/repo/operation.go:376-379, 429-435), and of the loops programs are
told to write around them. -/

namespace RL

/-- `io.EOF`, `ErrInterrupt`. -/
inductive RErr | eof | interrupt
deriving DecidableEq

/-- /repo/readline.go:237-240 `Result`. -/
structure Result where
  line : List Nat
  err : Option RErr
deriving DecidableEq

/-- `Runes` (/repo/operation.go:391-401) with `String` (376-379): what `Readline` returns. -/
def Event.str : Event → Result
  | .line l => ⟨encode l, none⟩
  | .interrupt l => ⟨encode l, some .interrupt⟩
  | .eof => ⟨encode [], some .eof⟩

/-- `Slice` (/repo/operation.go:429-435): what `ReadSlice` returns. -/
def Event.slice (e : Event) : Result :=
  let r := e.str
  if r.err ≠ none then ⟨[], r.err⟩ else ⟨r.line, none⟩

/-- /repo/readline.go:242-244. -/
def Result.canContinue (r : Result) : Bool := r.line.length ≠ 0 && r.err = some .interrupt

/-- /repo/readline.go:246-248. -/
def Result.canBreak (r : Result) : Bool := !r.canContinue && r.err ≠ none

/-- How a loop goes on after a result. -/
inductive LoopNext | skip | stop | body
deriving DecidableEq

/-- /repo/example/readline-im/readline-im.go:48-56. -/
def imNext (r : Result) : LoopNext := if r.canContinue then .skip else if r.canBreak then .stop else .body

/-- /repo/example/readline-demo/readline-demo.go:97-107. -/
def demoNext (r : Result) : LoopNext :=
  if r.err = some .interrupt then (if r.line.length = 0 then .stop else .skip)
  else if r.err = some .eof then .stop
  else .body

/-- /repo/readline.go:9-15, the example of the package. -/
def docNext (r : Result) : LoopNext := if r.err ≠ none then .stop else .body

/-- A loop of at most `n` calls: what its body gets, whether it ended, and the state then.  `get` is `Readline` or `ReadSlice`. -/
def loop (c : OCfg) (fuel : Nat) (get : Event → Result) (next : Result → LoopNext) : Nat → Op → R (List (List Nat) × Bool × Op)
  | 0, o => .ok ([], false, o)
  | n + 1, o => do
    let (e, o) ← o.readline c fuel
    match next (get e) with
    | .skip => loop c fuel get next n o
    | .stop => .ok ([], true, o)
    | .body => do
      let (ls, b, o) ← loop c fuel get next n o
      .ok ((get e).line :: ls, b, o)

end RL
