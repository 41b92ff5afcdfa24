import Verif.Model.Operation
/-!
# Sessions in which the window is resized (/repo/operation.go:82-87, /repo/utils_unix.go:57-82)

The effect of the callback on one instance is `Op.resize` (`Verif.Model.Operation`).  Here are calls of `Readline` during which
the size changes, and the registration of the callback.

Simplifications: the callback runs while the loop waits for a key (in the code it runs in the goroutine that receives SIGWINCH,
and can also run while a key is being handled); the width is the one `FuncGetWidth` answers.
-/

namespace RL
namespace Op

/-- Several changes of the width. -/
def resizes (ws : List Int) (o : Op) : Op := ws.foldl (fun o w => o.resize w) o

/-- `Op.await` in a window that is resized: before the `i`-th key the width takes the values of the `i`-th list.  Without a
result after as many keys as there are lists, `Fault.hang`. -/
def awaitW (c : OCfg) : List (List Int) → Op → R (Event × Op)
  | ws, o =>
    match o.events with
    | e :: es => .ok (e, { o with events := es })
    | [] =>
      match ws with
      | [] => .error .hang
      | w :: ws => if o.stopped then .error .block else (o.resizes w).iter c >>= awaitW c ws

/-- `Op.readline` in a window that is resized, by the widths of `pre` before the call. -/
def readlineW (c : OCfg) (pre : List Int) (ws : List (List Int)) (o : Op) : R (Event × Op) := do
  let o ← (o.resizes pre).refreshNil c
  awaitW c ws o.kickRead

/-- Calls of `Readline`, each with the changes of the width before and during it: the results and the state afterwards. -/
def callsW (c : OCfg) : List (List Int × List (List Int)) → Op → R (List Event × Op)
  | [], o => .ok ([], o)
  | (pre, ws) :: ss, o => do
    let (e, o) ← o.readlineW c pre ws
    let (es, o) ← callsW c ss o
    .ok (e :: es, o)

end Op

/-- The instances of a process and the one callback for changes of the width (/repo/utils_unix.go:57-60
`widthChangeCallback`). -/
structure Process where
  ops : Nat → Op
  callback : Option Nat

namespace Process

/-- `NewOperation` (/repo/operation.go:69-90) with the default `FuncOnWidthChanged`, `DefaultOnWidthChanged`
(/repo/utils_unix.go:62-63): the callback of the new instance replaces the one registered before. -/
def create (i : Nat) (o : Op) (p : Process) : Process :=
  { ops := fun j => if j = i then o else p.ops j, callback := some i }

/-- The signal SIGWINCH in a window of width `w` (/repo/utils_unix.go:68-80). -/
def winch (w : Int) (p : Process) : Process :=
  match p.callback with
  | none => p
  | some i => { p with ops := fun j => if j = i then (p.ops j).resize w else p.ops j }

end Process
end RL
