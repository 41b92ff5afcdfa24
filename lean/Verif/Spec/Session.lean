import Verif.Model.Operation
import Verif.Spec.Concrete
/-! Concrete sessions used in non-vacuity examples and in counterexamples. -/

namespace RL

/-- A default configuration: emacs keys, no history file, no callbacks. -/
def c0 : OCfg :=
  { U := U0, d := d0, h := ⟨500, false, false, true⟩, filter := none, auto := none, listener := none, unique := false,
    noSave := false, vim := false, interruptPrompt := [94, 67], eofPrompt := [] }

/-- A completer that always offers the given candidates and claims that `off` runes before the cursor are shared. -/
def offers (off : Int) (cs : List (List Rune)) : Option Completer := some fun _ _ => (cs, off)

/-- A new session on an 80-column terminal with prompt "> " whose user types `keys`. -/
def o0 (keys : List Rune) : Op := Op.init [62, 32] true 80 (Hist.fresh []) keys

/-- The results of the first `n` calls of `Readline`, in a session where each call reads at most `fuel` keys. -/
def calls (c : OCfg) (fuel : Nat) : Nat → Op → R (List Event)
  | 0, _ => .ok []
  | n + 1, o => do
    let (e, o) ← o.readline c fuel
    let es ← calls c fuel n o
    .ok (e :: es)

/-- The state after `n` calls of `Readline`. -/
def after (c : OCfg) (fuel : Nat) : Nat → Op → R Op
  | 0, o => .ok o
  | n + 1, o => do
    let (_, o) ← o.readline c fuel
    after c fuel n o

/-- The results of `n` calls of `Readline` and the history entries stored afterwards. -/
def recorded (c : OCfg) (n : Nat) (o : Op) : R (List Event × List (List Rune)) := do
  let es ← calls c 20 n o
  let o ← after c 20 n o
  .ok (es, o.hist.order.dropLast.map fun i => (o.hist.elems i).source)

/-- The result of one call of `Readline` in a new session. -/
def firstResult (c : OCfg) (o : Op) : R Event := (·.1) <$> o.readline c 20

end RL
