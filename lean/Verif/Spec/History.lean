import Verif.Model.History
import Verif.Spec.Runes
import Verif.Spec.Utf8
/-! Specifications for the history (C19-C27).  A history, as a user sees it, is the list of its stored entries (oldest
first) plus the line being edited. -/

namespace RL
namespace Spec

/-- The newest `n` entries (none if `n` is not positive). -/
def keepNewest {α} (n : Int) (l : List α) : List α := l.drop (l.length - n.toNat)

/-- What a text file of entries looks like: each entry followed by a newline. -/
def fileOf (es : List (List Rune)) : List Nat := (es.map fun e => encode e ++ [10]).flatten

/-- An entry the history file can represent: not empty, on one line, no surrounding blanks, made of Unicode scalar
values. -/
structure Storable (s : List Rune) : Prop where
  nonempty : s ≠ []
  oneLine : (10 : Rune) ∉ s
  first : ∀ a, s.head? = some a → isSpace a = false
  last : ∀ a, s.getLast? = some a → isSpace a = false
  scalar : ∀ r ∈ s, Scalar r

/-- Recording a submitted line: empty lines and immediate repeats are ignored. -/
def record (es : List (List Rune)) (s : List Rune) : List (List Rune) :=
  if s = [] ∨ es.getLast? = some s then es else es ++ [s]

/-- `x` is the first element of `l` with property `P`. -/
def FirstWith {α} (P : α → Prop) (l : List α) (x : α) : Prop :=
  ∃ before after, l = before ++ x :: after ∧ P x ∧ ∀ y ∈ before, ¬ P y

end Spec

namespace Hist

/-- The stored entries: everything but the last element, which is the line being edited. -/
def entries (h : Hist) : List (List Rune) := h.order.dropLast.map fun i => (h.elems i).source

/-- The representation invariant. -/
structure WF (h : Hist) : Prop where
  nodup : h.order.Nodup
  known : ∀ i ∈ h.order, i < h.next
  cur : ∀ c, h.current = some c → c < h.next
  cur_none : h.current = none → h.order = []
  version : ∀ i, (h.elems i).version ≤ h.ver

end Hist

/-- History operations reachable through the library. -/
inductive HOp where
  | new (s : List Rune)
  | update (s : List Rune)
  | prev | next | revert | reset | enable | disable | close
  | init

/-- Effect of an operation on the history. -/
def HOp.run (cfg : HCfg) : HOp → Hist → R Hist
  | .new s, h => h.new cfg s
  | .update s, h => .ok (h.update cfg s false)
  | .prev, h => .ok h.prev.2
  | .next, h => .ok h.nextLine.2
  | .revert, h => .ok h.revert
  | .reset, h => .ok h.reset
  | .enable, h => .ok h.enableH
  | .disable, h => .ok h.disable
  | .close, h => .ok h.close
  | .init, h => .ok (h.init cfg)

/-- A sequence of operations. -/
def runHOps (cfg : HCfg) : List HOp → Hist → R Hist
  | [], h => .ok h
  | o :: os, h => o.run cfg h >>= runHOps cfg os

/-- Operations that only browse: recall, going back, cancelling, and noting the current text of the line. -/
def HOp.Browse : HOp → Prop
  | .update _ | .prev | .next | .revert => True
  | _ => False

/-- A new session on a history file. -/
def Hist.start (cfg : HCfg) (disk : List Nat) : Hist := (Hist.fresh disk).init cfg

end RL
