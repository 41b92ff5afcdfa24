import Verif.Model.Operation
/-! What should be on the terminal after a session: one paragraph per call of `Readline` (C69). -/

namespace RL.Spec

/-- The paragraph a call leaves: the prompt and the line, for an interrupted line and at Ctrl-D with the hint of the
configuration. -/
def paragraph (vis interruptPrompt eofPrompt : List Rune) : Event → List Rune
  | .line l => vis ++ l
  | .interrupt l => vis ++ l ++ interruptPrompt
  | .eof => vis ++ eofPrompt

/-- The rows a paragraph takes on a screen of `w` columns; an empty one takes one. -/
def height (w : Nat) (text : List Rune) : Nat := (text.length - 1) / w + 1

/-- The rows of several paragraphs. -/
def heights (w : Nat) : List (List Rune) → Nat
  | [] => 0
  | p :: ps => height w p + heights w ps

/-- The paragraphs one below the other, each wrapped at the width: the character in row `y`, column `x`. -/
def paper (w : Nat) : List (List Rune) → Nat → Nat → Rune
  | [], _, _ => 32
  | p :: ps, y, x => if y < height w p then p.getD (y * w + x) 32 else paper w ps (y - height w p) x

/-- The states a call of `Readline` goes through while it has no result. -/
inductive During (c : OCfg) : Op → Op → Prop
  | here (o) : During c o o
  | key {o o1 o2} : During c o o1 → o1.iter c = .ok o2 → o2.events = [] → During c o o2

end RL.Spec
