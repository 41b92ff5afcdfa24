import Verif.Model.Operation
import Verif.Spec.Listing
import Verif.Spec.Transcript
/-! What the candidates of a completer look like below the line, for C93. -/

namespace RL.Spec

/-- The candidates a completer has for a line, as they are listed: each after the text it completes. -/
def offered (f : Completer) (line : List Rune) (pos : Nat) : List (List Rune) :=
  (f line pos).1.map ((line.take pos).drop (pos - (f line pos).2.toNat) ++ ·)

/-- The screen has room for the candidates: each is shorter than a row, with a blank to spare, and the line does not end at the edge of
the screen with the cursor there. -/
structure Roomy (f : Completer) (w : Nat) (vis line : List Rune) (pos : Nat) : Prop where
  edge : ¬ (pos = line.length ∧ (vis.length + line.length) % w = 0)
  fit : ∀ x ∈ offered f line pos, x.length + 1 < w

/-- A list of items in `k` columns of `cw` cells: every item fits in its column with a blank after it, the columns in a row, and there
is no room for one more column. -/
structure Columns (w k cw : Nat) (items : List (List Rune)) : Prop where
  some : 0 < k
  narrow : k * cw < w
  fit : ∀ x ∈ items, x.length < cw
  dense : ∃ x ∈ items, w ≤ (k + 1) * (x.length + 1)

end RL.Spec
