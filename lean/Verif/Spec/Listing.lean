import Verif.Spec.Screen
/-! A list in columns, for C68. -/

namespace RL.Spec

/-- What a list of items shows in `k` columns of `cw` cells each, filled row by row: the character at a row and a column. -/
def listing (k cw : Nat) (items : List (List Rune)) (row col : Nat) : Rune :=
  if col < k * cw then (items.getD (row * k + col / cw) []).getD (col % cw) 32 else 32

/-- Number of rows a text of `n` cells takes. -/
def rows (w n : Nat) : Nat := n / w + if n % w = 0 then 0 else 1

end RL.Spec
