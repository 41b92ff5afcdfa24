import Verif.Model.Completers
/-! Specification of the picture of a completer (C86). -/

namespace RL.Spec

/-- Items with names, and the items below each of them. -/
inductive Items where
  | nil
  | item (name : List Rune) (below rest : Items)
deriving DecidableEq

namespace Items

def append : Items → Items → Items
  | nil, b => b
  | item n u r, b => item n u (append r b)

/-- The items with their depths, in the order of reading. -/
def rows : Nat → Items → List (Nat × List Rune)
  | _, nil => []
  | d, item n u r => (d, n) :: (rows (d + 1) u ++ rows d r)

end Items

mutual
/-- The items of a completer that have a name; what is below a nameless one takes its place. -/
def itemsOf : PTree → Items
  | .node n _ cs => if ∃ r ∈ n, isSpace r = false then .item n (itemsOfAll cs) .nil else itemsOfAll cs
def itemsOfAll : List PTree → Items
  | [] => .nil
  | c :: cs => (itemsOf c).append (itemsOfAll cs)
end

/-- Every item has a name that fits on one line and does not look like a branch. -/
def Items.Plain : Items → Prop
  | .nil => True
  | .item n u r => (10 : Rune) ∉ n ∧ n.head? ≠ some 0x251C ∧ u.Plain ∧ r.Plain

/-- One line of the picture. -/
def row (pre : List Rune) (d : Nat) (n : List Rune) : List Rune := pre ++ (if d = 0 then n else 0x251C :: List.replicate (4 * d - 2) 0x2500 ++ 32 :: n)

/-- The picture: a line per item. -/
def treePicture (pre : List Rune) (t : Items) : List Rune := (t.rows 0).flatMap fun (d, n) => row pre d n ++ [10]

end RL.Spec
