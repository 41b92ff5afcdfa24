import Verif.Model.Completers
/-! Model of `Tree` and `Print` (/repo/complete_helper.go:32-56).  Text is a list of runes; the tree is finite and made of `PrefixCompleter`s. -/

namespace RL.PTree

/-- `strings.TrimSpace(s) == ""`. -/
def blank (s : List Rune) : Bool := (trimSpaceLeft (trimSpaceLeft s).reverse).length = 0

mutual
/-- /repo/complete_helper.go:38-52 `Print`.  `strings.Repeat` is only called with a positive `level`. -/
def print (pre : List Rune) : PTree → Nat → List Rune
  | node name _ cs, level =>
    if blank name = false then
      pre ++ (if level > 0 then [0x251C] ++ List.replicate (level * 4 - 2) 0x2500 ++ [32] else []) ++ (name ++ [10]) ++ printAll pre cs (level + 1)
    else printAll pre cs level
/-- The loop at /repo/complete_helper.go:49-51. -/
def printAll (pre : List Rune) : List PTree → Nat → List Rune
  | [], _ => []
  | c :: cs, level => print pre c level ++ printAll pre cs level
end

/-- /repo/complete_helper.go:32-36 `Tree`. -/
def tree (pre : List Rune) (t : PTree) : List Rune := print pre t 0

end RL.PTree
