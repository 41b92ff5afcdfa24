import Verif.Model.Completers
/-!
# What the completers should do

A command tree, walking it word by word, and cutting a line into words; independent of the loops of the code.
-/

namespace RL.Spec

/-- A command tree as a program describes it: fixed words, and words computed from the line. -/
inductive Command where
  | word (name : List Rune) (children : List Command)
  | dynamic (names : List Rune → List (List Rune)) (children : List Command)

namespace Command

def children : Command → List Command
  | word _ cs => cs
  | dynamic _ cs => cs

/-- The words that select this command, when the line is `orig`. -/
def names (orig : List Rune) : Command → List (List Rune)
  | word n _ => [n]
  | dynamic f _ => f orig

mutual
/-- The completer a program builds for the tree with `PcItem` and `PcItemDynamic`. -/
def build : Command → PTree
  | word n cs => PTree.item n (buildL cs)
  | dynamic f cs => PTree.itemDynamic f (buildL cs)
def buildL : List Command → List PTree
  | [] => []
  | c :: cs => build c :: buildL cs
end

/-- All words that can follow this command. -/
def next (orig : List Rune) (c : Command) : List (List Rune) := c.children.flatMap (names orig)

/-- The words `ws` lead from the first command to the second. -/
inductive Walk (orig : List Rune) : Command → List (List Rune) → Command → Prop
  | here {c : Command} : Walk orig c [] c
  | step {c d e : Command} {w : List Rune} {ws : List (List Rune)} : d ∈ c.children → w ∈ d.names orig →
      Walk orig d ws e → Walk orig c (w :: ws) e

/-- `d` is `c` or a command below it. -/
inductive Below : Command → Command → Prop
  | here {c : Command} : Below c c
  | step {c d e : Command} : d ∈ c.children → Below d e → Below c e

/-- At every command the following words are distinct and contain no blank. -/
def Tidy (orig : List Rune) (c : Command) : Prop :=
  ∀ d, Below c d → (d.next orig).Nodup ∧ ∀ n ∈ d.next orig, (32 : Rune) ∉ n

end Command

/-- `s` consists of the words `ws`, each followed by a blank, and the unfinished word `last`; white space may precede each
word. -/
inductive Phrase : List Rune → List (List Rune) → List Rune → Prop
  | last {a last : List Rune} : (∀ x ∈ a, isSpace x = true) → (32 : Rune) ∉ last →
      (∀ x, last.head? = some x → isSpace x = false) → Phrase (a ++ last) [] last
  | word {a w rest last : List Rune} {ws : List (List Rune)} : (∀ x ∈ a, isSpace x = true) → w ≠ [] → (32 : Rune) ∉ w →
      (∀ x, w.head? = some x → isSpace x = false) → Phrase rest ws last → Phrase (a ++ w ++ 32 :: rest) (w :: ws) last

/-- The rest of every name that starts with `last`, followed by a blank, in order. -/
def extensions (last : List Rune) (names : List (List Rune)) : List (List Rune) :=
  (names.filter fun n => last.isPrefixOf n).map fun n => n.drop last.length ++ [32]

end RL.Spec
