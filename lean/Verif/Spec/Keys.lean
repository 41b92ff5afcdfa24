import Verif.Spec.Editor
/-! The editing keys (doc/shortcut.md) as operations on the textbook editor's line. -/

namespace RL.Spec

/-- Keys whose effect is a function of the line.  `none`: not an editing key (Ctrl-D on an empty line ends the input). -/
def editKey (r : Rune) (z : Line) : Option Line :=
  if r = 1 then some z.home                            -- Ctrl-A
  else if r = 2 then some z.goLeft                     -- Ctrl-B
  else if r = 5 then some z.toEnd                      -- Ctrl-E
  else if r = 6 then some z.goRight                    -- Ctrl-F
  else if r = 8 ∨ r = 127 then some z.backspace        -- Ctrl-H, Backspace
  else if r = 11 then some z.killRight                 -- Ctrl-K
  else if r = 21 then some z.killLeft                  -- Ctrl-U
  else if r = 25 then some z.yank                      -- Ctrl-Y
  else if r = 4 then (if z.text = [] then none else some z.delete)  -- Ctrl-D
  else if 32 ≤ r then some (z.insert [r])              -- text
  else none

/-- The cursor of the line has moved to position `m`, nothing else has changed. -/
def MovedTo (z z' : Line) (m : Nat) : Prop := z'.text = z.text ∧ z'.kill = z.kill ∧ z'.left.length = m

/-- Ctrl-W: the text from the nearest word start left of the cursor up to the cursor is cut. -/
def CutWordLeft (z z' : Line) : Prop :=
  ∃ m, IsGreatestBelow (WordStart z.text) z.left.length m ∧ z' = ⟨z.left.take m, z.right, z.left.drop m⟩

/-- Where Alt-D stops cutting: from the first letter or digit at or after the cursor, one position before the next word
start, or the end of the line. -/
def DeleteWordPos (l : List Rune) (cur m : Nat) : Prop :=
  ∃ init, cur ≤ init ∧ init ≤ l.length ∧ (∀ j, cur ≤ j → j < init → ∃ c, l[j]? = some c ∧ ¬ WordChar c) ∧
    (∀ c, l[init]? = some c → WordChar c) ∧
    (IsLeastAbove (WordStart l) init (m + 1) ∨ ((∀ j, init < j → ¬ WordStart l j) ∧ m = l.length))

/-- Alt-D. -/
def CutWordRight (z z' : Line) : Prop :=
  (z.right = [] ∧ z' = z) ∨
  (z.right ≠ [] ∧ ∃ m, DeleteWordPos z.text z.left.length m ∧ z' = ⟨z.left, z.text.drop m, (z.text.take m).drop z.left.length⟩)

/-- Ctrl-T on a line of at least two runes: the runes around the cursor change places (the first two at the start of the
line, the last two at its end) and the cursor goes behind them. -/
def Transposes (z z' : Line) : Prop :=
  ∃ pre a b post, z.text = pre ++ a :: b :: post ∧ z' = ⟨pre ++ [b, a], post, z.kill⟩ ∧ (z.left = [] → pre = []) ∧
    (z.left ≠ [] → z.right ≠ [] → pre.length + 1 = z.left.length) ∧ (z.right = [] → post = [])

/-- The editing key `r` turns the line `z` into `z'`.  Alt-B, Alt-F, Alt-D and Alt-Backspace are the runes -1 to -4.  Left
out are the uses of Ctrl-W and Ctrl-T in which the library misbehaves (C11, C13): on the first word, and on a line of one
rune. -/
def Edits (r : Rune) (z z' : Line) : Prop :=
  editKey r z = some z' ∨
  (r = -1 ∧ ∃ m, PrevWordPos z.text z.left.length m ∧ MovedTo z z' m) ∨
  (r = -2 ∧ ∃ m, NextWordPos z.text z.left.length m ∧ MovedTo z z' m) ∨
  ((r = 23 ∨ r = -4) ∧ CutWordLeft z z') ∨
  (r = -3 ∧ CutWordRight z z') ∨
  (r = 20 ∧ Transposes z z')

/-- Typing the keys one after the other. -/
inductive Typed : List Rune → Line → Line → Prop
  | nil (z) : Typed [] z z
  | cons {r ks z z' z''} : Edits r z z' → Typed ks z' z'' → Typed (r :: ks) z z''

end RL.Spec
