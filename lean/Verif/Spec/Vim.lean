import Verif.Spec.Keys
/-! The commands of vim's normal mode as operations on the textbook editor's line. -/

namespace RL.Spec

/-- `x`: delete the rune under the cursor; the cursor stays on a rune. -/
def Line.vimX (z : Line) : Line := if z.delete.right = [] then z.delete.goLeft else z.delete

/-- Target of `f` and `F`: the nearest `ch` right or left of the cursor. -/
def FindPos (right : Bool) (l : List Rune) (ch : Rune) (cur m : Nat) : Prop :=
  if right then IsLeastAbove (fun i => l[i]? = some ch) cur m else IsGreatestBelow (fun i => l[i]? = some ch) cur m

/-- There is no `ch` in the direction searched. -/
def FindNone (right : Bool) (l : List Rune) (ch : Rune) (cur : Nat) : Prop :=
  if right then ∀ i, cur < i → l[i]? ≠ some ch else ∀ i, i < cur → l[i]? ≠ some ch

/-- Position `i` holds the last character of a word that is followed by something. -/
def WordEnd (l : List Rune) (i : Nat) : Prop := ∃ a b, l[i]? = some a ∧ l[i + 1]? = some b ∧ WordChar a ∧ ¬ WordChar b

/-- Target of `e`: the next end of a word, or else the end of the line. -/
def EndWordPos (l : List Rune) (cur m : Nat) : Prop :=
  IsLeastAbove (WordEnd l) cur m ∨ ((∀ j, cur < j → ¬ WordEnd l j) ∧ m = l.length)

/-- `VimCmd keys z z' ins`: typing `keys` in normal mode turns the line `z` into `z'`; `ins` says whether insert mode is on
afterwards.  Left out: `e` and `E` on a word's character that ends the line, and `r` with nothing under the
cursor, which crash (C15); `j` and `k` (history). -/
inductive VimCmd : List Rune → Line → Line → Bool → Prop
  | i (z) : VimCmd [105] z z true
  | I (z) : VimCmd [73] z z.home true
  | a (z) : VimCmd [97] z z.goRight true
  | A (z) : VimCmd [65] z z.toEnd true
  | s (z) : VimCmd [115] z z.delete true
  | S (z) : VimCmd [83] z z.erase true
  | cc (z) : VimCmd [99, 99] z z.erase true
  | ch (z) : VimCmd [99, 104] z z.backspace true
  | cl (z) : VimCmd [99, 108] z z.delete true
  | cw {z z'} : CutWordRight z z' → VimCmd [99, 119] z z' true
  | cOther (z) {k} : k ≠ 99 → k ≠ 104 → k ≠ 108 → k ≠ 119 → VimCmd [99, k] z z true
  | start (z) {k} : k = 48 ∨ k = 94 → VimCmd [k] z z.home false
  | dollar (z) : VimCmd [36] z z.toEnd false
  | h (z) : VimCmd [104] z z.goLeft false
  | l (z) : VimCmd [108] z z.goRight false
  | b {z z' m k} : k = 98 ∨ k = 66 → PrevWordPos z.text z.left.length m → MovedTo z z' m → VimCmd [k] z z' false
  | w {z z' m k} : k = 119 ∨ k = 87 → NextWordPos z.text z.left.length m → MovedTo z z' m → VimCmd [k] z z' false
  | e {z z' m k} : k = 101 ∨ k = 69 → (∀ x, z.right = [x] → ¬ WordChar x) → EndWordPos z.text z.left.length m → MovedTo z z' m →
      VimCmd [k] z z' false
  | f {z z' m k x} : k = 102 ∨ k = 70 → x ≠ 27 → FindPos (k = 102) z.text x z.left.length m → MovedTo z z' m →
      VimCmd [k, x] z z' false
  | t {z z' m k x} : k = 116 ∨ k = 84 → x ≠ 27 → FindPos (k = 116) z.text x z.left.length m →
      MovedTo z z' (if k = 116 then m - 1 else m + 1) → VimCmd [k, x] z z' false
  | find_none {z k x} : k = 102 ∨ k = 70 ∨ k = 116 ∨ k = 84 → FindNone (k = 102 ∨ k = 116) z.text x z.left.length →
      VimCmd [k, x] z z false
  | find_esc (z) {k} : k = 102 ∨ k = 70 ∨ k = 116 ∨ k = 84 → VimCmd [k, 27] z z false
  | x (z) : VimCmd [120] z z.vimX false
  | dd (z) : VimCmd [100, 100] z z.erase false
  | dh (z) : VimCmd [100, 104] z z.backspace false
  | dl (z) : VimCmd [100, 108] z z.delete false
  | dw {z z'} : CutWordRight z z' → VimCmd [100, 119] z z' false
  | dOther (z) {k} : k ≠ 100 → k ≠ 104 → k ≠ 108 → k ≠ 119 → VimCmd [100, k] z z false
  | p (z) : VimCmd [112] z z.yank false
  | r {z y ys} (x) : z.right = y :: ys → VimCmd [114, x] z ⟨z.left, x :: ys, z.kill⟩ false

end RL.Spec
