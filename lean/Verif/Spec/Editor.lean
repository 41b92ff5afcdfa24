import Verif.Model.Cmd
/-! The textbook line editor: text left of the cursor, text right of the cursor, cut buffer.
Independent of the model except for the names of the commands. -/

namespace RL.Spec

/-- A line with a cursor and a cut buffer. -/
structure Line where
  left : List Rune
  right : List Rune
  kill : List Rune
deriving DecidableEq, Repr

namespace Line
def text (z : Line) : List Rune := z.left ++ z.right
def insert (s : List Rune) (z : Line) : Line := { z with left := z.left ++ s }
def backspace (z : Line) : Line := { z with left := z.left.dropLast }
def delete (z : Line) : Line :=
  match z.right with
  | [] => z
  | c :: rs => { z with right := rs, kill := [c] }
def goLeft (z : Line) : Line :=
  match z.left.getLast? with
  | none => z
  | some c => { z with left := z.left.dropLast, right := c :: z.right }
def goRight (z : Line) : Line :=
  match z.right with
  | [] => z
  | c :: rs => { z with left := z.left ++ [c], right := rs }
def home (z : Line) : Line := { z with left := [], right := z.left ++ z.right }
def toEnd (z : Line) : Line := { z with left := z.left ++ z.right, right := [] }
def killRight (z : Line) : Line := { z with right := [], kill := z.right }
def killLeft (z : Line) : Line := if z.left = [] then z else { z with left := [], kill := z.left }
def erase (z : Line) : Line := { left := [], right := [], kill := z.left ++ z.right }
def yank (z : Line) : Line := { z with left := z.left ++ z.kill }
def setText (s : List Rune) (z : Line) : Line := { z with left := s, right := [] }
end Line

/-- The commands covered by the textbook editor. -/
def basic : Cmd → Option (Line → Line)
  | .insert s => some (·.insert s)
  | .backspace => some (·.backspace)
  | .delete => some (·.delete)
  | .left => some (·.goLeft)
  | .right => some (·.goRight)
  | .home => some (·.home)
  | .toEnd => some (·.toEnd)
  | .kill => some (·.killRight)
  | .killFront => some (·.killLeft)
  | .erase => some (·.erase)
  | .yank => some (·.yank)
  | .set s => some (·.setText s)
  | _ => none

/-- Run a sequence of textbook commands; commands that are not textbook commands are not allowed. -/
def runBasic : List Cmd → Line → Option Line
  | [], z => some z
  | c :: cs, z => do runBasic cs ((← basic c) z)

/-- Letters and digits (ASCII), the characters of a word. -/
def WordChar (c : Rune) : Prop := (97 ≤ c ∧ c ≤ 122) ∨ (65 ≤ c ∧ c ≤ 90) ∨ (48 ≤ c ∧ c ≤ 57)

/-- A word starts at position `i > 0`. -/
def WordStart (l : List Rune) (i : Nat) : Prop :=
  ∃ a b, 0 < i ∧ l[i - 1]? = some a ∧ l[i]? = some b ∧ ¬ WordChar a ∧ WordChar b

/-- `m` is the greatest number below `hi` with property `P`. -/
def IsGreatestBelow (P : Nat → Prop) (hi m : Nat) : Prop := m < hi ∧ P m ∧ ∀ j, m < j → j < hi → ¬ P j

/-- `m` is the least number above `lo` with property `P`. -/
def IsLeastAbove (P : Nat → Prop) (lo m : Nat) : Prop := lo < m ∧ P m ∧ ∀ j, lo < j → j < m → ¬ P j

/-- Target of "previous word" from `cur`. -/
def PrevWordPos (l : List Rune) (cur m : Nat) : Prop :=
  IsGreatestBelow (WordStart l) cur m ∨ ((∀ j, j < cur → ¬ WordStart l j) ∧ m = 0)

/-- Target of "next word" from `cur`. -/
def NextWordPos (l : List Rune) (cur m : Nat) : Prop :=
  IsLeastAbove (WordStart l) cur m ∨ ((∀ j, cur < j → ¬ WordStart l j) ∧ m = l.length)

end RL.Spec

namespace RL

/-- The cursor is in the line. -/
def Ed.CursorIn (e : Ed) : Prop := e.idx ≤ e.buf.length

/-- The textbook view of the editing fields. -/
def Ed.line (e : Ed) : Spec.Line := { left := e.buf.take e.idx, right := e.buf.drop e.idx, kill := e.lastKill }

/-- When the loop that computes the row separators never ends, in terms of the line width `W`, the prompt width `p` and
the terminal width. -/
def RB.SepDiverges (W p : Nat) (width : Int) : Prop :=
  0 < W ∧ (width ≤ 0 ∨ (0 < p ∧ width ∣ (p : Int)))

/-- Drawing works: the buffer is not interactive, or a painter is installed, the terminal width is positive, the
prompt does not end in ESC and its width is not a positive multiple of the terminal width. -/
def RB.DrawOK (U : UTables) (d : DCfg) (r : RB) : Prop :=
  r.interactive = false ∨
    (d.painter ≠ none ∧ 0 < r.width ∧ ∃ p, r.promptLen U = .ok p ∧ (0 < p → ¬ r.width ∣ (p : Int)))

end RL
