import Verif.Model.Complete
import Verif.Spec.Runes
/-! Completion (C34) and the selection menu (C35): `n` candidates in rows of `k`, the last row possibly shorter. -/

namespace RL
namespace Spec

/-- Keys that move the highlight: Ctrl-F, Tab, Ctrl-B, Ctrl-A, Ctrl-E, Ctrl-N, Ctrl-P. -/
def NavKey (r : Rune) : Prop := r = 6 ∨ r = 9 ∨ r = 2 ∨ r = 1 ∨ r = 5 ∨ r = 14 ∨ r = 16

/-- Key `r` moves the highlight from candidate `i` to candidate `j`. -/
def Nav (n k : Nat) (r : Rune) (i j : Nat) : Prop :=
  -- the next candidate, the first one after the last
  ((r = 6 ∨ r = 9) ∧ (i + 1 < n ∧ j = i + 1 ∨ i + 1 = n ∧ j = 0)) ∨
  -- the previous candidate, the last one before the first
  (r = 2 ∧ (0 < i ∧ j + 1 = i ∨ i = 0 ∧ j + 1 = n)) ∨
  -- the first candidate of the row
  (r = 1 ∧ j / k = i / k ∧ j % k = 0) ∨
  -- the last candidate of the row
  (r = 5 ∧ j / k = i / k ∧ j < n ∧ ∀ j', j' < n → j' / k = i / k → j' ≤ j) ∨
  -- one row down in the same column, or to its top
  (r = 14 ∧ (i + k < n ∧ j = i + k ∨ n ≤ i + k ∧ j < k ∧ j % k = i % k)) ∨
  -- one row up in the same column, or to its lowest candidate
  (r = 16 ∧ (k ≤ i ∧ j + k = i ∨ i < k ∧ j < n ∧ j % k = i % k ∧ ∀ j', j' < n → j' % k = i % k → j' ≤ j))

/-- A sequence of navigation keys. -/
inductive Navs (n k : Nat) : List Rune → Nat → Nat → Prop
  | nil (i) : Navs n k [] i i
  | cons {r rs i j l} : Nav n k r i j → Navs n k rs j l → Navs n k (r :: rs) i l

end Spec

open Spec in
/-- What Tab may insert in the line of `r` with the completer `f`: `c` is the state of the menu before, `c'` after. -/
inductive Comp.Tabbed (f : Completer) (c : Comp) (r : RB) : Comp → List Rune → Prop
  /-- no candidates -/
  | nothing {c'} : (f r.buf r.idx).1 = [] → c'.inComplete = false → Comp.Tabbed f c r c' []
  /-- the only candidate -/
  | single {c' s} : c.inComplete = false → (f r.buf r.idx).1 = [s] → c'.inComplete = false → Comp.Tabbed f c r c' s
  /-- what all candidates start with -/
  | common {c' s} : c.inComplete = false → 2 ≤ (f r.buf r.idx).1.length → LongestCommonPrefix s (f r.buf r.idx).1 → s ≠ [] →
      c'.inComplete = false → Comp.Tabbed f c r c' s
  /-- the menu -/
  | menu {c'} : (c.inComplete = false → 2 ≤ (f r.buf r.idx).1.length ∧ LongestCommonPrefix [] (f r.buf r.idx).1) →
      c'.inComplete = true → c'.inSelect = false → c'.candidate = (f r.buf r.idx).1 → Comp.Tabbed f c r c' []
  /-- a second Tab on the menu highlights its first candidate -/
  | select {c'} : c.inComplete = true → c.source = some r.buf → c'.inSelect = true → c'.candidate = c.candidate → c'.choise = 0 →
      2 ≤ c.candidate.length → Comp.Tabbed f c r c' []
  /-- a second Tab on a menu of one candidate takes it -/
  | only {c' s} : c.inComplete = true → c.source = some r.buf → c.candidate = [s] → c'.inComplete = false → Comp.Tabbed f c r c' s

end RL
