import Verif.Spec.Screen
import Verif.Spec.Transcript
/-! A terminal of finite height that scrolls (C81): the terminal of C17 with `h` rows.  Going down from the last row moves all rows up by
one; what was in the first row is lost, and the last row is blank.  The cursor cannot go above the first row. -/

namespace RL.Spec

structure Scr where
  w : Nat
  h : Nat
  cell : Nat → Nat → Rune
  row : Nat
  col : Nat
  pend : Bool
  st : EscState

namespace Scr

/-- One row down. -/
def down (s : Scr) : Scr :=
  if s.row + 1 < s.h then { s with row := s.row + 1 }
  else { s with cell := fun y x => if y + 1 < s.h then s.cell (y + 1) x else 32 }

def wrap (s : Scr) : Scr := if s.pend then { s.down with col := 0, pend := false } else s

def store (s : Scr) (c : Rune) : Scr :=
  let s := { s with cell := fun y x => if y = s.row ∧ x = s.col then c else s.cell y x }
  if s.col + 1 < s.w then { s with col := s.col + 1 } else { s with pend := true }

def put (s : Scr) (c : Rune) : Scr := s.wrap.store c

def back (s : Scr) : Scr := { s with col := s.col - 1, pend := false }
def home (s : Scr) : Scr := { s with col := 0, pend := false }
def newline (s : Scr) : Scr := { s.down with col := 0, pend := false }
def up (s : Scr) (n : Nat) : Scr := { s with row := s.row - n, pend := false }
def forward (s : Scr) (n : Nat) : Scr := { s with col := min (s.w - 1) (s.col + n), pend := false }
def eraseBelow (s : Scr) : Scr :=
  { s with cell := fun y x => if s.row < y ∨ (y = s.row ∧ s.col ≤ x) then 32 else s.cell y x }
def eraseLine (s : Scr) : Scr := { s with cell := fun y x => if y = s.row then 32 else s.cell y x }
def topLeft (s : Scr) : Scr := { s with row := 0, col := 0, pend := false }

/-- The end of a control sequence. -/
def csi (s : Scr) (ps : List Rune) (c : Rune) : Scr :=
  if c = 65 then s.up (max 1 (num ps))
  else if c = 67 then s.forward (max 1 (num ps))
  else if c = 74 ∧ ps = [] then s.eraseBelow
  else if c = 75 ∧ ps = [50] then s.eraseLine
  else if c = 72 ∧ ps = [] then s.topLeft
  else s

/-- One character. -/
def feed (s : Scr) (c : Rune) : Scr :=
  match s.st with
  | .ground =>
    if c = 27 then { s with st := .esc }
    else if c = 8 then s.back
    else if c = 13 then s.home
    else if c = 10 then s.newline
    else if c = 7 then s
    else s.put c
  | .esc => if c = 91 then { s with st := .csi [] } else { s with st := .ground }
  | .csi ps => if 32 ≤ c ∧ c < 64 then { s with st := .csi (ps ++ [c]) } else { s.csi ps c with st := .ground }

def run (s : Scr) (cs : List Rune) : Scr := cs.foldl feed s

/-- A blank screen. -/
def blank (w h : Nat) : Scr := ⟨w, h, fun _ _ => 32, 0, 0, false, .ground⟩

end Scr

/-- The cursor is never `h` rows or more above a place where it has been before. -/
def Shallow (h : Nat) (t : Term) (cs : List Rune) : Prop :=
  ∀ i j, i ≤ j → (t.run (cs.take i)).row < (t.run (cs.take j)).row + h

/-- The screen `s` shows the rows from `k` on of a picture without end: the rows of `s0` above its cursor, then `pic`.  Below the screen there is
nothing. -/
structure Scr.On (s0 s : Scr) (pic : Nat → Nat → Rune) (k : Nat) : Prop where
  h : s.h = s0.h
  inside : s.row < s0.h
  cells : ∀ a, a < s0.h → ∀ x, x < s0.w → s.cell a x = if k + a < s0.row then s0.cell (k + a) x else pic (k + a - s0.row) x
  below : ∀ a, k + s0.h ≤ a → ∀ x, x < s0.w → (if a < s0.row then s0.cell a x else pic (a - s0.row) x) = 32

/-- The screen has scrolled by `k` rows for the output `cs`: just enough for the lowest row the cursor has been in. -/
def Scrolled (h : Nat) (t : Term) (cs : List Rune) (k : Nat) : Prop :=
  (∀ i, (t.run (cs.take i)).row < k + h) ∧ (k = 0 ∨ ∃ i, k + h = (t.run (cs.take i)).row + 1)

/-- What would be seen on a screen without end: the rows of `s` above its cursor, then the paragraphs. -/
def picture (s : Scr) (ps : List (List Rune)) (y x : Nat) : Rune := if y < s.row then s.cell y x else paper s.w ps (y - s.row) x

/-- The screen `s` shows the picture from row `k` on, and below the screen there is nothing. -/
structure Scr.Window (s0 s : Scr) (ps : List (List Rune)) (k : Nat) : Prop where
  h : s.h = s0.h
  inside : s.row < s0.h
  cells : ∀ a, a < s0.h → ∀ x, x < s0.w → s.cell a x = picture s0 ps (k + a) x
  below : ∀ a, k + s0.h ≤ a → ∀ x, x < s0.w → picture s0 ps a x = 32

end RL.Spec
