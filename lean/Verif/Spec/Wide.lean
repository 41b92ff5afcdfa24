import Verif.Spec.Screen
/-! A character terminal that knows wide and combining characters, for C75.  It differs from `Spec.Term` (C17) in what a cell
holds and in `put`:

* a cell holds the characters shown in it; the second cell of a wide character holds none;
* a wide character for which only one column is left goes to the next row;
* a character of width 0 joins the character before the cursor;
* of a wide character that is overwritten or erased in part, a blank remains in the other cell;
* how wide a character is, is up to the terminal (`wd`). -/

namespace RL.Spec

structure WTerm where
  w : Nat
  cell : Nat → Nat → List Rune
  row : Nat
  col : Nat
  pend : Bool
  st : EscState

namespace WTerm

/-- Go to the next row if a wrap is pending or fewer than `n` columns are left. -/
def wrap (t : WTerm) (n : Nat) : WTerm :=
  if t.pend ∨ t.w < t.col + n then { t with row := t.row + 1, col := 0, pend := false } else t

/-- Nothing is left of a wide character that covers columns `x - 1` and `x` of row `y`. -/
def cut (t : WTerm) (y x : Nat) : WTerm :=
  if x < t.w ∧ t.cell y x = [] then { t with cell := fun a b => if a = y ∧ (b = x ∨ b + 1 = x) then [32] else t.cell a b } else t

/-- Store a character of `n` columns at the cursor and advance. -/
def store (t : WTerm) (c : Rune) (n : Nat) : WTerm :=
  let t := (t.cut t.row t.col).cut t.row (t.col + n)
  let t := { t with cell := fun y x => if y = t.row ∧ x = t.col then [c] else if y = t.row ∧ t.col < x ∧ x < t.col + n then [] else t.cell y x }
  if t.col + n < t.w then { t with col := t.col + n } else { t with col := t.w - 1, pend := true }

/-- Join a character to the one before the cursor. -/
def join (t : WTerm) (c : Rune) : WTerm :=
  let x := if t.pend then t.col + 1 else t.col
  let x := if 2 ≤ x ∧ t.cell t.row (x - 1) = [] then x - 2 else x - 1
  { t with cell := fun a b => if a = t.row ∧ b = x then t.cell a b ++ [c] else t.cell a b }

def put (wd : Rune → Nat) (t : WTerm) (c : Rune) : WTerm :=
  if wd c = 0 then t.join c else (t.wrap (wd c)).store c (wd c)

def back (t : WTerm) : WTerm := { t with col := t.col - 1, pend := false }
def home (t : WTerm) : WTerm := { t with col := 0, pend := false }
def newline (t : WTerm) : WTerm := { t with row := t.row + 1, col := 0, pend := false }
def up (t : WTerm) (n : Nat) : WTerm := { t with row := t.row - n, pend := false }
def forward (t : WTerm) (n : Nat) : WTerm := { t with col := min (t.w - 1) (t.col + n), pend := false }
def eraseBelow (t : WTerm) : WTerm :=
  let t := t.cut t.row t.col
  { t with cell := fun y x => if t.row < y ∨ (y = t.row ∧ t.col ≤ x) then [32] else t.cell y x }
def eraseLine (t : WTerm) : WTerm := { t with cell := fun y x => if y = t.row then [32] else t.cell y x }
def topLeft (t : WTerm) : WTerm := { t with row := 0, col := 0, pend := false }

/-- The end of a control sequence. -/
def csi (t : WTerm) (ps : List Rune) (c : Rune) : WTerm :=
  if c = 65 then t.up (max 1 (num ps))
  else if c = 67 then t.forward (max 1 (num ps))
  else if c = 74 ∧ ps = [] then t.eraseBelow
  else if c = 75 ∧ ps = [50] then t.eraseLine
  else if c = 72 ∧ ps = [] then t.topLeft
  else t

/-- One character. -/
def feed (wd : Rune → Nat) (t : WTerm) (c : Rune) : WTerm :=
  match t.st with
  | .ground =>
    if c = 27 then { t with st := .esc }
    else if c = 8 then t.back
    else if c = 13 then t.home
    else if c = 10 then t.newline
    else if c = 7 then t
    else t.put wd c
  | .esc => if c = 91 then { t with st := .csi [] } else { t with st := .ground }
  | .csi ps => if 32 ≤ c ∧ c < 64 then { t with st := .csi (ps ++ [c]) } else { t.csi ps c with st := .ground }

def run (wd : Rune → Nat) (t : WTerm) (cs : List Rune) : WTerm := cs.foldl (feed wd) t

/-- A blank screen. -/
def blank (w : Nat) : WTerm := ⟨w, fun _ _ => [32], 0, 0, false, .ground⟩

end WTerm

/-- The cells of a text. -/
def cellsOf (wd : Rune → Nat) (text : List Rune) : List (List Rune) := text.flatMap fun c => [c] :: List.replicate (wd c - 1) []

/-- The number of columns of a text. -/
def columns (wd : Rune → Nat) (text : List Rune) : Nat := (text.map wd).sum

/-- No character of the text is cut by the edge of a screen of `w` columns. -/
def Unbroken (wd : Rune → Nat) (w : Nat) (text : List Rune) : Prop :=
  ∀ pre c post, text = pre ++ c :: post → columns wd pre % w + wd c ≤ w

namespace WTerm

/-- From row `y` on the screen shows the text wrapped at the width, followed by blanks only; the cursor is in column `k` of the text,
counted without the wrapping. -/
structure Shows (wd : Rune → Nat) (t : WTerm) (y : Nat) (text : List Rune) (k : Nat) : Prop where
  cells : ∀ r c, c < t.w → t.cell (y + r) c = (cellsOf wd text).getD (r * t.w + c) [32]
  row : t.row = y + k / t.w
  col : t.col = k % t.w
  pend : t.pend = false
  st : t.st = .ground

end WTerm
end RL.Spec
