import Verif.Model.RuneBuf
/-! A character terminal (VT100 with automatic wrap), for C17.  It knows nothing of the library: it reads characters.

* rows are counted from 0 downwards without end (the screen does not scroll);
* after a character in the last column the cursor stays there with a pending wrap; the next character goes to the start
  of the next row; any cursor movement forgets the pending wrap;
* every printable character takes one cell; wide characters, tabs and combining characters are not part of it;
* line feed also returns to column 0 (output processing of the tty is left on by the library);
* control sequences: `ESC [ n A`, `ESC [ n C`, `ESC [ J`, `ESC [ 2 K`, `ESC [ H`, `ESC [ ... m`; others are ignored. -/

namespace RL.Spec

inductive EscState where
  | ground
  | esc
  | csi (ps : List Rune)
deriving DecidableEq

structure Term where
  w : Nat
  cell : Nat → Nat → Rune
  row : Nat
  col : Nat
  pend : Bool
  st : EscState

/-- Decimal number. -/
def num (ps : List Rune) : Nat := ps.foldl (fun a c => a * 10 + (c - 48).toNat) 0

namespace Term

/-- Go to the next row if a wrap is pending. -/
def wrap (t : Term) : Term := if t.pend then { t with row := t.row + 1, col := 0, pend := false } else t

/-- Store a character at the cursor and advance. -/
def store (t : Term) (c : Rune) : Term :=
  let t := { t with cell := fun y x => if y = t.row ∧ x = t.col then c else t.cell y x }
  if t.col + 1 < t.w then { t with col := t.col + 1 } else { t with pend := true }

def put (t : Term) (c : Rune) : Term := t.wrap.store c

def back (t : Term) : Term := { t with col := t.col - 1, pend := false }
def home (t : Term) : Term := { t with col := 0, pend := false }
def newline (t : Term) : Term := { t with row := t.row + 1, col := 0, pend := false }
def up (t : Term) (n : Nat) : Term := { t with row := t.row - n, pend := false }
def forward (t : Term) (n : Nat) : Term := { t with col := min (t.w - 1) (t.col + n), pend := false }
def eraseBelow (t : Term) : Term :=
  { t with cell := fun y x => if t.row < y ∨ (y = t.row ∧ t.col ≤ x) then 32 else t.cell y x }
def eraseLine (t : Term) : Term := { t with cell := fun y x => if y = t.row then 32 else t.cell y x }
def topLeft (t : Term) : Term := { t with row := 0, col := 0, pend := false }

/-- The end of a control sequence. -/
def csi (t : Term) (ps : List Rune) (c : Rune) : Term :=
  if c = 65 then t.up (max 1 (num ps))
  else if c = 67 then t.forward (max 1 (num ps))
  else if c = 74 ∧ ps = [] then t.eraseBelow
  else if c = 75 ∧ ps = [50] then t.eraseLine
  else if c = 72 ∧ ps = [] then t.topLeft
  else t

/-- One character. -/
def feed (t : Term) (c : Rune) : Term :=
  match t.st with
  | .ground =>
    if c = 27 then { t with st := .esc }
    else if c = 8 then t.back
    else if c = 13 then t.home
    else if c = 10 then t.newline
    else if c = 7 then t
    else t.put c
  | .esc => if c = 91 then { t with st := .csi [] } else { t with st := .ground }
  | .csi ps => if 32 ≤ c ∧ c < 64 then { t with st := .csi (ps ++ [c]) } else { t.csi ps c with st := .ground }

def run (t : Term) (cs : List Rune) : Term := cs.foldl feed t

/-- A blank screen. -/
def blank (w : Nat) : Term := ⟨w, fun _ _ => 32, 0, 0, false, .ground⟩

/-- From row `y` on the screen shows the text wrapped at the width, followed by blanks only; the cursor is on the cell of
position `k` of the text. -/
structure Shows (t : Term) (y : Nat) (text : List Rune) (k : Nat) : Prop where
  cells : ∀ r c, c < t.w → t.cell (y + r) c = text.getD (r * t.w + c) 32
  row : t.row = y + k / t.w
  col : t.col = k % t.w
  pend : t.pend = false
  st : t.st = .ground

end Term

/-- A printable character of one cell. -/
def Printable (c : Rune) : Prop := 32 ≤ c ∧ c ≠ 127 ∧ ¬ (128 ≤ c ∧ c < 160)

/-- `Coloured s vis`: `s` is the text `vis` with colour sequences `ESC [ … m` in it. -/
inductive Coloured : List Rune → List Rune → Prop
  | nil : Coloured [] []
  | char {c s t} : Printable c → Coloured s t → Coloured (c :: s) (c :: t)
  | colour {body s t} : (∀ c ∈ body, 48 ≤ c ∧ c < 64) → Coloured s t → Coloured (27 :: 91 :: body ++ 109 :: s) t

end RL.Spec
