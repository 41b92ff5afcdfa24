import Verif.Model.RuneBuf
import Verif.Model.Utf8
import Verif.Spec.Screen
/-! The Windows console as its documentation describes it, for C70: a buffer of `h` rows of `w` cells, one after the other in
memory, a cursor inside it and a current colour.  It knows nothing of escape sequences.

* a printed character goes to the cell of the cursor with the current colour; after the last cell of a row the cursor goes to the next row
  at once (`ENABLE_WRAP_AT_EOL_OUTPUT`), not when the next character is printed;
* below the last row the buffer scrolls by one row;
* line feed also returns to column 0; backspace stays where it is in column 0; bell prints nothing;
* every other character takes one cell (no wide characters, no tabs);
* `SetConsoleCursorPosition` outside the buffer fails and changes nothing;
* the functions that fill cells write at most up to the end of the buffer. -/

namespace RL.Spec

structure Console where
  w : Nat
  h : Nat
  x : Nat
  y : Nat
  attr : Nat
  /-- character and colour of each cell; the cell in column `c` of row `r` has number `r * w + c` -/
  cell : Nat → Rune × Nat

namespace Console

/-- The number of the cell of the cursor. -/
def pos (k : Console) : Nat := k.y * k.w + k.x

/-- The first row goes, a blank one follows the last. -/
def scroll (k : Console) : Console :=
  { k with cell := fun i => if i < (k.h - 1) * k.w then k.cell (i + k.w) else (32, k.attr) }

/-- To the start of the next row. -/
def nextRow (k : Console) : Console :=
  if k.y + 1 < k.h then { k with x := 0, y := k.y + 1 } else { k.scroll with x := 0 }

/-- `WriteConsole`, one character. -/
def putc (k : Console) (c : Rune) : Console :=
  if c = 7 then k
  else if c = 8 then { k with x := k.x - 1 }
  else if c = 13 then { k with x := 0 }
  else if c = 10 then k.nextRow
  else
    let k' := { k with cell := fun i => if i = k.pos then (c, k.attr) else k.cell i }
    if k.x + 1 < k.w then { k' with x := k.x + 1 } else k'.nextRow

/-- `WriteConsole` -/
def write (k : Console) (cs : List Rune) : Console := cs.foldl putc k

/-- `SetConsoleCursorPosition` -/
def setCursor (k : Console) (x y : Int) : Console :=
  if 0 ≤ x ∧ x < k.w ∧ 0 ≤ y ∧ y < k.h then { k with x := x.toNat, y := y.toNat } else k

/-- `SetConsoleTextAttribute` -/
def setAttr (k : Console) (a : Nat) : Console := { k with attr := a }

/-- `FillConsoleOutputCharacter`: `n` cells from (x, y) on. -/
def fillChar (k : Console) (c : Rune) (n : Nat) (x y : Int) : Console :=
  if 0 ≤ x ∧ x < k.w ∧ 0 ≤ y ∧ y < k.h then
    let a := y.toNat * k.w + x.toNat
    { k with cell := fun i => if a ≤ i ∧ i < a + n ∧ i < k.h * k.w then (c, (k.cell i).2) else k.cell i }
  else k

/-- `FillConsoleOutputAttribute`: `n` cells from (x, y) on. -/
def fillAttr (k : Console) (a : Nat) (n : Nat) (x y : Int) : Console :=
  if 0 ≤ x ∧ x < k.w ∧ 0 ≤ y ∧ y < k.h then
    let p := y.toNat * k.w + x.toNat
    { k with cell := fun i => if p ≤ i ∧ i < p + n ∧ i < k.h * k.w then ((k.cell i).1, a) else k.cell i }
  else k

/-- The cursor is inside the buffer; the size is one a console can have. -/
structure Ok (k : Console) : Prop where
  x : k.x < k.w
  y : k.y < k.h
  w : k.w < 32768
  h : k.h < 32768

/-! What control sequences should do to a console. -/

/-- A piece of a stream: a character or a control sequence. -/
inductive Piece where
  | char (c : Rune)
  | up (n : Nat)
  /-- one row up, without a number -/
  | up1
  | down (n : Nat)
  | right (n : Nat)
  | left (n : Nat)
  | eraseBelow
  | eraseLine
  /-- foreground colour -/
  | fg (n : Nat)
  /-- foreground and background colour -/
  | both (f b : Nat)
  | underline
  | reset
deriving DecidableEq

/-- Console colour of ANSI colour `n`: bit 0 of ANSI is red (4), bit 1 green (2), bit 2 blue (1). -/
def ansi (n : Nat) : Nat := (if n % 2 = 1 then 4 else 0) + (if n / 2 % 2 = 1 then 2 else 0) + (if n / 4 % 2 = 1 then 1 else 0)

/-- What a piece does to the console.  A movement out of the buffer is not made. -/
def piece (k : Console) : Piece → Console
  | .char c => k.putc c
  | .up n => if n ≤ k.y then { k with y := k.y - n } else k
  | .up1 => if 1 ≤ k.y then { k with y := k.y - 1 } else k
  | .down n => if k.y + n < k.h then { k with y := k.y + n } else k
  | .right n => if k.x + n < k.w then { k with x := k.x + n } else k
  | .left n => if n ≤ k.x then { k with x := k.x - n } else k
  | .eraseBelow => { k with cell := fun i => if k.pos ≤ i ∧ i < k.h * k.w then (32, 7) else k.cell i }
  | .eraseLine => { k with cell := fun i => if k.y * k.w ≤ i ∧ i < (k.y + 1) * k.w then (32, (k.cell i).2) else k.cell i }
  | .fg n => { k with attr := 8 + ansi n }
  | .both f b => { k with attr := 8 + ansi f + 16 * (8 + ansi b) }
  | .underline => { k with attr := 0x8000 + 7 }
  | .reset => { k with attr := 7 }

def pieces (k : Console) (ps : List Piece) : Console := ps.foldl piece k

end Console

open Console in
/-- The characters of a piece. -/
def Console.Piece.chars : Piece → List Rune
  | .char c => [c]
  | .up n => [27, 91] ++ itoa n ++ [65]
  | .up1 => [27, 91, 65]
  | .down n => [27, 91] ++ itoa n ++ [66]
  | .right n => [27, 91] ++ itoa n ++ [67]
  | .left n => [27, 91] ++ itoa n ++ [68]
  | .eraseBelow => [27, 91, 74]
  | .eraseLine => [27, 91, 50, 75]
  | .fg n => [27, 91] ++ itoa (30 + n : Nat) ++ [109]
  | .both f b => [27, 91] ++ itoa (30 + f : Nat) ++ [59] ++ itoa (40 + b : Nat) ++ [109]
  | .underline => [27, 91, 52, 109]
  | .reset => [27, 91, 48, 109]

open Console in
/-- The pieces of which C70 speaks: a character is a Unicode scalar value other than ESC, a distance fits into 16 bits, a colour is
one of eight. -/
def Console.Piece.Fine : Piece → Prop
  | .char c => validRune c = true ∧ c ≠ 27
  | .up n | .down n | .right n | .left n => n < 32768
  | .fg n => n < 8
  | .both f b => f < 8 ∧ b < 8
  | _ => True

open Console in
/-- A piece that only changes the colour. -/
def Console.Piece.Tint : Piece → Prop
  | .fg _ | .both _ _ | .underline | .reset => True
  | _ => False

open Console in
/-- `Tinted ps vis`: the pieces are the printable text `vis` and colours. -/
inductive Tinted : List Piece → List Rune → Prop
  | nil : Tinted [] []
  | char {c ps t} : Printable c → validRune c = true → Tinted ps t → Tinted (.char c :: ps) (c :: t)
  | tint {p ps t} : p.Tint → p.Fine → Tinted ps t → Tinted (p :: ps) t

end RL.Spec
