import Verif.Model.Utf8
import Verif.Spec.Console
/-!
# /repo/ansi_windows.go : escape sequences on the Windows console

The console is `Verif.Spec.Console`, written from the documentation of the Windows functions.  Its functions do not fail except as
described there.  `bufio.Writer` is a list of runes not yet written and its capacity in bytes; it is emptied when full, before
`Flush`.  `WriteString` is rune by rune.  `word` is a natural number below 2^16.  The mutex of `ANSIWriter.Write` is in
`Verif.Model.Locks`.
-/

namespace RL.Win
open Spec

/-- Conversion to `short` = `int16` (/repo/windows_api.go:27). -/
def toShort (n : Int) : Int := (n + 32768) % 65536 - 32768

/-- A negative number passed as `uintptr` where the system expects a `DWORD`. -/
def toDword (n : Int) : Nat := (n % 2 ^ 32).toNat

/-- Digits of `strconv.Atoi`. -/
def atoiDigits : Nat → List Rune → Option Nat
  | n, [] => some n
  | n, c :: cs => if 48 ≤ c ∧ c ≤ 57 then atoiDigits (n * 10 + (c - 48).toNat) cs else none

/-- `strconv.Atoi` (64 bits): an optional sign and at least one digit; `none` is an error. -/
def atoi (s : List Rune) : Option Int :=
  let (neg, ds) := match s with
    | 45 :: ds => (true, ds)
    | 43 :: ds => (false, ds)
    | ds => (false, ds)
  if ds = [] then none
  else
    match atoiDigits 0 ds with
    | none => none
    | some n =>
      if neg then if n ≤ 2 ^ 63 then some (-n) else none
      else if n < 2 ^ 63 then some n else none

/-- /repo/utils.go:253-262 `GetInt`. -/
def getInt (s : List (List Rune)) (dflt : Int) : Int :=
  match s with
  | [] => dflt
  | x :: _ => (atoi x).getD dflt

/-- /repo/ansi_windows.go:31-40 `ColorTableFg`. -/
def colorTableFg : List Nat := [0, 4, 2, 4 ||| 2, 1, 4 ||| 1, 2 ||| 1, 4 ||| 1 ||| 2]

/-- /repo/ansi_windows.go:42-51 `ColorTableBg`. -/
def colorTableBg : List Nat := [0, 0x40, 0x20, 0x40 ||| 0x20, 0x10, 0x40 ||| 0x10, 0x20 ||| 0x10, 0x40 ||| 0x10 ||| 0x20]

/-- /repo/ansi_windows.go:73-79 `ANSIWriterCtx`; `pend` is what its `bufio.Writer` holds, `cap` the capacity (4096). -/
structure Ctx where
  isEsc : Bool := false
  isEscSeq : Bool := false
  arg : List (List Rune) := []
  pend : List Rune := []
  wantFlush : Bool := false
  cap : Nat := 4096

/-- The writer and the console it writes to. -/
structure St where
  c : Ctx
  k : Console

namespace St

/-- `bufio.Writer.Flush` (/repo/ansi_windows.go:87-89). -/
def flush (s : St) : St := { c := { s.c with pend := [] }, k := s.k.write s.c.pend }

/-- `bufio.Writer.WriteRune`: written out first if the rune might not fit. -/
def put (s : St) (r : Rune) : St :=
  let need := if 0 ≤ r ∧ r < 128 then 1 else 4
  let s := if (encode s.c.pend).length + need > s.c.cap then s.flush else s
  { s with c := { s.c with pend := s.c.pend ++ [r] } }

/-- `bufio.Writer.WriteString` -/
def puts (s : St) (rs : List Rune) : St := rs.foldl put s

/-- /repo/ansi_windows.go:213-233 `killLines`. -/
def killLines (s : St) : St :=
  let k := s.k
  let size := toShort (toShort ((k.y : Int) - k.h) * k.w)
  let size := toShort (size + k.x)
  { s with k := (k.fillAttr 7 (toDword size) k.x k.y).fillChar 32 (toDword size) k.x k.y }

/-- /repo/ansi_windows.go:235-249 `eraseLine`. -/
def eraseLine (s : St) : St := { s with k := s.k.fillChar 32 (toDword s.k.w) 0 s.k.y }

/-- The loop over the arguments of a colour sequence (/repo/ansi_windows.go:152-172): the colour, or `none` after a conversion
error. -/
def colour : (color : Nat) → List (List Rune) → R (Option Nat)
  | color, [] => .ok (some color)
  | color, item :: rest =>
    match atoi item with
    | none => .ok none
    | some c =>
      if 30 ≤ c ∧ c < 40 then do
        let t ← getR colorTableFg (c - 30).toNat
        colour ((color ^^^ 8) ||| t) rest
      else if 40 ≤ c ∧ c < 50 then do
        let t ← getR colorTableBg (c - 40).toNat
        colour ((color ^^^ 0x80) ||| t) rest
      else if c = 4 then colour (color ||| (0x8000 ||| 7)) rest
      else if c = 1 then colour (color ||| (7 ||| 8)) rest
      else colour 7 rest

/-- `strings.Join(arg, ";")` -/
def join : List (List Rune) → List Rune
  | [] => []
  | [a] => a
  | a :: rest => a ++ [59] ++ join rest

/-- Lines 125-143 of /repo/ansi_windows.go: cursor movement. -/
def move (s : St) (r : Rune) : St :=
  let count := toShort (getInt s.c.arg 1)
  let k := s.k
  let x : Int := if r = 67 then toShort (k.x + count) else if r = 68 then toShort (k.x - count) else k.x
  let y : Int := if r = 65 then toShort (k.y - count) else if r = 66 then toShort (k.y + count) else k.y
  { s with k := k.setCursor x y }

/-- `arg[len(arg)-1] += string(r)`, with an argument added if there is none (/repo/ansi_windows.go:185-188). -/
def addRune (r : Rune) : List (List Rune) → List (List Rune)
  | [] => [[r]]
  | [a] => [a ++ [r]]
  | a :: b :: rest => a :: addRune r (b :: rest)

/-- /repo/ansi_windows.go:121-194 `ioloopEscSeq`; the first component says whether the sequence goes on. -/
def escSeq (s : St) (r : Rune) : R (Bool × St) :=
  if 65 ≤ r ∧ r ≤ 68 then .ok (false, s.move r)
  else if r = 74 then
    let s := s.killLines
    .ok (false, { s with c := { s.c with arg := [] } })
  else if r = 75 then
    let s := s.eraseLine
    .ok (false, { s with c := { s.c with arg := [] } })
  else if r = 109 then do
    match ← colour 0 s.c.arg with
    | none =>
      let s := s.puts ([91] ++ join s.c.arg ++ [109])
      .ok (false, { s with c := { s.c with arg := [] } })
    | some a => .ok (false, { c := { s.c with arg := [] }, k := s.k.setAttr a })
  else if r = 7 then .ok (false, { s with c := { s.c with arg := [] } })
  else if r = 59 then
    if s.c.arg = [] ∨ s.c.arg.getLast? ≠ some [] then .ok (true, { s with c := { s.c with arg := s.c.arg ++ [[]] } })
    else .ok (true, s)
  else .ok (true, { s with c := { s.c with arg := addRune r s.c.arg } })

/-- /repo/ansi_windows.go:91-119 `process`. -/
def process (s : St) (r : Rune) : R St :=
  let s := if s.c.wantFlush ∧ (r = 0 ∨ r = 27) then { s.flush with c := { s.flush.c with wantFlush := false } } else s
  if s.c.isEscSeq then do
    let (more, s) ← s.escSeq r
    .ok { s with c := { s.c with isEscSeq := more } }
  else if r = 27 then .ok { s with c := { s.c with isEsc := true } }
  else if r = 91 ∧ s.c.isEsc then .ok { s with c := { s.c with arg := [], isEscSeq := true, isEsc := false } }
  else
    let s := s.put r
    .ok { s with c := { s.c with wantFlush := true } }

def processAll (s : St) : List Rune → R St
  | [] => .ok s
  | r :: rs => do
    let s ← s.process r
    s.processAll rs

/-- /repo/ansi_windows.go:196-211 `Write`; `utf8.DecodeRune` never reports size 0 here.  Yields the number of bytes taken. -/
def write (s : St) (b : List Nat) : R (Nat × St) := do
  let s ← s.processAll (decode b)
  .ok (b.length, s.flush)

/-- Several calls of `Write`. -/
def writes (s : St) : List (List Nat) → R St
  | [] => .ok s
  | b :: bs => do
    let (_, s) ← s.write b
    s.writes bs

end St
end RL.Win
