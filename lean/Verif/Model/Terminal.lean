import Verif.Model.Operation
import Verif.Model.Utf8
/-!
# The key decoder: the terminal goroutine

/repo/terminal.go:118-214 `Terminal.ioloop` and the functions it uses in /repo/utils.go:97-213.

The goroutine reads runes with `bufio.Reader.ReadRune` and sends keys on `outchan`.  Here the input is a list of results of
`ReadRune`, and what the goroutine does is a list of observable steps (`TEv`).  The end of the list is the end of input,
which stays the end of input however often it is read.

Simplifications: an `interrupted system call` error occurs only between two runes (in the middle of a multi-byte rune
`bufio` would deliver U+FFFD); the goroutine is not stopped through `stopChan` (see `Verif.Model.Close`).
-/

namespace RL

/-- One result of `buf.ReadRune()`: a rune, or an error whose text contains "interrupted system call". -/
inductive TIn where
  | rune (r : Rune)
  | eintr
deriving DecidableEq, Repr

/-- What the goroutine does: wait for a token in `kickChan`, send a key on `outchan`, offer a cursor position report on
`sizeChan`. -/
inductive TEv where
  | wait
  | key (r : Rune)
  | size (attr : List Rune)
deriving DecidableEq, Repr

/-- Results of `ReadRune` on a byte stream: `bufio` decodes UTF-8, an invalid byte gives U+FFFD. -/
def readBytes (bs : List Nat) : List TIn := (decode bs).map .rune

/-- Go `unicode.IsNumber`: Latin-1 digits, superscript digits and fractions; beyond Latin-1 the category table. -/
def isNumber (U : UTables) (r : Rune) : Bool :=
  if 0 ≤ r ∧ r ≤ 255 then
    (48 ≤ r && r ≤ 57) || r == 0xB2 || r == 0xB3 || r == 0xB9 || (0xBC ≤ r && r ≤ 0xBE)
  else U.number r

/-- /repo/utils.go:148-151 `escapeKeyPair`; the attribute is a rune list instead of a string. -/
structure EscKey where
  attr : List Rune
  typ : Rune
deriving DecidableEq, Repr

/-- /repo/utils.go:103-125 `escapeExKey`. -/
def escapeExKey (k : EscKey) : Rune :=
  if k.typ = 68 then CharBackward
  else if k.typ = 67 then CharForward
  else if k.typ = 65 then CharPrev
  else if k.typ = 66 then CharNext
  else if k.typ = 72 then CharLineStart
  else if k.typ = 70 then CharLineEnd
  else if k.typ = 126 then (if k.attr = [51] then CharDelete else 0)
  else 0

/-- /repo/utils.go:128-146 `escapeSS3Key`. -/
def escapeSS3Key (k : EscKey) : Rune :=
  if k.typ = 68 then CharBackward
  else if k.typ = 67 then CharForward
  else if k.typ = 65 then CharPrev
  else if k.typ = 66 then CharNext
  else if k.typ = 72 then CharLineStart
  else if k.typ = 70 then CharLineEnd
  else 0

/-- `strings.Split(s, ";")`: `cur` is the piece being collected. -/
def splitSemi : (cur : List Rune) → List Rune → List (List Rune)
  | cur, [] => [cur]
  | cur, r :: rs => if r = 59 then cur :: splitSemi [] rs else splitSemi (cur ++ [r]) rs

/-- Value of a string of ASCII digits. -/
def digitsVal (acc : Nat) : List Rune → Option Nat
  | [] => some acc
  | r :: rs => if 48 ≤ r ∧ r ≤ 57 then digitsVal (acc * 10 + (r - 48).toNat) rs else none

/-- `strconv.Atoi` on a string without a sign (an attribute contains only numbers and `;`): `none` is an error.
Values beyond 2^63-1 are errors. -/
def atoi (s : List Rune) : Option Nat :=
  if s = [] then none
  else
    match digitsVal 0 s with
    | some n => if n < 2 ^ 63 then some n else none
    | none => none

/-- /repo/utils.go:153-167 `Get2`. -/
def EscKey.get2 (k : EscKey) : Option (Nat × Nat) :=
  match splitSemi [] k.attr with
  | a :: b :: _ =>
    match atoi a with
    | none => none
    | some x =>
      match atoi b with
      | none => none
      | some y => some (x, y)
  | _ => none

/-- /repo/utils.go:169-184 `readEscKey`: `r` is the current rune, `buf` the attribute so far; also returns the rest of the
input.  Errors of `ReadRune` are ignored, the rune is then 0, which is neither `;` nor a number. -/
def readEscKey (U : UTables) (r : Rune) (buf : List Rune) : List TIn → EscKey × List TIn
  | .rune r' :: s => if r = 59 ∨ isNumber U r then readEscKey U r' (buf ++ [r]) s else (⟨buf, r⟩, .rune r' :: s)
  | .eintr :: s => if r = 59 ∨ isNumber U r then (⟨buf ++ [r], 0⟩, s) else (⟨buf, r⟩, .eintr :: s)
  | [] => if r = 59 ∨ isNumber U r then (⟨buf ++ [r], 0⟩, []) else (⟨buf, r⟩, [])

/-- /repo/utils.go:187-213 `escapeKey`.  The case `'O'` is never reached: the caller has treated it
(/repo/terminal.go:163-167). -/
def escapeKey (r : Rune) : Rune :=
  if r = 98 then MetaBackward
  else if r = 102 then MetaForward
  else if r = 100 then MetaDelete
  else if r = CharTranspose then MetaTranspose
  else if r = CharBackspace then MetaBackspace
  else r

/-- Local variables of `ioloop` (/repo/terminal.go:125-130). -/
structure Dec where
  isEscape : Bool
  isEscapeEx : Bool
  isEscapeSS3 : Bool
  expectNextChar : Bool
deriving DecidableEq, Repr

namespace Dec

/-- Start of `ioloop`. -/
def init : Dec := ⟨false, false, false, false⟩

/-- /repo/terminal.go:197-211: the `switch` at the end of the loop body. -/
def emit (vim : Bool) (d : Dec) (r : Rune) : List TEv × Dec :=
  if r = CharEsc then
    if vim then ([.key r], { d with expectNextChar := true })
    else ([], { d with isEscape := true, expectNextChar := true })
  else if stopKey r then ([.key r], { d with expectNextChar := false })
  else ([.key r], { d with expectNextChar := true })

/-- /repo/terminal.go:153-211: what happens with a rune that has been read. -/
def onRune (U : UTables) (vim : Bool) (d : Dec) (r : Rune) (s : List TIn) : List TEv × Dec × List TIn :=
  if d.isEscape then
    let d := { d with isEscape := false }
    if r = CharEscapeEx then ([], { d with isEscapeEx := true, expectNextChar := true }, s)
    else if r = CharO then ([], { d with isEscapeSS3 := true, expectNextChar := true }, s)
    else
      let (e, d) := d.emit vim (escapeKey r)
      (e, d, s)
  else if d.isEscapeEx then
    let d := { d with isEscapeEx := false }
    let (k, s) := readEscKey U r [] s
    if k.typ = 82 then
      (if k.get2.isSome then [.size k.attr] else [], { d with expectNextChar := true }, s)
    else if escapeExKey k = 0 then ([], { d with expectNextChar := true }, s)
    else
      let (e, d) := d.emit vim (escapeExKey k)
      (e, d, s)
  else if d.isEscapeSS3 then
    let d := { d with isEscapeSS3 := false }
    let (k, s) := readEscKey U r [] s
    if escapeSS3Key k = 0 then ([], { d with expectNextChar := true }, s)
    else
      let (e, d) := d.emit vim (escapeSS3Key k)
      (e, d, s)
  else
    let (e, d) := d.emit vim r
    (e, d, s)

/-- One turn of the loop (/repo/terminal.go:133-212); `none` as second component when the loop ends. -/
def iter (U : UTables) (vim : Bool) (d : Dec) (s : List TIn) : List TEv × Option (Dec × List TIn) :=
  let w := if d.expectNextChar then [] else [TEv.wait]
  match s with
  | [] => (w, none)
  | .eintr :: s => (w, some ({ d with expectNextChar := true }, s))
  | .rune r :: s =>
    let (e, d, s) := onRune U vim { d with expectNextChar := false } r s
    (w ++ e, some (d, s))

/-- The loop, at most `n` turns. -/
def run (U : UTables) (vim : Bool) : Nat → Dec → List TIn → List TEv
  | 0, _, _ => []
  | n + 1, d, s =>
    match iter U vim d s with
    | (e, none) => e
    | (e, some (d, s)) => e ++ run U vim n d s

end Dec

/-- /repo/terminal.go:118-214 `ioloop` on an input: every turn but the last takes at least one rune. -/
def termTrace (U : UTables) (vim : Bool) (s : List TIn) : List TEv := Dec.run U vim (s.length + 1) Dec.init s

/-- The keys sent on `outchan`. -/
def keysOf : List TEv → List Rune
  | [] => []
  | .key r :: es => r :: keysOf es
  | _ :: es => keysOf es

/-- The keys the editing goroutine receives. -/
def termKeys (U : UTables) (vim : Bool) (s : List TIn) : List Rune := keysOf (termTrace U vim s)

end RL
