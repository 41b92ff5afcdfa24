import Verif.Model.Go
/-!
# /repo/runes.go and the text helpers of /repo/utils.go

(`/repo/runes/runes.go`, a deprecated copy of a part of these functions, is `Verif.Model.OldRunes`; see C87.)
-/

namespace RL

/-- /repo/utils.go:22-57 key codes. -/
def CharLineStart : Rune := 1
def CharBackward  : Rune := 2
def CharInterrupt : Rune := 3
def CharDelete    : Rune := 4
def CharLineEnd   : Rune := 5
def CharForward   : Rune := 6
def CharBell      : Rune := 7
def CharCtrlH     : Rune := 8
def CharTab       : Rune := 9
def CharCtrlJ     : Rune := 10
def CharKill      : Rune := 11
def CharCtrlL     : Rune := 12
def CharEnter     : Rune := 13
def CharNext      : Rune := 14
def CharPrev      : Rune := 16
def CharBckSearch : Rune := 18
def CharFwdSearch : Rune := 19
def CharTranspose : Rune := 20
def CharCtrlU     : Rune := 21
def CharCtrlW     : Rune := 23
def CharCtrlY     : Rune := 25
def CharCtrlZ     : Rune := 26
def CharEsc       : Rune := 27
def CharO         : Rune := 79
def CharEscapeEx  : Rune := 91
def CharBackspace : Rune := 127
def MetaBackward  : Rune := -1
def MetaForward   : Rune := -2
def MetaDelete    : Rune := -3
def MetaBackspace : Rune := -4
def MetaTranspose : Rune := -5

/-- The Unicode tables the code consults through package `unicode`, as a parameter:
`zero` = one of Mn, Me, Cc, Cf (/repo/runes.go:132-137), `dbl` = one of Han, Hangul, Hiragana, Katakana
(/repo/runes.go:139-144), `number` = `unicode.IsNumber` (/repo/utils.go:174).
`tabWidth` is the exported variable `TabWidth` (/repo/runes.go:10). -/
structure UTables where
  zero : Rune → Bool
  dbl : Rune → Bool
  number : Rune → Bool
  tabWidth : Nat

/-- Go `unicode.IsSpace` (used at /repo/runes.go:217 and by `strings.TrimSpace` at /repo/history.go:82). -/
def isSpace (r : Rune) : Bool :=
  (9 ≤ r && r ≤ 13) || r == 32 || r == 0x85 || r == 0xA0 || r == 0x1680 ||
  (0x2000 ≤ r && r ≤ 0x200a) || r == 0x2028 || r == 0x2029 || r == 0x202f || r == 0x205f || r == 0x3000

/-- /repo/runes.go:14-30 `Runes.EqualRune`. -/
def equalRune (a b : Rune) (fold : Bool) : Bool :=
  if a = b then true
  else if !fold then false
  else
    let lo := if a > b then b else a
    let hi := if a > b then a else b
    if hi < 128 ∧ 65 ≤ lo ∧ lo ≤ 90 then
      if hi = lo + 97 - 65 then true else false
    else false

/-- /repo/runes.go:32-34 `Runes.EqualRuneFold`. -/
def equalRuneFold (a b : Rune) : Bool := equalRune a b true

/-- loop of `EqualFold` (/repo/runes.go:40-45), on slices of equal length. -/
def equalFoldLoop : List Rune → List Rune → Bool
  | a :: as, b :: bs => if equalRuneFold a b then equalFoldLoop as bs else false
  | _, _ => true

/-- /repo/runes.go:36-48 `Runes.EqualFold`. -/
def equalFold (a b : List Rune) : Bool :=
  if a.length ≠ b.length then false else equalFoldLoop a b

/-- loop of `Equal` (/repo/runes.go:54-58), on slices of equal length. -/
def runesEqualLoop : List Rune → List Rune → Bool
  | a :: as, b :: bs => if a ≠ b then false else runesEqualLoop as bs
  | _, _ => true

/-- /repo/runes.go:50-60 `Runes.Equal`. -/
def runesEqual (a b : List Rune) : Bool :=
  if a.length ≠ b.length then false else runesEqualLoop a b

/-- Inner loop of `IndexAllBckEx` / `IndexAllEx` (/repo/runes.go:64-70, 93-99): compare `sub[j]` with `r[i+j]`;
the first argument is `r[i:]`.  Reading past the end of `r` panics. -/
def matchHere : List Rune → List Rune → Bool → R Bool
  | _, [], _ => .ok true
  | [], _ :: _, _ => .error .panic
  | a :: r, b :: sub, fold => if !equalRune a b fold then .ok false else matchHere r sub fold

/-- Outer loop of `IndexAllBckEx` (/repo/runes.go:63): `n` is `i+1`, counting down. -/
def indexAllBckLoop (r sub : List Rune) (fold : Bool) : Nat → R (Option Nat)
  | 0 => .ok none
  | i + 1 => do
    let found ← matchHere (r.drop i) sub fold
    if found then .ok (some i) else indexAllBckLoop r sub fold i

/-- /repo/runes.go:62-76 `Runes.IndexAllBckEx`; `none` stands for the return value -1. -/
def indexAllBckEx (r sub : List Rune) (fold : Bool) : R (Option Nat) :=
  if sub.length ≤ r.length then indexAllBckLoop r sub fold (r.length - sub.length + 1) else .ok none

/-- Outer loop of `IndexAllEx` (/repo/runes.go:89-104): the first argument is `r[i:]`. -/
def indexAllLoop (sub : List Rune) (fold : Bool) : List Rune → Nat → R (Option Nat)
  | [], _ => .ok none
  | a :: rest, i =>
    if (a :: rest).length < sub.length then .ok none
    else do
      let found ← matchHere (a :: rest) sub fold
      if found then .ok (some i) else indexAllLoop sub fold rest (i + 1)

/-- /repo/runes.go:88-105 `Runes.IndexAllEx`; `none` stands for -1. -/
def indexAllEx (r sub : List Rune) (fold : Bool) : R (Option Nat) := indexAllLoop sub fold r 0

/-- /repo/runes.go:78-81 `Runes.IndexAllBck`. -/
def indexAllBck (r sub : List Rune) : R (Option Nat) := indexAllBckEx r sub false

/-- /repo/runes.go:83-86 `Runes.IndexAll`. -/
def indexAll (r sub : List Rune) : R (Option Nat) := indexAllEx r sub false

/-- /repo/runes.go:107-114 `Runes.Index`; `none` stands for -1. -/
def index (r : Rune) : List Rune → Option Nat
  | [] => none
  | a :: rs => if a = r then some 0 else (index r rs).map (· + 1)

/-- The loop of `Runes.ColorFilter` (/repo/runes.go:118-128); the list is `r[pos:]`, and the first argument counts the
runes that `pos` still has to jump over.  `r[pos+1]` panics when an ESC is the last rune. -/
def colorGo : Nat → List Rune → R (List Rune)
  | _, [] => .ok []
  | k + 1, _ :: rest => colorGo k rest
  | 0, c :: rest =>
    if c = CharEsc then
      match rest with
      | [] => .error .panic
      | d :: rest' =>
        if d = CharEscapeEx then
          match index 109 rest' with
          | none => colorGo 0 (d :: rest')
          | some i => colorGo (i + 2) (d :: rest')
        else do
          let t ← colorGo 0 (d :: rest')
          .ok (c :: t)
    else do
      let t ← colorGo 0 rest
      .ok (c :: t)

/-- /repo/runes.go:116-130 `Runes.ColorFilter`. -/
def colorFilter (r : List Rune) : R (List Rune) := colorGo 0 r

/-- /repo/runes.go:146-157 `Runes.Width`. -/
def runeWidth (U : UTables) (r : Rune) : Nat :=
  if r = CharTab then U.tabWidth
  else if U.zero r then 0
  else if U.dbl r then 2
  else 1

/-- /repo/runes.go:159-164 `Runes.WidthAll`. -/
def widthAll (U : UTables) : List Rune → Nat
  | [] => 0
  | r :: rs => runeWidth U r + widthAll U rs

/-- /repo/runes.go:176-181 `Runes.HasPrefixFold`. -/
def hasPrefixFold (r pre : List Rune) : Bool :=
  if r.length < pre.length then false else equalFold (r.take pre.length) pre

/-- /repo/runes.go:183-188 `Runes.HasPrefix`. -/
def hasPrefix (r pre : List Rune) : Bool :=
  if r.length < pre.length then false else runesEqual (r.take pre.length) pre

/-- Inner loop of `Aggregate` (/repo/runes.go:192-199) for a fixed `i`: `true` when no `goto aggregate` is taken. -/
def aggInner (i : Nat) : List (List Rune) → R Bool
  | a :: b :: rest =>
    if i ≥ a.length ∨ i ≥ b.length then .ok false
    else do
      let x ← getR a i
      let y ← getR b i
      if x ≠ y then .ok false else aggInner i (b :: rest)
  | _ => .ok true

/-- Outer loop of `Aggregate` (/repo/runes.go:191-201): `rem = len(candicate[0]) - i`, value `size`. -/
def aggLoop (cands : List (List Rune)) : (rem i size : Nat) → R Nat
  | 0, _, size => .ok size
  | rem + 1, i, size => do
    if ← aggInner i cands then aggLoop cands rem (i + 1) (i + 1) else .ok size

/-- /repo/runes.go:190-212 `Runes.Aggregate`: `(same, size, rewritten candidates)`.
`copy(n, n[size:]); n[:len(n)-size]` leaves `n[size:]`.  The empty candidate list panics at `candicate[0]`. -/
def aggregate : List (List Rune) → R (List Rune × Nat × List (List Rune))
  | [] => .error .panic
  | c0 :: cs => do
    let size ← aggLoop (c0 :: cs) c0.length 0 0
    if size > 0 then do
      let same ← sliceTo c0 size
      let cands ← (c0 :: cs).mapM (fun c => sliceFrom c size)
      .ok (same, size, cands)
    else .ok ([], size, c0 :: cs)

/-- /repo/runes.go:214-223 `Runes.TrimSpaceLeft`. -/
def trimSpaceLeft : List Rune → List Rune
  | [] => []
  | r :: rs => if isSpace r = false then r :: rs else trimSpaceLeft rs

/-- /repo/utils.go:242-251 `IsWordBreak`. -/
def isWordBreak (i : Rune) : Bool :=
  if i ≥ 97 ∧ i ≤ 122 then false
  else if i ≥ 65 ∧ i ≤ 90 then false
  else if i ≥ 48 ∧ i ≤ 57 then false
  else true

/-- /repo/utils.go:97-100 `IsPrintable`. -/
def isPrintable (key : Rune) : Bool :=
  let isInSurrogateArea := key ≥ 0xd800 && key ≤ 0xdbff
  key ≥ 32 && !isInSurrogateArea

/-- Loop of `SplitByLine` (/repo/utils.go:219-229); `cur` is `currentWidth`, `acc` the pending buffer.
Pieces are rune lists instead of strings. -/
def splitGo (U : UTables) (screenWidth : Int) : (cur : Int) → (acc : List Rune) → List Rune → List (List Rune)
  | _, acc, [] => [acc]
  | cur, acc, r :: rs =>
    let cur' := cur + runeWidth U r
    let acc' := acc ++ [r]
    if cur' ≥ screenWidth then acc' :: splitGo U screenWidth 0 [] rs
    else splitGo U screenWidth cur' acc' rs

/-- /repo/utils.go:215-231 `SplitByLine`. -/
def splitByLine (U : UTables) (start screenWidth : Int) (rs : List Rune) : List (List Rune) :=
  splitGo U screenWidth start [] rs

/-- /repo/utils.go:234-240 `LineCount`; dividing by a zero width panics. -/
def lineCount (screenWidth w : Int) : R Int := do
  let r ← divR w screenWidth
  let m ← modR w screenWidth
  if m ≠ 0 then .ok (r + 1) else .ok r

end RL
