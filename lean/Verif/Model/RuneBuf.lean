import Verif.Model.Runes
/-!
# /repo/runebuf.go : the edit line

The state is `RB`.  Methods that run inside `Refresh` are split into the closure (`...C`) and the method, which erases
the line, runs the closure and redraws, exactly as `RuneBuffer.Refresh` does.
Locking (`r.Lock()`/`r.Unlock()`) is not part of this file; see `Verif.Model.Locks`.
-/

namespace RL

/-- What is written to the terminal.  Control sequences produced by the library are single tokens (rendered to
characters by `Tok.render`); all other text is `ch`. -/
inductive Tok where
  | ch (r : Rune)
  /-- "\b" -/
  | bs
  /-- "\r" -/
  | cr
  /-- "\033[A" -/
  | up1
  /-- "\033[%dA" -/
  | up (n : Int)
  /-- "\033[%dC" -/
  | right (n : Int)
  /-- "\033[J" -/
  | eraseBelow
  /-- "\033[2K" -/
  | eraseLine
  /-- "\033[" + style + "m" -/
  | sgr (s : List Rune)
  /-- "\007" -/
  | bell
  /-- "\033[H" -/
  | home
deriving DecidableEq, Repr

/-- Go string literal as runes. -/
def str (s : String) : List Rune := s.toList.map (fun c => (c.toNat : Int))

/-- Go `strconv.Itoa` / `%d`. -/
def itoa (n : Int) : List Rune := str (toString n)

/-- The characters a token stands for. -/
def Tok.render : Tok → List Rune
  | .ch r => [r]
  | .bs => [8]
  | .cr => [13]
  | .up1 => [27, 91, 65]
  | .up n => [27, 91] ++ itoa n ++ [65]
  | .right n => [27, 91] ++ itoa n ++ [67]
  | .eraseBelow => [27, 91, 74]
  | .eraseLine => [27, 91, 50, 75]
  | .sgr s => [27, 91] ++ s ++ [109]
  | .bell => [7]
  | .home => [27, 91, 72]

/-- The fields of `Config` used for drawing (/repo/readline.go:49,64,65).
`painter = none` is a nil `Painter`; `windows` is the package variable `isWindows` (/repo/utils.go:19, /repo/utils_windows.go:17-19). -/
structure DCfg where
  enableMask : Bool
  maskRune : Rune
  painter : Option (List Rune → Nat → List Rune)
  windows : Bool := false

/-- /repo/operation.go:533-537 `defaultPainter`. -/
def defaultPainter : List Rune → Nat → List Rune := fun line _ => line

/-- The editing fields of `RuneBuffer` (/repo/runebuf.go:12-15, 18-19, 29, 33).
`idx` is a natural number (a negative cursor can only be set by a `Listener`, which is modelled with natural
positions). -/
structure Ed where
  buf : List Rune
  idx : Nat
  lastKill : List Rune
  bck : Option (List Rune × Nat)
deriving DecidableEq, Repr

/-- /repo/runebuf.go:17-36 `RuneBuffer`: the editing fields and the display fields.
`out` is everything written to `r.w`, oldest first.  `offset` (never read) is omitted.  `w` and `cfg` are represented by
`out` and by the `DCfg` argument of the drawing functions. -/
structure RB extends Ed where
  prompt : List Rune
  hadClean : Bool
  interactive : Bool
  width : Int
  out : List Tok
deriving DecidableEq, Repr

namespace Ed

/-- /repo/runebuf.go:38-40 `pushKill` (copies the text). -/
def pushKill (r : Ed) (text : List Rune) : Ed := { r with lastKill := text }

/-! ### Editing closures -/

/-- /repo/runebuf.go:55-61 -/
def restoreC (r : Ed) : R Ed :=
  match r.bck with
  | none => .ok r
  | some (b, i) => .ok { r with buf := b, idx := i }

/-- /repo/runebuf.go:140-145 -/
def moveToLineStartC (r : Ed) : R Ed := .ok { r with idx := 0 }

/-- /repo/runebuf.go:149-154 -/
def moveBackwardC (r : Ed) : R Ed := if r.idx = 0 then .ok r else .ok { r with idx := r.idx - 1 }

/-- /repo/runebuf.go:166-170 (`tail` is `s` followed by the text right of the cursor) -/
def writeRunesC (s : List Rune) (r : Ed) : R Ed := do
  let tail ← sliceFrom r.buf r.idx
  let head ← sliceTo r.buf r.idx
  .ok { r with buf := head ++ (s ++ tail), idx := r.idx + s.length }

/-- /repo/runebuf.go:174-179 -/
def moveForwardC (r : Ed) : R Ed := if r.idx = r.buf.length then .ok r else .ok { r with idx := r.idx + 1 }

/-- /repo/runebuf.go:189-191 -/
def replaceC (ch : Rune) (r : Ed) : R Ed :=
  if r.idx < r.buf.length then .ok { r with buf := r.buf.set r.idx ch } else .error .panic

/-- /repo/runebuf.go:195-199 -/
def eraseC (r : Ed) : R Ed := .ok ({ r with idx := 0, buf := [] }.pushKill r.buf)

/-- /repo/runebuf.go:203-210 -/
def deleteC (r : Ed) : R (Bool × Ed) :=
  if r.idx = r.buf.length then .ok (false, r)
  else do
    let k ← slice r.buf r.idx (r.idx + 1)
    let head ← sliceTo r.buf r.idx
    let tail ← sliceFrom r.buf (r.idx + 1)
    .ok (true, { r with buf := head ++ tail, lastKill := k })

/-- The boundary test used by the word commands: `!IsWordBreak(r.buf[i]) && IsWordBreak(r.buf[i-1])`
(/repo/runebuf.go:223,241,297,335), only used with `0 < i < len(r.buf)`. -/
def wordStartAt (buf : List Rune) (i : Nat) : Bool :=
  !isWordBreak (buf.getD i 0) && isWordBreak (buf.getD (i - 1) 0)

/-- `IsWordBreak(r.buf[i]) && !IsWordBreak(r.buf[i-1])` (/repo/runebuf.go:320), only used with `0 < i < len(r.buf)`. -/
def wordEndAt (buf : List Rune) (i : Nat) : Bool :=
  isWordBreak (buf.getD i 0) && !isWordBreak (buf.getD (i - 1) 0)

/-- `for i := i0; i < i0 + n; i++ { if p(i) { return i } }` -/
def scanUp (p : Nat → Bool) : (i0 n : Nat) → Option Nat
  | _, 0 => none
  | i, n + 1 => if p i then some i else scanUp p (i + 1) n

/-- `for init < len(r.buf) && IsWordBreak(r.buf[init]) { init++ }` (/repo/runebuf.go:219-221);
the last argument is `r.buf[init:]`. -/
def skipBreaks : Nat → List Rune → Nat
  | init, [] => init
  | init, c :: cs => if isWordBreak c then skipBreaks (init + 1) cs else init

/-- /repo/runebuf.go:268-271 -/
def killC (r : Ed) : R Ed := do
  let k ← sliceFrom r.buf r.idx
  let b ← sliceTo r.buf r.idx
  .ok { r with buf := b, lastKill := k }

/-- /repo/runebuf.go:225-227 -/
def deleteWordC (i : Nat) (r : Ed) : R Ed := do
  let h ← sliceTo r.buf r.idx
  let t ← sliceFrom r.buf (i - 1)
  .ok { r with buf := h ++ t }

/-- `for i := idx-1; i > 0; i-- { if wordStart(i) { return i } }` (/repo/runebuf.go:240,334); reading outside the
slice panics. -/
def scanDown (buf : List Rune) : (i : Nat) → R (Option Nat)
  | 0 => .ok none
  | i + 1 => do
    let a ← getR buf (i + 1)
    let b ← getR buf i
    if !isWordBreak a && isWordBreak b then .ok (some (i + 1)) else scanDown buf i

/-- /repo/runebuf.go:235-249 -/
def moveToPrevWordC (r : Ed) : R Ed :=
  if r.idx = 0 then .ok r
  else do
    match ← scanDown r.buf (r.idx - 1) with
    | some i => .ok { r with idx := i }
    | none => .ok { r with idx := 0 }

/-- /repo/runebuf.go:254-264 (`copy(r.buf[:length], r.buf[r.idx:])` moves the tail to the front) -/
def killFrontC (r : Ed) : R Ed :=
  if r.idx = 0 then .ok r
  else do
    let k ← sliceTo r.buf r.idx
    let t ← sliceFrom r.buf r.idx
    .ok { r with buf := t, idx := 0, lastKill := k }

/-- /repo/runebuf.go:275-291 -/
def transposeC (r : Ed) : R Ed :=
  let r := if r.buf.length = 1 then { r with idx := r.idx + 1 } else r
  if r.buf.length < 2 then .ok r
  else
    let r :=
      if r.idx = 0 then { r with idx := 1 }
      else if r.idx ≥ r.buf.length then { r with idx := r.buf.length - 1 }
      else r
    do
      let a ← getR r.buf r.idx
      let b ← getR r.buf (r.idx - 1)
      .ok { r with buf := (r.buf.set r.idx b).set (r.idx - 1) a, idx := r.idx + 1 }

/-- /repo/runebuf.go:295-304 -/
def moveToNextWordC (r : Ed) : R Ed :=
  match scanUp (wordStartAt r.buf) (r.idx + 1) (r.buf.length - (r.idx + 1)) with
  | some i => .ok { r with idx := i }
  | none => .ok { r with idx := r.buf.length }

/-- /repo/runebuf.go:308-326 -/
def moveToEndWordC (r : Ed) : R Ed :=
  if r.idx = r.buf.length then .ok r
  else do
    let a ← getR r.buf r.idx
    let r ←
      if !isWordBreak a then do
        let b ← getR r.buf (r.idx + 1)
        if isWordBreak b then .ok { r with idx := r.idx + 1 } else .ok r
      else .ok r
    match scanUp (wordEndAt r.buf) (r.idx + 1) (r.buf.length - (r.idx + 1)) with
    | some i => .ok { r with idx := i - 1 }
    | none => .ok { r with idx := r.buf.length }

/-- /repo/runebuf.go:330-345 -/
def backEscapeWordC (r : Ed) : R Ed :=
  if r.idx = 0 then .ok r
  else do
    match ← scanDown r.buf (r.idx - 1) with
    | some i => do
      let k ← slice r.buf i r.idx
      let h ← sliceTo r.buf i
      let t ← sliceFrom r.buf r.idx
      .ok { r with buf := h ++ t, idx := i, lastKill := k }
    | none => .ok { r with buf := [], idx := 0 }

/-- /repo/runebuf.go:352-359 -/
def yankC (r : Ed) : R Ed := do
  let h ← sliceTo r.buf r.idx
  let t ← sliceFrom r.buf r.idx
  .ok { r with buf := h ++ r.lastKill ++ t, idx := r.idx + r.lastKill.length }

/-- /repo/runebuf.go:363-370 -/
def backspaceC (r : Ed) : R Ed :=
  if r.idx = 0 then .ok r
  else do
    let i := r.idx - 1
    let h ← sliceTo r.buf i
    let t ← sliceFrom r.buf (i + 1)
    .ok { r with buf := h ++ t, idx := i }

/-- /repo/runebuf.go:374-380 -/
def moveToLineEndC (r : Ed) : R Ed := .ok { r with idx := r.buf.length }

/-- `for i := idx-1; i >= 0; i-- { if r.buf[i] == ch { return i } }` (/repo/runebuf.go:394-403); `n = i+1`. -/
def findDown (buf : List Rune) (ch : Rune) : (n : Nat) → R (Option Nat)
  | 0 => .ok none
  | i + 1 => do
    let a ← getR buf i
    if a = ch then .ok (some i) else findDown buf ch i

/-- /repo/runebuf.go:392-416 -/
def moveToC (ch : Rune) (prevChar reverse : Bool) (r : Ed) : R (Bool × Ed) :=
  if reverse then do
    match ← findDown r.buf ch r.idx with
    | some i => .ok (true, { r with idx := if prevChar then i + 1 else i })
    | none => .ok (false, r)
  else
    match scanUp (fun i => r.buf.getD i 0 == ch) (r.idx + 1) (r.buf.length - (r.idx + 1)) with
    | some i => .ok (true, { r with idx := if prevChar then i - 1 else i })
    | none => .ok (false, r)

/-- /repo/runebuf.go:575-578 -/
def setWithIdxC (idx : Nat) (buf : List Rune) (r : Ed) : R Ed := .ok { r with buf := buf, idx := idx }

end Ed

namespace RB
open Ed

/-- `r.w.Write` -/
def write (r : RB) (ts : List Tok) : RB := { r with out := r.out ++ ts }

/-- /repo/runebuf.go:42-46 `OnWidthChange`. -/
def onWidthChange (r : RB) (w : Int) : RB := { r with width := w }

/-- /repo/runebuf.go:48-52 `Backup` (value semantics; the aliasing is modelled in `Verif.Model.Heap`). -/
def backup (r : RB) : RB := { r with bck := some (r.buf, r.idx) }

/-- /repo/runebuf.go:64-73 `NewRuneBuffer`. -/
def new (prompt : List Rune) (interactive : Bool) (width : Int) : RB :=
  { buf := [], idx := 0, prompt := prompt, hadClean := false, interactive := interactive,
    width := width, bck := none, lastKill := [], out := [] }

/-- /repo/runebuf.go:585-589 `SetPrompt`. -/
def setPrompt (r : RB) (p : List Rune) : RB := { r with prompt := p }

/-- /repo/runebuf.go:101-103 `promptLen` (and `PromptLen`, 94-99). -/
def promptLen (U : UTables) (r : RB) : R Nat := do
  let p ← colorFilter r.prompt
  .ok (widthAll U p)

/-- /repo/runebuf.go:88-92 `CurrentWidth`. -/
def currentWidth (U : UTables) (r : RB) (x : Nat) : R Nat := do
  let b ← sliceTo r.buf x
  .ok (widthAll U b)

/-- /repo/runebuf.go:105-117 `RuneSlice`. -/
def runeSlice (r : RB) (i : Int) : R (List Rune) :=
  if i > 0 then slice r.buf r.idx (r.idx + i.toNat)
  else if (r.idx : Int) + i < 0 then .error .panic
  else slice r.buf ((r.idx : Int) + i).toNat r.idx

/-- /repo/runebuf.go:428-430 `getSplitByLine`. -/
def getSplitByLine (U : UTables) (r : RB) (rs : List Rune) : R (List (List Rune)) := do
  let p ← r.promptLen U
  .ok (splitByLine U p r.width rs)

/-- /repo/runebuf.go:420-426 `isInLineEdge`. -/
def isInLineEdge (U : UTables) (win : Bool) (r : RB) : R Bool :=
  if win then .ok false
  else do
    let sp ← r.getSplitByLine U r.buf
    match sp.getLast? with
    | some l => .ok (l.length == 0)
    | none => .error .panic

/-- /repo/runebuf.go:432-444 `idxLine` / `IdxLine`. -/
def idxLine (U : UTables) (r : RB) (width : Int) : R Int :=
  if width = 0 then .ok 0
  else do
    let b ← sliceTo r.buf r.idx
    let sp ← r.getSplitByLine U b
    .ok (sp.length - 1)

/-- /repo/runebuf.go:383-389 `LineCount`. -/
def lineCount (U : UTables) (r : RB) (width : Int) : R Int := do
  let width := if width = -1 then r.width else width
  let p ← r.promptLen U
  RL.lineCount width (widthAll U r.buf + p)

/-- /repo/runebuf.go:446-448 `CursorLineCount`. -/
def cursorLineCount (U : UTables) (r : RB) : R Int := do
  let a ← r.lineCount U r.width
  let b ← r.idxLine U r.width
  .ok (a - b)

/-- The `sep` loop of `getBackspaceSequence` (/repo/runebuf.go:515-527).  `W` is `WidthAll(r.buf)`, `p` the prompt
width.  The first argument bounds the number of iterations; running out of it means the loop has not ended. -/
def sepLoop (W p width : Int) : (fuel : Nat) → (i : Int) → (sep : List Int) → R (List Int)
  | 0, i, sep => if i ≥ W then .ok sep else .error .hang
  | fuel + 1, i, sep =>
    if i ≥ W then .ok sep
    else
      let i := if i = 0 then i - p else i
      let i := i + width
      sepLoop W p width fuel i (i :: sep)

/-- Iterations after which `sepLoop` is declared endless; `Verif.Proofs.Display` (`sepLoop_ok`) proves that a loop that ends
at all ends within this bound. -/
def sepFuel (W p : Nat) : Nat := W + p + 2

/-- One step of the second loop of `getBackspaceSequence` (/repo/runebuf.go:530-535), at position `i`. -/
def bsTok (width : Int) (sep : List Int) (i : Nat) : List Tok :=
  if (i : Int) ∈ sep then [.bs, .up1, .cr, .right width] else [.bs]

/-- Second loop of `getBackspaceSequence` (/repo/runebuf.go:528-536): `i` runs from `idx + n` down to `idx + 1`. -/
def bsLoop (width : Int) (sep : List Int) (idx : Nat) : (n : Nat) → List Tok
  | 0 => []
  | n + 1 => bsTok width sep (idx + n + 1) ++ bsLoop width sep idx n

/-- /repo/runebuf.go:512-540 `getBackspaceSequence`. -/
def getBackspaceSequence (U : UTables) (r : RB) : R (List Tok) := do
  let W := widthAll U r.buf
  -- promptLen is evaluated inside the loop, only if the loop body runs
  let p ← if W = 0 then .ok 0 else r.promptLen U
  let sep ← sepLoop W p r.width (sepFuel W p) 0 []
  .ok (bsLoop r.width sep r.idx (r.buf.length - r.idx))

/-- Painted text with tabs expanded (/repo/runebuf.go:494-500). -/
def paintTok (U : UTables) (e : Rune) : List Tok :=
  if e = CharTab then List.replicate U.tabWidth (.ch 32) else [.ch e]

/-- /repo/runebuf.go:479-510 `output`. -/
def output (U : UTables) (d : DCfg) (r : RB) : R (List Tok) := do
  let pr := r.prompt.map Tok.ch
  let body ←
    if d.enableMask ∧ r.buf.length > 0 then do
      let last ← getR r.buf (r.buf.length - 1)
      let m := List.replicate (r.buf.length - 1) (Tok.ch d.maskRune)
      let l := if last = 10 then [Tok.ch 10] else [Tok.ch d.maskRune]
      if r.buf.length > r.idx then do
        let b ← r.getBackspaceSequence U
        .ok (m ++ l ++ b)
      else .ok (m ++ l)
    else do
      match d.painter with
      | none => .error .panic
      | some paint => do
        let t := (paint r.buf r.idx).flatMap (paintTok U)
        let e ← r.isInLineEdge U d.windows
        if e then .ok (t ++ [.ch 32, .bs]) else .ok t
  if r.buf.length > r.idx then do
    let b ← r.getBackspaceSequence U
    .ok (pr ++ body ++ b)
  else .ok (pr ++ body)

/-- /repo/runebuf.go:474-477 `print`. -/
def print (U : UTables) (d : DCfg) (r : RB) : R RB := do
  let o ← r.output U d
  .ok { r.write o with hadClean := false }

/-- /repo/runebuf.go:591-611 `cleanOutput`. -/
def cleanOutput (U : UTables) (r : RB) (idxLine : Int) : R (List Tok) :=
  if r.width = 0 then do
    let p ← r.promptLen U
    .ok ((List.replicate (r.buf.length + p) [Tok.cr, .bs]).flatten ++ [.eraseBelow])
  else if idxLine = 0 then .ok [.eraseBelow, .eraseLine, .cr]
  else .ok ([.eraseBelow] ++ (List.replicate idxLine.toNat [Tok.eraseLine, .cr, .up1]).flatten ++ [.eraseLine, .cr])

/-- /repo/runebuf.go:619-629 `clean`, `cleanWithIdxLine` (and `Clean`, 613-617).
`idxLine` is evaluated before the test of `hadClean`. -/
def clean (U : UTables) (r : RB) : R RB := do
  let l ← r.idxLine U r.width
  if r.hadClean ∨ ¬ r.interactive then .ok r
  else do
    let o ← RB.cleanOutput U { r with hadClean := true } l
    .ok ({ r with hadClean := true }.write o)

/-- /repo/runebuf.go:450-466 `Refresh` with a closure that also yields a value. -/
def refreshV {α} (U : UTables) (d : DCfg) (r : RB) (f : Ed → R (α × Ed)) : R (α × RB) :=
  if ¬ r.interactive then do
    let (a, e) ← f r.toEd
    .ok (a, { r with toEd := e })
  else do
    let r ← r.clean U
    let (a, e) ← f r.toEd
    let r ← RB.print U d { r with toEd := e }
    .ok (a, r)

/-- /repo/runebuf.go:450-466 `Refresh`. -/
def refresh (U : UTables) (d : DCfg) (r : RB) (f : Ed → R Ed) : R RB :=
  if ¬ r.interactive then do
    let e ← f r.toEd
    .ok { r with toEd := e }
  else do
    let r ← r.clean U
    let e ← f r.toEd
    RB.print U d { r with toEd := e }

/-- `Refresh(nil)` -/
def refreshNil (U : UTables) (d : DCfg) (r : RB) : R RB := r.refresh U d .ok

/-! ### Methods -/
section
variable (U : UTables) (d : DCfg)

/-- /repo/runebuf.go:54-62 `Restore` -/
def restore (r : RB) : R RB := r.refresh U d restoreC
/-- /repo/runebuf.go:139-146 -/
def moveToLineStart (r : RB) : R RB := r.refresh U d moveToLineStartC
/-- /repo/runebuf.go:148-155 -/
def moveBackward (r : RB) : R RB := r.refresh U d moveBackwardC
/-- /repo/runebuf.go:157-171 `WriteRunes`, `WriteString` -/
def writeRunes (r : RB) (s : List Rune) : R RB := r.refresh U d (writeRunesC s)
/-- /repo/runebuf.go:161-163 `WriteRune` -/
def writeRune (r : RB) (c : Rune) : R RB := writeRunes U d r [c]
/-- /repo/runebuf.go:173-180 -/
def moveForward (r : RB) : R RB := r.refresh U d moveForwardC
/-- /repo/runebuf.go:188-192 -/
def replace (r : RB) (ch : Rune) : R RB := r.refresh U d (replaceC ch)
/-- /repo/runebuf.go:194-200 -/
def erase (r : RB) : R RB := r.refresh U d eraseC
/-- /repo/runebuf.go:202-212 -/
def delete (r : RB) : R (Bool × RB) := r.refreshV U d deleteC
/-- /repo/runebuf.go:267-272 -/
def kill (r : RB) : R RB := r.refresh U d killC
/-- /repo/runebuf.go:214-232 -/
def deleteWord (r : RB) : R RB :=
  if r.idx = r.buf.length then .ok r
  else
    let init := skipBreaks r.idx (r.buf.drop r.idx)
    match scanUp (wordStartAt r.buf) (init + 1) (r.buf.length - (init + 1)) with
    | some i => do
      let k ← slice r.buf r.idx (i - 1)
      RB.refresh U d { r with toEd := r.toEd.pushKill k } (deleteWordC i)
    | none => kill U d r
/-- /repo/runebuf.go:234-251 (the result `success` is never used) -/
def moveToPrevWord (r : RB) : R RB := r.refresh U d moveToPrevWordC
/-- /repo/runebuf.go:253-265 -/
def killFront (r : RB) : R RB := r.refresh U d killFrontC
/-- /repo/runebuf.go:274-292 -/
def transpose (r : RB) : R RB := r.refresh U d transposeC
/-- /repo/runebuf.go:294-305 -/
def moveToNextWord (r : RB) : R RB := r.refresh U d moveToNextWordC
/-- /repo/runebuf.go:307-327 -/
def moveToEndWord (r : RB) : R RB := r.refresh U d moveToEndWordC
/-- /repo/runebuf.go:329-346 -/
def backEscapeWord (r : RB) : R RB := r.refresh U d backEscapeWordC
/-- /repo/runebuf.go:348-360 -/
def yank (r : RB) : R RB := if r.lastKill.length = 0 then .ok r else r.refresh U d yankC
/-- /repo/runebuf.go:362-371 -/
def backspace (r : RB) : R RB := r.refresh U d backspaceC
/-- /repo/runebuf.go:373-381 -/
def moveToLineEnd (r : RB) : R RB := r.refresh U d moveToLineEndC
/-- /repo/runebuf.go:391-418 -/
def moveTo (r : RB) (ch : Rune) (prevChar reverse : Bool) : R (Bool × RB) :=
  r.refreshV U d (moveToC ch prevChar reverse)
/-- /repo/runebuf.go:574-579 -/
def setWithIdx (r : RB) (idx : Nat) (buf : List Rune) : R RB := r.refresh U d (setWithIdxC idx buf)
/-- /repo/runebuf.go:581-583 -/
def set (r : RB) (buf : List Rune) : R RB := setWithIdx U d r buf.length buf
end

/-- /repo/runebuf.go:542-547 `Reset` (no redraw): the old text and the emptied buffer. -/
def reset (r : RB) : List Rune × RB := (r.buf, { r with buf := [], idx := 0 })

/-- /repo/runebuf.go:549-554 `calWidth`, for `m ≤ 0` only (its only use, line 566). -/
def calWidthBack (U : UTables) (r : RB) (n : Nat) : R Nat :=
  if r.idx < n then .error .panic
  else do
    let s ← slice r.buf (r.idx - n) r.idx
    .ok (widthAll U s)

/-- /repo/runebuf.go:556-572 `SetStyle`. -/
def setStyle (U : UTables) (r : RB) (start stop : Nat) (style : List Rune) : R RB :=
  if stop < start then .error .panic
  else do
    let mv ←
      if start > r.idx then do
        let s ← slice r.buf r.idx start
        .ok (s.map Tok.ch)
      else do
        let w ← r.calWidthBack U (r.idx - start)
        .ok (List.replicate w Tok.bs)
    let s ← slice r.buf start stop
    .ok (r.write (mv ++ [.sgr style] ++ s.map Tok.ch ++ [.sgr (str "0")]))

end RB
end RL
