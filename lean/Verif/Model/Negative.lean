import Verif.Model.RuneBuf
/-! # A cursor that is any integer

`RB.idx` is a natural number, because only a `Listener` can set a negative cursor (/repo/operation.go:339-345, through `SetWithIdx`).
Here the functions of /repo/runebuf.go that run from then on until the next command are written down again for a cursor `pos : Int`; `r.idx` is not used.
`C106_same` says that on cursors ≥ 0 they are those of Model/RuneBuf. -/

namespace RL.RB

/-- Go `s[:hi]` with any integer. -/
def sliceToI {α} (l : List α) (hi : Int) : R (List α) := if hi < 0 then .error .panic else sliceTo l hi.toNat

/-- /repo/runebuf.go:438-444 `idxLine`. -/
def idxLineI (U : UTables) (r : RB) (pos width : Int) : R Int :=
  if width = 0 then .ok 0
  else do
    let b ← sliceToI r.buf pos
    let sp ← r.getSplitByLine U b
    .ok (sp.length - 1)

/-- Second loop of `getBackspaceSequence` (/repo/runebuf.go:528-536): `i` runs from `pos + n` down to `pos + 1`. -/
def bsLoopI (width : Int) (sep : List Int) (pos : Int) : (n : Nat) → List Tok
  | 0 => []
  | n + 1 => (if pos + n + 1 ∈ sep then [.bs, .up1, .cr, .right width] else [.bs]) ++ bsLoopI width sep pos n

/-- /repo/runebuf.go:512-540 `getBackspaceSequence`. -/
def getBackspaceSequenceI (U : UTables) (r : RB) (pos : Int) : R (List Tok) := do
  let W := widthAll U r.buf
  let p ← if W = 0 then .ok 0 else r.promptLen U
  let sep ← sepLoop W p r.width (sepFuel W p) 0 []
  .ok (bsLoopI r.width sep pos (r.buf.length - pos).toNat)

/-- /repo/runebuf.go:479-510 `output`; the painter gets the cursor as it is. -/
def outputI (U : UTables) (d : DCfg) (painter : Option (List Rune → Int → List Rune)) (r : RB) (pos : Int) : R (List Tok) := do
  let pr := r.prompt.map Tok.ch
  let body ←
    if d.enableMask ∧ r.buf.length > 0 then do
      let last ← getR r.buf (r.buf.length - 1)
      let m := List.replicate (r.buf.length - 1) (Tok.ch d.maskRune)
      let l := if last = 10 then [Tok.ch 10] else [Tok.ch d.maskRune]
      if (r.buf.length : Int) > pos then do
        let b ← r.getBackspaceSequenceI U pos
        .ok (m ++ l ++ b)
      else .ok (m ++ l)
    else do
      match painter with
      | none => .error .panic
      | some paint => do
        let t := (paint r.buf pos).flatMap (paintTok U)
        let e ← r.isInLineEdge U d.windows
        if e then .ok (t ++ [.ch 32, .bs]) else .ok t
  if (r.buf.length : Int) > pos then do
    let b ← r.getBackspaceSequenceI U pos
    .ok (pr ++ body ++ b)
  else .ok (pr ++ body)

/-- /repo/runebuf.go:474-477 `print`. -/
def printI (U : UTables) (d : DCfg) (painter : Option (List Rune → Int → List Rune)) (r : RB) (pos : Int) : R RB := do
  let o ← r.outputI U d painter pos
  .ok { r.write o with hadClean := false }

/-- /repo/runebuf.go:619-629 `clean`, `cleanWithIdxLine`. -/
def cleanI (U : UTables) (r : RB) (pos : Int) : R RB := do
  let l ← r.idxLineI U pos r.width
  if r.hadClean ∨ ¬ r.interactive then .ok r
  else do
    let o ← RB.cleanOutput U { r with hadClean := true } l
    .ok ({ r with hadClean := true }.write o)

/-- /repo/runebuf.go:450-466 `Refresh`; the closure gets the text and the cursor and may change both. -/
def refreshI (U : UTables) (d : DCfg) (painter : Option (List Rune → Int → List Rune)) (r : RB) (pos : Int)
    (f : List Rune → Int → R (List Rune × Int)) : R (RB × Int) :=
  if ¬ r.interactive then do
    let (b, q) ← f r.buf pos
    .ok ({ r with buf := b }, q)
  else do
    let r ← r.cleanI U pos
    let (b, q) ← f r.buf pos
    let r ← RB.printI U d painter { r with buf := b } q
    .ok (r, q)

end RL.RB
