import Verif.Model.RuneBuf
/-!
# /repo/complete.go : completion mode and the selection menu

The methods of `opCompleter` are functions on the pair (`Comp`, `RB`).  The `AutoCompleter` is an arbitrary function of
the line and the cursor.  `aggCandidate` (/repo/complete.go:244-259) is never called and not modelled.
-/

namespace RL

/-- `AutoCompleter.Do` (/repo/complete.go:10-19): candidates and length of the shared text. -/
abbrev Completer := List Rune → Nat → List (List Rune) × Int

/-- /repo/complete.go:21-23 `TabCompleter`. -/
def tabCompleter : Completer := fun _ _ => ([[9]], 0)

/-- /repo/complete.go:27-39 `opCompleter`; `source = none` is a nil `candidateSource`, a nil `candidate` is `[]`. -/
structure Comp where
  width : Int
  inComplete : Bool
  inSelect : Bool
  candidate : List (List Rune)
  source : Option (List Rune)
  off : Int
  choise : Int
  colNum : Int
deriving DecidableEq, Repr

namespace Comp

/-- /repo/complete.go:41-47 `newOpCompleter`. -/
def new (width : Int) : Comp :=
  { width := width, inComplete := false, inSelect := false, candidate := [], source := none, off := 0, choise := 0, colNum := 0 }

/-- /repo/complete.go:274-280 `ExitCompleteSelectMode`. -/
def exitSelect (c : Comp) : Comp :=
  { c with inSelect := false, candidate := [], choise := -1, off := -1, source := none }

/-- /repo/complete.go:282-285 `ExitCompleteMode`. -/
def exitComplete (c : Comp) : Comp := { c with inComplete := false }.exitSelect

/-- Widest candidate (/repo/complete.go:193-199). -/
def maxWidth (U : UTables) : List (List Rune) → Nat → Nat
  | [], m => m
  | c :: cs, m => maxWidth U cs (if widthAll U c > m then widthAll U c else m)

/-- The loop printing the candidates (/repo/complete.go:217-237): text written and the final `lines`. -/
def menu (U : UTables) (same : List Rune) (colWidth colNum : Int) (hl : Int → Bool) :
    List (List Rune) → (idx colIdx : Int) → (lines : Int) → R (List Tok × Int)
  | [], _, _, lines => .ok ([], lines)
  | c :: cs, idx, colIdx, lines => do
    let pad ← repeatR [Tok.ch 32] (colWidth - widthAll U c - widthAll U same)
    let item := (if hl idx then [Tok.sgr (str "30;47")] else []) ++ same.map Tok.ch ++ c.map Tok.ch ++ pad ++
      (if hl idx then [Tok.sgr (str "0")] else [])
    let colIdx := colIdx + 1
    if colIdx = colNum then do
      let (rest, l) ← menu U same colWidth colNum hl cs (idx + 1) 0 (lines + 1)
      .ok (item ++ [.ch 10] ++ rest, l)
    else do
      let (rest, l) ← menu U same colWidth colNum hl cs (idx + 1) colIdx lines
      .ok (item ++ rest, l)

/-- /repo/complete.go:188-242 `CompleteRefresh`. -/
def completeRefresh (U : UTables) (c : Comp) (r : RB) : R (Comp × RB) :=
  if c.inComplete = false then .ok (c, r)
  else do
    let lineCnt ← r.cursorLineCount U
    let colWidth : Int := maxWidth U c.candidate 0 + (c.off + 1)
    let same ← r.runeSlice (-c.off)
    let width := c.width - 1
    let colNum ← divR width colWidth
    let colWidth ←
      if colNum ≠ 0 then do
        let e ← divR (width - colWidth * colNum) colNum
        .ok (colWidth + e)
      else .ok colWidth
    let nl ← repeatR [Tok.ch 10] lineCnt
    let (m, lines) ← menu U same colWidth colNum (fun i => i == c.choise && c.inSelect) c.candidate 0 0 1
    let p ← r.promptLen U
    .ok ({ c with colNum := colNum },
      r.write (nl ++ [.eraseBelow] ++ m ++ [.up (lineCnt - 1 + lines), .cr, .right (r.idx + p)]))

/-- /repo/complete.go:59-65 `nextCandidate`. -/
def nextCandidate (c : Comp) (i : Int) : R Comp := do
  let m ← modR (c.choise + i) c.candidate.length
  .ok { c with choise := if m < 0 then c.candidate.length + m else m }

/-- /repo/complete.go:49-57 `doSelect`. -/
def doSelect (U : UTables) (d : DCfg) (c : Comp) (r : RB) : R (Comp × RB) :=
  match c.candidate with
  | [x] => do
    let r ← r.writeRunes U d x
    .ok (c.exitComplete, r)
  | _ => do
    let c ← c.nextCandidate 1
    c.completeRefresh U r

/-- /repo/complete.go:261-265 `EnterCompleteSelectMode`. -/
def enterSelect (U : UTables) (c : Comp) (r : RB) : R (Comp × RB) :=
  { c with inSelect := true, choise := -1 }.completeRefresh U r

/-- /repo/complete.go:267-272 `EnterCompleteMode`. -/
def enterComplete (U : UTables) (off : Int) (cands : List (List Rune)) (c : Comp) (r : RB) : R (Comp × RB) :=
  { c with inComplete := true, candidate := cands, off := off }.completeRefresh U r

/-- `o.candidateSource != nil && runes.Equal(rs, o.candidateSource)` (/repo/complete.go:79). -/
def sameSource (c : Comp) (r : RB) : Bool :=
  match c.source with
  | some s => runesEqual r.buf s
  | none => false

/-- /repo/complete.go:67-111 `OnComplete`.  A nil `AutoComplete` is a nil dereference at line 87. -/
def onComplete (U : UTables) (d : DCfg) (auto : Option Completer) (c : Comp) (r : RB) : R (Bool × Comp × RB) :=
  if c.width = 0 then .ok (false, c, r)
  else if c.inSelect then do
    let (c, r) ← c.doSelect U d r
    .ok (true, c, r)
  else if c.inComplete ∧ c.sameSource r then do
    let (c, r) ← c.enterSelect U r
    let (c, r) ← c.doSelect U d r
    .ok (true, c, r)
  else
    let c := { c.exitSelect with source := some r.buf }
    match auto with
    | none => .error .panic
    | some f =>
      match f r.buf r.idx with
      | ([], _) => .ok (true, c.exitComplete, r)
      | (n :: ns, off) =>
        if c.inComplete = false then
          if ns.length = 0 then do
            let r ← r.writeRunes U d n
            .ok (true, c.exitComplete, r)
          else do
            let (same, size, cands) ← aggregate (n :: ns)
            if size > 0 then do
              let r ← r.writeRunes U d same
              .ok (true, c.exitComplete, r)
            else do
              let (c, r) ← c.enterComplete U off cands r
              .ok (true, c, r)
        else do
          let (c, r) ← c.enterComplete U off (n :: ns) r
          .ok (true, c, r)

/-- /repo/complete.go:176-182 `getMatrixSize`. -/
def matrixSize (c : Comp) : R Int := do
  let l ← divR c.candidate.length c.colNum
  let m ← modR c.candidate.length c.colNum
  let l := if m ≠ 0 then l + 1 else l
  .ok (l * c.colNum)

/-- `o.op.candidate[o.op.candidateChoise]` (/repo/complete.go:126). -/
def chosen (c : Comp) : R (List Rune) := if c.choise < 0 then .error .panic else getR c.candidate c.choise.toNat

/-- The effect of the key on the menu (/repo/complete.go:122-168): the flag `next` and the new state. -/
def selectKey (U : UTables) (d : DCfg) (k : Rune) (c : Comp) (r : RB) : R (Bool × Comp × RB) :=
  if k = CharEnter ∨ k = CharCtrlJ then do
    let x ← c.chosen
    let r ← r.writeRunes U d x
    .ok (false, c.exitComplete, r)
  else if k = CharLineStart then do
    let num ← modR c.choise c.colNum
    let c ← c.nextCandidate (-num)
    .ok (true, c, r)
  else if k = CharLineEnd then do
    let m ← modR c.choise c.colNum
    let ch := c.choise + (c.colNum - m - 1)
    .ok (true, { c with choise := if ch ≥ c.candidate.length then c.candidate.length - 1 else ch }, r)
  else if k = CharBackspace then .ok (false, c.exitSelect, r)
  else if k = CharTab ∨ k = CharForward then do
    let (c, r) ← c.doSelect U d r
    .ok (true, c, r)
  else if k = CharBell ∨ k = CharInterrupt then .ok (false, c.exitComplete, r)
  else if k = CharNext then do
    let t := c.choise + c.colNum
    let ms ← c.matrixSize
    let t := if t ≥ ms then t - ms else if t ≥ c.candidate.length then t + c.colNum - ms else t
    .ok (true, { c with choise := t }, r)
  else if k = CharBackward then do
    let c ← c.nextCandidate (-1)
    .ok (true, c, r)
  else if k = CharPrev then do
    let t := c.choise - c.colNum
    if t < 0 then do
      let ms ← c.matrixSize
      let t := t + ms
      .ok (true, { c with choise := if t ≥ c.candidate.length then t - c.colNum else t }, r)
    else .ok (true, { c with choise := t }, r)
  else .ok (false, c.exitSelect, r)

/-- /repo/complete.go:121-174 `HandleCompleteSelect`. -/
def handleSelect (U : UTables) (d : DCfg) (k : Rune) (c : Comp) (r : RB) : R (Bool × Comp × RB) := do
  let (next, c, r) ← c.selectKey U d k r
  if next then do
    let (c, r) ← c.completeRefresh U r
    .ok (true, c, r)
  else .ok (false, c, r)

end Comp
end RL
