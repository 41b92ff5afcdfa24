import Verif.Model.RuneBuf
import Verif.Model.History
/-!
# /repo/search.go : incremental search

The methods of `opSearch` read and write the edit line, the history and the terminal; they are functions on the triple
(`Search`, `Hist`, `RB`).
-/

namespace RL

/-- /repo/search.go:20-33 `opSearch`; `fwd` is `dir == S_DIR_FWD`, `failing` is `state == S_STATE_FAILING`. -/
structure Search where
  inMode : Bool
  failing : Bool
  fwd : Bool
  source : Option Nat
  data : List Rune
  markStart : Nat
  markEnd : Nat
  width : Int
deriving DecidableEq, Repr

namespace Search

/-- /repo/search.go:35-43 `newOpSearch`. -/
def new (width : Int) : Search :=
  { inMode := false, failing := false, fwd := false, source := none, data := [], markStart := 0, markEnd := 0, width := width }

/-- Tokens of a literal text. -/
def lit (s : String) : List Tok := (str s).map Tok.ch

/-- The text written by `SearchRefresh` after the styling (/repo/search.go:146-164). -/
def banner (s : Search) (x : Int) (lineCnt : Int) : R (List Tok) := do
  let nl ← repeatR [Tok.ch 10] lineCnt
  .ok (nl ++ [.eraseBelow] ++ (if s.failing then lit "failing " else []) ++ (if s.fwd then lit "fwd" else lit "bck") ++
    lit "-i-search: " ++ s.data.map Tok.ch ++ [.sgr (str "4"), .ch 32, .sgr (str "0"), .cr, .up lineCnt] ++
    (if x > 0 then [.right x] else []))

/-- The new `state` (/repo/search.go:128-132). -/
def setState (s : Search) (x : Int) : Search :=
  if x = -2 then { s with failing := true } else if x ≥ 0 then { s with failing := false } else s

/-- The matched text is underlined (/repo/search.go:140-142). -/
def underline (U : UTables) (s : Search) (r : RB) : R RB :=
  if s.markStart > 0 then r.setStyle U s.markStart s.markEnd (str "4") else .ok r

/-- /repo/search.go:127-164 `SearchRefresh`. -/
def searchRefresh (U : UTables) (s : Search) (r : RB) (x : Int) : R (Search × RB) := do
  let cw ← r.currentWidth U (if x < 0 then (r.idx : Int) else x).toNat
  let p ← r.promptLen U
  let x' ← modR (cw + p) s.width
  let r ← s.underline U r
  let lineCnt ← r.cursorLineCount U
  let b ← (s.setState x).banner x' lineCnt
  .ok (s.setState x, r.write b)

/-- /repo/search.go:60-65 `findHistoryBy`. -/
def findHistoryBy (cfg : HCfg) (s : Search) (h : Hist) (r : RB) (isNew : Bool) : R (Option (Nat × Nat)) :=
  if s.fwd then h.findFwd cfg isNew s.data r.idx else h.findBck cfg isNew s.data r.idx

/-- /repo/search.go:67-92 `search` (the result is never used). -/
def search (U : UTables) (d : DCfg) (cfg : HCfg) (isChange : Bool) (s : Search) (h : Hist) (r : RB) :
    R (Search × Hist × RB) :=
  if s.data.length = 0 then do
    let (s, r) ← searchRefresh U { s with failing := false } r (-1)
    .ok (s, h, r)
  else do
    match ← s.findHistoryBy cfg h r isChange with
    | none => do
      let (s, r) ← s.searchRefresh U r (-2)
      .ok (s, h, r)
    | some (idx, elem) => do
      let h := { h with current := some elem }
      let item := h.showItem elem
      let idx' := if s.fwd then idx + s.data.length else idx
      let r ← r.setWithIdx U d idx' item
      let s := { s with markStart := idx, markEnd := idx + s.data.length }
      let (s, r) ← s.searchRefresh U r idx'
      .ok (s, h, r)

/-- /repo/search.go:53-58 `SearchBackspace`. -/
def searchBackspace (U : UTables) (d : DCfg) (cfg : HCfg) (s : Search) (h : Hist) (r : RB) : R (Search × Hist × RB) :=
  if s.data.length > 0 then search U d cfg true { s with data := s.data.dropLast } h r else .ok (s, h, r)

/-- /repo/search.go:94-97 `SearchChar`. -/
def searchChar (U : UTables) (d : DCfg) (cfg : HCfg) (c : Rune) (s : Search) (h : Hist) (r : RB) : R (Search × Hist × RB) :=
  search U d cfg true { s with data := s.data ++ [c] } h r

/-- /repo/search.go:99-113 `SearchMode`. -/
def searchMode (U : UTables) (d : DCfg) (cfg : HCfg) (fwd : Bool) (s : Search) (h : Hist) (r : RB) :
    R (Bool × Search × Hist × RB) :=
  if s.width = 0 then .ok (false, s, h, r)
  else do
    let already := s.inMode
    let s := { s with inMode := true, fwd := fwd, source := h.current }
    if already then do
      let (s, h, r) ← search U d cfg false s h r
      .ok (true, s, h, r)
    else do
      let (s, r) ← s.searchRefresh U r (-1)
      .ok (true, s, h, r)

/-- /repo/search.go:115-125 `ExitSearchMode`; reverting to a nil `source` is a nil dereference. -/
def exitSearchMode (U : UTables) (d : DCfg) (revert : Bool) (s : Search) (h : Hist) (r : RB) : R (Search × Hist × RB) := do
  let (h, r) ←
    if revert then
      match s.source with
      | none => .error .panic
      | some c => do
        let r ← r.set U d (h.showItem c)
        .ok ({ h with current := some c }, r)
    else .ok (h, r)
  .ok ({ s with markStart := 0, markEnd := 0, failing := false, inMode := false, source := none, data := [] }, h, r)

end Search
end RL
