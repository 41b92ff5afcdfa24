import Verif.Model.Runes
import Verif.Model.Utf8
/-!
# /repo/history.go

`container/list` is modelled by the list `order` of element identities (oldest first); `elems` maps an identity to the
`hisItem` stored in the element.  Elements that were removed from the list keep their item (the Go code may still hold a
pointer to them in `opHistory.current` or `opSearch.source`) but have neither predecessor nor successor, as in Go.

The history file is modelled by its bytes (`disk`).  Writes succeed; the file cannot change behind the library's back.
`fdLock` is not modelled here (see `Verif.Model.Locks`).
-/

namespace RL

/-- /repo/history.go:12-16 `hisItem` (`Source` is immutable text here; `Verif.Model.Heap` models the sharing of
slices). -/
structure Item where
  source : List Rune
  version : Nat
  tmp : List Rune
deriving DecidableEq, Repr

/-- /repo/history.go:18-21 `hisItem.Clean`. -/
def Item.clean (i : Item) : Item := { i with source := [], tmp := [] }

/-- State of the file handle `opHistory.fd` (/repo/history.go:28). -/
inductive Fd | nil | opened | closed
deriving DecidableEq, Repr

/-- The fields of `Config` and of the environment used by /repo/history.go: `HistoryLimit`, `HistoryFile != ""`,
`HistorySearchFold`, and whether `os.OpenFile` succeeds. -/
structure HCfg where
  limit : Int
  hasFile : Bool
  fold : Bool
  openOK : Bool

/-- /repo/history.go:23-31 `opHistory`, together with the contents of the history file. -/
structure Hist where
  elems : Nat → Item
  next : Nat
  order : List Nat
  ver : Nat
  current : Option Nat
  enable : Bool
  fd : Fd
  disk : List Nat

namespace Hist

/-- /repo/history.go:33-40 `newOpHistory`; `disk` is what the history file contains. -/
def fresh (disk : List Nat) : Hist :=
  { elems := fun _ => ⟨[], 0, []⟩, next := 0, order := [], ver := 0, current := none, enable := true, fd := .nil, disk := disk }

/-- `elem.Value.(*hisItem) = it`, a store through the item pointer. -/
def setItem (h : Hist) (c : Nat) (it : Item) : Hist :=
  { h with elems := fun i => if i = c then it else h.elems i }

/-- `o.history.Back()`. -/
def back (h : Hist) : Option Nat := h.order.getLast?

/-- The elements before element `x`, nearest first (none if `x` is not in the list): what `elem.Prev()` visits. -/
def backChain (x : Nat) : List Nat → List Nat → List Nat
  | [], _ => []
  | a :: l, acc => if a = x then acc else backChain x l (a :: acc)

/-- The elements after element `x`, nearest first: what `elem.Next()` visits. -/
def fwdChain (x : Nat) : List Nat → List Nat
  | [] => []
  | a :: l => if a = x then l else fwdChain x l

/-- `elem.Prev()`. -/
def elemPrev (h : Hist) (x : Nat) : Option Nat := (backChain x h.order []).head?

/-- `elem.Next()`. -/
def elemNext (h : Hist) (x : Nat) : Option Nat := (fwdChain x h.order).head?

/-- /repo/history.go:42-45 `Reset`. -/
def reset (h : Hist) : Hist := { h with order := [], current := none }

/-- /repo/history.go:326-330 `Push`. -/
def push (s : List Rune) (h : Hist) : Hist :=
  { h.setItem h.next ⟨s, 0, []⟩ with next := h.next + 1, order := h.order ++ [h.next], current := some h.next }

/-- The loop of `Compact` (/repo/history.go:98-100). -/
def compactList (limit : Int) : List Nat → List Nat
  | [] => []
  | a :: l => if ((a :: l).length : Int) > limit then compactList limit l else a :: l

/-- /repo/history.go:97-101 `Compact`. -/
def compact (cfg : HCfg) (h : Hist) : Hist := { h with order := compactList cfg.limit h.order }

/-- `[]byte(string(r.Source) + "\n")` (/repo/history.go:122,316). -/
def fileLine (s : List Rune) : List Nat := encode s ++ [10]

/-- /repo/history.go:109-137 `rewriteLocked`, when nothing fails (see `Verif.Model.HistFile` for the steps). -/
def rewrite (cfg : HCfg) (h : Hist) : Hist :=
  if cfg.hasFile = false ∨ cfg.openOK = false then h
  else { h with disk := (h.order.map fun i => fileLine (h.elems i).source).flatten, fd := .opened }

/-- `r.ReadString('\n')` repeated until it fails (/repo/history.go:76-80): the complete lines of the file, without their
newline; `acc` is the line read so far.  An unterminated rest is dropped. -/
def termLines : List Nat → List Nat → List (List Nat)
  | _, [] => []
  | acc, b :: bs => if b = 10 then acc :: termLines [] bs else termLines (acc ++ [b]) bs

/-- `[]rune(strings.TrimSpace(line))` (/repo/history.go:82,86).  Simplification: the text is decoded before trimming; for
files with invalid UTF-8 next to blanks Go trims first. -/
def lineText (l : List Nat) : List Rune := (trimSpaceLeft (trimSpaceLeft (decode (l ++ [10]))).reverse).reverse

/-- The loop of `historyUpdatePath` (/repo/history.go:76-88). -/
def loadLines (cfg : HCfg) : List (List Nat) → Hist → Hist
  | [], h => h
  | l :: ls, h =>
    if (lineText l).length = 0 then loadLines cfg ls h
    else loadLines cfg ls ((h.push (lineText l)).compact cfg)

/-- /repo/history.go:66-95 `historyUpdatePath`. -/
def updatePath (cfg : HCfg) (h : Hist) : Hist :=
  if cfg.openOK = false then h
  else
    let h := { h with fd := .opened }
    let ls := termLines [] h.disk
    let h := loadLines cfg ls h
    let h := if (ls.length : Int) > cfg.limit then h.rewrite cfg else h
    let h := { h with ver := h.ver + 1 }
    h.push []

/-- /repo/history.go:53-63 `Init` with `IsHistoryClosed` (47-51) and `initHistory`; `Fd()` of a nil or closed file is
`^uintptr(0)`. -/
def init (cfg : HCfg) (h : Hist) : Hist :=
  if h.fd = .opened then h
  else if cfg.hasFile then h.updatePath cfg
  else h

/-- /repo/history.go:139-145 `Close`. -/
def close (h : Hist) : Hist := { h with fd := if h.fd = .nil then .nil else .closed }

/-- /repo/history.go:195-201 `showItem`. -/
def showItem (h : Hist) (x : Nat) : List Rune :=
  if (h.elems x).version = h.ver then (h.elems x).tmp else (h.elems x).source

/-- /repo/history.go:203-213 `Prev`; `none` stands for nil. -/
def prev (h : Hist) : Option (List Rune) × Hist :=
  match h.current with
  | none => (none, h)
  | some c =>
    match h.elemPrev c with
    | none => (none, h)
    | some p => (some (h.showItem p), { h with current := some p })

/-- /repo/history.go:215-226 `Next`. -/
def nextLine (h : Hist) : Option (List Rune) × Hist :=
  match h.current with
  | none => (none, h)
  | some c =>
    match h.elemNext c with
    | none => (none, h)
    | some p => (some (h.showItem p), { h with current := some p })

/-- /repo/history.go:229-231 `Disable`. -/
def disable (h : Hist) : Hist := { h with enable := false }

/-- /repo/history.go:234-236 `Enable`. -/
def enableH (h : Hist) : Hist := { h with enable := true }

/-- /repo/history.go:296-299 `Revert`. -/
def revert (h : Hist) : Hist := { h with ver := h.ver + 1, current := h.back }

/-- /repo/history.go:301-324 `Update`.  Writing to a closed file only yields an error. -/
def update (cfg : HCfg) (s : List Rune) (commit : Bool) (h : Hist) : Hist :=
  match h.current with
  | none => (h.push s).compact cfg
  | some c =>
    let r := { h.elems c with version := h.ver }
    let h :=
      if commit then
        let h := h.setItem c { r with source := s }
        if h.fd = .opened then { h with disk := h.disk ++ fileLine s } else h
      else h.setItem c { r with tmp := s }
    h.compact cfg

/-- Second half of `New` (/repo/history.go:278-293). -/
def commit (cfg : HCfg) (cur : List Rune) (h : Hist) : R Hist := do
  let (cur, h) ←
    if h.current ≠ h.back then
      match h.current with
      | none => .error .panic  -- o.current.Value with o.current == nil
      | some c => .ok ((h.elems c).tmp, { h with current := h.back })
    else .ok (cur, h)
  let h := h.update cfg cur true
  let h := { h with ver := h.ver + 1 }
  .ok (h.push [])

/-- `o.current = o.history.Back(); o.current.Value.(*hisItem).Clean(); o.historyVer++` (/repo/history.go:261-263,
270-273). -/
def cleanBack (b : Nat) (h : Hist) : Hist :=
  { { h with current := some b }.setItem b (h.elems b).clean with ver := h.ver + 1 }

/-- The test at /repo/history.go:258-260: there is an element before the last one, and it holds `cur`. -/
def repeatsNewest (h : Hist) (b : Nat) (cur : List Rune) : Bool :=
  match h.elemPrev b with
  | some p => runesEqual cur (h.elems p).source
  | none => false

/-- /repo/history.go:246-294 `New`. -/
def new (cfg : HCfg) (cur : List Rune) (h : Hist) : R Hist :=
  if h.enable = false then .ok h
  else
    match h.back with
    | none =>
      -- the empty-line branch only sets o.current = nil
      commit cfg cur (if cur.length = 0 then { h with current := none } else h)
    | some b =>
      if h.repeatsNewest b cur then .ok (h.cleanBack b)
      else if cur.length = 0 then .ok (h.cleanBack b)
      else commit cfg cur h

/-- The loop of `FindBck` (/repo/history.go:148-164) over the elements `elem, elem.Prev(), ...`; the flag says
whether `elem == o.current`. -/
def findBckGo (cfg : HCfg) (h : Hist) (isNew : Bool) (rs : List Rune) : Int → Bool → List Nat → R (Option (Nat × Nat))
  | _, _, [] => .ok none
  | start, cur, e :: es => do
    let item := h.showItem e
    let start := if isNew then start + rs.length else start
    let item ←
      if cur ∧ (item.length : Int) ≥ start then
        (if start < 0 then .error .panic else sliceTo item start.toNat)
      else .ok item
    match ← indexAllBckEx item rs cfg.fold with
    | none => findBckGo cfg h isNew rs start false es
    | some i => .ok (some (i, e))

/-- /repo/history.go:147-165 `FindBck`. -/
def findBck (cfg : HCfg) (h : Hist) (isNew : Bool) (rs : List Rune) (start : Int) : R (Option (Nat × Nat)) :=
  match h.current with
  | none => .ok none
  | some c => findBckGo cfg h isNew rs start true (c :: backChain c h.order [])

/-- The loop of `FindFwd` (/repo/history.go:168-192). -/
def findFwdGo (cfg : HCfg) (h : Hist) (isNew : Bool) (rs : List Rune) : Int → Bool → List Nat → R (Option (Nat × Nat))
  | _, _, [] => .ok none
  | start, cur, e :: es => do
    let item := h.showItem e
    let start := if isNew then (if start - rs.length < 0 then 0 else start - rs.length) else start
    if cur then
      if (item.length : Int) - 1 ≥ start then
        let item ← (if start < 0 then .error .panic else sliceFrom item start.toNat)
        match ← indexAllEx item rs cfg.fold with
        | none => findFwdGo cfg h isNew rs start false es
        | some i => .ok (some (i + start.toNat, e))
      else findFwdGo cfg h isNew rs start false es
    else
      match ← indexAllEx item rs cfg.fold with
      | none => findFwdGo cfg h isNew rs start false es
      | some i => .ok (some (i, e))

/-- /repo/history.go:167-193 `FindFwd`. -/
def findFwd (cfg : HCfg) (h : Hist) (isNew : Bool) (rs : List Rune) (start : Int) : R (Option (Nat × Nat)) :=
  match h.current with
  | none => .ok none
  | some c => findFwdGo cfg h isNew rs start true (c :: fwdChain c h.order)

end Hist
end RL
