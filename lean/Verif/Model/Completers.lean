import Verif.Model.Runes
/-!
# The completers that come with the library

/repo/complete_helper.go (`PrefixCompleter`) and /repo/complete_segment.go (`SegmentComplete`).

Simplifications: a completer tree is finite (a tree made cyclic with `SetChildren` is not modelled); a dynamic callback is
a pure function from the line to a list of names (in Go both go through `string`); `append` in `SegmentComplete.Do` never
writes into the candidates of the callback (see `Verif.Model.Heap` for slices as storage).
-/

namespace RL

/-- /repo/complete_helper.go:25-30 `PrefixCompleter` as built by `PcItem` and `PcItemDynamic`.
`name` is the `Name` field (with the trailing blank `PcItem` adds), `dyn` the callback of a dynamic node. -/
inductive PTree where
  | node (name : List Rune) (dyn : Option (List Rune → List (List Rune))) (children : List PTree)

namespace PTree

def children : PTree → List PTree
  | node _ _ cs => cs

/-- /repo/complete_helper.go:86-93 `PcItem`; `NewPrefixCompleter` (:82-84) is `PcItem("")`. -/
def item (name : List Rune) (cs : List PTree) : PTree := node (name ++ [32]) none cs

/-- /repo/complete_helper.go:95-101 `PcItemDynamic`. -/
def itemDynamic (callback : List Rune → List (List Rune)) (cs : List PTree) : PTree := node [] (some callback) cs

/-- `childNames` at /repo/complete_helper.go:116-123; `GetDynamicNames` (:66-72) adds a blank to every name. -/
def childNames (origLine : List Rune) : PTree → List (List Rune)
  | node name none _ => [name]
  | node _ (some f) _ => (f origLine).map (· ++ [32])

mutual
/-- Height of a tree. -/
def depth : PTree → Nat
  | node _ _ cs => depthL cs + 1
/-- Largest height in a list of trees. -/
def depthL : List PTree → Nat
  | [] => 0
  | c :: cs => max (depth c) (depthL cs)
end

/-- Local variables of `doInternal` (/repo/complete_helper.go:112-114). -/
structure Scan where
  newLine : List (List Rune)
  offset : Nat
  goNext : Bool
  lineCompleter : Option PTree

/-- Body of the inner loop (/repo/complete_helper.go:126-143) for one child and one of its names. -/
def scanName (line : List Rune) (child : PTree) (childName : List Rune) (a : Scan) : Scan :=
  if line.length ≥ childName.length then
    if hasPrefix line childName then
      { newLine := a.newLine ++ [if line.length = childName.length then [32] else childName],
        offset := childName.length, goNext := true, lineCompleter := some child }
    else a
  else if hasPrefix childName line then
    { a with newLine := a.newLine ++ [childName.drop line.length], offset := line.length, lineCompleter := some child }
  else a

/-- The inner loop (/repo/complete_helper.go:125-144). -/
def scanNames (line : List Rune) (child : PTree) : List (List Rune) → Scan → Scan
  | [], a => a
  | n :: ns, a => scanNames line child ns (scanName line child n a)

/-- The outer loop (/repo/complete_helper.go:115-145). -/
def scanChildren (line origLine : List Rune) : List PTree → Scan → Scan
  | [], a => a
  | c :: cs, a => scanChildren line origLine cs (scanNames line c (c.childNames origLine) a)

/-- The loop at /repo/complete_helper.go:152-159: the line from its first rune at or after `offset` that is not a blank. -/
def skipBlanks : List Rune → List Rune
  | [] => []
  | r :: rs => if r = 32 then skipBlanks rs else r :: rs

/-- /repo/complete_helper.go:111-165 `doInternal`.  The recursion goes down the tree; the first argument bounds its depth. -/
def doInternal : Nat → PTree → List Rune → Nat → List Rune → R (List (List Rune) × Nat)
  | 0, _, _, _, _ => .error .hang
  | n + 1, p, line, pos, origLine => do
    let line ← sliceTo line pos
    let line := trimSpaceLeft line
    let a := scanChildren line origLine p.children ⟨[], 0, false, none⟩
    if a.newLine.length ≠ 1 then .ok (a.newLine, a.offset)
    else
      match a.lineCompleter with
      | none => .error .panic
      | some c =>
        let tmp := skipBlanks (line.drop a.offset)
        if tmp ≠ [] then doInternal n c tmp tmp.length origLine
        else if a.goNext then doInternal n c [] 0 origLine
        else .ok (a.newLine, a.offset)

/-- /repo/complete_helper.go:103-109 `Do`. -/
def doLine (t : PTree) (line : List Rune) (pos : Nat) : R (List (List Rune) × Nat) :=
  doInternal (t.depth + 1) t line pos line

end PTree

/-- The loop of `SplitSegment` (/repo/complete_segment.go:59-67) over `rest = line[idx:]`; `from_` is `lastIdx + 1`. -/
def splitLoop (line : List Rune) : (idx from_ pos : Nat) → (segs : List (List Rune)) → (rest : List Rune) →
    R (Nat × Nat × List (List Rune))
  | _, from_, pos, segs, [] => .ok (from_, pos, segs)
  | idx, from_, pos, segs, l :: rest =>
    if l = 32 then do
      let seg ← slice line from_ idx
      splitLoop line (idx + 1) (idx + 1) 0 (segs ++ [seg]) rest
    else splitLoop line (idx + 1) from_ (pos + 1) segs rest

/-- /repo/complete_segment.go:54-70 `SplitSegment`. -/
def splitSegment (line : List Rune) (pos : Nat) : R (List (List Rune) × Nat) := do
  let line ← sliceTo line pos
  let (from_, pos, segs) ← splitLoop line 0 0 0 [] line
  let seg ← sliceFrom line from_
  .ok (segs ++ [seg], pos)

/-- /repo/complete_segment.go:42-52 `RetSegment`; `segments[len(segments)-1]` panics when there is none. -/
def retSegment (segments cands : List (List Rune)) (idx : Nat) : R (List (List Rune) × Nat) :=
  match segments.getLast? with
  | none => .error .panic
  | some last => .ok ((cands.filter fun c => hasPrefix c last).map (·.drop last.length), idx)

/-- /repo/complete_segment.go:72-82 `SegmentComplete.Do`; `f` is `DoSegment`. -/
def segmentDo (f : List (List Rune) → Nat → List (List Rune)) (line : List Rune) (pos : Nat) : R (List (List Rune) × Nat) := do
  let (segment, idx) ← splitSegment line pos
  let cands := f segment idx
  let (newLine, offset) ← retSegment segment cands idx
  .ok (newLine.map (· ++ [32]), offset)

end RL
