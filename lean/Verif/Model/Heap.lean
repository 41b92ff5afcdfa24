import Verif.Model.Cmd
import Verif.Model.History
/-!
# Slices in memory

The other files treat `[]rune` as a value.  Here a slice is a window of a backing array, so that in-place edits and aliasing are
visible: `RuneBuffer` (/repo/runebuf.go), the entries of `opHistory` (/repo/history.go) and the places where the two meet
(/repo/operation.go, /repo/search.go).  Drawing is left out (it only reads).
-/

namespace RL.Mem

/-- Backing arrays (with their full capacity), by number; `next` is the first unused number. -/
structure Heap where
  mem : Nat → List Rune
  next : Nat

/-- A Go slice.  A nil slice is represented by a slice of an empty array of its own. -/
structure Slice where
  arr : Nat
  off : Nat
  len : Nat
  cap : Nat
deriving DecidableEq, Repr

/-- The runes of a slice. -/
def Heap.get (h : Heap) (s : Slice) : List Rune := ((h.mem s.arr).drop s.off).take s.len

/-- Overwrite a part of an array. -/
def Heap.store (h : Heap) (a pos : Nat) (xs : List Rune) : Heap :=
  { h with mem := fun b => if b = a then (h.mem a).take pos ++ xs ++ (h.mem a).drop (pos + xs.length) else h.mem b }

/-- A new array holding `xs`, with room for `cap` runes. -/
def Heap.alloc (h : Heap) (xs : List Rune) (cap : Nat) : Heap × Slice :=
  ({ mem := fun b => if b = h.next then xs ++ List.replicate (cap - xs.length) 0 else h.mem b, next := h.next + 1 },
    ⟨h.next, 0, xs.length, max cap xs.length⟩)

/-- `make` + `copy`: `runes.Copy` (/repo/runes.go:170-174), `Runes` (/repo/runebuf.go:119-125). -/
def Heap.copy (h : Heap) (s : Slice) : Heap × Slice := h.alloc (h.get s) s.len

/-- `s[lo:hi]`: bounds are checked against the capacity. -/
def Slice.sub (s : Slice) (lo hi : Nat) : R Slice :=
  if lo ≤ hi ∧ hi ≤ s.cap then .ok ⟨s.arr, s.off + lo, hi - lo, s.cap - lo⟩ else .error .panic

/-- `s[:hi]` -/
def Slice.upTo (s : Slice) (hi : Nat) : R Slice := s.sub 0 hi

/-- `s[lo:]`: the upper bound is the length. -/
def Slice.above (s : Slice) (lo : Nat) : R Slice := if lo ≤ s.len then s.sub lo s.len else .error .panic

/-- `append(a, xs...)` with the runes `xs` read before (the copying behaves so even if the arrays overlap).  `grow` gives the
capacity of a new array; it is at least what is needed. -/
def Heap.append (grow : Nat → Nat → Nat) (h : Heap) (a : Slice) (xs : List Rune) : Heap × Slice :=
  if a.len + xs.length ≤ a.cap then (h.store a.arr (a.off + a.len) xs, { a with len := a.len + xs.length })
  else h.alloc (h.get a ++ xs) (grow a.cap (a.len + xs.length))

/-- `RuneBuffer` (/repo/runebuf.go:12-36), the fields used for editing, with the memory. -/
structure Buf where
  heap : Heap
  buf : Slice
  idx : Nat
  kill : Slice
  bck : Option (Slice × Nat)

/-- The text of the line. -/
def Buf.text (b : Buf) : List Rune := b.heap.get b.buf

/-- What the other files work with. -/
def Buf.abs (b : Buf) : Ed :=
  { buf := b.text, idx := b.idx, lastKill := b.heap.get b.kill, bck := b.bck.map (fun p => (b.heap.get p.1, p.2)) }

/-- `NewRuneBuffer` (/repo/runebuf.go:64-73): no text, nothing killed, nothing saved. -/
def Buf.init : Buf := { heap := ⟨fun _ => [], 2⟩, buf := ⟨0, 0, 0, 0⟩, idx := 0, kill := ⟨1, 0, 0, 0⟩, bck := none }

section
variable (grow : Nat → Nat → Nat)

/-- /repo/runebuf.go:38-40 `pushKill`: appending to an empty literal allocates. -/
def Buf.pushKill (b : Buf) (s : Slice) : Buf :=
  { b with heap := (b.heap.alloc (b.heap.get s) (grow 0 s.len)).1, kill := (b.heap.alloc (b.heap.get s) (grow 0 s.len)).2 }

/-- `r.buf = append(r.buf[:i], r.buf[j:]...)` -/
def Buf.cut (b : Buf) (i j : Nat) : R Buf := do
  let head ← b.buf.upTo i
  let tail ← b.buf.above j
  .ok { b with heap := (b.heap.append grow head (b.heap.get tail)).1, buf := (b.heap.append grow head (b.heap.get tail)).2 }

/-- /repo/runebuf.go:268-271 -/
def Buf.killC (b : Buf) : R Buf := do
  let k ← b.buf.above b.idx
  let t ← b.buf.upTo b.idx
  .ok { b.pushKill grow k with buf := t }

/-- The closures of the editing methods (/repo/runebuf.go:48-418, 574-583).  `s` is the slice passed to `WriteRunes` and `Set`
(the runes in the command are not used).  Scanning for word boundaries only reads the text and is taken from the value model. -/
def Buf.apply (s : Slice) : Cmd → Buf → R Buf
  -- /repo/runebuf.go:166-170
  | .insert _, b => do
    let t ← b.buf.above b.idx
    let (h, tail) := b.heap.append grow s (b.heap.get t)
    let head ← b.buf.upTo b.idx
    .ok { b with heap := (h.append grow head (h.get tail)).1, buf := (h.append grow head (h.get tail)).2, idx := b.idx + s.len }
  -- /repo/runebuf.go:363-370
  | .backspace, b => if b.idx = 0 then .ok b else Buf.cut grow { b with idx := b.idx - 1 } (b.idx - 1) (b.idx - 1 + 1)
  -- /repo/runebuf.go:203-210
  | .delete, b =>
    if b.idx = b.buf.len then .ok b
    else do
      let k ← b.buf.sub b.idx (b.idx + 1)
      Buf.cut grow (b.pushKill grow k) b.idx (b.idx + 1)
  -- /repo/runebuf.go:267-272
  | .kill, b => b.killC grow
  -- /repo/runebuf.go:254-264
  | .killFront, b =>
    if b.idx = 0 then .ok b
    else do
      let k ← b.buf.upTo b.idx
      let b := b.pushKill grow k
      let d ← b.buf.upTo (b.buf.len - b.idx)
      let t ← b.buf.above b.idx
      .ok { b with heap := b.heap.store d.arr d.off ((b.heap.get t).take d.len), idx := 0, buf := d }
  -- /repo/runebuf.go:195-199
  | .erase, b => do
    let t ← b.buf.upTo 0
    .ok { b.pushKill grow b.buf with buf := t, idx := 0 }
  -- /repo/runebuf.go:348-360
  | .yank, b =>
    if b.kill.len = 0 then .ok b
    else do
      let l ← b.buf.upTo b.idx
      let r ← b.buf.above b.idx
      let (h, m) := b.heap.alloc [] (b.buf.len + b.kill.len)
      let (h, m) := h.append grow m (h.get l)
      let (h, m) := h.append grow m (h.get b.kill)
      let (h, m) := h.append grow m (h.get r)
      .ok { b with heap := h, buf := m, idx := b.idx + b.kill.len }
  -- /repo/runebuf.go:214-232
  | .deleteWord, b =>
    if b.idx = b.buf.len then .ok b
    else
      let init := Ed.skipBreaks b.idx (b.text.drop b.idx)
      match Ed.scanUp (Ed.wordStartAt b.text) (init + 1) (b.buf.len - (init + 1)) with
      | some i => do
        let k ← b.buf.sub b.idx (i - 1)
        Buf.cut grow (b.pushKill grow k) b.idx (i - 1)
      | none => b.killC grow
  -- /repo/runebuf.go:330-345
  | .backEscapeWord, b =>
    if b.idx = 0 then .ok b
    else do
      match ← Ed.scanDown b.text (b.idx - 1) with
      | some i => do
        let k ← b.buf.sub i b.idx
        let b' ← Buf.cut grow (b.pushKill grow k) i b.idx
        .ok { b' with idx := i }
      | none => do
        let t ← b.buf.upTo 0
        .ok { b with buf := t, idx := 0 }
  -- /repo/runebuf.go:275-291
  | .transpose, b =>
    let b := if b.buf.len = 1 then { b with idx := b.idx + 1 } else b
    if b.buf.len < 2 then .ok b
    else
      let i := if b.idx = 0 then 1 else if b.idx ≥ b.buf.len then b.buf.len - 1 else b.idx
      do
        let x ← getR b.text i
        let y ← getR b.text (i - 1)
        .ok { b with heap := b.heap.store b.buf.arr (b.buf.off + (i - 1)) [x, y], idx := i + 1 }
  -- /repo/runebuf.go:189-191
  | .replace c, b =>
    if b.idx < b.buf.len then .ok { b with heap := b.heap.store b.buf.arr (b.buf.off + b.idx) [c] } else .error .panic
  -- /repo/runebuf.go:575-582
  | .set _, b => .ok { b with buf := s, idx := s.len }
  -- /repo/runebuf.go:48-52
  | .backup, b => .ok { b with bck := some (b.buf, b.idx) }
  -- /repo/runebuf.go:54-62
  | .restore, b =>
    match b.bck with
    | none => .ok b
    | some (t, i) => .ok { b with buf := t, idx := i }
  -- the commands that only move the cursor
  | .left, b => do let e ← Ed.moveBackwardC b.abs; .ok { b with idx := e.idx }
  | .right, b => do let e ← Ed.moveForwardC b.abs; .ok { b with idx := e.idx }
  | .home, b => do let e ← Ed.moveToLineStartC b.abs; .ok { b with idx := e.idx }
  | .toEnd, b => do let e ← Ed.moveToLineEndC b.abs; .ok { b with idx := e.idx }
  | .prevWord, b => do let e ← Ed.moveToPrevWordC b.abs; .ok { b with idx := e.idx }
  | .nextWord, b => do let e ← Ed.moveToNextWordC b.abs; .ok { b with idx := e.idx }
  | .endWord, b => do let e ← Ed.moveToEndWordC b.abs; .ok { b with idx := e.idx }
  | .moveTo c p r, b => do let e ← Ed.moveToC c p r b.abs; .ok { b with idx := e.2.idx }

end

/-! ### The history entries -/

/-- /repo/history.go:12-16 `hisItem`. -/
structure HItem where
  src : Slice
  version : Nat
  tmp : Slice

/-- The edit line and `opHistory` (/repo/history.go:23-31) sharing one memory.  `fd` and the file are left out. -/
structure St where
  b : Buf
  elems : Nat → HItem
  next : Nat
  order : List Nat
  ver : Nat
  current : Option Nat
  enable : Bool

namespace St

/-- `NewRuneBuffer` and `newOpHistory` (/repo/history.go:33-40). -/
def init : St :=
  { b := .init, elems := fun _ => ⟨⟨0, 0, 0, 0⟩, 0, ⟨0, 0, 0, 0⟩⟩, next := 0, order := [], ver := 0, current := none, enable := true }

/-- The memory after an allocation. -/
def alloc (s : St) (xs : List Rune) (cap : Nat) : St × Slice :=
  ({ s with b := { s.b with heap := (s.b.heap.alloc xs cap).1 } }, (s.b.heap.alloc xs cap).2)

/-- The runes of a slice. -/
def get (s : St) (t : Slice) : List Rune := s.b.heap.get t

/-- A store through an item pointer. -/
def setItem (s : St) (c : Nat) (it : HItem) : St := { s with elems := fun i => if i = c then it else s.elems i }

/-- /repo/history.go:326-330 `Push`. -/
def push (t : Slice) (s : St) : St :=
  let (s, c) := s.alloc (s.get t) t.len
  let (s, n) := s.alloc [] 0
  { s.setItem s.next ⟨c, 0, n⟩ with next := s.next + 1, order := s.order ++ [s.next], current := some s.next }

/-- /repo/history.go:97-101 `Compact`. -/
def compact (limit : Int) (s : St) : St := { s with order := Hist.compactList limit s.order }

/-- /repo/history.go:195-201 `showItem`: the slice itself, not a copy. -/
def showItem (s : St) (x : Nat) : Slice := if (s.elems x).version = s.ver then (s.elems x).tmp else (s.elems x).src

/-- `elem.Prev()` -/
def elemPrev (s : St) (x : Nat) : Option Nat := (Hist.backChain x s.order []).head?

/-- `elem.Next()` -/
def elemNext (s : St) (x : Nat) : Option Nat := (Hist.fwdChain x s.order).head?

/-- /repo/history.go:203-213 `Prev`. -/
def prev (s : St) : Option Slice × St :=
  match s.current with
  | none => (none, s)
  | some c =>
    match s.elemPrev c with
    | none => (none, s)
    | some p =>
      let (s', t) := s.alloc (s.get (s.showItem p)) (s.showItem p).len
      (some t, { s' with current := some p })

/-- /repo/history.go:215-226 `Next`. -/
def nextLine (s : St) : Option Slice × St :=
  match s.current with
  | none => (none, s)
  | some c =>
    match s.elemNext c with
    | none => (none, s)
    | some p =>
      let (s', t) := s.alloc (s.get (s.showItem p)) (s.showItem p).len
      (some t, { s' with current := some p })

/-- /repo/history.go:296-299 `Revert`. -/
def revert (s : St) : St := { s with ver := s.ver + 1, current := s.order.getLast? }

/-- /repo/history.go:42-45 `Reset`. -/
def resetHist (s : St) : St := { s with order := [], current := none }

variable (grow : Nat → Nat → Nat) (limit : Int)

/-- /repo/history.go:301-324 `Update`. -/
def update (t : Slice) (commit : Bool) (s : St) : St :=
  let (s, c) := s.alloc (s.get t) t.len
  match s.current with
  | none => (s.push c).compact limit
  | some x =>
    let r := { s.elems x with version := s.ver }
    let s :=
      if commit then s.setItem x { r with src := c }
      else
        -- append(r.Tmp[:0], s...)
        let (h, u) := s.b.heap.append grow { r.tmp with len := 0 } (s.get c)
        { s.setItem x { r with tmp := u } with b := { s.b with heap := h } }
    s.compact limit

/-- Second half of `New` (/repo/history.go:278-293). -/
def commit (t : Slice) (s : St) : R St := do
  let (t, s) ←
    if s.current ≠ s.order.getLast? then
      match s.current with
      | none => .error .panic
      | some c =>
        let (s', u) := s.alloc (s.get (s.elems c).tmp) (s.elems c).tmp.len
        .ok (u, { s' with current := s.order.getLast? })
    else .ok (t, s)
  let s := s.update grow limit t true
  let s := { s with ver := s.ver + 1 }
  let (s, n) := s.alloc [] 0
  .ok (s.push n)

/-- `Clean` of the last entry (/repo/history.go:18-21, 261-263, 270-273). -/
def cleanBack (x : Nat) (s : St) : St :=
  let (s, n) := s.alloc [] 0
  let (s, m) := s.alloc [] 0
  { { s with current := some x }.setItem x ⟨n, (s.elems x).version, m⟩ with ver := s.ver + 1 }

/-- The test at /repo/history.go:258-260. -/
def repeatsNewest (s : St) (x : Nat) (t : Slice) : Bool :=
  match s.elemPrev x with
  | some p => runesEqual (s.get t) (s.get (s.elems p).src)
  | none => false

/-- /repo/history.go:246-294 `New`. -/
def new (t : Slice) (s : St) : R St :=
  if s.enable = false then .ok s
  else
    let (s, t) := s.alloc (s.get t) t.len
    match s.order.getLast? with
    | none => commit grow limit t (if t.len = 0 then { s with current := none } else s)
    | some x =>
      if s.repeatsNewest x t then .ok (s.cleanBack x)
      else if t.len = 0 then .ok (s.cleanBack x)
      else commit grow limit t s

/-- The runes a command is given. -/
def argRunes : Cmd → List Rune
  | .insert ys => ys
  | .set ys => ys
  | _ => []

/-- An editing command on the line; the runes it is given are in a slice of their own with room for `cap` runes
(`WriteRune`, `WriteString`, a candidate of a completer, a line of a `Listener`). -/
def cmd (c : Cmd) (cap : Nat) (s : St) : R St := do
  let (s, t) := s.alloc (argRunes c) cap
  let b ← s.b.apply grow t c
  .ok { s with b := b }

/-- `o.buf.Reset()` (/repo/runebuf.go:542-547): returns a copy, keeps the array. -/
def resetBuf (s : St) : St × Slice :=
  let (s, t) := s.alloc s.b.text s.b.buf.len
  ({ s with b := { s.b with buf := { s.b.buf with len := 0 }, idx := 0 } }, t)

/-- Put a slice into the line (`o.buf.Set`, `o.buf.SetWithIdx`). -/
def setLine (t : Slice) (i : Nat) (s : St) : St := { s with b := { s.b with buf := t, idx := i } }

end St

/-- What `Operation` does with line and history. -/
inductive Act where
  /-- an editing command -/
  | cmd (c : Cmd) (cap : Nat)
  /-- /repo/operation.go:267-273 -/
  | up
  /-- /repo/operation.go:274-280 -/
  | down
  /-- /repo/operation.go:362 -/
  | note
  /-- /repo/operation.go:242-262: with `UniqueEditLine`, and with history saving -/
  | submit (unique save : Bool)
  /-- /repo/operation.go:288-296, 314-324: end of input or interrupt; a hint may be put behind the text first -/
  | drop (hint : List Rune)
  /-- /repo/operation.go:498-501 `SaveHistory` -/
  | save (xs : List Rune)
  /-- /repo/operation.go:493-495 `ResetHistory` -/
  | reset
  /-- `HistoryDisable` / `HistoryEnable` (/repo/readline.go:331-338) -/
  | enable (on : Bool)
  /-- /repo/search.go:78-88: a search stops at entry `x` -/
  | found (x i : Nat)
  /-- /repo/search.go:116-119: a search is given up, back to entry `x` -/
  | unfound (x : Nat)

/-- One step. -/
def Act.run (grow : Nat → Nat → Nat) (limit : Int) : Act → St → R St
  | .cmd c cap, s => s.cmd grow c cap
  | .up, s =>
    match s.prev with
    | (some t, s) => .ok (s.setLine t t.len)
    | (none, s) => .ok s
  | .down, s =>
    match s.nextLine with
    | (some t, s) => .ok (s.setLine t t.len)
    | (none, s) => .ok s
  | .note, s =>
    let (s, t) := s.alloc s.b.text s.b.buf.len
    .ok (s.update grow limit t false)
  | .submit unique keep, s => do
    let s ← s.cmd grow .toEnd 0
    let s ← if unique then .ok s else s.cmd grow (.insert [10]) 1
    let (s, t) := s.resetBuf
    let t := if unique then t else { t with len := t.len - 1 }
    if keep then s.new grow limit t else .ok s
  | .drop hint, s => do
    let s ← s.cmd grow .toEnd 0
    let s ← s.cmd grow (.insert hint) hint.length
    .ok s.resetBuf.1.revert
  | .save xs, s =>
    let (s, t) := s.alloc xs xs.length
    s.new grow limit t
  | .reset, s => .ok s.resetHist
  | .enable on, s => .ok { s with enable := on }
  | .found x i, s => .ok ({ s with current := some x }.setLine (s.showItem x) i)
  | .unfound x, s => .ok ({ s with current := some x }.setLine (s.showItem x) (s.showItem x).len)

/-- A sequence of steps. -/
def runActs (grow : Nat → Nat → Nat) (limit : Int) : List Act → St → R St
  | [], s => .ok s
  | a :: as, s => do
    let s ← a.run grow limit s
    runActs grow limit as s

end RL.Mem
