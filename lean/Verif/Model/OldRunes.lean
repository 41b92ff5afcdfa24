import Verif.Model.Runes
/-! Model of the deprecated package /repo/runes/runes.go, loop by loop with its indices.  `none` stands for -1. -/

namespace RL.Old

/-- Loop of `Equal` (/repo/runes/runes.go:15-19): `rem = len(a) - i`. -/
def equalFrom (a b : List Rune) : (rem i : Nat) → R Bool
  | 0, _ => .ok true
  | rem + 1, i => do
    let x ← getR a i
    let y ← getR b i
    if x ≠ y then .ok false else equalFrom a b rem (i + 1)

/-- /repo/runes/runes.go:11-21 `Equal`. -/
def equal (a b : List Rune) : R Bool := if a.length ≠ b.length then .ok false else equalFrom a b a.length 0

/-- The inner loops at /repo/runes/runes.go:27-32 and 47-52: `rem = len(sub) - j`. -/
def found (r sub : List Rune) (i : Nat) : (rem j : Nat) → R Bool
  | 0, _ => .ok true
  | rem + 1, j => do
    let x ← getR r (i + j)
    let y ← getR sub j
    if x ≠ y then .ok false else found r sub i rem (j + 1)

/-- Loop of `IndexAllBck` (/repo/runes/runes.go:25-36): the first argument is `i + 1`. -/
def bckFrom (r sub : List Rune) : Nat → R (Option Nat)
  | 0 => .ok none
  | i + 1 => do
    if ← found r sub i sub.length 0 then .ok (some i) else bckFrom r sub i

/-- /repo/runes/runes.go:24-38 `IndexAllBck`. -/
def indexAllBck (r sub : List Rune) : R (Option Nat) := bckFrom r sub ((r.length : Int) - sub.length + 1).toNat

/-- Loop of `IndexAll` (/repo/runes/runes.go:42-56): `rem = len(r) - i`. -/
def allFrom (r sub : List Rune) : (rem i : Nat) → R (Option Nat)
  | 0, _ => .ok none
  | rem + 1, i => do
    let tail ← sliceFrom r i
    if tail.length < sub.length then .ok none
    else if ← found r sub i sub.length 0 then .ok (some i) else allFrom r sub rem (i + 1)

/-- /repo/runes/runes.go:41-58 `IndexAll`. -/
def indexAll (r sub : List Rune) : R (Option Nat) := allFrom r sub r.length 0

/-- Loop of `Index` (/repo/runes/runes.go:61-65). -/
def indexFrom (r : Rune) (rs : List Rune) : (rem i : Nat) → R (Option Nat)
  | 0, _ => .ok none
  | rem + 1, i => do
    let x ← getR rs i
    if x = r then .ok (some i) else indexFrom r rs rem (i + 1)

/-- /repo/runes/runes.go:60-67 `Index`. -/
def index (r : Rune) (rs : List Rune) : R (Option Nat) := indexFrom r rs rs.length 0

/-- Loop of `ColorFilter` (/repo/runes/runes.go:71-81); the first argument bounds the number of rounds. -/
def colorFrom (r : List Rune) : (fuel pos : Nat) → R (List Rune)
  | 0, _ => .error .hang
  | fuel + 1, pos =>
    if pos < r.length then do
      let c ← getR r pos
      let esc ← (if c = 27 then do let d ← getR r (pos + 1); .ok (d = 91) else .ok false : R Bool)
      if esc then
        let tail ← sliceFrom r (pos + 2)
        match ← index 109 tail with
        | none => colorFrom r fuel (pos + 1)
        | some idx => colorFrom r fuel (pos + idx + 2 + 1)
      else do
        let t ← colorFrom r fuel (pos + 1)
        .ok (c :: t)
    else .ok []

/-- /repo/runes/runes.go:69-83 `ColorFilter`. -/
def colorFilter (r : List Rune) : R (List Rune) := colorFrom r (r.length + 1) 0

/-- /repo/runes/runes.go:99-107 `Width`. -/
def width (U : UTables) (r : Rune) : Nat := if U.zero r then 0 else if U.dbl r then 2 else 1

/-- /repo/runes/runes.go:109-114 `WidthAll`. -/
def widthAll (U : UTables) : List Rune → Nat
  | [] => 0
  | r :: rs => width U r + widthAll U rs

/-- /repo/runes/runes.go:116-118 `Backspace`. -/
def backspace (U : UTables) (r : List Rune) : List Nat := List.replicate (widthAll U r) 8

/-- /repo/runes/runes.go:126-131 `HasPrefix`. -/
def hasPrefix (r pre : List Rune) : R Bool :=
  if r.length < pre.length then .ok false else do
    let h ← sliceTo r pre.length
    equal h pre

/-- Inner loop of `Aggregate` (/repo/runes/runes.go:135-142) for a fixed `i`: `rem = len(candicate) - 1 - j`. -/
def aggInner (cs : List (List Rune)) (i : Nat) : (rem j : Nat) → R Bool
  | 0, _ => .ok true
  | rem + 1, j => do
    let a ← getR cs j
    let b ← getR cs (j + 1)
    if i ≥ a.length ∨ i ≥ b.length then .ok false
    else do
      let x ← getR a i
      let y ← getR b i
      if x ≠ y then .ok false else aggInner cs i rem (j + 1)

/-- Outer loop of `Aggregate` (/repo/runes/runes.go:134-144). -/
def aggOuter (cs : List (List Rune)) : (rem i size : Nat) → R Nat
  | 0, _, size => .ok size
  | rem + 1, i, size => do
    if ← aggInner cs i (cs.length - 1) 0 then aggOuter cs rem (i + 1) (i + 1) else .ok size

/-- /repo/runes/runes.go:133-155 `Aggregate`. -/
def aggregate (cs : List (List Rune)) : R (List Rune × Nat × List (List Rune)) := do
  let c0 ← getR cs 0
  let size ← aggOuter cs c0.length 0 0
  if size > 0 then do
    let same ← sliceTo c0 size
    let rest ← cs.mapM fun c => sliceFrom c size
    .ok (same, size, rest)
  else .ok ([], size, cs)

end RL.Old
