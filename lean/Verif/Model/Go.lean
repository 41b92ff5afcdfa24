/-!
# Go run-time conventions used by the model

No file of /repo is modelled here; these are the Go language rules the model relies on.
-/

namespace RL

/-- Go `rune` (`int32`).  The library uses negative runes for Meta keys
(/repo/utils.go:51-57), so runes are integers. -/
macro "Rune" : term => `(Int)

/-- Ways in which a Go computation fails to produce a value. -/
inductive Fault where
  /-- a run-time panic: index/slice bounds, nil dereference, division by zero, negative Repeat count -/
  | panic
  /-- an endless loop -/
  | hang
  /-- a channel operation nobody will ever complete -/
  | block
deriving DecidableEq, Repr

/-- Result of a Go computation. -/
abbrev R := Except Fault

instance {α} [DecidableEq α] : DecidableEq (Except Fault α)
  | .ok a, .ok b => if h : a = b then .isTrue (by rw [h]) else .isFalse (by simpa using h)
  | .error a, .error b => if h : a = b then .isTrue (by rw [h]) else .isFalse (by simpa using h)
  | .ok _, .error _ => .isFalse (by simp)
  | .error _, .ok _ => .isFalse (by simp)

@[simp] theorem R.bind_ok {α β} (a : α) (f : α → R β) : (Except.ok a : R α) >>= f = f a := rfl
@[simp] theorem R.bind_error {α β} (e : Fault) (f : α → R β) :
    (Except.error e : R α) >>= f = Except.error e := rfl
@[simp] theorem R.pure_eq {α} (a : α) : (pure a : R α) = Except.ok a := rfl
@[simp] theorem R.map_ok {α β} (a : α) (f : α → β) : f <$> (Except.ok a : R α) = Except.ok (f a) := rfl
@[simp] theorem R.map_error {α β} (e : Fault) (f : α → β) :
    f <$> (Except.error e : R α) = Except.error e := rfl

/-- Go `s[i]`. -/
def getR {α} (l : List α) (i : Nat) : R α :=
  match l[i]? with
  | some a => .ok a
  | none => .error .panic

/-- Go `s[lo:]` (upper bound is `len(s)`: out of range panics whatever the capacity). -/
def sliceFrom {α} (l : List α) (lo : Nat) : R (List α) :=
  if lo ≤ l.length then .ok (l.drop lo) else .error .panic

/-- Go `s[:hi]`.  Simplification: the bound is the length; Go allows `hi` up to the capacity.
The difference is only observable when the cursor is beyond the end of the line (see C07);
`Verif.Model.Heap` models capacities exactly. -/
def sliceTo {α} (l : List α) (hi : Nat) : R (List α) :=
  if hi ≤ l.length then .ok (l.take hi) else .error .panic

/-- Go `s[lo:hi]` (same simplification as `sliceTo`). -/
def slice {α} (l : List α) (lo hi : Nat) : R (List α) :=
  if lo ≤ hi ∧ hi ≤ l.length then .ok ((l.take hi).drop lo) else .error .panic

/-- Go `bytes.Repeat` / `strings.Repeat`: a negative count panics. -/
def repeatR {α} (x : List α) (n : Int) : R (List α) :=
  if n < 0 then .error .panic else .ok (List.replicate n.toNat x).flatten

/-- Go integer division `a / b`: truncated, panics on zero. -/
def divR (a b : Int) : R Int := if b = 0 then .error .panic else .ok (a.tdiv b)

/-- Go integer remainder `a % b`: sign of the dividend, panics on zero. -/
def modR (a b : Int) : R Int := if b = 0 then .error .panic else .ok (a.tmod b)

theorem getR_ok {α} {l : List α} {i : Nat} (h : i < l.length) : getR l i = .ok l[i] := by
  simp [getR, h]

theorem getR_panic {α} {l : List α} {i : Nat} (h : l.length ≤ i) : getR l i = .error .panic := by
  simp [getR, h]

theorem sliceFrom_ok {α} {l : List α} {i : Nat} (h : i ≤ l.length) : sliceFrom l i = .ok (l.drop i) := by
  simp [sliceFrom, h]

theorem sliceTo_ok {α} {l : List α} {i : Nat} (h : i ≤ l.length) : sliceTo l i = .ok (l.take i) := by
  simp [sliceTo, h]

theorem slice_ok {α} {l : List α} {i j : Nat} (h : i ≤ j) (h' : j ≤ l.length) :
    slice l i j = .ok ((l.take j).drop i) := by
  simp [slice, h, h']

end RL
