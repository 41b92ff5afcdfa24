import Verif.Model.Heap
import Verif.Proofs.Edit
/-! # What line and history should do if texts were values -/

namespace RL.Mem

/-- The configuration of the value model: no history file. -/
def hc (limit : Int) : HCfg := ⟨limit, false, false, false⟩

/-- The edit line and the history as values. -/
structure V where
  e : Ed
  h : Hist

/-- One step on values. -/
def Act.value (limit : Int) : Act → V → R V
  | .cmd c _, v => do
    let e ← c.core v.e
    .ok ⟨e, v.h⟩
  | .up, v =>
    match v.h.prev with
    | (some t, h) => .ok ⟨{ v.e with buf := t, idx := t.length }, h⟩
    | (none, h) => .ok ⟨v.e, h⟩
  | .down, v =>
    match v.h.nextLine with
    | (some t, h) => .ok ⟨{ v.e with buf := t, idx := t.length }, h⟩
    | (none, h) => .ok ⟨v.e, h⟩
  | .note, v => .ok ⟨v.e, v.h.update (hc limit) v.e.buf false⟩
  | .submit _ keep, v => do
    let h ← if keep then v.h.new (hc limit) v.e.buf else .ok v.h
    .ok ⟨{ v.e with buf := [], idx := 0 }, h⟩
  | .drop _, v => .ok ⟨{ v.e with buf := [], idx := 0 }, v.h.revert⟩
  | .save xs, v => do
    let h ← v.h.new (hc limit) xs
    .ok ⟨v.e, h⟩
  | .reset, v => .ok ⟨v.e, v.h.reset⟩
  | .enable on, v => .ok ⟨v.e, { v.h with enable := on }⟩
  | .found x i, v => .ok ⟨{ v.e with buf := v.h.showItem x, idx := i }, { v.h with current := some x }⟩
  | .unfound x, v =>
    .ok ⟨{ v.e with buf := v.h.showItem x, idx := (v.h.showItem x).length }, { v.h with current := some x }⟩

/-- A fresh instance. -/
def V.init : V := ⟨⟨[], 0, [], none⟩, { elems := fun _ => ⟨[], 0, []⟩, next := 0, order := [], ver := 0, current := none, enable := true, fd := .nil, disk := [] }⟩

/-- A sequence of steps on values. -/
def runValues (limit : Int) : List Act → V → R V
  | [], v => .ok v
  | a :: as, v => do
    let v ← a.value limit v
    runValues limit as v

/-- The steps considered: no search hit, no `Backup` and `Restore` (which the library does not use), and no command in a situation in
which it leaves the line (C07). -/
def Act.Plain (v : V) : Act → Prop
  | .cmd c _ => c ≠ .backup ∧ c ≠ .restore ∧ ¬ v.e.Trigger c
  | .found _ _ => False
  | .unfound _ => False
  | _ => True

/-- Every step of the sequence is of that kind. -/
def Follows (limit : Int) : List Act → V → Prop
  | [], _ => True
  | a :: as, v => a.Plain v ∧ ∀ v', a.value limit v = .ok v' → Follows limit as v'

/-- The command changes nothing before position `n` of the line (or only shortens the line). -/
def Behind (n : Nat) (e : Ed) : Cmd → Prop
  | .insert _ => n ≤ e.idx
  | .backspace => e.idx = 0 ∨ n < e.idx
  | .delete => e.idx = e.buf.length ∨ n ≤ e.idx
  | .deleteWord => e.idx = e.buf.length ∨ n ≤ e.idx
  | .replace _ => n ≤ e.idx
  | .killFront => e.idx = 0
  | .backEscapeWord => e.idx = 0
  | .transpose => e.buf.length < 2
  | _ => True

/-- The command puts the line into another array. -/
def Moves (e : Ed) : Cmd → Prop
  | .set _ => True
  | .yank => e.lastKill ≠ []
  | _ => False

/-- Commands after a `Backup` of `n` runes: each leaves the saved part of the line alone, or comes after the line has been put into
another array (`m`). -/
def Gentle (n : Nat) : Prop → List Cmd → Ed → Prop
  | _, [], _ => True
  | m, c :: cs, e => c ≠ .backup ∧ c ≠ .restore ∧ ¬ e.Trigger c ∧ (m ∨ Behind n e c) ∧
    ∀ e', c.core e = .ok e' → Gentle n (m ∨ Moves e c) cs e'

end RL.Mem
