import Verif.Model.Runes
/-! Specifications for the text helpers (C01-C06). -/

namespace RL.Spec

/-- ASCII lower case. -/
def lower (r : Rune) : Rune := if 65 ≤ r ∧ r ≤ 90 then r + 32 else r

/-- Two runes count as the same character. -/
def Same (fold : Bool) (a b : Rune) : Prop := if fold then lower a = lower b else a = b

/-- Pointwise relation of two lists (in particular of equal length). -/
inductive All2 {α β} (P : α → β → Prop) : List α → List β → Prop
  | nil : All2 P [] []
  | cons {a b as bs} : P a b → All2 P as bs → All2 P (a :: as) (b :: bs)

/-- `sub` occurs in `r` at offset `i`. -/
def OccursAt (fold : Bool) (r sub : List Rune) (i : Nat) : Prop :=
  ∃ pre mid post, r = pre ++ mid ++ post ∧ pre.length = i ∧ All2 (Same fold) mid sub

/-- The smallest offset of an occurrence, or none. -/
def FirstOcc (fold : Bool) (r sub : List Rune) : Option Nat → Prop
  | some i => OccursAt fold r sub i ∧ ∀ j, j < i → ¬ OccursAt fold r sub j
  | none => ∀ j, ¬ OccursAt fold r sub j

/-- The largest offset of an occurrence, or none. -/
def LastOcc (fold : Bool) (r sub : List Rune) : Option Nat → Prop
  | some i => OccursAt fold r sub i ∧ ∀ j, i < j → ¬ OccursAt fold r sub j
  | none => ∀ j, ¬ OccursAt fold r sub j

/-- `p` is a common prefix of all lists. -/
def CommonPrefix (p : List Rune) (cs : List (List Rune)) : Prop := ∀ c ∈ cs, p <+: c

/-- `p` is the longest common prefix. -/
def LongestCommonPrefix (p : List Rune) (cs : List (List Rune)) : Prop :=
  CommonPrefix p cs ∧ ∀ q, CommonPrefix q cs → q <+: p

/-- What colour filtering keeps (grammar of prompts).  `Filtered s (some t)`: `t` is `s` without its colour
sequences; `Filtered s none`: the scan of `s` runs into an ESC that is the last rune. -/
inductive Filtered : List Rune → Option (List Rune) → Prop
  | nil : Filtered [] (some [])
  /-- an ordinary rune is kept -/
  | char {c s t} : c ≠ 27 → Filtered s t → Filtered (c :: s) (t.map (c :: ·))
  /-- an ESC that does not start "ESC [" is kept -/
  | esc {d s t} : d ≠ 91 → Filtered (d :: s) t → Filtered (27 :: d :: s) (t.map ((27 : Rune) :: ·))
  /-- "ESC [ body m" is removed, where `body` is the shortest possible -/
  | color {body s t} : (109 : Rune) ∉ body → Filtered s t → Filtered (27 :: 91 :: body ++ 109 :: s) t
  /-- an "ESC [" without any later "m" loses its ESC only -/
  | unterminated {s t} : (109 : Rune) ∉ s → Filtered (91 :: s) t → Filtered (27 :: 91 :: s) t
  /-- an ESC at the very end -/
  | dangling : Filtered [27] none

/-- Screen cells needed by a text, with an arbitrary cell width per rune. -/
def cells (w : Rune → Nat) (s : List Rune) : Nat := (s.map w).sum

/-- Rows of a wrapped text: `Rows w width start pieces`: every piece but the last is filled by its last rune, counted
from column `start` in the first row and 0 in the following ones, and the last one does not fill its row. -/
inductive Rows (w : Rune → Nat) (width : Int) : Int → List (List Rune) → Prop
  | last {start p} : (p ≠ [] → start + cells w p < width) → Rows w width start [p]
  | row {start p c rest} :
      (p ≠ [] → start + cells w p < width) → start + cells w (p ++ [c]) ≥ width →
      Rows w width 0 rest → Rows w width start ((p ++ [c]) :: rest)

end RL.Spec
