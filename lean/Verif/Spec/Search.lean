import Verif.Spec.History
import Verif.Model.RuneBuf
/-! Specification of the incremental search as the user sees it (C66). -/

namespace RL.Spec

/-- What a running search shows: the search text, its direction, whether the banner says "failing", the line, the cursor,
the marked part of the line and the history element. -/
structure SView where
  text : List Rune
  fwd : Bool
  failing : Bool
  line : List Rune
  cursor : Nat
  mark : Nat × Nat
  pos : Option Nat
deriving DecidableEq

/-- The elements that are searched, nearest first: the current one `c`, then the newer or the older ones. -/
def Looked (order : List Nat) (fwd : Bool) (c : Nat) (cs : List Nat) : Prop :=
  ∃ older newer, order = older ++ c :: newer ∧ cs = c :: (if fwd then newer else older.reverse)

/-- The search text occurs at offset `j` of what element `e` shows, on the right side of the cursor if `e` is the element
already shown.  `fresh`: the search text has just been changed, so the match under the cursor may grow. -/
def Hit (fold : Bool) (item : Nat → List Rune) (v : SView) (fresh : Bool) (c e j : Nat) : Prop :=
  OccursAt fold (item e) v.text j ∧
  (e = c →
    if v.fwd then (if fresh then v.cursor - v.text.length else v.cursor) ≤ j
    else j + v.text.length ≤ (if fresh then v.cursor + v.text.length else v.cursor))

/-- One search.  Nothing to look for: nothing moves.  Otherwise the nearest element with a hit is shown, with the cursor
before the last hit (searching back) or after the first hit (searching forward); if there is none, only the banner
changes. -/
inductive Sought (fold : Bool) (item : Nat → List Rune) (order : List Nat) (fresh : Bool) (v : SView) : SView → Prop
  | empty : v.text = [] → Sought fold item order fresh v { v with failing := false }
  | found {c cs e j} : v.text ≠ [] → v.pos = some c → Looked order v.fwd c cs →
      FirstWith (fun e => ∃ j, Hit fold item v fresh c e j) cs e → Hit fold item v fresh c e j →
      (∀ k, Hit fold item v fresh c e k → if v.fwd then j ≤ k else k ≤ j) →
      Sought fold item order fresh v
        { v with failing := false, line := item e, cursor := if v.fwd then j + v.text.length else j,
                 mark := (j, j + v.text.length), pos := some e }
  | none {c cs} : v.text ≠ [] → v.pos = some c → Looked order v.fwd c cs →
      (∀ e ∈ cs, ∀ j, ¬ Hit fold item v fresh c e j) → Sought fold item order fresh v { v with failing := true }

/-- One key during a search: 18 is Ctrl-R, 19 Ctrl-S, 127 and 8 are backspace, from 32 on text. -/
inductive SearchStep (fold : Bool) (item : Nat → List Rune) (order : List Nat) : Rune → SView → SView → Prop
  | text {r v v'} : 32 ≤ r → r ≠ 127 → Sought fold item order true { v with text := v.text ++ [r] } v' →
      SearchStep fold item order r v v'
  | back {r v v'} : r = 127 ∨ r = 8 → v.text ≠ [] → Sought fold item order true { v with text := v.text.dropLast } v' →
      SearchStep fold item order r v v'
  | backNone {r v} : r = 127 ∨ r = 8 → v.text = [] → SearchStep fold item order r v v
  | again {r v v'} : r = 18 ∨ r = 19 → Sought fold item order false { v with fwd := r == 19 } v' →
      SearchStep fold item order r v v'

/-- A sequence of keys. -/
inductive SearchSteps (fold : Bool) (item : Nat → List Rune) (order : List Nat) : List Rune → SView → SView → Prop
  | nil {v} : SearchSteps fold item order [] v v
  | cons {r rs v v' v''} : SearchStep fold item order r v v' → SearchSteps fold item order rs v' v'' →
      SearchSteps fold item order (r :: rs) v v''

/-- The search text after some keys. -/
def typed (text : List Rune) : List Rune → List Rune
  | [] => text
  | r :: rs => typed (if 32 ≤ r ∧ r ≠ 127 then text ++ [r] else if r = 127 ∨ r = 8 then text.dropLast else text) rs

/-- The line below the edit line during a search, for example "failing bck-i-search: text_"; then the cursor goes back up
`n` rows and to column `x`. -/
def searchBanner (failing fwd : Bool) (text : List Rune) (n : Nat) (x : Int) : List Tok :=
  List.replicate n (.ch 10) ++ [.eraseBelow] ++
  ((if failing then str "failing " else []) ++ str (if fwd then "fwd-i-search: " else "bck-i-search: ") ++ text).map Tok.ch ++
  [.sgr (str "4"), .ch 32, .sgr (str "0"), .cr, .up n] ++ (if x > 0 then [.right x] else [])

/-- The marked part of the line, underlined, after moving there. -/
def underlined (mv : List Tok) (line : List Rune) (i j : Nat) : List Tok :=
  mv ++ [.sgr (str "4")] ++ ((line.take j).drop i).map Tok.ch ++ [.sgr (str "0")]

end RL.Spec
