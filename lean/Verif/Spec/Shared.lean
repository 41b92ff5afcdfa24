import Verif.Spec.History
import Verif.Model.Shared
/-! Specification of several sessions on one history file (C84). -/

namespace RL.Spec

/-- The lines of the file; the entries of each session; the sessions whose lines still reach the file. -/
structure Shared where
  lines : List (List Rune)
  mem : Nat → Option (List (List Rune))
  on : Nat → Bool

/-- What recording `t` adds to the entries `es`. -/
def news (es : List (List Rune)) (t : List Rune) : List (List Rune) := if t = [] ∨ es.getLast? = some t then [] else [t]

/-- Sessions begin, record lines and end; beginning is not interrupted.  The last index says who recorded which lines. -/
inductive SharedStep (limit : Int) : List Share.Step → Shared → Shared → List (Nat × List Rune) → Prop
  /-- a session begins: it has the lines of the file -/
  | join {i s} : s.mem i = none → (s.lines.length : Int) ≤ limit →
      SharedStep limit [.open i] s { s with mem := Share.upd s.mem i (some s.lines), on := Share.upd s.on i true } []
  /-- the file is too long: only its newest lines are kept, and the lines of all the other sessions do not reach it any more -/
  | trim {i n s} : s.mem i = none → limit < (s.lines.length : Int) → (fileOf s.lines).length ≤ n →
      SharedStep limit [.open i, .tmp i, .write i n, .rename i] s
        { lines := keepNewest limit s.lines, mem := Share.upd s.mem i (some (keepNewest limit s.lines)), on := fun j => j = i } []
  /-- a session records a line -/
  | say {i t s es} : s.mem i = some es → t = [] ∨ Storable t →
      SharedStep limit [.save i t] s
        { s with lines := if s.on i then s.lines ++ news es t else s.lines, mem := Share.upd s.mem i (some (keepNewest limit (record es t))) }
        ((news es t).map fun t => (i, t))
  /-- a session ends -/
  | leave {i s} : SharedStep limit [.close i] s { s with mem := Share.upd s.mem i none, on := Share.upd s.on i false } []

inductive SharedRun (limit : Int) : List Share.Step → Shared → Shared → List (Nat × List Rune) → Prop
  | nil {s} : SharedRun limit [] s s []
  | cons {a as s s' s'' l l'} : SharedStep limit a s s' l → SharedRun limit as s' s'' l' → SharedRun limit (a ++ as) s s'' (l ++ l')

/-- Nobody has begun. -/
def Shared.start (lines : List (List Rune)) : Shared := ⟨lines, fun _ => none, fun _ => false⟩

/-- Sessions that do anything at any moment, except that no two of them replace the file at the same time. -/
inductive OneWriter (cfg : HCfg) : List Share.Step → Share.Sys → Prop
  | nil {s} : OneWriter cfg [] s
  | cons {a as s} : (∀ i, a = .tmp i → ∀ j k left, (s.sess j).phase ≠ .writing k left) →
      (∀ s', Share.step cfg a s = .ok s' → OneWriter cfg as s') → OneWriter cfg (a :: as) s

/-- A history file: whole lines, each of them allowed by `P`. -/
def Whole (P : List Rune → Prop) (d : List Nat) : Prop := ∃ es, d = fileOf es ∧ ∀ e ∈ es, Storable e ∧ P e

end RL.Spec
