import Verif.Spec.Book
import Verif.Spec.Shelf
import Verif.Spec.Utf8
/-! Specification of a program that reads commands of several lines (C92). -/

namespace RL.Spec

/-- The white space of Unicode. -/
def Blank (c : Rune) : Prop :=
  c ∈ [9, 10, 11, 12, 13, 32, 0x85, 0xA0, 0x1680, 0x2000, 0x2001, 0x2002, 0x2003, 0x2004, 0x2005, 0x2006, 0x2007, 0x2008, 0x2009, 0x200A, 0x2028,
    0x2029, 0x202F, 0x205F, 0x3000]

/-- `t` is `s` without the blanks around it. -/
def Stripped (s t : List Rune) : Prop :=
  ∃ a b, s = a ++ t ++ b ∧ (∀ c ∈ a, Blank c) ∧ (∀ c ∈ b, Blank c) ∧ (∀ c, t.head? = some c → ¬ Blank c) ∧ (∀ c, t.getLast? = some c → ¬ Blank c)

/-- The line ends a command: it ends with a semicolon. -/
def Final (t : List Rune) : Prop := t.getLast? = some 59

/-- The lines of a command with a blank between any two. -/
def joined (ts : List (List Rune)) : List Rune := List.intercalate [32] ts

/-- The lines entered, as strings, without the blanks around them and without empty ones; up to the end of the input. -/
inductive Entered : List Event → List (List Rune) → Prop
  | nil : Entered [] []
  | stop {e} : (∀ l, e ≠ .line l) → Entered [e] []
  | blank {l es ts} : Stripped (l.map scalarize) [] → Entered es ts → Entered (.line l :: es) ts
  | text {l t es ts} : Stripped (l.map scalarize) t → t ≠ [] → Entered es ts → Entered (.line l :: es) (t :: ts)

/-- The lines `ts` make the commands `cs`, and the last ones, `rest`, do not make a command yet. -/
def Commands (ts : List (List Rune)) (cs rest : List (List Rune)) : Prop :=
  ∃ gs, ts = List.flatten gs ++ rest ∧ cs = gs.map joined ∧ (∀ g ∈ gs, ∃ init last, g = init ++ [last] ∧ Final last ∧ ∀ t ∈ init, ¬ Final t) ∧
    ∀ t ∈ rest, ¬ Final t

/-- Without repetitions of the one before. -/
def unrepeated : Option (List Rune) → List (List Rune) → List (List Rune)
  | _, [] => []
  | prev, c :: cs => if prev = some c then unrepeated prev cs else c :: unrepeated (some c) cs

/-- A command is recorded in the notebook, which then is open at the new last page. -/
def Book.archived (limit : Int) (c : List Rune) (b : Book) : Book :=
  Book.filled (if b.stored.getLast? = some c then b.stored else keepNewest limit (b.stored ++ [c])) b.line

/-- A conversation: the lines of the command so far, the keys, the notebook, what the calls of `Readline` return, the commands, and the
lines and the notebook afterwards.  The last line of each command is entered on the last page. -/
inductive Dialogue (limit : Int) : List (List Rune) → List Rune → Book → List Event → List (List Rune) → List (List Rune) → Book → Prop
  | wait {pend b} : Dialogue limit pend [] b [] [] pend b
  | stop {pend ks r b b1 b2 e} : BookKeys limit ks b b1 → BookEnd false limit r b1 e b2 → (∀ l, e ≠ .line l) →
      Dialogue limit pend (ks ++ [r]) b [e] [] pend b2
  | blank {pend ks r keys b b1 b2 b3 l es cs pend'} : BookKeys limit ks b b1 → BookEnd false limit r b1 (.line l) b2 →
      Stripped (l.map scalarize) [] → Dialogue limit pend keys b2 es cs pend' b3 →
      Dialogue limit pend (ks ++ r :: keys) b (.line l :: es) cs pend' b3
  | more {pend ks r keys b b1 b2 b3 l t es cs pend'} : BookKeys limit ks b b1 → BookEnd false limit r b1 (.line l) b2 →
      Stripped (l.map scalarize) t → t ≠ [] → ¬ Final t → Dialogue limit (pend ++ [t]) keys b2 es cs pend' b3 →
      Dialogue limit pend (ks ++ r :: keys) b (.line l :: es) cs pend' b3
  | command {pend ks r keys b b1 b2 b3 l t es cs pend'} : BookKeys limit ks b b1 → BookEnd false limit r b1 (.line l) b2 →
      Stripped (l.map scalarize) t → Final t → b2.pages.length ≤ b2.pos + 1 →
      Dialogue limit [] keys (b2.archived limit (joined (pend ++ [t]))) es cs pend' b3 →
      Dialogue limit pend (ks ++ r :: keys) b (.line l :: es) (joined (pend ++ [t]) :: cs) pend' b3

end RL.Spec
