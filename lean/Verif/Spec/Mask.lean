import Verif.Spec.Editor
import Verif.Spec.Runes
import Verif.Model.Operation
/-! When two masked lines must look the same on the screen (C18). -/

namespace RL.Spec

/-- Same cell width, and both or neither are the newline. -/
def LooksSame (U : UTables) (a b : Rune) : Prop := runeWidth U a = runeWidth U b ∧ (a = 10 ↔ b = 10)

/-- Two texts of the same shape. -/
def SameShape (U : UTables) (s t : List Rune) : Prop := All2 (LooksSame U) s t

/-- Two commands that differ only in the text they insert. -/
inductive SameKind (U : UTables) : Cmd → Cmd → Prop
  | insert {s t} : SameShape U s t → SameKind U (.insert s) (.insert t)
  | set {s t} : SameShape U s t → SameKind U (.set s) (.set t)
  | backspace : SameKind U .backspace .backspace
  | delete : SameKind U .delete .delete
  | left : SameKind U .left .left
  | right : SameKind U .right .right
  | home : SameKind U .home .home
  | toEnd : SameKind U .toEnd .toEnd
  | kill : SameKind U .kill .kill
  | killFront : SameKind U .killFront .killFront
  | erase : SameKind U .erase .erase
  | yank : SameKind U .yank .yank

/-! ### Whole sessions (C97) -/

/-- Two runes that look the same and that the word commands treat alike. -/
def LooksLike (U : UTables) (a b : Rune) : Prop := LooksSame U a b ∧ isWordBreak a = isWordBreak b

/-- Two texts with the same shape and the same words. -/
def Like (U : UTables) (s t : List Rune) : Prop := All2 (LooksLike U) s t

/-- A key that is inserted into the line. -/
def TypedKey (k : Rune) : Prop := 32 ≤ k ∧ k ≠ 127

/-- Two keys that differ at most in the rune that is typed. -/
def SameKey (U : UTables) (k k' : Rune) : Prop := k = k' ∨ (TypedKey k ∧ TypedKey k' ∧ LooksLike U k k')

/-- Two results that differ only in the text. -/
inductive SameEvent (U : UTables) : Event → Event → Prop
  | line {s t} : Like U s t → SameEvent U (.line s) (.line t)
  | eof : SameEvent U .eof .eof
  | interrupt {s t} : Like U s t → SameEvent U (.interrupt s) (.interrupt t)

end RL.Spec
