import Verif.Model.Go
/-! UTF-8 as defined by RFC 3629 (C60). -/

namespace RL.Spec

/-- A Unicode scalar value. -/
def Scalar (r : Rune) : Prop := 0 ≤ r ∧ r ≤ 0x10FFFF ∧ ¬ (0xD800 ≤ r ∧ r ≤ 0xDFFF)

/-- `Utf8 r bs`: `bs` is the UTF-8 encoding of the scalar value `r` (the shortest form). -/
inductive Utf8 : Int → List Nat → Prop
  | one (a : Nat) : a < 0x80 → Utf8 a [a]
  | two (a b : Nat) : a < 32 → b < 64 → 0x80 ≤ a * 64 + b → Utf8 (a * 64 + b : Nat) [0xC0 + a, 0x80 + b]
  | three (a b c : Nat) : a < 16 → b < 64 → c < 64 → 0x800 ≤ a * 4096 + b * 64 + c →
      Utf8 (a * 4096 + b * 64 + c : Nat) [0xE0 + a, 0x80 + b, 0x80 + c]
  | four (a b c d : Nat) : a < 8 → b < 64 → c < 64 → d < 64 → 0x10000 ≤ a * 262144 + b * 4096 + c * 64 + d →
      Utf8 (a * 262144 + b * 4096 + c * 64 + d : Nat) [0xF0 + a, 0x80 + b, 0x80 + c, 0x80 + d]

/-- The replacement character for runes that are not scalar values. -/
noncomputable def scalarize (r : Rune) : Rune := open Classical in if Scalar r then r else 0xFFFD

end RL.Spec
