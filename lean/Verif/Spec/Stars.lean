import Verif.Spec.Screen
/-! What a masked line looks like (C100). -/

namespace RL.Spec

/-- What is to be seen of a line masked with `m`: one `m` for every rune.  The rune 0, which is what `GenPasswordConfig` leaves in the
configuration, cannot be seen. -/
def masked (m : Rune) (s : List Rune) : List Rune := if m = 0 then [] else s.map fun _ => m

/-- A terminal that ignores the character NUL, as terminals do. -/
def Term.runN (t : Term) (cs : List Rune) : Term := t.run (cs.filter (· ≠ 0))

end RL.Spec
