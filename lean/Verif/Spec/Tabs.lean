import Verif.Model.Go
/-! What a line with tabs looks like (C98). -/

namespace RL.Spec

/-- The text with `n` blanks for every tab. -/
def detab (n : Nat) (s : List Rune) : List Rune := s.flatMap fun c => if c = 9 then List.replicate n 32 else [c]

end RL.Spec
