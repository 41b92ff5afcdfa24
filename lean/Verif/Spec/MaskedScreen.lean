import Verif.Spec.Transcript
import Verif.Spec.Stars
/-! What should be on the terminal after a session with masked lines (C102). -/

namespace RL.Spec

/-- The paragraph a call with a masked line should leave: the prompt and one mask rune for every rune of the line; the hints are no secret. -/
def secret (vis : List Rune) (m : Rune) (interruptPrompt eofPrompt : List Rune) : Event → List Rune
  | .line l => vis ++ masked m l
  | .interrupt l => vis ++ masked m l ++ interruptPrompt
  | .eof => vis ++ eofPrompt

/-- The paragraph a call with a masked line does leave: the hints are masked as well. -/
def secretHint (vis : List Rune) (m : Rune) (interruptPrompt eofPrompt : List Rune) : Event → List Rune
  | .line l => vis ++ masked m l
  | .interrupt l => vis ++ masked m l ++ masked m interruptPrompt
  | .eof => vis ++ masked m eofPrompt

/-- The kind of a result and the length of its line. -/
def outline : Event → Nat × Nat
  | .line l => (0, l.length)
  | .interrupt l => (1, l.length)
  | .eof => (2, 0)

end RL.Spec
