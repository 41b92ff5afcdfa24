import Verif.Spec.Session
/-! Specification of the loops programs write around `Readline` (C85). -/

namespace RL.Spec

/-- The user wants to leave: end of input, or Ctrl-C on an empty line. -/
def Leaves (e : Event) : Bool := e = .eof || e = .interrupt []

/-- The lines enteredLines. -/
def enteredLines (es : List Event) : List (List Rune) := es.filterMap fun | .line l => some l | _ => none

/-- Up to the event with property `p`. -/
def until_ (p : Event → Bool) (es : List Event) : List Event := es.takeWhile fun e => !p e

end RL.Spec
