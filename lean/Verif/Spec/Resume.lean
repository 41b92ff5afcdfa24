/-! # A process that is stopped and continued

A stop is a pair of times: the process does not run between the two.  A process with lag `d` receives a tick at least every `d` ms while it runs. -/

namespace RL.Spec.Resume

/-- No tick is received while the process is stopped. -/
def Awake (stops : List (Nat × Nat)) (n : Nat) : Prop := ∀ s ∈ stops, n ≤ s.1 ∨ s.2 ≤ n

/-- The tick after the one at `p` may be received at `q`: not before `p`, and `d` ms later at the latest, not counting a stop in between. -/
def Next (d : Nat) (stops : List (Nat × Nat)) (p q : Nat) : Prop :=
  p ≤ q ∧ Awake stops q ∧ (q ≤ p + d ∨ ∃ s ∈ stops, p ≤ s.1 ∧ s.1 ≤ s.2 ∧ s.2 ≤ q ∧ q ≤ p + (s.2 - s.1) + d)

/-- The ticks from the time `t` on. -/
def Ticks (d : Nat) (stops : List (Nat × Nat)) : Nat → List Nat → Prop
  | _, [] => True
  | t, n :: ns => Next d stops t n ∧ Ticks d stops n ns

end RL.Spec.Resume
