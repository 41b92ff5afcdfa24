import Verif.Spec.Transcript
import Verif.Spec.Screen
/-! Sessions in which Ctrl-L clears the screen (C101). -/

namespace RL.Spec

/-- The next key is Ctrl-L, and vim's normal mode (in which it is no command) is off. -/
def clears (o : Op) : Bool := o.inp.head? == some 12 && !o.vimNormal

/-- Whether the screen is cleared in the course of a call (of `fuel` iterations at most). -/
def clearsIn (c : OCfg) : Nat → Op → Bool
  | 0, _ => false
  | n + 1, o =>
    match o.events, o.iter c with
    | [], .ok o1 => clears o || clearsIn c n o1
    | _, _ => false

/-- For `n` calls, whether the screen is cleared in the course of each. -/
def clearings (c : OCfg) (fuel : Nat) : Nat → Op → R (List Bool)
  | 0, _ => .ok []
  | n + 1, o => do
    let o1 ← o.refreshNil c
    let (_, o2) ← o.readline c fuel
    let bs ← clearings c fuel n o2
    .ok (clearsIn c fuel o1.kickRead :: bs)

/-- The states a call goes through while it has no result, and whether the screen has been cleared since the call began. -/
inductive DuringL (c : OCfg) : Op → Op → Bool → Prop
  | here (o) : DuringL c o o false
  | key {o o1 o2 b} : DuringL c o o1 b → o1.iter c = .ok o2 → o2.events = [] → DuringL c o o2 (b || clears o1)

/-- What is on the screen: whether it has been cleared (otherwise what stood there before the session is still above), and the paragraphs. -/
structure Page where
  cleared : Bool
  ps : List (List Rune)

/-- Clearing the screen. -/
def Page.wipe (p : Page) (b : Bool) : Page := if b then ⟨true, []⟩ else p

/-- A call: the screen is cleared or not, then a paragraph stands below. -/
def Page.turn (p : Page) (x : Bool × List Rune) : Page := ⟨(p.wipe x.1).cleared, (p.wipe x.1).ps ++ [x.2]⟩

/-- The top row of a terminal. -/
def Term.top (t : Term) : Term := { t with row := 0 }

/-- Where the page begins: at the top of the screen, or where the session began. -/
def Page.origin (p : Page) (t0 : Term) : Term := if p.cleared then t0.top else t0

end RL.Spec
