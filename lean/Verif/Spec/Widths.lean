import Verif.Model.Widths
/-! Windows and configurations in words of their own: the width a window has in the end, and which configuration is current. -/

namespace RL.Spec
open Wid

/-- The width of window `j` in the end, when it is `w` at first. -/
def lastWidth (j : Nat) (w : Int) : List Act → Int
  | [] => w
  | .resize k v :: as => lastWidth j (if k = j then v else w) as
  | _ :: as => lastWidth j w as

/-- The current configuration `c` and the one to return to after a password. -/
def desk : Nat × Option Nat → Act → Nat × Option Nat
  | p, .resize _ _ => p
  | (_, b), .setConfig c => (c, b)
  | (d, _), .enter c => (c, some d)
  | (d, none), .leave => (d, none)
  | (_, some b), .leave => (b, none)

/-- Every change of the width happens while configuration `c` is current. -/
def Watched (c : Nat) : Nat × Option Nat → List Act → Prop
  | _, [] => True
  | p, .resize j w :: as => p.1 = c ∧ Watched c (desk p (.resize j w)) as
  | p, a :: as => Watched c (desk p a) as

end RL.Spec
