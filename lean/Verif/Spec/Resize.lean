import Verif.Spec.Screen
/-! Windows that are resized (C79). -/

namespace RL.Spec

/-- The prompt can be drawn in a window of width `w`: the width is positive and the cells of the prompt do not fill whole rows. -/
def Room (cells : Nat) (w : Int) : Prop := 0 < w ∧ (0 < cells → ¬ w ∣ (cells : Int))

instance {cells w} : Decidable (Room cells w) := by unfold Room; infer_instance

/-- A terminal that does not rewrap its rows when the window gets another width: every cell stays where it is; the cursor
stays in its row. -/
def Term.crop (w : Nat) (t : Term) : Term := { t with w := w, col := min t.col (w - 1), pend := false }

end RL.Spec
