import Verif.Model.Operation
/-!
# Two sessions that differ in what is displayed only

Vocabulary of C99.  The display: prompt, width and kind of the window, whether the terminal is interactive, the mask, the `Painter`, the
Unicode tables (used for widths and for padding only), the text written so far.
-/

namespace RL

/-- The keys that move by rows and columns in the menu of candidates: Ctrl-A, Ctrl-E, Ctrl-N, Ctrl-P. -/
def ColKey (r : Rune) : Prop := r = 1 ∨ r = 5 ∨ r = 14 ∨ r = 16

instance (r : Rune) : Decidable (ColKey r) := inferInstanceAs (Decidable (_ ∨ _))

/-- The key that `FuncFilterInputRune` makes of a key. -/
def OCfg.passed (c : OCfg) (k : Rune) : Rune :=
  match c.filter with
  | none => k
  | some f => (f k).1

/-- The same configuration for another display. -/
def OCfg.on (c : OCfg) (U : UTables) (d : DCfg) : OCfg := { c with U := U, d := d }

/-- Two states that differ in the display only: in `rb` the prompt, the width, `interactive`, `hadClean` and the text written; in the search
and in the completion the width of the window, and the number of columns of the list. -/
structure Op.SameButDisplay (o o' : Op) : Prop where
  ed : o'.rb.toEd = o.rb.toEd
  search : o'.search = { o.search with width := o'.search.width }
  comp : o'.comp = { o.comp with width := o'.comp.width, colNum := o'.comp.colNum }
  rest : o' = { o with rb := o'.rb, search := o'.search, comp := o'.comp }

/-- Without a completer the list is closed; with one, no key of `ks` (nor the end of input, read as key 0) becomes a key that moves by rows
or columns. -/
def Op.RowFree (c : OCfg) (o : Op) (ks : List Rune) : Prop :=
  (c.auto = none → o.comp.inSelect = false ∧ o.comp.inComplete = false) ∧
    (c.auto ≠ none → ∀ k ∈ 0 :: ks, ¬ ColKey (c.passed k))

end RL
