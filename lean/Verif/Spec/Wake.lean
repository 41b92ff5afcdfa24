import Verif.Model.Operation
/-! Vocabulary of C40: the keys after which the terminal waits, and the ways in which nobody wakes it up. -/

namespace RL
namespace Op

/-- The vim commands that read one more key (/repo/vim.go:52,57,76,113). -/
def takesArgument (r : Rune) : Bool :=
  r == 114 || r == 100 || r == 102 || r == 70 || r == 116 || r == 84 || r == 99

/-- The keys that stall in vim's normal mode: Ctrl-J and Ctrl-D, and a key the terminal waits after given as the argument of a
command. -/
def Stalls (r next : Rune) : Prop := r = CharCtrlJ ∨ r = CharDelete ∨ (takesArgument r = true ∧ stopKey next = true)

/-- Nothing in the input stalls vim's normal mode. -/
def Calm (inp : List Rune) : Prop := ∀ pre r rest, inp = pre ++ r :: rest → ¬ Stalls r (rest.headD 0)

/-- The filter does not turn a key the terminal waits after into an ordinary key. -/
def KeepsStops (c : OCfg) : Prop := ∀ f, c.filter = some f → ∀ r r', f r = (r', true) → stopKey r = true → r' = 0 ∨ stopKey r' = true

end Op
end RL
