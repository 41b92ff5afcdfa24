import Verif.Model.Go
/-! # /repo/operation.go : `SetTitle` -/

namespace RL

/-- /repo/operation.go:426-428 `SetTitle`: what it writes.  The title is a text, not arbitrary bytes. -/
def setTitle (t : List Rune) : List Rune := [27, 91, 50, 59] ++ t ++ [7]

end RL
