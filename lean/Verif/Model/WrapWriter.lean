import Verif.Model.Operation
/-!
# /repo/operation.go:42-67 : writing to the terminal while a line is edited

`Stdout()` and `Stderr()` of an instance (/repo/readline.go:224-232) are `wrapWriter`s.  The write is one step: it does not overlap
with an iteration of the editing loop.  (The code takes the lock of the buffer only for erasing, writing and redrawing; the fields of the search
and of the menu are read without a lock.)  The target is the terminal the line is shown on.
-/

namespace RL.Op

/-- /repo/operation.go:48-67 `wrapWriter.Write`.  `text` is what the target shows of the bytes and `res` what its `Write`
returns. -/
def wrapWrite {ρ : Type} (c : OCfg) (text : List Tok) (res : ρ) (o : Op) : R (ρ × Op) :=
  if o.isReading = false then .ok (res, { o with rb := o.rb.write text })
  else do
    -- :57-59, `Refresh` with a closure that writes and does not touch the line
    let rb ←
      if o.rb.interactive = false then .ok (o.rb.write text)
      else do
        let r ← o.rb.clean c.U
        (r.write text).print c.U c.d
    let o := { o with rb := rb }
    -- :61-63
    let o ← if o.search.inMode then do
        let (s, rb) ← o.search.searchRefresh c.U o.rb (-1)
        .ok { o with search := s, rb := rb }
      else .ok o
    -- :64-66
    let o ← if o.comp.inComplete then o.completeRefresh c else .ok o
    .ok (res, o)

end RL.Op
