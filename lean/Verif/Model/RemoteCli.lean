import Verif.Model.RemoteRead
import Verif.Model.Tty
/-!
# The client of a remote terminal

/repo/remote.go:287-416 `RemoteCli`.  Two goroutines use the connection: one copies a source (standard input) to it, the other
handles the messages of the server.  A signal handler reports the width of the window in between.  Frames do not mix
(`Verif.Model.RemoteWrite`), so what the client sends is a list of messages.

`io.Copy` of Go's standard library is modelled on results of `Read`; its buffer has 32768 bytes, which bounds the length of
each of them.
-/

namespace RL.Cli

/-- One result of `source.Read`: bytes, the end of input, another error. -/
inductive Src where
  | data (b : List Nat)
  | eof
  | err
deriving DecidableEq, Repr

/-- `io.Copy(r, source)` with `r.Write` of /repo/remote.go:337-343, on a connection that takes `up` more frames and then
fails.  The frames written, the number of bytes copied, what the connection still takes, and what is left of the source.
`Write` reports `len(b)` even when the connection failed, so these bytes are counted too.  The end of the list is the end of input. -/
def copy : (up : Nat) → List Src → List Msg × Nat × Nat × List Src
  | up, [] => ([], 0, up, [])
  | up, .eof :: s => ([], 0, up, s)
  | up, .err :: s => ([], 0, up, s)
  | up, .data b :: s =>
    if b = [] then copy up s
    else if up = 0 then ([], b.length, 0, s)
    else let (m, n, up, s) := copy (up - 1) s; (⟨T_DATA, b⟩ :: m, b.length + n, up, s)

/-- /repo/remote.go:400-408: copy until nothing was copied, then `Close` (:414-416).  The messages sent, and what is left of the source.
Every turn that copies something takes at least one result of `Read`, so as many turns as there are results are enough. -/
def pump : (fuel : Nat) → (up : Nat) → List Src → R (List Msg × List Src)
  | 0, _, _ => .error .hang
  | fuel + 1, up, s =>
    let (m, n, up, s) := copy up s
    if n = 0 then .ok (m ++ (if up = 0 then [] else [⟨T_EOF, []⟩]), s)
    else do
      let (ms, s) ← pump fuel up s
      .ok (m ++ ms, s)

/-- What messages of the server change: the settings of the client's terminal and what was written to standard output. -/
structure St where
  tty : Tty.St
  out : List Nat

/-- /repo/remote.go:384-391 -/
def St.got (p : Tty.Plat) (s : St) (m : Msg) : St :=
  if m.typ = T_ERAW then { s with tty := s.tty.act p .exit }
  else if m.typ = T_RAW then { s with tty := s.tty.act p .enter }
  else if m.typ = T_DATA then { s with out := s.out ++ m.data }
  else s

/-- /repo/remote.go:377-393 `readLoop` -/
def St.readLoop (p : Tty.Plat) : (fuel : Nat) → List Nat → St → R St
  | 0, _, _ => .error .hang
  | n + 1, w, s => do
    match ← readMessage w with
    | .error _ => .ok s
    | .ok (m, w) => readLoop p n w (s.got p m)

/-- /repo/remote.go:395-412 `ServeBy`, the main goroutine after `init`: on a connection that delivers the bytes `w` and ends. -/
def St.serve (p : Tty.Plat) (w : List Nat) (s : St) : R St := do
  let s ← s.readLoop p (w.length + 1) w
  .ok { s with tty := s.tty.act p .exit }

end RL.Cli
