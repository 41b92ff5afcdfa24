/-! Model of closing an instance: `Instance.Close` (/repo/readline.go:277-284), `Operation.Close` (/repo/operation.go:438-444),
`Terminal.Close` (/repo/terminal.go:220-230) against the terminal loop (/repo/terminal.go:118-214), the editing loop
(/repo/operation.go:107-366) and `Readline` (`Operation.Runes`, :381-401).

* What the editing loop does with a key is left open: after any key it may go on, hand over a line, or report an error, and it
  may kick the terminal loop (this covers all of `Verif.Model.Operation`).
* `FillableStdin.Close` (/repo/std.go:194-197) closes only the pipe for prefilled input, not the input itself, so closing does
  not end a read in progress; the read ends when the underlying reader returns (`key`, `readErr`).  Prefilled input is in
  `Verif.Model.Fillable`.
* `t.wg.Add(1)` is taken to have happened before any `Close` (in the code it runs in the new goroutine, :119).
* Raw mode calls and `history.Close` always return. -/

namespace RL.Shut

/-- Errors a `Readline` can return. -/
inductive Err where
  | eof | interrupt
deriving DecidableEq

/-- The terminal loop. -/
inductive TPc where
  /-- the `select` at :136-141 -/
  | idle
  /-- in `buf.ReadRune()` (:144) -/
  | reading
  /-- in `t.outchan <- r` (:202, :210); the flag is `expectNextChar` -/
  | sending (next : Bool)
  | done
deriving DecidableEq

/-- The editing loop. -/
inductive OPc where
  /-- in `o.t.ReadRune()` (:111, :159) -/
  | recv
  /-- handling a key -/
  | handle
  /-- in `o.outchan <- data` (:256) -/
  | line
  /-- in `o.errchan <- e` (:127, :297, :325); the flag: the loop ends after it (:129) -/
  | err (e : Err) (last : Bool)
  | done
deriving DecidableEq

/-- A caller of `Close`. -/
inductive CPc where
  | idle
  /-- readline.go:279: before `Operation.Close` -/
  | op
  /-- terminal.go:221: before the swap -/
  | swap
  /-- terminal.go:227: before `close(t.stopChan)` -/
  | stop
  /-- terminal.go:228: in `t.wg.Wait()` -/
  | wait
deriving DecidableEq

/-- What a `Readline` returned. -/
inductive Res where
  | line
  | err (e : Err)
deriving DecidableEq

structure St where
  /-- `kickChan` holds an item -/
  kick : Bool
  /-- `stopChan` is closed -/
  stop : Bool
  /-- `t.closed` -/
  closed : Bool
  t : TPc
  o : OPc
  /-- `errchan`, capacity one -/
  err : Option Err
  /-- callers of `Readline` waiting in the `select` of `Runes` -/
  rl : Nat → Bool
  cl : Nat → CPc
  /-- results of `Readline` in order -/
  out : List (Nat × Res)
  /-- callers of `Close` that have returned, in order -/
  fin : List Nat
  /-- `stopChan` was closed twice -/
  crashed : Bool

def St.init : St := ⟨false, false, false, .idle, .recv, none, fun _ => false, fun _ => .idle, [], [], false⟩

def set {α} (f : Nat → α) (i : Nat) (p : α) : Nat → α := fun j => if j = i then p else f j

/-- Steps that need something to arrive from the input. -/
inductive Input : St → St → Prop
  /-- :144: a key has been read; `next` is `expectNextChar` after it.  (Keys that the decoder swallows, :158-205, leave the
  loop reading.) -/
  | key {s} (next : Bool) (h : s.t = .reading) : Input s { s with t := .sending next }
  /-- :145-150: the read failed -/
  | readErr {s} (h : s.t = .reading) : Input s { s with t := .done }

/-- Steps that do not. -/
inductive Quiet : St → St → Prop
  /-- operation.go:381-391: a `Readline` begins: `KickRead`, then the `select` -/
  | readline {s} (i : Nat) (h : s.rl i = false) : Quiet s { s with rl := set s.rl i true, kick := true }
  /-- operation.go:393 with :256 -/
  | takeLine {s i} (h : s.rl i = true) (ho : s.o = .line) :
      Quiet s { s with rl := set s.rl i false, o := .handle, out := s.out ++ [(i, .line)] }
  /-- operation.go:395 -/
  | takeErr {s i e} (h : s.rl i = true) (he : s.err = some e) :
      Quiet s { s with rl := set s.rl i false, err := none, out := s.out ++ [(i, .err e)] }
  /-- terminal.go:137-138 -/
  | kicked {s} (h : s.t = .idle) (hk : s.kick = true) : Quiet s { s with t := .reading, kick := false }
  /-- terminal.go:139-140 -/
  | stopped {s} (h : s.t = .idle) (hs : s.stop = true) : Quiet s { s with t := .done }
  /-- terminal.go:202, 210 with :100 -/
  | send {s b} (h : s.t = .sending b) (ho : s.o = .recv) : Quiet s { s with t := if b then .reading else .idle, o := .handle }
  /-- terminal.go:101-103: the terminal loop has ended -/
  | ended {s} (h : s.t = .done) (ho : s.o = .recv) : Quiet s { s with o := .handle }
  /-- the editing loop goes on to the next key -/
  | next {s} (h : s.o = .handle) : Quiet s { s with o := .recv }
  /-- `o.t.KickRead()` -/
  | kickRead {s} (h : s.o = .handle) : Quiet s { s with kick := true }
  /-- the key submits the line -/
  | submit {s} (h : s.o = .handle) : Quiet s { s with o := .line }
  /-- the key ends or interrupts the line -/
  | fail {s} (e : Err) (last : Bool) (h : s.o = .handle) : Quiet s { s with o := .err e last }
  /-- `o.errchan <- e` -/
  | putErr {s e last} (h : s.o = .err e last) (he : s.err = none) :
      Quiet s { s with err := some e, o := if last then .done else .handle }
  /-- readline.go:277: `Close` begins, the input's pipe is closed -/
  | close {s} (i : Nat) (h : s.cl i = .idle) : Quiet s { s with cl := set s.cl i .op }
  /-- operation.go:438-444: send without waiting -/
  | opClose {s i} (h : s.cl i = .op) :
      Quiet s { s with cl := set s.cl i .swap, err := match s.err with | none => some .eof | some e => some e }
  /-- terminal.go:221-223: somebody else has closed the terminal -/
  | lost {s i} (h : s.cl i = .swap) (hc : s.closed = true) : Quiet s { s with cl := set s.cl i .idle, fin := s.fin ++ [i] }
  /-- terminal.go:221 -/
  | won {s i} (h : s.cl i = .swap) (hc : s.closed = false) : Quiet s { s with cl := set s.cl i .stop, closed := true }
  /-- terminal.go:227: closing a closed channel panics -/
  | stopIt {s i} (h : s.cl i = .stop) :
      Quiet s { s with cl := set s.cl i .wait, stop := true, crashed := s.crashed || s.stop }
  /-- terminal.go:228-229 -/
  | waited {s i} (h : s.cl i = .wait) (ht : s.t = .done) : Quiet s { s with cl := set s.cl i .idle, fin := s.fin ++ [i] }

def Step (s t : St) : Prop := Quiet s t ∨ Input s t

inductive Reach : St → Prop
  | init : Reach St.init
  | step {s t} : Reach s → Step s t → Reach t

inductive Steps : St → St → Prop
  | refl {s} : Steps s s
  | step {s t u} : Steps s t → Step t u → Steps s u

inductive Quiets : St → St → Prop
  | refl {s} : Quiets s s
  | step {s t u} : Quiets s t → Quiet t u → Quiets s u

end RL.Shut
