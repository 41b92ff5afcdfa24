import Verif.Model.Remote
/-!
# Writers of a remote connection, interleaved

`SvrW`: /repo/remote.go:152-164 `RemoteSvr.writeMsg` and `Write` called by any number of goroutines, and :174-190 `writeLoop`.
A writer sends a context on the unbuffered channel `writeChan` and then receives from the unbuffered channel of the context;
the loop receives a context or the end (`stopChan`), writes the frame and sends the outcome.  `writeMsg` drops the count.

`CliW`: /repo/remote.go:330-343 `RemoteCli.writeMsg` and `Write`: any number of goroutines write under the mutex `dataM`.

A write on the connection either takes the whole frame or fails after some bytes of it.  Writers are numbered; each makes
one call after the other.
-/

namespace RL

/-- A finished frame or an answer: writer, message, count, whether there was no error. -/
structure WDone where
  who : Nat
  msg : Msg
  n : Nat
  ok : Bool
deriving DecidableEq, Repr

namespace SvrW

/-- A writer: not in a call; at `r.writeChan <- ctx` (:154, 161); at `<-ctx.reply` (:155, 162). -/
inductive WPc where
  | idle
  | sending (m : Msg)
  | waiting (m : Msg)
deriving DecidableEq, Repr

/-- `writeLoop`: at the `select` (:179); before `WriteTo` (:184); at `ctx.reply <- ...` (:185); returned. -/
inductive LPc where
  | select
  | writing (i : Nat) (m : Msg)
  | replying (d : WDone)
  | stopped
deriving DecidableEq, Repr

structure St where
  w : Nat → WPc
  loop : LPc
  /-- `Close` has run (:192-198): `stopChan` and the connection are closed -/
  closed : Bool
  /-- bytes put on the connection -/
  wire : List Nat
  /-- calls in the order they were made -/
  called : List (Nat × Msg)
  /-- frames in the order they were written -/
  done : List WDone
  /-- answers in the order the calls returned -/
  ans : List WDone

def St.init : St := ⟨fun _ => .idle, .select, false, [], [], [], []⟩

/-- Change the place of one writer. -/
def set (f : Nat → WPc) (i : Nat) (p : WPc) : Nat → WPc := fun j => if j = i then p else f j

inductive Step : St → St → Prop
  /-- a call of `Write` or `writeMsg` -/
  | call {s : St} (i : Nat) (m : Msg) : s.w i = .idle →
      Step s { s with w := set s.w i (.sending m), called := s.called ++ [(i, m)] }
  /-- the loop receives a context (:180) -/
  | accept {s : St} {i : Nat} {m : Msg} : s.loop = .select → s.w i = .sending m →
      Step s { s with w := set s.w i (.waiting m), loop := .writing i m }
  /-- the frame is written (:184) -/
  | write {s : St} {i : Nat} {m : Msg} : s.loop = .writing i m → s.closed = false →
      Step s { s with wire := s.wire ++ m.bytes, done := s.done ++ [⟨i, m, m.written, true⟩],
                      loop := .replying ⟨i, m, m.written, true⟩ }
  /-- the connection fails after `k` bytes (:184) -/
  | fail {s : St} {i : Nat} {m : Msg} (k : Nat) : s.loop = .writing i m → k ≤ m.written →
      Step s { s with wire := s.wire ++ m.bytes.take k, done := s.done ++ [⟨i, m, k, false⟩],
                      loop := .replying ⟨i, m, k, false⟩ }
  /-- the outcome reaches the writer, which returns (:185) -/
  | reply {s : St} {d : WDone} {m : Msg} : s.loop = .replying d → s.w d.who = .waiting m →
      Step s { s with w := set s.w d.who .idle, loop := .select, ans := s.ans ++ [d] }
  /-- `Close` -/
  | close {s : St} : Step s { s with closed := true }
  /-- the loop sees `stopChan` (:186-188) -/
  | stop {s : St} : s.loop = .select → s.closed = true → Step s { s with loop := .stopped }

inductive Reach : St → Prop
  | init : Reach St.init
  | step {s t : St} : Reach s → Step s t → Reach t

inductive Steps : St → St → Prop
  | refl {s : St} : Steps s s
  | step {s t u : St} : Step s t → Steps t u → Steps s u

end SvrW

namespace CliW

/-- A writer: not in a call; at `dataM.Lock()`; before `WriteTo`, holding the lock; before `dataM.Unlock()`. -/
inductive WPc where
  | idle
  | locking (m : Msg)
  | writing (m : Msg)
  | unlocking (d : WDone)
deriving DecidableEq, Repr

structure St where
  w : Nat → WPc
  /-- who holds `dataM` -/
  holder : Option Nat
  wire : List Nat
  called : List (Nat × Msg)
  done : List WDone
  /-- results of `Write` -/
  ans : List WDone

def St.init : St := ⟨fun _ => .idle, none, [], [], [], []⟩

def set (f : Nat → WPc) (i : Nat) (p : WPc) : Nat → WPc := fun j => if j = i then p else f j

inductive Step : St → St → Prop
  | call {s : St} (i : Nat) (m : Msg) : s.w i = .idle →
      Step s { s with w := set s.w i (.locking m), called := s.called ++ [(i, m)] }
  /-- :331, 339 -/
  | lock {s : St} {i : Nat} {m : Msg} : s.w i = .locking m → s.holder = none →
      Step s { s with w := set s.w i (.writing m), holder := some i }
  /-- :332, 340 -/
  | write {s : St} {i : Nat} {m : Msg} : s.w i = .writing m →
      Step s { s with wire := s.wire ++ m.bytes, done := s.done ++ [⟨i, m, m.written, true⟩],
                      w := set s.w i (.unlocking ⟨i, m, m.written, true⟩) }
  | fail {s : St} {i : Nat} {m : Msg} (k : Nat) : s.w i = .writing m → k ≤ m.written →
      Step s { s with wire := s.wire ++ m.bytes.take k, done := s.done ++ [⟨i, m, k, false⟩],
                      w := set s.w i (.unlocking ⟨i, m, k, false⟩) }
  /-- :333, 341-342: `Write` reports the length of the data, whatever happened -/
  | unlock {s : St} {i : Nat} {d : WDone} : s.w i = .unlocking d →
      Step s { s with w := set s.w i .idle, holder := none, ans := s.ans ++ [{ d with n := d.msg.data.length }] }

inductive Reach : St → Prop
  | init : Reach St.init
  | step {s t : St} : Reach s → Step s t → Reach t

end CliW
end RL
