import Verif.Model.Go
/-!
# /repo/std.go:69-133 `CancelableStdin`: readers, the background reader and `Close`, interleaved

Any number of goroutines call `Read` and `Close`; one goroutine runs `ioloop`.  Each step is one lock operation, one atomic
access, one channel operation or one call of the underlying reader.

The underlying reader is a byte stream from which each call takes some bytes, at most as many as fit, and reports some error
or none; while there is no input the call just does not return.  Readers and closers are numbered.
-/

namespace RL.Stdin

/-- What a `Read` returns: bytes and error; `io.EOF` because of `Close` is `closed`. -/
inductive Res where
  | data (b : List Nat) (err : Option Nat)
  | closed
deriving DecidableEq, Repr

/-- A reader; `k` is the length of its buffer. -/
inductive RPc where
  | idle
  /-- at `c.mutex.Lock()` (:108) -/
  | locking (k : Nat)
  /-- before the test of `closed` (:110) -/
  | check (k : Nat)
  /-- at the first `select` (:115-119) -/
  | send (k : Nat)
  /-- at the second `select` (:120-125) -/
  | recv (k : Nat)
  /-- about to return and unlock -/
  | ret (r : Res)
deriving DecidableEq, Repr

/-- `ioloop` (:90-105): at the outer `select`; in `c.r.Read`; at the inner `select`; returned. -/
inductive LPc where
  | top
  | reading (k : Nat)
  | sending
  | stopped
deriving DecidableEq, Repr

/-- A goroutine calling `Close` (:128-133): not in it; before the compare-and-swap; before `close(c.stop)`. -/
inductive CPc where
  | idle
  | cas
  | close
deriving DecidableEq, Repr

structure St where
  rd : Nat → RPc
  cl : Nat → CPc
  loop : LPc
  /-- who holds `c.mutex` -/
  lock : Option Nat
  /-- `c.closed` -/
  closed : Bool
  /-- `c.stop` is closed -/
  stop : Bool
  /-- length of `c.data` -/
  data : Nat
  /-- `c.read`, `c.err`: the bytes put into `c.data` and the error -/
  got : List Nat × Option Nat
  /-- bytes the underlying reader will still deliver -/
  inp : List Nat
  /-- what the underlying reader has returned (for the statements only) -/
  reads : List (List Nat × Option Nat)
  /-- results of `Read` in the order of returning -/
  out : List (Nat × Res)
  /-- a closed channel was closed again -/
  crashed : Bool

def St.init (inp : List Nat) : St :=
  ⟨fun _ => .idle, fun _ => .idle, .top, none, false, false, 0, ([], none), inp, [], [], false⟩

/-- Change one entry. -/
def set {α} (f : Nat → α) (i : Nat) (p : α) : Nat → α := fun j => if j = i then p else f j

inductive Step : St → St → Prop
  /-- a call of `Read` with a buffer of length `k` -/
  | call {s : St} (i k : Nat) : s.rd i = .idle → Step s { s with rd := set s.rd i (.locking k) }
  | lock {s : St} {i k : Nat} : s.rd i = .locking k → s.lock = none →
      Step s { s with rd := set s.rd i (.check k), lock := some i }
  /-- :110-112 -/
  | isClosed {s : St} {i k : Nat} : s.rd i = .check k → s.closed = true → Step s { s with rd := set s.rd i (.ret .closed) }
  /-- :114 -/
  | setData {s : St} {i k : Nat} : s.rd i = .check k → s.closed = false →
      Step s { s with rd := set s.rd i (.send k), data := k }
  /-- :116 and :94-95: the loop takes the request and calls `c.r.Read(c.data)` -/
  | notify {s : St} {i k : Nat} : s.rd i = .send k → s.loop = .top →
      Step s { s with rd := set s.rd i (.recv k), loop := .reading s.data }
  /-- :117-118 -/
  | stop1 {s : St} {i k : Nat} : s.rd i = .send k → s.stop = true → Step s { s with rd := set s.rd i (.ret .closed) }
  /-- the underlying reader returns (:95) -/
  | under {s : St} {k : Nat} (n : Nat) (e : Option Nat) : s.loop = .reading k → n ≤ k → n ≤ s.inp.length →
      Step s { s with loop := .sending, got := (s.inp.take n, e), inp := s.inp.drop n,
                      reads := s.reads ++ [(s.inp.take n, e)] }
  /-- :97 and :121-122 -/
  | deliver {s : St} {i k : Nat} : s.loop = .sending → s.rd i = .recv k →
      Step s { s with rd := set s.rd i (.ret (.data s.got.1 s.got.2)), loop := .top }
  /-- :123-124 -/
  | stop2 {s : St} {i k : Nat} : s.rd i = .recv k → s.stop = true → Step s { s with rd := set s.rd i (.ret .closed) }
  /-- :98-99 -/
  | endInner {s : St} : s.loop = .sending → s.stop = true → Step s { s with loop := .stopped }
  /-- :101-102 -/
  | endOuter {s : St} : s.loop = .top → s.stop = true → Step s { s with loop := .stopped }
  | ret {s : St} {i : Nat} {r : Res} : s.rd i = .ret r →
      Step s { s with rd := set s.rd i .idle, lock := none, out := s.out ++ [(i, r)] }
  /-- a call of `Close` -/
  | close {s : St} (i : Nat) : s.cl i = .idle → Step s { s with cl := set s.cl i .cas }
  /-- :129, swapped -/
  | won {s : St} {i : Nat} : s.cl i = .cas → s.closed = false → Step s { s with cl := set s.cl i .close, closed := true }
  /-- :129, not swapped: `Close` returns -/
  | lost {s : St} {i : Nat} : s.cl i = .cas → s.closed = true → Step s { s with cl := set s.cl i .idle }
  /-- :130; `Close` returns -/
  | stopIt {s : St} {i : Nat} : s.cl i = .close →
      Step s { s with cl := set s.cl i .idle, stop := true, crashed := s.crashed || s.stop }

inductive Reach (inp : List Nat) : St → Prop
  | init : Reach inp (St.init inp)
  | step {s t : St} : Reach inp s → Step s t → Reach inp t

inductive Steps : St → St → Prop
  | refl {s : St} : Steps s s
  | step {s t u : St} : Step s t → Steps t u → Steps s u

end RL.Stdin
