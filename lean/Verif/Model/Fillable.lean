/-! Model of `FillableStdin`, /repo/std.go:135-197, and of `Instance.WriteStdin`, /repo/readline.go:311-313 with
/repo/terminal.go `WriteStdin`, which writes to the other end of the pipe.

* `io.Pipe` (standard library): a `Write` hands its bytes to the reads one after another and returns when all are taken;
  concurrent writes take turns.  Modelled by the list of the writes' remaining bytes.  An empty write hands over no bytes.
* The critical section of `Read` (:176-189) is one step.  The unsynchronised access to `bufErr` (:161 against :184-185) is not
  modelled at a finer grain.
* The underlying reader returns any number of bytes that fits, at any time, with any error. -/

namespace RL.Fill

/-- Where the filler goroutine of `ioloop` is (:156-172). -/
inductive FPc where
  /-- in `stdinBuffer.Read` (:161) -/
  | reading
  /-- before `s.Lock()` (:167), with the bytes it got -/
  | got (b : List Nat)
  | done
deriving DecidableEq

/-- Where a reader is: outside, or in `s.stdin.Read(p)` (:190) with a buffer of length `k`. -/
inductive RPc where
  | idle
  | under (k : Nat)
deriving DecidableEq

/-- What a `Read` returned: bytes of the prefill with `cerr`, or the underlying reader's result. -/
inductive Res where
  | pre (b : List Nat) (closed : Bool)
  | real (b : List Nat) (err : Option Nat)
deriving DecidableEq

structure St where
  /-- remaining bytes of the writes to the pipe, oldest first -/
  pend : List (List Nat)
  fpc : FPc
  /-- `s.buf` -/
  buf : List Nat
  /-- `s.bufErr == io.ErrClosedPipe`; other errors do not occur while the writing end is open -/
  bufErr : Bool
  /-- the reading end of the pipe has been closed -/
  closed : Bool
  rd : Nat → RPc
  /-- real input not read yet -/
  inp : List Nat
  /-- results of `Read`, by reader, in order of being determined -/
  out : List (Nat × Res)
  /-- all bytes given to `WriteStdin` (for the statements only) -/
  written : List Nat
  /-- some `Read` had a buffer shorter than `s.buf` (for the statements only) -/
  short : Bool
  /-- the buffer lengths of the reads served from `s.buf` (for the statements only) -/
  ks : List Nat

def St.init (inp : List Nat) : St := ⟨[], .reading, [], false, false, fun _ => .idle, inp, [], [], false, []⟩

def set {α} (f : Nat → α) (i : Nat) (p : α) : Nat → α := fun j => if j = i then p else f j

/-- What remains of the pending writes after the first has lost `n` bytes. -/
def rest (n : Nat) : List (List Nat) → List (List Nat)
  | [] => []
  | b :: bs => if (b.drop n).isEmpty then bs else b.drop n :: bs

inductive Step : St → St → Prop
  /-- readline.go:311: a call of `WriteStdin` begins -/
  | write {s} (b : List Nat) : Step s { s with pend := s.pend ++ [b], written := s.written ++ b }
  /-- :161: the pipe hands over up to 100 bytes -/
  | take {s b bs} (h : s.fpc = .reading) (hp : s.pend = b :: bs) :
      Step s { s with fpc := .got (b.take 100), pend := rest 100 s.pend, bufErr := false }
  /-- :167-169 -/
  | store {s b} (h : s.fpc = .got b) : Step s { s with fpc := .reading, buf := s.buf ++ b }
  /-- :194-197 -/
  | close {s} : Step s { s with closed := true }
  /-- :161-165 -/
  | stop {s} (h : s.fpc = .reading) (hc : s.closed = true) : Step s { s with fpc := .done, bufErr := true }
  /-- :176-188: `copy(p, s.buf)`, then the whole of `s.buf` is dropped -/
  | fromBuf {s i} (k : Nat) (h : s.rd i = .idle) (hk : 0 < min k s.buf.length) :
      Step s { s with buf := [], bufErr := false, out := s.out ++ [(i, .pre (s.buf.take k) s.bufErr)],
                      short := s.short || decide (k < s.buf.length), ks := s.ks ++ [k] }
  /-- :176-181 and :189: nothing buffered -/
  | toReal {s i} (k : Nat) (h : s.rd i = .idle) (hk : min k s.buf.length = 0) : Step s { s with rd := set s.rd i (.under k) }
  /-- :190-191 -/
  | real {s i k} (n : Nat) (e : Option Nat) (h : s.rd i = .under k) (hn : n ≤ k) (hi : n ≤ s.inp.length) :
      Step s { s with rd := set s.rd i .idle, inp := s.inp.drop n, out := s.out ++ [(i, .real (s.inp.take n) e)] }

inductive Reach (inp : List Nat) : St → Prop
  | init : Reach inp (St.init inp)
  | step {s t} : Reach inp s → Step s t → Reach inp t

inductive Steps : St → St → Prop
  | refl {s} : Steps s s
  | step {s t u} : Step s t → Steps t u → Steps s u

end RL.Fill
