import Verif.Model.Remote
/-!
# The receive loop and the reader of a remote terminal, interleaved

/repo/remote.go:127-150 `RemoteSvr.Read` and :200-228 `readLoop` as two goroutines that share `dataBuf` (under `dataBufM`),
`eof` (atomic) and the unbuffered channel `reciveChan`.  Each step of the transition system is one critical section, one
atomic access or one channel operation.

The receive loop works on a list of messages that ends when the connection ends.  The reader calls `Read` again and again
with buffers of any size; one goroutine reads (the terminal goroutine).  Width and terminal reports do not touch the shared
state.
-/

namespace RL.Remote

/-- Where the receive loop is: about to read a message; about to signal on `reciveChan` (:210-213, 218-221); returned. -/
inductive RecvPc where
  | read
  | signal
  | stopped
deriving DecidableEq, Repr

/-- Where the reader is.  `k` is `len(b)`. -/
inductive ReadPc where
  /-- not in `Read` -/
  | idle
  /-- before the first `dataBuf.Read` (:128-130) -/
  | first (k : Nat)
  /-- the first read gave nothing; before `checkEOF` (:131-135); `e` says whether `err == io.EOF` -/
  | check1 (k : Nat) (e : Bool)
  /-- found no end of input; before `<-r.reciveChan` (:138) -/
  | enter (k : Nat)
  /-- blocked in `<-r.reciveChan`: the other side only sends with `select`/`default`, so it never waits for us -/
  | wait (k : Nat)
  /-- before the second `dataBuf.Read` (:139-141) -/
  | second (k : Nat)
  /-- the second read gave nothing; before `checkEOF` (:143-147) -/
  | check2 (e : Bool)
deriving DecidableEq, Repr

/-- A result of `Read`: bytes, or no bytes and `io.EOF`, or no bytes and no error (buffer of length 0). -/
inductive ReadRes where
  | data (b : List Nat)
  | eof
  | nothing
deriving DecidableEq, Repr

structure St where
  /-- messages still to arrive -/
  inp : List Msg
  /-- messages handled so far -/
  handled : List Msg
  recv : RecvPc
  reader : ReadPc
  dataBuf : List Nat
  eof : Bool
  /-- results of `Read` so far -/
  out : List ReadRes
deriving DecidableEq, Repr

/-- A server after the handshake. -/
def St.init (ms : List Msg) : St := ⟨ms, [], .read, .idle, [], false, []⟩

/-- `bytes.Buffer.Read(b)` with `len(b) = k`: bytes taken and whether the error is `io.EOF`. -/
def bufRead (k : Nat) (buf : List Nat) : List Nat × Bool := (buf.take k, buf = [] ∧ k ≠ 0)

/-- One step of one of the two goroutines. -/
inductive Step : St → St → Prop
  /-- the connection ends or delivers a malformed frame (:203-206) -/
  | close {s : St} : s.recv = .read → s.inp = [] → Step s { s with recv := .stopped }
  /-- T_EOF (:208-209) -/
  | gotEof {s : St} {m : Msg} {ms : List Msg} : s.recv = .read → s.inp = m :: ms → m.typ = T_EOF →
      Step s { s with inp := ms, handled := s.handled ++ [m], eof := true, recv := .signal }
  /-- T_DATA (:214-217) -/
  | gotData {s : St} {m : Msg} {ms : List Msg} : s.recv = .read → s.inp = m :: ms → m.typ = T_DATA →
      Step s { s with inp := ms, handled := s.handled ++ [m], dataBuf := s.dataBuf ++ m.data, recv := .signal }
  /-- any other message -/
  | gotOther {s : St} {m : Msg} {ms : List Msg} : s.recv = .read → s.inp = m :: ms → m.typ ≠ T_EOF → m.typ ≠ T_DATA →
      Step s { s with inp := ms, handled := s.handled ++ [m] }
  /-- the reader waits: the signal is delivered (:211, 219) -/
  | signal {s : St} {k : Nat} : s.recv = .signal → s.reader = .wait k → Step s { s with recv := .read, reader := .second k }
  /-- nobody waits: the signal is dropped (:212, 220) -/
  | drop {s : St} : s.recv = .signal → (∀ k, s.reader ≠ .wait k) → Step s { s with recv := .read }
  /-- a call of `Read` -/
  | call {s : St} (k : Nat) : s.reader = .idle → Step s { s with reader := .first k }
  /-- the first read finds something -/
  | first {s : St} {k : Nat} : s.reader = .first k → (bufRead k s.dataBuf).1 ≠ [] →
      Step s { s with reader := .idle, dataBuf := s.dataBuf.drop k, out := s.out ++ [.data (bufRead k s.dataBuf).1] }
  /-- the first read finds nothing -/
  | empty {s : St} {k : Nat} : s.reader = .first k → (bufRead k s.dataBuf).1 = [] →
      Step s { s with reader := .check1 k (bufRead k s.dataBuf).2 }
  /-- end of input (:132-134) -/
  | eof1 {s : St} {k : Nat} {e : Bool} : s.reader = .check1 k e → s.eof = true →
      Step s { s with reader := .idle, out := s.out ++ [.eof] }
  /-- go to the receive operation (:137) -/
  | toWait {s : St} {k : Nat} : s.reader = .check1 k true → s.eof = false → Step s { s with reader := .enter k }
  /-- block in it (:138) -/
  | block {s : St} {k : Nat} : s.reader = .enter k → Step s { s with reader := .wait k }
  /-- `n == 0` without error: `checkEOF` again (:143-147) -/
  | skip {s : St} {k : Nat} : s.reader = .check1 k false → s.eof = false → Step s { s with reader := .check2 false }
  /-- the second read finds something -/
  | second {s : St} {k : Nat} : s.reader = .second k → (bufRead k s.dataBuf).1 ≠ [] →
      Step s { s with reader := .idle, dataBuf := s.dataBuf.drop k, out := s.out ++ [.data (bufRead k s.dataBuf).1] }
  /-- the second read finds nothing -/
  | empty2 {s : St} {k : Nat} : s.reader = .second k → (bufRead k s.dataBuf).1 = [] →
      Step s { s with reader := .check2 (bufRead k s.dataBuf).2 }
  /-- return after the second `checkEOF`: `io.EOF` from there or from `dataBuf.Read` -/
  | ret {s : St} {e : Bool} : s.reader = .check2 e →
      Step s { s with reader := .idle, out := s.out ++ [if s.eof ∨ e then .eof else .nothing] }

/-- States the two goroutines can reach, in any schedule. -/
inductive Reach (ms : List Msg) : St → Prop
  | init : Reach ms (St.init ms)
  | step {s t : St} : Reach ms s → Step s t → Reach ms t

/-- Any number of steps. -/
inductive Steps : St → St → Prop
  | refl {s : St} : Steps s s
  | step {s t u : St} : Step s t → Steps t u → Steps s u

end RL.Remote
