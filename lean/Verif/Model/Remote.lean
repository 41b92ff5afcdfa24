import Verif.Model.Go
/-!
# The wire protocol of the remote terminal

/repo/remote.go: encoding and decoding of messages (:251-283) and what the server does with the messages it receives
(:78-100, 200-247).  Bytes are natural numbers below 256.

Simplifications: a connection is the list of bytes it will deliver, followed by the end of the stream; allocating a buffer
of up to 2 GB as announced by a length field succeeds; `funcWidthChan` has no effect here.
-/

namespace RL

/-- Errors of `io.ReadFull` and `binary.Read` on a byte stream that ends. -/
inductive IoErr where
  | eof
  | unexpectedEOF
deriving DecidableEq, Repr

/-- /repo/remote.go:251-254 `Message`; `MsgType` is an `int16`. -/
structure Msg where
  typ : Int
  data : List Nat
deriving DecidableEq, Repr

/-- /repo/remote.go:17-25 -/
def T_DATA : Int := 0
def T_WIDTH : Int := 1
def T_WIDTH_REPORT : Int := 2
def T_ISTTY_REPORT : Int := 3
def T_RAW : Int := 4
def T_ERAW : Int := 5
def T_EOF : Int := 6

/-- `binary.Write(buf, binary.BigEndian, int32(n))`: the conversion to `int32` keeps the low 32 bits. -/
def put32 (n : Int) : List Nat :=
  let u := (n % 2 ^ 32).toNat
  [u / 2 ^ 24, u / 2 ^ 16 % 256, u / 2 ^ 8 % 256, u % 256]

/-- `binary.Write(buf, binary.BigEndian, t)` for an `int16`. -/
def put16 (n : Int) : List Nat :=
  let u := (n % 2 ^ 16).toNat
  [u / 2 ^ 8, u % 256]

/-- An `int32` from its four bytes. -/
def get32 (a b c d : Nat) : Int :=
  let u : Int := a * 2 ^ 24 + b * 2 ^ 16 + c * 2 ^ 8 + d
  if u < 2 ^ 31 then u else u - 2 ^ 32

/-- An `int16` from its two bytes. -/
def get16 (a b : Nat) : Int :=
  let u : Int := a * 2 ^ 8 + b
  if u < 2 ^ 15 then u else u - 2 ^ 16

/-- The bytes of a message, /repo/remote.go:276-283 `WriteTo`. -/
def Msg.bytes (m : Msg) : List Nat := put32 (m.data.length + 2) ++ put16 m.typ ++ m.data

/-- The count `WriteTo` returns when the connection takes everything: bytes of the frame. -/
def Msg.written (m : Msg) : Nat := m.bytes.length

/-- `io.ReadFull(r, b)` with `len(b) = n`: reading nothing at the end of the stream is EOF, part of it unexpected EOF. -/
def readFull (n : Nat) (s : List Nat) : Except IoErr (List Nat × List Nat) :=
  if n ≤ s.length then .ok (s.take n, s.drop n)
  else if s = [] then .error .eof
  else .error .unexpectedEOF

/-- /repo/remote.go:256-270 `ReadMessage`: `R` is for panics (`make` with a negative length), the inner result for errors. -/
def readMessage (s : List Nat) : R (Except IoErr (Msg × List Nat)) :=
  match readFull 4 s with
  | .error e => .ok (.error e)
  | .ok (l, s) =>
    match readFull 2 s with
    | .error e => .ok (.error e)
    | .ok (t, s) =>
      match l, t with
      | [a, b, c, d], [e, f] =>
        if get32 a b c d - 2 < 0 then .error .panic
        else
          match readFull (get32 a b c d - 2).toNat s with
          | .error e => .ok (.error e)
          | .ok (data, s) => .ok (.ok (⟨get16 e f, data⟩, s))
      | _, _ => .error .panic

/-- Messages read from a stream until an error, as the loops at /repo/remote.go:202-206 and 379-383 do.  Every message takes
at least six bytes, so as many turns as there are bytes are enough. -/
def readMessages : Nat → List Nat → R (List Msg × IoErr)
  | 0, _ => .error .hang
  | n + 1, s => do
    match ← readMessage s with
    | .error e => .ok ([], e)
    | .ok (m, s) => do
      let (ms, e) ← readMessages n s
      .ok (m :: ms, e)

/-- All messages of a stream and the error that ends it. -/
def readStream (s : List Nat) : R (List Msg × IoErr) := readMessages (s.length + 1) s

/-- State of `RemoteSvr` that received messages change (/repo/remote.go:27-40). -/
structure Svr where
  eof : Bool
  width : Int
  isTerminal : Bool
  dataBuf : List Nat
deriving DecidableEq, Repr

namespace Svr

/-- /repo/remote.go:59-67 -/
def init : Svr := ⟨false, -1, false, []⟩

/-- `binary.BigEndian.Uint16`: panics on fewer than two bytes, ignores further bytes. -/
def uint16 : List Nat → R Nat
  | a :: b :: _ => .ok (a * 256 + b)
  | _ => .error .panic

/-- /repo/remote.go:230-236 -/
def gotIsTerminal (data : List Nat) (s : Svr) : R Svr := do
  let n ← uint16 data
  .ok { s with isTerminal := n ≠ 0 }

/-- /repo/remote.go:238-243 -/
def gotReportWidth (data : List Nat) (s : Svr) : R Svr := do
  let n ← uint16 data
  .ok { s with width := n }

/-- One received message (/repo/remote.go:207-226). -/
def got (m : Msg) (s : Svr) : R Svr :=
  if m.typ = T_EOF then .ok { s with eof := true }
  else if m.typ = T_DATA then .ok { s with dataBuf := s.dataBuf ++ m.data }
  else if m.typ = T_WIDTH_REPORT then s.gotReportWidth m.data
  else if m.typ = T_ISTTY_REPORT then s.gotIsTerminal m.data
  else .ok s

/-- The receive loop (/repo/remote.go:200-228) on a whole stream: like `readMessages`, but handling each message. -/
def readLoop : Nat → List Nat → Svr → R Svr
  | 0, _, _ => .error .hang
  | n + 1, s, v => do
    match ← readMessage s with
    | .error _ => .ok v
    | .ok (m, s) => do
      let v ← v.got m
      readLoop n s v

/-- /repo/remote.go:78-100 `init`; `none` is an error return. -/
def handshake (s : List Nat) (v : Svr) : R (Option (Svr × List Nat)) := do
  match ← readMessage s with
  | .error _ => .ok none
  | .ok (m, s) =>
    if m.typ ≠ T_ISTTY_REPORT then .ok none
    else do
      let v ← v.gotIsTerminal m.data
      match ← readMessage s with
      | .error _ => .ok none
      | .ok (m, s) =>
        if m.typ ≠ T_WIDTH_REPORT then .ok none
        else do
          let v ← v.gotReportWidth m.data
          .ok (some (v, s))

/-- A server on a connection: handshake and receive loop, without anybody reading. -/
def serve (s : List Nat) : R (Option Svr) := do
  match ← handshake s init with
  | none => .ok none
  | some (v, s) => do
    let v ← readLoop (s.length + 1) s v
    .ok (some v)

end Svr

/-- /repo/remote.go:345-375: what the client sends first (`reportIsTerminal`, `reportWidth`). -/
def helloMsgs (isTerminal : Bool) (width : Int) : List Msg :=
  [⟨T_ISTTY_REPORT, if isTerminal then [0, 1] else [0, 0]⟩, ⟨T_WIDTH_REPORT, put16 width⟩]

end RL
