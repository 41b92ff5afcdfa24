/-! Model of how results get from the editing loop to the callers of `Readline`: `outchan` (unbuffered), `errchan` (capacity
one), `kickChan` (capacity one) and the terminal loop's channel of keys.  /repo/operation.go:107-136, 256, 297, 325, 381-401,
/repo/terminal.go:99-143, 198-211.

* What the editing loop does with a key is reduced to what matters for the channels.  `strict = true` is the behaviour proved
  for the editing loop in `C40` (outside the cases listed there): an ordinary key neither ends the line nor kicks; a key after which
  the terminal waits (Enter, Ctrl-J, Ctrl-C, Ctrl-D) leads to exactly one of a line, an error, and a kick; after the end of the
  input the loop flushes the line or reports the end and stops.  With `strict = false` a kick is possible after any key, as
  when the input filter rejects a key (/repo/operation.go:117).
* Closing is in `Verif.Model.Close`. -/

namespace RL.Chan

/-- A result: a submitted line or an error, numbered. -/
inductive Item where
  | line (n : Nat)
  | err (n : Nat)
deriving DecidableEq

def Item.isLine : Item → Bool
  | .line _ => true
  | .err _ => false

/-- The terminal loop. -/
inductive TPc where
  /-- the `select` at /repo/terminal.go:136 -/
  | idle
  | reading
  /-- sending a key; the flag: the terminal waits after it -/
  | sending (stop : Bool)
  | done
deriving DecidableEq

/-- The editing loop. -/
inductive OPc where
  | recv
  /-- handling a key; the flag: the terminal waits after it -/
  | handle (stop : Bool)
  /-- handling the end of the input -/
  | handleEnd
  /-- in `o.outchan <- data` -/
  | line (n : Nat)
  /-- in `o.errchan <- e`; the flag: then the loop ends -/
  | err (n : Nat) (last : Bool)
  /-- rest of the iteration -/
  | rest
  | done
deriving DecidableEq

structure St where
  kick : Bool
  t : TPc
  o : OPc
  /-- `errchan` -/
  errq : Option Nat
  /-- callers of `Readline` in the `select` of `Runes` -/
  rl : Nat → Bool
  /-- results returned, with the caller, in order -/
  out : List (Nat × Item)
  /-- results produced by the editing loop, in order (for the statements only) -/
  prod : List Item

def St.init : St := ⟨false, .idle, .recv, none, fun _ => false, [], []⟩

def set {α} (f : Nat → α) (i : Nat) (p : α) : Nat → α := fun j => if j = i then p else f j

inductive Step (strict : Bool) : St → St → Prop
  /-- operation.go:381-392 -/
  | readline {s} (i : Nat) (h : s.rl i = false) : Step strict s { s with rl := set s.rl i true, kick := true }
  /-- operation.go:393 with :256 -/
  | takeLine {s i n} (h : s.rl i = true) (ho : s.o = .line n) :
      Step strict s { s with rl := set s.rl i false, o := .rest, out := s.out ++ [(i, .line n)] }
  /-- operation.go:395-399 -/
  | takeErr {s i n} (h : s.rl i = true) (he : s.errq = some n) :
      Step strict s { s with rl := set s.rl i false, errq := none, out := s.out ++ [(i, .err n)] }
  /-- terminal.go:137-138 -/
  | kicked {s} (h : s.t = .idle) (hk : s.kick = true) : Step strict s { s with t := .reading, kick := false }
  /-- terminal.go:144 -/
  | key {s} (stop : Bool) (h : s.t = .reading) : Step strict s { s with t := .sending stop }
  /-- terminal.go:145-150 -/
  | readErr {s} (h : s.t = .reading) : Step strict s { s with t := .done }
  /-- terminal.go:202, 210 with :100 -/
  | send {s b} (h : s.t = .sending b) (ho : s.o = .recv) :
      Step strict s { s with t := if b then .idle else .reading, o := .handle b }
  /-- terminal.go:101-103 -/
  | ended {s} (h : s.t = .done) (ho : s.o = .recv) : Step strict s { s with o := .handleEnd }
  /-- an ordinary key -/
  | plain {s} (h : s.o = .handle false) : Step strict s { s with o := .recv }
  /-- a key after which the terminal waits, and which does not end the line: `KickRead` -/
  | kickRead {s} (h : s.o = .handle true) : Step strict s { s with o := .recv, kick := true }
  /-- a kick after an ordinary key -/
  | extraKick {s} (h : s.o = .handle false) (hs : strict = false) : Step strict s { s with o := .recv, kick := true }
  /-- the key submits the line, or the end of the input flushes it -/
  | submit {s} (n : Nat) (h : s.o = .handle true ∨ s.o = .handleEnd) :
      Step strict s { s with o := .line n, prod := s.prod ++ [.line n] }
  /-- Ctrl-C, or Ctrl-D on an empty line -/
  | fail {s} (n : Nat) (h : s.o = .handle true) : Step strict s { s with o := .err n false, prod := s.prod ++ [.err n] }
  /-- the end of the input on an empty line (:123-129) -/
  | eof {s} (n : Nat) (h : s.o = .handleEnd) : Step strict s { s with o := .err n true, prod := s.prod ++ [.err n] }
  /-- `o.errchan <- e` -/
  | putErr {s n last} (h : s.o = .err n last) (he : s.errq = none) :
      Step strict s { s with errq := some n, o := if last then .done else .rest }
  /-- end of the iteration -/
  | again {s} (h : s.o = .rest) : Step strict s { s with o := .recv }

inductive Reach (strict : Bool) : St → Prop
  | init : Reach strict St.init
  | step {s t} : Reach strict s → Step strict s t → Reach strict t

end RL.Chan
