import Verif.Model.Go
/-!
# /repo/term.go, /repo/term_windows.go, /repo/utils.go (`RawMode`), /repo/terminal.go (`SleepToResume`): terminal settings

The settings of a terminal are a value in the operating system, read and written as a whole by `getTermios` and `setTermios`
(/repo/term_linux.go:17-33, /repo/term_bsd.go:14-29).  `Plat` holds the platform's constants.  A terminal that is not there, or refuses to be changed, is modelled.
Pointers to settings matter in `ReadPassword` only, where they are addresses in a small heap.
-/

namespace RL.Tty

/-- `syscall.Termios` -/
structure Termios where
  iflag : BitVec 32
  oflag : BitVec 32
  lflag : BitVec 32
  cflag : BitVec 32
  cc : Nat → Nat

/-- The constants of package `syscall`. -/
structure Plat where
  ignbrk : BitVec 32
  brkint : BitVec 32
  parmrk : BitVec 32
  istrip : BitVec 32
  inlcr : BitVec 32
  igncr : BitVec 32
  icrnl : BitVec 32
  ixon : BitVec 32
  echo : BitVec 32
  echonl : BitVec 32
  icanon : BitVec 32
  isig : BitVec 32
  iexten : BitVec 32
  csize : BitVec 32
  parenb : BitVec 32
  cs8 : BitVec 32
  vmin : Nat
  vtime : Nat

/-- Linux -/
def linux : Plat :=
  { ignbrk := 1, brkint := 2, parmrk := 8, istrip := 0x20, inlcr := 0x40, igncr := 0x80, icrnl := 0x100, ixon := 0x400,
    echo := 8, echonl := 0x40, icanon := 2, isig := 1, iexten := 0x8000, csize := 0x30, parenb := 0x100, cs8 := 0x30, vmin := 6, vtime := 5 }

/-- The operating system's side: the settings (`none`: not a terminal), and whether it refuses changes. -/
structure Dev where
  cur : Option Termios
  refuse : Bool := false

/-- `getTermios` -/
def Dev.get (d : Dev) : Option Termios := d.cur

/-- `setTermios`; `true` is success. -/
def Dev.set (d : Dev) (t : Termios) : Bool × Dev :=
  if d.cur.isSome ∧ d.refuse = false then (true, { d with cur := some t }) else (false, d)

/-- The settings of raw mode (/repo/term.go:47-57). -/
def rawOf (p : Plat) (t : Termios) : Termios :=
  { t with
    iflag := t.iflag &&& ~~~ (p.ignbrk ||| p.brkint ||| p.parmrk ||| p.istrip ||| p.inlcr ||| p.igncr ||| p.icrnl ||| p.ixon)
    lflag := t.lflag &&& ~~~ (p.echo ||| p.echonl ||| p.icanon ||| p.isig ||| p.iexten)
    cflag := (t.cflag &&& ~~~ (p.csize ||| p.parenb)) ||| p.cs8
    cc := fun i => if i = p.vtime then 0 else if i = p.vmin then 1 else t.cc i }

/-- /repo/term.go:38-60 `MakeRaw`: the state returned (`nil` if the terminal cannot be read), success, and the terminal. -/
def makeRaw (p : Plat) (d : Dev) : Option Termios × Bool × Dev :=
  match d.get with
  | none => (none, false, d)
  | some t => let (ok, d) := d.set (rawOf p t); (some t, ok, d)

/-- /repo/utils.go:264-266 `RawMode`, and the terminal. -/
structure St where
  state : Option Termios := none
  dev : Dev

/-- /repo/utils.go:268-271 `Enter` -/
def St.enter (p : Plat) (s : St) : Bool × St :=
  let (st, ok, d) := makeRaw p s.dev
  (ok, ⟨st, d⟩)

/-- /repo/utils.go:273-278 `Exit`, 84-95 `Restore`, /repo/term.go:75-77 `restoreTerm` -/
def St.exit (s : St) : Bool × St :=
  match s.state with
  | none => (true, s)
  | some t => let (ok, d) := s.dev.set t; (ok, { s with dev := d })

/-- What happens to the settings while a program runs.  `other` is a change made by somebody else (the program itself, or the shell
while the program is suspended). -/
inductive Act where
  /-- `EnterRawMode` at the start of `Runes` (/repo/operation.go:382), or at the end of `SleepToResume` (/repo/terminal.go:53) -/
  | enter
  /-- `ExitRawMode` at the end of `Runes` (383), at the start of `SleepToResume` (/repo/terminal.go:49), in `Close` (229) -/
  | exit
  | other (f : Termios → Termios)

def St.act (p : Plat) (s : St) : Act → St
  | .enter => (s.enter p).2
  | .exit => s.exit.2
  | .other f => { s with dev := { s.dev with cur := s.dev.cur.map f } }

def St.acts (p : Plat) (s : St) (as : List Act) : St := as.foldl (St.act p) s

/-- /repo/terminal.go:43-54 `SleepToResume`; while it sleeps the shell changes the settings by `f`. -/
def sleepToResume (f : Termios → Termios) : List Act := [.exit, .other f, .enter]

/-- One call of `Readline` in which the user presses Ctrl-Z as often as `fs` says (/repo/operation.go:381-383, 231-234). -/
def readline (fs : List (Termios → Termios)) : List Act := [.enter] ++ fs.flatMap sleepToResume ++ [.exit]

/-! ### `ReadPassword` of package terminal -/

/-- The settings `ReadPassword` asks for (/repo/term.go:89-91). -/
def noEcho (p : Plat) (t : Termios) : Termios :=
  { t with lflag := (t.lflag &&& ~~~ p.echo) ||| (p.icanon ||| p.isig), iflag := t.iflag ||| p.icrnl }

/-- What a read of at most `n` bytes from a terminal in canonical mode gives: no more than `n` bytes, up to the end of the line; nothing at the end of
the input. -/
def readLine : (n : Nat) → List Nat → List Nat × List Nat
  | 0, q => ([], q)
  | _ + 1, [] => ([], [])
  | n + 1, b :: q => if b = 10 then ([b], q) else let (a, q) := readLine n q; (b :: a, q)

/-- The loop of `ReadPassword` (/repo/term.go:100-122); `none` is `io.EOF`.  `win`: the loop of /repo/term_windows.go:145-170, which also drops
a carriage return.  The fuel bounds the number of reads. -/
def readLoop (win : Bool) : (fuel : Nat) → (ret : List Nat) → (q : List Nat) → R (Option (List Nat) × List Nat)
  | 0, _, _ => .error .hang
  | fuel + 1, ret, q =>
    let (b, q) := readLine 16 q
    if b.length = 0 then .ok (if ret.length = 0 then none else some ret, q)
    else
      let b := if b.getLast? = some 10 then b.dropLast else b
      let b := if win ∧ b.getLast? = some 13 then b.dropLast else b
      if b.length < 16 then .ok (some (ret ++ b), q) else readLoop win fuel (ret ++ b) q

/-- A heap of settings, for pointers. -/
structure Heap where
  mem : Nat → Termios
  next : Nat

def Heap.new (h : Heap) (t : Termios) : Nat × Heap := (h.next, ⟨fun a => if a = h.next then t else h.mem a, h.next + 1⟩)

def Heap.put (h : Heap) (a : Nat) (t : Termios) : Heap := { h with mem := fun b => if b = a then t else h.mem b }

/-- /repo/term.go:82-123 `ReadPassword`: the outer `none` is an error.  `oldState` and `newState` are pointers (line 88 copies a
pointer). -/
def readPassword (p : Plat) (h : Heap) (d : Dev) (q : List Nat) : R (Option (Option (List Nat) × List Nat) × Dev) :=
  match d.get with
  | none => .ok (none, d)
  | some t => do
    let (oldState, h) := h.new t
    let newState := oldState
    let h := h.put newState (noEcho p (h.mem newState))
    let (ok, d) := d.set (h.mem newState)
    if ok = false then .ok (none, d)
    else do
      let r ← readLoop false (q.length + 1) [] q
      let (_, d) := d.set (h.mem oldState)
      .ok (some r, d)

/-! ### Windows (/repo/term_windows.go) -/

/-- Mode bits (/repo/term_windows.go:25-37). -/
def enableLineInput : BitVec 32 := 2
def enableEchoInput : BitVec 32 := 4
def enableProcessedInput : BitVec 32 := 1
def enableProcessedOutput : BitVec 32 := 1

/-- /repo/term_windows.go:81-93 `MakeRaw` on a console that answers. -/
def winRaw (st : BitVec 32) : BitVec 32 :=
  st &&& ~~~ (enableEchoInput ||| enableProcessedInput ||| enableLineInput ||| enableProcessedOutput)

/-- /repo/term_windows.go:126-171 `ReadPassword` on a console that answers: mode while reading, result, mode afterwards. -/
def winReadPassword (st : BitVec 32) (q : List Nat) : R (BitVec 32 × (Option (List Nat) × List Nat) × BitVec 32) := do
  let old := st
  let st := (st &&& ~~~ enableEchoInput) ||| (enableProcessedInput ||| enableLineInput ||| enableProcessedOutput)
  let r ← readLoop true (q.length + 1) [] q
  .ok (st, r, old)

end RL.Tty
