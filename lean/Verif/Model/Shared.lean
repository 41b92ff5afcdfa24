import Verif.Model.History
/-! Model of several sessions on one history file: /repo/history.go:66-145 and 305-324 against a file system in which a name refers to a file and
an open file stays the same file when its name is given to another one.

One step is one system call that the others can see, or one call of `New`.  Simplifications: reading the file while opening it is one step
(the loop of lines 75-88); an append is one `write` (line 316) of an `O_APPEND` file and cannot be torn; nothing fails except `os.Rename` when the
temporary file is gone.  A session that ends is forgotten; the next one with its number is a new process. -/

namespace RL.Share
open RL.Hist

/-- Where a session is in `historyUpdatePath`. -/
inductive Phase where
  | off
  /-- the file has been read and is too long -/
  | loaded
  /-- the temporary file is open as file `k`; `left` is still to be written -/
  | writing (k : Nat) (left : List Nat)
  | ready
deriving DecidableEq

structure Sess where
  h : Hist
  /-- the file behind `o.fd` -/
  ino : Nat
  phase : Phase

structure Sys where
  /-- contents of all files -/
  data : Nat → List Nat
  /-- the file named `HistoryFile` -/
  cur : Nat
  /-- the file named `HistoryFile + ".tmp"` -/
  tmp : Option Nat
  /-- the next file to be created -/
  next : Nat
  sess : Nat → Sess

inductive Step where
  /-- lines 68-88: `OpenFile` and reading -/
  | open (i : Nat)
  /-- lines 114-115: `OpenFile` with `O_TRUNC` -/
  | tmp (i : Nat)
  /-- lines 120-124: one `write` of at most `n` bytes -/
  | write (i n : Nat)
  /-- lines 127-136: `Rename`, and the new file becomes `o.fd`; if it fails the old one stays -/
  | rename (i : Nat)
  /-- `New` -/
  | save (i : Nat) (t : List Rune)
  /-- lines 139-145 -/
  | close (i : Nat)

def upd {β} (f : Nat → β) (i : Nat) (x : β) : Nat → β := fun j => if j = i then x else f j

/-- Lines 73-88: the entries of a file. -/
def load (cfg : HCfg) (d : List Nat) : Hist := loadLines cfg (termLines [] d) { fresh [] with fd := .opened }

/-- Lines 92-93. -/
def finish (h : Hist) : Hist := ({ h with ver := h.ver + 1 } : Hist).push []

/-- Lines 121-123. -/
def content (h : Hist) : List Nat := (h.order.map fun i => fileLine (h.elems i).source).flatten

/-- A step.  What a session cannot do in its phase does nothing. -/
def step (cfg : HCfg) : Step → Sys → R Sys
  | .open i, s =>
    if (s.sess i).phase = .off then
      let d := s.data s.cur
      let h := load cfg d
      if ((termLines [] d).length : Int) > cfg.limit then .ok { s with sess := upd s.sess i ⟨h, s.cur, .loaded⟩ }
      else .ok { s with sess := upd s.sess i ⟨finish h, s.cur, .ready⟩ }
    else .ok s
  | .tmp i, s =>
    if (s.sess i).phase = .loaded then
      let k := s.tmp.getD s.next
      .ok { s with
        data := upd s.data k []
        tmp := some k
        next := if s.tmp = none then s.next + 1 else s.next
        sess := upd s.sess i { s.sess i with phase := .writing k (content (s.sess i).h) } }
    else .ok s
  | .write i n, s =>
    match (s.sess i).phase with
    | .writing k left => .ok { s with data := upd s.data k (s.data k ++ left.take n), sess := upd s.sess i { s.sess i with phase := .writing k (left.drop n) } }
    | _ => .ok s
  | .rename i, s =>
    match (s.sess i).phase with
    | .writing k [] =>
      match s.tmp with
      | some k' => .ok { s with cur := k', tmp := none, sess := upd s.sess i ⟨finish (s.sess i).h, k, .ready⟩ }
      | none => .ok { s with sess := upd s.sess i ⟨finish (s.sess i).h, (s.sess i).ino, .ready⟩ }
    | _ => .ok s
  | .save i t, s =>
    if (s.sess i).phase = .ready then do
      let h ← ({ (s.sess i).h with disk := s.data (s.sess i).ino } : Hist).new cfg t
      .ok { s with data := upd s.data (s.sess i).ino h.disk, sess := upd s.sess i { s.sess i with h := h } }
    else .ok s
  | .close i, s => .ok { s with sess := upd s.sess i { s.sess i with phase := .off } }

def run (cfg : HCfg) : List Step → Sys → R Sys
  | [], s => .ok s
  | a :: as, s => step cfg a s >>= run cfg as

/-- Nobody has the file open; a temporary file may be left over from a crash. -/
def start (d : List Nat) (left : Option (List Nat)) : Sys :=
  { data := fun k => if k = 0 then d else left.getD [], cur := 0, tmp := left.map fun _ => 1, next := 2, sess := fun _ => ⟨fresh [], 0, .off⟩ }

/-- What a new reader of the history file finds. -/
def Sys.file (s : Sys) : List Nat := s.data s.cur

end RL.Share
