import Verif.Model.History
/-!
# The steps of /repo/history.go `rewriteLocked` and of an append, as seen by the file system

The file system is reduced to the two files involved; a process stop leaves the files as they are at that moment (losing
data the kernel has accepted, i.e. power failure, is not modelled).
-/

namespace RL

/-- The history file and the temporary file next to it. -/
structure FS where
  file : List Nat
  tmp : Option (List Nat)
deriving DecidableEq, Repr

/-- System calls issued by `rewriteLocked`. -/
inductive FsStep where
  /-- `os.OpenFile(tmpFile, O_CREATE|O_WRONLY|O_TRUNC|O_APPEND)` (/repo/history.go:114-115) -/
  | create
  /-- one `write` of the buffered writer (/repo/history.go:120-124) -/
  | append (bs : List Nat)
  /-- `os.Rename` (/repo/history.go:127): replaces the history file in one step -/
  | rename
deriving DecidableEq, Repr

/-- Effect of a system call. -/
def FsStep.exec : FsStep → FS → FS
  | .create, f => { f with tmp := some [] }
  | .append bs, f => { f with tmp := f.tmp.map (· ++ bs) }
  | .rename, f => match f.tmp with
    | some t => { file := t, tmp := none }
    | none => f

/-- System calls in order. -/
def execAll : List FsStep → FS → FS
  | [], f => f
  | s :: ss, f => execAll ss (s.exec f)

/-- What `rewriteLocked` puts into the new file (/repo/history.go:121-123). -/
def rewriteContent (h : Hist) : List Nat := (h.order.map fun i => Hist.fileLine (h.elems i).source).flatten

/-- `rewriteLocked` (/repo/history.go:109-137): `chunks` are the pieces in which `bufio.Writer` and the kernel write the
content; any division is possible. -/
def rewriteSteps (chunks : List (List Nat)) : List FsStep := .create :: chunks.map .append ++ [.rename]

/-- The same when the device accepts only `room` more bytes: the buffered writer stops at its first error, the error is not
looked at, and the rename happens all the same (/repo/history.go:122,124,127). -/
def rewriteStepsFull (room : Nat) (content : List Nat) : List FsStep := [.create, .append (content.take room), .rename]

end RL
