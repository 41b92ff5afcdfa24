import Verif.Model.RemoteCli
/-! Specification of a session on a remote terminal (C88). -/

namespace RL.Cli

/-- What the user has typed, read by read: everything up to an end of input before which nothing was typed.  (A terminal can go on after the end
of input; `some`: something was typed since the last one.) -/
def pieces (some : Bool) : List Src → List (List Nat)
  | [] => []
  | .data b :: s => if b = [] then pieces some s else b :: pieces true s
  | .eof :: s => if some then pieces false s else []
  | .err :: s => if some then pieces false s else []

/-- The bytes the user has typed. -/
def typed (s : List Src) : List Nat := (pieces false s).flatten

/-- Messages a client may send after its greeting: the frames `fs`, and reports of the width in between. -/
def Mixed (fs ms : List Msg) : Prop :=
  ms.filter (·.typ ≠ T_WIDTH_REPORT) = fs ∧ ∀ m ∈ ms, m.typ = T_WIDTH_REPORT → m.data.length = 2

/-- The switches between the modes in messages of a server: raw mode is entered only when it is not on. -/
def Balanced : (raw : Bool) → List Msg → Prop
  | _, [] => True
  | raw, m :: ms => if m.typ = T_ERAW then Balanced false ms else if m.typ = T_RAW then raw = false ∧ Balanced true ms else Balanced raw ms

/-- The texts of messages. -/
def texts (ms : List Msg) : List Nat := (ms.filter (·.typ = T_DATA)).flatMap (·.data)

end RL.Cli

namespace RL.Remote

/-- States reached when the server handles a message, including the signal for the reader, only while the reader waits for it or is not in `Read`;
the reader has a buffer. -/
inductive Calm (ms : List Msg) : St → Prop
  | init : Calm ms (St.init ms)
  | step {s t : St} : Calm ms s → Step s t → (t.handled ≠ s.handled → s.reader = .idle ∨ ∃ k, s.reader = .wait k) →
      (s.recv = .signal → t.recv ≠ .signal) → t.reader ≠ .first 0 → Calm ms t

end RL.Remote
