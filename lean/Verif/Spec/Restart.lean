import Verif.Spec.Book
import Verif.Spec.Decode
import Verif.Spec.Session
import Verif.Model.Terminal
/-! Specification of several runs of a program that share a history file (C74). -/

namespace RL.Spec

/-- The lines among the results of the calls of `Readline`. -/
def submitted : List Event → List (List Rune)
  | [] => []
  | .line t :: es => t :: submitted es
  | _ :: es => submitted es

/-- Runs of a program, one after the other, on a history file that holds `es` at first.  In each run the terminal sends some
bytes, the calls of `Readline` return what the notebook of the newest entries says for the keys typed, and the file then
holds those entries and the lines submitted, without empty lines and immediate repetitions. -/
inductive Runs (U : UTables) (limit : Int) : List (List Rune) → List (List Nat × List Event) → List (List Rune) → Prop
  | none {es} : Runs U limit es [] es
  | run {es evs b rs es'} {cs : List Chunk} {t : List Rune} : (∀ c ∈ cs, Chunk.Ok U c) → (∀ r ∈ cs.flatMap Chunk.runes ++ t, Scalar r) → Cut U (t.map .rune) →
      BookRun true limit (cs.flatMap Chunk.keys) (Book.opened (keepNewest limit es)) evs b →
      (∀ s ∈ submitted evs, s = [] ∨ Storable s) →
      Runs U limit ((submitted evs).foldl record (keepNewest limit es)) rs es' →
      Runs U limit es ((encode (cs.flatMap Chunk.runes ++ t), evs) :: rs) es'

end RL.Spec

namespace RL

/-- Runs of a program one after the other: each starts on the history file the previous one left, receives the given bytes
and calls `Readline` the given number of times.  The results of the calls, and the file at the end. -/
def runs (c : OCfg) (prompt : List Rune) (w : Int) (fuel : Nat) : List Nat → List (List Nat × Nat) → R (List (List Event) × List Nat)
  | disk, [] => .ok ([], disk)
  | disk, (bytes, n) :: rs => do
    let o := Op.init prompt true w (Hist.start c.h disk) (termKeys c.U false (readBytes bytes))
    let es ← calls c fuel n o
    let o ← after c fuel n o
    let (l, disk) ← runs c prompt w fuel o.hist.disk rs
    .ok (es :: l, disk)

end RL
