import Verif.Spec.Book
import Verif.Spec.Menu
/-! Specification of a whole session with completion: the notebook of C67 and a list of candidates (C80). -/

namespace RL.Spec

/-- What the completer answers: the candidates for a text and a position, and how many runes before the cursor they continue. -/
abbrev Answers := List Rune → Nat → List (List Rune) × Int

/-- The list of candidates: not shown; shown, for the text `source`; or shown with candidate `i` highlighted.  When a highlight has just
been given up, the list is on the screen but forgotten: `source = none`. -/
inductive Choices
  | closed
  | listed (source : Option (List Rune)) (cands : List (List Rune)) (off : Int)
  | chosen (cands : List (List Rune)) (off : Int) (i : Nat)

/-- Asking for a completion of the line `z`: the line and the list afterwards. -/
inductive Completes (f : Answers) (z : Line) : Choices → Line → Choices → Prop
  /-- the list is that of this text: its first candidate is highlighted … -/
  | select {cs off} : 2 ≤ cs.length → Completes f z (.listed (some z.text) cs off) z (.chosen cs off 0)
  /-- … or taken, if it is the only one -/
  | only {x off} : Completes f z (.listed (some z.text) [x] off) (z.insert x) .closed
  /-- no candidates -/
  | nothing {off} : f z.text z.left.length = ([], off) → Completes f z .closed z .closed
  /-- no list yet: the only candidate is taken -/
  | single {x off} : f z.text z.left.length = ([x], off) → Completes f z .closed (z.insert x) .closed
  /-- no list yet: what all candidates start with is taken -/
  | common {s cs off} : f z.text z.left.length = (cs, off) → 2 ≤ cs.length → LongestCommonPrefix s cs → s ≠ [] → Completes f z .closed (z.insert s) .closed
  /-- no list yet: the candidates have nothing in common and are listed -/
  | first {cs off} : f z.text z.left.length = (cs, off) → 2 ≤ cs.length → LongestCommonPrefix [] cs → Completes f z .closed z (.listed (some z.text) cs off)
  /-- the list is that of another text: the candidates are listed anew, also a single one -/
  | again {src cs cs' off off'} : src ≠ some z.text → f z.text z.left.length = (cs', off') → cs' ≠ [] →
      Completes f z (.listed src cs off) z (.listed (some z.text) cs' off')
  | gone {src cs off off'} : src ≠ some z.text → f z.text z.left.length = ([], off') → Completes f z (.listed src cs off) z .closed

/-- The notebook and the list. -/
structure Desk where
  book : Book
  menu : Choices

/-- The line becomes `z` and is noted in the book. -/
def Book.write (limit : Int) (z : Line) (b : Book) : Book := { b with line := z }.note limit

/-- The number of columns of a list: candidates of widths `ws`, printed after `off` cells and followed by a blank, in a window of width `w`. -/
def listColumns (w : Nat) (ws : List Nat) (off : Nat) : Nat := (w - 1) / (ws.foldl max 0 + off + 1)

/-- What a session depends on: the completer, the window, the width of a text, the number of entries kept. -/
structure DeskCfg where
  f : Answers
  width : Nat
  cells : List Rune → Nat
  limit : Int

/-- One key that does not end the line.  7 is Ctrl-G, 8 and 127 are Backspace, 9 is Tab, 11 is Ctrl-K.  Left out: moves in a list that
has no columns, and Ctrl-K in the list with a highlight (C15). -/
inductive DeskKey (p : DeskCfg) : Rune → Desk → Desk → Prop
  /-- no list: as in C67 -/
  | plain {r b b'} : BookKey p.limit r b b' → DeskKey p r ⟨b, .closed⟩ ⟨b', .closed⟩
  | tab {b m z m'} : Completes p.f b.line m z m' → DeskKey p 9 ⟨b, m⟩ ⟨b.write p.limit z, m'⟩
  | bell {b} : DeskKey p 7 ⟨b, .closed⟩ ⟨b.write p.limit b.line, .closed⟩
  /-- text typed while the list is shown: the list follows the text -/
  | text {r b s cs off z m'} : 32 ≤ r → r ≠ 127 → Completes p.f (b.line.insert [r]) (.listed s cs off) z m' →
      DeskKey p r ⟨b, .listed s cs off⟩ ⟨b.write p.limit z, m'⟩
  /-- the other keys close the list … -/
  | close {r b b' s cs off} : BookKey p.limit r b b' → r < 32 → r ≠ 8 → r ≠ 11 → r ≠ 4 → DeskKey p r ⟨b, .listed s cs off⟩ ⟨b', .closed⟩
  /-- … Backspace too, after having asked for a completion of what is left, … -/
  | rub {r b s cs off z m'} : r = 8 ∨ r = 127 → b.line.text ≠ [] → Completes p.f b.line.backspace (.listed s cs off) z m' →
      DeskKey p r ⟨b, .listed s cs off⟩ ⟨b.write p.limit z, .closed⟩
  | rubNothing {r b s cs off} : r = 8 ∨ r = 127 → b.line.text = [] → DeskKey p r ⟨b, .listed s cs off⟩ ⟨b.write p.limit b.line, .closed⟩
  /-- … and Ctrl-D, which does not end the input then, … -/
  | delete {b s cs off} : DeskKey p 4 ⟨b, .listed s cs off⟩ ⟨b.write p.limit b.line.delete, .closed⟩
  /-- … and Ctrl-G and Ctrl-C, … -/
  | leave {r b s cs off} : r = 7 ∨ r = 3 → DeskKey p r ⟨b, .listed s cs off⟩ ⟨b.write p.limit b.line, .closed⟩
  /-- … but not Ctrl-K. -/
  | kill {b t cs off} : DeskKey p 11 ⟨b, .listed (some t) cs off⟩ ⟨b.write p.limit b.line.killRight, .listed (some t) cs off⟩
  /-- moving the highlight -/
  | move {r b cs off i j} : NavKey r → 0 < listColumns p.width (cs.map p.cells) off.toNat →
      Nav cs.length (listColumns p.width (cs.map p.cells) off.toNat) r i j → DeskKey p r ⟨b, .chosen cs off i⟩ ⟨b, .chosen cs off j⟩
  /-- taking the highlighted candidate -/
  | take {r b cs off i x} : r = 13 ∨ r = 10 → cs[i]? = some x →
      DeskKey p r ⟨b, .chosen cs off i⟩ ⟨b.write p.limit (b.line.insert x), .closed⟩
  /-- giving it up -/
  | drop {r b cs off i} : r = 7 ∨ r = 3 → DeskKey p r ⟨b, .chosen cs off i⟩ ⟨b, .closed⟩
  /-- any other key gives the highlight up and acts on the list -/
  | through {r b cs off i d'} : ¬ NavKey r → r ≠ 13 → r ≠ 10 → r ≠ 7 → r ≠ 3 → r ≠ 11 → DeskKey p r ⟨b, .listed none [] 0⟩ d' →
      DeskKey p r ⟨b, .chosen cs off i⟩ d'

inductive DeskKeys (p : DeskCfg) : List Rune → Desk → Desk → Prop
  | nil {d} : DeskKeys p [] d d
  | cons {r rs d d' d''} : DeskKey p r d d' → DeskKeys p rs d' d'' → DeskKeys p (r :: rs) d d''

/-- A key that ends the line.  While the list is shown only Enter does. -/
inductive DeskEnd (save : Bool) (p : DeskCfg) : Rune → Desk → Event → Book → Prop
  | plain {r b e b'} : BookEnd save p.limit r b e b' → DeskEnd save p r ⟨b, .closed⟩ e b'
  | listed {r b s cs off e b'} : BookEnd save p.limit r b e b' → r = 13 ∨ r = 10 → DeskEnd save p r ⟨b, .listed s cs off⟩ e b'

/-- A session: the keys, and the results of the calls of `Readline`. -/
inductive DeskRun (save : Bool) (p : DeskCfg) : List Rune → Book → List Event → Book → Prop
  | done {b} : DeskRun save p [] b [] b
  | call {ks r keys b d1 b2 b3 e es} : DeskKeys p ks ⟨b, .closed⟩ d1 → DeskEnd save p r d1 e b2 → DeskRun save p keys b2 es b3 →
      DeskRun save p (ks ++ r :: keys) b (e :: es) b3

end RL.Spec
