import Verif.Spec.Desk
import Verif.Spec.Search
/-! Specification of a whole session with editing, history, completion and incremental search: the notebook of C67, the list of
candidates of C80 and a finder (C82). -/

namespace RL.Spec

/-- A running search: what it looks for, its direction, whether it has just failed, the marked part of the line, and the page to which
Ctrl-G goes back. -/
structure Finder where
  text : List Rune
  fwd : Bool
  failing : Bool
  mark : Nat × Nat
  home : Nat
deriving DecidableEq

/-- Either the list of candidates is at hand, or the finder; never both. -/
inductive Tool
  | desk (menu : Choices)
  | find (finder : Finder)

/-- The notebook, what was last noted on each page, and the tool.  A draft outlives the line it was written for: nothing wipes it. -/
structure Study where
  book : Book
  drafts : List (List Rune)
  tool : Tool

namespace Book

/-- What the finder sees. -/
def sight (b : Book) (f : Finder) : SView :=
  { text := f.text, fwd := f.fwd, failing := f.failing, line := b.line.text, cursor := b.line.left.length, mark := f.mark, pos := some b.pos }

/-- The page found, with the cursor where the finder put it. -/
def spot (i : Nat) (v : SView) (b : Book) : Book :=
  { b with pos := i, line := ⟨v.line.take v.cursor, v.line.drop v.cursor, b.line.kill⟩ }

/-- The drafts `ds` after the line of `b'` has been noted, where `b'` is the book after the key and `b` the one before. -/
def jot (limit : Int) (b b' : Book) (ds : List (List Rune)) : List (List Rune) :=
  if b.pages = [] then [[]] else keepNewest limit (ds.set (b'.pos + (b.pages.length - limit.toNat)) b'.line.text)

/-- The drafts after `Readline` has returned `e`. -/
def filed (save : Bool) (limit : Int) (b : Book) (ds : List (List Rune)) : Event → List (List Rune)
  | .line t =>
    if save = false then ds
    else if b.pages = [] then keepNewest limit [[], []]
    else if t = [] ∨ b.stored.getLast? = some t then keepNewest limit (ds.dropLast ++ [[]])
    else keepNewest limit (ds ++ [[]])
  | _ => ds

/-- What Enter hands in during a search: on the last page the line, on an older page the draft of that page. -/
def handed (b : Book) (ds : List (List Rune)) : List Rune := if b.pos + 1 < b.pages.length then ds.getD b.pos [] else b.line.text

/-- The entries after Enter has handed in `t`; whether anything is recorded depends on the line. -/
def submitAs (save : Bool) (limit : Int) (t : List Rune) (b : Book) : Book :=
  if save then
    let es := keepNewest (limit - 1) (if b.line.text = [] ∨ b.stored.getLast? = some b.line.text then b.stored else b.stored ++ [t])
    { stored := es, rest := [], pages := es ++ [[]], pos := es.length, line := b.cleared }
  else { b with line := b.cleared }

end Book

structure StudyCfg extends DeskCfg where
  /-- upper and lower case are the same to the finder -/
  fold : Bool

/-- A key that only moves or drops the highlight. -/
def Highlight (r : Rune) : Choices → Prop
  | .chosen _ _ _ => NavKey r ∨ r = 7 ∨ r = 3
  | _ => False

/-- One key that does not end the line.  18 is Ctrl-R, 19 Ctrl-S.  Left out: starting a search in a notebook with less than two pages or
with more pages than are kept, which only happens before the first key of a session. -/
inductive StudyKey (p : StudyCfg) : Rune → Study → Study → Prop
  /-- no search: as in C80 -/
  | desk {r b ds m b' m'} : DeskKey p.toDeskCfg r ⟨b, m⟩ ⟨b', m'⟩ → ¬ Highlight r m →
      StudyKey p r ⟨b, ds, .desk m⟩ ⟨b', b.jot p.limit b' ds, .desk m'⟩
  | list {r b ds m b' m'} : DeskKey p.toDeskCfg r ⟨b, m⟩ ⟨b', m'⟩ → Highlight r m →
      StudyKey p r ⟨b, ds, .desk m⟩ ⟨b', ds, .desk m'⟩
  /-- the search begins; a list of candidates is put away -/
  | search {r b ds m} : r = 18 ∨ r = 19 → 2 ≤ b.pages.length → b.pages.length ≤ p.limit.toNat →
      StudyKey p r ⟨b, ds, .desk m⟩ ⟨b, ds, .find ⟨[], r == 19, false, (0, 0), b.pos⟩⟩
  /-- text, Backspace, Ctrl-R and Ctrl-S look for the nearest hit, as in C66; Ctrl-R and Ctrl-S make the page shown the one to go back to -/
  | seek {r b ds f v i} : SearchStep p.fold (fun i => b.pages.getD i []) (List.range b.pages.length) r (b.sight f) v → v.pos = some i →
      StudyKey p r ⟨b, ds, .find f⟩ ⟨b.spot i v, ds, .find ⟨v.text, v.fwd, v.failing, v.mark, if r = 18 ∨ r = 19 then b.pos else f.home⟩⟩
  /-- Ctrl-G and Ctrl-C go back -/
  | giveUp {r b ds f b'} : r = 7 ∨ r = 3 → b' = (b.turn f.home).note p.limit → StudyKey p r ⟨b, ds, .find f⟩ ⟨b', b.jot p.limit b' ds, .desk .closed⟩
  /-- the other keys keep the line found and act on it -/
  | keep {r b ds f b'} : BookKey p.limit r b b' → r < 32 → r ≠ 8 → r ≠ 4 → StudyKey p r ⟨b, ds, .find f⟩ ⟨b', b.jot p.limit b' ds, .desk .closed⟩
  | delete {b ds f b'} : b' = b.write p.limit b.line.delete → StudyKey p 4 ⟨b, ds, .find f⟩ ⟨b', b.jot p.limit b' ds, .desk .closed⟩
  | tab {b ds f z m' b'} : Completes p.f b.line .closed z m' → b' = b.write p.limit z → StudyKey p 9 ⟨b, ds, .find f⟩ ⟨b', b.jot p.limit b' ds, .desk m'⟩

inductive StudyKeys (p : StudyCfg) : List Rune → Study → Study → Prop
  | nil {s} : StudyKeys p [] s s
  | cons {r rs s s' s''} : StudyKey p r s s' → StudyKeys p rs s' s'' → StudyKeys p (r :: rs) s s''

/-- A key that ends the line: what `Readline` returns, the lines added to the history file, the notebook and the drafts. -/
inductive StudyEnd (save : Bool) (p : StudyCfg) : Rune → Study → Event → List (List Rune) → Book → List (List Rune) → Prop
  | desk {r b ds m e b'} : DeskEnd save p.toDeskCfg r ⟨b, m⟩ e b' →
      StudyEnd save p r ⟨b, ds, .desk m⟩ e (added save b.stored e) b' (b.filed save p.limit ds e)
  /-- Enter during a search returns the line, but hands in the draft -/
  | found {r b ds f} : r = 13 ∨ r = 10 →
      StudyEnd save p r ⟨b, ds, .find f⟩ (.line b.line.text) ((added save b.stored (.line b.line.text)).map fun _ => b.handed ds)
        (b.submitAs save p.limit (b.handed ds)) (b.filed save p.limit ds (.line b.line.text))

/-- A session: the keys, and the results of the calls of `Readline`. -/
inductive StudyRun (save : Bool) (p : StudyCfg) : List Rune → Book → List (List Rune) → List Event → Book → List (List Rune) → Prop
  | done {b ds} : StudyRun save p [] b ds [] b ds
  | call {ks r keys b ds s1 b2 ds2 b3 ds3 e a es} : StudyKeys p ks ⟨b, ds, .desk .closed⟩ s1 → StudyEnd save p r s1 e a b2 ds2 →
      StudyRun save p keys b2 ds2 es b3 ds3 → StudyRun save p (ks ++ r :: keys) b ds (e :: es) b3 ds3

end RL.Spec
