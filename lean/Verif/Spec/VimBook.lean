import Verif.Spec.Book
import Verif.Spec.Vim
/-! Specification of a whole session in vim mode: the notebook of C67 with two modes (C76). -/

namespace RL.Spec

namespace Book

/-- What Enter records.  With the last page open it is the line; with an older page open it is what has been noted there. -/
def entry (b : Book) : List Rune := if b.pos + 1 < b.pages.length then b.pages.getD b.pos [] else b.line.text

/-- The entries after Enter.  Whether anything is recorded depends on the line. -/
def recorded (b : Book) : List (List Rune) :=
  if b.line.text = [] ∨ b.stored.getLast? = some b.line.text then b.stored else b.stored ++ [b.entry]

/-- Enter. -/
def submitted (save : Bool) (limit : Int) (b : Book) : Book :=
  if save then
    let es := keepNewest (limit - 1) b.recorded
    { stored := es, rest := [], pages := es ++ [[]], pos := es.length, line := b.cleared }
  else { b with line := b.cleared }

/-- The line is noted on the open page, if that is not the last page. -/
def LineNoted (b : Book) : Prop := b.pos + 1 < b.pages.length → b.pages[b.pos]? = some b.line.text

/-- If the line is noted, Enter does what it does in the notebook of C67. -/
theorem submitted_eq {b : Book} (h : b.LineNoted) (save : Bool) (limit : Int) : b.submitted save limit = b.submit save limit := by
  have : b.entry = b.line.text := by
    unfold entry
    split
    · next hp => rw [List.getD_eq_getElem?_getD, h hp]; rfl
    · rfl
  unfold submitted submit recorded record
  rw [this]

end Book

/-- The keys that mean something in normal mode: `h j k l 0 ^ $ x r d p b B w W e E f F t T`, `i I a A s S c`, and those that
end a line or the input. -/
def vimKnown : List Rune :=
  [104, 106, 107, 108, 48, 94, 36, 120, 114, 100, 112, 98, 66, 119, 87, 101, 69, 102, 70, 116, 84,
   105, 73, 97, 65, 115, 83, 99, 13, 3, 10, 4, 0]

/-- One step that does not end the line; the flag says whether normal mode is on.  In insert mode the keys are those of C67;
27 is ESC.  In normal mode a command changes the line as in C62, but nothing is noted on the page; only `h`, `l`, `j` and `k`
also note the line. -/
inductive VimStep (limit : Int) : List Rune → Bool → Book → Bool → Book → Prop
  | insert {r b b'} : BookKey limit r b b' → VimStep limit [r] false b false b'
  | escape {b} : VimStep limit [27] false b true b
  | command {ks b z ins} : VimCmd ks b.line z ins → ks ≠ [104] → ks ≠ [108] → (∀ k ∈ ks, k ∉ [3, 4, 10, 13]) →
      VimStep limit ks true b (!ins) { b with line := z }
  | left {b} : VimStep limit [104] true b true ({ b with line := b.line.goLeft }.note limit)
  | right {b} : VimStep limit [108] true b true ({ b with line := b.line.goRight }.note limit)
  | older {b} : VimStep limit [107] true b true (b.older.note limit)
  | newer {b} : VimStep limit [106] true b true (b.newer.note limit)
  | unknown {k b} : k ∉ vimKnown → VimStep limit [k] true b true b

/-- Several steps. -/
inductive VimSteps (limit : Int) : List Rune → Bool → Book → Bool → Book → Prop
  | nil {m b} : VimSteps limit [] m b m b
  | cons {ks rest m b m1 b1 m2 b2} : VimStep limit ks m b m1 b1 → VimSteps limit rest m1 b1 m2 b2 →
      VimSteps limit (ks ++ rest) m b m2 b2

/-- A key that ends the line, and what `Readline` then returns; insert mode is on afterwards. -/
inductive VimEnd (save : Bool) (limit : Int) : Rune → Bool → Book → Event → Book → Prop
  | enter {r m b} : r = 13 ∨ (r = 10 ∧ m = false) → (save = true → b.pages ≠ [] ∨ b.line.text ≠ []) →
      VimEnd save limit r m b (.line b.line.text) (b.submitted save limit)
  | interrupt {m b} : VimEnd save limit 3 m b (.interrupt b.line.text) b.cancel
  | eof {b} : b.line.text = [] → VimEnd save limit 4 false b .eof b.cancel

/-- A session: the keys, and the results of the calls of `Readline`. -/
inductive VimRun (save : Bool) (limit : Int) : List Rune → Book → List Event → Book → Prop
  | done {b} : VimRun save limit [] b [] b
  | call {ks r keys b m b1 b2 b3 e es} : VimSteps limit ks false b m b1 → VimEnd save limit r m b1 e b2 → VimRun save limit keys b2 es b3 →
      VimRun save limit (ks ++ r :: keys) b (e :: es) b3

end RL.Spec
