import Verif.Spec.Keys
import Verif.Spec.History
import Verif.Model.Operation
/-! Specification of a whole session with the editing keys, Ctrl-P, Ctrl-N, Enter, Ctrl-C and Ctrl-D: a notebook (C67). -/

namespace RL.Spec

/-- A notebook.  One page per stored entry (oldest first) and a last page for the new line.  The pages show the entries with
the changes made so far; `pos` is the open page and `line` the line being edited.  `rest` is the text to which the last page
falls back when the changes are dropped: nothing, except on the very first line of an instance without history. -/
structure Book where
  stored : List (List Rune)
  rest : List Rune
  pages : List (List Rune)
  pos : Nat
  line : Line
deriving DecidableEq

namespace Book

/-- The line is noted on the open page; pages beyond the limit are torn out at the front.  The first line of an instance
without history makes the first page. -/
def note (limit : Int) (b : Book) : Book :=
  if b.pages = [] then { b with pages := [b.line.text], pos := 0, rest := b.line.text }
  else
    { b with
      stored := keepNewest (limit - 1) b.stored
      pages := keepNewest limit (b.pages.set b.pos b.line.text)
      pos := b.pos - (b.pages.length - limit.toNat) }

/-- Open page `i`, with the cursor at the end of the line; nothing happens if there is no such page. -/
def turn (i : Nat) (b : Book) : Book :=
  match b.pages[i]? with
  | some t => { b with pos := i, line := b.line.setText t }
  | none => b

/-- Ctrl-P -/
def older (b : Book) : Book := if b.pos = 0 then b else b.turn (b.pos - 1)

/-- Ctrl-N -/
def newer (b : Book) : Book := b.turn (b.pos + 1)

/-- An empty line; what was cut can still be pasted. -/
def cleared (b : Book) : Line := ⟨[], [], b.line.kill⟩

/-- Enter.  With `save` the line is recorded and the book opens at the new last page without any changes; otherwise only
the line is emptied. -/
def submit (save : Bool) (limit : Int) (b : Book) : Book :=
  if save then
    let es := keepNewest (limit - 1) (record b.stored b.line.text)
    { stored := es, rest := [], pages := es ++ [[]], pos := es.length, line := b.cleared }
  else { b with line := b.cleared }

/-- Ctrl-C, or Ctrl-D on an empty line: all changes are dropped. -/
def cancel (b : Book) : Book :=
  { b with pages := if b.pages = [] then [] else b.stored ++ [b.rest], pos := b.stored.length, line := b.cleared }

/-- The book at the start of a session with the given entries. -/
def opened (es : List (List Rune)) : Book := { stored := es, rest := [], pages := es ++ [[]], pos := es.length, line := ⟨[], [], []⟩ }

/-- The book at the start of a session without history. -/
def empty : Book := { stored := [], rest := [], pages := [], pos := 0, line := ⟨[], [], []⟩ }

end Book

/-- One key that does not end the line: an editing key, 16 is Ctrl-P, 14 is Ctrl-N. -/
inductive BookKey (limit : Int) : Rune → Book → Book → Prop
  | edit {r b z} : Edits r b.line z → BookKey limit r b ({ b with line := z }.note limit)
  | older {b} : BookKey limit 16 b (b.older.note limit)
  | newer {b} : BookKey limit 14 b (b.newer.note limit)

/-- A sequence of such keys. -/
inductive BookKeys (limit : Int) : List Rune → Book → Book → Prop
  | nil {b} : BookKeys limit [] b b
  | cons {r rs b b' b''} : BookKey limit r b b' → BookKeys limit rs b' b'' → BookKeys limit (r :: rs) b b''

/-- A key that ends the line, and what `Readline` then returns.  Left out: Enter as the very first key of an instance
without history (C33). -/
inductive BookEnd (save : Bool) (limit : Int) : Rune → Book → Event → Book → Prop
  | enter {r b} : r = 13 ∨ r = 10 → (save = true → b.pages ≠ [] ∨ b.line.text ≠ []) →
      BookEnd save limit r b (.line b.line.text) (b.submit save limit)
  | interrupt {b} : BookEnd save limit 3 b (.interrupt b.line.text) b.cancel
  | eof {b} : b.line.text = [] → BookEnd save limit 4 b .eof b.cancel

/-- What a call that returns `e` adds to the history file. -/
def added (save : Bool) (stored : List (List Rune)) : Event → List (List Rune)
  | .line t => if save = true ∧ t ≠ [] ∧ stored.getLast? ≠ some t then [t] else []
  | _ => []

/-- A session: the keys, and the results of the calls of `Readline`. -/
inductive BookRun (save : Bool) (limit : Int) : List Rune → Book → List Event → Book → Prop
  | done {b} : BookRun save limit [] b [] b
  | call {ks r keys b b1 b2 b3 e es} : BookKeys limit ks b b1 → BookEnd save limit r b1 e b2 → BookRun save limit keys b2 es b3 →
      BookRun save limit (ks ++ r :: keys) b (e :: es) b3

end RL.Spec
