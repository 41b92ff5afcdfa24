import Verif.Spec.Study
import Verif.Spec.Decode
/-! The tables of /repo/doc/shortcut.md: keys, what a terminal sends for them, and what they are said to do (C90). -/

namespace RL.Spec

/-- A key or combination of keys. -/
inductive Combo
  | text (r : Rune)
  | ctrl (c : Char)
  | alt (c : Char)
  | left | right | up | down
  | tab | enter | backspace | altBackspace
deriving DecidableEq

/-- What a terminal sends.  Ctrl and a letter is the number of the letter in the alphabet; Meta is Escape before the letter; the arrows
are `ESC [ A` to `ESC [ D`, in the other mode of the keypad `ESC O A` to `ESC O D`. -/
def Combo.sent (app : Bool) : Combo → List Rune
  | .text r => [r]
  | .ctrl c => [(c.toNat : Int) - 64]
  | .alt c => [27, (c.toNat : Int)]
  | .up => [27, if app then 79 else 91, 65]
  | .down => [27, if app then 79 else 91, 66]
  | .right => [27, if app then 79 else 91, 67]
  | .left => [27, if app then 79 else 91, 68]
  | .tab => [9]
  | .enter => [13]
  | .backspace => [127]
  | .altBackspace => [27, 127]

/-- Normal mode, the rows that concern the line only.  Left out are the uses of Ctrl-W and Ctrl-T in which the library misbehaves (C11, C13). -/
inductive DocEdit : Combo → Line → Line → Prop
  | text {r z} : 32 ≤ r → r ≠ 127 → DocEdit (.text r) z (z.insert [r])
  /-- "Beginning of line" -/
  | ctrlA {z} : DocEdit (.ctrl 'A') z z.home
  /-- "Backward one character" -/
  | ctrlB {k z} : k = .ctrl 'B' ∨ k = .left → DocEdit k z z.goLeft
  /-- "Backward one word" -/
  | altB {z z' m} : PrevWordPos z.text z.left.length m → MovedTo z z' m → DocEdit (.alt 'b') z z'
  /-- "Delete one character" -/
  | ctrlD {z} : z.text ≠ [] → DocEdit (.ctrl 'D') z z.delete
  /-- "Delete one word" -/
  | altD {z z'} : CutWordRight z z' → DocEdit (.alt 'd') z z'
  /-- "End of line" -/
  | ctrlE {z} : DocEdit (.ctrl 'E') z z.toEnd
  /-- "Forward one character" -/
  | ctrlF {k z} : k = .ctrl 'F' ∨ k = .right → DocEdit k z z.goRight
  /-- "Forward one word" -/
  | altF {z z' m} : NextWordPos z.text z.left.length m → MovedTo z z' m → DocEdit (.alt 'f') z z'
  /-- "Delete previous character" -/
  | ctrlH {k z} : k = .ctrl 'H' ∨ k = .backspace → DocEdit k z z.backspace
  /-- "Cut text to the end of line" -/
  | ctrlK {z} : DocEdit (.ctrl 'K') z z.killRight
  /-- "Transpose characters" -/
  | ctrlT {z z'} : Transposes z z' → DocEdit (.ctrl 'T') z z'
  /-- "Cut text to the beginning of line" -/
  | ctrlU {z} : DocEdit (.ctrl 'U') z z.killLeft
  /-- "Cut previous word" -/
  | ctrlW {k z z'} : k = .ctrl 'W' ∨ k = .altBackspace → CutWordLeft z z' → DocEdit k z z'

/-- The keys meant by "Other" that act on the line after the search or the list has been left: neither text nor Backspace, nor one of the
keys with a row of their own. -/
def Combo.Other (k : Combo) : Prop :=
  (∀ r, k ≠ .text r) ∧ k ≠ .backspace ∧ k ≠ .ctrl 'H' ∧ k ≠ .ctrl 'G' ∧ k ≠ .ctrl 'C' ∧ k ≠ .ctrl 'R' ∧ k ≠ .ctrl 'S'

/-- The rows of Complete Select Mode that move: from candidate `i` of `n`, in rows of `cols`, to candidate `j`. -/
inductive DocMove (n cols : Nat) : Combo → Nat → Nat → Prop
  /-- "Move Forward", after the last candidate the first -/
  | ctrlF {i} : i < n → DocMove n cols (.ctrl 'F') i (if i + 1 = n then 0 else i + 1)
  /-- "Move Backward", before the first candidate the last -/
  | ctrlB {i} : i < n → DocMove n cols (.ctrl 'B') i (if i = 0 then n - 1 else i - 1)
  /-- "Move to next line", from the last line to the first -/
  | ctrlN {i j} : i + cols < n ∧ j = i + cols ∨ n ≤ i + cols ∧ j < cols ∧ j % cols = i % cols → DocMove n cols (.ctrl 'N') i j
  /-- "Move to previous line", from the first line to the last -/
  | ctrlP {i j} : cols ≤ i ∧ j + cols = i ∨ i < cols ∧ j < n ∧ j % cols = i % cols ∧ (∀ j', j' < n → j' % cols = i % cols → j' ≤ j) →
      DocMove n cols (.ctrl 'P') i j
  /-- "Move to the first candicate in current line" -/
  | ctrlA {i j} : j / cols = i / cols → j % cols = 0 → DocMove n cols (.ctrl 'A') i j
  /-- "Move to the last candicate in current line" -/
  | ctrlE {i j} : j / cols = i / cols → j < n → (∀ j', j' < n → j' / cols = i / cols → j' ≤ j) → DocMove n cols (.ctrl 'E') i j

/-- One key that does not end the line. -/
inductive DocKey (p : StudyCfg) : Combo → Study → Study → Prop
  -- Normal mode
  | edit {k b ds z b'} : DocEdit k b.line z → b' = b.write p.limit z →
      DocKey p k ⟨b, ds, .desk .closed⟩ ⟨b', b.jot p.limit b' ds, .desk .closed⟩
  /-- "Cancel" -/
  | cancel {b ds b'} : b' = b.write p.limit b.line → DocKey p (.ctrl 'G') ⟨b, ds, .desk .closed⟩ ⟨b', b.jot p.limit b' ds, .desk .closed⟩
  /-- "Command line completion"; `m` is the list on the screen, if there is one -/
  | complete {k b ds m z m' b'} : k = .ctrl 'I' ∨ k = .tab → Completes p.f b.line m z m' → b' = b.write p.limit z →
      DocKey p k ⟨b, ds, .desk m⟩ ⟨b', b.jot p.limit b' ds, .desk m'⟩
  /-- "Next line (in history)" -/
  | next {k b ds b'} : k = .ctrl 'N' ∨ k = .down → b' = b.newer.note p.limit →
      DocKey p k ⟨b, ds, .desk .closed⟩ ⟨b', b.jot p.limit b' ds, .desk .closed⟩
  /-- "Prev line (in history)" -/
  | prev {k b ds b'} : k = .ctrl 'P' ∨ k = .up → b' = b.older.note p.limit →
      DocKey p k ⟨b, ds, .desk .closed⟩ ⟨b', b.jot p.limit b' ds, .desk .closed⟩
  /-- "Search backwards in history", "Search forwards in history" -/
  | search {k b ds m fwd} : k = (if fwd then .ctrl 'S' else .ctrl 'R') → 2 ≤ b.pages.length → b.pages.length ≤ p.limit.toNat →
      DocKey p k ⟨b, ds, .desk m⟩ ⟨b, ds, .find ⟨[], fwd, false, (0, 0), b.pos⟩⟩
  -- Search mode
  | searched {r b ds f v i} : 32 ≤ r → r ≠ 127 →
      Sought p.fold (fun i => b.pages.getD i []) (List.range b.pages.length) true { b.sight f with text := f.text ++ [r] } v → v.pos = some i →
      DocKey p (.text r) ⟨b, ds, .find f⟩ ⟨b.spot i v, ds, .find ⟨v.text, v.fwd, v.failing, v.mark, f.home⟩⟩
  /-- "Search forwards in history", "Search backwards in history" -/
  | again {k b ds f v i fwd} : k = (if fwd then .ctrl 'S' else .ctrl 'R') →
      Sought p.fold (fun i => b.pages.getD i []) (List.range b.pages.length) false { b.sight f with fwd := fwd } v → v.pos = some i →
      DocKey p k ⟨b, ds, .find f⟩ ⟨b.spot i v, ds, .find ⟨v.text, v.fwd, v.failing, v.mark, b.pos⟩⟩
  /-- "Delete previous character" -/
  | rub {k b ds f v i} : k = .backspace ∨ k = .ctrl 'H' → f.text ≠ [] →
      Sought p.fold (fun i => b.pages.getD i []) (List.range b.pages.length) true { b.sight f with text := f.text.dropLast } v → v.pos = some i →
      DocKey p k ⟨b, ds, .find f⟩ ⟨b.spot i v, ds, .find ⟨v.text, v.fwd, v.failing, v.mark, f.home⟩⟩
  /-- "Exit Search Mode and revert the history" -/
  | revert {k b ds f b'} : k = .ctrl 'C' ∨ k = .ctrl 'G' → b' = (b.turn f.home).note p.limit →
      DocKey p k ⟨b, ds, .find f⟩ ⟨b', b.jot p.limit b' ds, .desk .closed⟩
  /-- "Exit Search Mode"; the key then acts on the line found -/
  | exitSearch {k b ds f s} : k.Other → DocKey p k ⟨b, ds, .desk .closed⟩ s → DocKey p k ⟨b, ds, .find f⟩ s
  -- The list is shown, nothing is highlighted (no table)
  | follow {r b ds s cs off z m' b'} : 32 ≤ r → r ≠ 127 → Completes p.f (b.line.insert [r]) (.listed s cs off) z m' → b' = b.write p.limit z →
      DocKey p (.text r) ⟨b, ds, .desk (.listed s cs off)⟩ ⟨b', b.jot p.limit b' ds, .desk m'⟩
  | putAway {k b ds t cs off s} : k.Other → k ≠ .tab → k ≠ .ctrl 'I' → k ≠ .ctrl 'K' → DocKey p k ⟨b, ds, .desk .closed⟩ s →
      DocKey p k ⟨b, ds, .desk (.listed t cs off)⟩ s
  | dismiss {k b ds t cs off b'} : k = .ctrl 'C' ∨ k = .ctrl 'G' → b' = b.write p.limit b.line →
      DocKey p k ⟨b, ds, .desk (.listed t cs off)⟩ ⟨b', b.jot p.limit b' ds, .desk .closed⟩
  -- Complete Select Mode
  | move {k b ds cs off i j} : 0 < listColumns p.width (cs.map p.cells) off.toNat →
      DocMove cs.length (listColumns p.width (cs.map p.cells) off.toNat) k i j → DocKey p k ⟨b, ds, .desk (.chosen cs off i)⟩ ⟨b, ds, .desk (.chosen cs off j)⟩
  /-- "Use the word on cursor to complete" (Enter; for Tab this is false, `C90_false_tab`) -/
  | use {b ds cs off i x b'} : cs[i]? = some x → b' = b.write p.limit (b.line.insert x) →
      DocKey p .enter ⟨b, ds, .desk (.chosen cs off i)⟩ ⟨b', b.jot p.limit b' ds, .desk .closed⟩
  /-- "Exit Complete Select Mode" -/
  | leave {k b ds cs off i} : k = .ctrl 'C' ∨ k = .ctrl 'G' → DocKey p k ⟨b, ds, .desk (.chosen cs off i)⟩ ⟨b, ds, .desk .closed⟩
  /-- "Exit Complete Select Mode"; the key then acts on the line: the keys of the table but those of moves, Tab and Ctrl-K (C15) -/
  | exitSelect {k b ds cs off i s z b'} : k ∈ [.ctrl 'D', .ctrl 'T', .ctrl 'U', .ctrl 'W', .altBackspace, .alt 'b', .alt 'd', .alt 'f'] → DocEdit k b.line z →
      b' = b.write p.limit z → s = ⟨b', b.jot p.limit b' ds, .desk .closed⟩ → DocKey p k ⟨b, ds, .desk (.chosen cs off i)⟩ s

inductive DocKeys (p : StudyCfg) : List Combo → Study → Study → Prop
  | nil {s} : DocKeys p [] s s
  | cons {k ks s s' s''} : DocKey p k s s' → DocKeys p ks s' s'' → DocKeys p (k :: ks) s s''

/-- A key that ends the line: what `Readline` returns, the lines added to the history file, the notebook and the drafts. -/
inductive DocEnd (save : Bool) (p : StudyCfg) : Combo → Study → Event → List (List Rune) → Book → List (List Rune) → Prop
  /-- "Line feed", "Same as Enter key" -/
  | lineFeed {k b ds m} : k = .enter ∨ k = .ctrl 'J' ∨ k = .ctrl 'M' → (∀ cs off i, m ≠ .chosen cs off i) →
      DocEnd save p k ⟨b, ds, .desk m⟩ (.line b.line.text) (added save b.stored (.line b.line.text)) (b.submit save p.limit)
        (b.filed save p.limit ds (.line b.line.text))
  | found {k b ds f} : k = .enter ∨ k = .ctrl 'J' ∨ k = .ctrl 'M' →
      DocEnd save p k ⟨b, ds, .find f⟩ (.line b.line.text) ((added save b.stored (.line b.line.text)).map fun _ => b.handed ds)
        (b.submitAs save p.limit (b.handed ds)) (b.filed save p.limit ds (.line b.line.text))
  /-- the table says "Send io.EOF", which is false (`C90_false_interrupt`); the examples expect `ErrInterrupt` -/
  | ctrlC {b ds} : DocEnd save p (.ctrl 'C') ⟨b, ds, .desk .closed⟩ (.interrupt b.line.text) [] b.cancel ds
  /-- Ctrl-D on an empty line (no row) -/
  | ctrlD {b ds} : b.line.text = [] → DocEnd save p (.ctrl 'D') ⟨b, ds, .desk .closed⟩ .eof [] b.cancel ds

/-- A session: the keys, the results of the calls of `Readline`, and the lines added to the history file. -/
inductive DocRun (save : Bool) (p : StudyCfg) : List Combo → Book → List (List Rune) → List Event → List (List Rune) → Book → List (List Rune) → Prop
  | done {b ds} : DocRun save p [] b ds [] [] b ds
  | call {ks k keys b ds s b2 ds2 b3 ds3 e a es as} : DocKeys p ks ⟨b, ds, .desk .closed⟩ s → DocEnd save p k s e a b2 ds2 →
      DocRun save p keys b2 ds2 es as b3 ds3 → DocRun save p (ks ++ k :: keys) b ds (e :: es) (a ++ as) b3 ds3

end RL.Spec
