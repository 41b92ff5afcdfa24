import Verif.Model.RawReader
import Verif.Spec.Decode
/-!
# What a keyboard on the Windows console should do

A user presses keys; the console reports them as events, with events that mean nothing in between.  The numbers of keys are those of
the Windows documentation.
-/

namespace RL
namespace Spec

open Win (Ev)

/-- What the user does. -/
inductive Press where
  /-- a key with a character -/
  | text (c : Nat)
  /-- an arrow: the number of the key -/
  | arrow (vk : Nat)
  /-- Escape, and a key after it -/
  | esc (c : Nat)
  /-- Alt is held down while keys are pressed -/
  | alt (cs : List Nat)
  /-- the left or the right Ctrl key (by its own number) is held down while keys are pressed -/
  | ctrl (vk : Nat) (cs : List Nat)

/-- The control character of a letter; a control character itself. -/
def ctrlChar (c : Nat) : Rune := if 64 ≤ c then c - 64 else c

/-- The key meant by an arrow: left, up, right, down as Ctrl-B, Ctrl-P, Ctrl-F, Ctrl-N. -/
def arrowKey (vk : Nat) : Rune := if vk = 0x25 then 2 else if vk = 0x26 then 16 else if vk = 0x27 then 6 else 14

/-- Backspace together with Alt is Delete. -/
def altRune (c : Nat) : Rune := if c = 8 then 127 else c

/-- The keys that should arrive. -/
def Press.keys : Press → List Rune
  | text c => [(c : Int)]
  | arrow vk => [arrowKey vk]
  | esc c => [metaKey c]
  | alt cs => cs.map fun c => metaKey (altRune c)
  | ctrl _ cs => cs.map ctrlChar

/-- The keys that should arrive in vim mode, where Escape is a key of its own. -/
def Press.vimKeys : Press → List Rune
  | text c => [(c : Int)]
  | arrow vk => [arrowKey vk]
  | esc c => [27, (c : Int)]
  | alt cs => cs.flatMap fun c => [27, altRune c]
  | ctrl _ cs => cs.map ctrlChar

/-- A character of the Basic Multilingual Plane, as a character, other than Escape. -/
def Char16 (c : Nat) : Prop := 0 < c ∧ c ≠ 27 ∧ c < 0x10000 ∧ ¬ (0xD800 ≤ c ∧ c < 0xE000)

/-- Which presses are meant: after Escape and Alt no bracket and no `O`, which begin sequences; with Ctrl the control characters and the letters
A, E, R, S. -/
def Press.Ok : Press → Prop
  | text c => Char16 c
  | arrow vk => 0x25 ≤ vk ∧ vk ≤ 0x28
  | esc c => Char16 c ∧ c ≠ 91 ∧ c ≠ 79
  | alt cs => ∀ c ∈ cs, Char16 c ∧ c ≠ 91 ∧ c ≠ 79
  | ctrl vk cs => (vk = 0xA2 ∨ vk = 0xA3) ∧ ∀ c ∈ cs, (0 < c ∧ c < 32 ∧ c ≠ 27) ∨ c ∈ [65, 69, 82, 83]

/-- Events that mean nothing: mouse, focus, window size; the release of a key other than the Alt and Ctrl keys; a key without a character that is none of
Alt, Ctrl, the arrows, End, Home, Delete (Shift, Caps Lock, the function keys, VK_CONTROL). -/
inductive Noise : Ev → Prop
  | other {e : Ev} : e.key = false → Noise e
  | up {e : Ev} : e.key = true → e.down = false → e.vk ∉ [0x12, 0xA2, 0xA3] → Noise e
  | dead {e : Ev} : e.key = true → e.down = true → e.ch = 0 →
      e.vk ∉ [0x12, 0xA2, 0xA3, 0x23, 0x24, 0x25, 0x26, 0x27, 0x28, 0x2E] → Noise e

/-- The events of characters typed while the key `hold` is held down: it may report itself again. -/
inductive Chars (hold : Option Nat) : List Nat → List Ev → Prop
  | nil : Chars hold [] []
  | noise {e : Ev} {cs : List Nat} {es : List Ev} : Noise e → Chars hold cs es → Chars hold cs (e :: es)
  | again {vk n : Nat} {cs : List Nat} {es : List Ev} : hold = some vk → Chars hold cs es →
      Chars hold cs ({ vk := vk, rep := n } :: es)
  | char {c : Nat} (vk : Nat) {cs : List Nat} {es : List Ev} : Chars hold cs es → Chars hold (c :: cs) ({ ch := c, vk := vk } :: es)

/-- The events of presses. -/
inductive Events : List Press → List Ev → Prop
  | nil : Events [] []
  | noise {e : Ev} {ps : List Press} {es : List Ev} : Noise e → Events ps es → Events ps (e :: es)
  | text {c : Nat} (vk : Nat) {ps : List Press} {es : List Ev} : Events ps es → Events (.text c :: ps) ({ ch := c, vk := vk } :: es)
  | arrow {vk : Nat} {ps : List Press} {es : List Ev} : Events ps es → Events (.arrow vk :: ps) ({ vk := vk } :: es)
  | esc {c : Nat} (vk : Nat) {ps : List Press} {es es' : List Ev} : Chars none [c] es → Events ps es' →
      Events (.esc c :: ps) ({ ch := 27, vk := vk } :: es ++ es')
  | alt {cs : List Nat} {ps : List Press} {es es' : List Ev} : Chars (some 0x12) cs es → Events ps es' →
      Events (.alt cs :: ps) ({ vk := 0x12 } :: es ++ { vk := 0x12, down := false } :: es')
  | ctrl {vk : Nat} {cs : List Nat} {ps : List Press} {es es' : List Ev} : Chars (some vk) cs es → Events ps es' →
      Events (.ctrl vk cs :: ps) ({ vk := vk } :: es ++ { vk := vk, down := false } :: es')

end Spec
end RL
