import Verif.Model.Terminal
/-!
# What the key decoder should do

The input of a terminal in emacs mode is cut into `Chunk`s: ordinary runes, `ESC x`, `ESC [ parameters final` and
`ESC O parameters final`.  Each chunk stands for at most one key.  Escape may be pressed several times before a sequence.
Nothing here refers to the states of the decoder.
-/

namespace RL
namespace Spec

/-- The key meant by the final letter of a cursor sequence: arrows up, down, right, left, End, Home. -/
def cursorKey (f : Rune) : Option Rune :=
  if f = 65 then some 16 else if f = 66 then some 14 else if f = 67 then some 6 else if f = 68 then some 2
  else if f = 70 then some 5 else if f = 72 then some 1 else none

/-- The key meant by Escape followed by a letter: words left, right, delete word, delete word left, transpose words; every
other rune means itself. -/
def metaKey (r : Rune) : Rune :=
  if r = 98 then -1 else if r = 102 then -2 else if r = 100 then -3 else if r = 127 then -4 else if r = 20 then -5 else r

/-- Two decimal numbers that fit a Go `int`, separated by a semicolon and possibly followed by more. -/
def Position (ps : List Rune) : Prop :=
  ∃ a b c : List Rune, (ps = a ++ 59 :: b ∨ ps = a ++ 59 :: b ++ 59 :: c) ∧ a ≠ [] ∧ b ≠ [] ∧
    (∀ x ∈ a, 48 ≤ x ∧ x ≤ 57) ∧ (∀ x ∈ b, 48 ≤ x ∧ x ≤ 57) ∧
    a.foldl (fun n x => n * 10 + (x - 48).toNat) 0 < 2 ^ 63 ∧ b.foldl (fun n x => n * 10 + (x - 48).toNat) 0 < 2 ^ 63

/-- A unit of terminal input.  The number says how many extra times Escape was pressed. -/
inductive Chunk where
  | plain (r : Rune)
  | esc (n : Nat) (r : Rune)
  | csi (n : Nat) (ps : List Rune) (f : Rune)
  | ss3 (n : Nat) (ps : List Rune) (f : Rune)

/-- A rune that can be a parameter of a sequence. -/
def Param (U : UTables) (r : Rune) : Prop := r = 59 ∨ isNumber U r = true

namespace Chunk

/-- Which chunks there are. -/
def Ok (U : UTables) : Chunk → Prop
  | plain r => r ≠ 27
  | esc _ r => r ≠ 27 ∧ r ≠ 91 ∧ r ≠ 79
  | csi _ ps f => (∀ x ∈ ps, Param U x) ∧ ¬ Param U f
  | ss3 _ ps f => (∀ x ∈ ps, Param U x) ∧ ¬ Param U f

/-- The runes of a chunk up to and including the first one after the introducer. -/
def head : Chunk → List Rune
  | plain r => [r]
  | esc n r => List.replicate (n + 1) 27 ++ [r]
  | csi n ps f => List.replicate (n + 1) 27 ++ [91] ++ (ps ++ [f]).take 1
  | ss3 n ps f => List.replicate (n + 1) 27 ++ [79] ++ (ps ++ [f]).take 1

/-- The other runes of a chunk. -/
def body : Chunk → List Rune
  | plain _ => []
  | esc _ _ => []
  | csi _ ps f => (ps ++ [f]).drop 1
  | ss3 _ ps f => (ps ++ [f]).drop 1

/-- All runes of a chunk. -/
def runes : Chunk → List Rune
  | plain r => [r]
  | esc n r => List.replicate (n + 1) 27 ++ [r]
  | csi n ps f => List.replicate (n + 1) 27 ++ [91] ++ ps ++ [f]
  | ss3 n ps f => List.replicate (n + 1) 27 ++ [79] ++ ps ++ [f]

/-- The keys a chunk stands for. -/
def keys : Chunk → List Rune
  | plain r => [r]
  | esc _ r => [metaKey r]
  | csi _ ps f => match cursorKey f with
    | some k => [k]
    | none => if f = 126 ∧ ps = [51] then [4] else []
  | ss3 _ _ f => match cursorKey f with
    | some k => [k]
    | none => []

end Chunk

/-- `s` are the results of reading the runes `l`, with interrupted reads in between (but none after the last rune). -/
inductive Weave : List Rune → List TIn → Prop
  | nil : Weave [] []
  | rune {r : Rune} {l : List Rune} {s : List TIn} : Weave l s → Weave (r :: l) (.rune r :: s)
  | eintr {r : Rune} {l : List Rune} {s : List TIn} : Weave (r :: l) s → Weave (r :: l) (.eintr :: s)

/-- Results of reading a sequence of chunks: reads may be interrupted, except within the parameters of a sequence. -/
inductive Reads : List Chunk → List TIn → Prop
  | nil : Reads [] []
  | cons {c : Chunk} {cs : List Chunk} {h s : List TIn} : Weave c.head h → Reads cs s →
      Reads (c :: cs) (h ++ c.body.map .rune ++ s)

/-- A sequence that the end of input cuts off. -/
inductive Cut (U : UTables) : List TIn → Prop
  | none : Cut U []
  | esc {n : Nat} {s : List TIn} : Weave (List.replicate (n + 1) 27) s → Cut U s
  | intro {n : Nat} {x : Rune} {s : List TIn} : x = 91 ∨ x = 79 → Weave (List.replicate (n + 1) 27 ++ [x]) s → Cut U s
  | params {n : Nat} {x p : Rune} {ps : List Rune} {s : List TIn} : x = 91 ∨ x = 79 → Param U p →
      (∀ y ∈ ps, Param U y) → Weave (List.replicate (n + 1) 27 ++ [x, p]) s → Cut U (s ++ ps.map .rune)

/-- The steps of a terminal that delivers the keys `ks`: wait for the first kick, and again after every Ctrl-C, Enter,
Ctrl-J and Ctrl-D. -/
def delivered (ks : List Rune) : List TEv :=
  .wait :: ks.flatMap fun k => if k = 3 ∨ k = 13 ∨ k = 10 ∨ k = 4 then [.key k, .wait] else [.key k]

/-- Only waiting and keys, without position reports. -/
def noSize (es : List TEv) : List TEv := es.filter fun e => match e with | .size _ => false | _ => true

end Spec
end RL

namespace RL.Spec

/-- The position reports among the chunks: `ESC [ n ; m R`. -/
inductive Reports : List Chunk → List (List Rune) → Prop
  | nil : Reports [] []
  | report {n : Nat} {ps : List Rune} {cs : List Chunk} {rs : List (List Rune)} : Position ps → Reports cs rs →
      Reports (.csi n ps 82 :: cs) (ps :: rs)
  | other {c : Chunk} {cs : List Chunk} {rs : List (List Rune)} : (∀ n ps, c = .csi n ps 82 → ¬ Position ps) →
      Reports cs rs → Reports (c :: cs) rs

end RL.Spec
