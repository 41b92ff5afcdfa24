import Verif.Proofs.Completers
import Verif.Spec.Session
/-! # C36, C37: the completers of the library -/

namespace RL
open Spec

/-- **C36.**  When the words of the line left of the cursor lead to a command of the tree, the completer offers exactly the
rests of the words possible there that start with the unfinished word, in the order of the tree and each followed by a
blank, and reports the length of the unfinished word.  White space before words does not matter. -/
theorem C36_walk {c d : Command} {line : List Rune} {pos : Nat} {ws : List (List Rune)} {last : List Rune}
    (ht : c.Tidy line) (hpos : pos ≤ line.length) (hp : Phrase (line.take pos) ws last) (hw : Command.Walk line c ws d) :
    c.build.doLine line pos = .ok (extensions last (d.next line),
      if extensions last (d.next line) = [] then 0 else last.length) := by
  have h := (doInternal_phrase hp ht (c.build.depth + 1) (by omega)).1 d hw
  unfold PTree.doLine
  rw [← h, PTree.doInternal, PTree.doInternal, sliceTo_ok hpos, sliceTo_ok (Nat.le_refl _), List.take_length]

/-- **C36.**  When the words of the line lead nowhere, nothing is offered. -/
theorem C36_nowhere {c : Command} {line : List Rune} {pos : Nat} {ws : List (List Rune)} {last : List Rune}
    (ht : c.Tidy line) (hpos : pos ≤ line.length) (hp : Phrase (line.take pos) ws last)
    (hw : ¬ ∃ d, Command.Walk line c ws d) : c.build.doLine line pos = .ok ([], 0) := by
  have h := (doInternal_phrase hp ht (c.build.depth + 1) (by omega)).2 hw
  unfold PTree.doLine
  rw [← h, PTree.doInternal, PTree.doInternal, sliceTo_ok hpos, sliceTo_ok (Nat.le_refl _), List.take_length]

/-- **C36.**  The two theorems cover every line: it can always be cut into words and an unfinished word. -/
theorem C36_total (line : List Rune) (pos : Nat) : ∃ ws last, Phrase (line.take pos) ws last := phrase_total _

/-- What is offered, in words: `x` is offered exactly when the unfinished word completed by `x` is one of the possible
words followed by a blank. -/
theorem C36_offered {last : List Rune} {names : List (List Rune)} {x : List Rune} :
    x ∈ extensions last names ↔ ∃ n ∈ names, ∃ y, n = last ++ y ∧ x = y ++ [32] := by
  unfold extensions
  simp only [List.mem_map, List.mem_filter, List.isPrefixOf_iff_prefix]
  constructor
  · rintro ⟨n, ⟨hn, y, rfl⟩, rfl⟩
    exact ⟨_, hn, y, rfl, by simp⟩
  · rintro ⟨n, hn, y, rfl, rfl⟩
    exact ⟨_, ⟨hn, y, rfl⟩, by simp⟩

/-- The tree `mode {vi em} | say {he hi}` and a word computed from the line. -/
def tree36 : Command :=
  .word [] [.word [109, 111, 100, 101] [.word [118, 105] [], .word [101, 109] []],
    .word [115, 97, 121] [.word [104, 101] [], .word [104, 105] []], .dynamic (fun l => [l.drop 8 ++ [33]]) []]

/-- Non-trivial case of `C36_walk`: the line "  say   h" in that tree. -/
example : ∃ d, tree36.Tidy [32, 32, 115, 97, 121, 32, 32, 32, 104] ∧
    Command.Walk [32, 32, 115, 97, 121, 32, 32, 32, 104] tree36 [[115, 97, 121]] d ∧
    Phrase [32, 32, 115, 97, 121, 32, 32, 32, 104] [[115, 97, 121]] [104] ∧
    extensions [104] (d.next [32, 32, 115, 97, 121, 32, 32, 32, 104]) = [[101, 32], [105, 32]] := by
  refine ⟨.word [115, 97, 121] [.word [104, 101] [], .word [104, 105] []], ?_, ?_, ?_, by decide⟩
  · intro d hd
    have hcase : ∀ {e}, Command.Below tree36 e → e = tree36 ∨ e ∈ tree36.children ∨ ∃ x ∈ tree36.children, e ∈ x.children := by
      intro e h
      cases h with
      | here => exact .inl rfl
      | step h1 h2 =>
        right
        cases h2 with
        | here => exact .inl h1
        | @step _ y _ h3 h4 =>
          right
          cases h4 with
          | here => exact ⟨_, h1, h3⟩
          | step h5 _ =>
            simp only [tree36, Command.children, List.mem_cons, List.not_mem_nil, or_false] at h1
            rcases h1 with rfl | rfl | rfl <;>
              simp only [Command.children, List.mem_cons, List.not_mem_nil, or_false] at h3
            · rcases h3 with rfl | rfl <;> cases h5
            · rcases h3 with rfl | rfl <;> cases h5
    rcases hcase hd with rfl | h | ⟨x, h1, h2⟩
    · decide
    · simp only [tree36, Command.children, List.mem_cons, List.not_mem_nil, or_false] at h
      rcases h with rfl | rfl | rfl <;> decide
    · simp only [tree36, Command.children, List.mem_cons, List.not_mem_nil, or_false] at h1
      rcases h1 with rfl | rfl | rfl <;>
        simp only [Command.children, List.mem_cons, List.not_mem_nil, or_false] at h2
      · rcases h2 with rfl | rfl <;> decide
      · rcases h2 with rfl | rfl <;> decide
  · exact .step (d := .word [115, 97, 121] _) (by simp [tree36, Command.children]) (by simp [Command.names]) .here
  · exact .word (a := [32, 32]) (w := [115, 97, 121]) (rest := [32, 32, 104]) (by decide) (by decide) (by decide)
      (by intro x hx; cases hx; rfl) (.last (a := [32, 32]) (last := [104]) (by decide) (by decide) (by intro x hx; cases hx; rfl))

example : tree36.build.doLine [32, 32, 115, 97, 121, 32, 32, 32, 104] 9 = .ok ([[101, 32], [105, 32]], 1) := by decide

/-- Pressing Tab with this completer after "say hi" typed up to "sa" completes the word. -/
example : firstResult { c0 with auto := some fun l p => match tree36.build.doLine l p with
      | .ok (cs, n) => (cs, n)
      | .error _ => ([], 0) } (o0 [115, 97, 9, 13]) = .ok (.line [115, 97, 121, 32]) := by decide

/-! ### C37 -/

/-- **C37.**  `SplitSegment` cuts the line left of the cursor at blanks: the pieces contain no blank, joining them with blanks
gives the text back, and the number reported is the length of the last piece. -/
theorem C37_split {line : List Rune} {pos : Nat} (hpos : pos ≤ line.length) : ∃ (ss : List (List Rune)) (last : List Rune),
    splitSegment line pos = .ok (ss ++ [last], last.length) ∧ (∀ x ∈ ss ++ [last], (32 : Rune) ∉ x) ∧
    ss.flatMap (· ++ [32]) ++ last = line.take pos := by
  unfold splitSegment
  rw [sliceTo_ok hpos, R.bind_ok]
  obtain ⟨f, p, ss, e, h1, h2, h3, h4, h5⟩ := splitLoop_spec (line.take pos) (line.take pos) 0 0 [] (Nat.le_refl _) rfl
    (Nat.zero_le _) (by simp) rfl (by simp)
  rw [Nat.sub_zero] at e
  rw [e]
  dsimp only [R.bind_ok]
  rw [sliceFrom_ok h1]
  refine ⟨ss, (line.take pos).drop f, ?_, ?_, ?_⟩
  · rw [R.bind_ok, h2, List.length_drop]
  · intro x hx
    rcases List.mem_append.mp hx with hx | hx
    · exact h5 x hx
    · rw [List.mem_singleton.mp hx]; exact h3
  · rw [h4, List.take_append_drop]

/-- **C37.**  `SegmentComplete.Do` asks the callback once, with the pieces of the line, and answers with the missing text of
exactly the candidates that extend the last piece, each followed by a blank, and the length of the last piece. -/
theorem C37_complete (f : List (List Rune) → Nat → List (List Rune)) {line : List Rune} {pos : Nat} (hpos : pos ≤ line.length) :
    ∃ (ss : List (List Rune)) (last : List Rune), (∀ x ∈ ss ++ [last], (32 : Rune) ∉ x) ∧
      ss.flatMap (· ++ [32]) ++ last = line.take pos ∧
      segmentDo f line pos = .ok (extensions last (f (ss ++ [last]) last.length), last.length) := by
  obtain ⟨ss, last, h1, h2, h3⟩ := C37_split hpos
  refine ⟨ss, last, h2, h3, ?_⟩
  unfold segmentDo
  rw [h1, R.bind_ok]
  dsimp only
  have hr : retSegment (ss ++ [last]) (f (ss ++ [last]) last.length) last.length =
      .ok (((f (ss ++ [last]) last.length).filter fun c => hasPrefix c last).map (·.drop last.length), last.length) := by
    unfold retSegment
    rw [List.getLast?_concat]
  rw [hr, R.bind_ok]
  dsimp only
  rw [List.map_map]
  unfold extensions
  rw [show (fun c => hasPrefix c last) = fun c => last.isPrefixOf c from funext fun c => by
    rw [Bool.eq_iff_iff, hasPrefix_iff, List.isPrefixOf_iff_prefix]]
  rfl

/-- "a  bc|d": pieces "a", "", "bc"; of the candidates "bcx", "bd", "bc" two are offered. -/
example : splitSegment [97, 32, 32, 98, 99, 100] 5 = .ok ([[97], [], [98, 99]], 2) ∧
    segmentDo (fun _ _ => [[98, 99, 120], [98, 100], [98, 99]]) [97, 32, 32, 98, 99, 100] 5 =
      .ok ([[120, 32], [32]], 2) := by decide

end RL
