import Verif.Proofs.Roll
/-!
# Output on three terminals

The same output on a terminal without end, on one that scrolls, and on a terminal without end that starts higher up (C96).
-/

namespace RL
open Spec Spec.Term

/-- The scrolling terminal follows, if the cursor does not go up too far. -/
theorem Win.shallow {cs : List Rune} : ∀ {s : Scr} {t : Spec.Term} {k : Nat}, Win s t k → (∀ i, k ≤ (t.run (cs.take i)).row) → Shallow s.h t cs →
    ∃ k', Win (s.run cs) (t.run cs) k' ∧ (s.run cs).h = s.h ∧ k ≤ k' ∧ (k' = k ∨ ∃ i, k' + s.h = (t.run (cs.take i)).row + 1) ∧
      ∀ i, (t.run (cs.take i)).row < k' + s.h := by
  induction cs with
  | nil =>
    intro s t k h _ _
    have := h.at'
    have := h.low
    exact ⟨k, h, rfl, Nat.le_refl _, .inl rfl, fun i => by rw [List.take_nil]; show t.row < _; omega⟩
  | cons c cs ih =>
    intro s t k h hk hs
    obtain ⟨k1, g1, g2, g3⟩ := h.feed_mono c (hk 1)
    have hk1 : ∀ i, k1 ≤ ((t.feed c).run (cs.take i)).row := by
      intro i
      rcases g3 with rfl | ⟨g3, _⟩
      · exact hk (i + 1)
      · have : (t.feed c).row < ((t.feed c).run (cs.take i)).row + s.h := hs 1 (i + 1) (by omega)
        omega
    have hs1 : Shallow (s.feed c).h (t.feed c) cs := by
      intro i j hij
      rw [g2]
      exact hs (i + 1) (j + 1) (by omega)
    obtain ⟨k2, e1, e2, e3, e4, e5⟩ := ih g1 hk1 hs1
    rw [g2] at e2 e4 e5
    have hle : k ≤ k1 := by
      rcases g3 with rfl | ⟨_, g3⟩
      · exact Nat.le_refl _
      · exact g3.2
    refine ⟨k2, e1, e2, by omega, ?_, fun i => ?_⟩
    · rcases e4 with rfl | ⟨i, e4⟩
      · rcases g3 with g3 | ⟨g3, _⟩
        · exact .inl g3
        · exact .inr ⟨1, g3⟩
      · exact .inr ⟨i + 1, e4⟩
    · cases i with
      | zero =>
        have := h.at'
        have := h.low
        show t.row < _
        omega
      | succ i => exact e5 i

/-- `b` is `a`, or has been stopped at the top on the way up. -/
structure Lifted (y : Nat) (a b : Spec.Term) : Prop where
  w : a.w = b.w
  col : a.col = b.col
  pend : a.pend = b.pend
  st : a.st = b.st
  row : a.row ≤ b.row + y

namespace Lifted
variable {y : Nat} {a b : Spec.Term}

theorem put (h : Lifted y a b) (c : Rune) : Lifted y (a.put c) (b.put c) ∧ (a.row < b.row + y → (a.put c).row < (b.put c).row + y) := by
  obtain ⟨h1, h2, h3, h4, h5⟩ := h
  unfold Spec.Term.put Spec.Term.wrap Spec.Term.store
  rw [h3]
  cases b.pend with
  | true =>
    dsimp only [if_true]
    simp only [h1, if_true]
    split
    · exact ⟨⟨rfl, rfl, rfl, h4, by show a.row + 1 ≤ b.row + 1 + y; omega⟩, fun _ => by show a.row + 1 < b.row + 1 + y; omega⟩
    · exact ⟨⟨rfl, rfl, rfl, h4, by show a.row + 1 ≤ b.row + 1 + y; omega⟩, fun _ => by show a.row + 1 < b.row + 1 + y; omega⟩
  | false =>
    simp only [Bool.false_eq_true, if_false, h1, h2]
    split
    · exact ⟨⟨rfl, rfl, h3, h4, h5⟩, fun h => h⟩
    · exact ⟨⟨rfl, rfl, rfl, h4, h5⟩, fun h => h⟩

theorem csi (h : Lifted y a b) (ps : List Rune) (c : Rune) : Lifted y (a.csi ps c) (b.csi ps c) ∧
    (0 < y → a.row < b.row + y → (a.csi ps c).row < (b.csi ps c).row + y) := by
  obtain ⟨h1, h2, h3, h4, h5⟩ := h
  unfold Spec.Term.csi
  split
  · refine ⟨⟨h1, h2, rfl, h4, ?_⟩, fun _ _ => ?_⟩
    · show a.row - max 1 (num ps) ≤ b.row - max 1 (num ps) + y; omega
    · show a.row - max 1 (num ps) < b.row - max 1 (num ps) + y; omega
  · split
    · refine ⟨⟨h1, ?_, rfl, h4, h5⟩, fun _ h => h⟩
      show min (a.w - 1) (a.col + _) = min (b.w - 1) (b.col + _)
      rw [h1, h2]
    · split
      · exact ⟨⟨h1, h2, h3, h4, h5⟩, fun _ h => h⟩
      · split
        · exact ⟨⟨h1, h2, h3, h4, h5⟩, fun _ h => h⟩
        · split
          · exact ⟨⟨h1, rfl, rfl, h4, Nat.zero_le _⟩, fun hy _ => by show 0 < 0 + y; omega⟩
          · exact ⟨⟨h1, h2, h3, h4, h5⟩, fun _ h => h⟩

theorem feed (h : Lifted y a b) (c : Rune) : Lifted y (a.feed c) (b.feed c) ∧ (0 < y → a.row < b.row + y → (a.feed c).row < (b.feed c).row + y) := by
  obtain ⟨h1, h2, h3, h4, h5⟩ := h
  have h0 : Lifted y a b := ⟨h1, h2, h3, h4, h5⟩
  unfold Spec.Term.feed
  rw [h4]
  cases hs : b.st with
  | ground =>
    dsimp only
    split
    · exact ⟨⟨h1, h2, h3, rfl, h5⟩, fun _ h => h⟩
    · split
      · exact ⟨⟨h1, by show a.col - 1 = b.col - 1; rw [h2], rfl, h4, h5⟩, fun _ h => h⟩
      · split
        · exact ⟨⟨h1, rfl, rfl, h4, h5⟩, fun _ h => h⟩
        · split
          · exact ⟨⟨h1, rfl, rfl, h4, by show a.row + 1 ≤ b.row + 1 + y; omega⟩, fun _ _ => by show a.row + 1 < b.row + 1 + y; omega⟩
          · split
            · exact ⟨h0, fun _ h => h⟩
            · exact ⟨(h0.put c).1, fun _ h => (h0.put c).2 h⟩
  | esc =>
    dsimp only
    split
    · exact ⟨⟨h1, h2, h3, rfl, h5⟩, fun _ h => h⟩
    · exact ⟨⟨h1, h2, h3, rfl, h5⟩, fun _ h => h⟩
  | csi ps =>
    dsimp only
    split
    · exact ⟨⟨h1, h2, h3, rfl, h5⟩, fun _ h => h⟩
    · obtain ⟨⟨g1, g2, g3, g4, g5⟩, g6⟩ := h0.csi ps c
      exact ⟨⟨g1, g2, g3, rfl, g5⟩, g6⟩

theorem run (hy : 0 < y) {cs : List Rune} : ∀ {a b : Spec.Term}, Lifted y a b → a.row < b.row + y → (a.run cs).row < (b.run cs).row + y := by
  induction cs with
  | nil => intro a b _ h; exact h
  | cons c cs ih => intro a b h h1; exact ih (h.feed c).1 ((h.feed c).2 hy h1)

/-- If in the end `b` has not been stopped at the top, it never was, and `a` has never been above row `y`. -/
theorem above (hy : 0 < y) {cs : List Rune} : ∀ {a b : Spec.Term}, Lifted y a b → (a.run cs).row = (b.run cs).row + y → ∀ i, y ≤ (a.run (cs.take i)).row := by
  induction cs with
  | nil =>
    intro a b h h1 i
    have h1 : a.row = b.row + y := h1
    rw [List.take_nil]
    show y ≤ a.row
    omega
  | cons c cs ih =>
    intro a b h h1 i
    cases i with
    | zero =>
      show y ≤ a.row
      by_cases h2 : a.row < b.row + y
      · have := h.run hy (cs := c :: cs) h2
        omega
      · omega
    | succ i => exact ih (h.feed c).1 h1 i

end Lifted

/-- If output has the same effect on the row of the cursor when the terminal starts at the top, the cursor is never above its first row. -/
theorem never_above {a : Spec.Term} {cs : List Rune} (h : (a.run cs).row = a.row + (Spec.Term.run { a with row := 0 } cs).row) (i : Nat) :
    a.row ≤ (a.run (cs.take i)).row := by
  by_cases hy : 0 < a.row
  · exact Lifted.above hy (a := a) (b := { a with row := 0 }) ⟨rfl, rfl, rfl, rfl, by show a.row ≤ 0 + a.row; omega⟩ (by omega) i
  · omega

end RL
