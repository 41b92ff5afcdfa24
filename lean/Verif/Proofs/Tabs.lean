import Verif.Props.Screen
import Verif.Spec.Tabs
/-! Lemmas for C98: lines with tabs that take one row. -/

namespace RL
open Spec Term Spec.Term RB

variable {U : UTables} {d : DCfg} {w : Nat} {vis : List Rune}

/-- The rune takes one cell, or is a tab. -/
def CellOrTab (U : UTables) (c : Rune) : Prop := c = 9 ∨ Cell U c

theorem detab_cons (n : Nat) (c : Rune) (s : List Rune) : detab n (c :: s) = (if c = 9 then List.replicate n 32 else [c]) ++ detab n s := rfl

theorem detab_append (n : Nat) (a b : List Rune) : detab n (a ++ b) = detab n a ++ detab n b := by simp [detab]

theorem detab_width {s : List Rune} (h : ∀ c ∈ s, CellOrTab U c) : widthAll U s = (detab U.tabWidth s).length := by
  induction s with
  | nil => rfl
  | cons c s ih =>
    rw [widthAll, detab_cons, List.length_append, ih fun x hx => h x (List.mem_cons_of_mem _ hx)]
    congr 1
    by_cases e : c = 9
    · rw [if_pos e, List.length_replicate, runeWidth, if_pos (show c = CharTab from e)]
    · rw [if_neg e]
      rcases h c (List.mem_cons_self ..) with h | h
      · exact absurd h e
      · exact h.2

theorem detab_printable {n : Nat} {s : List Rune} (h : ∀ c ∈ s, CellOrTab U c) : ∀ c ∈ detab n s, Printable c := by
  intro c hc
  simp only [detab, List.mem_flatMap] at hc
  obtain ⟨x, hx, hc⟩ := hc
  by_cases e : x = 9
  · rw [if_pos e] at hc
    obtain rfl := List.eq_of_mem_replicate hc
    exact ⟨by omega, by omega, by omega⟩
  · rw [if_neg e, List.mem_singleton] at hc
    rw [hc]
    rcases h x hx with h | h
    · exact absurd h e
    · exact h.1

theorem paint_tabs (U : UTables) (s : List Rune) : chars (s.flatMap (RB.paintTok U)) = detab U.tabWidth s := by
  induction s with
  | nil => rfl
  | cons c s ih =>
    rw [List.flatMap_cons, chars_append, ih, detab_cons, RB.paintTok]
    congr 1
    by_cases e : c = 9
    · rw [if_pos e, if_pos (show c = CharTab from e)]
      have : List.replicate U.tabWidth (Tok.ch 32) = (List.replicate U.tabWidth (32 : Rune)).map Tok.ch := by simp
      rw [this, chars_ch]
    · rw [if_neg e, if_neg (show ¬ c = CharTab from e)]
      exact chars_ch [c]

theorem detab_le {n : Nat} (hn : 0 < n) (s : List Rune) : s.length ≤ (detab n s).length := by
  induction s with
  | nil => exact Nat.le_refl 0
  | cons c s ih =>
    rw [detab_cons, List.length_append, List.length_cons]
    split
    · rw [List.length_replicate]; omega
    · simp; omega

theorem detab_eq_iff {n : Nat} (hn : 1 < n) (s : List Rune) : (detab n s).length = s.length ↔ (9 : Rune) ∉ s := by
  induction s with
  | nil => simp [detab]
  | cons c s ih =>
    rw [detab_cons, List.length_append, List.length_cons]
    have := detab_le (n := n) (by omega) s
    by_cases e : c = 9
    · rw [if_pos e, List.length_replicate, e]
      simp only [List.mem_cons, true_or, not_true, iff_false]
      omega
    · rw [if_neg e]
      simp only [List.mem_cons, not_or, List.length_singleton, ← ih]
      constructor
      · intro h; exact ⟨fun h => e h.symm, by omega⟩
      · intro h; omega

/-- What C98 assumes of the buffer: `Plain` with tabs, the default painter, and a line that with its tabs expanded leaves a column of the row free. -/
structure Tabbed (U : UTables) (d : DCfg) (w : Nat) (vis : List Rune) (r : RB) : Prop where
  width : r.width = (w : Int)
  prompt : Coloured r.prompt vis
  visS : Singles U vis
  buf : ∀ c ∈ r.buf, CellOrTab U c
  idx : r.idx ≤ r.buf.length
  mask : d.enableMask = false
  paint : ∃ f, d.painter = some f ∧ ∀ s i, f s i = s
  unix : d.windows = false
  tab : 0 < U.tabWidth
  fits : vis.length + (detab U.tabWidth r.buf).length + 1 < w

/-- The column of the terminal's cursor: one step to the left of the end for every rune from the editing cursor on. -/
def tabCol (U : UTables) (vis : List Rune) (r : RB) : Nat := vis.length + (detab U.tabWidth r.buf).length - (r.buf.length - r.idx)

namespace Tabbed
variable {r : RB}

theorem promptLen (h : Tabbed U d w vis r) : r.promptLen U = .ok vis.length := by
  unfold RB.promptLen
  have := colorFilter_of_filtered h.prompt.filter
  cases hc : colorFilter r.prompt with
  | error e => rw [hc] at this; simp [okOpt] at this
  | ok t =>
    rw [hc] at this
    simp only [okOpt, Option.some.injEq] at this
    subst this
    simp [h.visS.widthAll]

theorem splitGo_row {w : Nat} {rs : List Rune} : ∀ {cur : Nat} {acc : List Rune}, cur + widthAll U rs < w → splitGo U w cur acc rs = [acc ++ rs] := by
  induction rs with
  | nil => intro cur acc _; simp [splitGo]
  | cons c cs ih =>
    intro cur acc h
    rw [widthAll] at h
    unfold splitGo
    dsimp only
    rw [if_neg (by omega)]
    have := ih (cur := cur + runeWidth U c) (acc := acc ++ [c]) (by omega)
    rw [Int.natCast_add] at this
    rw [this]
    simp

theorem idxLine (h : Tabbed U d w vis r) : r.idxLine U r.width = .ok 0 := by
  unfold RB.idxLine
  rw [if_neg (by rw [h.width]; have := h.fits; omega)]
  unfold sliceTo RB.getSplitByLine
  rw [if_pos h.idx]
  simp only [h.promptLen, R.bind_ok, h.width, splitByLine]
  have e : widthAll U (r.buf.take r.idx) ≤ widthAll U r.buf := by
    have : ∀ (s : List Rune) (n : Nat), widthAll U (s.take n) ≤ widthAll U s := by
      intro s
      induction s with
      | nil => intro n; simp
      | cons c s ih =>
        intro n
        cases n with
        | zero => simp [widthAll]
        | succ n => rw [List.take_succ_cons, widthAll, widthAll]; have := ih n; omega
    exact this _ _
  have hf := h.fits
  rw [← detab_width h.buf] at hf
  rw [splitGo_row (by omega)]
  rfl

theorem edge (h : Tabbed U d w vis r) : r.isInLineEdge U d.windows = .ok (decide (r.buf = [])) := by
  rw [h.unix]
  unfold RB.isInLineEdge RB.getSplitByLine
  rw [if_neg Bool.false_ne_true]
  simp only [R.bind_ok, h.promptLen, h.width, splitByLine]
  have hf := h.fits
  rw [← detab_width h.buf] at hf
  rw [splitGo_row (by omega)]
  simp only [List.nil_append, List.getLast?_singleton, Except.ok.injEq]
  rw [Bool.eq_iff_iff]
  simp

/-- The way back to the cursor. -/
theorem backspaces (h : Tabbed U d w vis r) (hi : r.idx < r.buf.length) :
    ∃ sep, r.getBackspaceSequence U = .ok (bsLoop w sep r.idx (r.buf.length - r.idx)) ∧ ∀ i : Nat, 0 < i → i ≤ r.buf.length → ¬ (i : Int) ∈ sep := by
  have hf := h.fits
  have hl := detab_le h.tab r.buf
  have hW := detab_width h.buf
  unfold getBackspaceSequence
  rw [hW, if_neg (by omega)]
  simp only [h.promptLen, R.bind_ok, h.width]
  refine ⟨[(w : Int) - vis.length], ?_, fun i h1 h2 hm => ?_⟩
  · have : sepLoop (detab U.tabWidth r.buf).length vis.length w (sepFuel (detab U.tabWidth r.buf).length vis.length) 0 [] = .ok [(w : Int) - vis.length] := by
      unfold sepFuel
      rw [sepLoop, if_neg (by omega)]
      dsimp only
      rw [if_pos rfl, show ((0 : Int) - vis.length + w) = (w : Int) - vis.length by omega]
      rw [sepLoop.eq_def]
      dsimp only
      rw [if_pos (by omega)]
    rw [this]
    rfl
  · rw [List.mem_singleton] at hm
    omega

/-- The characters of a redraw on a blank area. -/
theorem drawn (h : Tabbed U d w vis r) {ts : List Tok} (ho : r.output U d = .ok ts) {t0 t : Spec.Term} (hw : t0.w = w) {y : Nat}
    (ht : Drawn t0 t y [] 0) :
    (t.run (chars ts)).w = w ∧ (∀ a, a < y → ∀ c, (t.run (chars ts)).cell a c = t0.cell a c) ∧
    (t.run (chars ts)).Shows y (vis ++ detab U.tabWidth r.buf) (tabCol U vis r) := by
  have hf := h.fits
  have hw0 : 0 < t0.w := by omega
  obtain ⟨f, hf', hid⟩ := h.paint
  have d1 := run_coloured h.prompt hw0 (text := []) (by simpa using ht)
  simp only [List.nil_append] at d1
  have d2 := run_coloured (.plain (detab_printable h.buf)) hw0 d1 (s := detab U.tabWidth r.buf)
  have hlen : (vis ++ detab U.tabWidth r.buf).length = vis.length + (detab U.tabWidth r.buf).length := List.length_append ..
  -- the tokens
  obtain ⟨bs, ets, hb1, hb2⟩ : ∃ bs, ts = r.prompt.map Tok.ch ++ (r.buf.flatMap (RB.paintTok U) ++ ((if r.buf = [] then [.ch 32, .bs] else []) ++ bs)) ∧
      (r.idx < r.buf.length → r.getBackspaceSequence U = .ok bs) ∧ (¬ r.idx < r.buf.length → bs = []) := by
    unfold RB.output at ho
    simp only [h.mask, Bool.false_eq_true, false_and, if_false, hf', hid, h.edge, R.bind_ok] at ho
    by_cases he : r.buf = [] <;> by_cases hi : r.buf.length > r.idx
    all_goals simp only [he, hi, decide_true, decide_false, Bool.false_eq_true, if_true, if_false] at ho
    · rw [he] at hi; cases hi
    · have : ¬ ([] : List Rune).length > r.idx := by simp
      rw [if_neg this] at ho
      cases ho
      exact ⟨[], by simp [he], fun h => absurd h hi, fun _ => rfl⟩
    · obtain ⟨b, hb, ho⟩ := R.bind_inv ho
      cases ho
      exact ⟨b, by rw [if_neg he]; simp, fun _ => hb, fun h => absurd hi h⟩
    · cases ho
      exact ⟨[], by rw [if_neg he]; simp, fun h => absurd h hi, fun _ => rfl⟩
  rw [ets, chars_append, run_append, chars_ch, chars_append, run_append, paint_tabs, chars_append, run_append]
  generalize hk : vis.length + (detab U.tabWidth r.buf).length = k at *
  rw [hlen] at d2
  generalize (t.run r.prompt).run (detab U.tabWidth r.buf) = t2 at d2
  have hw2 : t2.w = w := d2.w.trans hw
  have hkw : k % w = k := Nat.mod_eq_of_lt (by omega)
  have hkd : k / w = 0 := Nat.div_eq_of_lt (by omega)
  have key : ∃ t3, t2.run (chars (if r.buf = [] then [.ch 32, .bs] else [])) = t3 ∧ t3.w = w ∧ On t3 y k ∧
      (∀ a, a < y → ∀ c, t3.cell a c = t0.cell a c) ∧ (∀ a c, c < w → t3.cell (y + a) c = (vis ++ detab U.tabWidth r.buf).getD (a * w + c) 32) := by
    by_cases he : r.buf = []
    · have d3 := Drawn.put_blank hw0 (by rw [hlen]; exact d2)
      have hpb := Plain.put_back (t := t2) (by rw [hw2, ← hw]; exact hw0) d2.at'
      have e : t2.run (chars (if r.buf = [] then [.ch 32, .bs] else [])) = (t2.put 32).back := by
        rw [if_pos he]
        have : chars [.ch 32, .bs] = [32] ++ chars [.bs] := rfl
        rw [this, run_append]
        have : t2.run [32] = t2.put 32 := Printable.feed ⟨by omega, by omega, by omega⟩ d2.st
        rw [this, run_bs _ d3.st]
      have hw3 : (t2.put 32).w = w := d3.w.trans hw
      refine ⟨_, e, hw3, ⟨?_, ?_, rfl, d3.st⟩, d3.above, fun a c hc => ?_⟩
      · rw [hpb.1, hw2, show ((t2.put 32).back).w = w from hw3]
      · rw [hpb.2 (.inl (by rw [hw2, hkw]; omega)), hw2, show ((t2.put 32).back).w = w from hw3]
      · have := d3.cells a c (by rw [hw3]; exact hc)
        rw [hw3] at this
        exact this
    · refine ⟨_, rfl, ?_⟩
      rw [if_neg he]
      have hat := d2.at'
      rw [Term.At, hw2] at hat
      rcases hat with ⟨h1, h2, h3, _⟩ | ⟨_, h1, h2, _⟩
      · refine ⟨hw2, ⟨?_, ?_, h1, d2.st⟩, d2.above, fun a c hc => ?_⟩
        · show t2.row = _ + _ / t2.w
          rw [hw2]; exact h2
        · show t2.col = _ % t2.w
          rw [hw2]; exact h3
        have := d2.cells a c (by rw [hw2]; exact hc)
        rw [hw2] at this
        exact this
      · rw [hkw] at h2; omega
  obtain ⟨t3, e3, k1, k2, k3, k4⟩ := key
  rw [e3]
  have hl := detab_le h.tab r.buf
  by_cases hi : r.idx < r.buf.length
  · obtain ⟨sep, hb, hsep⟩ := h.backspaces hi
    rw [hb1 hi] at hb
    cases hb
    have hk0 : tabCol U vis r + (r.buf.length - r.idx) = k := by unfold tabCol; rw [hk]; omega
    have hon : On t3 y (k - r.buf.length + r.idx + (r.buf.length - r.idx)) := by
      rw [show k - r.buf.length + r.idx + (r.buf.length - r.idx) = k by omega]; exact k2
    obtain ⟨g1, g2⟩ := run_bsLoop (sep := sep) (by rw [k1]; omega) hon (fun i hi0 hi1 => by
      rw [k1]
      have h1 := hsep i hi0 (by omega)
      have h2 : (k - r.buf.length + i) % w = k - r.buf.length + i := Nat.mod_eq_of_lt (by omega)
      rw [h2]
      exact ⟨fun h => absurd h h1, fun h => by omega⟩)
    rw [k1] at g1 g2
    have hw4 := g2.w.trans k1
    have hc0 : k - r.buf.length + r.idx = tabCol U vis r := by omega
    rw [hc0] at g1
    refine ⟨hw4, fun a ha c => by rw [g2.cell]; exact k3 a ha c, ⟨fun a c hc => ?_, g1.row, g1.col, g1.pend, g1.st⟩⟩
    rw [g2.cell, hw4]
    rw [hw4] at hc
    exact k4 a c hc
  · rw [hb2 hi]
    have e : t3.run (chars []) = t3 := rfl
    have hc0 : tabCol U vis r = k := by unfold tabCol; rw [hk]; omega
    rw [e, hc0]
    exact ⟨k1, k3, ⟨fun a c hc => by rw [k1] at hc ⊢; exact k4 a c hc, k2.row, k2.col, k2.pend, k2.st⟩⟩

theorem col_lt (h : Tabbed U d w vis r) : tabCol U vis r < w := by
  have := h.fits
  unfold tabCol
  omega

end Tabbed
end RL
