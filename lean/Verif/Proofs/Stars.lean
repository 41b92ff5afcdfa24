import Verif.Proofs.Tabs
import Verif.Spec.Stars
/-! Lemmas for C100: masked lines that take one row. -/

namespace RL
open Spec Term Spec.Term RB

variable {U : UTables} {d : DCfg} {w : Nat} {vis : List Rune}

/-- The rune is not a line break. -/
def NoBreak (c : Rune) : Prop := c ≠ 10

/-- The line leaves a column of the row free, both as it is counted by the code (widths of the runes typed) and as it is shown (one column for
every rune). -/
def StarFits (U : UTables) (w : Nat) (vis : List Rune) (r : RB) : Prop :=
  vis.length + r.buf.length + 1 < w ∧ vis.length + widthAll U r.buf < w

/-- What C100 assumes of the buffer: a masked line of any runes other than line breaks that takes one row. -/
structure Starred (U : UTables) (d : DCfg) (w : Nat) (vis : List Rune) (r : RB) : Prop where
  width : r.width = (w : Int)
  prompt : Coloured r.prompt vis
  visS : Singles U vis
  buf : ∀ c ∈ r.buf, NoBreak c
  idx : r.idx ≤ r.buf.length
  mask : d.enableMask = true
  rune : Printable d.maskRune ∨ d.maskRune = 0
  paint : ∃ f, d.painter = some f ∧ ∀ i, f [] i = []
  unix : d.windows = false
  fits : StarFits U w vis r

/-- The column of the terminal's cursor: two steps to the left of the end for every rune from the editing cursor on, stopping at the left edge. -/
def starCol (d : DCfg) (vis : List Rune) (r : RB) : Nat := vis.length + (masked d.maskRune r.buf).length - 2 * (r.buf.length - r.idx)

theorem masked_le (m : Rune) (s : List Rune) : (masked m s).length ≤ s.length := by
  unfold masked
  split <;> simp

theorem masked_nil (m : Rune) : masked m [] = [] := by unfold masked; split <;> rfl

theorem masked_shown (m : Rune) (s : List Rune) : (List.replicate s.length m).filter (· ≠ 0) = masked m s := by
  induction s with
  | nil => rw [masked_nil]; rfl
  | cons c s ih =>
    rw [List.length_cons, List.replicate_succ, List.filter_cons, ih]
    unfold masked
    by_cases h : m = 0 <;> simp [h]

theorem masked_printable {m : Rune} (h : Printable m ∨ m = 0) (s : List Rune) : ∀ c ∈ masked m s, Printable c := by
  intro c hc
  unfold masked at hc
  split at hc
  · cases hc
  · next h0 =>
    rw [List.mem_map] at hc
    obtain ⟨_, _, rfl⟩ := hc
    exact h.resolve_right h0

theorem runN_append (t : Term) (a b : List Rune) : t.runN (a ++ b) = (t.runN a).runN b := by
  unfold Term.runN
  rw [List.filter_append, run_append]

theorem runN_eq (t : Term) {a : List Rune} (h : ∀ c ∈ a, c ≠ 0) : t.runN a = t.run a := by
  unfold Term.runN
  rw [List.filter_eq_self.2 (by simpa using h)]

theorem runN_coloured (t : Term) {s v : List Rune} (h : Coloured s v) : t.runN s = t.run s := by
  refine runN_eq t ?_
  induction h with
  | nil => simp
  | char hc _ ih =>
    intro c h
    rcases List.mem_cons.1 h with rfl | h
    · have := hc.1; omega
    · exact ih c h
  | colour hb _ ih =>
    intro c h
    simp only [List.cons_append, List.mem_cons, List.mem_append] at h
    rcases h with rfl | rfl | h | rfl | h
    · omega
    · omega
    · have := (hb c h).1; omega
    · omega
    · exact ih c h

/-- The terminal after everything that has been written. -/
def screenN (t0 : Term) (r : RB) : Term := t0.runN (chars r.out)

/-- Backspaces in one row stop at the left edge. -/
theorem run_steps {sep : List Int} {idx : Nat} {W : Int} (n : Nat) : ∀ {t : Term}, t.st = .ground → t.pend = false →
    (∀ i : Nat, idx < i → i ≤ idx + n → (i : Int) ∉ sep) →
    t.runN (chars (RB.bsLoop W sep idx n)) = { t with col := t.col - n } := by
  induction n with
  | zero => intro t _ _ _; rfl
  | succ n ih =>
    intro t hst hp hs
    rw [RB.bsLoop, RB.bsTok, if_neg (hs _ (by omega) (by omega)), chars_append, runN_append, runN_eq _ (a := chars [.bs]) (by decide), run_bs _ hst, ih (by exact hst) rfl (fun i h1 h2 => hs i h1 (by omega))]
    obtain ⟨w, cell, row, col, pend, st⟩ := t
    simp only [Spec.Term.back] at hp ⊢
    rw [hp, show col - (n + 1) = col - 1 - n by omega]

namespace Starred
variable {r : RB}

theorem promptLen (h : Starred U d w vis r) : r.promptLen U = .ok vis.length := by
  unfold RB.promptLen
  have := colorFilter_of_filtered h.prompt.filter
  cases hc : colorFilter r.prompt with
  | error e => rw [hc] at this; simp [okOpt] at this
  | ok t =>
    rw [hc] at this
    simp only [okOpt, Option.some.injEq] at this
    subst this
    simp [h.visS.widthAll]

theorem widthAll_take (U : UTables) (s : List Rune) : ∀ n : Nat, widthAll U (s.take n) ≤ widthAll U s := by
  induction s with
  | nil => intro n; simp
  | cons c s ih =>
    intro n
    cases n with
    | zero => simp [widthAll]
    | succ n => rw [List.take_succ_cons, widthAll, widthAll]; have := ih n; omega

theorem idxLine (h : Starred U d w vis r) : r.idxLine U r.width = .ok 0 := by
  unfold RB.idxLine
  have hf := h.fits.1
  rw [if_neg (by rw [h.width]; omega)]
  unfold sliceTo RB.getSplitByLine
  rw [if_pos h.idx]
  simp only [h.promptLen, R.bind_ok, h.width, splitByLine]
  have e := widthAll_take U r.buf r.idx
  have hf := h.fits.2
  rw [Tabbed.splitGo_row (by omega)]
  rfl

/-- The way back to the cursor. -/
theorem backspaces (h : Starred U d w vis r) (hi : r.idx < r.buf.length) :
    ∃ sep, r.getBackspaceSequence U = .ok (bsLoop w sep r.idx (r.buf.length - r.idx)) ∧ ∀ i : Nat, i ≤ r.buf.length → ¬ (i : Int) ∈ sep := by
  obtain ⟨hf1, hf2⟩ := h.fits
  unfold getBackspaceSequence
  by_cases hW : widthAll U r.buf = 0
  · simp only [hW, if_true, R.bind_ok, h.width]
    refine ⟨[], ?_, by simp⟩
    have : sepLoop ((0 : Nat) : Int) ((0 : Nat) : Int) w (sepFuel 0 0) 0 [] = .ok [] := by
      unfold sepFuel
      rw [sepLoop, if_pos (by omega)]
    rw [this]
    rfl
  · rw [if_neg hW]
    simp only [h.promptLen, R.bind_ok, h.width]
    refine ⟨[(w : Int) - vis.length], ?_, fun i h2 hm => ?_⟩
    · have : sepLoop (widthAll U r.buf) vis.length w (sepFuel (widthAll U r.buf) vis.length) 0 [] = .ok [(w : Int) - vis.length] := by
        unfold sepFuel
        rw [sepLoop, if_neg (by omega)]
        dsimp only
        rw [if_pos rfl, show ((0 : Int) - vis.length + w) = (w : Int) - vis.length by omega]
        rw [sepLoop.eq_def]
        dsimp only
        rw [if_pos (by omega)]
      rw [this]
      rfl
    · rw [List.mem_singleton] at hm
      omega

/-- The tokens of a redraw of a line that is not empty: the way back is written twice. -/
theorem tokens (h : Starred U d w vis r) (hb : r.buf ≠ []) {ts : List Tok} (ho : r.output U d = .ok ts) :
    ∃ bs, ts = r.prompt.map Tok.ch ++ ((List.replicate r.buf.length d.maskRune).map Tok.ch ++ (bs ++ bs)) ∧
      (r.idx < r.buf.length → r.getBackspaceSequence U = .ok bs) ∧ (¬ r.idx < r.buf.length → bs = []) := by
  have hl : 0 < r.buf.length := List.length_pos_iff.2 hb
  unfold RB.output at ho
  have hlt : r.buf.length - 1 < r.buf.length := by omega
  have hg : getR r.buf (r.buf.length - 1) = .ok (r.buf[r.buf.length - 1]) := by
    unfold getR
    rw [List.getElem?_eq_getElem hlt]
  have hne : ¬ r.buf[r.buf.length - 1] = 10 := h.buf _ (List.getElem_mem hlt)
  have hm : List.replicate (r.buf.length - 1) (Tok.ch d.maskRune) ++ [Tok.ch d.maskRune] = (List.replicate r.buf.length d.maskRune).map Tok.ch := by
    rw [List.map_replicate, ← List.replicate_succ']
    congr 1; omega
  rw [h.mask] at ho
  simp only [true_and, gt_iff_lt, hl, if_true, hg, R.bind_ok, hne, if_false] at ho
  by_cases hi : r.idx < r.buf.length
  · simp only [hi, if_true] at ho
    obtain ⟨b1, hb1, ho⟩ := R.bind_inv ho
    simp only [hb1, R.bind_ok] at ho
    cases ho
    exact ⟨b1, by rw [← hm]; simp, fun _ => hb1, fun h => absurd hi h⟩
  · simp only [hi, if_false] at ho
    cases ho
    exact ⟨[], by rw [← hm]; simp, fun h => absurd h hi, fun _ => rfl⟩

/-- The tokens of a redraw of an empty line. -/
theorem tokens_nil (h : Starred U d w vis r) (hb : r.buf = []) {ts : List Tok} (ho : r.output U d = .ok ts) :
    ts = r.prompt.map Tok.ch ++ [.ch 32, .bs] := by
  obtain ⟨f, hf, hid⟩ := h.paint
  have hedge : r.isInLineEdge U false = .ok true := by
    unfold RB.isInLineEdge RB.getSplitByLine
    rw [if_neg Bool.false_ne_true]
    have := h.fits.1
    simp only [R.bind_ok, h.promptLen, h.width, splitByLine, hb]
    rfl
  have hi : r.idx = 0 := by have := h.idx; rw [hb] at this; exact Nat.le_zero.1 this
  unfold RB.output at ho
  rw [h.unix, hedge] at ho
  simp only [hb, hi, hf, hid, List.length_nil, gt_iff_lt, Nat.lt_irrefl, and_false, if_false, List.flatMap_nil, R.bind_ok, if_true] at ho
  cases ho
  simp

/-- The characters of a redraw on a blank area. -/
theorem drawn (h : Starred U d w vis r) {ts : List Tok} (ho : r.output U d = .ok ts) {t0 t : Spec.Term} (hw : t0.w = w) {y : Nat}
    (ht : Drawn t0 t y [] 0) :
    (t.runN (chars ts)).w = w ∧ (∀ a, a < y → ∀ c, (t.runN (chars ts)).cell a c = t0.cell a c) ∧
    (t.runN (chars ts)).Shows y (vis ++ masked d.maskRune r.buf) (starCol d vis r) := by
  have hf := h.fits.1
  have hml := masked_le d.maskRune r.buf
  have hw0 : 0 < t0.w := by omega
  have d1 := run_coloured h.prompt hw0 (text := []) (by simpa using ht)
  simp only [List.nil_append] at d1
  by_cases hb : r.buf = []
  · rw [h.tokens_nil hb ho, chars_append, runN_append, chars_ch, runN_coloured _ h.prompt, runN_eq _ (a := chars [.ch 32, .bs]) (by decide)]
    generalize t.run r.prompt = t2 at d1
    have hw2 : t2.w = w := d1.w.trans hw
    have d3 := Drawn.put_blank hw0 d1
    have hpb := Plain.put_back (t := t2) (by rw [hw2, ← hw]; exact hw0) d1.at'
    have e : t2.run (chars [.ch 32, .bs]) = (t2.put 32).back := by
      have : chars [.ch 32, .bs] = [32] ++ chars [.bs] := rfl
      rw [this, run_append]
      have : t2.run [32] = t2.put 32 := Printable.feed ⟨by omega, by omega, by omega⟩ d1.st
      rw [this, run_bs _ d3.st]
    have hw3 : (t2.put 32).w = w := d3.w.trans hw
    have hw4 : ((t2.put 32).back).w = w := hw3
    have hk : starCol d vis r = vis.length := by unfold starCol; rw [hb, masked_nil]; simp
    have hv : vis.length % w = vis.length := Nat.mod_eq_of_lt (by omega)
    rw [e, hb, hk]
    refine ⟨hw4, d3.above, ⟨fun a c hc => ?_, ?_, ?_, rfl, d3.st⟩⟩
    · rw [hw4] at hc ⊢
      have := d3.cells a c (by rw [hw3]; exact hc)
      rw [hw3] at this
      rw [masked_nil, List.append_nil]
      exact this
    · rw [hpb.1, hw2, hw4]
    · rw [hpb.2 (.inl (by rw [hw2, hv]; omega)), hw2, hw4]
  · obtain ⟨bs, ets, hb1, hb2⟩ := h.tokens hb ho
    have hpr := masked_printable h.rune r.buf
    have d2 := run_coloured (.plain hpr) hw0 d1
    have hlen : (vis ++ masked d.maskRune r.buf).length = vis.length + (masked d.maskRune r.buf).length := by exact List.length_append ..
    have hm : (t.run r.prompt).runN (List.replicate r.buf.length d.maskRune) = (t.run r.prompt).run (masked d.maskRune r.buf) := by
      unfold Term.runN; rw [masked_shown]
    rw [ets, chars_append, runN_append, chars_ch, runN_coloured _ h.prompt, chars_append, runN_append, chars_ch, hm, chars_append, runN_append]
    rw [hlen] at d2
    generalize (t.run r.prompt).run (masked d.maskRune r.buf) = t2 at d2
    have hw2 : t2.w = w := d2.w.trans hw
    have hkw : (vis.length + (masked d.maskRune r.buf).length) % w = vis.length + (masked d.maskRune r.buf).length := Nat.mod_eq_of_lt (by omega)
    have hkd : (vis.length + (masked d.maskRune r.buf).length) / w = 0 := Nat.div_eq_of_lt (by omega)
    have hat := d2.at'
    rw [Term.At, hw2, hkw, hkd] at hat
    obtain ⟨p1, p2, p3⟩ : t2.pend = false ∧ t2.row = y ∧ t2.col = vis.length + (masked d.maskRune r.buf).length := by
      rcases hat with ⟨h1, h2, h3, _⟩ | ⟨_, h1, h2, _⟩
      · exact ⟨h1, h2, h3⟩
      · omega
    have hend : (t2.runN (chars bs)).runN (chars bs) = { t2 with col := starCol d vis r } := by
      by_cases hi : r.idx < r.buf.length
      · obtain ⟨sep, hbs, hsep⟩ := h.backspaces hi
        rw [hb1 hi] at hbs
        cases hbs
        have hs : ∀ i : Nat, r.idx < i → i ≤ r.idx + (r.buf.length - r.idx) → (i : Int) ∉ sep := fun i _ h2 => hsep i (by omega)
        rw [run_steps _ d2.st p1 hs, run_steps _ (by exact d2.st) (by exact p1) hs]
        congr 1
        show t2.col - _ - _ = _
        rw [p3]
        unfold starCol
        omega
      · rw [hb2 hi]
        show t2 = _
        have : starCol d vis r = t2.col := by unfold starCol; rw [p3]; omega
        rw [this]
    have hsc : starCol d vis r < w := by unfold starCol; omega
    rw [hend]
    refine ⟨hw2, d2.above, ⟨fun a c hc => ?_, ?_, ?_, p1, d2.st⟩⟩
    · exact d2.cells a c hc
    · show t2.row = y + starCol d vis r / t2.w
      rw [hw2, p2, Nat.div_eq_of_lt hsc]; rfl
    · show starCol d vis r = starCol d vis r % t2.w
      rw [hw2, Nat.mod_eq_of_lt hsc]

theorem col_lt (h : Starred U d w vis r) : starCol d vis r < w := by
  have := h.fits.1
  have hml := masked_le d.maskRune r.buf
  unfold starCol
  omega

end Starred
end RL
