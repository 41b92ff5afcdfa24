import Verif.Model.Operation
import Verif.Proofs.Edit
import Verif.Proofs.Find
/-! When the search line and the completion menu can be drawn. -/

namespace RL
open Spec RB Ed

theorem widthAll_append (U : UTables) (a b : List Rune) : widthAll U (a ++ b) = widthAll U a + widthAll U b := by
  induction a with
  | nil => simp [widthAll]
  | cons x a ih => simp [widthAll, ih]; omega

theorem splitGo_length (U : UTables) (w : Int) (hw : 0 < w) (cur : Int) (hc : 0 ≤ cur) (acc rs : List Rune) :
    1 ≤ (splitGo U w cur acc rs).length ∧
      (((splitGo U w cur acc rs).length : Int) - 1) * w ≤ cur + widthAll U rs := by
  induction rs generalizing cur acc with
  | nil => simp [splitGo, widthAll, hc]
  | cons r rs ih =>
    simp only [splitGo, widthAll]
    split
    · next h =>
      obtain ⟨h1, h2⟩ := ih 0 (by omega) []
      refine ⟨by simp, ?_⟩
      simp only [List.length_cons]
      have : (((splitGo U w 0 [] rs).length + 1 : Nat) : Int) - 1 = (((splitGo U w 0 [] rs).length : Int) - 1) + 1 := by omega
      rw [this, Int.add_mul]
      omega
    · next h =>
      obtain ⟨h1, h2⟩ := ih (cur + runeWidth U r) (by omega) (acc ++ [r])
      refine ⟨h1, ?_⟩
      omega

theorem lineCount_ge (w : Int) (hw : 0 < w) (x : Int) (hx : 0 ≤ x) : ∃ n, RL.lineCount w x = .ok n ∧ x ≤ n * w := by
  unfold RL.lineCount divR modR
  simp only [show w ≠ 0 by omega, if_false, R.bind_ok]
  rw [Int.tdiv_eq_ediv_of_nonneg hx, Int.tmod_eq_emod_of_nonneg hx]
  have h1 := Int.mul_ediv_add_emod x w
  have h2 := Int.emod_lt_of_pos x hw
  split
  · refine ⟨_, rfl, ?_⟩
    rw [Int.add_mul, Int.mul_comm (x / w) w]; omega
  · refine ⟨_, rfl, ?_⟩
    rw [Int.mul_comm (x / w) w]; omega

/-- The state of the buffer that editing needs: the terminal width is positive, drawing works, the prompt can be
measured, the cursor is in the line. -/
structure RBok (U : UTables) (d : DCfg) (r : RB) : Prop where
  width : 0 < r.width
  draw : r.DrawOK U d
  prompt : ∃ p, r.promptLen U = .ok p
  good : r.toEd.Good

variable {U : UTables} {d : DCfg}

theorem RBok.congr {r r' : RB} (h : RBok U d r) (hs : SameDisp r r') (hg : r'.toEd.Good) : RBok U d r' where
  width := by rw [hs.width]; exact h.width
  draw := h.draw.congr hs
  prompt := by rw [promptLen_congr U hs.prompt]; exact h.prompt
  good := hg

theorem RBok.idx {r : RB} (h : RBok U d r) : r.idx ≤ r.buf.length := h.good.1

theorem write_same (r : RB) (ts) : (r.write ts).toEd = r.toEd ∧ SameDisp r (r.write ts) := ⟨rfl, rfl, rfl, rfl⟩

theorem RBok.write {r : RB} (h : RBok U d r) (ts) : RBok U d (r.write ts) :=
  h.congr (write_same r ts).2 h.good

/-- An editing command outside its trigger. -/
theorem RBok.apply {r : RB} (h : RBok U d r) {k : Cmd} (ht : ¬ r.toEd.Trigger k) :
    ∃ r', k.apply U d r = .ok r' ∧ k.core r.toEd = .ok r'.toEd ∧ RBok U d r' ∧ SameDisp r r' := by
  obtain ⟨e', h1, h2⟩ := core_good h.good ht
  obtain ⟨r', h3, h4, h5⟩ := (apply_total h.draw h.good.1).2 e' h1
  exact ⟨r', h3, by rw [h4]; exact h1, h.congr h5 (by rw [h4]; exact h2), h5⟩

theorem RBok.refreshNil {r : RB} (h : RBok U d r) :
    ∃ r', r.refreshNil U d = .ok r' ∧ r'.toEd = r.toEd ∧ RBok U d r' ∧ SameDisp r r' := by
  obtain ⟨r', h3, h4, h5⟩ := (refresh_total (f := .ok) h.draw h.good.1).2 r.toEd rfl
  exact ⟨r', h3, h4, h.congr h5 (by rw [h4]; exact h.good), h5⟩

theorem RBok.clean {r : RB} (h : RBok U d r) :
    ∃ r', r.clean U = .ok r' ∧ r'.toEd = r.toEd ∧ RBok U d r' ∧ SameDisp r r' := by
  obtain ⟨p, hp⟩ := h.prompt
  obtain ⟨r', h1⟩ := clean_total hp h.idx
  obtain ⟨h2, h3⟩ := clean_ok h1
  exact ⟨r', h1, h2, h.congr h3 (by rw [h2]; exact h.good), h3⟩

theorem RBok.setWithIdx {r : RB} (h : RBok U d r) {i : Nat} {b : List Rune} (hi : i ≤ b.length) :
    ∃ r', r.setWithIdx U d i b = .ok r' ∧ r'.toEd = { r.toEd with buf := b, idx := i } ∧ RBok U d r' ∧ SameDisp r r' := by
  obtain ⟨r', h3, h4, h5⟩ := (refresh_total (f := setWithIdxC i b) h.draw h.good.1).2 _ rfl
  exact ⟨r', h3, h4, h.congr h5 (by rw [h4]; exact ⟨hi, h.good.2⟩), h5⟩

theorem RBok.reset {r : RB} (h : RBok U d r) : RBok U d r.reset.2 :=
  h.congr ⟨rfl, rfl, rfl⟩ ⟨by simp [Ed.CursorIn, RB.reset], h.good.2⟩

/-- The number of rows from the cursor down is not negative. -/
theorem RBok.cursorLineCount {r : RB} (h : RBok U d r) : ∃ n, r.cursorLineCount U = .ok n ∧ 0 ≤ n := by
  obtain ⟨p, hp⟩ := h.prompt
  have hw := h.width
  unfold RB.cursorLineCount RB.lineCount RB.idxLine RB.getSplitByLine
  simp only [hp, R.bind_ok, show r.width ≠ -1 by omega, show r.width ≠ 0 by omega, if_false, sliceTo_ok h.idx]
  obtain ⟨n, h1, h2⟩ := lineCount_ge r.width hw (widthAll U r.buf + p) (by omega)
  rw [h1]
  simp only [R.bind_ok]
  refine ⟨_, rfl, ?_⟩
  obtain ⟨h3, h4⟩ := splitGo_length U r.width hw p (by omega) [] (r.buf.take r.idx)
  have h5 : widthAll U r.buf = widthAll U (r.buf.take r.idx) + widthAll U (r.buf.drop r.idx) := by
    rw [← widthAll_append, List.take_append_drop]
  have h6 : (((splitGo U r.width p [] (r.buf.take r.idx)).length : Int) - 1) * r.width ≤ n * r.width := by omega
  have := Int.le_of_mul_le_mul_right h6 hw
  simp only [splitByLine]
  omega

/-- Underlining a range of the line. -/
theorem RBok.setStyle {r : RB} (h : RBok U d r) {a b : Nat} (hab : a ≤ b) (hb : b ≤ r.buf.length) (st) :
    ∃ ts, r.setStyle U a b st = .ok (r.write ts) := by
  have hi := h.idx
  unfold RB.setStyle
  rw [if_neg (by omega)]
  by_cases h1 : a > r.idx
  · rw [if_pos h1, slice_ok (by omega) (by omega)]
    simp only [R.bind_ok, slice_ok hab hb]
    exact ⟨_, rfl⟩
  · rw [if_neg h1]
    unfold RB.calWidthBack
    rw [if_neg (by omega), slice_ok (by omega) hi]
    simp only [R.bind_ok, slice_ok hab hb]
    exact ⟨_, rfl⟩

/-- Drawing the search line. -/
theorem RBok.searchRefresh {r : RB} (h : RBok U d r) {s : Search} (hw : s.width ≠ 0)
    (hm : s.markStart ≤ s.markEnd) (hm' : s.markEnd ≤ r.buf.length) {x : Int} (hx : x ≤ r.buf.length) :
    ∃ ts, s.searchRefresh U r x = .ok (s.setState x, r.write ts) := by
  have hi := h.idx
  obtain ⟨p, hp⟩ := h.prompt
  have hu : ∃ ts, s.underline U r = .ok (r.write ts) := by
    unfold Search.underline
    split
    · exact h.setStyle hm hm' _
    · exact ⟨[], by simp [RB.write]⟩
  obtain ⟨ts, hts⟩ := hu
  obtain ⟨n, h2, h3⟩ := (h.write ts).cursorLineCount
  unfold Search.searchRefresh RB.currentWidth
  rw [sliceTo_ok (by split <;> omega)]
  simp only [R.bind_ok, hp, modR, hw, if_false, hts, h2, Search.banner, repeatR, show ¬ n < 0 by omega]
  exact ⟨_, by simp only [RB.write, List.append_assoc]; rfl⟩

/-- Any `k` consecutive runes of `l` occupy at most `k + 1` columns. -/
def Narrow (U : UTables) (l : List Rune) (k : Nat) : Prop :=
  ∀ a b c, l = a ++ b ++ c → b.length = k → widthAll U b ≤ k + 1

theorem Narrow.prefix {l m : List Rune} {k : Nat} (h : Narrow U (l ++ m) k) : Narrow U l k := by
  intro a b c hl hk
  exact h a b (c ++ m) (by simp [hl]) hk

namespace Comp

theorem le_maxWidth (U : UTables) (cs : List (List Rune)) (m : Nat) :
    m ≤ maxWidth U cs m ∧ ∀ c ∈ cs, widthAll U c ≤ maxWidth U cs m := by
  induction cs generalizing m with
  | nil => simp [maxWidth]
  | cons c cs ih =>
    simp only [maxWidth]
    obtain ⟨h1, h2⟩ := ih (if widthAll U c > m then widthAll U c else m)
    have h3 : m ≤ (if widthAll U c > m then widthAll U c else m) ∧
        widthAll U c ≤ (if widthAll U c > m then widthAll U c else m) := by split <;> omega
    refine ⟨by omega, ?_⟩
    intro x hx
    rcases List.mem_cons.1 hx with rfl | hx
    · omega
    · exact h2 x hx

theorem menu_total (U : UTables) (same : List Rune) (cw cn : Int) (hl : Int → Bool) (cs : List (List Rune))
    (h : ∀ c ∈ cs, (widthAll U c : Int) + widthAll U same ≤ cw) (idx colIdx lines : Int) :
    ∃ ts n, menu U same cw cn hl cs idx colIdx lines = .ok (ts, n) := by
  induction cs generalizing idx colIdx lines with
  | nil => exact ⟨_, _, rfl⟩
  | cons c cs ih =>
    have h1 := h c (by simp)
    have h2 := fun x hx => h x (List.mem_cons_of_mem _ hx)
    simp only [menu, repeatR, show ¬ (cw - (widthAll U c : Int) - (widthAll U same : Int) < 0) by omega, if_false,
      R.bind_ok]
    split
    · obtain ⟨ts, n, h3⟩ := ih h2 (idx + 1) 0 (lines + 1)
      rw [h3]
      exact ⟨_, _, rfl⟩
    · obtain ⟨ts, n, h3⟩ := ih h2 (idx + 1) (colIdx + 1) lines
      rw [h3]
      exact ⟨_, _, rfl⟩

end Comp

/-- As many columns as fit next to each other on the screen, each as wide as the widest candidate with the text it
completes. -/
def Comp.cols (U : UTables) (c : Comp) : Int := (c.width - 1).tdiv ((Comp.maxWidth U c.candidate 0 : Int) + (c.off + 1))

/-- Drawing the completion menu. -/
theorem RBok.completeRefresh {r : RB} (h : RBok U d r) {c : Comp} (hw : c.width = r.width) (h0 : 0 ≤ c.off)
    (h1 : c.off ≤ r.idx) (hn : Narrow U r.buf c.off.toNat) (hcol : 0 ≤ c.colNum) :
    ∃ n ts, c.completeRefresh U r = .ok ({ c with colNum := n }, r.write ts) ∧ 0 ≤ n ∧
      (c.inComplete = true → n = c.cols U) := by
  have hi := h.idx
  have hwp := h.width
  obtain ⟨p, hp⟩ := h.prompt
  unfold Comp.completeRefresh
  split
  · next hf => exact ⟨c.colNum, [], by simp [RB.write], hcol, by simp [hf]⟩
  · obtain ⟨lc, h2, h3⟩ := h.cursorLineCount
    obtain ⟨k, hk⟩ := Int.eq_ofNat_of_zero_le h0
    have hsl : r.runeSlice (-c.off) = .ok ((r.buf.take r.idx).drop (r.idx - k)) := by
      unfold RB.runeSlice
      rw [if_neg (by omega), if_neg (by omega), slice_ok (by omega) hi]
      congr 2
      omega
    have hsame : widthAll U ((r.buf.take r.idx).drop (r.idx - k)) ≤ k + 1 := by
      have := hn (r.buf.take (r.idx - k)) ((r.buf.take r.idx).drop (r.idx - k)) (r.buf.drop r.idx) (by
        rw [show r.buf.take (r.idx - k) = (r.buf.take r.idx).take (r.idx - k) by
          rw [List.take_take, Nat.min_eq_left (by omega)]]
        rw [List.take_append_drop, List.take_append_drop]) (by
        simp; omega)
      omega
    have hcw : (0 : Int) < (Comp.maxWidth U c.candidate 0 : Int) + (c.off + 1) := by omega
    generalize hCW : (Comp.maxWidth U c.candidate 0 : Int) + (c.off + 1) = CW at hcw
    have hdiv : (c.width - 1).tdiv CW = (c.width - 1) / CW := Int.tdiv_eq_ediv_of_nonneg (by omega)
    have hq : 0 ≤ (c.width - 1) / CW := Int.ediv_nonneg (by omega) (by omega)
    have hqr := Int.mul_ediv_add_emod (c.width - 1) CW
    have hrm := Int.emod_nonneg (c.width - 1) (show CW ≠ 0 by omega)
    have hfit : ∀ cw' : Int, CW ≤ cw' → ∀ x ∈ c.candidate,
        (widthAll U x : Int) + widthAll U ((r.buf.take r.idx).drop (r.idx - k)) ≤ cw' := by
      intro cw' hcw' x hx
      have := (Comp.le_maxWidth U c.candidate 0).2 x hx
      omega
    simp only [h2, R.bind_ok, hsl, divR, show CW ≠ 0 by omega, if_false, hdiv, repeatR, show ¬ lc < 0 by omega, hp]
    generalize hN : (c.width - 1) / CW = N at hq hqr
    by_cases hN0 : N = 0
    · obtain ⟨ts, n, hm⟩ := Comp.menu_total U _ CW N (fun i => i == c.choise && c.inSelect) c.candidate
        (hfit CW (by omega)) 0 0 1
      simp only [hN0, ne_eq, not_true, if_false, R.bind_ok]
      rw [hN0] at hm
      rw [hm]
      exact ⟨_, _, rfl, by omega, fun _ => by rw [Comp.cols, hCW, hdiv, hN, hN0]⟩
    · have he : 0 ≤ (c.width - 1 - CW * N).tdiv N := by
        rw [Int.tdiv_eq_ediv_of_nonneg (by omega)]
        exact Int.ediv_nonneg (by omega) (by omega)
      obtain ⟨ts, n, hm⟩ := Comp.menu_total U _ (CW + (c.width - 1 - CW * N).tdiv N) N (fun i => i == c.choise && c.inSelect) c.candidate
        (hfit _ (by omega)) 0 0 1
      simp only [hN0, ne_eq, not_false_eq_true, if_true, if_false, R.bind_ok]
      rw [hm]
      exact ⟨_, _, rfl, hq, fun _ => by rw [Comp.cols, hCW, hdiv, hN]⟩

end RL
