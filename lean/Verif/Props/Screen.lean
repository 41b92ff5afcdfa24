import Verif.Proofs.Screen
import Verif.Spec.Concrete
/-! # C17: what the terminal shows

The terminal is `Verif.Spec.Screen`, fed with the characters the library writes (`Tok.render`). -/

namespace RL
open Spec Term Spec.Term RB

/-- The terminal after everything the buffer has written. -/
def screen (t0 : Spec.Term) (r : RB) : Spec.Term := t0.run (chars r.out)

/-- The visible text: prompt and line. -/
def shownText (vis : List Rune) (r : RB) : List Rune := vis ++ r.buf

variable {U : UTables} {d : DCfg}

/-- A redraw: the line is erased unless it is erased already, and printed. -/
theorem refreshV_drawn {α} {r r' : RB} {f : Ed → R (α × Ed)} {a : α} (h : r.refreshV U d f = .ok (a, r')) (hi : r.interactive = true) :
    r'.hadClean = false ∧ r'.interactive = true ∧ ∃ ts1 ts2 n, r'.out = r.out ++ ts1 ++ ts2 ∧ r'.output U d = .ok ts2 ∧
      r.idxLine U r.width = .ok n ∧ (r.hadClean = true → ts1 = []) ∧ (r.hadClean = false → r.cleanOutput U n = .ok ts1) := by
  unfold refreshV at h
  rw [if_neg (by simp [hi])] at h
  obtain ⟨r1, h1, h⟩ := R.bind_inv h
  obtain ⟨⟨b, e⟩, h2, h⟩ := R.bind_inv h
  obtain ⟨r2, h3, h⟩ := R.bind_inv h
  cases h
  obtain ⟨_, hs⟩ := clean_ok h1
  unfold RB.print at h3
  obtain ⟨ts2, h4, h3⟩ := R.bind_inv h3
  cases h3
  refine ⟨rfl, hs.interactive.trans hi, ?_⟩
  unfold RB.clean at h1
  obtain ⟨n, h5, h1⟩ := R.bind_inv h1
  by_cases hc : r.hadClean = true
  · rw [if_pos (.inl hc)] at h1
    cases h1
    exact ⟨[], ts2, n, by simp [RB.write], h4, h5, fun _ => rfl, fun h => by rw [hc] at h; cases h⟩
  · rw [if_neg (by simp [hc, hi])] at h1
    obtain ⟨ts1, h6, h1⟩ := R.bind_inv h1
    cases h1
    exact ⟨ts1, ts2, n, by simp [RB.write], h4, h5, fun h => absurd h hc, fun _ => h6⟩

theorem refresh_drawn {r r' : RB} {f : Ed → R Ed} (h : r.refresh U d f = .ok r') (hi : r.interactive = true) :
    r'.hadClean = false ∧ r'.interactive = true ∧ ∃ ts1 ts2 n, r'.out = r.out ++ ts1 ++ ts2 ∧ r'.output U d = .ok ts2 ∧
      r.idxLine U r.width = .ok n ∧ (r.hadClean = true → ts1 = []) ∧ (r.hadClean = false → r.cleanOutput U n = .ok ts1) := by
  rw [refresh_eq_refreshV] at h
  obtain ⟨a, h⟩ := map_snd_ok h
  exact refreshV_drawn h hi

/-- Erasing the line: rows from `y` on are blank. -/
theorem Plain.cleaned {w : Nat} {vis : List Rune} {r : RB} (h : Plain U d w vis r) {n ts} (h1 : r.idxLine U r.width = .ok n)
    (h2 : r.cleanOutput U n = .ok ts) {t : Spec.Term} {y : Nat} (hst : t.st = .ground) (hrow : t.row = y + (vis.length + r.idx) / w) :
    Drawn t (t.run (chars ts)) y [] 0 := by
  rw [h.idxLine] at h1
  cases h1
  unfold RB.cleanOutput at h2
  have hw : r.width ≠ 0 := by rw [h.width]; have := h.pw; omega
  rw [if_neg hw] at h2
  have := run_clean hst hrow
  split at h2
  · next h0 =>
    have h0 : (vis.length + r.idx) / w = 0 := by exact_mod_cast h0
    cases h2
    rw [h0] at this
    exact this
  · cases h2
    exact this

/-- **C17, the part that holds** (one redraw).  The terminal is on the cursor row of the old line, drawn from row `y` on, or
anywhere in a row `y` if there was no line.  Then after the redraw the rows from `y` on show the prompt and the new line wrapped at
the width and nothing else, the rows above are untouched, and the cursor is on the cell of the rune under the editing cursor.
Missing: in the single case `Corner` (empty line, prompt one column shorter than the screen) the cursor is one column to the left
(`C17_false_prompt`); masked lines (`C17_false_mask`); wide runes, tabs. -/
theorem C17_redraw_partial {α} {w : Nat} {vis : List Rune} {r r' : RB} {f : Ed → R (α × Ed)} {a : α}
    (h : Plain U d w vis r) (h' : Plain U d w vis r') (hr : r.refreshV U d f = .ok (a, r')) (hi : r.interactive = true)
    (hc : r.hadClean = false) {t0 : Spec.Term} (hw : (screen t0 r).w = w) (hst : (screen t0 r).st = .ground) {y : Nat}
    (hrow : (screen t0 r).row = y + (vis.length + r.idx) / w) :
    (screen t0 r').w = w ∧ (screen t0 r').st = .ground ∧ (screen t0 r').row = y + (vis.length + r'.idx) / w ∧
    (∀ a, a < y → ∀ c, (screen t0 r').cell a c = (screen t0 r).cell a c) ∧
    (∀ a c, c < w → (screen t0 r').cell (y + a) c = (shownText vis r').getD (a * w + c) 32) ∧
    (¬ Plain.Corner w vis r' → (screen t0 r').Shows y (shownText vis r') (vis.length + r'.idx)) := by
  obtain ⟨_, _, ts1, ts2, n, e, ho, hn, _, hcl⟩ := refreshV_drawn hr hi
  have hd := h.cleaned hn (hcl hc) hst hrow
  have := h'.drawn ho hw hd
  unfold screen
  rw [e, chars_append, chars_append, Term.run_append, Term.run_append]
  exact this

/-- The rune takes one cell. -/
def Cell (U : UTables) (c : Rune) : Prop := Printable c ∧ runeWidth U c = 1

/-- The line is on the screen, from row `y` on; the rows above are those of `base`.  `t0` is the terminal before the first
output. -/
structure OnScreen (U : UTables) (d : DCfg) (w : Nat) (vis : List Rune) (t0 base : Spec.Term) (y : Nat) (r : RB) : Prop where
  plain : Plain U d w vis r
  runes : r.toEd.AllP (Cell U)
  good : r.toEd.Good
  inter : r.interactive = true
  hc : r.hadClean = false
  sw : (screen t0 r).w = w
  st : (screen t0 r).st = .ground
  row : (screen t0 r).row = y + (vis.length + r.idx) / w
  above : ∀ a, a < y → ∀ c, (screen t0 r).cell a c = base.cell a c
  cells : ∀ a c, c < w → (screen t0 r).cell (y + a) c = (shownText vis r).getD (a * w + c) 32
  shows : ¬ Plain.Corner w vis r → (screen t0 r).Shows y (shownText vis r) (vis.length + r.idx)

theorem Plain.congr {w : Nat} {vis : List Rune} {r r' : RB} (h : Plain U d w vis r) (hs : SameDisp r r')
    (hr : r'.toEd.AllP (Cell U)) (hg : r'.toEd.Good) : Plain U d w vis r' :=
  ⟨hs.width.trans h.width, by rw [hs.prompt]; exact h.prompt, h.pw, h.visS, hr.buf, hg.1, h.mask, h.paint, h.unix⟩

/-- What a command does to the display: nothing, or a redraw of a buffer with the same text. -/
theorem apply_drawn {c : Cmd} {r r' : RB} (h : c.apply U d r = .ok r') :
    (r'.buf = r.buf ∧ r'.idx = r.idx ∧ r'.out = r.out ∧ r'.hadClean = r.hadClean ∧ SameDisp r r') ∨
    ∃ lk, ∃ (α : Type) (f : Ed → R (α × Ed)) (a : α), RB.refreshV U d { r with lastKill := lk } f = .ok (a, r') := by
  have conv : ∀ {r0 : RB} {f}, r0.refresh U d f = .ok r' → RB.refreshV U d r0 (fun e => (fun x => ((), x)) <$> f e) = .ok ((), r') := by
    intro r0 f h
    rw [refresh_eq_refreshV] at h
    obtain ⟨a, h⟩ := map_snd_ok h
    exact h
  cases c <;> simp only [Cmd.apply] at h
  case delete => obtain ⟨b, h⟩ := map_snd_ok h; exact .inr ⟨r.lastKill, _, _, _, h⟩
  case moveTo => obtain ⟨b, h⟩ := map_snd_ok h; exact .inr ⟨r.lastKill, _, _, _, h⟩
  case yank =>
    unfold RB.yank at h
    split at h
    · cases h; exact .inl ⟨rfl, rfl, rfl, rfl, .refl _⟩
    · exact .inr ⟨r.lastKill, _, _, _, conv h⟩
  case deleteWord =>
    unfold RB.deleteWord at h
    split at h
    · cases h; exact .inl ⟨rfl, rfl, rfl, rfl, .refl _⟩
    · dsimp only at h
      split at h
      · obtain ⟨k, _, h⟩ := R.bind_inv h
        exact .inr ⟨k, _, _, _, conv h⟩
      · exact .inr ⟨r.lastKill, _, _, _, conv h⟩
  case backup => cases h; exact .inl ⟨rfl, rfl, rfl, rfl, rfl, rfl, rfl⟩
  all_goals exact .inr ⟨r.lastKill, _, _, _, conv h⟩

theorem OnScreen.redraw {w : Nat} {vis : List Rune} {t0 base : Spec.Term} {y : Nat} {r r' : RB} (h : OnScreen U d w vis t0 base y r) {lk}
    {α} {f : Ed → R (α × Ed)} {a : α} (hr : RB.refreshV U d { r with lastKill := lk } f = .ok (a, r')) (h1 : r'.toEd.AllP (Cell U))
    (h2 : r'.toEd.Good) : OnScreen U d w vis t0 base y r' := by
  have hs := (refreshV_ok hr).2
  have hp := h.plain.congr (r' := r') ⟨hs.1, hs.2, hs.3⟩ h1 h2
  have hp0 : Plain U d w vis { r with lastKill := lk } :=
    ⟨h.plain.width, h.plain.prompt, h.plain.pw, h.plain.visS, h.plain.buf, h.plain.idx, h.plain.mask, h.plain.paint, h.plain.unix⟩
  obtain ⟨g1, g2, g3, g4, g5, g6⟩ := C17_redraw_partial hp0 hp hr h.inter h.hc h.sw h.st h.row
  obtain ⟨k1, k2, _⟩ := refreshV_drawn hr h.inter
  exact ⟨hp, h1, h2, k2, k1, g1, g2, g3, fun a ha c => (g4 a ha c).trans (h.above a ha c), g5, g6⟩

/-- No command of the sequence is called in a situation in which it crashes or moves the cursor out of the line (C07, C15). -/
def Quiet (U : UTables) (d : DCfg) (cs : List Cmd) (r : RB) : Prop :=
  ∀ pre c post, cs = pre ++ c :: post → ∀ r1, runCmds U d pre r = .ok r1 → ¬ r1.toEd.Trigger c

/-- **C17, the part that holds** (editing).  Whatever commands are applied, the screen shows the line and the cursor. -/
theorem C17_commands_partial {w : Nat} {vis : List Rune} {t0 base : Spec.Term} {y : Nat} {cs : List Cmd} : ∀ {r r' : RB},
    OnScreen U d w vis t0 base y r → (∀ c ∈ cs, ∀ x ∈ c.runes, Cell U x) → Quiet U d cs r → runCmds U d cs r = .ok r' →
    OnScreen U d w vis t0 base y r' := by
  induction cs with
  | nil => intro r r' h _ _ hr; cases hr; exact h
  | cons c cs ih =>
    intro r r' h hc hq hr
    unfold runCmds at hr
    obtain ⟨r1, h1, hr⟩ := R.bind_inv hr
    obtain ⟨hcore, hs⟩ := apply_ok h1
    have ha1 := core_all hcore h.good.1 h.runes (hc c (List.mem_cons_self ..))
    have hg1 : r1.toEd.Good := by
      obtain ⟨e', he, hg⟩ := core_good h.good (hq [] c cs rfl r rfl)
      rw [hcore] at he; cases he; exact hg
    refine ih ?_ (fun k hk => hc k (List.mem_cons_of_mem _ hk)) (fun pre k post e r2 hr2 => ?_) hr
    · rcases apply_drawn h1 with ⟨e1, e2, e3, e4, e5⟩ | ⟨lk, α, f, a, e⟩
      · have hsc : screen t0 r1 = screen t0 r := by unfold screen; rw [e3]
        have ht : shownText vis r1 = shownText vis r := by unfold shownText; rw [e1]
        exact ⟨h.plain.congr hs ha1 hg1, ha1, hg1, hs.interactive.trans h.inter, e4.trans h.hc, by rw [hsc]; exact h.sw,
          by rw [hsc]; exact h.st, by rw [hsc, e2]; exact h.row, by rw [hsc]; exact h.above, by rw [hsc, ht]; exact h.cells,
          fun hn => by rw [hsc, ht, e2]; exact h.shows (fun hx => hn ⟨e1.trans hx.1, hx.2⟩)⟩
      · exact h.redraw e ha1 hg1
    · refine hq (c :: pre) k post (by rw [e]; rfl) r2 ?_
      unfold runCmds
      rw [h1]; exact hr2

/-- **C17** (start).  Drawing a fresh buffer on a terminal whose cursor is in row `y`. -/
theorem C17_start {w : Nat} {vis prompt : List Rune} {t0 : Spec.Term} (hw : t0.w = w) (hst : t0.st = .ground)
    {r' : RB} (hp : Plain U d w vis (RB.new prompt true w)) (hr : (RB.new prompt true w).refreshNil U d = .ok r') :
    OnScreen U d w vis t0 t0 t0.row r' := by
  have hr' : RB.refreshV U d (RB.new prompt true w) (fun e => (fun x => ((), x)) <$> Except.ok e) = .ok ((), r') := by
    rw [RB.refreshNil, refresh_eq_refreshV] at hr
    obtain ⟨a, h⟩ := map_snd_ok hr
    exact h
  obtain ⟨e, hs⟩ := refreshV_ok hr'
  simp only [R.map_ok, Except.ok.injEq, Prod.mk.injEq, true_and] at e
  have h1 : r'.toEd.AllP (Cell U) := by rw [← e]; exact ⟨by simp [RB.new], by simp [RB.new], by simp [RB.new]⟩
  have h2 : r'.toEd.Good := by rw [← e]; exact ⟨by simp [RB.new, Ed.CursorIn], by simp [RB.new]⟩
  have hp' := hp.congr hs h1 h2
  obtain ⟨k1, k2, _⟩ := refreshV_drawn hr' rfl
  obtain ⟨g1, g2, g3, g4, g5, g6⟩ := C17_redraw_partial hp hp' hr' rfl rfl (t0 := t0) hw hst (y := t0.row) (by
    have : vis.length / w = 0 := Nat.div_eq_of_lt hp.pw
    show t0.row = t0.row + (vis.length + 0) / w
    rw [Nat.add_zero, this]; rfl)
  exact ⟨hp', h1, h2, k2, k1, g1, g2, g3, g4, g5, g6⟩

/-- **C17** (submitting).  After Enter (`MoveToLineEnd`, the line break, `Reset`) the text stays on the screen, the cursor is at the
start of the row below it, and the next prompt is drawn from there. -/
theorem C17_submit {w : Nat} {vis : List Rune} {t0 base : Spec.Term} {y : Nat} {r r1 r2 : RB} (h : OnScreen U d w vis t0 base y r)
    (hz : runeWidth U 10 = 0) (hpaint : ∀ f, d.painter = some f → ∀ s i, (∀ c ∈ s, Printable c) →
      ∃ cs, f (s ++ [10]) i = cs ++ [10] ∧ Coloured cs s)
    (h1 : r.moveToLineEnd U d = .ok r1) (h2 : r1.writeRune U d 10 = .ok r2) :
    r2.reset.1 = r.buf ++ [10] ∧
    (screen t0 r2).row = y + ((shownText vis r).length - 1) / w + 1 ∧ (screen t0 r2).col = 0 ∧
    (∀ a, a < y → ∀ c, (screen t0 r2).cell a c = base.cell a c) ∧
    (∀ a c, c < w → (screen t0 r2).cell (y + a) c = (shownText vis r).getD (a * w + c) 32) ∧
    ∀ r4, r2.reset.2.refreshNil U d = .ok r4 →
      OnScreen U d w vis t0 (screen t0 r2) (y + ((shownText vis r).length - 1) / w + 1) r4 := by
  -- the cursor is moved to the end
  have ha : Cmd.apply U d .toEnd r = .ok r1 := h1
  obtain ⟨hc1, hs1⟩ := apply_ok ha
  have hg1 : r1.toEd.Good ∧ r1.toEd.AllP (Cell U) := by
    obtain ⟨e', he, hg⟩ := core_good (c := .toEnd) h.good (fun h => h)
    rw [hc1] at he; cases he
    exact ⟨hg, core_all hc1 h.good.1 h.runes (by simp [Cmd.runes])⟩
  simp only [Cmd.core, Ed.moveToLineEndC, Except.ok.injEq] at hc1
  have hb1 : r1.buf = r.buf := by rw [← hc1]
  have hi1 : r1.idx = r1.buf.length := by rw [← hc1]
  have o1 : OnScreen U d w vis t0 base y r1 :=
    C17_commands_partial (cs := [.toEnd]) h (by simp [Cmd.runes]) (fun pre c post e r _ ht => by
      cases pre with
      | nil => cases e; exact ht
      | cons _ pre => simp at e) (by simp only [runCmds]; rw [ha]; rfl)
  -- the line break
  have h2' : RB.refreshV U d r1 (fun e => (fun x => ((), x)) <$> Ed.writeRunesC [10] e) = .ok ((), r2) := by
    rw [RB.writeRune, RB.writeRunes, refresh_eq_refreshV] at h2
    obtain ⟨a, h⟩ := map_snd_ok h2
    exact h
  obtain ⟨e2, hs2⟩ := refreshV_ok h2'
  have hle : r1.idx ≤ r1.buf.length := by rw [hi1]; exact Nat.le_refl _
  simp only [Ed.writeRunesC, sliceFrom_ok hle, sliceTo_ok hle, R.bind_ok, R.map_ok, Except.ok.injEq, Prod.mk.injEq, true_and] at e2
  have hb2 : r2.buf = r.buf ++ [10] := by
    rw [← e2, hi1, hb1]; simp
  have hi2 : r2.idx = r2.buf.length := by rw [hb2, ← e2, hi1, hb1]; simp
  have hk2 : r2.lastKill = r1.lastKill ∧ r2.bck = r1.bck := by rw [← e2]; exact ⟨rfl, rfl⟩
  obtain ⟨c1, c2, ts1, ts2, n, eo, ho, hn, _, hcl⟩ := refreshV_drawn h2' o1.inter
  have hd := o1.plain.cleaned hn (hcl o1.hc) o1.st o1.row
  obtain ⟨f, hf, _⟩ := o1.plain.paint
  obtain ⟨cs, hcs, hcol⟩ := hpaint f hf r.buf r2.idx (by rw [← hb1]; exact fun c hc => (o1.plain.buf c hc).1)
  have hpl : r2.promptLen U = .ok vis.length := by rw [promptLen_congr U hs2.prompt]; exact o1.plain.promptLen
  have hpr : r2.prompt = r1.prompt := hs2.prompt
  have hed : r2.isInLineEdge U d.windows = .ok false := by
    rw [o1.plain.unix]
    unfold RB.isInLineEdge RB.getSplitByLine
    rw [if_neg Bool.false_ne_true]
    have hw2 : r2.width = (w : Int) := hs2.width.trans o1.plain.width
    have hpw := o1.plain.pw
    obtain ⟨l, g1, g2⟩ := splitGo_break (U := U) (w := (w : Int)) (by omega) (rs := r.buf) (b := 10) hz (cur := vis.length) (acc := [])
      (by omega)
    simp only [hpl, R.bind_ok, hb2, hw2, splitByLine, g1]
    congr 1
    simpa using g2
  have ets : ts2 = r1.prompt.map Tok.ch ++ (cs ++ [10]).flatMap (RB.paintTok U) := by
    unfold RB.output at ho
    simp only [o1.plain.mask, Bool.false_eq_true, false_and, if_false, hf, hed, R.bind_ok] at ho
    rw [if_neg (by omega)] at ho
    cases ho
    rw [hpr, ← hcs, hb2]
  have hscr : screen t0 r2 = ((((screen t0 r1).run (chars ts1)).run r1.prompt).run cs).feed 10 := by
    unfold screen
    have hnt : (9 : Rune) ∉ cs ++ [10] := by
      simp only [List.mem_append, List.mem_singleton, not_or]
      exact ⟨hcol.no_tab, by omega⟩
    rw [eo, chars_append, chars_append, Term.run_append, Term.run_append, ets, chars_append, Term.run_append, chars_ch, paint_chars U hnt,
      Term.run_append]
    rfl
  have hw0 : 0 < (screen t0 r1).w := by rw [o1.sw]; have := o1.plain.pw; omega
  have d1 := run_coloured o1.plain.prompt hw0 (text := []) (by simpa using hd)
  simp only [List.nil_append] at d1
  have d2 := run_coloured hcol hw0 d1
  obtain ⟨n1, n2, n3, n4, n5, n6, n7⟩ := d2.newline hw0
  rw [← hscr] at n1 n2 n3 n4 n5 n6 n7
  rw [o1.sw] at n1 n3 n7
  refine ⟨hb2, n3, n4, fun a ha c => (n6 a ha c).trans (o1.above a ha c), n7, fun r4 h4 => ?_⟩
  -- the next prompt
  have h4' : RB.refreshV U d r2.reset.2 (fun e => (fun x => ((), x)) <$> Except.ok e) = .ok ((), r4) := by
    rw [RB.refreshNil, refresh_eq_refreshV] at h4
    obtain ⟨a, h⟩ := map_snd_ok h4
    exact h
  obtain ⟨e4, hs4⟩ := refreshV_ok h4'
  simp only [R.map_ok, Except.ok.injEq, Prod.mk.injEq, true_and] at e4
  have a3 : r2.reset.2.toEd.AllP (Cell U) :=
    ⟨by simp [RB.reset], by show ∀ c ∈ r2.lastKill, _; rw [hk2.1]; exact hg1.2.kill, by
      show ∀ b i, r2.bck = some (b, i) → _; rw [hk2.2]; exact hg1.2.bck⟩
  have g3 : r2.reset.2.toEd.Good := ⟨by simp [RB.reset, Ed.CursorIn], by
    show ∀ b i, r2.bck = some (b, i) → _; rw [hk2.2]; exact hg1.1.2⟩
  have p3 : Plain U d w vis r2.reset.2 := o1.plain.congr (r' := r2.reset.2) ⟨hs2.1, hs2.2, hs2.3⟩ a3 g3
  have a4 : r4.toEd.AllP (Cell U) := by rw [← e4]; exact a3
  have g4 : r4.toEd.Good := by rw [← e4]; exact g3
  have p4 := p3.congr hs4 a4 g4
  obtain ⟨k1, k2, _⟩ := refreshV_drawn h4' c2
  obtain ⟨q1, q2, q3, q4, q5, q6⟩ := C17_redraw_partial p3 p4 h4' c2 c1 (t0 := t0) n1 n2
    (y := y + ((shownText vis r).length - 1) / w + 1) (by
      have : vis.length / w = 0 := Nat.div_eq_of_lt p3.pw
      show (screen t0 r2).row = _ + (vis.length + 0) / w
      rw [Nat.add_zero vis.length, this]; exact n3)
  exact ⟨p4, a4, g4, k2, k1, q1, q2, q3, q4, q5, q6⟩

/-! ### Where it fails -/

/-- A screen of 4 columns with an `x` in the top left corner and the cursor at the start of the second row. -/
def t4 : Spec.Term := ⟨4, fun y x => if y = 0 ∧ x = 0 then 120 else 32, 1, 0, false, .ground⟩

/-- **C17 is false in one corner.**  With a prompt one column shorter than the screen and an empty line the cursor is shown on the last
rune of the prompt: 4 columns, prompt `abc`, the cursor is in column 2 instead of 3. -/
theorem C17_false_prompt : ∃ r, (RB.new (str "abc") true 4).refreshNil U0 d0 = .ok r ∧
    (screen t4 r).row = 1 ∧ (screen t4 r).col = 2 := by
  exact ⟨_, rfl, by decide, by decide⟩

/-- A masked line. -/
def dm : DCfg := { d0 with enableMask := true, maskRune := 42 }

/-- **C17 is false for masked lines** (1).  A masked line that fills its last row leaves the wrap pending, so that the next key
erases the row above the prompt. -/
theorem C17_false_mask : ∃ r r', (RB.new (str ">") true 4).refreshNil U0 dm = .ok r ∧
    runCmds U0 dm [.insert (str "abc"), .insert (str "d")] r = .ok r' ∧ (screen t4 r).cell 0 0 = 120 ∧ (screen t4 r').cell 0 0 ≠ 120 := by
  exact ⟨_, _, rfl, rfl, by decide, by decide⟩

/-- **C17 is false for masked lines** (2).  The way back to the cursor is written twice. -/
theorem C17_false_mask_cursor : ∃ r r', (RB.new (str ">") true 20).refreshNil U0 dm = .ok r ∧
    runCmds U0 dm [.insert (str "abcdef"), .left, .left] r = .ok r' ∧ r'.idx = 4 ∧ (screen (blank 20) r').col = 1 + 2 := by
  exact ⟨_, _, rfl, rfl, rfl, by decide⟩

/-! ### Non-trivial case -/

/-- A coloured prompt. -/
def prompt0 : List Rune := 27 :: 91 :: [51, 49] ++ 109 :: str "> "

theorem plain0 : Plain U0 d0 4 (str "> ") (RB.new prompt0 true 4) := by
  refine ⟨rfl, ?_, by decide, ?_, by simp [RB.new], by decide, rfl, ⟨defaultPainter, rfl, fun s i h => .plain h⟩, rfl⟩
  · exact .colour (by decide) (.plain (by unfold Printable; decide))
  · unfold Singles; decide

/-- Commands without crash situation. -/
theorem Quiet.of_tame {cs : List Cmd} {r : RB} (h : ∀ c ∈ cs, c ≠ .transpose ∧ c ≠ .endWord ∧ ∀ x, c ≠ .replace x) : Quiet U d cs r := by
  intro pre c post e r1 _ ht
  have := h c (by rw [e]; simp)
  cases c
  case transpose => exact this.1 rfl
  case endWord => exact this.2.1 rfl
  case replace x => exact this.2.2 x rfl
  all_goals exact ht

/-- Typing and editing over several rows. -/
def edits0 : List Cmd := [.insert (str "hello"), .home, .insert (str "oh "), .left]

example : ∃ r r', (RB.new prompt0 true 4).refreshNil U0 d0 = .ok r ∧ runCmds U0 d0 edits0 r = .ok r' ∧
    OnScreen U0 d0 4 (str "> ") t4 t4 1 r' ∧ r'.buf = str "oh hello" := by
  obtain ⟨r, hr⟩ : ∃ r, (RB.new prompt0 true 4).refreshNil U0 d0 = .ok r := ⟨_, rfl⟩
  obtain ⟨r', hr', hb⟩ : ∃ r', runCmds U0 d0 edits0 r = .ok r' ∧ r'.buf = str "oh hello" := by
    have : (RB.new prompt0 true 4).refreshNil U0 d0 = .ok r := hr
    cases this
    exact ⟨_, rfl, rfl⟩
  refine ⟨r, r', hr, hr', ?_, hb⟩
  have h0 : OnScreen U0 d0 4 (str "> ") t4 t4 1 r := C17_start (t0 := t4) rfl rfl plain0 hr
  refine C17_commands_partial h0 ?_ (.of_tame (by simp [edits0])) hr'
  unfold Cell Printable; decide

/-- The screen of that case, computed: the cursor and some cells. -/
example : (match (do let r ← (RB.new prompt0 true 4).refreshNil U0 d0; runCmds U0 d0 edits0 r) with
    | .ok r => some ((screen t4 r).row, (screen t4 r).col, (screen t4 r).cell 0 0, (screen t4 r).cell 2 0, (screen t4 r).cell 3 0)
    | .error _ => none) = some (2, 0, 120, 32, 108) := by
  set_option maxRecDepth 20000 in decide

end RL
