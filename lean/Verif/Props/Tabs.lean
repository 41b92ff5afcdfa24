import Verif.Proofs.Tabs
/-! # C98: lines with tabs on the terminal

A tab cannot be typed (the key completes), but it comes into the line from the history, a default text, a completer or a listener. -/

namespace RL
open Spec Term Spec.Term RB

variable {U : UTables} {d : DCfg} {w : Nat} {vis : List Rune}

/-- The line is on the screen, in row `y`; the rows above are those of `base`. -/
structure TabRow (U : UTables) (d : DCfg) (w : Nat) (vis : List Rune) (t0 base : Spec.Term) (y : Nat) (r : RB) : Prop where
  tabbed : Tabbed U d w vis r
  runes : r.toEd.AllP (CellOrTab U)
  good : r.toEd.Good
  inter : r.interactive = true
  hc : r.hadClean = false
  sw : (screen t0 r).w = w
  above : ∀ a, a < y → ∀ c, (screen t0 r).cell a c = base.cell a c
  shows : (screen t0 r).Shows y (vis ++ detab U.tabWidth r.buf) (tabCol U vis r)

theorem Tabbed.cleaned {r : RB} (h : Tabbed U d w vis r) {n ts} (h1 : r.idxLine U r.width = .ok n) (h2 : r.cleanOutput U n = .ok ts) {t : Spec.Term}
    (hst : t.st = .ground) : Drawn t (t.run (chars ts)) t.row [] 0 := by
  rw [h.idxLine] at h1
  cases h1
  unfold RB.cleanOutput at h2
  have hw : r.width ≠ 0 := by rw [h.width]; have := h.fits; omega
  rw [if_neg hw, if_pos rfl] at h2
  cases h2
  exact run_clean (n := 0) hst rfl

/-- A line with tabs takes the room of its expanded text. -/
def TabFits (U : UTables) (w : Nat) (vis : List Rune) (r : RB) : Prop := vis.length + (detab U.tabWidth r.buf).length + 1 < w

theorem Tabbed.congr {r r' : RB} (h : Tabbed U d w vis r) (hs : SameDisp r r') (hr : r'.toEd.AllP (CellOrTab U)) (hg : r'.toEd.Good)
    (hf : TabFits U w vis r') : Tabbed U d w vis r' :=
  ⟨hs.width.trans h.width, by rw [hs.prompt]; exact h.prompt, h.visS, hr.buf, hg.1, h.mask, h.paint, h.unix, h.tab, hf⟩

/-- **C98 (partial), one redraw.**  The line takes one row before and after; wherever in the row the terminal's cursor is, afterwards the row shows
the prompt and the new line with blanks for the tabs, the rows below are blank, those above untouched, and the terminal's cursor is as many columns
left of the end of the line as there are runes from the editing cursor on. -/
theorem C98_redraw_partial {α} {r r' : RB} {f : Ed → R (α × Ed)} {a : α} (h : Tabbed U d w vis r) (h' : Tabbed U d w vis r')
    (hr : r.refreshV U d f = .ok (a, r')) (hi : r.interactive = true) (hc : r.hadClean = false) {t0 : Spec.Term} (hw : (screen t0 r).w = w)
    (hst : (screen t0 r).st = .ground) :
    (screen t0 r').w = w ∧ (∀ a, a < (screen t0 r).row → ∀ c, (screen t0 r').cell a c = (screen t0 r).cell a c) ∧
    (screen t0 r').Shows (screen t0 r).row (vis ++ detab U.tabWidth r'.buf) (tabCol U vis r') := by
  obtain ⟨_, _, ts1, ts2, n, e, ho, hn, _, hcl⟩ := refreshV_drawn hr hi
  have hd := h.cleaned hn (hcl hc) hst
  have := h'.drawn ho hw hd
  unfold screen
  rw [e, chars_append, chars_append, Term.run_append, Term.run_append]
  exact this

theorem TabRow.row {t0 base : Spec.Term} {y : Nat} {r : RB} (h : TabRow U d w vis t0 base y r) : (screen t0 r).row = y := by
  rw [h.shows.row, h.sw, Nat.div_eq_of_lt h.tabbed.col_lt]; rfl

theorem TabRow.redraw {t0 base : Spec.Term} {y : Nat} {r r' : RB} (h : TabRow U d w vis t0 base y r) {lk}
    {α} {f : Ed → R (α × Ed)} {a : α} (hr : RB.refreshV U d { r with lastKill := lk } f = .ok (a, r')) (h1 : r'.toEd.AllP (CellOrTab U))
    (h2 : r'.toEd.Good) (hf : TabFits U w vis r') : TabRow U d w vis t0 base y r' := by
  have hs := (refreshV_ok hr).2
  have hp := h.tabbed.congr (r' := r') ⟨hs.1, hs.2, hs.3⟩ h1 h2 hf
  have hp0 : Tabbed U d w vis { r with lastKill := lk } := { h.tabbed with }
  obtain ⟨g1, g2, g3⟩ := C98_redraw_partial hp0 hp hr h.inter h.hc h.sw h.shows.st
  have hrow : (screen t0 { r with lastKill := lk }).row = y := h.row
  rw [hrow] at g2 g3
  obtain ⟨k1, k2, _⟩ := refreshV_drawn hr h.inter
  exact ⟨hp, h1, h2, k2, k1, g1, fun a ha c => (g2 a ha c).trans (h.above a ha c), g3⟩

/-- **C98 (partial), editing.**  Whatever commands are applied, also those that insert tabs, as long as the line with its tabs expanded leaves a
column of the row free: after every one of them the row shows the prompt and the line with blanks for the tabs and nothing else. -/
theorem C98_commands_partial {t0 base : Spec.Term} {y : Nat} {cs : List Cmd} : ∀ {r r' : RB},
    TabRow U d w vis t0 base y r → (∀ c ∈ cs, ∀ x ∈ c.runes, CellOrTab U x) → Quiet U d cs r →
    (∀ n r1, runCmds U d (cs.take n) r = .ok r1 → TabFits U w vis r1) → runCmds U d cs r = .ok r' → TabRow U d w vis t0 base y r' := by
  induction cs with
  | nil => intro r r' h _ _ _ hr; cases hr; exact h
  | cons c cs ih =>
    intro r r' h hc hq hf hr
    unfold runCmds at hr
    obtain ⟨r1, h1, hr⟩ := R.bind_inv hr
    obtain ⟨hcore, hs⟩ := apply_ok h1
    have ha1 := core_all hcore h.good.1 h.runes (hc c (List.mem_cons_self ..))
    have hg1 : r1.toEd.Good := by
      obtain ⟨e', he, hg⟩ := core_good h.good (hq [] c cs rfl r rfl)
      rw [hcore] at he; cases he; exact hg
    have hf1 : TabFits U w vis r1 := hf 1 r1 (by
      simp only [List.take_succ_cons, List.take_zero, runCmds, h1, R.bind_ok])
    refine ih ?_ (fun k hk => hc k (List.mem_cons_of_mem _ hk)) (fun pre k post e r2 hr2 => ?_) (fun n r2 hr2 => hf (n + 1) r2 ?_) hr
    · rcases apply_drawn h1 with ⟨e1, e2, e3, e4, e5⟩ | ⟨lk, α, f, a, e⟩
      · have hsc : screen t0 r1 = screen t0 r := by unfold screen; rw [e3]
        exact ⟨h.tabbed.congr hs ha1 hg1 hf1, ha1, hg1, hs.interactive.trans h.inter, e4.trans h.hc, by rw [hsc]; exact h.sw,
          by rw [hsc]; exact h.above, by unfold tabCol; rw [hsc, e1, e2]; exact h.shows⟩
      · exact h.redraw e ha1 hg1 hf1
    · refine hq (c :: pre) k post (by rw [e]; rfl) r2 ?_
      unfold runCmds
      rw [h1]; exact hr2
    · rw [List.take_succ_cons]
      unfold runCmds
      rw [h1]; exact hr2

/-- **C98 (partial), start.**  Drawing a fresh buffer. -/
theorem C98_start_partial {prompt : List Rune} {t0 : Spec.Term} (hw : t0.w = w) (hst : t0.st = .ground)
    {r' : RB} (hp : Tabbed U d w vis (RB.new prompt true w)) (hr : (RB.new prompt true w).refreshNil U d = .ok r') :
    TabRow U d w vis t0 t0 t0.row r' := by
  have hr' : RB.refreshV U d (RB.new prompt true w) (fun e => (fun x => ((), x)) <$> Except.ok e) = .ok ((), r') := by
    rw [RB.refreshNil, refresh_eq_refreshV] at hr
    obtain ⟨a, h⟩ := map_snd_ok hr
    exact h
  obtain ⟨e, hs⟩ := refreshV_ok hr'
  simp only [R.map_ok, Except.ok.injEq, Prod.mk.injEq, true_and] at e
  have h1 : r'.toEd.AllP (CellOrTab U) := by rw [← e]; exact ⟨by simp [RB.new], by simp [RB.new], by simp [RB.new]⟩
  have h2 : r'.toEd.Good := by rw [← e]; exact ⟨by simp [RB.new, Ed.CursorIn], by simp [RB.new]⟩
  have hp' := hp.congr hs h1 h2 (by
    have hb : r'.buf = [] := by rw [← e]; rfl
    unfold TabFits
    rw [hb]
    exact hp.fits)
  obtain ⟨k1, k2, _⟩ := refreshV_drawn hr' rfl
  obtain ⟨g1, g2, g3⟩ := C98_redraw_partial hp hp' hr' rfl rfl (t0 := t0) hw hst
  exact ⟨hp', h1, h2, k2, k1, g1, g2, g3⟩

/-- **C98, where the cursor is.**  With tabs of two columns or more, the terminal's cursor is on the cell of the rune under the editing cursor
exactly if no tab is at or after the editing cursor. -/
theorem C98_cursor_iff {t0 base : Spec.Term} {y : Nat} {r : RB} (h : TabRow U d w vis t0 base y r) (ht : 1 < U.tabWidth) :
    (screen t0 r).col = vis.length + (detab U.tabWidth (r.buf.take r.idx)).length ↔ (9 : Rune) ∉ r.buf.drop r.idx := by
  rw [h.shows.col, h.sw, Nat.mod_eq_of_lt h.tabbed.col_lt, ← detab_eq_iff ht]
  have e : detab U.tabWidth r.buf = detab U.tabWidth (r.buf.take r.idx) ++ detab U.tabWidth (r.buf.drop r.idx) := by
    rw [← detab_append, List.take_append_drop]
  have hl := detab_le (n := U.tabWidth) (by omega) (r.buf.drop r.idx)
  have hi := h.tabbed.idx
  unfold tabCol
  rw [e, List.length_append]
  rw [List.length_drop] at hl ⊢
  omega

/-! ### Where it fails -/

/-- **C98 is false** (cursor).  The way back to the cursor counts runes, not columns: after the text `a`, tab, `b` and Ctrl-A the terminal's cursor
is 3 columns to the right of the start of the line. -/
theorem C98_false_cursor : ∃ r r', (RB.new (str "> ") true 20).refreshNil U0 d0 = .ok r ∧
    runCmds U0 d0 [.insert [97, 9, 98], .home] r = .ok r' ∧ r'.idx = 0 ∧ (screen (blank 20) r').row = 0 ∧ (screen (blank 20) r').col = 2 + 3 :=
  ⟨_, _, rfl, rfl, rfl, by decide, by decide⟩

/-- **C98 is false** (edge).  A tab that meets the edge of the screen is wrapped by the terminal in the middle, but counted as if it ended the row:
6 columns, prompt `>`, the line `abc`, tab, `xwxyz`.  The terminal's cursor is in
the third row, the code believes it is in the second, and the next redraw leaves the first row on the screen and starts in the second. -/
theorem C98_false_edge : ∃ r r', (RB.new (str ">") true 6).refreshNil U0 d0 = .ok r ∧
    runCmds U0 d0 [.insert ([97, 98, 99, 9] ++ str "xwxyz"), .insert (str "q")] r = .ok r' ∧
    (screen (blank 6) r').cell 0 0 = 62 ∧ (screen (blank 6) r').cell 0 1 = 97 ∧ (screen (blank 6) r').cell 1 0 = 62 ∧ (screen (blank 6) r').cell 1 1 = 97 :=
  ⟨_, _, rfl, rfl, by decide, by decide, by decide, by decide⟩

/-! ### Non-trivial case -/

theorem tabbed0 : Tabbed U0 d0 20 (str "> ") (RB.new (str "> ") true 20) :=
  ⟨rfl, .plain (by unfold Printable; decide), by unfold Singles; decide, by simp [RB.new], by decide, rfl, ⟨defaultPainter, rfl, fun _ _ => rfl⟩, rfl, by decide, by decide⟩

/-- A text with two tabs is inserted and edited. -/
def cmds98 : List Cmd := [.insert [97, 9, 98, 9, 99], .left, .backspace, .insert [100]]

example : ∃ r r', (RB.new (str "> ") true 20).refreshNil U0 d0 = .ok r ∧ runCmds U0 d0 cmds98 r = .ok r' ∧ r'.buf = [97, 9, 98, 100, 99] ∧
    (screen (blank 20) r').Shows 0 (str "> a    bdc") 9 := by
  obtain ⟨r, hr⟩ : ∃ r, (RB.new (str "> ") true 20).refreshNil U0 d0 = .ok r := ⟨_, rfl⟩
  obtain ⟨r', hr', hb, hi⟩ : ∃ r', runCmds U0 d0 cmds98 r = .ok r' ∧ r'.buf = [97, 9, 98, 100, 99] ∧ r'.idx = 4 := by
    cases hr; exact ⟨_, rfl, rfl, rfl⟩
  have h0 := C98_start_partial (t0 := blank 20) rfl rfl tabbed0 hr
  have h1 := C98_commands_partial h0 (by unfold cmds98 CellOrTab Cell Printable; decide) (Quiet.of_tame (by simp [cmds98])) (by
    intro n r1 h1
    cases hr
    unfold TabFits
    match n with
    | 0 => cases h1; decide
    | 1 => cases h1; decide
    | 2 => cases h1; decide
    | 3 => cases h1; decide
    | n + 4 => rw [List.take_of_length_le (by simp [cmds98])] at h1; cases h1; decide) hr'
  refine ⟨r, r', hr, hr', hb, ?_⟩
  have := h1.shows
  unfold tabCol at this
  rw [hb, hi] at this
  exact this

end RL
