import Verif.Proofs.Stars
/-! # C100: masked lines on the terminal

`GenPasswordConfig` sets `EnableMask`; the line is shown as one `MaskRune` for every rune (`runebuf.go:492-512`). -/

namespace RL
open Spec Term Spec.Term RB

variable {U : UTables} {d : DCfg} {w : Nat} {vis : List Rune}

/-- The line is on the screen, in row `y`; the rows above are those of `base`. -/
structure StarRow (U : UTables) (d : DCfg) (w : Nat) (vis : List Rune) (t0 base : Spec.Term) (y : Nat) (r : RB) : Prop where
  starred : Starred U d w vis r
  runes : r.toEd.AllP NoBreak
  good : r.toEd.Good
  inter : r.interactive = true
  hc : r.hadClean = false
  sw : (screenN t0 r).w = w
  above : ∀ a, a < y → ∀ c, (screenN t0 r).cell a c = base.cell a c
  shows : (screenN t0 r).Shows y (vis ++ masked d.maskRune r.buf) (starCol d vis r)

theorem Starred.cleaned {r : RB} (h : Starred U d w vis r) {n ts} (h1 : r.idxLine U r.width = .ok n) (h2 : r.cleanOutput U n = .ok ts) {t : Spec.Term}
    (hst : t.st = .ground) : Drawn t (t.runN (chars ts)) t.row [] 0 := by
  rw [h.idxLine] at h1
  cases h1
  unfold RB.cleanOutput at h2
  have hw : r.width ≠ 0 := by rw [h.width]; have := h.fits.1; omega
  rw [if_neg hw, if_pos rfl] at h2
  cases h2
  rw [runN_eq _ (a := chars [.eraseBelow, .eraseLine, .cr]) (by decide)]
  exact run_clean (n := 0) hst rfl

theorem Starred.congr {r r' : RB} (h : Starred U d w vis r) (hs : SameDisp r r') (hr : r'.toEd.AllP NoBreak) (hg : r'.toEd.Good)
    (hf : StarFits U w vis r') : Starred U d w vis r' :=
  ⟨hs.width.trans h.width, by rw [hs.prompt]; exact h.prompt, h.visS, hr.buf, hg.1, h.mask, h.rune, h.paint, h.unix, hf⟩

/-- **C100 (partial), one redraw.**  The line takes one row before and after; wherever in the row the terminal's cursor is, afterwards the row shows
the prompt and the mask runes of the new line, the rows below are blank, those above untouched, and the terminal's cursor is two columns
left of the end of the line for every rune from the editing cursor on. -/
theorem C100_redraw_partial {α} {r r' : RB} {f : Ed → R (α × Ed)} {a : α} (h : Starred U d w vis r) (h' : Starred U d w vis r')
    (hr : r.refreshV U d f = .ok (a, r')) (hi : r.interactive = true) (hc : r.hadClean = false) {t0 : Spec.Term} (hw : (screenN t0 r).w = w)
    (hst : (screenN t0 r).st = .ground) :
    (screenN t0 r').w = w ∧ (∀ a, a < (screenN t0 r).row → ∀ c, (screenN t0 r').cell a c = (screenN t0 r).cell a c) ∧
    (screenN t0 r').Shows (screenN t0 r).row (vis ++ masked d.maskRune r'.buf) (starCol d vis r') := by
  obtain ⟨_, _, ts1, ts2, n, e, ho, hn, _, hcl⟩ := refreshV_drawn hr hi
  have hd := h.cleaned hn (hcl hc) hst
  have := h'.drawn ho hw hd
  unfold screenN
  rw [e, chars_append, chars_append, runN_append, runN_append]
  exact this

theorem StarRow.row {t0 base : Spec.Term} {y : Nat} {r : RB} (h : StarRow U d w vis t0 base y r) : (screenN t0 r).row = y := by
  rw [h.shows.row, h.sw, Nat.div_eq_of_lt h.starred.col_lt]; rfl

theorem StarRow.redraw {t0 base : Spec.Term} {y : Nat} {r r' : RB} (h : StarRow U d w vis t0 base y r) {lk}
    {α} {f : Ed → R (α × Ed)} {a : α} (hr : RB.refreshV U d { r with lastKill := lk } f = .ok (a, r')) (h1 : r'.toEd.AllP NoBreak)
    (h2 : r'.toEd.Good) (hf : StarFits U w vis r') : StarRow U d w vis t0 base y r' := by
  have hs := (refreshV_ok hr).2
  have hp := h.starred.congr (r' := r') ⟨hs.1, hs.2, hs.3⟩ h1 h2 hf
  have hp0 : Starred U d w vis { r with lastKill := lk } := { h.starred with }
  obtain ⟨g1, g2, g3⟩ := C100_redraw_partial hp0 hp hr h.inter h.hc h.sw h.shows.st
  have hrow : (screenN t0 { r with lastKill := lk }).row = y := h.row
  rw [hrow] at g2 g3
  obtain ⟨k1, k2, _⟩ := refreshV_drawn hr h.inter
  exact ⟨hp, h1, h2, k2, k1, g1, fun a ha c => (g2 a ha c).trans (h.above a ha c), g3⟩

/-- **C100 (partial), editing.**  Whatever commands are applied and whatever runes they insert except line breaks, as long as the line leaves a
column of the row free: after every one of them the row shows the prompt, one mask rune for every rune of the line and nothing else. -/
theorem C100_commands_partial {t0 base : Spec.Term} {y : Nat} {cs : List Cmd} : ∀ {r r' : RB},
    StarRow U d w vis t0 base y r → (∀ c ∈ cs, ∀ x ∈ c.runes, NoBreak x) → Quiet U d cs r →
    (∀ n r1, runCmds U d (cs.take n) r = .ok r1 → StarFits U w vis r1) → runCmds U d cs r = .ok r' → StarRow U d w vis t0 base y r' := by
  induction cs with
  | nil => intro r r' h _ _ _ hr; cases hr; exact h
  | cons c cs ih =>
    intro r r' h hc hq hf hr
    unfold runCmds at hr
    obtain ⟨r1, h1, hr⟩ := R.bind_inv hr
    obtain ⟨hcore, hs⟩ := apply_ok h1
    have ha1 := core_all hcore h.good.1 h.runes (hc c (List.mem_cons_self ..))
    have hg1 : r1.toEd.Good := by
      obtain ⟨e', he, hg⟩ := core_good h.good (hq [] c cs rfl r rfl)
      rw [hcore] at he; cases he; exact hg
    have hf1 : StarFits U w vis r1 := hf 1 r1 (by
      simp only [List.take_succ_cons, List.take_zero, runCmds, h1, R.bind_ok])
    refine ih ?_ (fun k hk => hc k (List.mem_cons_of_mem _ hk)) (fun pre k post e r2 hr2 => ?_) (fun n r2 hr2 => hf (n + 1) r2 ?_) hr
    · rcases apply_drawn h1 with ⟨e1, e2, e3, e4, e5⟩ | ⟨lk, α, f, a, e⟩
      · have hsc : screenN t0 r1 = screenN t0 r := by unfold screenN; rw [e3]
        exact ⟨h.starred.congr hs ha1 hg1 hf1, ha1, hg1, hs.interactive.trans h.inter, e4.trans h.hc, by rw [hsc]; exact h.sw,
          by rw [hsc]; exact h.above, by unfold starCol; rw [hsc, e1, e2]; exact h.shows⟩
      · exact h.redraw e ha1 hg1 hf1
    · refine hq (c :: pre) k post (by rw [e]; rfl) r2 ?_
      unfold runCmds
      rw [h1]; exact hr2
    · rw [List.take_succ_cons]
      unfold runCmds
      rw [h1]; exact hr2

/-- **C100 (partial), start.**  Drawing a fresh buffer. -/
theorem C100_start_partial {prompt : List Rune} {t0 : Spec.Term} (hw : t0.w = w) (hst : t0.st = .ground)
    {r' : RB} (hp : Starred U d w vis (RB.new prompt true w)) (hr : (RB.new prompt true w).refreshNil U d = .ok r') :
    StarRow U d w vis t0 t0 t0.row r' := by
  have hr' : RB.refreshV U d (RB.new prompt true w) (fun e => (fun x => ((), x)) <$> Except.ok e) = .ok ((), r') := by
    rw [RB.refreshNil, refresh_eq_refreshV] at hr
    obtain ⟨a, h⟩ := map_snd_ok hr
    exact h
  obtain ⟨e, hs⟩ := refreshV_ok hr'
  simp only [R.map_ok, Except.ok.injEq, Prod.mk.injEq, true_and] at e
  have h1 : r'.toEd.AllP NoBreak := by rw [← e]; exact ⟨by simp [RB.new], by simp [RB.new], by simp [RB.new]⟩
  have h2 : r'.toEd.Good := by rw [← e]; exact ⟨by simp [RB.new, Ed.CursorIn], by simp [RB.new]⟩
  have hp' := hp.congr hs h1 h2 (by
    have hb : r'.buf = [] := by rw [← e]; rfl
    unfold StarFits
    rw [hb]
    exact hp.fits)
  obtain ⟨k1, k2, _⟩ := refreshV_drawn hr' rfl
  obtain ⟨g1, g2, g3⟩ := C100_redraw_partial hp hp' hr' rfl rfl (t0 := t0) hw hst
  exact ⟨hp', h1, h2, k2, k1, g1, g2, g3⟩

/-- **C100, where the cursor is.**  The terminal's cursor is behind the mask runes of the text before the editing cursor exactly if the editing
cursor is at the end of the line, or that place is the left edge of the screen. -/
theorem C100_cursor_iff {t0 base : Spec.Term} {y : Nat} {r : RB} (h : StarRow U d w vis t0 base y r) :
    (screenN t0 r).col = vis.length + (masked d.maskRune (r.buf.take r.idx)).length ↔
    r.idx = r.buf.length ∨ vis.length + (masked d.maskRune (r.buf.take r.idx)).length = 0 := by
  rw [h.shows.col, h.sw, Nat.mod_eq_of_lt h.starred.col_lt]
  have hi := h.starred.idx
  unfold starCol masked
  by_cases h0 : d.maskRune = 0
  · simp only [if_pos h0, List.length_nil]
    omega
  · simp only [if_neg h0, List.length_map, List.length_take]
    omega

theorem StarRow.redrawn {t0 base : Spec.Term} {y : Nat} {r : RB} (h : StarRow U d w vis t0 base y r) {n ts} (h1 : r.idxLine U r.width = .ok n)
    (h2 : r.cleanOutput U n = .ok ts) : Drawn (screenN t0 r) ((screenN t0 r).runN (chars ts)) y [] 0 := by
  have := h.starred.cleaned h1 h2 h.shows.st
  rw [h.row] at this
  exact this

/-- **C100** (submitting).  After Enter (`MoveToLineEnd`, the line break) the row shows the prompt and the mask runes, the terminal's cursor is at the
start of the next row, and `Reset` hands out the line as it was typed. -/
theorem C100_submit {t0 base : Spec.Term} {y : Nat} {r r1 r2 : RB} (h : StarRow U d w vis t0 base y r)
    (h1 : r.moveToLineEnd U d = .ok r1) (h2 : r1.writeRune U d 10 = .ok r2) :
    r2.reset.1 = r.buf ++ [10] ∧ (screenN t0 r2).row = y + 1 ∧ (screenN t0 r2).col = 0 ∧ (screenN t0 r2).pend = false ∧
    (∀ a, a < y → ∀ c, (screenN t0 r2).cell a c = base.cell a c) ∧
    (∀ a c, c < w → (screenN t0 r2).cell (y + a) c = (vis ++ masked d.maskRune r.buf).getD (a * w + c) 32) := by
  have ha : Cmd.apply U d .toEnd r = .ok r1 := h1
  obtain ⟨hc1, hs1⟩ := apply_ok ha
  simp only [Cmd.core, Ed.moveToLineEndC, Except.ok.injEq] at hc1
  have hb1 : r1.buf = r.buf := by rw [← hc1]
  have hi1 : r1.idx = r1.buf.length := by rw [← hc1]
  have o1 : StarRow U d w vis t0 base y r1 :=
    C100_commands_partial (cs := [.toEnd]) h (by simp [Cmd.runes]) (fun pre c post e r _ ht => by
      cases pre with
      | nil => cases e; exact ht
      | cons _ pre => simp at e) (fun n r3 h3 => by
        have : r3.buf = r.buf := by
          cases n with
          | zero => cases h3; rfl
          | succ n =>
            simp only [List.take_succ_cons, List.take_nil, runCmds, ha, R.bind_ok] at h3
            cases h3
            exact hb1
        unfold StarFits
        rw [this]
        exact h.starred.fits) (by simp only [runCmds]; rw [ha]; rfl)
  have h2' : RB.refreshV U d r1 (fun e => (fun x => ((), x)) <$> Ed.writeRunesC [10] e) = .ok ((), r2) := by
    rw [RB.writeRune, RB.writeRunes, refresh_eq_refreshV] at h2
    obtain ⟨a, h⟩ := map_snd_ok h2
    exact h
  obtain ⟨e2, hs2⟩ := refreshV_ok h2'
  have hle : r1.idx ≤ r1.buf.length := by rw [hi1]; exact Nat.le_refl _
  simp only [Ed.writeRunesC, sliceFrom_ok hle, sliceTo_ok hle, R.bind_ok, R.map_ok, Except.ok.injEq, Prod.mk.injEq, true_and] at e2
  have hb2 : r2.buf = r.buf ++ [10] := by
    rw [← e2, hi1, hb1]; simp
  have hi2 : r2.idx = r2.buf.length := by rw [hb2, ← e2, hi1, hb1]; simp
  obtain ⟨c1, c2, ts1, ts2, n, eo, ho, hn, _, hcl⟩ := refreshV_drawn h2' o1.inter
  have hd := o1.redrawn hn (hcl o1.hc)
  have ets : ts2 = r1.prompt.map Tok.ch ++ ((List.replicate r.buf.length d.maskRune).map Tok.ch ++ [.ch 10]) := by
    unfold RB.output at ho
    have hg : getR r2.buf (r2.buf.length - 1) = .ok 10 := by
      rw [hb2]; simp [getR]
    have hl : 0 < r2.buf.length := by rw [hb2]; simp
    simp only [h.starred.mask, true_and, gt_iff_lt, hl, if_true, hg, R.bind_ok, hi2, Nat.lt_irrefl, if_false] at ho
    cases ho
    rw [hs2.prompt, hb2]
    simp
  have hw0 : 0 < (screenN t0 r1).w := by rw [o1.sw]; have := h.starred.fits.1; omega
  have d1 := run_coloured o1.starred.prompt hw0 (text := []) (by simpa using hd)
  simp only [List.nil_append] at d1
  have d2 := run_coloured (.plain (masked_printable o1.starred.rune r.buf)) hw0 d1
  obtain ⟨n1, n2, n3, n4, n5, n6, n7⟩ := d2.newline hw0
  have hscr : screenN t0 r2 = ((((screenN t0 r1).runN (chars ts1)).run r1.prompt).run (masked d.maskRune r.buf)).feed 10 := by
    have hm : ∀ t : Spec.Term, t.runN (List.replicate r.buf.length d.maskRune) = t.run (masked d.maskRune r.buf) := by
      intro t; unfold Term.runN; rw [masked_shown]
    unfold screenN
    rw [eo, chars_append, chars_append, runN_append, runN_append, ets, chars_append, runN_append, chars_ch, runN_coloured _ o1.starred.prompt,
      chars_append, runN_append, chars_ch, hm, runN_eq _ (a := chars [.ch 10]) (by decide)]
    rfl
  rw [← hscr] at n1 n2 n3 n4 n5 n6 n7
  rw [o1.sw] at n3 n7
  have hdiv : ((vis ++ masked d.maskRune r.buf).length - 1) / w = 0 := by
    have := masked_le d.maskRune r.buf
    have := h.starred.fits.1
    rw [List.length_append]
    exact Nat.div_eq_of_lt (by omega)
  rw [hdiv] at n3
  exact ⟨hb2, n3, n4, n5, fun a ha c => (n6 a ha c).trans (o1.above a ha c), n7⟩

/-! ### Where it fails -/

/-- A line masked with the rune 0, as `GenPasswordConfig` leaves it. -/
def dz : DCfg := { d0 with enableMask := true, maskRune := 0 }

/-- **C100 is false** (cursor).  The way back to the cursor is written twice: with the default mask, which shows nothing, Left in a password moves the
terminal's cursor into the prompt: prompt `Pass: `, the text `abc`, Left twice; the cursor is on the `s`. -/
theorem C100_false_cursor : ∃ r r', (RB.new (str "Pass: ") true 20).refreshNil U0 dz = .ok r ∧
    runCmds U0 dz [.insert (str "abc"), .left, .left] r = .ok r' ∧ r'.idx = 1 ∧ (screenN (blank 20) r').row = 0 ∧ (screenN (blank 20) r').col = 2 :=
  ⟨_, _, rfl, rfl, rfl, by decide, by decide⟩

/-- **C100 is false** (wide runes).  The rows are counted by the runes typed, not by the mask runes shown: 4 columns, prompt `>`, two wide runes typed one
after the other; the screen has two mask runes in one row, but the second redraw believes the cursor to be in the second row and erases the row above. -/
theorem C100_false_wide : ∃ r r', (RB.new (str ">") true 4).refreshNil U0 dm = .ok r ∧
    runCmds U0 dm [.insert [0x4e00], .insert [0x4e00], .insert (str "a")] r = .ok r' ∧ (screenN t4 r).cell 0 0 = 120 ∧ (screenN t4 r').cell 0 0 ≠ 120 :=
  ⟨_, _, rfl, rfl, by decide, by decide⟩

/-- **C100 is false** (full row).  A masked line that fills its row leaves the wrap pending, so that the next key erases the row above. -/
theorem C100_false_full : ∃ r r', (RB.new (str ">") true 4).refreshNil U0 dm = .ok r ∧
    runCmds U0 dm [.insert (str "abc"), .insert (str "d")] r = .ok r' ∧ (screenN t4 r).cell 0 0 = 120 ∧ (screenN t4 r').cell 0 0 ≠ 120 :=
  ⟨_, _, rfl, rfl, by decide, by decide⟩

/-! ### Non-trivial case -/

theorem starred0 : Starred U0 dm 20 (str "> ") (RB.new (str "> ") true 20) :=
  ⟨rfl, .plain (by unfold Printable; decide), by unfold Singles; decide, by simp [RB.new], by decide, rfl, .inl (by unfold Printable; decide),
    ⟨defaultPainter, rfl, fun _ => rfl⟩, rfl, by unfold StarFits; decide⟩

/-- A password with a wide rune is typed and edited. -/
def cmds100 : List Cmd := [.insert [97, 0x4e00, 98], .left, .backspace, .insert [100, 101], .toEnd]

example : ∃ r r', (RB.new (str "> ") true 20).refreshNil U0 dm = .ok r ∧ runCmds U0 dm cmds100 r = .ok r' ∧ r'.buf = str "adeb" ∧
    (screenN (blank 20) r').Shows 0 (str "> ****") 6 := by
  obtain ⟨r, hr⟩ : ∃ r, (RB.new (str "> ") true 20).refreshNil U0 dm = .ok r := ⟨_, rfl⟩
  obtain ⟨r', hr', hb, hi⟩ : ∃ r', runCmds U0 dm cmds100 r = .ok r' ∧ r'.buf = str "adeb" ∧ r'.idx = 4 := by
    cases hr; exact ⟨_, rfl, rfl, rfl⟩
  have h0 := C100_start_partial (t0 := blank 20) rfl rfl starred0 hr
  have h1 := C100_commands_partial h0 (by unfold cmds100 NoBreak; decide) (Quiet.of_tame (by simp [cmds100])) (by
    intro n r1 h1
    cases hr
    unfold StarFits
    match n with
    | 0 => cases h1; decide
    | 1 => cases h1; decide
    | 2 => cases h1; decide
    | 3 => cases h1; decide
    | 4 => cases h1; decide
    | n + 5 => rw [List.take_of_length_le (by simp [cmds100])] at h1; cases h1; decide) hr'
  refine ⟨r, r', hr, hr', hb, ?_⟩
  have := h1.shows
  unfold starCol at this
  rw [hb, hi] at this
  exact this

end RL
