import Verif.Proofs.Wide
import Verif.Props.Screen
/-! # C75: wide runes on the terminal

The terminal is `Verif.Spec.Wide`: a character may take two columns, and one that does not fit into the rest of a row is written at
the start of the next. -/

namespace RL
open Spec RB
open Term (chars chars_append)

/-- The terminal after everything the buffer has written. -/
def wscreen (wd : Rune → Nat) (t0 : WTerm) (r : RB) : WTerm := t0.run wd (chars r.out)

/-- The columns in front of the rune under the editing cursor, counted from the start of the prompt. -/
def before (wd : Rune → Nat) (vis : List Rune) (r : RB) : Nat := columns wd (vis ++ r.buf.take r.idx)

/-- By how many columns the runes at and behind the editing cursor are wider than their number. -/
def excess (wd : Rune → Nat) (r : RB) : Nat := columns wd (r.buf.drop r.idx) - (r.buf.drop r.idx).length

variable {U : UTables} {wd : Rune → Nat} {d : DCfg}

theorem before_excess {vis : List Rune} {r : RB} (h : ∀ c ∈ r.buf, 0 < wd c) :
    columns wd (vis ++ r.buf) - (r.buf.length - r.idx) = before wd vis r + excess wd r := by
  have h1 : columns wd r.buf = columns wd (r.buf.take r.idx) + columns wd (r.buf.drop r.idx) := by
    rw [← columns_append, List.take_append_drop]
  have h2 := length_le_columns (fun c hc => h c (List.mem_of_mem_drop hc) : ∀ c ∈ r.buf.drop r.idx, 0 < wd c)
  unfold before excess
  rw [columns_append, columns_append, h1]
  rw [List.length_drop] at h2 ⊢
  omega

/-- There is no excess exactly if every rune at or behind the cursor takes one column. -/
theorem excess_zero {r : RB} (h : ∀ c ∈ r.buf, 0 < wd c) : excess wd r = 0 ↔ ∀ c ∈ r.buf.drop r.idx, wd c = 1 := by
  have h0 : ∀ c ∈ r.buf.drop r.idx, 0 < wd c := fun c hc => h c (List.mem_of_mem_drop hc)
  unfold excess
  generalize r.buf.drop r.idx = s at h0
  induction s with
  | nil => simp [columns]
  | cons c cs ih =>
    have h1 := h0 c (List.mem_cons_self ..)
    have h2 : ∀ x ∈ cs, 0 < wd x := fun x hx => h0 x (List.mem_cons_of_mem _ hx)
    have h3 := length_le_columns h2
    have ih := ih h2
    have e : columns wd (c :: cs) = wd c + columns wd cs := by simp [columns]
    rw [e, List.length_cons]
    constructor
    · intro hz x hx
      rcases List.mem_cons.1 hx with rfl | hx
      · omega
      · exact ih.1 (by omega) x hx
    · intro hx
      have := hx c (List.mem_cons_self ..)
      have := ih.2 (fun x hx' => hx x (List.mem_cons_of_mem _ hx'))
      omega

/-- Erasing the line: rows from `y` on are blank. -/
theorem WPlain.cleaned {w : Nat} {vis : List Rune} {r : RB} (h : WPlain U wd d w vis r) (hu : Unbroken wd w (vis ++ r.buf)) {n ts}
    (h1 : r.idxLine U r.width = .ok n) (h2 : r.cleanOutput U n = .ok ts) {t : WTerm} {y : Nat} (hst : t.st = .ground)
    (hrow : t.row = y + before wd vis r / w) : WTerm.Drawn t (t.run wd (chars ts)) y [] 0 := by
  rw [h.idxLine hu] at h1
  cases h1
  unfold before at hrow
  unfold RB.cleanOutput at h2
  have hw : r.width ≠ 0 := by rw [h.width]; have := h.pw; omega
  rw [if_neg hw] at h2
  have := WTerm.run_clean (wd := wd) hst hrow
  split at h2
  · next h0 =>
    have h0 : columns wd (vis ++ r.buf.take r.idx) / w = 0 := by exact_mod_cast h0
    cases h2
    rw [h0] at this
    exact this
  · cases h2
    exact this

/-- **C75, the part that holds** (one redraw).  If no wide rune is cut by the edge of the screen, and the cursor is at the end of the
line or the line takes one row, then the redraw shows the prompt and the new line wrapped at the width and nothing else, and leaves
the rows above untouched.  The cursor is in the right row and, up to `WPlain.Corner`, exactly `excess` columns to the right of the rune
under the editing cursor.  Missing: see `C75_false_*`. -/
theorem C75_redraw_partial {α} {w : Nat} {vis : List Rune} {r r' : RB} {f : Ed → R (α × Ed)} {a : α}
    (h : WPlain U wd d w vis r) (hu : Unbroken wd w (vis ++ r.buf)) (h' : WPlain U wd d w vis r') (hf' : WFits wd w vis r')
    (hr : r.refreshV U d f = .ok (a, r')) (hi : r.interactive = true)
    (hc : r.hadClean = false) {t0 : WTerm} (hw : (wscreen wd t0 r).w = w) (hst : (wscreen wd t0 r).st = .ground) {y : Nat}
    (hrow : (wscreen wd t0 r).row = y + before wd vis r / w) :
    (wscreen wd t0 r').w = w ∧ (wscreen wd t0 r').st = .ground ∧ (wscreen wd t0 r').pend = false ∧
    (wscreen wd t0 r').row = y + before wd vis r' / w ∧
    (¬ WPlain.Corner wd w vis r' → (wscreen wd t0 r').col = (before wd vis r' + excess wd r') % w) ∧
    (∀ a, a < y → ∀ c, (wscreen wd t0 r').cell a c = (wscreen wd t0 r).cell a c) ∧
    (∀ a c, c < w → (wscreen wd t0 r').cell (y + a) c = (cellsOf wd (vis ++ r'.buf)).getD (a * w + c) [32]) := by
  obtain ⟨_, _, ts1, ts2, n, e, ho, hn, _, hcl⟩ := refreshV_drawn hr hi
  have hd := h.cleaned hu hn (hcl hc) hst hrow
  have := h'.drawn hf' ho hw hd
  rw [before_excess (fun c hc => (h'.buf c hc).2.2)] at this
  unfold wscreen
  rw [e, chars_append, chars_append, WTerm.run_append, WTerm.run_append]
  exact this

/-- The line is on the screen, from row `y` on; the rows above are those of `base`.  `t0` is the terminal before the first
output. -/
structure WOnScreen (U : UTables) (wd : Rune → Nat) (d : DCfg) (w : Nat) (vis : List Rune) (t0 base : WTerm) (y : Nat) (r : RB) : Prop where
  plain : WPlain U wd d w vis r
  fits : WFits wd w vis r
  runes : r.toEd.AllP (WCell U wd)
  good : r.toEd.Good
  inter : r.interactive = true
  hc : r.hadClean = false
  sw : (wscreen wd t0 r).w = w
  st : (wscreen wd t0 r).st = .ground
  pend : (wscreen wd t0 r).pend = false
  row : (wscreen wd t0 r).row = y + before wd vis r / w
  col : ¬ WPlain.Corner wd w vis r → (wscreen wd t0 r).col = (before wd vis r + excess wd r) % w
  above : ∀ a, a < y → ∀ c, (wscreen wd t0 r).cell a c = base.cell a c
  cells : ∀ a c, c < w → (wscreen wd t0 r).cell (y + a) c = (cellsOf wd (vis ++ r.buf)).getD (a * w + c) [32]

/-- **C75, the part that holds** (cursor).  The screen shows line and cursor if and only if every rune at or behind the editing cursor
takes one column. -/
theorem C75_cursor_partial {w : Nat} {vis : List Rune} {t0 base : WTerm} {y : Nat} {r : RB} (h : WOnScreen U wd d w vis t0 base y r)
    (hn : ¬ WPlain.Corner wd w vis r) :
    (wscreen wd t0 r).Shows wd y (vis ++ r.buf) (before wd vis r) ↔ ∀ c ∈ r.buf.drop r.idx, wd c = 1 := by
  have hpos : ∀ c ∈ r.buf, 0 < wd c := fun c hc => (h.plain.buf c hc).2.2
  rw [← excess_zero hpos]
  constructor
  · intro hs
    have h1 := hs.col
    rw [h.sw, h.col hn] at h1
    rcases h.fits.2 with hi | hk
    · unfold excess; rw [hi, List.drop_length]; simp [columns]
    · have h2 := before_excess (vis := vis) hpos
      have : before wd vis r + excess wd r < w := by omega
      rw [Nat.mod_eq_of_lt this, Nat.mod_eq_of_lt (by omega)] at h1
      omega
  · intro h0
    refine ⟨fun a c hc => ?_, by rw [h.sw]; exact h.row, by rw [h.sw, h.col hn, h0]; rfl, h.pend, h.st⟩
    rw [h.sw] at hc ⊢
    exact h.cells a c hc

theorem WPlain.congr {w : Nat} {vis : List Rune} {r r' : RB} (h : WPlain U wd d w vis r) (hs : SameDisp r r')
    (hr : r'.toEd.AllP (WCell U wd)) (hg : r'.toEd.Good) : WPlain U wd d w vis r' :=
  ⟨hs.width.trans h.width, by rw [hs.prompt]; exact h.prompt, h.pw, h.visW, hr.buf, hg.1, h.mask, h.paint, h.unix, h.space⟩

theorem WOnScreen.redraw {w : Nat} {vis : List Rune} {t0 base : WTerm} {y : Nat} {r r' : RB} (h : WOnScreen U wd d w vis t0 base y r) {lk}
    {α} {f : Ed → R (α × Ed)} {a : α} (hr : RB.refreshV U d { r with lastKill := lk } f = .ok (a, r')) (h1 : r'.toEd.AllP (WCell U wd))
    (h2 : r'.toEd.Good) (h3 : WFits wd w vis r') : WOnScreen U wd d w vis t0 base y r' := by
  have hs := (refreshV_ok hr).2
  have hp := h.plain.congr (r' := r') ⟨hs.1, hs.2, hs.3⟩ h1 h2
  have hp0 : WPlain U wd d w vis { r with lastKill := lk } :=
    ⟨h.plain.width, h.plain.prompt, h.plain.pw, h.plain.visW, h.plain.buf, h.plain.idx, h.plain.mask, h.plain.paint, h.plain.unix,
      h.plain.space⟩
  obtain ⟨g1, g2, g3, g4, g5, g6, g7⟩ := C75_redraw_partial hp0 h.fits.1 hp h3 hr h.inter h.hc h.sw h.st h.row
  obtain ⟨k1, k2, _⟩ := refreshV_drawn hr h.inter
  exact ⟨hp, h3, h1, h2, k2, k1, g1, g2, g3, g4, g5, fun a ha c => (g6 a ha c).trans (h.above a ha c), g7⟩

/-- The line fits after every command of the sequence. -/
def Fitting (U : UTables) (wd : Rune → Nat) (d : DCfg) (w : Nat) (vis : List Rune) (cs : List Cmd) (r : RB) : Prop :=
  ∀ pre post, cs = pre ++ post → ∀ r1, runCmds U d pre r = .ok r1 → WFits wd w vis r1

/-- **C75, the part that holds** (editing).  Whatever commands are applied, the screen shows the line, as long as it fits. -/
theorem C75_commands_partial {w : Nat} {vis : List Rune} {t0 base : WTerm} {y : Nat} {cs : List Cmd} : ∀ {r r' : RB},
    WOnScreen U wd d w vis t0 base y r → (∀ c ∈ cs, ∀ x ∈ c.runes, WCell U wd x) → Quiet U d cs r → Fitting U wd d w vis cs r →
    runCmds U d cs r = .ok r' → WOnScreen U wd d w vis t0 base y r' := by
  induction cs with
  | nil => intro r r' h _ _ _ hr; cases hr; exact h
  | cons c cs ih =>
    intro r r' h hc hq hfit hr
    unfold runCmds at hr
    obtain ⟨r1, h1, hr⟩ := R.bind_inv hr
    obtain ⟨hcore, hs⟩ := apply_ok h1
    have ha1 := core_all hcore h.good.1 h.runes (hc c (List.mem_cons_self ..))
    have hg1 : r1.toEd.Good := by
      obtain ⟨e', he, hg⟩ := core_good h.good (hq [] c cs rfl r rfl)
      rw [hcore] at he; cases he; exact hg
    have hf1 : WFits wd w vis r1 := hfit [c] cs rfl r1 (by simp only [runCmds]; rw [h1]; rfl)
    have step : ∀ pre r2, runCmds U d pre r1 = .ok r2 → runCmds U d (c :: pre) r = .ok r2 := by
      intro pre r2 h2
      unfold runCmds
      rw [h1]; exact h2
    refine ih ?_ (fun k hk => hc k (List.mem_cons_of_mem _ hk)) (fun pre k post e r2 hr2 => ?_) (fun pre post e r2 hr2 => ?_) hr
    · rcases apply_drawn h1 with ⟨e1, e2, e3, e4, e5⟩ | ⟨lk, α, f, a, e⟩
      · have hsc : wscreen wd t0 r1 = wscreen wd t0 r := by unfold wscreen; rw [e3]
        have hb : before wd vis r1 = before wd vis r := by unfold before; rw [e1, e2]
        have hx : excess wd r1 = excess wd r := by unfold excess; rw [e1, e2]
        exact ⟨h.plain.congr hs ha1 hg1, hf1, ha1, hg1, hs.interactive.trans h.inter, e4.trans h.hc, by rw [hsc]; exact h.sw,
          by rw [hsc]; exact h.st, by rw [hsc]; exact h.pend, by rw [hsc, hb]; exact h.row,
          fun hn => by rw [hsc, hb, hx]; exact h.col (fun hy => hn ⟨e1.trans hy.1, hy.2⟩),
          by rw [hsc]; exact h.above, by rw [hsc, e1]; exact h.cells⟩
      · exact h.redraw e ha1 hg1 hf1
    · exact hq (c :: pre) k post (by rw [e]; rfl) r2 (step pre r2 hr2)
    · exact hfit (c :: pre) post (by rw [e]; rfl) r2 (step pre r2 hr2)

/-- **C75** (start).  Drawing a fresh buffer on a terminal whose cursor is in row `y`. -/
theorem C75_start {w : Nat} {vis prompt : List Rune} {t0 : WTerm} (hw : t0.w = w) (hst : t0.st = .ground)
    {r' : RB} (hp : WPlain U wd d w vis (RB.new prompt true w)) (hr : (RB.new prompt true w).refreshNil U d = .ok r') :
    WOnScreen U wd d w vis t0 t0 t0.row r' := by
  have hr' : RB.refreshV U d (RB.new prompt true w) (fun e => (fun x => ((), x)) <$> Except.ok e) = .ok ((), r') := by
    rw [RB.refreshNil, refresh_eq_refreshV] at hr
    obtain ⟨a, h⟩ := map_snd_ok hr
    exact h
  obtain ⟨e, hs⟩ := refreshV_ok hr'
  simp only [R.map_ok, Except.ok.injEq, Prod.mk.injEq, true_and] at e
  have h1 : r'.toEd.AllP (WCell U wd) := by rw [← e]; exact ⟨by simp [RB.new], by simp [RB.new], by simp [RB.new]⟩
  have h2 : r'.toEd.Good := by rw [← e]; exact ⟨by simp [RB.new, Ed.CursorIn], by simp [RB.new]⟩
  have hb : r'.buf = [] := by rw [← e]; rfl
  have hp' := hp.congr hs h1 h2
  have hv : columns wd (vis ++ []) < w := by rw [List.append_nil]; exact hp.pw
  have hf' : WFits wd w vis r' := ⟨by rw [hb]; exact Unbroken.row (Nat.le_of_lt hv), .inr (by rw [hb]; exact hv)⟩
  obtain ⟨k1, k2, _⟩ := refreshV_drawn hr' rfl
  obtain ⟨g1, g2, g3, g4, g5, g6, g7⟩ := C75_redraw_partial hp (Unbroken.row (Nat.le_of_lt hv)) hp' hf' hr' rfl rfl (t0 := t0) hw hst (y := t0.row) (by
    show t0.row = t0.row + columns wd (vis ++ []) / w
    rw [Nat.div_eq_of_lt hv]; rfl)
  exact ⟨hp', hf', h1, h2, k2, k1, g1, g2, g3, g4, g5, g6, g7⟩

/-! ### Where it fails -/

/-- A screen of 6 columns with an `x` in the top left corner and the cursor at the start of the second row. -/
def wt6 : WTerm := ⟨6, fun y x => if y = 0 ∧ x = 0 then [120] else [32], 1, 0, false, .ground⟩

/-- 日本. -/
def nihon : List Rune := [0x65e5, 0x672c]

/-- **C75 is false** (1).  With `> 日` on the screen and the cursor moved left onto 日, the terminal's cursor is one column too far to
the right, on the second half of the rune. -/
theorem C75_false_cursor : ∃ r r', (RB.new (str "> ") true 20).refreshNil U0 d0 = .ok r ∧
    runCmds U0 d0 [.insert [0x65e5], .left] r = .ok r' ∧ before (runeWidth U0) (str "> ") r' = 2 ∧
    (wscreen (runeWidth U0) (WTerm.blank 20) r').col = 3 ∧ (wscreen (runeWidth U0) (WTerm.blank 20) r').cell 0 3 = [] := by
  exact ⟨_, _, rfl, rfl, by decide, by decide, by decide⟩

/-- **C75 is false** (2).  A wide rune that does not fit into the row: with 6 columns and the prompt `> `, the rune 日 typed after `abc`
is shown in the second row, but the library counts its columns in the first and the second row as empty.  After `defgh` the
terminal is in the third row and the library in the second; the next key leaves `> abc` in the first row and shows the line again
one row lower. -/
theorem C75_false_edge : ∃ r r', (RB.new (str "> ") true 6).refreshNil U0 d0 = .ok r ∧
    runCmds U0 d0 [.insert (str "abc"), .insert [0x65e5], .insert (str "defgh"), .insert (str "i")] r = .ok r' ∧
    r'.buf = str "abc" ++ [0x65e5] ++ str "defghi" ∧
    ((List.range 5).map ((wscreen (runeWidth U0) wt6 r').cell 1)).flatten = str "> abc" ∧
    ((List.range 5).map ((wscreen (runeWidth U0) wt6 r').cell 2)).flatten = str "> abc" := by
  refine ⟨_, _, rfl, rfl, rfl, ?_⟩
  set_option maxRecDepth 20000 in decide

/-- **C75 is false** (3).  A combining rune takes no column, but a step to the left over it goes back one column. -/
theorem C75_false_combining : ∃ r r', (RB.new (str "> ") true 20).refreshNil U0 d0 = .ok r ∧
    runCmds U0 d0 [.insert (str "ae" ++ [0x301]), .left] r = .ok r' ∧ before (runeWidth U0) (str "> ") r' = 4 ∧
    (wscreen (runeWidth U0) (WTerm.blank 20) r').col = 3 ∧ (wscreen (runeWidth U0) (WTerm.blank 20) r').cell 0 3 = str "e" ++ [0x301] := by
  exact ⟨_, _, rfl, rfl, by decide, by decide, by decide⟩

/-! ### Non-trivial case -/

/-- Decidable form of `Unbroken`. -/
def unbrokenFrom (wd : Rune → Nat) (w : Nat) : Nat → List Rune → Bool
  | _, [] => true
  | k, c :: cs => decide (k % w + wd c ≤ w) && unbrokenFrom wd w (k + wd c) cs

theorem unbrokenFrom_ok {w : Nat} {s : List Rune} : ∀ {k}, unbrokenFrom wd w k s = true →
    ∀ pre c post, s = pre ++ c :: post → (k + columns wd pre) % w + wd c ≤ w := by
  induction s with
  | nil => intro k _ pre c post e; cases pre <;> cases e
  | cons x xs ih =>
    intro k h pre c post e
    simp only [unbrokenFrom, Bool.and_eq_true, decide_eq_true_eq] at h
    cases pre with
    | nil => cases e; simpa [columns] using h.1
    | cons p pre =>
      injection e with e1 e2
      have := ih h.2 pre c post e2
      have ec : columns wd (p :: pre) = wd x + columns wd pre := by simp [columns, e1]
      rw [ec, ← Nat.add_assoc]; exact this

theorem Unbroken.of {w : Nat} {s : List Rune} (h : unbrokenFrom wd w 0 s = true) : Unbroken wd w s := by
  intro pre c post e
  have := unbrokenFrom_ok h pre c post e
  rwa [Nat.zero_add] at this

theorem wplain0 : WPlain U0 (runeWidth U0) d0 6 (str "> ") (RB.new prompt0 true 6) := by
  refine ⟨rfl, ?_, by decide, ?_, by simp [RB.new], by decide, rfl, ⟨defaultPainter, rfl, fun s i h => .plain h⟩, rfl, by decide⟩
  · exact .colour (by decide) (.plain (by unfold Printable; decide))
  · unfold WCell Printable; decide

/-- Typing 日本 and two more words over several rows. -/
def wedits0 : List Cmd := [.insert nihon, .insert (nihon ++ str "ab"), .backspace, .insert (str "cd")]

/-- Every state on the way. -/
def wfitsB (wd : Rune → Nat) (w : Nat) (vis : List Rune) (r : RB) : Bool :=
  unbrokenFrom wd w 0 (vis ++ r.buf) && (decide (r.idx = r.buf.length) || decide (columns wd (vis ++ r.buf) < w))

def fittingB (U : UTables) (wd : Rune → Nat) (d : DCfg) (w : Nat) (vis : List Rune) : List Cmd → RB → Bool
  | [], r => wfitsB wd w vis r
  | c :: cs, r => wfitsB wd w vis r && match c.apply U d r with | .ok r1 => fittingB U wd d w vis cs r1 | .error _ => true

theorem Fitting.of {w : Nat} {vis : List Rune} {cs : List Cmd} : ∀ {r : RB}, fittingB U wd d w vis cs r = true → Fitting U wd d w vis cs r := by
  have hw : ∀ {r : RB}, wfitsB wd w vis r = true → WFits wd w vis r := by
    intro r h
    simp only [wfitsB, Bool.and_eq_true, Bool.or_eq_true, decide_eq_true_eq] at h
    exact ⟨Unbroken.of h.1, h.2⟩
  induction cs with
  | nil =>
    intro r h pre post e r1 h1
    have : pre = [] := by cases pre with | nil => rfl | cons => cases e
    subst this
    cases h1
    exact hw h
  | cons c cs ih =>
    intro r h pre post e r1 h1
    simp only [fittingB, Bool.and_eq_true] at h
    cases pre with
    | nil => cases h1; exact hw h.1
    | cons p pre =>
      cases e
      unfold runCmds at h1
      obtain ⟨r2, h2, h1⟩ := R.bind_inv h1
      rw [h2] at h
      exact ih h.2 pre post rfl r1 h1

example : ∃ r r', (RB.new prompt0 true 6).refreshNil U0 d0 = .ok r ∧ runCmds U0 d0 wedits0 r = .ok r' ∧
    WOnScreen U0 (runeWidth U0) d0 6 (str "> ") wt6 wt6 1 r' ∧
    (wscreen (runeWidth U0) wt6 r').Shows (runeWidth U0) 1 (str "> " ++ nihon ++ nihon ++ str "acd") 13 := by
  obtain ⟨r, hr⟩ : ∃ r, (RB.new prompt0 true 6).refreshNil U0 d0 = .ok r := ⟨_, rfl⟩
  obtain ⟨r', hr', hb, hi, hfit⟩ : ∃ r', runCmds U0 d0 wedits0 r = .ok r' ∧ r'.buf = nihon ++ nihon ++ str "acd" ∧ r'.idx = 7 ∧
      fittingB U0 (runeWidth U0) d0 6 (str "> ") wedits0 r = true := by
    have : (RB.new prompt0 true 6).refreshNil U0 d0 = .ok r := hr
    cases this
    exact ⟨_, rfl, rfl, rfl, by set_option maxRecDepth 20000 in decide⟩
  have h0 : WOnScreen U0 (runeWidth U0) d0 6 (str "> ") wt6 wt6 1 r := C75_start (t0 := wt6) rfl rfl wplain0 hr
  have h1 := C75_commands_partial h0 (by unfold WCell Printable; decide) (.of_tame (by simp [wedits0])) (.of hfit) hr'
  refine ⟨r, r', hr, hr', h1, ?_⟩
  have h2 := (C75_cursor_partial h1 (fun hx => by have := hx.1; rw [hb] at this; cases this)).2 (by rw [hb, hi]; decide)
  have e : before (runeWidth U0) (str "> ") r' = 13 := by unfold before; rw [hb, hi]; decide
  rw [e, hb] at h2
  exact h2

end RL
