import Verif.Props.Screen
import Verif.Props.Edit
import Verif.Model.Width
/-! # C91: a terminal whose width is not known

A terminal that was never told its size reports 0 columns (/repo/utils_unix.go:30-37 `getWidth`), and `GetScreenWidth` (39-45) answers
`-1` if neither standard output nor standard error is a terminal (with `ForceUseInteractive` the line is still drawn).  The terminal
on which the line is drawn has some width `W` all the same; the claim is about lines that fit into one row of it. -/

namespace RL
open Spec Term Spec.Term RB

variable {U : UTables} {d : DCfg}

/-- **C91** (where the width comes from).  With the default functions the width is that of standard output, else that of standard error;
it is negative exactly if neither is a terminal, and then lines are drawn only with `ForceUseInteractive`; with it they always are, and
without it exactly if standard input is a terminal and one of the two others is. -/
theorem C91_width (s : Streams) :
    (∀ n, s.stdout = some n → getScreenWidth s = n) ∧ (∀ n, s.stdout = none → s.stderr = some n → getScreenWidth s = n) ∧
    (getScreenWidth s < 0 ↔ s.stdout = none ∧ s.stderr = none) ∧
    ∀ (c : Conf.Config) (call : Option Conf.Val → Bool), call c.funcIsTerminal = defaultIsTerminal s →
      (c.useInteractive call = true → getScreenWidth s < 0 → c.forceUseInteractive = true) ∧
      (c.useInteractive call = true ↔ c.forceUseInteractive = true ∨ (s.stdin ≠ none ∧ (s.stdout ≠ none ∨ s.stderr ≠ none))) := by
  obtain ⟨i, o, e⟩ := s
  have h3 : getScreenWidth ⟨i, o, e⟩ < 0 ↔ o = none ∧ e = none := by
    unfold getScreenWidth
    cases o with
    | some n =>
      have : ¬ getWidth (some n) < 0 := by unfold getWidth; simp only; omega
      simp only [this, if_false]
      simp
    | none =>
      cases e with
      | some n =>
        have : ¬ getWidth (some n) < 0 := by unfold getWidth; simp only; omega
        have h : getWidth none < 0 := by decide
        simp only [h, if_true, this]
        simp
      | none => exact ⟨fun _ => ⟨rfl, rfl⟩, fun _ => by show (-1 : Int) < 0; omega⟩
  refine ⟨?_, ?_, h3, ?_⟩
  · rintro n rfl
    unfold getScreenWidth getWidth
    simp only
    rw [if_neg (by omega)]
  · rintro n rfl rfl
    rfl
  · intro c call hc
    refine (fun h2 h1 => ⟨h1, h2⟩) ?_ (fun hu hw => ?_)
    · unfold Conf.Config.useInteractive
      rw [hc]
      unfold defaultIsTerminal
      cases c.forceUseInteractive <;> cases i <;> cases o <;> cases e <;> simp
    obtain ⟨rfl, rfl⟩ := h3.1 hw
    unfold Conf.Config.useInteractive at hu
    rw [hc] at hu
    simpa [defaultIsTerminal] using hu

example : getScreenWidth ⟨some 80, none, some 100⟩ = 100 ∧ defaultIsTerminal ⟨some 80, none, some 100⟩ = true ∧
    getScreenWidth ⟨some 80, none, none⟩ = -1 ∧ getScreenWidth ⟨some 0, some 0, some 0⟩ = 0 := ⟨rfl, rfl, rfl, rfl⟩

/-- A buffer that does not know the width. -/
structure Blind (U : UTables) (d : DCfg) (vis : List Rune) (r : RB) : Prop where
  width : r.width ≤ 0
  prompt : Coloured r.prompt vis
  visS : Singles U vis
  buf : ∀ c ∈ r.buf, Cell U c
  good : r.toEd.Good
  mask : d.enableMask = false
  paint : ∃ f, d.painter = some f ∧ ∀ s i, (∀ c ∈ s, Printable c) → Coloured (f s i) s
  unix : d.windows = false
  inter : r.interactive = true

theorem splitGo_blind {w : Int} (hw : w ≤ 0) {rs : List Rune} : ∀ {cur : Nat} , (splitGo U w cur [] rs).length = rs.length + 1 ∧
    (splitGo U w cur [] rs).getLast? = some [] := by
  induction rs with
  | nil => intro cur; exact ⟨rfl, rfl⟩
  | cons c cs ih =>
    intro cur
    obtain ⟨h1, h2⟩ := ih (cur := 0)
    unfold splitGo
    have : ((cur : Int) + (runeWidth U c : Nat)) ≥ w := by omega
    simp only [this, if_true]
    rw [Int.natCast_zero] at h1 h2
    have hne : splitGo U w 0 [] cs ≠ [] := by intro e; rw [e] at h2; cases h2
    exact ⟨by rw [List.length_cons, h1, List.length_cons], by rw [List.getLast?_cons_of_ne_nil hne]; exact h2⟩

namespace Blind
variable {vis : List Rune} {r : RB}

theorem promptLen (h : Blind U d vis r) : r.promptLen U = .ok vis.length := by
  unfold RB.promptLen
  have := colorFilter_of_filtered h.prompt.filter
  cases hc : colorFilter r.prompt with
  | error e => rw [hc] at this; simp [okOpt] at this
  | ok t =>
    rw [hc] at this
    simp only [okOpt, Option.some.injEq] at this
    subst this
    simp [h.visS.widthAll]

theorem edge (h : Blind U d vis r) : r.isInLineEdge U d.windows = .ok true := by
  rw [h.unix]
  unfold RB.isInLineEdge RB.getSplitByLine
  rw [if_neg Bool.false_ne_true]
  simp only [R.bind_ok, h.promptLen, splitByLine]
  rw [(splitGo_blind h.width).2]
  rfl

theorem idxLine (h : Blind U d vis r) : r.idxLine U r.width = .ok (if r.width = 0 then 0 else (r.idx : Int)) := by
  unfold RB.idxLine RB.getSplitByLine
  split
  · rfl
  · rw [sliceTo_ok h.good.1]
    simp only [R.bind_ok, h.promptLen, splitByLine]
    rw [(splitGo_blind h.width).1, List.length_take, Nat.min_eq_left h.good.1]
    congr 1
    omega

/-- A redraw that ends leaves the cursor behind the line and writes the line and a blank. -/
theorem output_eq (h : Blind U d vis r) {f} (hf : d.painter = some f) {ts : List Tok} (ho : r.output U d = .ok ts) :
    r.idx = r.buf.length ∧ ts = r.prompt.map Tok.ch ++ ((f r.buf r.idx).flatMap (RB.paintTok U) ++ [.ch 32, .bs]) := by
  have hs : Singles U r.buf := fun c hc => (h.buf c hc).2
  by_cases hi : r.idx < r.buf.length
  · have := (output_spec (U := U) (d := d) (r := r) h.promptLen (by rw [hf]; simp)).1 ⟨hi, by
      rw [hs.widthAll]
      unfold SepDiverges
      exact ⟨by omega, .inl h.width⟩⟩
    rw [this] at ho; cases ho
  · have hx : r.idx = r.buf.length := by have := h.good.1; unfold Ed.CursorIn at this; omega
    unfold RB.output at ho
    simp only [h.mask, Bool.false_eq_true, false_and, if_false, hf, h.edge, R.bind_ok, if_true] at ho
    rw [if_neg (by omega)] at ho
    cases ho
    exact ⟨hx, by simp⟩

/-- The characters of a redraw on a blank area. -/
theorem drawn (h : Blind U d vis r) {ts : List Tok} (ho : r.output U d = .ok ts) {t0 t : Term} {y : Nat} (ht : Drawn t0 t y [] 0)
    (hroom : vis.length + r.buf.length + 1 < t0.w) :
    (t.run (chars ts)).w = t0.w ∧ (t.run (chars ts)).Shows y (vis ++ r.buf) (vis.length + r.idx) ∧
    ∀ a, a < y → ∀ c, (t.run (chars ts)).cell a c = t0.cell a c := by
  have hw0 : 0 < t0.w := by omega
  obtain ⟨f, hf, hcol⟩ := h.paint
  have hcol := hcol r.buf r.idx (fun c hc => (h.buf c hc).1)
  have d1 := run_coloured h.prompt hw0 (text := []) (by simpa using ht)
  simp only [List.nil_append] at d1
  have d2 := run_coloured hcol hw0 d1
  obtain ⟨hx, ets⟩ := h.output_eq hf ho
  have hlen : (vis ++ r.buf).length = vis.length + r.buf.length := List.length_append ..
  rw [ets, chars_append, run_append, chars_ch, chars_append, run_append, paint_chars U hcol.no_tab]
  generalize (t.run r.prompt).run (f r.buf r.idx) = t2 at d2
  have d3 := Drawn.put_blank hw0 d2
  have hw2 : t2.w = t0.w := d2.w
  have hpb := Plain.put_back (t := t2) (by rw [hw2]; exact hw0) d2.at'
  have e : t2.run (chars [.ch 32, .bs]) = (t2.put 32).back := by
    have : chars [.ch 32, .bs] = [32] ++ chars [.bs] := rfl
    rw [this, run_append]
    have : t2.run [32] = t2.put 32 := Printable.feed ⟨by omega, by omega, by omega⟩ d2.st
    rw [this, run_bs _ d3.st]
  rw [e]
  have hk : vis.length + r.idx = (vis ++ r.buf).length := by rw [hlen, hx]
  have hlt : (vis ++ r.buf).length < t0.w := by rw [hlen]; omega
  refine ⟨d3.w, ⟨d3.cells, ?_, ?_, rfl, d3.st⟩, d3.above⟩
  · rw [hk, hpb.1, hw2]
    show _ = y + (vis ++ r.buf).length / (t2.put 32).w
    rw [d3.w]
  · rw [hk, hpb.2 (.inl (by rw [hw2, Nat.mod_eq_of_lt hlt, hlen]; omega)), hw2]
    show _ = (vis ++ r.buf).length % (t2.put 32).w
    rw [d3.w]

theorem congr {r r' : RB} (h : Blind U d vis r) (hs : SameDisp r r') (hr : r'.toEd.AllP (Cell U)) (hg : r'.toEd.Good) :
    Blind U d vis r' :=
  ⟨by rw [hs.width]; exact h.width, by rw [hs.prompt]; exact h.prompt, h.visS, hr.buf, hg, h.mask, h.paint, h.unix,
    hs.interactive.trans h.inter⟩

end Blind

/-- `\r\b` any number of times: the start of the row. -/
theorem run_crbs {n : Nat} : ∀ {t : Term}, t.st = .ground → (0 < n ∨ t.col = 0 ∧ t.pend = false) →
    t.run (chars (List.replicate n [Tok.cr, .bs]).flatten) = t.home := by
  have hh : ∀ t : Term, t.st = .ground → t.run (chars [.cr, .bs]) = t.home := by
    intro t hst
    have : chars [Tok.cr, .bs] = chars [.cr] ++ chars [.bs] := rfl
    rw [this, run_append, run_cr _ hst, run_bs t.home hst]
    rfl
  induction n with
  | zero =>
    intro t hst h
    obtain ⟨h1, h2⟩ := h.resolve_left (by omega)
    cases t
    simp only at h1 h2
    subst h1 h2
    rfl
  | succ n ih =>
    intro t hst _
    rw [List.replicate_succ, List.flatten_cons, chars_append, run_append, hh t hst, ih (t := t.home) hst (.inr ⟨rfl, rfl⟩)]
    rfl

/-- Erasing with width 0: the row of the cursor and everything below. -/
theorem Blind.cleaned_zero {vis : List Rune} {r : RB} (h : Blind U d vis r) (h0 : r.width = 0) {n : Int} {ts}
    (h2 : r.cleanOutput U n = .ok ts) {t : Spec.Term} (hst : t.st = .ground)
    (hc : 0 < vis.length + r.buf.length ∨ t.col = 0 ∧ t.pend = false) : Drawn t (t.run (chars ts)) t.row [] 0 := by
  unfold RB.cleanOutput at h2
  rw [if_pos h0, h.promptLen] at h2
  simp only [R.bind_ok, Except.ok.injEq] at h2
  subst h2
  rw [chars_append, run_append, run_crbs hst (hc.imp_left (by omega)), run_eraseBelow t.home hst]
  refine Drawn.of_blank rfl hst rfl rfl rfl (fun a ha c => ?_) (fun a ha c => ?_)
  · show (if t.row < a ∨ (a = t.row ∧ 0 ≤ c) then 32 else t.cell a c) = 32
    rw [if_pos (by omega)]
  · show (if t.row < a ∨ (a = t.row ∧ 0 ≤ c) then 32 else t.cell a c) = t.cell a c
    rw [if_neg (by omega)]

/-- Erasing with a negative width: one row upwards for every rune in front of the cursor. -/
theorem Blind.cleaned_neg {vis : List Rune} {r : RB} (h : Blind U d vis r) (h0 : r.width < 0) {n : Int} {ts}
    (h1 : r.idxLine U r.width = .ok n) (h2 : r.cleanOutput U n = .ok ts) {t : Spec.Term} (hst : t.st = .ground) {y : Nat}
    (hrow : t.row = y + r.idx) : Drawn t (t.run (chars ts)) y [] 0 := by
  rw [h.idxLine, if_neg (by omega)] at h1
  cases h1
  unfold RB.cleanOutput at h2
  rw [if_neg (by omega)] at h2
  have := run_clean hst hrow
  split at h2
  · next h0 =>
    have h0 : r.idx = 0 := by exact_mod_cast h0
    cases h2
    rw [h0] at this
    exact this
  · cases h2
    exact this

/-- The line is shown on row `y`, and nothing is below it; the rows above are those of `base`. -/
structure InRow (U : UTables) (d : DCfg) (vis : List Rune) (t0 base : Spec.Term) (y : Nat) (r : RB) : Prop where
  blind : Blind U d vis r
  runes : r.toEd.AllP (Cell U)
  hc : r.hadClean = false
  w : (screen t0 r).w = t0.w
  shows : (screen t0 r).Shows y (vis ++ r.buf) (vis.length + r.buf.length)
  above : ∀ a, a < y → ∀ c, (screen t0 r).cell a c = base.cell a c

/-- A redraw with width 0. -/
theorem Blind.redraw_zero {vis : List Rune} {r r' : RB} {t0 base : Spec.Term} (h : Blind U d vis r) (h0 : r.width = 0)
    (hcl : r.hadClean = false) {α} {f : Ed → R (α × Ed)} {a : α} (hr : RB.refreshV U d r f = .ok (a, r'))
    (h1 : r'.toEd.AllP (Cell U)) (h2 : r'.toEd.Good) (hst : (screen t0 r).st = .ground) (hw : (screen t0 r).w = t0.w)
    (hc : 0 < vis.length + r.buf.length ∨ (screen t0 r).col = 0 ∧ (screen t0 r).pend = false)
    (hab : ∀ a, a < (screen t0 r).row → ∀ c, (screen t0 r).cell a c = base.cell a c)
    (hroom : vis.length + r'.buf.length + 1 < t0.w) :
    InRow U d vis t0 base (screen t0 r).row r' ∧ r'.idx = r'.buf.length := by
  have hs := (refreshV_ok hr).2
  have hb := h.congr ⟨hs.1, hs.2, hs.3⟩ h1 h2
  obtain ⟨k1, k2, ts1, ts2, n, eo, ho, hn, _, hcl'⟩ := refreshV_drawn hr h.inter
  obtain ⟨fp, hf, _⟩ := h.paint
  have hx := (hb.output_eq hf ho).1
  have hd := h.cleaned_zero h0 (hcl' hcl) hst hc
  obtain ⟨g1, g2, g3⟩ := hb.drawn ho hd (by rw [hw]; exact hroom)
  have e : screen t0 r' = ((screen t0 r).run (chars ts1)).run (chars ts2) := by
    unfold screen
    rw [eo, chars_append, chars_append, Term.run_append, Term.run_append]
  rw [← e] at g1 g2 g3
  rw [hx] at g2
  exact ⟨⟨hb, h1, k1, g1.trans hw, g2, fun a ha c => (g3 a ha c).trans (hab a ha c)⟩, hx⟩

/-- At every moment there are two columns left on the row. -/
def Room (U : UTables) (d : DCfg) (W : Nat) (vis : List Rune) : List Cmd → RB → Prop
  | [], r => vis.length + r.buf.length + 1 < W
  | c :: cs, r => vis.length + r.buf.length + 1 < W ∧ ∀ r1, c.apply U d r = .ok r1 → Room U d W vis cs r1

theorem Room.now {W : Nat} {vis : List Rune} {cs : List Cmd} {r : RB} (h : Room U d W vis cs r) : vis.length + r.buf.length + 1 < W := by
  cases cs with
  | nil => exact h
  | cons c cs => exact h.1

theorem Shows.row_eq {t : Spec.Term} {y : Nat} {text : List Rune} {k : Nat} (h : t.Shows y text k) (hk : k < t.w) : t.row = y := by
  rw [h.row, Nat.div_eq_of_lt hk]; rfl

/-- **C91, the part that holds.**  With width 0, whatever commands are applied: as long as the line leaves two columns of the row
and the redraws end, the screen shows the line on its row, the cursor behind it, and the rows above are untouched.  (A redraw ends
exactly if it leaves the cursor behind the line: `C16_redraw_partial`; with the cursor inside it never ends, `C91_false_left`.) -/
theorem C91_zero_partial {vis : List Rune} {t0 base : Spec.Term} {y : Nat} {cs : List Cmd} : ∀ {r r' : RB},
    InRow U d vis t0 base y r → r.width = 0 → (∀ c ∈ cs, ∀ x ∈ c.runes, Cell U x) → Quiet U d cs r → Room U d t0.w vis cs r →
    runCmds U d cs r = .ok r' → InRow U d vis t0 base y r' ∧ r'.width = 0 := by
  induction cs with
  | nil => intro r r' h h0 _ _ _ hr; cases hr; exact ⟨h, h0⟩
  | cons c cs ih =>
    intro r r' h h0 hc hq hrm hr
    unfold runCmds at hr
    obtain ⟨r1, h1, hr⟩ := R.bind_inv hr
    obtain ⟨hcore, hs⟩ := apply_ok h1
    have ha1 := core_all hcore h.blind.good.1 h.runes (hc c (List.mem_cons_self ..))
    have hg1 : r1.toEd.Good := by
      obtain ⟨e', he, hg⟩ := core_good h.blind.good (hq [] c cs rfl r rfl)
      rw [hcore] at he; cases he; exact hg
    have hroom := (hrm.2 r1 h1).now
    have hroom0 := hrm.now
    refine ih ?_ (hs.width.trans h0) (fun k hk => hc k (List.mem_cons_of_mem _ hk)) (fun pre k post e r2 hr2 => ?_)
      (hrm.2 r1 h1) hr
    · rcases apply_drawn h1 with ⟨e1, e2, e3, e4, e5⟩ | ⟨lk, α, f, a, e⟩
      · have hsc : screen t0 r1 = screen t0 r := by unfold screen; rw [e3]
        exact ⟨h.blind.congr hs ha1 hg1, ha1, e4.trans h.hc, by rw [hsc]; exact h.w, by rw [hsc, e1]; exact h.shows, by rw [hsc]; exact h.above⟩
      · have hb : Blind U d vis { r with lastKill := lk } :=
          ⟨h.blind.width, h.blind.prompt, h.blind.visS, h.blind.buf, h.blind.good, h.blind.mask, h.blind.paint, h.blind.unix, h.blind.inter⟩
        have hrow := Shows.row_eq h.shows (by rw [h.w]; omega)
        have := hb.redraw_zero (t0 := t0) (base := base) h0 h.hc e ha1 hg1 h.shows.st h.w ?_ (by rw [show screen t0 { r with lastKill := lk } = screen t0 r from rfl, hrow]; exact h.above) hroom
        · rw [show screen t0 { r with lastKill := lk } = screen t0 r from rfl, hrow] at this
          exact this.1
        · by_cases hp : 0 < vis.length + r.buf.length
          · exact .inl hp
          · refine .inr ⟨?_, h.shows.pend⟩
            have := h.shows.col
            rw [show vis.length + r.buf.length = 0 by omega, Nat.zero_mod] at this
            exact this
    · refine hq (c :: pre) k post (by rw [e]; rfl) r2 ?_
      unfold runCmds
      rw [h1]; exact hr2

/-- **C91** (start, width 0).  The first drawing, on a terminal whose cursor is at the start of a row (or anywhere, if the prompt is
not empty). -/
theorem C91_zero_start {vis prompt : List Rune} {t0 : Spec.Term} (hst : t0.st = .ground)
    (hc : 0 < vis.length ∨ t0.col = 0 ∧ t0.pend = false) {r' : RB} (hb : Blind U d vis (RB.new prompt true 0))
    (hroom : vis.length + 1 < t0.w) (hr : (RB.new prompt true 0).refreshNil U d = .ok r') :
    InRow U d vis t0 t0 t0.row r' ∧ r'.width = 0 := by
  have hr' : RB.refreshV U d (RB.new prompt true 0) (fun e => (fun x => ((), x)) <$> Except.ok e) = .ok ((), r') := by
    rw [RB.refreshNil, refresh_eq_refreshV] at hr
    obtain ⟨a, h⟩ := map_snd_ok hr
    exact h
  obtain ⟨e, hs⟩ := refreshV_ok hr'
  simp only [R.map_ok, Except.ok.injEq, Prod.mk.injEq, true_and] at e
  have h1 : r'.toEd.AllP (Cell U) := by rw [← e]; exact ⟨by simp [RB.new], by simp [RB.new], by simp [RB.new]⟩
  have h2 : r'.toEd.Good := by rw [← e]; exact ⟨by simp [RB.new, Ed.CursorIn], by simp [RB.new]⟩
  have hbuf : r'.buf = [] := by rw [← e]; rfl
  have := hb.redraw_zero (t0 := t0) (base := t0) rfl rfl hr' h1 h2 hst rfl (hc.imp_left (by omega)) (fun _ _ _ => rfl)
    (by rw [hbuf]; simpa using hroom)
  exact ⟨this.1, hs.width⟩

/-- **C91** (start, negative width).  The first drawing is right. -/
theorem C91_negative_start {vis prompt : List Rune} {w : Int} (hw : w < 0) {t0 : Spec.Term} (hst : t0.st = .ground) {r' : RB}
    (hb : Blind U d vis (RB.new prompt true w)) (hroom : vis.length + 1 < t0.w)
    (hr : (RB.new prompt true w).refreshNil U d = .ok r') :
    InRow U d vis t0 t0 t0.row r' ∧ r'.width = w ∧ r'.buf = [] ∧ r'.idx = 0 := by
  have hr' : RB.refreshV U d (RB.new prompt true w) (fun e => (fun x => ((), x)) <$> Except.ok e) = .ok ((), r') := by
    rw [RB.refreshNil, refresh_eq_refreshV] at hr
    obtain ⟨a, h⟩ := map_snd_ok hr
    exact h
  obtain ⟨e, hs⟩ := refreshV_ok hr'
  simp only [R.map_ok, Except.ok.injEq, Prod.mk.injEq, true_and] at e
  have h1 : r'.toEd.AllP (Cell U) := by rw [← e]; exact ⟨by simp [RB.new], by simp [RB.new], by simp [RB.new]⟩
  have h2 : r'.toEd.Good := by rw [← e]; exact ⟨by simp [RB.new, Ed.CursorIn], by simp [RB.new]⟩
  have hbuf : r'.buf = [] ∧ r'.idx = 0 := by rw [← e]; exact ⟨rfl, rfl⟩
  have hb' := hb.congr ⟨hs.1, hs.2, hs.3⟩ h1 h2
  obtain ⟨k1, k2, ts1, ts2, n, eo, ho, hn, _, hcl'⟩ := refreshV_drawn hr' hb.inter
  have hd := hb.cleaned_neg hw hn (hcl' rfl) (t := t0) hst (y := t0.row) rfl
  obtain ⟨g1, g2, g3⟩ := hb'.drawn ho hd (by rw [hbuf.1]; simpa using hroom)
  have e : screen t0 r' = (t0.run (chars ts1)).run (chars ts2) := by
    unfold screen
    rw [eo, chars_append, chars_append, Term.run_append, Term.run_append]
    rfl
  rw [← e] at g1 g2 g3
  rw [hbuf.2] at g2
  exact ⟨⟨hb', h1, k1, g1, by rw [hbuf.1] at g2 ⊢; exact g2, g3⟩, hs.width, hbuf⟩

/-- **C91 is false for a negative width: the line climbs.**  Typing `n` runes one after the other redraws the line `n * (n - 1) / 2`
rows above the row it was on, and everything that was shown in between is gone: all rows from the new one on show the line and blanks
only. -/
theorem C91_climbs {vis : List Rune} {t0 base : Spec.Term} {cs : List Rune} : ∀ {y : Nat} {r r' : RB},
    InRow U d vis t0 base y r → r.width < 0 → r.idx = r.buf.length → (∀ c ∈ cs, Cell U c) →
    vis.length + r.buf.length + cs.length + 1 < t0.w →
    runCmds U d (cs.map (fun c => .insert [c])) r = .ok r' →
    (r.buf.length + cs.length) * (r.buf.length + cs.length - 1) ≤ 2 * y + r.buf.length * (r.buf.length - 1) →
    ∃ y', 2 * y' + (r.buf.length + cs.length) * (r.buf.length + cs.length - 1) = 2 * y + r.buf.length * (r.buf.length - 1) ∧
      InRow U d vis t0 base y' r' ∧ r'.buf = r.buf ++ cs := by
  induction cs with
  | nil => intro y r r' h _ _ _ _ hr _; cases hr; exact ⟨y, by simp, h, by simp⟩
  | cons c cs ih =>
    intro y r r' h h0 hx hc hroom hr hy
    rw [List.map_cons] at hr
    unfold runCmds at hr
    obtain ⟨r1, h1, hr⟩ := R.bind_inv hr
    obtain ⟨hcore, hs⟩ := apply_ok h1
    have ha1 := core_all hcore h.blind.good.1 h.runes (by simpa [Cmd.runes] using hc c (List.mem_cons_self ..))
    have hg1 : r1.toEd.Good := by
      obtain ⟨e', he, hg⟩ := core_good (c := .insert [c]) h.blind.good (fun h => h)
      rw [hcore] at he; cases he; exact hg
    have hle : r.idx ≤ r.buf.length := by omega
    have hb1 : r1.buf = r.buf ++ [c] ∧ r1.idx = r1.buf.length := by
      simp only [Cmd.core, Ed.writeRunesC, sliceFrom_ok hle, sliceTo_ok hle, R.bind_ok, Except.ok.injEq] at hcore
      rw [← hcore]
      simp [hx]
    have h1' : RB.refreshV U d r (fun e => (fun x => ((), x)) <$> Ed.writeRunesC [c] e) = .ok ((), r1) := by
      have h1 : r.writeRunes U d [c] = .ok r1 := h1
      rw [RB.writeRunes, refresh_eq_refreshV] at h1
      obtain ⟨a, h⟩ := map_snd_ok h1
      exact h
    obtain ⟨k1, k2, ts1, ts2, n, eo, ho, hn, _, hcl'⟩ := refreshV_drawn h1' h.blind.inter
    have hbl := h.blind.congr hs ha1 hg1
    have hl1 : r1.buf.length = r.buf.length + 1 := by rw [hb1.1]; simp
    simp only [List.length_cons] at hroom hy
    have hrow := Shows.row_eq h.shows (by rw [h.w]; omega)
    have e5 : (r.buf.length + (cs.length + 1)) = r1.buf.length + cs.length := by rw [hl1]; omega
    rw [e5] at hy
    have e4 : r1.buf.length * (r1.buf.length - 1) = r.buf.length * (r.buf.length - 1) + 2 * r.buf.length := by
      rw [hl1, Nat.add_sub_cancel]
      cases r.buf.length with
      | zero => rfl
      | succ k => rw [Nat.add_sub_cancel, Nat.mul_succ, Nat.succ_mul, Nat.mul_succ]; omega
    have e3 : r1.buf.length * (r1.buf.length - 1) ≤ (r1.buf.length + cs.length) * (r1.buf.length + cs.length - 1) :=
      Nat.mul_le_mul (by omega) (by omega)
    have hd := h.blind.cleaned_neg h0 hn (hcl' h.hc) h.shows.st (y := y - r.buf.length) (by rw [hrow, hx]; omega)
    obtain ⟨g1, g2, g3⟩ := hbl.drawn ho hd (by rw [h.w]; omega)
    have e : screen t0 r1 = ((screen t0 r).run (chars ts1)).run (chars ts2) := by
      unfold screen
      rw [eo, chars_append, chars_append, Term.run_append, Term.run_append]
    rw [← e] at g1 g2 g3
    rw [hb1.2] at g2
    have hin : InRow U d vis t0 base (y - r.buf.length) r1 :=
      ⟨hbl, ha1, k1, g1.trans h.w, g2, fun a ha c => (g3 a ha c).trans (h.above a (by omega) c)⟩
    obtain ⟨y', f1, f2, f3⟩ := ih hin (by rw [hs.width]; exact h0) hb1.2 (fun x hx => hc x (List.mem_cons_of_mem _ hx))
      (by omega) hr (by omega)
    refine ⟨y', ?_, f2, by rw [f3, hb1.1]; simp⟩
    rw [List.length_cons, e5, f1, e4]
    omega

/-- A screen of 20 columns with an `x` at the start of row 0 and the cursor at the start of row 3. -/
def t91 : Spec.Term := ⟨20, fun y x => if y = 0 ∧ x = 0 then 120 else 32, 3, 0, false, .ground⟩

/-- **C91 is false** (1).  Width -1: three characters typed, and the line has moved from row 3 to row 0, over what was there. -/
theorem C91_false_climbs : ∃ r r', (RB.new (str "> ") true (-1)).refreshNil U0 d0 = .ok r ∧
    runCmds U0 d0 [.insert (str "a"), .insert (str "b"), .insert (str "c")] r = .ok r' ∧
    (screen t91 r).row = 3 ∧ (screen t91 r).cell 0 0 = 120 ∧ (screen t91 r').row = 0 ∧ (screen t91 r').cell 0 0 = 62 := by
  exact ⟨_, _, rfl, rfl, by decide, by decide, by decide, by decide⟩

/-- **C91 is false** (2).  Cursor left in a line of one character, width 0 or less: the redraw never ends. -/
theorem C91_false_left {vis : List Rune} {r : RB} {c : Rune} (h : Blind U d vis r) (hb : r.buf = [c]) (hi : r.idx = 1) :
    Cmd.apply U d .left r = .error .hang := by
  have hs : Singles U r.buf := fun c hc => (h.buf c hc).2
  obtain ⟨fp, hf, _⟩ := h.paint
  obtain ⟨r2, hr2⟩ := clean_total (U := U) (r := r) h.promptLen h.good.1
  obtain ⟨l1, l2⟩ := clean_ok hr2
  simp only [Cmd.apply, moveBackward, refresh]
  rw [if_neg (by simp [h.inter])]
  simp only [hr2, R.bind_ok, l1, Ed.moveBackwardC, hi]
  simp only [show ¬ (1 = 0) by omega, if_false, R.bind_ok]
  have := (output_spec (U := U) (d := d) (p := vis.length) (r := { r2 with toEd := { r.toEd with idx := 1 - 1 } })
    ((promptLen_congr U l2.prompt).trans h.promptLen) (by rw [hf]; simp)).1 (by
      refine ⟨by simp [hb], ?_⟩
      show SepDiverges (widthAll U r.buf) _ r2.width
      rw [hs.widthAll, l2.width]
      exact ⟨by simp [hb], .inl h.width⟩)
  simp only [print, this]
  rfl

/-! ### Non-trivial cases -/

theorem blind0 (w : Int) (hw : w ≤ 0) : Blind U0 d0 (str "> ") (RB.new prompt0 true w) := by
  refine ⟨hw, ?_, ?_, by simp [RB.new], ⟨by simp [RB.new, Ed.CursorIn], by simp [RB.new]⟩, rfl, ⟨defaultPainter, rfl, fun s i h => .plain h⟩, rfl, rfl⟩
  · exact .colour (by decide) (.plain (by unfold Printable; decide))
  · unfold Singles; decide

/-- A word is typed and killed, another one typed and corrected. -/
def edits91 : List Cmd := [.insert (str "hello"), .killFront, .insert (str "world"), .backspace]

/-- Width 0: a word is typed and killed, another one typed and corrected. -/
example : ∃ r r', (RB.new prompt0 true 0).refreshNil U0 d0 = .ok r ∧
    runCmds U0 d0 edits91 r = .ok r' ∧
    InRow U0 d0 (str "> ") t91 t91 3 r' ∧ r'.buf = str "worl" := by
  obtain ⟨r, hr⟩ : ∃ r, (RB.new prompt0 true 0).refreshNil U0 d0 = .ok r := ⟨_, rfl⟩
  have h0 := C91_zero_start (t0 := t91) rfl (.inl (by decide)) (blind0 0 (by omega)) (by decide) hr
  cases hr
  refine ⟨_, _, rfl, rfl, (C91_zero_partial (cs := edits91) h0.1 h0.2 ?_ (.of_tame (by simp [edits91])) ?_ rfl).1, rfl⟩
  · unfold Cell Printable; decide
  · refine ⟨by decide, fun r1 h => ?_⟩
    cases h
    refine ⟨by decide, fun r1 h => ?_⟩
    cases h
    refine ⟨by decide, fun r1 h => ?_⟩
    cases h
    refine ⟨by decide, fun r1 h => ?_⟩
    cases h
    show _ < _
    decide

/-- Width -1: the same case as `C91_false_climbs`, from the theorem. -/
example : ∃ r r', (RB.new prompt0 true (-1)).refreshNil U0 d0 = .ok r ∧
    runCmds U0 d0 ((str "abc").map (fun c => .insert [c])) r = .ok r' ∧ InRow U0 d0 (str "> ") t91 t91 0 r' := by
  obtain ⟨r, hr⟩ : ∃ r, (RB.new prompt0 true (-1)).refreshNil U0 d0 = .ok r := ⟨_, rfl⟩
  obtain ⟨h0, h1, h2, h3⟩ := C91_negative_start (t0 := t91) (by omega) rfl (blind0 (-1) (by omega)) (by decide) hr
  obtain ⟨r', hr'⟩ : ∃ r', runCmds U0 d0 ((str "abc").map (fun c => .insert [c])) r = .ok r' := by
    have hr := hr
    cases hr
    exact ⟨_, rfl⟩
  obtain ⟨y, e, h, _⟩ := C91_climbs h0 (by rw [h1]; omega) (by rw [h2, h3]; rfl) (by unfold Cell Printable; decide)
    (by rw [h2]; decide) hr' (by rw [h2]; decide)
  rw [h2] at e
  have : y = 0 := by
    have e : 2 * y + 6 = 2 * 3 + 0 := e
    omega
  subst this
  exact ⟨r, r', hr, hr', h⟩

end RL
