import Verif.Proofs.Rebase
import Verif.Proofs.Drift
import Verif.Props.MixedScreen
import Verif.Props.Scroll
/-!
# C96: sessions with searches, completion and vim commands on a terminal that scrolls

C95 is about a terminal of any number of rows.  Here the terminal has `h` rows, and what does not fit moves out at the top.  Lists of
candidates are drawn below the line, so near the bottom of the screen every list makes the terminal scroll; the code then goes up again
by as many rows as it went down.  That works unless it has to go up by `h` rows or more.
-/

namespace RL
open Spec Term Spec.Term RB Ed Op

variable {w : Nat} {vis : List Rune} {t0 : Spec.Term} {c : OCfg} {f : Completer} {s0 : Scr}

/-! ### A session from any moment on -/

theorem MixFits.rebase {p : List Tok} {o : Op} (h : MixFits c f w vis (o.pre p)) : MixFits c f w vis o :=
  ⟨fun e => ⟨⟨(h.search e).1.edge, (h.search e).1.banner, (h.search e).1.row, (h.search e).1.mark⟩, (h.search e).2⟩,
   fun e => ⟨⟨(h.list e).1.here, (h.list e).1.back, (h.list e).1.next⟩, (h.list e).2⟩, fun a b => by
    obtain ⟨h1, h2⟩ := h.plain a b
    exact ⟨h1, h2⟩⟩

theorem During.rebase {p : List Tok} {o o2 : Op} (h : During c o o2) : During c (o.pre p) (o2.pre p) := by
  induction h with
  | here => exact .here _
  | key _ h' he ih =>
    refine .key ih ?_ he
    rw [(Op.iter_pre (p := p)).eq, h']
    rfl

theorem During.unbase {p : List Tok} {o o2 : Op} (h : During c (o.pre p) o2) : ∃ o3, o2 = o3.pre p ∧ During c o o3 := by
  induction h with
  | here => exact ⟨o, rfl, .here _⟩
  | key _ h' he ih =>
    obtain ⟨o3, rfl, hd⟩ := ih
    obtain ⟨o4, h4, rfl⟩ := Op.iter_pre.inv h'
    exact ⟨o4, rfl, .key hd h4 he⟩

/-- The same session, with nothing written so far. -/
def fresh (o : Op) : Op := { o with rb := { o.rb with out := [] } }

theorem fresh_pre (o : Op) : (fresh o).pre o.rb.out = o := by
  have : (o.rb.out ++ []) = o.rb.out := List.append_nil _
  show { o with rb := { o.rb with out := o.rb.out ++ [] } } = o
  rw [this]

/-- Between two calls, seen from a terminal at the top of which the cursor is. -/
theorem RestingM.rebase {o : Op} {ps} (h : RestingM c f w vis t0 ps o) : RestingM c f w vis { screen t0 o.rb with row := 0 } [] (fresh o) :=
  ⟨⟨h.calm.hist, h.calm.shape, h.calm.vim, h.calm.keys, h.calm.run⟩, h.smode, h.shut,
   ⟨⟨h.between.plain.width, h.between.plain.prompt, h.between.plain.pw, h.between.plain.visS, h.between.plain.buf, h.between.plain.idx, h.between.plain.mask, h.between.plain.paint, h.between.plain.unix⟩,
    h.between.runes, h.between.good, h.between.inter, h.between.hc, h.between.empty, h.between.sw, h.between.st, rfl⟩,
   ⟨rfl, fun _ _ _ => rfl, fun _ ha => by simp [heights] at ha, fun h => (h rfl).elim⟩, h.events⟩

theorem RestingM.during (hv : Visible c) (hf : c.auto = some f → Helpful c.U f) {o o1 o2 : Op} {ps} (hr : RestingM c f w vis t0 ps o)
    (h3 : o.refreshNil c = .ok o1) (hfit : ∀ o2, During c o1.kickRead o2 → MixFits c f w vis o2) (h4 : During c o1.kickRead o2) :
    VisibleM c f w vis t0 (screen t0 o.rb) (t0.row + heights w ps) o2 ∧ CalmM c w (MKey c f) o2 ∧ o2.events = [] := by
  obtain ⟨r1, h5, h6⟩ := R.bind_inv h3
  cases h6
  induction h4 with
  | here => exact ⟨.inl ⟨hr.smode, hr.shut, hr.between.prompted h5⟩, ⟨hr.calm.hist, hr.calm.shape, hr.calm.vim, hr.calm.keys, hr.calm.run⟩,
      hr.events⟩
  | key h h' he ih =>
    obtain ⟨on, hc, he0⟩ := ih
    rcases Op.iter_mix hv hf on hc (hfit _ h) h' (fun _ => hfit _ (.key h h' he)) with ⟨hc1, ⟨on1, _⟩ | ⟨_, _, _, he1, _⟩⟩ | hend
    · exact ⟨on1, hc1, he⟩
    · rw [he] at he1; simp at he1
    · have := hend.events
      rw [he] at this
      simp at this

theorem screen_pre {p : List Tok} {r : RB} : screen t0 (r.pre p) = (t0.run (chars p)).run (chars r.out) := by
  unfold screen
  rw [chars_append, Term.run_append]

/-- Within a call the cursor is never above the row in which the call began: at the end of the call. -/
theorem RestingM.steady (hv : Visible c) (hf : c.auto = some f → Helpful c.U f) {o : Op} {ps} (h : RestingM c f w vis t0 ps o) {fuel : Nat} {e o'}
    (hr : o.readline c fuel = .ok (e, o')) (hfit : ∀ o1 o2, o.refreshNil c = .ok o1 → During c o1.kickRead o2 → MixFits c f w vis o2) :
    ∃ ts, o'.rb.out = o.rb.out ++ ts ∧ ∀ i, (screen t0 o.rb).row ≤ ((screen t0 o.rb).run ((chars ts).take i)).row := by
  have hr' := hr
  rw [← fresh_pre o] at hr'
  obtain ⟨⟨e2, o2⟩, g1, g2⟩ := Op.readline_pre.inv hr'
  cases g2
  refine ⟨o2.rb.out, rfl, never_above ?_⟩
  have hfit' : ∀ o1 o2, (fresh o).refreshNil c = .ok o1 → During c o1.kickRead o2 → MixFits c f w vis o2 := by
    intro o3 o4 h3 h4
    refine MixFits.rebase (p := o.rb.out) (hfit (o3.pre o.rb.out) _ ?_ (During.rebase (o := o3.kickRead) h4))
    have := (Op.refreshNil_pre (c := c) (o := fresh o) (p := o.rb.out)).eq
    rw [fresh_pre, h3] at this
    exact this
  have hs : screen t0 (o2.rb.pre o.rb.out) = (screen t0 o.rb).run (chars o2.rb.out) := screen_pre
  have hs2 : screen { screen t0 o.rb with row := 0 } o2.rb = Spec.Term.run { screen t0 o.rb with row := 0 } (chars o2.rb.out) := rfl
  have hrow := h.between.row
  rcases h.readline hv hf hr hfit with a | ⟨_, a1, _, a⟩ <;> rcases h.rebase.readline hv hf g1 hfit' with b | ⟨_, b1, _, b⟩
  · have h1 := a.printed.row
    have h2 := b.printed.row
    rw [← hs, ← hs2, show (screen t0 (o2.rb.pre o.rb.out)).row = _ from h1, h2, hrow, heights_append]
    show _ = _ + (0 + _)
    simp only [List.nil_append]
    omega
  · exfalso
    have := a.calm.run
    have e : o2.stopped = false := this
    rw [b1] at e
    cases e
  · exfalso
    have e : o2.stopped = true := a1
    rw [b.calm.run] at e
    cases e
  · have h1 := a.row
    have h2 := b.row
    rw [← hs, ← hs2, show (screen t0 (o2.rb.pre o.rb.out)).row = _ from h1, h2, hrow]
    show _ = _ + (0 + 0)
    omega

/-- … at any moment of the call. -/
theorem RestingM.steadyIn (hv : Visible c) (hf : c.auto = some f → Helpful c.U f) {o o1 o2 : Op} {ps} (h : RestingM c f w vis t0 ps o)
    (h3 : o.refreshNil c = .ok o1) (hfit : ∀ o2, During c o1.kickRead o2 → MixFits c f w vis o2) (h4 : During c o1.kickRead o2) :
    ∃ ts, o2.rb.out = o.rb.out ++ ts ∧ ∀ i, (screen t0 o.rb).row ≤ ((screen t0 o.rb).run ((chars ts).take i)).row := by
  have h3' := h3
  rw [← fresh_pre o] at h3'
  obtain ⟨o3, g1, rfl⟩ := Op.refreshNil_pre.inv h3'
  obtain ⟨o4, rfl, g2⟩ := During.unbase (o := o3.kickRead) h4
  refine ⟨o4.rb.out, rfl, never_above ?_⟩
  have hfit' : ∀ o2, During c o3.kickRead o2 → MixFits c f w vis o2 := fun o5 h5 => MixFits.rebase (hfit _ (During.rebase (o := o3.kickRead) h5))
  have hs : screen t0 (o4.rb.pre o.rb.out) = (screen t0 o.rb).run (chars o4.rb.out) := screen_pre
  have hs2 : screen { screen t0 o.rb with row := 0 } o4.rb = Spec.Term.run { screen t0 o.rb with row := 0 } (chars o4.rb.out) := rfl
  have h1 := (h.during hv hf h3 hfit h4).1.up.row
  have h2 := (h.rebase.during hv hf g1 hfit' g2).1.up.row
  rw [← hs, ← hs2, show (screen t0 (o4.rb.pre o.rb.out)).row = _ from h1, h2, h.between.row]
  show t0.row + heights w ps + (vis.length + o4.rb.idx) / w = t0.row + heights w ps + (0 + 0 + (vis.length + o4.rb.idx) / w)
  omega

/-! ### The window -/

/-- The scrolling terminal is a window on the terminal without end, and has scrolled just enough. -/
structure Rolled (s0 : Scr) (t0 : Spec.Term) (r : RB) (k : Nat) : Prop where
  win : Win (scrolled s0 r) (screen t0 r) k
  h : (scrolled s0 r).h = s0.h
  far : Scrolled s0.h t0 (chars r.out) k

theorem Rolled.write {r r' : RB} {k : Nat} (h : Rolled s0 t0 r k) {ts : List Tok} (ho : r'.out = r.out ++ ts)
    (hup : ∀ i, (screen t0 r).row ≤ ((screen t0 r).run ((chars ts).take i)).row) (hs : Shallow s0.h (screen t0 r) (chars ts)) :
    ∃ k', Rolled s0 t0 r' k' ∧ k ≤ k' := by
  have hk : ∀ i, k ≤ ((screen t0 r).run ((chars ts).take i)).row := fun i => Nat.le_trans h.win.top (hup i)
  obtain ⟨k', g1, g2, g3, g4, g5⟩ := h.win.shallow hk (by rw [h.h]; exact hs)
  rw [h.h] at g2 g4 g5
  have split : ∀ i, t0.run ((chars r'.out).take i) = t0.run ((chars r.out).take i) ∨
      ∃ j, t0.run ((chars r'.out).take i) = (screen t0 r).run ((chars ts).take j) := by
    intro i
    rw [ho, chars_append, List.take_append]
    by_cases hi : i ≤ (chars r.out).length
    · left
      rw [show i - (chars r.out).length = 0 by omega, List.take_zero, List.append_nil]
    · right
      refine ⟨i - (chars r.out).length, ?_⟩
      rw [List.take_of_length_le (by omega), Term.run_append]
      rfl
  refine ⟨k', ⟨by rw [scrolled_out ho, screen_out ho]; exact g1, by rw [scrolled_out ho]; exact g2, fun i => ?_, ?_⟩, g3⟩
  · rcases split i with e | ⟨j, e⟩
    · rw [e]
      have := h.far.1 i
      omega
    · rw [e]; exact g5 j
  · rcases g4 with rfl | ⟨i, g4⟩
    · rcases h.far.2 with e | ⟨i, e⟩
      · exact .inl e
      · right
        by_cases hi : i ≤ (chars r.out).length
        · refine ⟨i, ?_⟩
          rw [ho, chars_append, List.take_append, show i - (chars r.out).length = 0 by omega, List.take_zero, List.append_nil]
          exact e
        · refine ⟨(chars r.out).length, ?_⟩
          rw [ho, chars_append, List.take_append, Nat.sub_self, List.take_zero, List.append_nil]
          rw [List.take_of_length_le (by omega)] at e
          rw [List.take_of_length_le (Nat.le_refl _)]
          exact e
    · right
      refine ⟨(chars r.out).length + i, ?_⟩
      rw [ho, chars_append, List.take_append, List.take_of_length_le (by omega), Nat.add_sub_cancel_left, Term.run_append]
      exact g4

/-- None of the first `n` calls makes the cursor of a terminal without end go up by `h` rows or more. -/
def LowFor (c : OCfg) (t0 : Spec.Term) (h fuel n : Nat) (o0 : Op) : Prop :=
  ∀ m o e o' ts, m < n → after c fuel m o0 = .ok o → o.readline c fuel = .ok (e, o') → o'.rb.out = o.rb.out ++ ts → Shallow h (screen t0 o.rb) (chars ts)

theorem RestingM.rolled (hv : Visible c) (hf : c.auto = some f → Helpful c.U f) {fuel : Nat} : ∀ (n : Nat) {o : Op} {ps}, RestingM c f w vis t0 ps o →
    FitsFor c f w vis fuel n o → LowFor c t0 s0.h fuel n o → (∃ k, Rolled s0 t0 o.rb k) → ∀ {o'}, after c fuel n o = .ok o' → ∃ k, Rolled s0 t0 o'.rb k := by
  intro n
  induction n with
  | zero => intro o ps _ _ _ hl o' h1; cases h1; exact hl
  | succ n ih =>
    intro o ps h hroom hlow hl o' h1
    rw [after] at h1
    obtain ⟨⟨e, o1⟩, g1, h1⟩ := R.bind_inv h1
    replace h1 : after c fuel n o1 = .ok o' := h1
    have hl1 : ∃ k, Rolled s0 t0 o1.rb k := by
      obtain ⟨k, hl⟩ := hl
      obtain ⟨ts, e1, e2⟩ := h.steady hv hf g1 (fun a b => hroom 0 o a b (by omega) rfl)
      obtain ⟨k', hk, _⟩ := hl.write e1 e2 (hlow 0 o e o1 ts (by omega) rfl g1 e1)
      exact ⟨k', hk⟩
    have hroom1 : FitsFor c f w vis fuel n o1 := fun m a b d hm ha => hroom (m + 1) a b d (by omega) (by rw [after, g1, R.bind_ok]; exact ha)
    have hlow1 : LowFor c t0 s0.h fuel n o1 := fun m a b d ts hm ha => hlow (m + 1) a b d ts (by omega) (by rw [after, g1, R.bind_ok]; exact ha)
    rcases h.readline hv hf g1 (fun a b => hroom 0 o a b (by omega) rfl) with hr | ⟨rfl, hs, he, ho⟩
    · exact ih hr hroom1 hlow1 hl1 h1
    · cases n with
      | zero => cases h1; exact hl1
      | succ n =>
        exfalso
        rw [after] at h1
        obtain ⟨⟨e2, o2⟩, g3, _⟩ := R.bind_inv h1
        unfold Op.readline at g3
        obtain ⟨o3, g4, g3⟩ := R.bind_inv g3
        obtain ⟨r3, _, g5⟩ := R.bind_inv g4
        cases g5
        unfold Op.await at g3
        rw [show (Op.kickRead { o1 with rb := r3 }).events = [] from he] at g3
        dsimp only at g3
        split at g3
        · cases g3
        · rw [if_pos (by exact hs)] at g3; cases g3

theorem rolled_init {prompt : List Rune} {h : Hist} {keys : List Rune} (hrow : s0.row < s0.h) :
    Rolled s0 (tall s0) (Op.init prompt true w h keys).rb 0 :=
  ⟨win_tall hrow, rfl, fun i => by
    show (Spec.Term.run (tall s0) (List.take i [])).row < _
    rw [List.take_nil]
    show s0.row < 0 + s0.h
    omega, .inl rfl⟩

/-- A terminal that shows the picture. -/
theorem on_of {s : Scr} {t : Spec.Term} {pic k} (hs : Win s t k) (hh : s.h = s0.h) (hw : t.w = s0.w) (hrow : s0.row < s0.h)
    (ha : ∀ a, a < s0.row → ∀ x, t.cell a x = (tall s0).cell a x) (hc : ∀ a x, x < s0.w → t.cell (s0.row + a) x = pic a x) : s0.On s pic k := by
  have key : ∀ a x, x < s0.w → t.cell a x = if a < s0.row then s0.cell a x else pic (a - s0.row) x := by
    intro a x hx
    split
    · next h =>
      rw [ha a h]
      show (if a < s0.h then s0.cell a x else 32) = _
      rw [if_pos (by omega)]
    · next h =>
      rw [← hc _ x hx]
      congr 1; omega
  have hsw : s.w = s0.w := hs.w.trans hw
  exact ⟨hh, by rw [← hh]; exact hs.low, fun a h x hx => by rw [← key _ x hx]; exact hs.cells a (by omega) x (by omega),
    fun a h x hx => by rw [← key _ x hx]; exact hs.below a (by omega) x (by omega)⟩

/-! ### The theorems -/

/-- **C96, the part that holds** (between two calls).  The terminal has `h` rows and scrolls.  After `n > 0` calls of `Readline` with the keys
of C95 that returned `es`, the screen is a window on the picture of C95: what stood above the cursor, and one paragraph per result.  Below
the window there is nothing, the cursor is at the start of the row below the last paragraph, and the screen has scrolled just as far as the lowest
row written to required.
Missing: what is missing in C95; and calls in which the cursor has to go up by `h` rows or more (`C96_false_list`). -/
theorem C96_transcript_partial (hv : Visible c) (hf : c.auto = some f → Helpful c.U f) {prompt : List Rune} {h : Hist} {keys : List Rune} (hw : s0.w = w) (hst : s0.st = .ground)
    (hrow : s0.row < s0.h) (hp : Plain c.U c.d w vis (RB.new prompt true w)) (hh : h.AllP (Cell c.U)) (hk : ∀ r ∈ keys, MKey c f r) {fuel n : Nat} {es o}
    (hroom : FitsFor c f w vis fuel n (Op.init prompt true w h keys)) (hlow : LowFor c (tall s0) s0.h fuel n (Op.init prompt true w h keys))
    (hn : 0 < n) (h1 : calls c fuel n (Op.init prompt true w h keys) = .ok es) (h2 : after c fuel n (Op.init prompt true w h keys) = .ok o)
    (hs : o.stopped = false) :
    ∃ k, s0.On (scrolled s0 o.rb) (paper w (es.map (paragraph vis c.interruptPrompt c.eofPrompt))) k ∧
      k + (scrolled s0 o.rb).row = s0.row + heights w (es.map (paragraph vis c.interruptPrompt c.eofPrompt)) ∧ (scrolled s0 o.rb).col = 0 ∧
      Scrolled s0.h (tall s0) (chars o.rb.out) k := by
  have ho := C95_transcript_partial (t0 := tall s0) hv hf hw hst hp hh hk hroom hn h1 h2 hs
  obtain ⟨k, hl⟩ := (RestingM.init (t0 := tall s0) hw hst hp hh hk).rolled (s0 := s0) hv hf n hroom hlow ⟨0, rolled_init hrow⟩ h2
  refine ⟨k, ?_, ?_, ?_, hl.far⟩
  · subst hw
    exact on_of hl.win hl.h (run_w _ (tall s0)) hrow ho.above ho.cells
  · rw [← hl.win.at', ho.row]; rfl
  · rw [hl.win.col]; exact ho.col

/-- **C96, the part that holds** (the end of the input).  The prompt of the last call is erased. -/
theorem C96_end_partial (hv : Visible c) (hf : c.auto = some f → Helpful c.U f) {prompt : List Rune} {h : Hist} {keys : List Rune} (hw : s0.w = w) (hst : s0.st = .ground)
    (hrow : s0.row < s0.h) (hp : Plain c.U c.d w vis (RB.new prompt true w)) (hh : h.AllP (Cell c.U)) (hk : ∀ r ∈ keys, MKey c f r) {fuel n : Nat} {es o}
    (hroom : FitsFor c f w vis fuel n (Op.init prompt true w h keys)) (hlow : LowFor c (tall s0) s0.h fuel n (Op.init prompt true w h keys))
    (h1 : calls c fuel n (Op.init prompt true w h keys) = .ok es) (h2 : after c fuel n (Op.init prompt true w h keys) = .ok o)
    (hs : o.stopped = true) :
    ∃ k, s0.On (scrolled s0 o.rb) (paper w (es.dropLast.map (paragraph vis c.interruptPrompt c.eofPrompt))) k ∧
      k + (scrolled s0 o.rb).row = s0.row + heights w (es.dropLast.map (paragraph vis c.interruptPrompt c.eofPrompt)) ∧ (scrolled s0 o.rb).col = 0 ∧
      Scrolled s0.h (tall s0) (chars o.rb.out) k := by
  obtain ⟨_, ho⟩ := C95_end_partial (t0 := tall s0) hv hf hw hst hp hh hk hroom h1 h2 hs
  obtain ⟨k, hl⟩ := (RestingM.init (t0 := tall s0) hw hst hp hh hk).rolled (s0 := s0) hv hf n hroom hlow ⟨0, rolled_init hrow⟩ h2
  refine ⟨k, ?_, ?_, ?_, hl.far⟩
  · subst hw
    exact on_of hl.win hl.h (run_w _ (tall s0)) hrow ho.above ho.cells
  · rw [← hl.win.at', ho.row]; rfl
  · rw [hl.win.col]; exact ho.col

/-- The picture of C95 in the course of a call: the paragraphs, the line, and below it the banner of the search or the list of candidates. -/
def sight (f : Completer) (w : Nat) (vis : List Rune) (ps : List (List Rune)) (o : Op) (k cw a x : Nat) : Rune :=
  if o.comp.inComplete = true then
    if a < heights w (ps ++ [vis ++ o.rb.buf]) then paper w (ps ++ [vis ++ o.rb.buf]) a x
    else listing k cw (offered f o.rb.buf o.rb.idx) (a - heights w (ps ++ [vis ++ o.rb.buf])) x
  else paper w (ps ++ current vis o) a x

/-- **C96, the part that holds** (in the course of a call).  The screen is a window on the picture of C95: the paragraphs of the previous calls,
the line, and below it the banner of the search or the list of candidates.  The row of the editing cursor is in the window, and the
terminal's cursor is in it, in the column of the editing cursor with the exceptions of C95. -/
theorem C96_line_partial (hv : Visible c) (hf : c.auto = some f → Helpful c.U f) {prompt : List Rune} {h : Hist} {keys : List Rune} (hw : s0.w = w) (hst : s0.st = .ground)
    (hrow : s0.row < s0.h) (hp : Plain c.U c.d w vis (RB.new prompt true w)) (hh : h.AllP (Cell c.U)) (hk : ∀ r ∈ keys, MKey c f r) {fuel n : Nat} {es o o1 o2}
    (hroom : FitsFor c f w vis fuel (n + 1) (Op.init prompt true w h keys)) (hlow : LowFor c (tall s0) s0.h fuel n (Op.init prompt true w h keys))
    (h1 : calls c fuel n (Op.init prompt true w h keys) = .ok es) (h2 : after c fuel n (Op.init prompt true w h keys) = .ok o)
    (hs : o.stopped = false) (h3 : o.refreshNil c = .ok o1) (h4 : During c o1.kickRead o2)
    (hlow2 : ∀ ts, o2.rb.out = o.rb.out ++ ts → Shallow s0.h (screen (tall s0) o.rb) (chars ts)) {ps : List (List Rune)}
    (hps : ps = es.map (paragraph vis c.interruptPrompt c.eofPrompt)) :
    ∃ k, (∃ kc cw, (o2.comp.inComplete = true → Columns w kc cw (offered f o2.rb.buf o2.rb.idx)) ∧ s0.On (scrolled s0 o2.rb) (sight f w vis ps o2 kc cw) k) ∧
      k + (scrolled s0 o2.rb).row = s0.row + heights w ps + (vis.length + o2.rb.idx) / w ∧
      ((if o2.comp.inComplete then 0 < vis.length + o2.rb.idx ∧ vis.length + o2.rb.idx < w else o2.search.inMode = true ∨ ¬ Plain.Corner w vis o2.rb) →
        (scrolled s0 o2.rb).col = (vis.length + o2.rb.idx) % w) ∧
      Scrolled s0.h (tall s0) (chars o2.rb.out) k := by
  obtain ⟨q1, q2, q3, q4, q5⟩ := C95_line_partial (t0 := tall s0) hv hf hw hst hp hh hk hroom h1 h2 hs h3 h4 hps
  have hr0 := RestingM.init (f := f) (t0 := tall s0) hw hst hp hh hk
  have hroom' : FitsFor c f w vis fuel n (Op.init prompt true w h keys) := fun m a b d hm => hroom m a b d (by omega)
  obtain ⟨k0, hl0⟩ := hr0.rolled (s0 := s0) hv hf n hroom' hlow ⟨0, rolled_init hrow⟩ h2
  rcases hr0.calls hv hf n hroom' h1 h2 with hr | ⟨h5, _⟩
  · obtain ⟨ts, e1, e2⟩ := hr.steadyIn hv hf h3 (fun a => hroom n o o1 a (by omega) h2 h3) h4
    obtain ⟨k, hl, _⟩ := hl0.write e1 e2 (hlow2 ts e1)
    refine ⟨k, ?_, ?_, fun hc => ?_, hl.far⟩
    · subst hw
      cases hi : o2.comp.inComplete with
      | false =>
        refine ⟨0, 0, (fun e => by cases e), on_of hl.win hl.h (run_w _ (tall s0)) hrow q1 (fun a x hx => ?_)⟩
        rw [sight, hi, if_neg (by simp)]
        exact q2 hi a x hx
      | true =>
        obtain ⟨_, kc, cw, g1, g2⟩ := q3 hi
        refine ⟨kc, cw, fun _ => g1, on_of hl.win hl.h (run_w _ (tall s0)) hrow q1 (fun a x hx => ?_)⟩
        rw [sight, hi, if_pos rfl]
        exact g2 a x hx
    · rw [← hl.win.at', q4]; rfl
    · rw [hl.win.col]; exact q5 hc
  · rw [hs] at h5; cases h5

/-! ### The list of candidates may be taller than the screen -/

/-- The rows of a screen. -/
def rowsOf (s : Scr) : List (List Rune) := (List.range s.h).map fun y => (List.range s.w).map fun x => s.cell y x

/-- A screen of nine columns and five rows, with an `x` in the corner and the cursor below it. -/
def s9 : Scr := ⟨9, 5, fun y x => if y = 0 ∧ x = 0 then 120 else 32, 1, 0, false, .ground⟩

/-- **C96 is false when the list of candidates is as tall as the screen.**  `g` and Tab in nine columns: the four candidates take a row each, and
the cursor moves to a fifth row below them.  Going up five rows from there (complete.go:239) is too much for a screen of five rows: the line `> g`
has left the screen, and the cursor is in the row of the first candidate, where the next key will be drawn over it. -/
theorem C96_false_list : ∃ o, pressedC cMix 9 (str "> ") (str "g" ++ [CharTab]) 2 = .ok o ∧ o.rb.buf = str "g" ∧ o.rb.idx = 1 ∧
    rowsOf (scrolled s9 o.rb) = [str "git      ", str "gimp     ", str "give     ", str "go       ", str "         "] ∧ (scrolled s9 o.rb).row = 0 ∧
    ((List.range 9).map fun x => (screen (tall s9) o.rb).cell 1 x) = str "> g      " ∧ ¬ Shallow 5 (tall s9) (chars o.rb.out) := by
  obtain ⟨o, ho, h1⟩ : ∃ o, pressedC cMix 9 (str "> ") (str "g" ++ [CharTab]) 2 = .ok o ∧ (o.rb.buf = str "g" ∧ o.rb.idx = 1) := ⟨_, rfl, rfl, rfl⟩
  refine ⟨o, ho, h1.1, h1.2, ?_⟩
  cases ho
  exact ⟨by decide +kernel, by decide +kernel, by decide +kernel, fun h => absurd (h 63 132 (by decide)) (by decide +kernel)⟩

/-! ### A session -/

/-- A test for `Shallow`: the rows one after the other, with the lowest so far. -/
def deepB (h : Nat) : Spec.Term → List Rune → Nat → Bool
  | t, [], m => decide (m < t.row + h)
  | t, c :: cs, m => decide (m < t.row + h) && deepB h (t.feed c) cs (max m (t.feed c).row)

theorem deepB_ok {h : Nat} : ∀ {cs : List Rune} {t : Spec.Term} {m : Nat}, t.row ≤ m → deepB h t cs m = true →
    Shallow h t cs ∧ ∀ j, m < (t.run (cs.take j)).row + h := by
  intro cs
  induction cs with
  | nil =>
    intro t m hm hb
    simp only [deepB, decide_eq_true_eq] at hb
    exact ⟨fun i j _ => by rw [List.take_nil, List.take_nil]; show t.row < t.row + h; omega, fun j => by rw [List.take_nil]; exact hb⟩
  | cons c cs ih =>
    intro t m hm hb
    simp only [deepB, Bool.and_eq_true, decide_eq_true_eq] at hb
    obtain ⟨g1, g2⟩ := ih (Nat.le_max_right ..) hb.2
    have up : ∀ j, m < (t.run ((c :: cs).take j)).row + h := by
      intro j
      cases j with
      | zero => exact hb.1
      | succ j => exact Nat.lt_of_le_of_lt (Nat.le_max_left ..) (g2 j)
    refine ⟨fun i j hij => ?_, up⟩
    cases i with
    | zero => exact Nat.lt_of_le_of_lt hm (up j)
    | succ i =>
      cases j with
      | zero => omega
      | succ j => exact g1 i j (by omega)

theorem shallow_of {h : Nat} {t : Spec.Term} {out ts out' : List Tok} (hb : deepB h t (chars (out'.drop out.length)) t.row = true)
    (ho : out' = out ++ ts) : Shallow h t (chars ts) := by
  rw [ho, List.drop_left] at hb
  exact (deepB_ok (Nat.le_refl _) hb).1

/-- A screen of thirty columns and three rows with the cursor in the last row. -/
def s30 : Scr := ⟨30, 3, fun y x => if y = 0 ∧ x = 0 then 120 else 32, 2, 5, false, .ground⟩

theorem lowM : LowFor cMix (tall s30) 3 30 4 (Op.init (str "> ") true 30 (Hist.fresh []) keysM) := by
  intro m o e o' ts hm h1 h2 h3
  refine shallow_of ?_ h3
  match m, hm with
  | 0, _ => cases h1; cases h2; decide +kernel
  | 1, _ => cases h1; cases h2; decide +kernel
  | 2, _ => cases h1; cases h2; decide +kernel
  | 3, _ => cases h1; cases h2; decide +kernel

/-- The session of C95 on three rows: only the last two of the four paragraphs are still on the screen. -/
example : ∃ o, after cMix 30 4 (Op.init (str "> ") true 30 (Hist.fresh []) keysM) = .ok o ∧
    s30.On (scrolled s30 o.rb) (paper 30 [str "> gimp", str "> gimp", str "> g^C", str "> "]) 4 ∧ (scrolled s30 o.rb).row = 2 := by
  obtain ⟨o, ho, hs⟩ : ∃ o, after cMix 30 4 (Op.init (str "> ") true 30 (Hist.fresh []) keysM) = .ok o ∧ o.stopped = false := ⟨_, rfl, rfl⟩
  have hr : (scrolled s30 o.rb).row = 2 := by cases ho; decide +kernel
  refine ⟨o, ho, ?_, hr⟩
  obtain ⟨k, g1, g2, _⟩ := C96_transcript_partial (c := cMix) (f := toolsF) (s0 := s30) (w := 30) (vis := str "> ") (keys := keysM) (fuel := 30) (n := 4)
    (es := [.line (str "gimp"), .line (str "gimp"), .interrupt (str "g"), .eof]) visibleM (fun _ => toolsF_helpful) rfl rfl (by decide) plainM (h := Hist.fresh [])
    (fun i => ⟨by simp [Hist.fresh], by simp [Hist.fresh]⟩) mkeysM fitsM lowM (by decide) (by rfl) ho hs
  have e : k = 4 := by
    rw [hr] at g2
    have : s30.row + heights 30 (List.map (paragraph (str "> ") cMix.interruptPrompt cMix.eofPrompt) [.line (str "gimp"), .line (str "gimp"), .interrupt (str "g"), .eof]) = 6 := by decide
    omega
  subst e
  exact g1

/-- In the course of the third call, with the list open: the screen shows the paragraph of the second call, the line `> g`, and the four commands
below it. -/
example : ∃ o o1 o2, after cMix 30 2 (Op.init (str "> ") true 30 (Hist.fresh []) keysM) = .ok o ∧ o.refreshNil cMix = .ok o1 ∧
    During cMix o1.kickRead o2 ∧ o2.comp.inComplete = true ∧
    (∃ kc cw, Columns 30 kc cw [str "git", str "gimp", str "give", str "go"] ∧
      s30.On (scrolled s30 o2.rb) (sight toolsF 30 (str "> ") [str "> gimp", str "> gimp"] o2 kc cw) 3) ∧
    (scrolled s30 o2.rb).row = 1 ∧ (scrolled s30 o2.rb).col = 3 := by
  obtain ⟨o, ho, hs⟩ : ∃ o, after cMix 30 2 (Op.init (str "> ") true 30 (Hist.fresh []) keysM) = .ok o ∧ o.stopped = false := ⟨_, rfl, rfl⟩
  obtain ⟨o1, h1, o2, h2, hb, hi, hm, hc, hr, hl⟩ : ∃ o1, o.refreshNil cMix = .ok o1 ∧ ∃ o2, During cMix o1.kickRead o2 ∧ o2.rb.buf = str "g" ∧
      o2.rb.idx = 1 ∧ o2.comp.inComplete = true ∧ offered toolsF (str "g") 1 = tools ∧ (scrolled s30 o2.rb).row = 1 ∧
      deepB 3 (screen (tall s30) o.rb) (chars (o2.rb.out.drop o.rb.out.length)) (screen (tall s30) o.rb).row = true := by
    cases ho
    exact ⟨_, rfl, _, .key (.key (.key (.key (.here _) rfl rfl) rfl rfl) rfl rfl) rfl rfl, rfl, rfl, rfl, rfl, by decide +kernel, by decide +kernel⟩
  refine ⟨o, o1, o2, ho, h1, h2, hm, ?_⟩
  obtain ⟨k, ⟨kc, cw, g1, g2⟩, g3, g4, _⟩ := C96_line_partial (c := cMix) (f := toolsF) (s0 := s30) (w := 30) (vis := str "> ") (keys := keysM) (fuel := 30) (n := 2)
    (es := [.line (str "gimp"), .line (str "gimp")]) visibleM (fun _ => toolsF_helpful) rfl rfl (by decide) plainM (h := Hist.fresh [])
    (fun i => ⟨by simp [Hist.fresh], by simp [Hist.fresh]⟩) mkeysM (fun m a b d hm => fitsM m a b d (by omega)) (fun m a b d ts hm => lowM m a b d ts (by omega))
    (by rfl) ho hs h1 h2 (fun ts e => shallow_of hl e) rfl
  have e : k = 3 := by
    rw [hr, hi] at g3
    have : s30.row + heights 30 (List.map (paragraph (str "> ") cMix.interruptPrompt cMix.eofPrompt) [.line (str "gimp"), .line (str "gimp")]) + ((str "> ").length + 1) / 30 = 4 := by decide
    omega
  subst e
  refine ⟨⟨kc, cw, ?_, g2⟩, hr, ?_⟩
  · have := g1 hm
    rw [hb, hi, hc] at this
    exact this
  · rw [hm, hi] at g4
    exact g4 (by rw [if_pos rfl]; decide)

end RL
