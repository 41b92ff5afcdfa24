import Verif.Proofs.Roll
import Verif.Props.SearchScreen
/-! # C81: sessions on a terminal that scrolls

C69 is about a terminal of any number of rows.  Here the terminal has `h` rows, and what does not fit moves out at the top.  The screen
is then a window on the picture of C69. -/

namespace RL
open Spec Term Spec.Term RB

variable {c : OCfg} {w : Nat} {vis : List Rune} {t0 base : Spec.Term} {y : Nat} {s0 : Scr} {F : Nat → Prop}

/-- A call, from the prompt on. -/
theorem Op.await_left (hv : Visible c) : ∀ (n : Nat) {o : Op}, OnScreen c.U c.d w vis t0 base y o.rb → Calm c (TKey c) o → o.events = [] →
    (∃ k, Seen s0 t0 F w vis y o.rb k) → (∀ o2, During c o o2 → RowsFitF F w vis o2.rb) → ∀ {e o'},
    await c n o = .ok (e, o') → ∃ k, Left s0 t0 F o'.rb k := by
  intro n
  induction n with
  | zero =>
    intro o on hc he hs hF e o' h
    unfold await at h
    rw [he] at h
    cases h
  | succ n ih =>
    intro o on hc he hs hF e o' h
    rw [await, he] at h
    dsimp only at h
    rw [if_neg (by simp [hc.run])] at h
    obtain ⟨o1, h1, h⟩ := R.bind_inv h
    have h : await c n o1 = .ok (e, o') := h
    obtain ⟨k, hs⟩ := hs
    have hm := iter_moved (s0 := s0) (F := F) hv on hc h1 (hF o (.here _)) (fun e1 => hF o1 (.key (.here _) h1 (e1.trans he)))
    have done : ∀ {x}, o1.events = [x] → o'.rb = o1.rb := by
      intro x hx
      unfold await at h
      rw [hx] at h
      cases h; rfl
    rcases iter_tty hv.rules on hc h1 with ⟨hc1, ⟨on1, he1⟩ | ⟨e1, he1, _⟩⟩ | hend
    · rcases hm with (⟨_, hm⟩ | ⟨hm, _⟩) | ⟨hm, _⟩
      · exact ih on1 hc1 (he1.trans he) (hm k hs) (fun o2 h2 => hF o2 (by
          clear ih h
          induction h2 with
          | here => exact .key (.here _) h1 (he1.trans he)
          | key _ h3 h4 ih => exact .key ih h3 h4)) h
      · exact absurd he1 hm
      · have := hc1.run
        rw [hm] at this; cases this
    · rw [he, List.nil_append] at he1
      rw [done he1]
      rcases hm with (⟨hm, _⟩ | ⟨_, hm⟩) | ⟨_, hm⟩
      · rw [he1, he] at hm; cases hm
      · exact hm k hs
      · exact hm k hs
    · have he1 := hend.events
      rw [he, List.nil_append] at he1
      rw [done he1]
      rcases hm with (⟨hm, _⟩ | ⟨_, hm⟩) | ⟨_, hm⟩
      · rw [he1, he] at hm; cases hm
      · exact hm k hs
      · exact hm k hs

/-- At no moment of the first `n` calls the line has more than `H + 1` rows. -/
def NoTaller (c : OCfg) (w : Nat) (vis : List Rune) (fuel n : Nat) (o0 : Op) (H : Nat) : Prop :=
  ∀ m o o1 o2, m < n → after c fuel m o0 = .ok o → o.refreshNil c = .ok o1 → During c o1.kickRead o2 → RowsFit w vis H o2.rb

theorem Resting.start (hv : Visible c) {o : Op} {ps} (h : Resting c w vis t0 ps o) {o1 : Op} (h1 : o.refreshNil c = .ok o1) :
    OnScreen c.U c.d w vis t0 (screen t0 o.rb) (t0.row + heights w ps) o1.kickRead.rb ∧ Calm c (TKey c) o1.kickRead ∧ o1.kickRead.events = [] :=
  h.during hv h1 (.here _)

theorem Resting.left (hv : Visible c) {fuel : Nat} : ∀ (n : Nat) {o : Op} {ps}, Resting c w vis t0 ps o → (∃ k, Left s0 t0 F o.rb k) →
    (∀ H, F H → NoTaller c w vis fuel n o H) → ∀ {o'}, after c fuel n o = .ok o' → ∃ k, Left s0 t0 F o'.rb k := by
  intro n
  induction n with
  | zero => intro o ps h hl _ o' h1; cases h1; exact hl
  | succ n ih =>
    intro o ps h hl hF o' h1
    rw [after] at h1
    obtain ⟨⟨e, o1⟩, g1, h1⟩ := R.bind_inv h1
    replace h1 : after c fuel n o1 = .ok o' := h1
    have hl1 : ∃ k, Left s0 t0 F o1.rb k := by
      have g2 := g1
      unfold Op.readline at g2
      obtain ⟨o2, h2, g2⟩ := R.bind_inv g2
      obtain ⟨on, hc, he⟩ := h.start hv h2
      have hfit : ∀ o3, During c o2.kickRead o3 → RowsFitF F w vis o3.rb := fun o3 h3 H hH => hF H hH 0 o o2 o3 (by omega) rfl h2 h3
      refine Op.await_left hv fuel on hc he ?_ hfit g2
      obtain ⟨r2, h3, h4⟩ := R.bind_inv h2
      cases h4
      obtain ⟨k, hl⟩ := hl
      exact h.between.promptSeen h3 hl (hfit _ (.here _))
    have hF1 : ∀ H, F H → NoTaller c w vis fuel n o1 H := fun H hH m a b d hm ha => hF H hH (m + 1) a b d (by omega) (by
      rw [after, g1, R.bind_ok]; exact ha)
    rcases h.readline hv g1 with hr | ⟨rfl, hs, he, ho⟩
    · exact ih hr hl1 hF1 h1
    · cases n with
      | zero => cases h1; exact hl1
      | succ n =>
        exfalso
        rw [after] at h1
        obtain ⟨⟨e2, o2⟩, g3, _⟩ := R.bind_inv h1
        unfold Op.readline at g3
        obtain ⟨o3, g4, g3⟩ := R.bind_inv g3
        obtain ⟨r3, _, g5⟩ := R.bind_inv g4
        cases g5
        unfold Op.await at g3
        rw [show (Op.kickRead { o1 with rb := r3 }).events = [] from he] at g3
        dsimp only at g3
        split at g3
        · cases g3
        · rw [if_pos (by exact hs)] at g3; cases g3

/-- In the course of a call. -/
theorem Resting.seen (hv : Visible c) {o o1 o2 : Op} {ps} (h : Resting c w vis t0 ps o) {k : Nat} (hl : Left s0 t0 F o.rb k)
    (h1 : o.refreshNil c = .ok o1) (h2 : During c o1.kickRead o2) (hF : ∀ o3, During c o1.kickRead o3 → RowsFitF F w vis o3.rb) :
    ∃ k, Seen s0 t0 F w vis (t0.row + heights w ps) o2.rb k := by
  induction h2 with
  | here =>
    obtain ⟨r2, h3, h4⟩ := R.bind_inv h1
    cases h4
    exact h.between.promptSeen h3 hl (hF _ (.here _))
  | @key oa ob hd h' he ih =>
    obtain ⟨k, ih⟩ := ih
    obtain ⟨on, hc, hev⟩ := h.during hv h1 hd
    rcases Op.iter_moved (s0 := s0) (F := F) hv on hc h' (hF _ hd) (fun _ => hF _ (.key hd h' he)) with (⟨_, hm⟩ | ⟨hm, _⟩) | ⟨hs, _⟩
    · exact hm k ih
    · exact absurd (he.trans hev.symm) hm
    · rcases Op.iter_tty hv.rules on hc h' with ⟨hc1, _⟩ | hend
      · have := hc1.run
        rw [hs] at this; cases this
      · have := hend.events
        rw [he] at this
        simp at this

/-- The screen as the top of a terminal without end. -/
def tall (s : Scr) : Spec.Term := ⟨s.w, fun a x => if a < s.h then s.cell a x else 32, s.row, s.col, s.pend, s.st⟩

theorem win_tall {s : Scr} (h : s.row < s.h) : Win s (tall s) 0 :=
  ⟨⟨rfl, rfl, h, rfl, rfl, rfl, fun a ha x _ => by
    show _ = if 0 + a < s.h then s.cell (0 + a) x else 32
    rw [if_pos (by omega), Nat.zero_add], fun a ha x _ => by
    show (if a < s.h then s.cell a x else 32) = 32
    rw [if_neg (by omega)]⟩, Nat.zero_le _⟩

theorem feed_w (t : Spec.Term) (r : Rune) : (t.feed r).w = t.w := by
  unfold Spec.Term.feed
  split
  · repeat' split
    all_goals first | rfl | skip
    · unfold Spec.Term.put Spec.Term.wrap Spec.Term.store; dsimp only; repeat' split
      all_goals rfl
  · split <;> rfl
  · split
    · rfl
    · unfold Spec.Term.csi; repeat' split
      all_goals rfl

theorem run_w (l : List Rune) : ∀ (t : Spec.Term), (t.run l).w = t.w := by
  induction l with
  | nil => intro t; rfl
  | cons r l ih => intro t; exact (ih _).trans (feed_w t r)

/-- A terminal that shows the picture. -/
theorem window_of {s : Scr} {t : Spec.Term} {ps k} (hs : Near s t k) (hh : s.h = s0.h) (hw : t.w = s0.w) (hrow : s0.row < s0.h)
    (ha : ∀ a, a < s0.row → ∀ x, t.cell a x = (tall s0).cell a x) (hc : ∀ a x, x < s0.w → t.cell (s0.row + a) x = paper s0.w ps a x) :
    s0.Window s ps k := by
  have key : ∀ a x, x < s0.w → t.cell a x = picture s0 ps a x := by
    intro a x hx
    unfold picture
    split
    · next h =>
      rw [ha a h]
      show (if a < s0.h then s0.cell a x else 32) = _
      rw [if_pos (by omega)]
    · next h =>
      rw [← hc _ x hx]
      congr 1; omega
  have hsw : s.w = s0.w := hs.w.trans hw
  exact ⟨hh, by rw [← hh]; exact hs.low, fun a h x hx => by rw [← key _ x hx]; exact hs.cells a (by omega) x (by omega),
    fun a h x hx => by rw [← key _ x hx]; exact hs.below a (by omega) x (by omega)⟩

theorem left_init {prompt : List Rune} {h : Hist} {keys : List Rune} (hrow : s0.row < s0.h) :
    Left s0 (tall s0) F (Op.init prompt true w h keys).rb 0 :=
  ⟨win_tall hrow, rfl, fun _ _ => .inl rfl⟩

/-- **C81, the part that holds** (between two calls).  The terminal has `h` rows and scrolls.  After `n > 0` calls of `Readline` that
returned `es`, the screen is the window from row `k` on of the picture of C69: what stood above the cursor, and one paragraph per result.
Below the window there is nothing, and the cursor is at the start of the row below the last paragraph.  If at no moment the line had
more than `H + 1` rows, the screen has scrolled at most so far that a line of this height fits.
Missing: what is missing in C69. -/
theorem C81_transcript_partial (hv : Visible c) {prompt : List Rune} {h : Hist} {keys : List Rune} (hw : s0.w = w) (hst : s0.st = .ground)
    (hrow : s0.row < s0.h) (hp : Plain c.U c.d w vis (RB.new prompt true w)) (hh : h.AllP (Cell c.U)) (hk : ∀ r ∈ keys, TKey c r) {fuel n : Nat} {es o}
    (hn : 0 < n) (h1 : calls c fuel n (Op.init prompt true w h keys) = .ok es) (h2 : after c fuel n (Op.init prompt true w h keys) = .ok o)
    (hs : o.stopped = false) :
    ∃ k, s0.Window (scrolled s0 o.rb) (es.map (paragraph vis c.interruptPrompt c.eofPrompt)) k ∧
      k + (scrolled s0 o.rb).row = s0.row + heights w (es.map (paragraph vis c.interruptPrompt c.eofPrompt)) ∧ (scrolled s0 o.rb).col = 0 ∧
      ∀ H, NoTaller c w vis fuel n (Op.init prompt true w h keys) H →
        k = 0 ∨ k + s0.h ≤ s0.row + heights w (es.map (paragraph vis c.interruptPrompt c.eofPrompt)) + H + 1 := by
  have ho := C69_transcript_partial (t0 := tall s0) hv hw hst hp hh hk hn h1 h2 hs
  obtain ⟨k, hl⟩ := (Resting.init (t0 := tall s0) hw hst hp hh hk).left (s0 := s0)
    (F := NoTaller c w vis fuel n (Op.init prompt true w h keys)) hv n ⟨0, left_init hrow⟩ (fun H h => h) h2
  have hr : (screen (tall s0) o.rb).row = s0.row + _ := ho.row
  refine ⟨k, ?_, ?_, ?_, fun H hH => ?_⟩
  · subst hw
    refine window_of hl.win.toNear hl.h ?_ hrow ho.above ho.cells
    rcases (Resting.init (t0 := tall s0) rfl hst hp hh hk).calls hv n h1 h2 with hr | ⟨h3, _⟩
    · exact hr.between.sw
    · rw [hs] at h3; cases h3
  · rw [← hr, hl.win.at']
  · rw [hl.win.col]; exact ho.col
  · rw [← hr]; exact hl.why H hH

/-- **C81, the part that holds** (in the course of a call).  The screen is a window on the picture of C69, with the prompt and the line as
it is at the moment below the paragraphs of the previous calls.  The window contains the start of the line, or ends with the last row of
the line (with the cell behind its end).  The cursor is on the rune under the editing cursor if that is in the window, and else in the
first row (with the exception of C17). -/
theorem C81_line_partial (hv : Visible c) {prompt : List Rune} {h : Hist} {keys : List Rune} (hw : s0.w = w) (hst : s0.st = .ground)
    (hrow : s0.row < s0.h) (hp : Plain c.U c.d w vis (RB.new prompt true w)) (hh : h.AllP (Cell c.U)) (hk : ∀ r ∈ keys, TKey c r) {fuel n : Nat}
    {es o o1 o2} (h1 : calls c fuel n (Op.init prompt true w h keys) = .ok es) (h2 : after c fuel n (Op.init prompt true w h keys) = .ok o)
    (hs : o.stopped = false) (h3 : o.refreshNil c = .ok o1) (h4 : During c o1.kickRead o2) :
    ∃ k, s0.Window (scrolled s0 o2.rb) (es.map (paragraph vis c.interruptPrompt c.eofPrompt) ++ [vis ++ o2.rb.buf]) k ∧
      (k ≤ s0.row + heights w (es.map (paragraph vis c.interruptPrompt c.eofPrompt)) ∨
        k + s0.h = s0.row + heights w (es.map (paragraph vis c.interruptPrompt c.eofPrompt)) + (vis.length + o2.rb.buf.length) / w + 1) ∧
      (scrolled s0 o2.rb).row = s0.row + heights w (es.map (paragraph vis c.interruptPrompt c.eofPrompt)) + (vis.length + o2.rb.idx) / w - k ∧
      (¬ Plain.Corner w vis o2.rb → (scrolled s0 o2.rb).col = (vis.length + o2.rb.idx) % w) ∧
      ∀ H, NoTaller c w vis fuel (n + 1) (Op.init prompt true w h keys) H →
        k = 0 ∨ k + s0.h ≤ s0.row + heights w (es.map (paragraph vis c.interruptPrompt c.eofPrompt)) + H + 1 := by
  obtain ⟨q1, q2, q3⟩ := C69_line_partial (t0 := tall s0) hv hw hst hp hh hk h1 h2 hs h3 h4
  have hr0 := Resting.init (t0 := tall s0) hw hst hp hh hk
  obtain ⟨k0, hl⟩ := hr0.left (s0 := s0)
    (F := NoTaller c w vis fuel (n + 1) (Op.init prompt true w h keys)) hv n ⟨0, left_init hrow⟩
    (fun H h m a b d hm => h m a b d (by omega)) h2
  rcases hr0.calls hv n h1 h2 with hr | ⟨h5, _⟩
  · rw [List.nil_append] at hr
    obtain ⟨on, _, _⟩ := hr.during hv h3 h4
    obtain ⟨k, hk⟩ := hr.seen hv hl h3 h4 (fun o3 h5 H hH => hH n o o1 o3 (by omega) h2 h3 h5)
    refine ⟨k, ?_, hk.side, ?_, fun hc => ?_, hk.why⟩
    · subst hw
      exact window_of hk.near hk.h on.sw hrow q1 q2
    · rw [hk.near.row, on.row]; rfl
    · rw [hk.near.col, (q3 hc).col, on.sw]
  · rw [hs] at h5; cases h5

/-- **C81, the part that holds** (the end of the input).  The prompt of the last call is erased. -/
theorem C81_end_partial (hv : Visible c) {prompt : List Rune} {h : Hist} {keys : List Rune} (hw : s0.w = w) (hst : s0.st = .ground)
    (hrow : s0.row < s0.h) (hp : Plain c.U c.d w vis (RB.new prompt true w)) (hh : h.AllP (Cell c.U)) (hk : ∀ r ∈ keys, TKey c r) {fuel n : Nat} {es o}
    (h1 : calls c fuel n (Op.init prompt true w h keys) = .ok es) (h2 : after c fuel n (Op.init prompt true w h keys) = .ok o)
    (hs : o.stopped = true) :
    ∃ k, s0.Window (scrolled s0 o.rb) (es.dropLast.map (paragraph vis c.interruptPrompt c.eofPrompt)) k ∧
      k + (scrolled s0 o.rb).row = s0.row + heights w (es.dropLast.map (paragraph vis c.interruptPrompt c.eofPrompt)) ∧ (scrolled s0 o.rb).col = 0 := by
  obtain ⟨_, ho⟩ := C69_end_partial (t0 := tall s0) hv hw hst hp hh hk h1 h2 hs
  obtain ⟨k, hl⟩ := (Resting.init (t0 := tall s0) hw hst hp hh hk).left (s0 := s0)
    (F := NoTaller c w vis fuel n (Op.init prompt true w h keys)) hv n ⟨0, left_init hrow⟩ (fun H h => h) h2
  have hr : (screen (tall s0) o.rb).row = s0.row + _ := ho.row
  refine ⟨k, ?_, by rw [← hr, hl.win.at'], by rw [hl.win.col]; exact ho.col⟩
  subst hw
  exact window_of hl.win.toNear hl.h (run_w _ (tall s0)) hrow ho.above ho.cells

/-! ## A session

A screen of 3 rows with an `x` in the corner, the cursor in the middle of row 1. -/

def s10 : Scr := ⟨10, 3, fun y x => if y = 0 ∧ x = 0 then 120 else 32, 1, 5, false, .ground⟩

/-- The height of the line in the course of a call. -/
def lowB (o : Op) : Bool := (2 + o.rb.buf.length) / 10 ≤ 1

theorem low10 : NoTaller c0 10 (str "> ") 30 3 (o10 keys10) 1 := by
  intro m o o1 o2 hm h1 h2 h3
  have key : lowB o2 = true → RowsFit 10 (str "> ") 1 o2.rb := by
    intro h; simpa [lowB, RowsFit, str] using h
  refine key (watch_all 18 (P := lowB) ?_ h3)
  match m, hm with
  | 0, _ => cases h1; cases h2; decide +kernel
  | 1, _ => cases h1; cases h2; decide +kernel
  | 2, _ => cases h1; cases h2; decide +kernel

/-- The `x` and the first row of the first line have left the screen. -/
example : ∃ o, after c0 30 3 (o10 keys10) = .ok o ∧
    ∃ k, s10.Window (scrolled s10 o.rb) [str "> hello world", str "> hello world!^C", str "> "] k ∧ k + (scrolled s10 o.rb).row = 6 ∧
      (scrolled s10 o.rb).col = 0 ∧ k ≤ 5 := by
  obtain ⟨o, ho, hs⟩ : ∃ o, after c0 30 3 (o10 keys10) = .ok o ∧ o.stopped = false := ⟨_, rfl, rfl⟩
  refine ⟨o, ho, ?_⟩
  obtain ⟨k, h1, h2, h3, h4⟩ := C81_transcript_partial (c := c0) (s0 := s10) (w := 10) (vis := str "> ") (keys := keys10) (fuel := 30) (n := 3)
    (es := [.line (str "hello world"), .interrupt (str "hello world!"), .eof]) visible0 rfl rfl (by decide) plain10 (h := Hist.fresh [])
    (fun i => ⟨by simp [Hist.fresh], by simp [Hist.fresh]⟩) tkeys10 (by decide) (by rfl) ho hs
  refine ⟨k, h1, h2, h3, ?_⟩
  rcases h4 1 low10 with h | h
  · omega
  · have : k + 3 ≤ 1 + 5 + 1 + 1 := h
    omega

/-- In the course of the second call: the line ends on the last row of the screen. -/
example : ∃ o o1 o2, after c0 30 1 (o10 keys10) = .ok o ∧ o.refreshNil c0 = .ok o1 ∧ During c0 o1.kickRead o2 ∧
    o2.rb.buf = str "hello world!" ∧ s10.Window (scrolled s10 o2.rb) [str "> hello world", str "> hello world!"] 2 ∧
    (scrolled s10 o2.rb).row = 2 ∧ (scrolled s10 o2.rb).col = 4 := by
  obtain ⟨o, ho, hs⟩ : ∃ o, after c0 30 1 (o10 keys10) = .ok o ∧ o.stopped = false := ⟨_, rfl, rfl⟩
  obtain ⟨o1, h1, o2, h2, hb, hi, hr⟩ : ∃ o1, o.refreshNil c0 = .ok o1 ∧ ∃ o2, During c0 o1.kickRead o2 ∧ o2.rb.buf = str "hello world!" ∧
      o2.rb.idx = 12 ∧ (scrolled s10 o2.rb).row = 2 := by
    cases ho
    exact ⟨_, rfl, _, .key (.key (.here _) rfl rfl) rfl rfl, rfl, rfl, by decide +kernel⟩
  refine ⟨o, o1, o2, ho, h1, h2, hb, ?_⟩
  obtain ⟨k, q1, _, q3, q4, _⟩ := C81_line_partial (c := c0) (s0 := s10) (w := 10) (vis := str "> ") (keys := keys10) (fuel := 30) (n := 1)
    (es := [.line (str "hello world")]) visible0 rfl rfl (by decide) plain10 (h := Hist.fresh []) (fun i => ⟨by simp [Hist.fresh], by simp [Hist.fresh]⟩)
    tkeys10 (by rfl) ho hs h1 h2
  have q4 := q4 (by unfold Plain.Corner; rw [hb]; simp [str])
  rw [hi] at q3 q4
  rw [hr] at q3
  have q3 : 2 = 1 + 2 + 1 - k := q3
  have hk : k = 2 := by omega
  subst hk
  rw [hb] at q1
  exact ⟨q1, hr, q4⟩

/-- The input ends after a line. -/
example : ∃ o, after c0 30 2 (o10 (str "ab" ++ [CharEnter])) = .ok o ∧ ∃ k, s10.Window (scrolled s10 o.rb) [str "> ab"] k := by
  obtain ⟨o, ho, hs⟩ : ∃ o, after c0 30 2 (o10 (str "ab" ++ [CharEnter])) = .ok o ∧ o.stopped = true := ⟨_, rfl, rfl⟩
  refine ⟨o, ho, ?_⟩
  have hk : ∀ r ∈ str "ab" ++ [CharEnter], TKey c0 r := by
    intro r hr
    by_cases h : 32 ≤ r ∧ r < 127
    · exact .inl (cell0 h)
    · refine .inr (.inl ?_)
      revert h; revert r; decide
  obtain ⟨k, h1, _⟩ := C81_end_partial (c := c0) (s0 := s10) (w := 10) (vis := str "> ") (fuel := 30) (n := 2)
    (es := [.line (str "ab"), .eof]) visible0 rfl rfl (by decide) plain10 (h := Hist.fresh []) (fun i => ⟨by simp [Hist.fresh], by simp [Hist.fresh]⟩)
    hk (by rfl) ho hs
  exact ⟨k, h1⟩

/-! ## A line that is taller than the screen -/

/-- A window of 2 rows of 4 columns. -/
def s4 : Scr := .blank 4 2

def oTall : Op := Op.init (str "> ") true 4 (Hist.fresh []) (str "abcdefgh" ++ [CharLineStart])

/-- **C81 is false of a line taller than the screen**: with the cursor on `a` at the start of the line the screen shows the end of the line,
and the terminal's cursor is on the `e`. -/
theorem C81_false_tall : ∃ o1 o2, oTall.refreshNil c0 = .ok o1 ∧ During c0 o1.kickRead o2 ∧ o2.rb.buf = str "abcdefgh" ∧ o2.rb.idx = 0 ∧
    (let s := scrolled s4 o2.rb
     s.row = 0 ∧ s.col = 2 ∧ s.cell s.row s.col = 101 ∧ (List.range 4).map (s.cell 0) = str "cdef" ∧ (List.range 4).map (s.cell 1) = str "gh  ") := by
  have h : ∃ o1, oTall.refreshNil c0 = .ok o1 ∧ ∃ o2, During c0 o1.kickRead o2 ∧ o2.rb.buf = str "abcdefgh" ∧ o2.rb.idx = 0 ∧
      (let s := scrolled s4 o2.rb
       s.row = 0 ∧ s.col = 2 ∧ s.cell s.row s.col = 101 ∧ (List.range 4).map (s.cell 0) = str "cdef" ∧ (List.range 4).map (s.cell 1) = str "gh  ") :=
    ⟨_, rfl, _, .key (.key (.key (.key (.key (.key (.key (.key (.key (.here _) rfl rfl) rfl rfl) rfl rfl) rfl rfl) rfl rfl) rfl rfl) rfl rfl) rfl rfl) rfl rfl,
      rfl, rfl, by decide +kernel⟩
  obtain ⟨o1, h1, o2, h2⟩ := h
  exact ⟨o1, o2, h1, h2⟩

end RL
