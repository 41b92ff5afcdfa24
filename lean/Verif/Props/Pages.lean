import Verif.Props.MixedScreen
import Verif.Spec.Pages
/-!
# C101: Ctrl-L in the course of a session

Sessions with the keys of C95 and Ctrl-L: what is on the screen is what has come since the last Ctrl-L, from the top row on.
-/

namespace RL
open Spec RB Ed Op

variable {w : Nat} {vis : List Rune} {t0 base : Spec.Term} {y : Nat} {c : OCfg} {f : Completer} {K : Rune → Prop}

/-- The keys of C101: those of C95, and Ctrl-L. -/
def LKey (c : OCfg) (f : Completer) (r : Rune) : Prop := MKey c f r ∨ r = CharCtrlL

theorem Spec.DuringL.during {o o' : Op} {b : Bool} (h : DuringL c o o' b) : During c o o' := by
  induction h with
  | here => exact .here _
  | key _ h1 h2 ih => exact .key ih h1 h2

theorem MKey.not_ctrlL : ¬ MKey c f CharCtrlL := by
  rintro (((h | h | ⟨h, _⟩) | ⟨h, _⟩ | h) | h | h | ⟨h, _⟩)
  · exact absurd h.1.1 (by decide)
  all_goals (revert h; decide)

/-- The condition of C95 (`MixFits`), with Ctrl-L among the keys that may come while searching and while a list is open. -/
structure PageFits (c : OCfg) (f : Completer) (w : Nat) (vis : List Rune) (o : Op) : Prop where
  search : o.search.inMode = true → SearchFits w vis o.search o.rb ∧ ∀ r rest, o.inp = r :: rest → SKey c r ∨ r = CharCtrlL
  list : o.comp.inComplete = true → MenuFits f w vis o ∧ ∀ r rest, o.inp = r :: rest → CKey c r ∨ r = CharCtrlL
  plain : o.search.inMode = false → o.comp.inComplete = false → VimSafe c o

theorem PageFits.room {o : Op} (h : PageFits c f w vis o) : RoomNow f w vis o := ⟨fun e => (h.search e).1, fun e => (h.list e).1.here⟩

theorem MixFits.page {o : Op} (h : MixFits c f w vis o) : PageFits c f w vis o :=
  ⟨fun e => ⟨(h.search e).1, fun r rest e' => .inl ((h.search e).2 r rest e')⟩,
   fun e => ⟨(h.list e).1, fun r rest e' => .inl ((h.list e).2 r rest e')⟩, h.plain⟩

/-- At any moment of the first `n` calls: `PageFits`. -/
def PageFitsFor (c : OCfg) (f : Completer) (w : Nat) (vis : List Rune) (fuel n : Nat) (o0 : Op) : Prop :=
  ∀ m o o1 o2, m < n → after c fuel m o0 = .ok o → o.refreshNil c = .ok o1 → During c o1.kickRead o2 → PageFits c f w vis o2

theorem LineUp.cleared {U : UTables} {d : DCfg} {r r' : RB} (h : LineUp U d w vis t0 base y r) (hr : (r.write [.home]).refreshNil U d = .ok r') (base' : Spec.Term) :
    OnScreen U d w vis t0 base' 0 r' :=
  RB.cleared h.plain h.runes h.good h.inter h.hc h.sw h.st hr base'

namespace Op

/-- Ctrl-L in the key switch. -/
theorem key_clear {o : Op} (up : LineUp c.U c.d w vis t0 base y o.rb) (hg : o.gate = false) {k : KeyRes} (h : o.key c CharCtrlL = .ok k) (base' : Spec.Term) :
    ∃ r, k = { op := { o with rb := r } } ∧ OnScreen c.U c.d w vis t0 base' 0 r ∧ r.toEd = o.rb.toEd := by
  have h1 : (do let o ← Op.refresh c { o with rb := o.rb.write [.home] }; .ok { op := o } : R Op.KeyRes) = .ok k := h
  obtain ⟨o1, h2, h1⟩ := R.bind_inv h1
  cases h1
  unfold Op.refresh isReading at h2
  rw [if_pos (by show (!o.gate) = true; rw [hg]; rfl)] at h2
  obtain ⟨r2, h5, h6⟩ := R.bind_inv h2
  cases h6
  exact ⟨r2, rfl, up.cleared h5 base', (Except.ok.inj (refresh_ok h5).1).symm⟩

/-- Ctrl-L: a search or a list ends, and the line, unchanged, stands at the top. -/
theorem iter_clear (hv : Visible c) (hf : c.auto = some f → Helpful c.U f) {o : Op} (hs : VisibleM c f w vis t0 base y o)
    (hc : CalmM c w K o) (hn : o.vimNormal = false) {rest : List Rune} (hi : o.inp = CharCtrlL :: rest) {o' : Op} (h : o.iter c = .ok o') (base' : Spec.Term) :
    CalmM c w K o' ∧ o'.search.inMode = false ∧ o'.comp.Shut ∧ OnScreen c.U c.d w vis t0 base' 0 o'.rb ∧ o'.events = o.events ∧
    o'.rb.buf = o.rb.buf ∧ o'.rb.idx = o.rb.idx := by
  have hsh := iter_shaped hc.shape h
  have hkeys : ∀ x ∈ rest, K x := fun x hx => hc.keys x (by rw [hi]; exact List.mem_cons_of_mem _ hx)
  have hl : o.Live := by
    by_cases hl : o.Live
    · exact hl
    · unfold iter readRune at h
      rw [if_pos (by
        unfold Live at hl
        simp only [not_or] at hl
        exact ⟨by simpa using hl.1, by simpa using hl.2⟩)] at h
      cases h
  rcases hs with ⟨hm, hs, on⟩ | ⟨_, hs, hm, hk⟩ | ⟨ha, _, hm, hk⟩
  · obtain ⟨g1, g2, g3, g4, g5⟩ := C69_clear (K := K) hv.filter hv.observer on ⟨hc.hist, hm, hs.cmode, hs.nosel, hn, hc.keys, hc.run⟩ hi h base'
    exact ⟨⟨g2.hist, hsh, fun e => (by rw [g2.vim] at e; cases e), g2.keys, g2.run⟩, g2.smode, ⟨g2.cmode, g2.nosel⟩, g1, g3, g4, g5⟩
  · rw [iter_emacs hl hv.filter hi (by decide) hs.nosel (.inr ⟨hn, by decide⟩)] at h
    obtain ⟨k, h1, h⟩ := R.bind_inv h
    rw [listen_observer hv.observer, R.bind_ok] at h
    obtain ⟨r, rfl, g1, g2⟩ := key_clear (o := o.took CharCtrlL rest) hk.shown.up rfl h1 base'
    have hmid : MidS c w vis t0 base' 0 K (fun _ _ => False) o { op := { o.took CharCtrlL rest with rb := r } } :=
      ⟨⟨hc.hist, hs.cmode, hs.nosel, hn, hkeys, hc.run⟩, .inr (.inl ⟨rfl, hm, hc.shape.2.1, rfl, g1.up⟩)⟩
    have fin := finish_ok h
    have hoff : o'.search.inMode = false := by
      obtain ⟨o1, f1, f2⟩ := R.bind_inv h
      unfold settle at f1
      rw [if_pos ⟨rfl, hm⟩, exitSearch_keep, R.bind_ok] at f1
      obtain ⟨r', _, f1⟩ := R.bind_inv f1
      cases f1
      split at f2 <;> cases f2 <;> rfl
    obtain ⟨q1, ⟨⟨q2, q4⟩ | ⟨q2, _⟩, q3⟩ | ⟨_, _, _, q2⟩⟩ := finish_seek (fun _ _ h => h.elim) hmid h (fun _ e => by rw [hoff] at e; cases e)
    · exact ⟨⟨q1.hist, hsh, fun e => (by rw [q1.vim] at e; cases e), q1.keys, q1.run⟩, hoff, ⟨q1.cmode, q1.nosel⟩, q4, q3,
        by rw [fin.line]; show r.buf = _; rw [g2]; rfl, by rw [fin.line]; show r.idx = _; rw [g2]; rfl⟩
    · rw [hoff] at q2; cases q2
    · exact q2.elim
  · -- with a list open
    have menu : ∀ {cm : Comp} {r0 : RB}, cm.inComplete = true → cm.width = (w : Int) → LineUp c.U c.d w vis t0 base y r0 → r0.toEd = o.rb.toEd →
        Op.dispatch c CharCtrlL { o.took CharCtrlL rest with comp := cm, rb := r0 } = .ok o' →
        CalmM c w K o' ∧ o'.search.inMode = false ∧ o'.comp.Shut ∧ OnScreen c.U c.d w vis t0 base' 0 o'.rb ∧ o'.events = o.events ∧
          o'.rb.buf = o.rb.buf ∧ o'.rb.idx = o.rb.idx := by
      intro cm r0 hcm hw up e0 h
      obtain ⟨k, h1, h⟩ := R.bind_inv h
      rw [listen_observer hv.observer, R.bind_ok] at h
      obtain ⟨r, rfl, g1, g2⟩ := key_clear (o := { o.took CharCtrlL rest with comp := cm, rb := r0 }) up rfl h1 base'
      have hmid : MidC c f w vis t0 base' 0 K o { op := { o.took CharCtrlL rest with comp := cm, rb := r } } :=
        ⟨⟨hc.hist, hm, hw, hn, hkeys, hc.run⟩, .inl ⟨rfl, .inr (.inr (.inr ⟨hcm, rfl, g1⟩))⟩⟩
      have fin := finish_ok h
      have hoff : o'.comp.inComplete = false := by
        obtain ⟨o1, f1, f2⟩ := R.bind_inv h
        unfold settle at f1
        rw [if_neg (fun e => by have e2 : o.search.inMode = true := e.2; rw [hm] at e2; cases e2), if_pos hcm, if_pos rfl] at f1
        unfold Op.refresh at f1
        split at f1
        · obtain ⟨r', _, f1⟩ := R.bind_inv f1
          cases f1
          split at f2 <;> cases f2 <;> rfl
        · cases f1
          split at f2 <;> cases f2 <;> rfl
      obtain ⟨q1, ⟨⟨q2, q4⟩ | q2, q3⟩ | ⟨_, e, q2, _⟩⟩ := finish_list (hf ha) hmid h (fun _ e => by rw [hoff] at e; cases e)
      · exact ⟨⟨q1.hist, hsh, fun e => (by rw [q1.vim] at e; cases e), q1.keys, q1.run⟩, q1.smode, q2, q4, q3,
          by rw [fin.line]; show r.buf = _; rw [g2]; show r0.buf = _; rw [e0], by rw [fin.line]; show r.idx = _; rw [g2]; show r0.idx = _; rw [e0]⟩
      · have := q2.answer.inComplete
        rw [hoff] at this; cases this
      · obtain ⟨o1, f1, f2⟩ := R.bind_inv h
        exfalso
        unfold settle at f1
        rw [if_neg (fun e => by have e2 : o.search.inMode = true := e.2; rw [hm] at e2; cases e2), if_pos hcm, if_pos rfl] at f1
        have : o'.events = o.events := by
          unfold Op.refresh at f1
          split at f1
          · obtain ⟨r', _, f1⟩ := R.bind_inv f1
            cases f1
            split at f2 <;> cases f2 <;> rfl
          · cases f1
            split at f2 <;> cases f2 <;> rfl
        rw [this] at q2
        simpa using congrArg List.length q2
    cases hsel : o.comp.inSelect with
    | false =>
      rw [iter_emacs hl hv.filter hi (by decide) hsel (.inr ⟨hn, by decide⟩)] at h
      exact menu (cm := o.comp) (r0 := o.rb) hk.answer.inComplete hk.answer.width hk.up rfl h
    | true =>
      unfold iter at h
      rw [readRune_live hl hi, R.bind_ok] at h
      unfold accept at h
      rw [hv.filter] at h
      dsimp only at h
      unfold handle at h
      rw [if_neg (by decide)] at h
      unfold viaMenu at h
      rw [if_pos (show (o.took CharCtrlL rest).comp.inSelect = true from hsel)] at h
      obtain ⟨⟨keep, cm, rb⟩, h2, h⟩ := R.bind_inv h
      unfold Comp.handleSelect at h2
      have e : (o.took CharCtrlL rest).comp.selectKey c.U c.d CharCtrlL (o.took CharCtrlL rest).rb = .ok (false, o.comp.exitSelect, o.rb) := rfl
      rw [e, R.bind_ok] at h2
      dsimp only at h2
      rw [if_neg (by simp)] at h2
      cases h2
      dsimp only at h
      rw [if_neg (by simp)] at h
      obtain ⟨o1, h4, h⟩ := R.bind_inv h
      obtain ⟨r2, h5, h6⟩ := R.bind_inv h4
      cases h6
      rw [if_neg (by decide), if_neg (by decide), if_neg (by decide),
        viaVim_emacs (o := { o.took CharCtrlL rest with comp := o.comp.exitSelect, rb := r2 }) hn (by decide) (by decide)] at h
      exact menu (cm := o.comp.exitSelect) (r0 := r2) hk.answer.inComplete hk.answer.width (hk.up.again h5).up
        (Except.ok.inj (refresh_ok h5).1).symm h

/-- One iteration. -/
theorem iter_page (hv : Visible c) (hf : c.auto = some f → Helpful c.U f) {o : Op} (hs : VisibleM c f w vis t0 base y o)
    (hc : CalmM c w (LKey c f) o) (hfit : PageFits c f w vis o) {o' : Op} (h : o.iter c = .ok o')
    (hnext : o'.events = o.events → RoomNow f w vis o') :
    (clears o = false ∧ (NextM c f w vis t0 base y (LKey c f) o o' ∨ Ended w t0 base y o.events o')) ∨
    (clears o = true ∧ CalmM c w (LKey c f) o' ∧ VisibleM c f w vis t0 t0.top 0 o' ∧ o'.events = o.events) := by
  by_cases hcl : clears o = true
  · right
    refine ⟨hcl, ?_⟩
    simp only [clears, Bool.and_eq_true, beq_iff_eq, Bool.not_eq_true'] at hcl
    obtain ⟨h1, h2⟩ := hcl
    cases hi : o.inp with
    | nil => rw [hi] at h1; cases h1
    | cons r rest =>
      rw [hi] at h1
      cases h1
      obtain ⟨g1, g2, g3, g4, g5, _⟩ := iter_clear hv hf hs hc h2 hi h t0.top
      exact ⟨g1, .inl ⟨g2, g3, g4⟩, g5⟩
  · left
    refine ⟨by simpa using hcl, ?_⟩
    -- Ctrl-L is in vim's normal mode
    have hn : ∀ rest, o.inp = CharCtrlL :: rest → o.vimNormal = true := by
      intro rest hi
      simp only [clears, hi, List.head?_cons] at hcl
      cases hn : o.vimNormal with
      | true => rfl
      | false => rw [hn] at hcl; exact absurd rfl hcl
    by_cases hk : ∀ r rest, o.inp = r :: rest → MKey c f r
    · by_cases hL : ∃ rest, o.inp = CharCtrlL :: rest
      · obtain ⟨rest, hi⟩ := hL
        exact absurd (hk _ _ hi) MKey.not_ctrlL
      · have hfit' : MixFits c f w vis o := ⟨fun e => ⟨(hfit.search e).1, fun r rest hi => ((hfit.search e).2 r rest hi).resolve_right (fun e' => hL ⟨rest, e' ▸ hi⟩)⟩,
          fun e => ⟨(hfit.list e).1, fun r rest hi => ((hfit.list e).2 r rest hi).resolve_right (fun e' => hL ⟨rest, e' ▸ hi⟩)⟩, hfit.plain⟩
        exact iter_mixK hv hf hs hc hk hfit' h hnext
    · cases hi : o.inp with
      | nil => exact absurd (fun r rest e => by rw [hi] at e; cases e) hk
      | cons r rest =>
        rcases hc.keys r (by rw [hi]; simp) with hr | rfl
        · exact absurd (fun r' rest' e => by rw [hi] at e; cases e; exact hr) hk
        · have hn := hn rest hi
          rcases hs with ⟨hm, hs, on⟩ | ⟨hn', _⟩ | ⟨_, hn', _⟩
          · rcases iter_modes hv on (K := LKey c f) ⟨hc.hist, hm, hs.cmode, hs.nosel, hc.vim, hc.keys, hc.run⟩
              (fun r rest e => ⟨by rw [hi] at e; cases e; decide, fun e' => by rw [hn] at e'; cases e'⟩) (hfit.plain hm hs.cmode) h with g | g
            · exact .inl (g.mixed (iter_shaped hc.shape h))
            · exact .inr g
          · rw [hn] at hn'; cases hn'
          · rw [hn] at hn'; cases hn'

/-- A call of `Readline`, from the prompt on. -/
theorem await_page (hv : Visible c) (hf : c.auto = some f → Helpful c.U f) {o0 : Op} (hfit : ∀ o', During c o0 o' → PageFits c f w vis o') :
    ∀ (n : Nat) {base : Spec.Term} {y : Nat} {o : Op}, During c o0 o → VisibleM c f w vis t0 base y o → CalmM c w (LKey c f) o → o.events = [] → ∀ {e o'},
    await c n o = .ok (e, o') → o'.events = [] ∧ ∃ B Y, (B, Y) = (if clearsIn c n o then (t0.top, 0) else (base, y)) ∧
    ((CalmM c w (LKey c f) o' ∧ o'.search.inMode = false ∧ o'.comp.Shut ∧ Stands c w vis t0 B Y e o'.rb) ∨
     (e = .eof ∧ Ended w t0 B Y [] { o' with events := [e] })) := by
  intro n
  induction n with
  | zero =>
    intro base y o hd on hc he e o' h
    unfold await at h
    rw [he] at h
    cases h
  | succ n ih =>
    intro base y o hd on hc he e o' h
    rw [await, he] at h
    dsimp only at h
    rw [if_neg (by simp [hc.run])] at h
    obtain ⟨o1, h1, h⟩ := R.bind_inv h
    have hin : clearsIn c (n + 1) o = (clears o || clearsIn c n o1) := by
      rw [clearsIn, he, h1]
    have h : await c n o1 = .ok (e, o') := h
    rcases iter_page hv hf on hc (hfit o hd) h1 (fun a => (hfit o1 (.key hd h1 (a.trans he))).room) with
      ⟨hcl, ⟨hc1, ⟨on1, he1⟩ | ⟨hm1, hi1, e1, he1, hq1⟩⟩ | hend⟩ | ⟨hcl, hc1, on1, he1⟩
    · rw [hin, hcl, Bool.false_or]
      exact ih (.key hd h1 (he1.trans he)) on1 hc1 (he1.trans he) h
    · rw [he, List.nil_append] at he1
      have hz : clearsIn c n o1 = false := by
        cases n with
        | zero => rfl
        | succ n => rw [clearsIn, he1]
      unfold await at h
      rw [he1] at h
      cases h
      rw [hin, hcl, hz]
      exact ⟨rfl, _, _, rfl, .inl ⟨⟨hc1.hist, hc1.shape, hc1.vim, hc1.keys, hc1.run⟩, hm1, hi1, hq1⟩⟩
    · have he1 := hend.events
      rw [he, List.nil_append] at he1
      have hz : clearsIn c n o1 = false := by
        cases n with
        | zero => rfl
        | succ n => rw [clearsIn, he1]
      unfold await at h
      rw [he1] at h
      cases h
      rw [hin, hcl, hz]
      exact ⟨rfl, _, _, rfl, .inr ⟨rfl, hend.stopped, rfl, hend.row, hend.col, hend.above, hend.cells⟩⟩
    · obtain ⟨g1, B, Y, g2, g3⟩ := ih (.key hd h1 (he1.trans he)) on1 hc1 (he1.trans he) h
      rw [hin, hcl, Bool.true_or, if_pos rfl]
      rw [ite_self] at g2
      exact ⟨g1, B, Y, g2, g3⟩

end Op

/-! ### Sessions -/

/-- Between two calls. -/
structure RestingP (c : OCfg) (f : Completer) (w : Nat) (vis : List Rune) (t0 : Spec.Term) (p : Page) (o : Op) : Prop where
  calm : CalmM c w (LKey c f) o
  smode : o.search.inMode = false
  shut : o.comp.Shut
  between : Between c.U c.d w vis t0 ((p.origin t0).row + heights w p.ps) o.rb
  printed : Printed w (p.origin t0) (screen t0 o.rb) p.ps
  events : o.events = []

/-- A page just cleared, for any screen. -/
theorem Printed.wiped (w : Nat) (t0 : Spec.Term) : Printed w t0.top t0.top [] :=
  ⟨rfl, fun _ _ _ => rfl, fun a ha => by simp [heights] at ha, fun h => absurd rfl h⟩

/-- What a screen showing paragraphs has to be below them for the next one. -/
theorem RestingP.below {o : Op} {p : Page} (h : RestingP c f w vis t0 p o) {b : Bool} {B : Spec.Term} {Y : Nat}
    (hb : (B, Y) = if b then (t0.top, 0) else (screen t0 o.rb, (p.origin t0).row + heights w p.ps)) :
    Y = ((p.wipe b).origin t0).row + heights w (p.wipe b).ps ∧
    ∃ B', Printed w ((p.wipe b).origin t0) B' (p.wipe b).ps ∧ ∀ a, a < Y → ∀ x, B.cell a x = B'.cell a x := by
  cases b with
  | true =>
    cases hb
    exact ⟨rfl, _, Printed.wiped w t0, fun a ha => absurd ha (Nat.not_lt_zero a)⟩
  | false =>
    cases hb
    exact ⟨rfl, _, h.printed, fun _ _ _ => rfl⟩

theorem RestingP.readline (hv : Visible c) (hf : c.auto = some f → Helpful c.U f) {o : Op} {p : Page} (h : RestingP c f w vis t0 p o) {fuel : Nat} {e o'}
    (hr : o.readline c fuel = .ok (e, o')) {o1 : Op} (h1 : o.refreshNil c = .ok o1)
    (hfit : ∀ o2, During c o1.kickRead o2 → PageFits c f w vis o2) :
    RestingP c f w vis t0 (p.turn (clearsIn c fuel o1.kickRead, paragraph vis c.interruptPrompt c.eofPrompt e)) o' ∨
    (e = .eof ∧ o'.stopped = true ∧ o'.events = [] ∧
      Over w ((p.wipe (clearsIn c fuel o1.kickRead)).origin t0) (screen t0 o'.rb) (p.wipe (clearsIn c fuel o1.kickRead)).ps) := by
  unfold Op.readline at hr
  rw [h1, R.bind_ok] at hr
  obtain ⟨r1, h2, h3⟩ := R.bind_inv h1
  cases h3
  have on := h.between.prompted h2
  have hw : 0 < w := by have := on.plain.pw; omega
  have hc : CalmM c w (LKey c f) (Op.kickRead { o with rb := r1 }) :=
    ⟨h.calm.hist, h.calm.shape, h.calm.vim, h.calm.keys, h.calm.run⟩
  obtain ⟨he, B, Y, hBY, hres⟩ := Op.await_page hv hf hfit fuel (o := Op.kickRead { o with rb := r1 }) (.here _) (.inl ⟨h.smode, h.shut, on⟩) hc h.events hr
  generalize clearsIn c fuel (Op.kickRead { o with rb := r1 }) = b at hBY ⊢
  obtain ⟨hY, B', hB', hbase⟩ := h.below hBY
  subst hY
  rcases hres with ⟨hc', hm, hi, hbt, hab⟩ | ⟨rfl, hend⟩
  · left
    have hab' : Added w B' (screen t0 o'.rb) (((p.wipe b).origin t0).row + heights w (p.wipe b).ps) (paragraph vis c.interruptPrompt c.eofPrompt e) :=
      ⟨hab.row, hab.col, fun a ha x => (hab.above a ha x).trans (hbase a ha x), hab.cells⟩
    refine ⟨hc', hm, hi, ?_, hB'.add hw hab', he⟩
    show Between c.U c.d w vis t0 (((p.wipe b).origin t0).row + heights w ((p.wipe b).ps ++ [_])) o'.rb
    rw [heights_append]
    simp only [heights]
    rw [Nat.add_zero, ← Nat.add_assoc]
    exact hbt
  · right
    refine ⟨rfl, hend.stopped, he, hend.row, hend.col, fun a ha x => (hend.above a (by omega) x).trans ((hbase a (by omega) x).trans (hB'.above a ha x)), fun a x hx => ?_⟩
    by_cases ha : a < heights w (p.wipe b).ps
    · exact (hend.above _ (by omega) x).trans ((hbase _ (by omega) x).trans (hB'.cells a ha x hx))
    · obtain ⟨k, rfl⟩ := Nat.exists_eq_add_of_le (Nat.le_of_not_lt ha)
      have := paper_append_high (w := w) (p.wipe b).ps [] k x
      rw [List.append_nil] at this
      rw [this, ← Nat.add_assoc]
      exact hend.cells k x hx

/-- The page after several calls. -/
def Spec.Page.after (p : Page) (c : OCfg) (vis : List Rune) (bs : List Bool) (es : List Event) : Page :=
  (bs.zip (es.map (paragraph vis c.interruptPrompt c.eofPrompt))).foldl Page.turn p

theorem RestingP.calls (hv : Visible c) (hf : c.auto = some f → Helpful c.U f) {fuel : Nat} : ∀ (n : Nat) {o : Op} {p : Page}, RestingP c f w vis t0 p o → PageFitsFor c f w vis fuel n o → ∀ {es bs o'},
    calls c fuel n o = .ok es → clearings c fuel n o = .ok bs → after c fuel n o = .ok o' →
    RestingP c f w vis t0 (p.after c vis bs es) o' ∨
    (o'.stopped = true ∧ es.getLast? = some .eof ∧ ∃ b, bs.getLast? = some b ∧
      Over w (((p.after c vis bs es.dropLast).wipe b).origin t0) (screen t0 o'.rb) ((p.after c vis bs es.dropLast).wipe b).ps) := by
  intro n
  induction n with
  | zero =>
    intro o p h _ es bs o' h1 hb h2
    cases h1; cases h2; cases hb
    exact .inl h
  | succ n ih =>
    intro o p h hroom es bs o' h1 hb h2
    rw [RL.calls] at h1
    rw [RL.after] at h2
    rw [clearings] at hb
    obtain ⟨⟨e, o1⟩, g1, h1⟩ := R.bind_inv h1
    obtain ⟨es1, g2, h1⟩ := R.bind_inv h1
    cases h1
    rw [g1, R.bind_ok] at h2
    obtain ⟨oa, ga, hb⟩ := R.bind_inv hb
    rw [g1, R.bind_ok] at hb
    obtain ⟨bs1, gb, hb⟩ := R.bind_inv hb
    cases hb
    have hroom1 : PageFitsFor c f w vis fuel n o1 := fun m a b d hm ha => hroom (m + 1) a b d (by omega) (by rw [RL.after, g1, R.bind_ok]; exact ha)
    rcases h.readline hv hf g1 ga (fun o2 => hroom 0 o oa o2 (by omega) rfl ga) with hr | ⟨rfl, hs, he, ho⟩
    · rcases ih hr hroom1 g2 gb h2 with hi | ⟨i1, i2, b, i3, i4⟩
      · exact .inl hi
      · right
        cases es1 with
        | nil => simp at i2
        | cons e1 es1 =>
          cases bs1 with
          | nil => simp at i3
          | cons b1 bs1 => exact ⟨i1, by simpa using i2, b, by simpa using i3, i4⟩
    · cases n with
      | zero =>
        cases g2; cases h2; cases gb
        right
        exact ⟨hs, rfl, _, rfl, ho⟩
      | succ n =>
        exfalso
        rw [RL.calls] at g2
        obtain ⟨⟨e2, o2⟩, g3, _⟩ := R.bind_inv g2
        unfold Op.readline at g3
        obtain ⟨o3, g4, g3⟩ := R.bind_inv g3
        obtain ⟨r3, _, g5⟩ := R.bind_inv g4
        cases g5
        unfold Op.await at g3
        rw [show (Op.kickRead { o1 with rb := r3 }).events = [] from he] at g3
        dsimp only at g3
        split at g3
        · cases g3
        · rw [if_pos (by exact hs)] at g3; cases g3

/-- A new instance. -/
theorem RestingP.init {prompt : List Rune} {h : Hist} {keys : List Rune} (hw : t0.w = w) (hst : t0.st = .ground)
    (hp : Plain c.U c.d w vis (RB.new prompt true w)) (hh : h.AllP (Cell c.U)) (hk : ∀ r ∈ keys, LKey c f r) :
    RestingP c f w vis t0 ⟨false, []⟩ (Op.init prompt true w h keys) :=
  ⟨⟨hh, ⟨rfl, rfl, fun _ => ⟨rfl, rfl⟩⟩, fun e => (by cases e), hk, rfl⟩, rfl, ⟨rfl, rfl⟩,
   ⟨hp, ⟨by simp [Op.init, RB.new], by simp [Op.init, RB.new], by simp [Op.init, RB.new]⟩,
    ⟨by simp [Op.init, RB.new, Ed.CursorIn], by simp [Op.init, RB.new]⟩, rfl, rfl, rfl, hw, hst, rfl⟩,
   ⟨rfl, fun _ _ _ => rfl, fun _ ha => by simp [heights] at ha, fun h => (h rfl).elim⟩, rfl⟩

/-! ### The theorems -/

/-- The page after the calls of a new session. -/
def pageOf (c : OCfg) (vis : List Rune) (bs : List Bool) (es : List Event) : Page := Page.after ⟨false, []⟩ c vis bs es

theorem Spec.Page.turn_ne (p : Page) (x) : (p.turn x).ps ≠ [] := by unfold Page.turn; simp

theorem Spec.Page.foldl_ne : ∀ (xs : List (Bool × List Rune)) (p : Page), p.ps ≠ [] ∨ xs ≠ [] → (xs.foldl Page.turn p).ps ≠ [] := by
  intro xs
  induction xs with
  | nil => intro p h; exact h.resolve_right (fun h => h rfl)
  | cons x xs ih => intro p _; exact ih _ (.inl (p.turn_ne x))

/-- **C101** (one Ctrl-L).  Ctrl-L ends a search or closes a list; the line and the cursor stay, the line stands at the top of the screen and is all
there is on it, and the session goes on from there (`OnScreen` is what the theorems on further keys start from). -/
theorem C101_clear (hv : Visible c) (hf : c.auto = some f → Helpful c.U f) {o : Op} (hs : VisibleM c f w vis t0 base y o)
    (hc : CalmM c w K o) (hn : o.vimNormal = false) {rest : List Rune} (hi : o.inp = CharCtrlL :: rest) {o' : Op} (h : o.iter c = .ok o') (base' : Spec.Term) :
    CalmM c w K o' ∧ o'.search.inMode = false ∧ o'.comp.Shut ∧ OnScreen c.U c.d w vis t0 base' 0 o'.rb ∧ o'.events = o.events ∧
    o'.rb.buf = o.rb.buf ∧ o'.rb.idx = o.rb.idx := Op.iter_clear hv hf hs hc hn hi h base'

/-- **C101, the part that holds** (between two calls).  Sessions with the keys of C95 and Ctrl-L: after `n > 0` calls the screen shows one paragraph
per result since the last call in which Ctrl-L was pressed, from the top row on, and nothing else; if it was never pressed, from the row on in which
the session began, with what stood above untouched. -/
theorem C101_transcript_partial (hv : Visible c) (hf : c.auto = some f → Helpful c.U f) {prompt : List Rune} {h : Hist} {keys : List Rune} (hw : t0.w = w) (hst : t0.st = .ground)
    (hp : Plain c.U c.d w vis (RB.new prompt true w)) (hh : h.AllP (Cell c.U)) (hk : ∀ r ∈ keys, LKey c f r) {fuel n : Nat} {es bs o}
    (hroom : PageFitsFor c f w vis fuel n (Op.init prompt true w h keys))
    (hn : 0 < n) (h1 : calls c fuel n (Op.init prompt true w h keys) = .ok es) (hb : clearings c fuel n (Op.init prompt true w h keys) = .ok bs)
    (h2 : after c fuel n (Op.init prompt true w h keys) = .ok o)
    (hs : o.stopped = false) : Over w ((pageOf c vis bs es).origin t0) (screen t0 o.rb) (pageOf c vis bs es).ps := by
  rcases (RestingP.init hw hst hp hh hk).calls hv hf n hroom h1 hb h2 with hr | ⟨h3, _⟩
  · have he : (pageOf c vis bs es).ps ≠ [] := by
      refine Page.foldl_ne _ _ (.inr ?_)
      cases n with
      | zero => omega
      | succ n =>
        rw [calls] at h1
        rw [clearings] at hb
        obtain ⟨_, g1, h1⟩ := R.bind_inv h1
        obtain ⟨_, _, h1⟩ := R.bind_inv h1
        cases h1
        obtain ⟨_, _, hb⟩ := R.bind_inv hb
        rw [g1, R.bind_ok] at hb
        obtain ⟨_, _, hb⟩ := R.bind_inv hb
        cases hb
        simp
    exact ⟨hr.printed.row, (hr.printed.rest he).1, hr.printed.above, hr.printed.all he⟩
  · rw [hs] at h3; cases h3

/-- **C101, the part that holds** (the end of the input).  When the input ends on an empty line, the prompt of the last call is erased. -/
theorem C101_end_partial (hv : Visible c) (hf : c.auto = some f → Helpful c.U f) {prompt : List Rune} {h : Hist} {keys : List Rune} (hw : t0.w = w) (hst : t0.st = .ground)
    (hp : Plain c.U c.d w vis (RB.new prompt true w)) (hh : h.AllP (Cell c.U)) (hk : ∀ r ∈ keys, LKey c f r) {fuel n : Nat} {es bs o}
    (hroom : PageFitsFor c f w vis fuel n (Op.init prompt true w h keys))
    (h1 : calls c fuel n (Op.init prompt true w h keys) = .ok es) (hb : clearings c fuel n (Op.init prompt true w h keys) = .ok bs)
    (h2 : after c fuel n (Op.init prompt true w h keys) = .ok o)
    (hs : o.stopped = true) : es.getLast? = some .eof ∧ ∃ b, bs.getLast? = some b ∧
      Over w (((pageOf c vis bs es.dropLast).wipe b).origin t0) (screen t0 o.rb) ((pageOf c vis bs es.dropLast).wipe b).ps := by
  rcases (RestingP.init hw hst hp hh hk).calls hv hf n hroom h1 hb h2 with hr | ⟨_, h4, h5⟩
  · rw [hr.calm.run] at hs; cases hs
  · exact ⟨h4, h5⟩

/-- **C101, the part that holds** (in the course of a call).  At any moment of a call the screen shows the paragraphs since the last Ctrl-L, below them
the prompt and the line as it is at the moment with the banner of the search or the list of candidates, and nothing else; the cursor as in C95. -/
theorem C101_line_partial (hv : Visible c) (hf : c.auto = some f → Helpful c.U f) {prompt : List Rune} {h : Hist} {keys : List Rune} (hw : t0.w = w) (hst : t0.st = .ground)
    (hp : Plain c.U c.d w vis (RB.new prompt true w)) (hh : h.AllP (Cell c.U)) (hk : ∀ r ∈ keys, LKey c f r) {fuel n : Nat} {es bs o o1 o2} {b : Bool}
    (hroom : PageFitsFor c f w vis fuel (n + 1) (Op.init prompt true w h keys))
    (h1 : calls c fuel n (Op.init prompt true w h keys) = .ok es) (hb : clearings c fuel n (Op.init prompt true w h keys) = .ok bs)
    (h2 : after c fuel n (Op.init prompt true w h keys) = .ok o)
    (hs : o.stopped = false) (h3 : o.refreshNil c = .ok o1) (h4 : DuringL c o1.kickRead o2 b) {ps : List (List Rune)} {T : Spec.Term}
    (hps : ps = ((pageOf c vis bs es).wipe b).ps) (hT : T = ((pageOf c vis bs es).wipe b).origin t0) :
    (∀ a, a < T.row → ∀ x, (screen t0 o2.rb).cell a x = T.cell a x) ∧
    (o2.comp.inComplete = false → ∀ a x, x < w → (screen t0 o2.rb).cell (T.row + a) x = paper w (ps ++ current vis o2) a x) ∧
    (o2.comp.inComplete = true → (f o2.rb.buf o2.rb.idx).1 ≠ [] ∧ ∃ k cw, Columns w k cw (offered f o2.rb.buf o2.rb.idx) ∧
      ∀ a x, x < w → (screen t0 o2.rb).cell (T.row + a) x =
        if a < heights w (ps ++ [vis ++ o2.rb.buf]) then paper w (ps ++ [vis ++ o2.rb.buf]) a x
        else listing k cw (offered f o2.rb.buf o2.rb.idx) (a - heights w (ps ++ [vis ++ o2.rb.buf])) x) ∧
    (screen t0 o2.rb).row = T.row + heights w ps + (vis.length + o2.rb.idx) / w ∧
    ((if o2.comp.inComplete then 0 < vis.length + o2.rb.idx ∧ vis.length + o2.rb.idx < w else o2.search.inMode = true ∨ ¬ Plain.Corner w vis o2.rb) →
      (screen t0 o2.rb).col = (vis.length + o2.rb.idx) % w) := by
  subst hps hT
  rcases (RestingP.init hw hst hp hh hk).calls hv hf n (fun m a b d hm => hroom m a b d (by omega)) h1 hb h2 with hr | ⟨h3, _⟩
  · have hr : RestingP c f w vis t0 (pageOf c vis bs es) o := hr
    generalize pageOf c vis bs es = p at hr ⊢
    have hfit := fun o2 => hroom n o o1 o2 (by omega) h2 h3
    obtain ⟨r1, h5, h6⟩ := R.bind_inv h3
    cases h6
    have key : VisibleM c f w vis t0 (if b then t0.top else screen t0 o.rb) (((p.wipe b).origin t0).row + heights w (p.wipe b).ps) o2 ∧
        CalmM c w (LKey c f) o2 ∧ o2.events = [] := by
      clear hp
      induction h4 with
      | here => exact ⟨.inl ⟨hr.smode, hr.shut, hr.between.prompted h5⟩, ⟨hr.calm.hist, hr.calm.shape, hr.calm.vim, hr.calm.keys, hr.calm.run⟩,
          hr.events⟩
      | @key oa ob b h h' he ih =>
        obtain ⟨on, hc, he0⟩ := ih
        rcases Op.iter_page hv hf on hc (hfit _ h.during) h' (fun _ => (hfit _ (.key h.during h' he)).room) with
          ⟨hcl, ⟨hc1, ⟨on1, _⟩ | ⟨_, _, _, he1, _⟩⟩ | hend⟩ | ⟨hcl, hc1, on1, he1⟩
        · rw [hcl, Bool.or_false]
          exact ⟨on1, hc1, he⟩
        · rw [he] at he1; simp at he1
        · have := hend.events
          rw [he] at this
          simp at this
        · rw [hcl, Bool.or_true]
          exact ⟨on1, hc1, he⟩
    obtain ⟨on, hcalm, _⟩ := key
    cases b with
    | true =>
      have on' : VisibleM c f w vis t0 t0.top (((p.wipe true).origin t0).row + heights w (p.wipe true).ps) o2 := on
      exact on'.page (T := (p.wipe true).origin t0) (Printed.wiped w t0) hcalm (hfit o2 h4.during).room
    | false => exact on.page (T := (p.wipe false).origin t0) hr.printed hcalm (hfit o2 h4.during).room
  · rw [hs] at h3; cases h3

/-! ### A session -/

/-- `PageFits` as a test. -/
def pageB (f : Completer) (w : Nat) (vis : List Rune) (o : Op) : Bool :=
  mixB f w vis o || (o.inp.head? == some 12 && fitsB w vis o && menuB f w vis o && (o.search.inMode || o.comp.inComplete || safeB o))

theorem pageB_ok {o : Op} (hU : c.U = U0) (h : pageB f w vis o = true) : PageFits c f w vis o := by
  unfold pageB at h
  rw [Bool.or_eq_true] at h
  rcases h with h | h
  · exact (mixB_ok hU h).page
  · simp only [Bool.and_eq_true, beq_iff_eq] at h
    obtain ⟨⟨⟨h0, h1⟩, h2⟩, h3⟩ := h
    have key : ∀ r rest, o.inp = r :: rest → r = CharCtrlL := by
      intro r rest e
      rw [e] at h0
      cases h0
      rfl
    exact ⟨fun hm => ⟨fitsB_ok h1 hm, fun r rest e => .inr (key r rest e)⟩, fun hm => ⟨menuB_ok h2 hm, fun r rest e => .inr (key r rest e)⟩,
      fun a b => safeB_ok hU (by simpa [a, b] using h3)⟩

/-- The keys: `gi`, Return; `g` and the list, Ctrl-L, `o`, Return; Ctrl-R, `o` (which finds this line), Ctrl-L, Return; in normal mode Ctrl-L (nothing),
then `x`, Return; then `hey`, Ctrl-L, and the end of the input. -/
def keysP : List Rune := str "gi" ++ [CharEnter] ++ str "g" ++ [CharTab, CharCtrlL] ++ str "o" ++ [CharEnter, CharBckSearch] ++ str "o" ++ [CharCtrlL, CharEnter,
  CharEsc, CharCtrlL] ++ str "ix" ++ [CharEnter] ++ str "hey" ++ [CharCtrlL] ++ str "!"

theorem lkeysP : ∀ r ∈ keysP, LKey cMix toolsF r := by
  intro r hr
  by_cases h0 : r = CharCtrlL
  · exact .inr h0
  · refine .inl ?_
    by_cases h : 32 ≤ r ∧ r < 127
    · exact .inl (.inl (.inl (cell0 h)))
    · by_cases h1 : r = CharEsc
      · exact .inl (.inr (.inl ⟨h1, rfl⟩))
      · by_cases h2 : r = CharBckSearch
        · exact .inr (.inl h2)
        · by_cases h3 : r = CharTab
          · exact .inr (.inr (.inr ⟨h3, rfl⟩))
          · refine .inl (.inl (.inr (.inl ?_)))
            revert h h0 h1 h2 h3; revert r; decide

theorem fitsP : PageFitsFor cMix toolsF 30 (str "> ") 30 5 (Op.init (str "> ") true 30 (Hist.fresh []) keysP) := by
  intro m o o1 o2 hm h1 h2 h3
  refine pageB_ok rfl (watch_all 14 ?_ h3)
  match m, hm with
  | 0, _ => cases h1; cases h2; decide +kernel
  | 1, _ => cases h1; cases h2; decide +kernel
  | 2, _ => cases h1; cases h2; decide +kernel
  | 3, _ => cases h1; cases h2; decide +kernel
  | 4, _ => cases h1; cases h2; decide +kernel

/-- After the fourth call: from the top, the third line and the fourth. -/
example : ∃ o, after cMix 30 4 (Op.init (str "> ") true 30 (Hist.fresh []) keysP) = .ok o ∧
    Over 30 (tx 30).top (screen (tx 30) o.rb) [str "> go", str "> x"] := by
  obtain ⟨o, ho, hs⟩ : ∃ o, after cMix 30 4 (Op.init (str "> ") true 30 (Hist.fresh []) keysP) = .ok o ∧ o.stopped = false := ⟨_, rfl, rfl⟩
  refine ⟨o, ho, ?_⟩
  have := C101_transcript_partial (c := cMix) (f := toolsF) (t0 := tx 30) (w := 30) (vis := str "> ") (keys := keysP) (fuel := 30) (n := 4)
    (es := [.line (str "gi"), .line (str "go"), .line (str "go"), .line (str "x")]) (bs := [false, true, true, false]) visibleM (fun _ => toolsF_helpful) rfl rfl plainM
    (h := Hist.fresh []) (fun i => ⟨by simp [Hist.fresh], by simp [Hist.fresh]⟩) lkeysP (fun m a b d hm => fitsP m a b d (by omega)) (by decide) (by rfl) (by rfl) ho hs
  exact this

/-- In the course of the fifth call, after Ctrl-L and `!`: the line alone, at the top. -/
example : ∃ o o1 o2, after cMix 30 4 (Op.init (str "> ") true 30 (Hist.fresh []) keysP) = .ok o ∧ o.refreshNil cMix = .ok o1 ∧
    DuringL cMix o1.kickRead o2 true ∧ (∀ a x, x < 30 → (screen (tx 30) o2.rb).cell (0 + a) x = paper 30 [str "> hey!"] a x) ∧
    (screen (tx 30) o2.rb).row = 0 ∧ (screen (tx 30) o2.rb).col = 6 := by
  obtain ⟨o, ho, hs⟩ : ∃ o, after cMix 30 4 (Op.init (str "> ") true 30 (Hist.fresh []) keysP) = .ok o ∧ o.stopped = false := ⟨_, rfl, rfl⟩
  obtain ⟨o1, h1, o2, b, h2, rfl, hb, hi, hm, hc⟩ : ∃ o1, o.refreshNil cMix = .ok o1 ∧ ∃ o2 b, DuringL cMix o1.kickRead o2 b ∧ b = true ∧ o2.rb.buf = str "hey!" ∧
      o2.rb.idx = 4 ∧ o2.comp.inComplete = false ∧ o2.search.inMode = false := by
    cases ho
    exact ⟨_, rfl, _, _, .key (.key (.key (.key (.key (.here _) rfl rfl) rfl rfl) rfl rfl) rfl rfl) rfl rfl, rfl, rfl, rfl, rfl, rfl⟩
  refine ⟨o, o1, o2, ho, h1, h2, ?_⟩
  have := C101_line_partial (c := cMix) (f := toolsF) (t0 := tx 30) (w := 30) (vis := str "> ") (keys := keysP) (fuel := 30) (n := 4)
    (es := [.line (str "gi"), .line (str "go"), .line (str "go"), .line (str "x")]) (bs := [false, true, true, false]) visibleM (fun _ => toolsF_helpful) rfl rfl plainM
    (h := Hist.fresh []) (fun i => ⟨by simp [Hist.fresh], by simp [Hist.fresh]⟩) lkeysP fitsP (by rfl) (by rfl) ho hs h1 h2 rfl rfl
  have e : ¬ Plain.Corner 30 (str "> ") o2.rb := by unfold Plain.Corner; rw [hb]; decide
  rw [hi, hm] at this
  refine ⟨fun a x hx => ?_, this.2.2.2.1, this.2.2.2.2 (by rw [if_neg (by decide)]; exact .inr e)⟩
  have h := this.2.1 rfl a x hx
  rw [show current (str "> ") o2 = [str "> hey!"] by unfold current; rw [hc, hb]; rfl] at h
  exact h

end RL
