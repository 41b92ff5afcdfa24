import Verif.Proofs.Desk
import Verif.Props.Menu
/-! # C80: a session with completion behaves like a notebook and a list of candidates -/

namespace RL
open Spec RB Ed

theorem Nav.unique {n k : Nat} (hk : 0 < k) {r : Rune} {i j j' : Nat} (h : Nav n k r i j) (h' : Nav n k r i j') : j = j' := by
  have num : ∀ {a b : Nat}, a / k = b / k → a % k = b % k → a = b := by
    intro a b h1 h2
    rw [← Nat.div_add_mod a k, ← Nat.div_add_mod b k, h1, h2]
  rcases h with ⟨hr, h⟩ | ⟨hr, h⟩ | ⟨hr, h1, h2⟩ | ⟨hr, h1, h2, h3⟩ | ⟨hr, h⟩ | ⟨hr, h⟩ <;>
    rcases h' with ⟨hr', h'⟩ | ⟨hr', h'⟩ | ⟨hr', h1', h2'⟩ | ⟨hr', h1', h2', h3'⟩ | ⟨hr', h'⟩ | ⟨hr', h'⟩ <;>
    first
      | omega
      | exact num (h1.trans h1'.symm) (h2.trans h2'.symm)
      | exact Nat.le_antisymm (h3' _ h2 h1) (h3 _ h2' h1')
      | skip
  · rcases h with ⟨a, b⟩ | ⟨a, b, c⟩ <;> rcases h' with ⟨a', b'⟩ | ⟨a', b', c'⟩ <;> try omega
    rw [← c', Nat.mod_eq_of_lt b, Nat.mod_eq_of_lt b'] at c
    exact c
  · rcases h with ⟨a, b⟩ | ⟨a, b, c, d⟩ <;> rcases h' with ⟨a', b'⟩ | ⟨a', b', c', d'⟩ <;> try omega
    exact Nat.le_antisymm (d' _ b c) (d _ b' c')

/-- What a session shows is the notebook and the list. -/
structure Op.OnDesk (c : OCfg) (w : Nat) (o : Op) (d : Desk) : Prop where
  inv : Op.Inv c o
  smode : o.search.inMode = false
  menu : o.comp.Shows d.menu
  book : Op.Shows c o d.book
  emacs : Op.Emacs c o
  width : o.rb.width = w
  events : o.events = []
  running : o.stopped = false

namespace Op
variable {c : OCfg}

theorem OnDesk.ready {o : Op} {w : Nat} {b : Book} (h : OnDesk c w o ⟨b, .closed⟩) : Ready c o :=
  ⟨h.inv.quiet h.smode h.menu, h.emacs, h.events, h.running⟩

theorem Step.onDesk {o o' : Op} {w : Nat} {d d' : Desk} {r : Rune} (h : OnDesk c w o d) {o1 : Op} (hs : Step c o1 o' r d')
    (h1 : o1.events = o.events) (h2 : o1.stopped = o.stopped) (h3 : o1.vimNormal = o.vimNormal) (hg : o1.gate = stopKey r)
    (hw : o'.rb.width = o.rb.width) : OnDesk c w o' d' ∧ o'.Live := by
  refine ⟨⟨hs.inv, hs.smode, hs.menu, hs.book, ?_, hw.trans h.width, (hs.events.trans h1).trans h.events, (hs.stopped.trans h2).trans h.running⟩, ?_⟩
  · exact h.emacs.imp_right fun a => (hs.vimNormal.trans h3).trans a
  · cases hk : stopKey r with
    | false => exact .inl ((hs.gate.trans hg).trans hk)
    | true => exact .inr (hs.kick hk)

theorem navKey_eq {r : Rune} : MenuKey r ↔ NavKey r ∨ r = 13 ∨ r = 10 ∨ r = 7 ∨ r = 3 := by
  unfold MenuKey NavKey CharEnter CharCtrlJ CharLineStart CharLineEnd CharTab CharForward CharBell CharInterrupt CharNext CharBackward CharPrev
  constructor
  · intro h; omega
  · intro h; omega

/-- One key of the desk. -/
theorem iter_desk (hf : Friendly c) (hp : Plain c) (hl : 0 < c.h.limit) {f : Completer} (ha : c.auto = some f) {w : Nat}
    {o : Op} {d d' : Desk} (h : OnDesk c w o d) (hv : o.Live) {r : Rune} {rest : List Rune} (hi : o.inp = r :: rest)
    (hk : DeskKey ⟨f, w, widthAll c.U, c.h.limit⟩ r d d') :
    ∃ o', o.iter c = .ok o' ∧ OnDesk c w o' d' ∧ o'.Live ∧ o'.inp = rest ∧ o'.hist.file = o.hist.file := by
  have hw : ∀ {o'}, o.iter c = .ok o' → o'.rb.width = o.rb.width := fun e => (iter_same _ e).width
  by_cases hch : ∃ cs off i, d.menu = .chosen cs off i
  · obtain ⟨cs, off, i, hch⟩ := hch
    obtain ⟨b, m⟩ := d
    have hch : m = .chosen cs off i := hch
    subst hch
    obtain ⟨m1, m2, m3, m4, m5⟩ := h.menu
    have hwpos : 0 < w := by have := h.inv.base.rb.width; have := h.width; omega
    have hcw : o.comp.width = w := h.inv.base.cw.trans h.width
    have hcol : o.comp.colNum = (listColumns w (cs.map (widthAll c.U)) off.toNat : Nat) := by
      rw [h.inv.comp.drawn m2, Comp.cols_eq hcw hwpos (h.inv.comp.fits m1).off0, m3, m4]
    have hat : InMenu c o cs.length (listColumns w (cs.map (widthAll c.U)) off.toNat) i := by
      refine ⟨h.inv, m2, ⟨by rw [m3], hcol, m5, ?_⟩⟩
      have := (h.inv.comp.sel m2).2.2
      rw [m5, m3] at this
      omega
    cases hk with
    | @move _ _ _ _ _ j hn hc hnav =>
      obtain ⟨o', j', e1, e2, e3, e4, e5, e6, e7, e8, e9, e10, e11, e12⟩ := iter_nav hat hc hv hp.filter hi hn
      have := Nav.unique hc hnav e2
      subst this
      refine ⟨o', e1, ⟨e3.inv, e3.smode, ⟨(e3.inv.comp.sel e3.sel).1, e3.sel, e7.trans m3, e11.trans m4, e3.at'.choise⟩, ?_, h.emacs.imp_right fun a => e12.trans a,
        (hw e1).trans h.width, e9.trans h.events, e10.trans h.running⟩, e4, e5, by rw [e8]⟩
      exact ⟨by rw [e8]; exact h.book.hist, by rw [e6]; exact h.book.line, by rw [e8]; exact h.book.noted, by rw [e8]; exact h.book.enable, h.book.fits⟩
    | @take _ _ _ _ _ x hr hx =>
      obtain ⟨o', x', e1, e2, e3, e4, e5, e6, _, e8, e9, e10, e11⟩ := iter_choose hat hv hp.filter hi hr
      rw [m3, hx, Option.some.injEq] at e2
      subst e2
      refine ⟨o', e1, ⟨e3.inv, e3.smode, ⟨e3.cmode, e3.nosel⟩, ?_, h.emacs.imp_right fun a => e11.trans a, (hw e1).trans h.width, e8.trans h.events,
        e9.trans h.running⟩, e4, e5, by rw [e10, update_file]⟩
      have hs := h.book
      refine Shows.note' (o := { o' with hist := o.hist }) (b := { b with line := b.line.insert x }) hl h.inv.base.hist ?_ ?_ hs.enable hs.fits.pos e10 rfl
      · exact ⟨hs.hist.stored, hs.hist.length, hs.hist.pages, hs.hist.pos, hs.hist.empty, hs.hist.rest⟩
      · show o'.rb.toEd.line = _; rw [e6, hs.line]
    | @drop _ _ _ _ _ hr =>
      have hsm := h.smode
      have hb1 : Base c { o.took r rest with comp := o.comp.exitComplete } :=
        ⟨h.inv.base.rb, h.inv.base.hist, h.inv.base.sw, h.inv.base.cw, h.inv.base.col⟩
      obtain ⟨r1, g1, g2, g3, g4⟩ := hb1.refreshNil
      have hsel : Comp.handleSelect c.U c.d r o.comp o.rb = .ok (false, o.comp.exitComplete, o.rb) := by
        rcases hr with rfl | rfl <;> rfl
      have hit : o.iter c = .ok (if r = 3 then kickRead { o.took r rest with comp := o.comp.exitComplete, rb := r1 } else
          { o.took r rest with comp := o.comp.exitComplete, rb := r1 }) := by
        rw [iter_menu hv hp.filter hi (by rcases hr with rfl | rfl <;> decide)]
        unfold viaMenu
        rw [if_pos (show (o.took r rest).comp.inSelect = true from m2)]
        show (o.comp.handleSelect c.U c.d r o.rb >>= _) = _
        rw [hsel, R.bind_ok]
        dsimp only
        rw [if_neg (by decide)]
        have g1 : refreshNil c ({ o.took r rest with comp := o.comp.exitComplete, rb := o.rb } : Op) = _ := g1
        rw [g1, R.bind_ok, if_neg (by rcases hr with rfl | rfl <;> decide)]
        rcases hr with rfl | rfl
        · rw [if_neg (by decide), if_pos (by decide), if_neg (by decide)]
        · rw [if_pos (by decide), if_pos rfl]
      have hq : Quiet c ({ o.took r rest with comp := o.comp.exitComplete, rb := r1 } : Op) := ⟨g4, hsm, h.inv.soff hsm, rfl, rfl⟩
      have hbk : Shows c ({ o.took r rest with comp := o.comp.exitComplete, rb := r1 } : Op) b :=
        ⟨h.book.hist, by show r1.toEd.line = _; rw [g2]; exact h.book.line, h.book.noted, h.book.enable, h.book.fits⟩
      refine ⟨_, hit, ?_⟩
      have hww := hw hit
      rcases hr with rfl | rfl
      · rw [if_neg (by decide)] at hww ⊢
        exact ⟨⟨hq.inv, hsm, ⟨rfl, rfl⟩, hbk, h.emacs, hww.trans h.width, h.events, h.running⟩, .inl rfl, rfl, rfl⟩
      · rw [if_pos rfl] at hww ⊢
        exact ⟨⟨hq.inv.io _ _ _, hsm, ⟨rfl, rfl⟩, ⟨hbk.hist, hbk.line, hbk.noted, hbk.enable, hbk.fits⟩, h.emacs, hww.trans h.width, h.events,
          h.running⟩, .inr rfl, rfl, rfl⟩
    | @through _ _ _ _ _ _ h1 h2 h3 h4 h5 h6 hk =>
      have hmk : ¬ MenuKey r := by
        rw [navKey_eq]
        intro a
        rcases a with a | a | a | a | a
        · exact h1 a
        · exact h2 a
        · exact h3 a
        · exact h4 a
        · exact h5 a
      -- the key is not 0 or ESC
      have hne : r ≠ 0 ∧ r ≠ CharEsc := by
        cases hk with
        | tab => decide
        | text a => unfold CharEsc; omega
        | close hb => exact ⟨(bookKey_ne hb).2.2.1, (bookKey_ne hb).2.2.2⟩
        | rub hr => rcases hr with rfl | rfl <;> decide
        | rubNothing hr => rcases hr with rfl | rfl <;> decide
        | delete => decide
        | leave hr => rcases hr with rfl | rfl <;> decide
      obtain ⟨r1, e1, e2, e3⟩ := iter_leave h.inv hv hp.filter hi hne.1 hmk m2 (h.emacs.imp_right fun a => ⟨a, hne.2⟩)
      obtain ⟨o', f1, f2, _⟩ := dispatch_desk hf hp hl ha e2 h.smode h.emacs (d := ⟨b, .listed none [] 0⟩)
        ⟨h.book.hist, by show r1.toEd.line = _; rw [e3]; exact h.book.line, h.book.enable, h.book.fits⟩
        ⟨m1, rfl, rfl, fun a => (a rfl).elim⟩ (fun _ _ _ a => by cases a) hk
      rw [f1] at e1
      obtain ⟨k1, k2⟩ := Step.onDesk h f2 rfl rfl rfl rfl (hw e1)
      exact ⟨o', e1, k1, k2, f2.inp, f2.file⟩
    | tab hc => cases hc
  · have hns : o.comp.inSelect = false := by
      have hm := h.menu
      match hd : d.menu with
      | .closed => rw [hd] at hm; exact hm.2
      | .listed s cs off => rw [hd] at hm; exact hm.2.1
      | .chosen cs off i => exact (hch ⟨_, _, _, hd⟩).elim
    have hm : Mid c (o.took r rest) := (h.inv.io _ _ _).mid hns
    obtain ⟨o', f1, f2, f3, f4⟩ := dispatch_desk hf hp hl ha hm h.smode h.emacs (d := d) ⟨h.book.hist, h.book.line, h.book.enable, h.book.fits⟩
      h.menu (fun cs off i a => hch ⟨cs, off, i, a⟩) hk
    have hit : o.iter c = .ok o' := by
      rw [iter_emacs hv hp.filter hi f3 hns (h.emacs.imp_right fun a => ⟨a, f4⟩)]; exact f1
    obtain ⟨k1, k2⟩ := Step.onDesk h f2 rfl rfl rfl rfl (hw hit)
    exact ⟨o', hit, k1, k2, f2.inp, f2.file⟩

/-- Enter does not look at the list. -/
theorem enter_blind (hob : Observer c) {r : Rune} (hr : r = 13 ∨ r = 10) {o q o' : Op} {cm : Comp}
    (e1 : ({ o with comp := cm } : Op).dispatch c r = .ok q) (e2 : o.dispatch c r = .ok o') :
    o'.rb.toEd = q.rb.toEd ∧ o'.hist = q.hist ∧ o'.inp = q.inp ∧ o'.events = q.events ∧ o'.stopped = q.stopped ∧ o'.vimNormal = q.vimNormal ∧
      o'.search.inMode = false := by
  obtain ⟨k1, f1, f2⟩ := dispatch_ok hob e1
  obtain ⟨k2, g1, g2⟩ := dispatch_ok hob e2
  rw [key_enter hr] at f1 g1
  obtain ⟨a1, _, a3, a4, _, a6, a7, a8, a9, a10, a11, _, a13, a14⟩ := keyEnter_ok f1
  obtain ⟨b1, _, b3, b4, _, b6, b7, b8, b9, b10, b11, _, b13, b14⟩ := keyEnter_ok g1
  have s1 : q.search.inMode = false := by
    cases hh : q.search.inMode with
    | false => rfl
    | true => have := (f2.smode.1 hh).2; rw [a11] at this; cases this
  have s2 : o'.search.inMode = false := by
    cases hh : o'.search.inMode with
    | false => rfl
    | true => have := (g2.smode.1 hh).2; rw [b11] at this; cases this
  have hh : k2.op.hist = k1.op.hist ∧ k2.update = k1.update := by
    cases hn : c.noSave with
    | false =>
      obtain ⟨u1, u2⟩ := a13 hn
      obtain ⟨v1, v2⟩ := b13 hn
      have u2 : o.hist.new c.h o.rb.buf = .ok k1.op.hist := u2
      rw [v2, Except.ok.injEq] at u2
      exact ⟨u2, v1.trans u1.symm⟩
    | true => exact ⟨(b14 hn).2.trans (a14 hn).2.symm, (b14 hn).1.trans (a14 hn).1.symm⟩
  have hbuf : k2.op.rb.buf = k1.op.rb.buf := by
    show k2.op.rb.toEd.buf = k1.op.rb.toEd.buf; rw [b1, a1]
  refine ⟨by rw [g2.line, f2.line, b1, a1], ?_, by rw [g2.inp, f2.inp, b6, a6], by rw [g2.events, f2.events, b3, a3],
    by rw [g2.stopped, f2.stopped, b9, a9], by rw [g2.vimNormal, f2.vimNormal, b10, a10], s2⟩
  rw [g2.hist, f2.hist, hh.1, hh.2, s1, s2, hbuf]

/-- A key that ends the line. -/
theorem iter_deskEnd (hf : Friendly c) (hp : Plain c) (hl : 0 < c.h.limit) {f : Completer} {w : Nat}
    {o : Op} {d : Desk} {b' : Book} (h : OnDesk c w o d) (hv : o.Live) {r : Rune} {e : Event} {rest : List Rune} (hi : o.inp = r :: rest)
    (hk : DeskEnd (!c.noSave) ⟨f, w, widthAll c.U, c.h.limit⟩ r d e b') :
    ∃ o', o.iter c = .ok o' ∧ Quiet c o' ∧ o'.inp = rest ∧ o'.events = [e] ∧ o'.stopped = false ∧ Emacs c o' ∧
      Shows c o' b' ∧ o'.rb.width = w ∧ o'.hist.fd = o.hist.fd ∧
      (o.hist.fd = .opened → d.book.pages ≠ [] → o'.hist.disk = o.hist.disk ++ fileOf (added (!c.noSave) d.book.stored e)) := by
  cases hk with
  | @plain _ b _ hb =>
    obtain ⟨o', e1, e2, e3, e4, e5, e6, e7, e8, e9⟩ := iter_end hp hl h.ready.quiet hv h.emacs h.book hi hb
    rw [h.events] at e4
    exact ⟨o', e1, e2, e3, e4, e5.trans h.running, e6, e7, (iter_same _ e1).width.trans h.width, e8, e9⟩
  | @listed b s cs off _ _ hb hr =>
    obtain ⟨m1, m2, _⟩ := h.menu
    have hr' : r = CharEnter ∨ r = CharCtrlJ := hr
    obtain ⟨_, hr0, hre⟩ := stopKey_enter hr'
    have hne : r ≠ CharTranspose ∧ r ≠ CharKill ∧ r ≠ CharBell ∧ r ≠ CharInterrupt := by rcases hr with rfl | rfl <;> decide
    have hmid : Mid c (o.took r rest) := (h.inv.io _ _ _).mid m2
    have hq : Quiet c { o with comp := o.comp.exitComplete } := (h.inv.mid m2).quiet h.smode
    obtain ⟨q, e1, e2, e3, e4, e5, e6, e7, e8, e9⟩ := iter_end (o := { o with comp := o.comp.exitComplete }) hp hl hq hv h.emacs
      (b := b) ⟨h.book.hist, h.book.line, h.book.noted, h.book.enable, h.book.fits⟩ hi hb
    rw [iter_emacs (o := { o with comp := o.comp.exitComplete }) hv hp.filter hi hr0 rfl (h.emacs.imp_right fun a => ⟨a, hre⟩)] at e1
    have hv' : c.vim = true → o.vimNormal = true → False := by
      intro a d
      rcases h.emacs with hv | hv
      · rw [hv] at a; cases a
      · rw [hv] at d; cases d
    obtain ⟨o', g1, g2⟩ := dispatch_safe (r := r) hf hmid (fun a => (hne.1 a).elim)
      (fun a => by rcases a with a | a; exact (hne.2.2.1 a).elim; exact (hne.2.2.2 a).elim) (fun a => (hne.2.1 a).elim) (fun a d => (hv' a d).elim)
    have hit : o.iter c = .ok o' := by
      rw [iter_emacs hv hp.filter hi hr0 m2 (h.emacs.imp_right fun a => ⟨a, hre⟩)]; exact g1
    obtain ⟨k1, k2, k3, k4, k5, k6, k7⟩ := enter_blind (o := o.took r rest) (cm := o.comp.exitComplete) hp.listener hr e1 g1
    obtain ⟨kk, f1, f2⟩ := dispatch_ok hp.listener g1
    have f1' := f1
    rw [key_enter hr'] at f1'
    obtain ⟨_, _, _, b4, b5, _, _, _, _, _, _, b12, _⟩ := keyEnter_ok f1'
    obtain ⟨l1, l2⟩ := dispatch_leaves hp.listener f1 b12 (by rw [b5]; exact m2) (fun a => by rw [b4] at a; cases a) g1
    rw [show ({ o with comp := o.comp.exitComplete } : Op).events = [] from h.events] at e4
    refine ⟨o', hit, g2.quiet k7 ⟨l2, l1⟩, k3.trans e3, k4.trans e4, (k5.trans e5).trans h.running, ?_, ?_, (iter_same _ hit).width.trans h.width,
      by rw [k2]; exact e8, fun a d => by rw [k2]; exact e9 a d⟩
    · exact e6.imp_right fun a => k6.trans a
    · exact ⟨by rw [k2]; exact e7.hist, by rw [k1]; exact e7.line, by rw [k2]; exact e7.noted, by rw [k2]; exact e7.enable, e7.fits⟩

theorem await_desk (hf : Friendly c) (hp : Plain c) (hl : 0 < c.h.limit) {f : Completer} (ha : c.auto = some f) {w : Nat} {keys : List Rune}
    {d d' : Desk} (hk : DeskKeys ⟨f, w, widthAll c.U, c.h.limit⟩ keys d d') :
    ∀ {o : Op} {rest : List Rune}, OnDesk c w o d → o.Live → o.inp = keys ++ rest →
    ∃ o', (∀ n, await c (n + keys.length) o = await c n o') ∧ OnDesk c w o' d' ∧ o'.Live ∧ o'.inp = rest ∧ o'.hist.file = o.hist.file := by
  induction hk with
  | nil => intro o rest h hv hi; exact ⟨o, fun _ => rfl, h, hv, hi, rfl⟩
  | @cons r ks d d1 d2 hr _ ih =>
    intro o rest h hv hi
    obtain ⟨o1, e1, e2, e3, e4, e5⟩ := iter_desk hf hp hl ha h hv (rest := ks ++ rest) hi hr
    obtain ⟨o', f1, f2, f3, f4, f5⟩ := ih (o := o1) (rest := rest) e2 e3 e4
    refine ⟨o', fun n => ?_, f2, f3, f4, f5.trans e5⟩
    show await c (n + ks.length + 1) o = _
    rw [await_step h.events h.running e1, f1]

end Op

/-- C80, one call: any keys of the desk, then a key that ends the line.  `Readline` returns what the desk says, the session then shows
the next state of the notebook and no list, and a recorded line has been appended to the history file. -/
theorem C80_readline {c : OCfg} (hf : Op.Friendly c) (hp : Op.Plain c) (hl : 0 < c.h.limit) {f : Completer} (ha : c.auto = some f) {w : Nat}
    {o : Op} (h : Ready c o) (hw : o.rb.width = w) {b b2 : Book} {d : Desk} (hs : Op.Shows c o b) {keys rest : List Rune} {r : Rune} {e : Event}
    (hi : o.inp = keys ++ r :: rest) (hk : DeskKeys ⟨f, w, widthAll c.U, c.h.limit⟩ keys ⟨b, .closed⟩ d)
    (hr : DeskEnd (!c.noSave) ⟨f, w, widthAll c.U, c.h.limit⟩ r d e b2) {fuel : Nat} (hfuel : keys.length < fuel) :
    ∃ o', o.readline c fuel = .ok (e, o') ∧ Ready c o' ∧ o'.inp = rest ∧ Op.Shows c o' b2 ∧ o'.rb.width = w ∧ o'.hist.fd = o.hist.fd ∧
      (o.hist.fd = .opened → d.book.pages ≠ [] → o'.hist.disk = o.hist.disk ++ fileOf (added (!c.noSave) d.book.stored e)) := by
  obtain ⟨r1, q1, q2, q3, q4⟩ := h.quiet.base.refreshNil
  have a1 : o.readline c fuel = Op.await c fuel (Op.kickRead { o with rb := r1 }) := by unfold Op.readline; rw [q1, R.bind_ok]
  have hq : Op.Quiet c (Op.kickRead { o with rb := r1 }) :=
    ⟨⟨q4.rb, q4.hist, q4.sw, q4.cw, q4.col⟩, h.quiet.smode, h.quiet.marks, h.quiet.cmode, h.quiet.nosel⟩
  have h1 : Op.OnDesk c w (Op.kickRead { o with rb := r1 }) ⟨b, .closed⟩ :=
    ⟨hq.inv, h.quiet.smode, ⟨h.quiet.cmode, h.quiet.nosel⟩, ⟨hs.hist, by show r1.toEd.line = _; rw [q2]; exact hs.line, hs.noted, hs.enable, hs.fits⟩,
      h.emacs, q3.width.trans hw, h.events, h.running⟩
  obtain ⟨o2, b1, b2, b3, b4, b5⟩ := Op.await_desk hf hp hl ha hk h1 (.inr rfl) hi
  obtain ⟨o3, d1, d2, d3, d4, d5, d6, d7, d8, d9, d10⟩ := Op.iter_deskEnd hf hp hl b2 b3 b4 hr
  obtain ⟨m, rfl⟩ : ∃ m, fuel = (m + 1) + keys.length := ⟨fuel - keys.length - 1, by omega⟩
  refine ⟨{ o3 with events := [] }, ?_, ⟨d2.events _, d6, rfl, d5⟩, d3, ⟨d7.hist, d7.line, d7.noted, d7.enable, d7.fits⟩, d8,
    d9.trans (congrArg Prod.snd b5), fun x y => ?_⟩
  · rw [a1, b1, Op.await_step b2.events b2.running d1, Op.await_done d4]
  · have g1 : o2.hist.disk = o.hist.disk := congrArg Prod.fst b5
    have g2 : o2.hist.fd = o.hist.fd := congrArg Prod.snd b5
    rw [← g1]
    exact d10 (g2.trans x) y

/-- C80.  For a whole session with the editing keys, Ctrl-P, Ctrl-N, Tab and the keys of the list of candidates, Enter, Ctrl-C and Ctrl-D:
the calls of `Readline` return what the notebook and the list say, and the entries then stored, the line and the page shown are those
of the notebook. -/
theorem C80_session {c : OCfg} (hf : Op.Friendly c) (hp : Op.Plain c) (hl : 0 < c.h.limit) {f : Completer} (ha : c.auto = some f) {w : Nat}
    {keys : List Rune} {b b' : Book} {es : List Event} (hr : DeskRun (!c.noSave) ⟨f, w, widthAll c.U, c.h.limit⟩ keys b es b') :
    ∀ {o : Op} {rest : List Rune}, Ready c o → o.rb.width = w → Op.Shows c o b → o.inp = keys ++ rest → ∀ {fuel : Nat}, keys.length < fuel →
    ∃ o', calls c fuel es.length o = .ok es ∧ after c fuel es.length o = .ok o' ∧ Ready c o' ∧ o'.inp = rest ∧ Op.Shows c o' b' := by
  induction hr with
  | done => intro o rest h hw hs hi fuel _; exact ⟨o, rfl, rfl, h, hi, hs⟩
  | @call ks r keys b d1 b2 b3 e es hk he _ ih =>
    intro o rest h hw hs hi fuel hfuel
    simp only [List.length_append, List.length_cons] at hfuel
    obtain ⟨o1, e1, e2, e3, e4, e5, _⟩ := C80_readline hf hp hl ha h hw hs (rest := keys ++ rest) (by rw [hi]; simp) hk he (fuel := fuel) (by omega)
    obtain ⟨o2, f1, f2, f3⟩ := ih e2 e5 e4 e3 (fuel := fuel) (by omega)
    refine ⟨o2, ?_, ?_, f3⟩
    · show (o.readline c fuel >>= fun p => calls c fuel es.length p.2 >>= fun l => .ok (p.1 :: l)) = _
      rw [e1, R.bind_ok]
      dsimp only
      rw [f1]; rfl
    · show (o.readline c fuel >>= fun p => after c fuel es.length p.2) = _
      rw [e1, R.bind_ok]
      exact f2

/-- A completer that offers "xa" and "yb" after one rune and nothing elsewhere. -/
def afterOne : Completer := fun _ p => if p = 1 then ([[120, 97], [121, 98]], 0) else ([], 0)

def desk1 : OCfg := { c0 with auto := some afterOne }

theorem lcp_afterOne : LongestCommonPrefix [] [[120, 97], [121, 98]] := by
  refine ⟨fun e he => List.nil_prefix, fun s' h => ?_⟩
  have h1 := h [120, 97] (by simp)
  have h2 := h [121, 98] (by simp)
  cases s' with
  | nil => exact List.nil_prefix
  | cons a l =>
    obtain ⟨t, ht⟩ := h1
    obtain ⟨t', ht'⟩ := h2
    injection ht with e1
    injection ht' with e2
    omega

/-- "q", Tab lists "xa" and "yb"; Tab highlights "xa", Tab "yb"; Enter takes it; Enter returns "qyb".  Then "r", Tab lists again, "s" closes the
list since there is nothing for "rs"; Ctrl-C returns an interrupt. -/
example : ∃ b, DeskRun true ⟨afterOne, 80, widthAll U0, 500⟩ [113, 9, 9, 9, 13, 13, 114, 9, 115, 3] Book.empty
    [.line [113, 121, 98], .interrupt [114, 115]] b ∧ b.stored = [[113, 121, 98]] := by
  refine ⟨_, .call (ks := [113, 9, 9, 9, 13]) (.cons (.plain (.edit (.inl rfl))) (.cons (.tab (.first rfl (by decide) lcp_afterOne))
    (.cons (.tab (.select (by decide))) (.cons (.move (j := 1) (.inr (.inl rfl)) (by decide) (.inl ⟨.inr rfl, .inl (by decide)⟩))
    (.cons (.take (.inl rfl) rfl) .nil))))) (.plain (.enter (.inl rfl) (by decide)))
    (.call (ks := [114, 9, 115]) (.cons (.plain (.edit (.inl rfl))) (.cons (.tab (.first rfl (by decide) lcp_afterOne))
    (.cons (.text (by decide) (by decide) (.gone (by decide) rfl)) .nil))) (.plain .interrupt) .done), ?_⟩
  decide

/-- The hypotheses of `C80_session` hold for that session, and the model agrees. -/
example : Op.Friendly desk1 ∧ Op.Plain desk1 ∧ Ready desk1 (o0 [113, 9, 9, 9, 13, 13, 114, 9, 115, 3]) ∧
    Op.Shows desk1 (o0 [113, 9, 9, 9, 13, 13, 114, 9, 115, 3]) Book.empty ∧
    calls desk1 20 2 (o0 [113, 9, 9, 9, 13, 13, 114, 9, 115, 3]) = .ok [.line [113, 121, 98], .interrupt [114, 115]] := by
  refine ⟨⟨fun f h => ?_, by simp [desk1, c0]⟩, ⟨rfl, by simp [Op.Observer, desk1, c0]⟩, init_Ready (p := 2) (by decide) rfl (by decide) (by decide) (Hist.fresh_WF _),
    C67_start _ _ _ _ _, by decide +kernel⟩
  simp only [desk1, Option.some.injEq] at h
  subst h
  intro l p cs off _ e hne
  unfold afterOne at e
  split at e
  · cases e
    refine ⟨by decide, by omega, fun a b c _ hb => ?_⟩
    have : b = [] := List.length_eq_zero_iff.1 hb
    subst this
    decide
  · cases e
    exact (hne rfl).elim

/-- A list left open by Ctrl-K is taken for the list of another place in the line: "ab", Ctrl-B, Tab lists the candidates for the cursor behind
"a"; Ctrl-K cuts "b"; typing "b" again highlights the first of them, and Enter inserts it behind "ab", where the completer offers nothing. -/
theorem C80_false_stale : afterOne [97, 98] 2 = ([], 0) ∧
    firstResult desk1 (o0 [97, 98, 2, 9, 11, 98, 13, 13]) = .ok (.line [97, 98, 120, 97]) := by decide

/-- With a highlight or a list on the screen Ctrl-D on an empty line does not end the input, and Ctrl-C does not interrupt. -/
theorem C80_dismiss : firstResult menu5 (o0 [9, 4, 3]) = .ok (.interrupt []) ∧ firstResult menu5 (o0 [9, 3, 120, 13]) = .ok (.line [120]) ∧
    firstResult menu5 (o0 [9, 9, 3, 120, 13]) = .ok (.line [120]) := by decide

end RL
