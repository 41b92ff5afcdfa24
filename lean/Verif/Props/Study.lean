import Verif.Proofs.Study
/-! # C82: a session with completion and incremental search behaves like a notebook, a list of candidates and a finder -/

namespace RL
open Spec RB Ed

/-- The tool at hand. -/
def Op.Holds (c : OCfg) (o : Op) (b : Book) : Tool → Prop
  | .desk m => o.search.inMode = false ∧ o.comp.Shows m ∧ (c.noSave = false → o.hist.Noted b.line.text)
  | .find f => o.search.inMode = true ∧ o.search.data = f.text ∧ o.search.fwd = f.fwd ∧ o.search.failing = f.failing ∧
      (o.search.markStart, o.search.markEnd) = f.mark ∧ (∃ x, o.search.source = some x ∧ o.hist.order[f.home]? = some x) ∧
      2 ≤ b.pages.length ∧ b.pages.length ≤ c.h.limit.toNat

/-- What a session shows is the notebook, the drafts and the tool. -/
structure Op.OnStudy (c : OCfg) (w : Nat) (o : Op) (s : Study) : Prop where
  inv : Op.Inv c o
  book : Op.Opened c o s.book
  drafts : o.hist.drafts = s.drafts
  tool : o.Holds c s.book s.tool
  tidy : o.Tidy
  emacs : Op.Emacs c o
  width : o.rb.width = w
  events : o.events = []
  running : o.stopped = false

namespace Op
variable {c : OCfg}

theorem OnStudy.desk {o : Op} {w : Nat} {b : Book} {ds : List (List Rune)} {m : Choices} (h : OnStudy c w o ⟨b, ds, .desk m⟩) : OnDesk c w o ⟨b, m⟩ :=
  ⟨h.inv, h.tool.1, h.tool.2.1, ⟨h.book.hist, h.book.line, h.tool.2.2, h.book.enable, h.book.fits⟩, h.emacs, h.width, h.events, h.running⟩

theorem OnDesk.study {o : Op} {w : Nat} {b : Book} {ds : List (List Rune)} {m : Choices} (h : OnDesk c w o ⟨b, m⟩) (hd : o.hist.drafts = ds) (ht : o.Tidy) :
    OnStudy c w o ⟨b, ds, .desk m⟩ :=
  ⟨h.inv, h.book.opened, hd, ⟨h.smode, h.menu, h.book.noted⟩, ht, h.emacs, h.width, h.events, h.running⟩

theorem deskKey_ne {p : DeskCfg} {r : Rune} {d d' : Desk} (hk : DeskKey p r d d') : r ≠ 0 ∧ r ≠ CharEsc := by
  unfold CharEsc
  induction hk with
  | plain hb => exact ⟨(bookKey_ne hb).2.2.1, (bookKey_ne hb).2.2.2⟩
  | tab => decide
  | bell => decide
  | text a => omega
  | close hb => exact ⟨(bookKey_ne hb).2.2.1, (bookKey_ne hb).2.2.2⟩
  | rub hr => omega
  | rubNothing hr => omega
  | delete => decide
  | leave hr => omega
  | kill => decide
  | move hn => unfold NavKey at hn; omega
  | take hr => omega
  | drop hr => omega
  | through _ _ _ _ _ _ _ ih => exact ih

/-- A key of the desk that changes more than the highlight notes the line. -/
theorem iter_notes (hp : Plain c) {f : Completer} {w : Nat} {o o' : Op} {d d' : Desk} (h : OnDesk c w o d) (hv : o.Live) {r : Rune} {rest : List Rune}
    (hi : o.inp = r :: rest) (hk : DeskKey ⟨f, w, widthAll c.U, c.h.limit⟩ r d d') (hn : ¬ Highlight r d.menu) (e : o.iter c = .ok o')
    (he : o'.events = o.events) (hs : o'.search.inMode = false) :
    ∃ x, (x = none → o.hist.order = []) ∧ o'.hist = ({ o.hist with current := x } : Hist).update c.h o'.rb.buf false := by
  obtain ⟨r0, r1⟩ := deskKey_ne hk
  have hem : c.vim = false ∨ (o.vimNormal = false ∧ r ≠ CharEsc) := h.emacs.imp_right fun a => ⟨a, r1⟩
  cases hsel : o.comp.inSelect with
  | false =>
    rw [iter_emacs hv hp.filter hi r0 hsel hem] at e
    exact dispatch_notes (o := o.took r rest) hp.listener h.inv.base.hist e he hs
  | true =>
    obtain ⟨b, m⟩ := d
    have hm := h.menu
    match m, hm, hk, hn with
    | .closed, hm, _, _ => rw [hm.2] at hsel; cases hsel
    | .listed s cs off, hm, _, _ => rw [hm.2.1] at hsel; cases hsel
    | .chosen cs off i, ⟨m1, m2, m3, m4, m5⟩, hk, hn =>
      have hn : ¬ (NavKey r ∨ r = 7 ∨ r = 3) := hn
      by_cases hr : r = 13 ∨ r = 10
      · have hwpos : 0 < w := by have := h.inv.base.rb.width; have := h.width; omega
        have hcw : o.comp.width = w := h.inv.base.cw.trans h.width
        have hcol : o.comp.colNum = (listColumns w (cs.map (widthAll c.U)) off.toNat : Nat) := by
          rw [h.inv.comp.drawn m2, Comp.cols_eq hcw hwpos (h.inv.comp.fits m1).off0, m3, m4]
        have hat : InMenu c o cs.length (listColumns w (cs.map (widthAll c.U)) off.toNat) i := by
          refine ⟨h.inv, m2, ⟨by rw [m3], hcol, m5, ?_⟩⟩
          have := (h.inv.comp.sel m2).2.2
          rw [m5, m3] at this
          omega
        obtain ⟨o'', x', e1, _, _, _, _, _, _, _, _, e10, _⟩ := iter_choose hat hv hp.filter hi hr
        rw [e, Except.ok.injEq] at e1
        subst e1
        exact ⟨o.hist.current, h.inv.base.hist.cur_none, e10⟩
      · have hmk : ¬ MenuKey r := by
          rw [navKey_eq]
          intro a
          rcases a with a | a | a | a | a
          · exact hn (.inl a)
          · exact hr (.inl a)
          · exact hr (.inr a)
          · exact hn (.inr (.inl a))
          · exact hn (.inr (.inr a))
        obtain ⟨rb, e1, _, _⟩ := iter_leave h.inv hv hp.filter hi r0 hmk hsel hem
        rw [e1] at e
        exact dispatch_notes (o := { o.took r rest with comp := o.comp.exitSelect, rb := rb }) hp.listener h.inv.base.hist e he hs

/-- A key that only moves or drops the highlight leaves the history alone. -/
theorem iter_highlight (hp : Plain c) {f : Completer} {w : Nat} {o o' : Op} {d d' : Desk} (h : OnDesk c w o d) (hv : o.Live) {r : Rune} {rest : List Rune}
    (hi : o.inp = r :: rest) (hk : DeskKey ⟨f, w, widthAll c.U, c.h.limit⟩ r d d') (hn : Highlight r d.menu) (e : o.iter c = .ok o') :
    o'.hist = o.hist := by
  obtain ⟨b, m⟩ := d
  have hm := h.menu
  match m, hm, hk, hn with
  | .chosen cs off i, ⟨m1, m2, m3, m4, m5⟩, hk, hn =>
    have hn : NavKey r ∨ r = 7 ∨ r = 3 := hn
    have hwpos : 0 < w := by have := h.inv.base.rb.width; have := h.width; omega
    have hcw : o.comp.width = w := h.inv.base.cw.trans h.width
    have hcol : o.comp.colNum = (listColumns w (cs.map (widthAll c.U)) off.toNat : Nat) := by
      rw [h.inv.comp.drawn m2, Comp.cols_eq hcw hwpos (h.inv.comp.fits m1).off0, m3, m4]
    have hat : InMenu c o cs.length (listColumns w (cs.map (widthAll c.U)) off.toNat) i := by
      refine ⟨h.inv, m2, ⟨by rw [m3], hcol, m5, ?_⟩⟩
      have := (h.inv.comp.sel m2).2.2
      rw [m5, m3] at this
      omega
    cases hk with
    | @move _ _ _ _ _ j hn hc hnav =>
      obtain ⟨o'', j', e1, _, _, _, _, _, _, e8, _⟩ := iter_nav hat hc hv hp.filter hi hn
      rw [e, Except.ok.injEq] at e1
      subst e1
      exact e8
    | take hr => exfalso; unfold NavKey at hn; omega
    | @drop _ _ _ _ _ hr =>
      have hsel : Comp.handleSelect c.U c.d r o.comp o.rb = .ok (false, o.comp.exitComplete, o.rb) := by
        rcases hr with rfl | rfl <;> rfl
      rw [iter_menu hv hp.filter hi (by rcases hr with rfl | rfl <;> decide)] at e
      unfold viaMenu at e
      rw [if_pos (show (o.took r rest).comp.inSelect = true from m2)] at e
      have e : (o.comp.handleSelect c.U c.d r o.rb >>= _) = _ := e
      rw [hsel, R.bind_ok] at e
      dsimp only at e
      rw [if_neg (by decide)] at e
      obtain ⟨o1, e1, e⟩ := R.bind_inv e
      obtain ⟨rb, rfl, _⟩ := refreshNil_ok e1
      rcases hr with rfl | rfl
      · rw [if_neg (by decide), if_neg (by decide), if_pos (by decide)] at e
        cases e; rfl
      · rw [if_neg (by decide), if_pos (by decide)] at e
        cases e; rfl
    | through h1 h2 h3 h4 h5 =>
      rcases hn with a | a | a
      · exact (h1 a).elim
      · exact (h4 a).elim
      · exact (h5 a).elim
    | tab hc => cases hc

/-- After a key that ends the search or is none of its business. -/
theorem Step.onStudy {o o' : Op} {w : Nat} {s : Study} {r : Rune} {b' : Book} {m' : Choices} (hp : Plain c) (hl : 0 < c.h.limit) (h : OnStudy c w o s)
    (hv : o.Live) {rest : List Rune} (hi : o.inp = r :: rest) (hne : r ≠ 0 ∧ r ≠ CharEsc) (hns : o.comp.inSelect = false)
    (hd : (o.took r rest).dispatch c r = .ok o') (hs : Step c (o.took r rest) o' r ⟨b', m'⟩) :
    o.iter c = .ok o' ∧ OnStudy c w o' ⟨b', s.book.jot c.h.limit b' s.drafts, .desk m'⟩ ∧ o'.Live ∧ o'.inp = rest ∧ o'.hist.file = o.hist.file := by
  have hit : o.iter c = .ok o' := by
    rw [iter_emacs hv hp.filter hi hne.1 hns (h.emacs.imp_right fun a => ⟨a, hne.2⟩)]; exact hd
  have hw : o'.rb.width = w := (iter_same _ hit).width.trans h.width
  obtain ⟨x, n1, n2⟩ := dispatch_notes (o := o.took r rest) hp.listener h.inv.base.hist hd hs.events hs.smode
  refine ⟨hit, ⟨hs.inv, hs.book.opened, ?_, ⟨hs.smode, hs.menu, hs.book.noted⟩, iter_tidy h.tidy hit, h.emacs.imp_right fun a => hs.vimNormal.trans a, hw,
    hs.events.trans h.events, hs.stopped.trans h.running⟩, ?_, hs.inp, hs.file⟩
  · rw [← h.drafts]
    refine drafts_jot h.inv.base.hist h.book.hist hs.book.hist (x := x) n1 hl ?_
    rw [n2]
    congr 1
    show _ = b'.line.text
    rw [← hs.book.line, Ed.line_text]
  · cases hk : stopKey r with
    | false => exact .inl (hs.gate.trans hk)
    | true => exact .inr (hs.kick hk)

theorem OnStudy.nosel {o : Op} {w : Nat} {b : Book} {ds : List (List Rune)} {f : Finder} (h : OnStudy c w o ⟨b, ds, .find f⟩) : o.comp.inSelect = false := by
  have := h.inv.excl h.tool.1
  cases hs : o.comp.inSelect with
  | false => rfl
  | true => rw [(h.inv.comp.sel hs).1] at this; cases this

/-- Ctrl-G or Ctrl-C during a search leaves no list behind. -/
theorem iter_cancelComp (hf : Friendly c) (hp : c.filter = none) {o o' : Op} (h : Inv c o) (hsm : o.search.inMode = true) (hv : o.Live) (hem : Emacs c o)
    {r : Rune} {rest : List Rune} (hr : r = CharBell ∨ r = CharInterrupt) (hi : o.inp = r :: rest) (e : o.iter c = .ok o') :
    o'.comp.inComplete = false ∧ o'.comp.inSelect = false := by
  have hcm := h.excl hsm
  have hns : o.comp.inSelect = false := by
    cases hs : o.comp.inSelect with
    | false => rfl
    | true => rw [(h.comp.sel hs).1] at hcm; cases hcm
  rw [iter_emacs hv hp hi (by rcases hr with rfl | rfl <;> decide) hns (hem.imp_right fun a => ⟨a, by rcases hr with rfl | rfl <;> decide⟩)] at e
  obtain ⟨k, g1, _⟩ := R.bind_inv e
  have g0 := g1
  have hsm' : (o.took r rest).search.inMode = true := hsm
  have ex : ∀ {o1 o2 : Op}, o1.exitSearch c true = .ok o2 → o2.comp = o1.comp := by
    intro o1 o2 e
    obtain ⟨⟨s, hh, rb⟩, _, e⟩ := R.bind_inv e
    cases e; rfl
  have hk : k.op.comp = o.comp ∧ k.keepComplete = false := by
    rcases hr with rfl | rfl
    · rw [key_bell] at g1
      unfold keyBell at g1
      dsimp only at g1
      rw [if_pos hsm'] at g1
      obtain ⟨o1, k1, g1⟩ := R.bind_inv g1
      obtain ⟨o2, k2, g1⟩ := R.bind_inv g1
      obtain ⟨rb, rfl, _⟩ := refreshNil_ok k2
      have hc := ex k1
      rw [if_neg (by show ¬ o1.comp.inComplete = true; rw [hc]; show ¬ o.comp.inComplete = true; simp [hcm])] at g1
      cases g1
      exact ⟨hc, rfl⟩
    · rw [key_interrupt] at g1
      unfold keyInterrupt at g1
      rw [if_pos hsm'] at g1
      obtain ⟨o1, k1, g1⟩ := R.bind_inv g1
      cases g1
      have hc := ex k1
      exact ⟨hc, rfl⟩
  obtain ⟨l1, l2⟩ := dispatch_leaves hf.listener g0 hk.2 (by rw [hk.1]; exact hns) (fun _ => by rw [hk.1]; exact hcm) e
  exact ⟨l2, l1⟩

theorem range_map_getD {α} (l : List α) (d : α) : (List.range l.length).map (fun i => l.getD i d) = l := by
  apply List.ext_getElem
  · simp
  · intro i h1 h2
    simp [h2]

/-- What the finder sees is what the search sees. -/
theorem OnStudy.view {o : Op} {w : Nat} {b : Book} {ds : List (List Rune)} {f : Finder} (h : OnStudy c w o ⟨b, ds, .find f⟩) :
    o.view = (b.sight f).named (fun i => o.hist.order.getD i 0) := by
  obtain ⟨t1, t2, t3, t4, t5, ⟨x, t6, t7⟩, t8, t9⟩ := h.tool
  obtain ⟨y, hc, hy⟩ := h.book.hist.pos (by intro a; rw [show b.pages = [] from a] at t8; exact absurd t8 (by decide))
  have hline : o.rb.buf = b.line.text := by have := h.book.line; show _ = (Study.book ⟨b, ds, .find f⟩).line.text; rw [← this, Ed.line_text]
  have hcur : o.rb.idx = b.line.left.length := by
    show _ = (Study.book ⟨b, ds, .find f⟩).line.left.length
    rw [← h.book.line]
    simp only [Ed.line, List.length_take]
    exact (Nat.min_eq_left h.inv.base.rb.idx).symm
  unfold Op.view Search.view Book.sight SView.named
  rw [t2, t3, t4, t5, hline, hcur, hc]
  simp [List.getD_eq_getElem?_getD, show o.hist.order[b.pos]? = some y from hy]

/-- One key of the study. -/
theorem iter_study (hf : Friendly c) (hp : Plain c) (hl : 0 < c.h.limit) {f : Completer} (ha : c.auto = some f) {w : Nat}
    {o : Op} {s s' : Study} (h : OnStudy c w o s) (hv : o.Live) {r : Rune} {rest : List Rune} (hi : o.inp = r :: rest)
    (hk : StudyKey ⟨⟨f, w, widthAll c.U, c.h.limit⟩, c.h.fold⟩ r s s') :
    ∃ o', o.iter c = .ok o' ∧ OnStudy c w o' s' ∧ o'.Live ∧ o'.inp = rest ∧ o'.hist.file = o.hist.file := by
  cases hk with
  | @desk _ b ds m b' m' hk hn =>
    obtain ⟨o', e1, e2, e3, e4, e5⟩ := iter_desk hf hp hl ha h.desk hv hi hk
    refine ⟨o', e1, e2.study ?_ (iter_tidy h.tidy e1), e3, e4, e5⟩
    obtain ⟨x, n1, n2⟩ := iter_notes hp h.desk hv hi hk hn e1 (e2.events.trans h.events.symm) e2.smode
    have hd := h.drafts
    subst hd
    refine drafts_jot h.inv.base.hist h.book.hist e2.book.hist (x := x) n1 hl ?_
    rw [n2]
    congr 1
    show _ = b'.line.text
    rw [← e2.book.line, Ed.line_text]
  | @list _ b ds m b' m' hk hn =>
    obtain ⟨o', e1, e2, e3, e4, e5⟩ := iter_desk hf hp hl ha h.desk hv hi hk
    have e6 := iter_highlight hp h.desk hv hi hk hn e1
    exact ⟨o', e1, e2.study (by rw [e6]; exact h.drafts) (iter_tidy h.tidy e1), e3, e4, e5⟩
  | @search _ b ds m hr h2 hlim =>
    obtain ⟨t1, t2, t3⟩ := h.tool
    have n : r ≠ 0 ∧ r ≠ CharEsc ∧ ¬ MenuKey r ∧ stopKey r = false := by rcases hr with rfl | rfl <;> exact ⟨by decide, by decide, by unfold MenuKey; decide, by decide⟩
    obtain ⟨n1, n2, n3, n4⟩ := n
    have hem : c.vim = false ∨ (o.vimNormal = false ∧ r ≠ CharEsc) := h.emacs.imp_right fun a => ⟨a, n2⟩
    obtain ⟨x, hc, hx⟩ := h.book.hist.pos (by intro a; rw [show b.pages = [] from a] at h2; exact absurd h2 (by decide))
    have fin : ∀ o1 : Op, o.iter c = o1.dispatch c r → Mid c o1 → o1.Tidy → o1.search = o.search → o1.hist = o.hist → Emacs c o1 → o1.rb.toEd = o.rb.toEd →
        o1.events = o.events → o1.stopped = o.stopped → o1.gate = false → o1.inp = rest →
        ∃ o', o.iter c = .ok o' ∧ OnStudy c w o' ⟨b, ds, .find ⟨[], r == 19, false, (0, 0), b.pos⟩⟩ ∧ o'.Live ∧ o'.inp = rest ∧ o'.hist.file = o.hist.file := by
      intro o1 q1 q2 q3 q4 q5 q6 q7 q8 q9 q10 q11
      obtain ⟨o', e1, e2, e3, e4, e5, e6, e7, e8, e9, e10, e11, e12, e13, e14, e15, e16⟩ :=
        dispatch_startSearch hf q2 q3 (by rw [q4]; exact t1) (by rw [q5]; exact hc) q6 hr
      rw [e1] at q1
      have e10 : o'.hist = o.hist := e10.trans q5
      refine ⟨o', q1, ⟨e2, ⟨by rw [e10]; exact h.book.hist, by rw [e11, q7]; exact h.book.line, by rw [e10]; exact h.book.enable, h.book.fits⟩,
        by rw [e10]; exact h.drafts, ⟨e3, e4, e5, e6, by rw [e7, e8], ⟨x, e9, by rw [e10]; exact hx⟩, h2, hlim⟩, iter_tidy h.tidy q1,
        q6.imp_right fun a => e14.trans a, (iter_same _ q1).width.trans h.width, (e12.trans q8).trans h.events, (e13.trans q9).trans h.running⟩,
        .inl (e15.trans q10), e16.trans q11, by rw [e10]⟩
    cases hsel : o.comp.inSelect with
    | false =>
      exact fin _ (iter_emacs hv hp.filter hi n1 hsel hem) ((h.inv.io _ _ _).mid hsel) h.tidy rfl rfl h.emacs rfl rfl rfl n4 rfl
    | true =>
      obtain ⟨rb, e1, e2, e3⟩ := iter_leave h.inv hv hp.filter hi n1 n3 hsel hem
      exact fin _ e1 e2 h.tidy rfl rfl h.emacs e3 rfl rfl n4 rfl
  | @seek _ b ds fd v i hk hpos =>
    obtain ⟨t1, t2, t3, t4, t5, ⟨x, t6, t7⟩, t8, t9⟩ := h.tool
    have t8 : 2 ≤ b.pages.length := t8
    have hr : SearchKey r ∨ r = 18 ∨ r = 19 := by
      cases hk with
      | text a b => exact .inl (.inl ⟨a, b⟩)
      | back a => exact .inl (.inr a)
      | backNone a => exact .inl (.inr a)
      | again a => exact .inr a
    obtain ⟨y, hc, hy⟩ := h.book.hist.pos (by intro a; rw [show b.pages = [] from a] at t8; exact absurd t8 (by decide))
    have hy : o.hist.order[b.pos]? = some y := hy
    have hlen : b.pages.length = o.hist.order.length := h.book.hist.length
    have hnd := h.inv.base.hist.nodup
    have hin : InSearch c o := ⟨h.inv, t1, ⟨y, hc, List.mem_of_getElem? hy⟩, h.emacs, hv, h.running⟩
    obtain ⟨o', e1, e2, e3, e4, e5⟩ := iter_inSearch hf hp.filter hin hr hi
    have e6 := iter_source hf hp.filter hin hr hi e1
    have hord : o.hist.order = (List.range b.pages.length).map fun i => o.hist.order.getD i 0 := by rw [hlen, range_map_getD]
    rw [h.view] at e5
    have e5 : SearchStep c.h.fold o.hist.showItem ((List.range b.pages.length).map fun i => o.hist.order.getD i 0) r
        ((b.sight fd).named fun i => o.hist.order.getD i 0) o'.view := by rw [← hord]; exact e5
    have hb : b.pos < b.pages.length := by rw [hlen]; exact (List.getElem?_eq_some_iff.1 hy).1
    obtain ⟨v', g1, g2, i', g3, g4⟩ := SearchStep.named (item' := fun i => b.pages.getD i [])
      (fun i hi => by
        have hi := List.mem_range.1 hi
        have hpg : b.pages[i]? = _ := h.book.hist.page (by have : b.pages.length = _ := hlen; omega) i
        simp only [List.getD_eq_getElem?_getD]
        rw [hpg, List.getElem?_eq_getElem (by omega)]
        rfl)
      (fun i hi j hj e => by
        have hi := List.mem_range.1 hi
        have hj := List.mem_range.1 hj
        simp only [List.getD_eq_getElem?_getD] at e
        rw [List.getElem?_eq_getElem (by omega), List.getElem?_eq_getElem (by omega)] at e
        exact (List.getElem_inj hnd).1 e)
      (v := b.sight fd) (c := b.pos) rfl (List.mem_range.2 hb) e5
    have := SearchStep.unique List.nodup_range hk g2
    subst this
    rw [hpos, Option.some.injEq] at g3
    subst g3
    have hil := List.mem_range.1 g4
    have hoi : o.hist.order[i]? = some (o.hist.order.getD i 0) := by
      rw [List.getD_eq_getElem?_getD, List.getElem?_eq_getElem (by omega)]; rfl
    have v1 : o'.search.data = v.text := congrArg SView.text g1
    have v2 : o'.search.fwd = v.fwd := congrArg SView.fwd g1
    have v3 : o'.search.failing = v.failing := congrArg SView.failing g1
    have v4 : o'.rb.buf = v.line := congrArg SView.line g1
    have v5 : o'.rb.idx = v.cursor := congrArg SView.cursor g1
    have v6 : (o'.search.markStart, o'.search.markEnd) = v.mark := congrArg SView.mark g1
    have v7 : o'.hist.current = some (o.hist.order.getD i 0) := by
      have : o'.hist.current = _ := congrArg SView.pos g1
      rw [this]
      show v.pos.map _ = _
      rw [hpos]; rfl
    have hh : o'.hist = { o.hist with current := some (o.hist.order.getD i 0) } := by rw [e4.hist, v7]
    refine ⟨o', e1, ⟨e3.inv, ⟨?_, ?_, ?_, ?_⟩, ?_, ⟨e3.mode, v1, v2, v3, v6, ?_, t8, t9⟩, iter_tidy h.tidy e1, e3.emacs,
      (iter_same _ e1).width.trans h.width, e4.events.trans h.events, e3.running⟩, e3.live, e2, by rw [hh]; rfl⟩
    · rw [hh]; exact h.book.hist.at hoi _
    · show (⟨o'.rb.buf.take o'.rb.idx, o'.rb.buf.drop o'.rb.idx, o'.rb.lastKill⟩ : Line) = _
      rw [v4, v5, e4.kill]
      have : o.rb.lastKill = b.line.kill := congrArg Line.kill h.book.line
      rw [this]; rfl
    · rw [hh]; exact h.book.enable
    · exact .inl t9
    · rw [hh]; exact h.drafts
    · rw [e6]
      by_cases hrr : r = 18 ∨ r = 19
      · rw [if_pos hrr, if_pos hrr]
        exact ⟨y, hc, by rw [hh]; exact hy⟩
      · rw [if_neg hrr, if_neg hrr]
        exact ⟨x, t6, by rw [hh]; exact t7⟩
  | @giveUp _ b ds fd b' hr hb =>
    obtain ⟨t1, t2, t3, t4, t5, ⟨x, t6, t7⟩, t8, t9⟩ := h.tool
    have t8 : 2 ≤ b.pages.length := t8
    have t7 : o.hist.order[fd.home]? = some x := t7
    have hlen : b.pages.length = o.hist.order.length := h.book.hist.length
    have hsr : Searching c x o o := ⟨h.inv, t1, t6, rfl, rfl, rfl, rfl, rfl, hv⟩
    obtain ⟨o', e1, e2, e3, e4, e5, e6, e7, e8, e9, e10, e11, e12⟩ := iter_cancelSearch hf hp.filter hsr h.emacs hr hi
    have hpg : b.pages[fd.home]? = _ := h.book.hist.page (by have : b.pages.length = _ := hlen; omega) fd.home
    rw [t7] at hpg
    have hpg : b.pages[fd.home]? = some (o.hist.showItem x) := hpg
    have hturn : b.turn fd.home = { b with pos := fd.home, line := b.line.setText (o.hist.showItem x) } := by
      unfold Book.turn; rw [hpg]
    have htx : (b.turn fd.home).line.text = o.hist.showItem x := by
      rw [hturn]; simp [Line.setText, Line.text]
    have hsa := h.book.hist.at t7 (b.line.setText (o.hist.showItem x))
    have hsa : ({ o.hist with current := some x } : Hist).Shows (b.turn fd.home) := by rw [hturn]; exact hsa
    have hwx : ({ o.hist with current := some x } : Hist).WF := by
      have w0 := h.inv.base.hist
      exact ⟨w0.nodup, w0.known, fun y hy => by injection hy with hy; rw [← hy]; exact w0.known _ (List.mem_of_getElem? t7), (fun a => by cases a), w0.version⟩
    have hpl : (b.turn fd.home).pages = b.pages := by rw [hturn]
    have hpo : (b.turn fd.home).pos = fd.home := by rw [hturn]
    obtain ⟨s1, s2, s3⟩ := hsa.note hl hwx (by rw [hpl]; have : b.pages.length ≤ _ := t9; omega)
    rw [htx, ← e5] at s1
    obtain ⟨c1, c2⟩ := iter_cancelComp hf hp.filter h.inv t1 hv h.emacs hr hi e1
    have hz : o'.rb.toEd.line = b'.line := by
      show (⟨o'.rb.buf.take o'.rb.idx, o'.rb.buf.drop o'.rb.idx, o'.rb.lastKill⟩ : Line) = _
      have : o.rb.lastKill = b.line.kill := congrArg Line.kill h.book.line
      rw [e6, e7, e8, this, hb, Book.note_line, hturn]
      simp [Line.setText]
    refine ⟨o', e1, ⟨e3, ⟨by rw [hb]; exact s1, hz, by rw [e5, update_enable]; exact h.book.enable, .inl (by rw [hb]; exact s3)⟩, ?_,
      ⟨e4, ⟨c1, c2⟩, fun _ => ?_⟩, iter_tidy h.tidy e1, h.emacs.imp_right fun a => e11.trans a,
      (iter_same _ e1).width.trans h.width, e9.trans h.events, e10.trans h.running⟩, e12, e2, by rw [e5, update_file]; rfl⟩
    · have hd := h.drafts
      subst hd
      refine drafts_jot h.inv.base.hist h.book.hist (x := some x) (by rw [hb]; exact s1) (fun a => by cases a) hl ?_
      rw [e5, hb, Book.note_line, htx]
    · show o'.hist.Noted b'.line.text
      rw [e5, hb, Book.note_line, htx]
      exact Hist.update_noted hl _ _
  | @keep _ b ds fd b' hb h1 h2 h3 =>
    obtain ⟨o', e1, e2, e3, e4⟩ := dispatch_found hf hp hl ((h.inv.io _ _ _).mid h.nosel) h.tool.1 h.emacs
      (o := o.took r rest) ⟨h.book.hist, h.book.line, h.book.enable, h.book.fits⟩ hb h1 h2 h3
    exact ⟨o', Step.onStudy hp hl h hv hi ⟨e3, e4⟩ h.nosel e1 e2⟩
  | @delete b ds fd b' hb =>
    subst hb
    obtain ⟨o', e1, e2⟩ := dispatch_foundDelete hf hp hl ((h.inv.io _ _ _).mid h.nosel) h.tool.1 h.emacs
      (o := o.took 4 rest) ⟨h.book.hist, h.book.line, h.book.enable, h.book.fits⟩
    exact ⟨o', Step.onStudy hp hl h hv hi (by decide) h.nosel e1 e2⟩
  | @tab b ds fd z m' b' hc hb =>
    subst hb
    obtain ⟨o', e1, e2⟩ := dispatch_foundTab hf hp hl ha ((h.inv.io _ _ _).mid h.nosel) h.tool.1 h.emacs
      (o := o.took 9 rest) ⟨h.book.hist, h.book.line, h.book.enable, h.book.fits⟩ hc
    exact ⟨o', Step.onStudy hp hl h hv hi (by decide) h.nosel e1 e2⟩

/-- The drafts after Enter. -/
theorem enter_drafts (hob : Observer c) {o o' : Op} (hw : o.hist.WF) {b : Book} (hs : o.hist.Shows b) (hen : o.hist.enable = true)
    (hline : o.rb.toEd.line = b.line) {r : Rune} (hr : r = 13 ∨ r = 10) (e : o.dispatch c r = .ok o') :
    o'.hist.drafts = b.filed (!c.noSave) c.h.limit o.hist.drafts (.line b.line.text) := by
  have ht : o.rb.buf = b.line.text := by rw [← hline, Ed.line_text]
  have hlen : b.pages = [] ↔ o.hist.order = [] := by
    have := hs.length
    constructor
    · intro a; rw [a] at this; exact List.eq_nil_of_length_eq_zero this.symm
    · intro a; rw [a] at this; exact List.eq_nil_of_length_eq_zero this
  obtain ⟨k, g1, f⟩ := dispatch_ok hob e
  rw [key_enter hr] at g1
  obtain ⟨a1, _, _, a4, _, _, _, _, _, _, a11, _, a13, a14⟩ := keyEnter_ok g1
  have s1 : o'.search.inMode = false := by
    cases hh : o'.search.inMode with
    | false => rfl
    | true => have := (f.smode.1 hh).2; rw [a11] at this; cases this
  have hbuf : k.op.rb.buf = [] := by show k.op.rb.toEd.buf = []; rw [a1]
  unfold Book.filed
  cases hn : c.noSave with
  | false =>
    obtain ⟨u1, u2⟩ := a13 hn
    rw [f.hist, if_pos ⟨u1, s1⟩, hbuf, drafts_new hw hen (fun a => hs.empty (hlen.2 a)) u2, ht, hs.stored]
    simp only [Bool.not_false, Bool.true_eq_false, if_false, hlen]
  | true =>
    obtain ⟨u1, u2⟩ := a14 hn
    rw [f.hist, if_neg (by rw [u1]; simp), u2]
    simp

theorem reverted_drafts {h h' : Hist} (r : Reverted h h') : h'.drafts = h.drafts := by
  unfold Hist.drafts; rw [r.order, r.elems]

/-- What Enter hands in during a search. -/
theorem committed_handed {h : Hist} (hw : h.WF) {b : Book} (hs : h.Shows b) (hp : b.pages ≠ []) :
    Hist.committed h b.line.text = b.handed h.drafts := by
  obtain ⟨x, hc, hx⟩ := hs.pos hp
  obtain ⟨hlt, hx'⟩ := List.getElem?_eq_some_iff.1 hx
  unfold Hist.committed Book.handed
  by_cases hl : b.pos + 1 < b.pages.length
  · rw [if_pos hl, if_neg, hc]
    · unfold Hist.drafts
      simp [List.getD_eq_getElem?_getD, hx]
    · rw [hc]
      intro a
      have hb : h.order[h.order.length - 1]? = some x := by
        rw [← List.getLast?_eq_getElem?]; exact a.symm
      obtain ⟨h1, h2⟩ := List.getElem?_eq_some_iff.1 hb
      have := (List.getElem_inj hw.nodup).1 (hx'.trans h2.symm)
      have := hs.length
      omega
  · rw [if_neg hl, if_pos]
    rw [hc]
    show _ = h.order.getLast?
    rw [List.getLast?_eq_getElem?, ← hx]
    have := hs.length
    congr 1
    omega

/-- A key that ends the line. -/
theorem iter_studyEnd (hf : Friendly c) (hp : Plain c) (hl : 0 < c.h.limit) {f : Completer} {w : Nat}
    {o : Op} {s : Study} {b' : Book} {ds' a : List (List Rune)} (h : OnStudy c w o s) (hv : o.Live) {r : Rune} {e : Event} {rest : List Rune} (hi : o.inp = r :: rest)
    (hk : StudyEnd (!c.noSave) ⟨⟨f, w, widthAll c.U, c.h.limit⟩, c.h.fold⟩ r s e a b' ds') :
    ∃ o', o.iter c = .ok o' ∧ Quiet c o' ∧ o'.inp = rest ∧ o'.events = [e] ∧ o'.stopped = false ∧ Emacs c o' ∧
      Shows c o' b' ∧ o'.rb.width = w ∧ o'.hist.fd = o.hist.fd ∧
      (o.hist.fd = .opened → s.book.pages ≠ [] → o'.hist.disk = o.hist.disk ++ fileOf a) ∧ o'.hist.drafts = ds' ∧ o'.Tidy := by
  cases hk with
  | @desk b ds m _ _ hk =>
    obtain ⟨o', e1, e2, e3, e4, e5, e6, e7, e8, e9, e10⟩ := iter_deskEnd hf hp hl h.desk hv hi hk
    refine ⟨o', e1, e2, e3, e4, e5, e6, e7, e8, e9, e10, ?_, iter_tidy h.tidy e1⟩
    have hd := h.drafts
    subst hd
    have ent : r = 13 ∨ r = 10 → o.comp.inSelect = false → o'.hist.drafts = b.filed (!c.noSave) c.h.limit o.hist.drafts (.line b.line.text) := by
      intro hr hns
      have n := stopKey_enter hr
      rw [iter_emacs hv hp.filter hi n.2.1 hns (h.emacs.imp_right fun a => ⟨a, n.2.2⟩)] at e1
      exact enter_drafts (o := o.took r rest) hp.listener h.inv.base.hist h.book.hist h.book.enable h.book.line hr e1
    cases hk with
    | plain hb =>
      have hq := h.desk.ready
      cases hb with
      | enter hr _ => exact ent hr h.tool.2.1.2
      | interrupt =>
        obtain ⟨o'', f1, _, _, _, _, _, _, f8⟩ := iter_interrupt hp hq.quiet hv hi
        rw [e1, Except.ok.injEq] at f1
        subst f1
        exact reverted_drafts f8
      | eof h0 =>
        have ht : o.rb.buf = b.line.text := by
          have := h.book.line
          show _ = (Study.book ⟨b, o.hist.drafts, .desk .closed⟩).line.text
          rw [← this, Ed.line_text]
        obtain ⟨o'', f1, _, _, _, _, _, _, f8⟩ := iter_eof hp hq.quiet hv h.emacs hi (by rw [ht]; exact h0)
        rw [e1, Except.ok.injEq] at f1
        subst f1
        exact reverted_drafts f8
    | listed hb hr =>
      cases hb with
      | enter _ _ => exact ent hr h.tool.2.1.2.1
      | interrupt => exact absurd hr (by decide)
      | eof => exact absurd hr (by decide)
  | @found b ds fd hr =>
    have hd := h.drafts
    subst hd
    obtain ⟨t1, _, _, _, _, _, t8, t9⟩ := h.tool
    have t8 : 2 ≤ b.pages.length := t8
    have hne : b.pages ≠ [] := by intro a; rw [a] at t8; exact absurd t8 (by decide)
    have hr' : r = CharEnter ∨ r = CharCtrlJ := hr
    obtain ⟨_, hr0, hre⟩ := stopKey_enter hr'
    have hn : r ≠ CharTranspose ∧ r ≠ CharKill ∧ r ≠ CharBell ∧ r ≠ CharInterrupt := by rcases hr with rfl | rfl <;> decide
    have hv' : c.vim = true → o.vimNormal = true → False := by
      intro a d
      rcases h.emacs with hv | hv
      · rw [hv] at a; cases a
      · rw [hv] at d; cases d
    have hs := h.book
    have hsh : o.hist.Shows b := hs.hist
    obtain ⟨o', g1, g2⟩ := dispatch_safe (r := r) hf ((h.inv.io _ _ _).mid h.nosel) (o := o.took r rest) (fun a => (hn.1 a).elim)
      (fun a => by rcases a with a | a; exact (hn.2.2.1 a).elim; exact (hn.2.2.2 a).elim) (fun a => (hn.2.1 a).elim) (fun a d => (hv' a d).elim)
    have hit : o.iter c = .ok o' := by
      rw [iter_emacs hv hp.filter hi hr0 h.nosel (h.emacs.imp_right fun a => ⟨a, hre⟩)]; exact g1
    obtain ⟨k, k1, k2⟩ := dispatch_ok hp.listener g1
    have k1' := k1
    rw [key_enter hr'] at k1
    obtain ⟨a1, _, a3, a4, a5, a6, a7, a8, a9, a10, a11, a12, a13, a14⟩ := keyEnter_ok k1
    obtain ⟨l1, l2⟩ := dispatch_leaves hp.listener k1' a12 (by rw [a5]; exact h.nosel) (fun a => by rw [a4] at a; cases a) g1
    have s1 : o'.search.inMode = false := by
      cases hh : o'.search.inMode with
      | false => rfl
      | true => have := (k2.smode.1 hh).2; rw [a11] at this; cases this
    have ht : o.rb.buf = b.line.text := by
      show _ = (Study.book ⟨b, o.hist.drafts, .find fd⟩).line.text
      rw [← hs.line, Ed.line_text]
    have hbuf : k.op.rb.buf = [] := by show k.op.rb.toEd.buf = []; rw [a1]
    have hcl : o'.rb.toEd.line = b.cleared := by rw [k2.line]; exact cleared_line (b := b) hs.line a1
    have hev : o'.events = [.line b.line.text] := by
      rw [k2.events, a3]
      show o.events ++ [Event.line o.rb.buf] = _
      rw [h.events, ht]; rfl
    have hdr : o'.hist.drafts = _ := enter_drafts (o := o.took r rest) hp.listener h.inv.base.hist hs.hist hs.enable hs.line hr g1
    refine ⟨o', hit, g2.quiet s1 ⟨l2, l1⟩, k2.inp.trans a6, hev, (k2.stopped.trans a9).trans h.running,
      h.emacs.imp_right fun a => (k2.vimNormal.trans a10).trans a, ?_⟩
    have rest1 : o'.rb.width = w := (iter_same _ hit).width.trans h.width
    have hord : o.hist.order ≠ [] := fun a => hne (List.length_eq_zero_iff.1 (by rw [hsh.length, a]; rfl))
    cases hns : c.noSave with
    | false =>
      obtain ⟨u1, u2⟩ := a13 hns
      have u2 : o.hist.new c.h o.rb.buf = .ok k.op.hist := u2
      rw [ht] at u2
      have hh : o'.hist = k.op.hist.update c.h [] false := by rw [k2.hist, if_pos ⟨u1, s1⟩, hbuf]
      obtain ⟨v1, v2⟩ := committed_record hl h.inv.base.hist hs.enable (.inl hord) u2
      rw [committed_handed h.inv.base.hist hsh hne, hsh.stored] at v1 v2
      obtain ⟨w1, w2⟩ := Hist.Shows.saved hl h.inv.base.hist hs.enable u2 v1 b.cleared
      refine ⟨?_, rest1, ?_, fun ho _ => ?_, hdr.trans (by rw [hns]; rfl), iter_tidy h.tidy hit⟩
      · refine ⟨by rw [hh]; exact w1, hcl, fun _ => ?_, by rw [hh]; exact w2, .inl ?_⟩
        · rw [hh]; exact Hist.update_noted hl _ _
        · show (keepNewest (c.h.limit - 1) _ ++ [[]]).length ≤ _
          have := Hist.keepNewest_length (c.h.limit - 1) (if b.line.text = [] ∨ b.stored.getLast? = some b.line.text then b.stored else b.stored ++ [b.handed o.hist.drafts])
          simp only [List.length_append, List.length_singleton]
          omega
      · rw [hh]
        exact (congrArg Prod.snd (update_file k.op.hist c.h [])).trans (new_fd u2)
      · rw [hh, v2]
        congr 1
        rw [added]
        by_cases hc : b.line.text ≠ [] ∧ b.stored.getLast? ≠ some b.line.text
        · rw [if_pos ⟨hc.1, hc.2, hord, ho⟩, if_pos ⟨rfl, hc⟩]
          simp [fileOf]
        · rw [if_neg fun a => hc ⟨a.1, a.2.1⟩, if_neg fun a => hc a.2]
          rfl
    | true =>
      obtain ⟨u1, u2⟩ := a14 hns
      have u2 : k.op.hist = o.hist := u2
      have hh : o'.hist = o.hist := by rw [k2.hist, if_neg (by rw [u1]; simp), u2]
      refine ⟨⟨by rw [hh]; exact ⟨hsh.stored, hsh.length, hsh.pages, hsh.pos, hsh.empty, hsh.rest⟩, hcl, (fun a => by rw [hns] at a; cases a),
        by rw [hh]; exact hs.enable, hs.fits⟩, rest1, by rw [hh], fun _ _ => by rw [hh]; simp [added, fileOf], hdr.trans (by rw [hns]; rfl), iter_tidy h.tidy hit⟩

theorem await_study (hf : Friendly c) (hp : Plain c) (hl : 0 < c.h.limit) {f : Completer} (ha : c.auto = some f) {w : Nat} {keys : List Rune}
    {s s' : Study} (hk : StudyKeys ⟨⟨f, w, widthAll c.U, c.h.limit⟩, c.h.fold⟩ keys s s') :
    ∀ {o : Op} {rest : List Rune}, OnStudy c w o s → o.Live → o.inp = keys ++ rest →
    ∃ o', (∀ n, await c (n + keys.length) o = await c n o') ∧ OnStudy c w o' s' ∧ o'.Live ∧ o'.inp = rest ∧ o'.hist.file = o.hist.file := by
  induction hk with
  | nil => intro o rest h hv hi; exact ⟨o, fun _ => rfl, h, hv, hi, rfl⟩
  | @cons r ks d d1 d2 hr _ ih =>
    intro o rest h hv hi
    obtain ⟨o1, e1, e2, e3, e4, e5⟩ := iter_study hf hp hl ha h hv (rest := ks ++ rest) hi hr
    obtain ⟨o', f1, f2, f3, f4, f5⟩ := ih (o := o1) (rest := rest) e2 e3 e4
    refine ⟨o', fun n => ?_, f2, f3, f4, f5.trans e5⟩
    show await c (n + ks.length + 1) o = _
    rw [await_step h.events h.running e1, f1]

end Op

/-- C82, one call: any keys of the study, then a key that ends the line.  `Readline` returns what the study says, the session then shows
the next state of the notebook and no tool, and what was handed in has been appended to the history file. -/
theorem C82_readline_partial {c : OCfg} (hf : Op.Friendly c) (hp : Op.Plain c) (hl : 0 < c.h.limit) {f : Completer} (ha : c.auto = some f) {w : Nat}
    {o : Op} (h : Ready c o) (ht : o.Tidy) (hw : o.rb.width = w) {b b2 : Book} {s : Study} (hs : Op.Shows c o b) {ds2 a : List (List Rune)}
    {keys rest : List Rune} {r : Rune} {e : Event} (hi : o.inp = keys ++ r :: rest)
    (hk : StudyKeys ⟨⟨f, w, widthAll c.U, c.h.limit⟩, c.h.fold⟩ keys ⟨b, o.hist.drafts, .desk .closed⟩ s)
    (hr : StudyEnd (!c.noSave) ⟨⟨f, w, widthAll c.U, c.h.limit⟩, c.h.fold⟩ r s e a b2 ds2) {fuel : Nat} (hfuel : keys.length < fuel) :
    ∃ o', o.readline c fuel = .ok (e, o') ∧ Ready c o' ∧ o'.Tidy ∧ o'.inp = rest ∧ Op.Shows c o' b2 ∧ o'.rb.width = w ∧ o'.hist.drafts = ds2 ∧
      o'.hist.fd = o.hist.fd ∧ (o.hist.fd = .opened → s.book.pages ≠ [] → o'.hist.disk = o.hist.disk ++ fileOf a) := by
  obtain ⟨r1, q1, q2, q3, q4⟩ := h.quiet.base.refreshNil
  have a1 : o.readline c fuel = Op.await c fuel (Op.kickRead { o with rb := r1 }) := by unfold Op.readline; rw [q1, R.bind_ok]
  have hq : Op.Quiet c (Op.kickRead { o with rb := r1 }) :=
    ⟨⟨q4.rb, q4.hist, q4.sw, q4.cw, q4.col⟩, h.quiet.smode, h.quiet.marks, h.quiet.cmode, h.quiet.nosel⟩
  have h1 : Op.OnStudy c w (Op.kickRead { o with rb := r1 }) ⟨b, o.hist.drafts, .desk .closed⟩ :=
    ⟨hq.inv, ⟨hs.hist, by show r1.toEd.line = _; rw [q2]; exact hs.line, hs.enable, hs.fits⟩, rfl,
      ⟨h.quiet.smode, ⟨h.quiet.cmode, h.quiet.nosel⟩, hs.noted⟩, ht, h.emacs, q3.width.trans hw, h.events, h.running⟩
  obtain ⟨o2, b1, b2, b3, b4, b5⟩ := Op.await_study hf hp hl ha hk h1 (.inr rfl) hi
  obtain ⟨o3, d1, d2, d3, d4, d5, d6, d7, d8, d9, d10, d11, d12⟩ := Op.iter_studyEnd hf hp hl b2 b3 b4 hr
  obtain ⟨m, rfl⟩ : ∃ m, fuel = (m + 1) + keys.length := ⟨fuel - keys.length - 1, by omega⟩
  refine ⟨{ o3 with events := [] }, ?_, ⟨d2.events _, d6, rfl, d5⟩, d12, d3, ⟨d7.hist, d7.line, d7.noted, d7.enable, d7.fits⟩, d8, d11,
    d9.trans (congrArg Prod.snd b5), fun x y => ?_⟩
  · rw [a1, b1, Op.await_step b2.events b2.running d1, Op.await_done d4]
  · have g1 : o2.hist.disk = o.hist.disk := congrArg Prod.fst b5
    have g2 : o2.hist.fd = o.hist.fd := congrArg Prod.snd b5
    rw [← g1]
    exact d10 (g2.trans x) y

/-- C82.  For a whole session with the editing keys, Ctrl-P, Ctrl-N, completion, incremental search, Enter, Ctrl-C and Ctrl-D: the calls of
`Readline` return what the notebook, the list and the finder say, and the entries then stored, the line, the page shown and the drafts are
those of the notebook. -/
theorem C82_session_partial {c : OCfg} (hf : Op.Friendly c) (hp : Op.Plain c) (hl : 0 < c.h.limit) {f : Completer} (ha : c.auto = some f) {w : Nat}
    {keys : List Rune} {b b' : Book} {ds ds' : List (List Rune)} {es : List Event}
    (hr : StudyRun (!c.noSave) ⟨⟨f, w, widthAll c.U, c.h.limit⟩, c.h.fold⟩ keys b ds es b' ds') :
    ∀ {o : Op} {rest : List Rune}, Ready c o → o.Tidy → o.rb.width = w → Op.Shows c o b → o.hist.drafts = ds → o.inp = keys ++ rest →
    ∀ {fuel : Nat}, keys.length < fuel →
    ∃ o', calls c fuel es.length o = .ok es ∧ after c fuel es.length o = .ok o' ∧ Ready c o' ∧ o'.inp = rest ∧ Op.Shows c o' b' ∧ o'.hist.drafts = ds' := by
  induction hr with
  | done => intro o rest h ht hw hs hd hi fuel _; exact ⟨o, rfl, rfl, h, hi, hs, hd⟩
  | @call ks r keys b ds s1 b2 ds2 b3 ds3 e a es hk he _ ih =>
    intro o rest h ht hw hs hd hi fuel hfuel
    subst hd
    simp only [List.length_append, List.length_cons] at hfuel
    obtain ⟨o1, e1, e2, e3, e4, e5, e6, e7, _⟩ := C82_readline_partial hf hp hl ha h ht hw hs (rest := keys ++ rest) (by rw [hi]; simp) hk he (fuel := fuel) (by omega)
    obtain ⟨o2, f1, f2, f3⟩ := ih e2 e3 e6 e5 e7 e4 (fuel := fuel) (by omega)
    refine ⟨o2, ?_, ?_, f3⟩
    · show (o.readline c fuel >>= fun p => calls c fuel es.length p.2 >>= fun l => .ok (p.1 :: l)) = _
      rw [e1, R.bind_ok]
      dsimp only
      rw [f1]; rfl
    · show (o.readline c fuel >>= fun p => after c fuel es.length p.2) = _
      rw [e1, R.bind_ok]
      exact f2

/-- If the draft of the page found is what the page shows, Enter during a search records the line it returns. -/
theorem C82_recorded {save : Bool} {limit : Int} {b : Book} {ds : List (List Rune)} (h : b.pos + 1 < b.pages.length → ds.getD b.pos [] = b.line.text) :
    b.submitAs save limit (b.handed ds) = b.submit save limit := by
  have : b.handed ds = b.line.text := by
    unfold Book.handed
    split
    · next hl => exact h hl
    · rfl
  rw [this]
  unfold Book.submitAs Book.submit record
  rfl

theorem loadLines_drafts (cfg : HCfg) (ls : List (List Nat)) (h : Hist) (hv : ∀ i, (h.elems i).tmp = []) :
    ∀ i, ((Hist.loadLines cfg ls h).elems i).tmp = [] := by
  induction ls generalizing h with
  | nil => exact hv
  | cons l ls ih =>
    unfold Hist.loadLines
    split
    · exact ih h hv
    · refine ih _ fun i => ?_
      simp only [Hist.compact, Hist.push, Hist.setItem]
      split
      · rfl
      · exact hv i

/-- At the start of a session all drafts are empty. -/
theorem C82_start (cfg : HCfg) (hf : cfg.hasFile = true) (ho : cfg.openOK = true) (disk : List Nat) :
    (Hist.start cfg disk).drafts = List.replicate (Hist.start cfg disk).order.length [] := by
  have main : ∀ i, ((Hist.start cfg disk).elems i).tmp = [] := by
    have kv := loadLines_drafts cfg (Hist.termLines [] disk) { Hist.fresh disk with fd := .opened } (fun _ => rfl)
    have rw1 : ∀ g : Hist, (g.rewrite cfg).elems = g.elems := by
      intro g; unfold Hist.rewrite; split <;> rfl
    have fin : ∀ g : Hist, (∀ i, (g.elems i).tmp = []) → ∀ i, ((({ g with ver := g.ver + 1 } : Hist).push []).elems i).tmp = [] := by
      intro g h1 i
      simp only [Hist.push, Hist.setItem]
      split
      · rfl
      · exact h1 i
    unfold Hist.start Hist.init
    rw [if_neg (by simp [Hist.fresh]), if_pos hf]
    unfold Hist.updatePath
    rw [if_neg (by simp [ho])]
    dsimp only
    split
    · exact fin _ (by rw [rw1]; exact kv)
    · exact fin _ kv
  unfold Hist.drafts
  rw [List.map_congr_left (g := fun _ => []) (fun i _ => main i)]
  simp [List.map_const']

theorem occurs_one {l : List Rune} {a : Rune} {j : Nat} : OccursAt false l [a] j ↔ l[j]? = some a := by
  constructor
  · rintro ⟨pre, mid, post, rfl, rfl, h⟩
    cases h with
    | cons h1 h2 =>
      cases h2
      have h1 : _ = a := h1
      subst h1
      simp
  · intro h
    obtain ⟨h1, h2⟩ := List.getElem?_eq_some_iff.1 h
    refine ⟨l.take j, [a], l.drop (j + 1), ?_, by simp; omega, .cons rfl .nil⟩
    rw [List.append_assoc, List.singleton_append, ← h2, List.getElem_cons_drop, List.take_append_drop]

def cfg82 : StudyCfg := ⟨⟨afterOne, 80, widthAll U0, 500⟩, false⟩

/-- "b" is stored.  Ctrl-R and "b" find it, Ctrl-E keeps it, "c" is added. -/
theorem keys82 : StudyKeys cfg82 [18, 98, 5, 99] ⟨⟨[[98]], [], [[98], []], 1, ⟨[], [], []⟩⟩, [[], []], .desk .closed⟩
    ⟨⟨[[98]], [], [[98, 99], []], 0, ⟨[98, 99], [], []⟩⟩, [[98, 99], []], .desk .closed⟩ := by
  refine .cons (.search (.inl rfl) (by decide) (by decide)) (.cons (s' := ⟨⟨[[98]], [], [[98], []], 0, ⟨[], [98], []⟩⟩, [[], []], .find ⟨[98], false, false, (0, 1), 1⟩⟩)
    (.seek (i := 0) (v := ⟨[98], false, false, [98], 0, (0, 1), some 0⟩) (.text (by decide) (by decide)
      (.found (c := 1) (cs := [1, 0]) (e := 0) (j := 0) (by decide) rfl ⟨[0], [], rfl, rfl⟩
        ⟨[1], [], rfl, ⟨0, occurs_one.2 rfl, fun a => by cases a⟩, ?_⟩ ⟨occurs_one.2 rfl, fun a => by cases a⟩ ?_)) rfl)
    (.cons (s' := ⟨⟨[[98]], [], [[98], []], 0, ⟨[98], [], []⟩⟩, [[98], []], .desk .closed⟩) (.keep (.edit (z := ⟨[98], [], []⟩) (.inl rfl)) (by decide) (by decide) (by decide))
    (.cons (.desk (.plain (.edit (z := ⟨[98, 99], [], []⟩) (.inl rfl))) id) .nil)))
  · rintro y hy ⟨j, h1, _⟩
    simp only [List.mem_singleton] at hy
    subst hy
    have := occurs_one.1 h1
    cases this
  · rintro k ⟨h1, _⟩
    have h1 := occurs_one.1 h1
    show k ≤ 0
    match k, h1 with
    | 0, _ => exact Nat.le_refl _
    | k + 1, h1 => cases h1

/-- "b" is stored.  Ctrl-R finds nothing to "x", Ctrl-G goes back.  Then Ctrl-R "b" Enter: "b" is returned, but nothing is recorded, since it is
the last entry. -/
example : StudyKeys cfg82 [18, 120, 7, 18] ⟨⟨[[98]], [], [[98], []], 1, ⟨[], [], []⟩⟩, [[], []], .desk .closed⟩
    ⟨⟨[[98]], [], [[98], []], 1, ⟨[], [], []⟩⟩, [[], []], .find ⟨[], false, false, (0, 0), 1⟩⟩ := by
  refine .cons (.search (.inl rfl) (by decide) (by decide)) (.cons (s' := ⟨⟨[[98]], [], [[98], []], 1, ⟨[], [], []⟩⟩, [[], []], .find ⟨[120], false, true, (0, 0), 1⟩⟩)
    (.seek (i := 1) (v := ⟨[120], false, true, [], 0, (0, 0), some 1⟩) (.text (by decide) (by decide)
      (.none (c := 1) (cs := [1, 0]) (by decide) rfl ⟨[0], [], rfl, rfl⟩ ?_)) rfl)
    (.cons (.giveUp (.inl rfl) rfl) (.cons (.search (.inl rfl) (by decide) (by decide)) .nil)))
  rintro e he j ⟨h1, _⟩
  have h1 := occurs_one.1 h1
  simp only [List.mem_cons, List.not_mem_nil, or_false] at he
  rcases he with rfl | rfl
  · cases h1
  · match j, h1 with
    | 0, h1 => cases h1
    | j + 1, h1 => cases h1

/-- "b" Enter, then Ctrl-R "b" Ctrl-E "c" Enter. -/
theorem run82 : StudyRun true cfg82 [98, 13, 18, 98, 5, 99, 13] Book.empty [] [.line [98], .line [98, 99]]
    ⟨[[98], [98, 99]], [], [[98], [98, 99], []], 2, ⟨[], [], []⟩⟩ [[98, 99], [], []] :=
  .call (ks := [98]) (s1 := ⟨⟨[], [98], [[98]], 0, ⟨[98], [], []⟩⟩, [[]], .desk .closed⟩) (.cons (.desk (.plain (.edit (z := ⟨[98], [], []⟩) (.inl rfl))) id) .nil)
    (.desk (.plain (.enter (.inl rfl) (by decide)))) (.call keys82 (.desk (.plain (.enter (.inl rfl) (by decide)))) .done)

theorem friendly_desk1 : Op.Friendly desk1 := by
  refine ⟨fun f h => ?_, by simp [desk1, c0]⟩
  simp only [desk1, Option.some.injEq] at h
  subst h
  intro l p cs off _ e hne
  unfold afterOne at e
  split at e
  · cases e
    refine ⟨by decide, by omega, fun a b c _ hb => ?_⟩
    have : b = [] := List.length_eq_zero_iff.1 hb
    subst this
    decide
  · cases e
    exact (hne rfl).elim

/-- The hypotheses of `C82_session_partial` hold for that session, and the model agrees. -/
example : Op.Friendly desk1 ∧ Op.Plain desk1 ∧ Ready desk1 (o0 [98, 13, 18, 98, 5, 99, 13]) ∧ (o0 [98, 13, 18, 98, 5, 99, 13]).Tidy ∧
    Op.Shows desk1 (o0 [98, 13, 18, 98, 5, 99, 13]) Book.empty ∧ (o0 [98, 13, 18, 98, 5, 99, 13]).hist.drafts = [] ∧
    calls desk1 20 2 (o0 [98, 13, 18, 98, 5, 99, 13]) = .ok [.line [98], .line [98, 99]] :=
  ⟨friendly_desk1, ⟨rfl, by simp [Op.Observer, desk1, c0]⟩, init_Ready (p := 2) (by decide) rfl (by decide) (by decide) (Hist.fresh_WF _),
    fun _ => ⟨rfl, rfl⟩, C67_start _ _ _ _ _, rfl, by decide +kernel⟩

/-- The line accepted in a search is not recorded: with "ab" and "cd" in the history file, Ctrl-R "a" Enter returns "ab" but stores an empty
entry, and writes an empty line to the file. -/
theorem C82_false_record : let c : OCfg := { desk1 with h := ⟨500, true, false, true⟩ }
    let o : Op := { o0 [18, 97, 13] with hist := Hist.start ⟨500, true, false, true⟩ (fileOf [[97, 98], [99, 100]]) }
    firstResult c o = .ok (.line [97, 98]) ∧
    ((after c 20 1 o).map fun o => (o.hist.entries, o.hist.disk)) = .ok ([[97, 98], [99, 100], []], fileOf [[97, 98], [99, 100], []]) := by decide +kernel

/-- A search as the first thing in a session, in a history as long as the limit, can end on an element that the next key drops: with "ab" and
"cd" in the file and a limit of 2, Ctrl-R "a" Ctrl-A Ctrl-N Enter returns "ab"; with a limit of 3 Ctrl-N goes on to "cd". -/
theorem C82_false_full : let o : Int → Op := fun n => { o0 [18, 97, 1, 14, 13] with hist := Hist.start ⟨n, true, false, true⟩ (fileOf [[97, 98], [99, 100]]) }
    firstResult { desk1 with h := ⟨2, true, false, true⟩ } (o 2) = .ok (.line [97, 98]) ∧
    firstResult { desk1 with h := ⟨3, true, false, true⟩ } (o 3) = .ok (.line [99, 100]) := by decide +kernel

end RL
