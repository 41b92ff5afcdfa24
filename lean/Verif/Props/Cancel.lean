import Verif.Proofs.Synced
/-! # C28: cancelling a search restores the line -/

namespace RL
open Spec RB Ed

/-- The keys that refine a search: text, backspace, Ctrl-H. -/
def Spec.SearchKey (r : Rune) : Prop := (32 ≤ r ∧ r ≠ 127) ∨ r = 127 ∨ r = 8

/-- The line is what the history shows for its current element. -/
def Op.InStep (o : Op) (x : Nat) : Prop := o.hist.current = some x ∧ o.hist.showItem x = o.rb.buf

namespace Op
variable {c : OCfg}

theorem settle_search {k : KeyRes} {o' : Op} (hk : k.keepSearch = true) (h : settle c k = .ok o') : o'.search = k.op.search := by
  unfold settle at h
  rw [if_neg (by simp [hk])] at h
  by_cases h2 : k.op.comp.inComplete = true
  · rw [if_pos h2] at h
    by_cases h3 : k.keepComplete = false
    · rw [if_pos h3] at h
      obtain ⟨r, rfl, _, _⟩ := refresh_ok' h
      rfl
    · rw [if_neg h3] at h
      obtain ⟨o1, e1, h⟩ := R.bind_inv h
      obtain ⟨r, rfl, _, _⟩ := refreshNil_ok e1
      obtain ⟨_, e2, _⟩ := completeRefresh_ok h
      exact e2
  · rw [if_neg h2] at h
    cases h; rfl

theorem finish_search {k : KeyRes} {o' : Op} (hk : k.keepSearch = true) (h : finish c k = .ok o') : o'.search = k.op.search := by
  obtain ⟨o1, h1, h⟩ := R.bind_inv h
  have := settle_search hk h1
  split at h
  · cases h; exact this
  · cases h; exact this

/-- A search is running that started at element `x` of the history `h`; nothing else has happened since. -/
structure Searching (c : OCfg) (x : Nat) (o0 o : Op) : Prop where
  inv : Inv c o
  mode : o.search.inMode = true
  source : o.search.source = some x
  hist : o.hist = { o0.hist with current := o.hist.current }
  kill : o.rb.lastKill = o0.rb.lastKill
  events : o.events = o0.events
  stopped : o.stopped = o0.stopped
  vimNormal : o.vimNormal = o0.vimNormal
  live : o.Live

theorem Searching.nosel {x o0} {o : Op} (h : Searching c x o0 o) : o.comp.inSelect = false := by
  have := h.inv.excl h.mode
  cases hs : o.comp.inSelect with
  | false => rfl
  | true => rw [(h.inv.comp.sel hs).1] at this; cases this

theorem searchKey_plain {r : Rune} (h : SearchKey r) : stopKey r = false ∧ r ≠ 0 ∧ r ≠ CharEsc ∧ r ≠ CharTranspose ∧ r ≠ CharBell ∧
    r ≠ CharInterrupt ∧ r ≠ CharKill ∧ r ≠ CharTab ∧ r ≠ CharBckSearch ∧ r ≠ CharFwdSearch := by
  unfold stopKey CharEsc CharTranspose CharBell CharInterrupt CharKill CharTab CharBckSearch CharFwdSearch CharEnter CharCtrlJ CharDelete
  unfold SearchKey at h
  refine ⟨?_, ?_, ?_, ?_, ?_, ?_, ?_, ?_, ?_, ?_⟩
  · simp only [Bool.or_eq_false_iff, beq_eq_false_iff_ne]; omega
  all_goals omega

theorem live_took {o : Op} (h : o.Live) {r : Rune} {rest} (hr : stopKey r = false) : (o.took r rest).Live := .inl hr

/-- A key that refines the search. -/
theorem iter_searchKey (hf : Friendly c) (hp : c.filter = none) {x : Nat} {o0 o : Op} (h : Searching c x o0 o) (hv : Emacs c o)
    {r : Rune} {rest : List Rune} (hr : SearchKey r) (hi : o.inp = r :: rest) :
    ∃ o', o.iter c = .ok o' ∧ Searching c x o0 o' ∧ o'.inp = rest := by
  obtain ⟨hst, n0, n1, n2, n3, n4, n5, n6, n7, n8⟩ := searchKey_plain hr
  have hns := h.nosel
  have hm : Mid c (o.took r rest) := (h.inv.io _ _ _).mid hns
  obtain ⟨o', e1, e2⟩ := dispatch_safe (r := r) hf hm (fun a => (n2 a).elim)
    (fun a => a.elim (fun a => (n3 a).elim) (fun a => (n4 a).elim)) (fun a => (n5 a).elim)
    (fun _ _ => ⟨n6, n7, n8⟩)
  have e0 : o.iter c = .ok o' := by
    rw [iter_emacs h.live hp hi n0 hns (hv.imp_right fun a => ⟨a, n1⟩)]; exact e1
  obtain ⟨k, g1, g2⟩ := R.bind_inv e1
  rw [listen_observer hf.listener, R.bind_ok] at g2
  have hsm : (o.took r rest).search.inMode = true := h.mode
  -- the key switch
  have step : ∃ s hi rb, k = { op := { o.took r rest with search := s, hist := hi, rb := rb }, keepSearch := true } ∧
      s.inMode = true ∧ s.source = some x ∧ rb.lastKill = o.rb.lastKill ∧ hi = { o.hist with current := hi.current } := by
    have main : ∀ data s hi rb, Search.search c.U c.d c.h true { o.search with data := data } o.hist o.rb = .ok (s, hi, rb) →
        s.inMode = true ∧ s.source = some x ∧ rb.lastKill = o.rb.lastKill ∧ hi = { o.hist with current := hi.current } := by
      intro data s hi rb e
      obtain ⟨k1, k2, _, _, _, k6, k7⟩ := Search.search_ok e
      refine ⟨k1.trans h.mode, k2.trans h.source, k6, ?_⟩
      rcases k7 with ⟨k7, _⟩ | ⟨_, _, _, k7, _⟩ <;> rw [k7]
    rcases hr with ⟨a, b⟩ | hb
    · rw [key_text a b] at g1
      unfold keyText at g1
      rw [if_pos hsm] at g1
      obtain ⟨o1, g3, g1⟩ := R.bind_inv g1
      obtain ⟨⟨s, hi, rb⟩, g4, g3⟩ := R.bind_inv g3
      cases g3; cases g1
      exact ⟨s, hi, rb, rfl, main _ _ _ _ g4⟩
    · rw [key_backspace hb] at g1
      unfold keyBackspace at g1
      rw [if_pos hsm] at g1
      obtain ⟨o1, g3, g1⟩ := R.bind_inv g1
      obtain ⟨⟨s, hi, rb⟩, g4, g3⟩ := R.bind_inv g3
      cases g3; cases g1
      refine ⟨s, hi, rb, rfl, ?_⟩
      unfold Search.searchBackspace at g4
      split at g4
      · exact main _ _ _ _ g4
      · cases g4; exact ⟨h.mode, h.source, rfl, rfl⟩
  obtain ⟨s, hi', rb, rfl, s1, s2, s3, s4⟩ := step
  have f := finish_ok g2
  have fs : o'.search = s := finish_search rfl g2
  have fm : o'.search.inMode = true := by rw [fs]; exact s1
  have fh : o'.hist = hi' := by rw [f.hist, if_neg (by simp [fm])]
  refine ⟨o', e0, ⟨e2, fm, by rw [fs]; exact s2, ?_, ?_, f.events.trans h.events, f.stopped.trans h.stopped, f.vimNormal.trans h.vimNormal,
    .inl (f.gate.trans hst)⟩, f.inp⟩
  · rw [fh, s4, h.hist]
  · show o'.rb.toEd.lastKill = _
    rw [f.line]; exact s3.trans h.kill

/-- Ctrl-R or Ctrl-S outside a search. -/
theorem iter_startSearch (hf : Friendly c) (hp : c.filter = none) {x : Nat} {o : Op} (hinv : Inv c o) (hsel : o.comp.inSelect = false)
    (hsm : o.search.inMode = false) (hc : o.hist.current = some x) (hl : o.Live) (hv : Emacs c o)
    {r : Rune} {rest : List Rune} (hr : r = CharBckSearch ∨ r = CharFwdSearch) (hi : o.inp = r :: rest) :
    ∃ o', o.iter c = .ok o' ∧ Searching c x o o' ∧ o'.inp = rest := by
  have n : stopKey r = false ∧ r ≠ 0 ∧ r ≠ CharEsc ∧ r ≠ CharTranspose ∧ r ≠ CharBell ∧ r ≠ CharInterrupt ∧ r ≠ CharKill := by
    rcases hr with rfl | rfl <;> decide
  obtain ⟨hst, n0, n1, n2, n3, n4, n5⟩ := n
  have hm : Mid c (o.took r rest) := (hinv.io _ _ _).mid hsel
  obtain ⟨o', e1, e2⟩ := dispatch_safe (r := r) hf hm (fun a => (n2 a).elim)
    (fun a => a.elim (fun a => (n3 a).elim) (fun a => (n4 a).elim)) (fun a => (n5 a).elim)
    (fun a b => by
      rcases hv with d | d
      · rw [d] at a; cases a
      · exact absurd b (by show ¬ o.vimNormal = true; simp [d]))
  have e0 : o.iter c = .ok o' := by
    rw [iter_emacs hl hp hi n0 hsel (hv.imp_right fun a => ⟨a, n1⟩)]; exact e1
  obtain ⟨k, g1, g2⟩ := R.bind_inv e1
  rw [listen_observer hf.listener, R.bind_ok] at g2
  have hw0 : ¬ o.search.width = 0 := by have := hinv.base.sw; have := hinv.base.rb.width; omega
  rw [key_search hr] at g1
  have step : ∃ s rb, k = { op := { o.took r rest with search := s, rb := rb }, keepSearch := true } ∧
      s.inMode = true ∧ s.source = some x ∧ rb.toEd = o.rb.toEd := by
    unfold keySearch at g1
    obtain ⟨⟨ok, o1⟩, g3, g1⟩ := R.bind_inv g1
    obtain ⟨⟨ok', s, hi, rb⟩, g4, g3⟩ := R.bind_inv g3
    cases g3
    unfold Search.searchMode at g4
    rw [if_neg (show ¬ (o.took r rest).search.width = 0 from hw0)] at g4
    dsimp only at g4
    rw [if_neg (by show ¬ o.search.inMode = true; simp [hsm])] at g4
    obtain ⟨⟨s1, r1⟩, g5, g4⟩ := R.bind_inv g4
    cases g4
    dsimp only at g1
    cases g1
    obtain ⟨rfl, g6, _⟩ := Search.searchRefresh_ok g5
    exact ⟨_, _, rfl, rfl, hc, g6⟩
  obtain ⟨s, rb, rfl, s1, s2, s3⟩ := step
  have f := finish_ok g2
  have fs : o'.search = s := finish_search rfl g2
  have fm : o'.search.inMode = true := by rw [fs]; exact s1
  have fh : o'.hist = o.hist := by rw [f.hist, if_neg (by simp [fm])]; rfl
  refine ⟨o', e0, ⟨e2, fm, by rw [fs]; exact s2, by rw [fh], ?_, f.events, f.stopped, f.vimNormal, .inl (f.gate.trans hst)⟩, f.inp⟩
  show o'.rb.toEd.lastKill = _
  rw [f.line]; show rb.toEd.lastKill = _; rw [s3]

/-- Ctrl-G or Ctrl-C during a search. -/
theorem iter_cancelSearch (hf : Friendly c) (hp : c.filter = none) {x : Nat} {o0 o : Op} (h : Searching c x o0 o) (hv : Emacs c o)
    {r : Rune} {rest : List Rune} (hr : r = CharBell ∨ r = CharInterrupt) (hi : o.inp = r :: rest) :
    ∃ o', o.iter c = .ok o' ∧ o'.inp = rest ∧ Inv c o' ∧ o'.search.inMode = false ∧
      o'.hist = ({ o0.hist with current := some x } : Hist).update c.h (o0.hist.showItem x) false ∧
      o'.rb.buf = o0.hist.showItem x ∧ o'.rb.idx = (o0.hist.showItem x).length ∧ o'.rb.lastKill = o0.rb.lastKill ∧
      o'.events = o0.events ∧ o'.stopped = o0.stopped ∧ o'.vimNormal = o0.vimNormal ∧ o'.Live := by
  have hns := h.nosel
  have n : r ≠ 0 ∧ r ≠ CharEsc ∧ r ≠ CharTranspose ∧ r ≠ CharKill ∧ r ≠ CharTab ∧ r ≠ CharBckSearch ∧ r ≠ CharFwdSearch := by
    rcases hr with rfl | rfl <;> decide
  obtain ⟨n0, n1, n2, n3, n4, n5, n6⟩ := n
  have hm : Mid c (o.took r rest) := (h.inv.io _ _ _).mid hns
  obtain ⟨o', e1, e2⟩ := dispatch_safe (r := r) hf hm (fun a => (n2 a).elim)
    (fun _ _ => by show o.search.source ≠ none; rw [h.source]; simp) (fun a => (n3 a).elim) (fun _ _ => ⟨n4, n5, n6⟩)
  have e0 : o.iter c = .ok o' := by
    rw [iter_emacs h.live hp hi n0 hns (hv.imp_right fun a => ⟨a, n1⟩)]; exact e1
  obtain ⟨k, g1, g2⟩ := R.bind_inv e1
  rw [listen_observer hf.listener, R.bind_ok] at g2
  have hshow : o.hist.showItem x = o0.hist.showItem x := by rw [h.hist]; rfl
  have hexcl : o.comp.inComplete = false := h.inv.excl h.mode
  have hcur : ({ o.hist with current := some x } : Hist) = { o0.hist with current := some x } := by rw [h.hist]
  have step : ∃ rb kick, k = { op := { o.took r rest with search := searchOff o.search, hist := { o0.hist with current := some x }, rb := rb, kick := kick } } ∧
      rb.toEd = { o.rb.toEd with buf := o0.hist.showItem x, idx := (o0.hist.showItem x).length } ∧ (r = CharInterrupt → kick = true) := by
    rcases hr with rfl | rfl
    · rw [key_bell] at g1
      unfold keyBell at g1
      obtain ⟨r1, q1, _, q3, q4⟩ := Base.exitRevert (c := c) (o := o.took CharBell rest) hm.base h.source ((hm.son h.mode).2 x h.source)
      obtain ⟨r2, q5, q6, _, _⟩ := q4.refreshNil
      have hsm : (o.took CharBell rest).search.inMode = true := h.mode
      dsimp only at g1
      rw [if_pos hsm, q1, R.bind_ok, q5, R.bind_ok] at g1
      rw [if_neg (by show ¬ o.comp.inComplete = true; simp [hexcl]), R.bind_ok] at g1
      cases g1
      refine ⟨r2, _, by rw [← hcur]; rfl, ?_, fun a => absurd a (by decide)⟩
      rw [q6]
      show r1.toEd = _
      rw [q3, ← hshow]; rfl
    · rw [key_interrupt] at g1
      unfold keyInterrupt at g1
      have hb : Base c (o.took CharInterrupt rest).kickRead := ⟨hm.base.rb, hm.base.hist, hm.base.sw, hm.base.cw, hm.base.col⟩
      obtain ⟨r1, q1, _, q3, q4⟩ := Base.exitRevert (c := c) hb h.source ((hm.son h.mode).2 x h.source)
      have hsm : (o.took CharInterrupt rest).search.inMode = true := h.mode
      rw [if_pos hsm, q1, R.bind_ok] at g1
      cases g1
      refine ⟨r1, true, by rw [← hcur]; rfl, ?_, fun _ => rfl⟩
      rw [q3, ← hshow]; rfl
  obtain ⟨rb, kick, rfl, s1, s2⟩ := step
  have f := finish_ok g2
  have fm : o'.search.inMode = false := by
    cases hh : o'.search.inMode with
    | false => rfl
    | true => have := (f.smode.1 hh).2; cases this
  have hb : rb.buf = o0.hist.showItem x := by rw [s1]
  have hbuf : o'.rb.buf = o0.hist.showItem x := by
    show o'.rb.toEd.buf = _; rw [f.line]; exact hb
  refine ⟨o', e0, f.inp, e2, fm, ?_, hbuf, ?_, ?_, f.events.trans h.events, f.stopped.trans h.stopped, f.vimNormal.trans h.vimNormal, ?_⟩
  · rw [f.hist, if_pos ⟨rfl, fm⟩]
    show Hist.update c.h rb.buf false _ = _
    rw [hb]
  · show o'.rb.toEd.idx = _; rw [f.line]; show rb.idx = _; rw [s1]
  · show o'.rb.toEd.lastKill = _; rw [f.line]; show rb.lastKill = _; rw [s1]; exact h.kill
  · rcases hr with rfl | rfl
    · exact .inl f.gate
    · exact .inr (f.kick.trans (s2 rfl))

theorem Searching.keys (hf : Friendly c) (hp : c.filter = none) {x : Nat} {o0 : Op} (hv : Emacs c o0) (ks : List Rune) :
    ∀ {o : Op} {rest}, Searching c x o0 o → (∀ r ∈ ks, SearchKey r) → o.inp = ks ++ rest → o0.stopped = false →
      ∃ o', iters c ks.length o = .ok o' ∧ Searching c x o0 o' ∧ o'.inp = rest := by
  induction ks with
  | nil => intro o rest h _ hi _; exact ⟨o, rfl, h, hi⟩
  | cons r ks ih =>
    intro o rest h hk hi hst
    obtain ⟨o1, e1, h1, hi1⟩ := iter_searchKey hf hp h (hv.imp_right fun a => h.vimNormal.trans a) (hk r (by simp)) hi
    obtain ⟨o2, e2, h2⟩ := ih h1 (fun r hr => hk r (by simp [hr])) hi1 hst
    refine ⟨o2, ?_, h2⟩
    show (if o.stopped = true then _ else _) = _
    rw [if_neg (by simp [h.stopped, hst]), e1, R.bind_ok]
    exact e2

theorem iters_add (m n : Nat) (o : Op) : iters c (m + n) o = (iters c m o >>= iters c n) := by
  induction m generalizing o with
  | zero => rw [Nat.zero_add]; rfl
  | succ m ih =>
    rw [Nat.succ_add]
    show (if o.stopped = true then _ else _) = ((if o.stopped = true then _ else _) >>= _)
    by_cases hs : o.stopped = true
    · rw [if_pos hs, if_pos hs, R.bind_ok]
      cases n with
      | zero => rfl
      | succ n => show _ = (if o.stopped = true then _ else _); rw [if_pos hs]
    · rw [if_neg hs, if_neg hs]
      cases hi : o.iter c with
      | error => rfl
      | ok o1 => rw [R.bind_ok, R.bind_ok, ih]

end Op

/-- C28, partial.  Full statement: for all states and all keys pressed during the search, including the cursor.
Not covered, because false of the code (`C28_false_…`): pressing Ctrl-R or Ctrl-S again during the search, an instance
without any history element, a line that the history has not noted (the first key on a new instance, the default text of
`ReadlineWithDefault`, edits in vim's normal mode); the cursor, which goes to the end of the line.

Ctrl-R or Ctrl-S, then any text keys and backspaces, then Ctrl-G or Ctrl-C: the search is over, the line and the history
position are what they were, every history element shows the text it showed before, no result is delivered, the clipboard
is untouched. -/
theorem C28_cancel_partial {c : OCfg} (hf : Op.Friendly c) (hp : c.filter = none) {o : Op} (hinv : Op.Inv c o)
    (hsel : o.comp.inSelect = false) (hsm : o.search.inMode = false) (hst : o.stopped = false) (hl : o.Live) (hv : Op.Emacs c o)
    {x : Nat} (hstep : o.InStep x) {r0 g : Rune} (hr0 : r0 = 18 ∨ r0 = 19) {ks rest : List Rune} (hk : ∀ r ∈ ks, SearchKey r)
    (hg : g = 7 ∨ g = 3) (hi : o.inp = r0 :: (ks ++ g :: rest)) :
    ∃ o', o.iters c (ks.length + 2) = .ok o' ∧ o'.inp = rest ∧ o'.search.inMode = false ∧
      o'.rb.buf = o.rb.buf ∧ o'.rb.idx = o.rb.buf.length ∧ o'.rb.lastKill = o.rb.lastKill ∧
      o'.hist.current = some x ∧ o'.hist.order = keepNewest c.h.limit o.hist.order ∧
      (∀ y, o'.hist.showItem y = o.hist.showItem y) ∧ (∀ y, (o'.hist.elems y).source = (o.hist.elems y).source) ∧
      o'.hist.disk = o.hist.disk ∧ o'.events = o.events ∧ o'.stopped = false ∧ o'.vimNormal = o.vimNormal ∧ o'.Live ∧ Op.Inv c o' := by
  obtain ⟨o1, e1, h1, i1⟩ := Op.iter_startSearch hf hp hinv hsel hsm hstep.1 hl hv hr0 hi
  obtain ⟨o2, e2, h2, i2⟩ := h1.keys hf hp hv ks hk i1 hst
  obtain ⟨o3, e3, f1, f2, f3, f4, f5, f6, f7, f8, f9, f10, f11⟩ := Op.iter_cancelSearch hf hp h2
    (hv.imp_right fun a => h2.vimNormal.trans a) hg i2
  have hst2 : ¬ o2.stopped = true := by rw [h2.stopped, hst]; simp
  have hrun : o.iters c (ks.length + 2) = .ok o3 := by
    rw [show ks.length + 2 = 1 + (ks.length + 1) by omega, Op.iters_add]
    have : o.iters c 1 = .ok o1 := by
      show (if o.stopped = true then _ else _) = _
      rw [if_neg (by simp [hst]), e1]; rfl
    rw [this, R.bind_ok, Op.iters_add, e2, R.bind_ok]
    show (if o2.stopped = true then _ else _) = _
    rw [if_neg hst2, e3]; rfl
  have hshow := hstep.2
  rw [hshow] at f5 f6 f4
  obtain ⟨u1, u2, u3, u4⟩ := update_false_order (h := { o.hist with current := some x }) (c := x) rfl c.h o.rb.buf
  refine ⟨o3, hrun, f1, f3, f5, f6, f7, by rw [f4, u4], by rw [f4, u1], ?_, ?_, ?_, f8, f9.trans hst, f10, f11, f2⟩
  · intro y
    rw [f4]
    simp only [Hist.showItem, u2, u3]
    by_cases hy : y = x
    · subst hy
      rw [Hist.showItem] at hshow
      simp [hshow]
    · simp [hy]
  · intro y
    rw [f4, u2]
    by_cases hy : y = x
    · simp [hy]
    · simp [hy]
  · rw [f4]
    simp [Hist.update, Hist.compact, Hist.setItem]

/-- The line is in step with the history after every key that is handled outside the menu and delivers no result, with
emacs keys, once the history has a current element. -/
theorem C28_in_step {c : OCfg} (hf : Op.Friendly c) (hp : c.filter = none) (hn : c.noSave = false) (hv : c.vim = false) {o o' : Op}
    (hl : o.Live) {r : Rune} {rest : List Rune} (hi : o.inp = r :: rest) (hr : r ≠ 0) (hsel : o.comp.inSelect = false)
    (hc : o.hist.current ≠ none) (h : o.iter c = .ok o') (he : o'.events = o.events) (hs : o'.search.inMode = false) :
    ∃ x, o'.InStep x := by
  rw [Op.iter_emacs hl hp hi hr hsel (.inl hv)] at h
  obtain ⟨k, h1, f⟩ := Op.dispatch_ok hf.listener h
  have hev : k.op.events = (o.took r rest).events := f.events.symm.trans he
  have hu : k.update = true := by
    rcases Op.key_update hn h1 with a | ⟨_, e, a⟩
    · exact a
    · rw [hev] at a; exact absurd (congrArg List.length a) (by simp)
  obtain ⟨x, hx⟩ := Option.ne_none_iff_exists'.1 (Op.key_current (o := o.took r rest) hc h1 hev)
  obtain ⟨_, u2, u3, u4⟩ := update_false_order hx c.h k.op.rb.buf
  refine ⟨x, ?_, ?_⟩
  · rw [f.hist, if_pos ⟨hu, hs⟩, u4]
  · rw [f.hist, if_pos ⟨hu, hs⟩]
    show _ = o'.rb.toEd.buf
    rw [f.line]
    simp [Hist.showItem, u2, u3]

/-- "a" and "bc" stored, "x" typed, Ctrl-R "a" (finds "a"), backspace, "z" (fails), Ctrl-G or Ctrl-C, "y", Enter: "xy". -/
example : (∀ g ∈ [7, 3], calls c0 20 3 (o0 [97, 13, 98, 99, 13, 120, 18, 97, 127, 122, g, 121, 13]) =
    .ok [.line [97], .line [98, 99], .line [120, 121]]) := by decide

/-- The hypotheses hold before the Ctrl-R of that session. -/
example : ∃ o, Op.Inv c0 o ∧ o.comp.inSelect = false ∧ o.search.inMode = false ∧ o.stopped = false ∧ o.Live ∧ Op.Emacs c0 o ∧ o.InStep 1 ∧
    o.inp = 18 :: ([97, 127, 122] ++ 7 :: [121, 13]) ∧ o.rb.buf = [120] ∧ ∀ r ∈ [97, 127, 122], SearchKey r := by
  have hf : Op.Friendly c0 := ⟨by simp [c0], by simp [c0]⟩
  refine ⟨_, Reachable.inv hf ⟨[], 80, Hist.fresh [], [97, 13, 120, 18, 97, 127, 122, 7, 121, 13], 0, by decide, rfl, by decide, by decide,
    Hist.fresh_WF _, rfl, .key (.call (.taken [] (.key (.key (.call (.start _) rfl) ?_ rfl) ?_ rfl)) rfl) ?_ rfl⟩,
    rfl, rfl, rfl, .inl rfl, .inl rfl, ⟨rfl, rfl⟩, rfl, rfl, by unfold SearchKey; decide⟩
  all_goals
    intro r hr
    have := Option.some.inj hr
    subst this
    rintro (h | h | h | h | h)
    · exact absurd h.1 (by decide)
    · exact absurd h.1 (by decide)
    · exact absurd h.1 (by decide)
    · exact absurd h.1 (by decide)
    · exact absurd h.1 (by decide)

/-- The full statement fails if Ctrl-R is pressed again: "x" is typed, Ctrl-R "a" finds "a", a second Ctrl-R finds nothing
older, and Ctrl-G leaves "a" in the line instead of "x". -/
theorem C28_false_again :
    calls c0 20 2 (o0 [97, 13, 120, 18, 97, 18, 7, 13]) = .ok [.line [97], .line [97]] := by decide

/-- The full statement fails for the first line of a new instance: "a" typed, Ctrl-R, Ctrl-G loses the text. -/
theorem C28_false_first : calls c0 20 1 (o0 [97, 18, 7, 13]) = .ok [.line []] := by decide

/-- The full statement fails without a history element: Ctrl-R, Ctrl-G as first keys crash. -/
theorem C28_false_nil : firstResult c0 (o0 [18, 7]) = .error .panic := by decide

/-- The full statement fails for the cursor: "ab", Ctrl-A, Ctrl-R, Ctrl-G, "c" gives "abc". -/
theorem C28_false_cursor : calls c0 20 2 (o0 [120, 13, 97, 98, 1, 18, 7, 99, 13]) = .ok [.line [120], .line [97, 98, 99]] := by decide

/-- The full statement fails after edits in vim's normal mode: "ab", ESC, `x`, `i`, Ctrl-R, Ctrl-G brings the deleted "b" back. -/
theorem C28_false_vim : calls { c0 with vim := true } 20 2 (o0 [120, 13, 97, 98, 27, 104, 120, 105, 18, 7, 13]) =
    .ok [.line [120], .line [97, 98]] := by decide

/-- The full statement fails after Ctrl-C on the first line of a new instance: the cancelled text comes back. -/
theorem C28_false_interrupted : calls c0 20 2 (o0 [97, 3, 18, 7, 13]) = .ok [.interrupt [97], .line [97]] := by decide

end RL
