import Verif.Proofs.Safety
/-! The states in which no key crashes the editing loop, and the keys that lead out of them (C15). -/

namespace RL
open Spec RB Ed

namespace Op

/-- Holds in the middle of an iteration too. -/
structure Base (c : OCfg) (o : Op) : Prop where
  rb : RBok c.U c.d o.rb
  hist : o.hist.WF
  sw : o.search.width = o.rb.width
  cw : o.comp.width = o.rb.width
  col : 0 ≤ o.comp.colNum

/-- A running search. -/
def SearchIn (o : Op) : Prop := o.search.MarksIn o.rb ∧ ∀ x, o.search.source = some x → x < o.hist.next

/-- No search. -/
def NoMarks (o : Op) : Prop := o.search.markStart = 0 ∧ o.search.markEnd = 0

/-- Invariant of the editing loop. -/
structure Inv (c : OCfg) (o : Op) : Prop where
  base : Base c o
  son : o.search.inMode = true → o.SearchIn
  soff : o.search.inMode = false → o.NoMarks
  comp : o.comp.Inv c.U c.auto o.rb
  excl : o.search.inMode = true → o.comp.inComplete = false
  vim : c.vim = true → o.vimNormal = true → o.search.inMode = false ∧ o.comp.inComplete = false

/-- The same, with a window that may have been resized since the menu was drawn. -/
structure InvW (c : OCfg) (o : Op) : Prop where
  base : Base c o
  son : o.search.inMode = true → o.SearchIn
  soff : o.search.inMode = false → o.NoMarks
  comp : o.comp.InvW c.U c.auto o.rb
  excl : o.search.inMode = true → o.comp.inComplete = false
  vim : c.vim = true → o.vimNormal = true → o.search.inMode = false ∧ o.comp.inComplete = false

theorem Inv.weak {c : OCfg} {o : Op} (h : Inv c o) : InvW c o := ⟨h.base, h.son, h.soff, h.comp.weak, h.excl, h.vim⟩

theorem InvW.inv {c : OCfg} {o : Op} (h : InvW c o) (hs : o.comp.inSelect = false) : Inv c o :=
  ⟨h.base, h.son, h.soff, h.comp.inv hs, h.excl, h.vim⟩

/-- Invariant where the key switch starts: a menu that has just been left may be empty. -/
structure Mid (c : OCfg) (o : Op) : Prop where
  base : Base c o
  son : o.search.inMode = true → o.SearchIn
  soff : o.search.inMode = false → o.NoMarks
  nosel : o.comp.inSelect = false
  auto : o.comp.inComplete = true → c.auto ≠ none
  fits : o.comp.inComplete = true → o.comp.source = none ∨ o.comp.Fits c.U c.auto o.rb
  excl : o.search.inMode = true → o.comp.inComplete = false
  vim : c.vim = true → o.vimNormal = true → o.search.inMode = false ∧ o.comp.inComplete = false

theorem Inv.mid {c : OCfg} {o : Op} (h : Inv c o) (hs : o.comp.inSelect = false) : Mid c o :=
  ⟨h.base, h.son, h.soff, hs, h.comp.auto, fun hc => .inr (h.comp.fits hc), h.excl, h.vim⟩

/-- What the callbacks promise: the completer answers fit the line, and the listener only looks. -/
structure Friendly (c : OCfg) : Prop where
  completer : ∀ f, c.auto = some f → CompleterFits c.U f
  listener : ∀ f, c.listener = some f → ∀ l p r, f l p r = none

variable {c : OCfg}

theorem Base.withRb {o : Op} (h : Base c o) {r : RB} (hr : RBok c.U c.d r) (hd : SameDisp o.rb r) :
    Base c { o with rb := r } :=
  ⟨hr, h.hist, h.sw.trans hd.width.symm, h.cw.trans hd.width.symm, h.col⟩

theorem Base.edit {o : Op} (h : Base c o) {k : Cmd} (ht : ¬ o.rb.toEd.Trigger k) :
    ∃ r, o.edit c k = .ok { o with rb := r } ∧ k.core o.rb.toEd = .ok r.toEd ∧ SameDisp o.rb r ∧
      Base c { o with rb := r } := by
  obtain ⟨r, h1, h2, h3, h4⟩ := h.rb.apply ht
  exact ⟨r, by simp [Op.edit, h1], h2, h4, h.withRb h3 h4⟩

theorem Base.refreshNil {o : Op} (h : Base c o) :
    ∃ r, o.refreshNil c = .ok { o with rb := r } ∧ r.toEd = o.rb.toEd ∧ SameDisp o.rb r ∧ Base c { o with rb := r } := by
  obtain ⟨r, h1, h2, h3, h4⟩ := h.rb.refreshNil
  exact ⟨r, by simp [Op.refreshNil, h1], h2, h4, h.withRb h3 h4⟩

theorem Base.refresh {o : Op} (h : Base c o) :
    ∃ r, o.refresh c = .ok { o with rb := r } ∧ r.toEd = o.rb.toEd ∧ SameDisp o.rb r ∧ Base c { o with rb := r } := by
  unfold Op.refresh
  split
  · exact h.refreshNil
  · exact ⟨o.rb, rfl, rfl, .refl _, h⟩

theorem Base.clean {o : Op} (h : Base c o) :
    ∃ r, o.clean c = .ok { o with rb := r } ∧ r.toEd = o.rb.toEd ∧ SameDisp o.rb r ∧ Base c { o with rb := r } := by
  obtain ⟨r, h1, h2, h3, h4⟩ := h.rb.clean
  exact ⟨r, by simp [Op.clean, h1], h2, h4, h.withRb h3 h4⟩

theorem Base.write {o : Op} (h : Base c o) (ts) : Base c { o with rb := o.rb.write ts } :=
  h.withRb (h.rb.write ts) (write_same _ ts).2

/-- The state of the search after it has ended. -/
def searchOff (s : Search) : Search :=
  { s with markStart := 0, markEnd := 0, failing := false, inMode := false, source := none, data := [] }

theorem exitSearch_keep (o : Op) : o.exitSearch c false = .ok { o with search := searchOff o.search } := by
  simp [Op.exitSearch, Search.exitSearchMode, searchOff]

theorem Base.exitKeep {o : Op} (h : Base c o) : Base c { o with search := searchOff o.search } :=
  ⟨h.rb, h.hist, h.sw, h.cw, h.col⟩

theorem Base.exitRevert {o : Op} (h : Base c o) {x : Nat} (hs : o.search.source = some x) (hx : x < o.hist.next) :
    ∃ r, o.exitSearch c true = .ok { o with search := searchOff o.search, hist := { o.hist with current := some x }, rb := r } ∧
      SameDisp o.rb r ∧ r.toEd = { o.rb.toEd with buf := o.hist.showItem x, idx := (o.hist.showItem x).length } ∧
      Base c { o with search := searchOff o.search, hist := { o.hist with current := some x }, rb := r } := by
  obtain ⟨r, h1, h2, h3, h4⟩ := h.rb.setWithIdx (i := (o.hist.showItem x).length) (b := o.hist.showItem x) (Nat.le_refl _)
  refine ⟨r, ?_, h4, h2, h3, Hist.setCur_WF h.hist hx, h.sw.trans h4.width.symm, h.cw.trans h4.width.symm, h.col⟩
  have h1' : o.rb.set c.U c.d (o.hist.showItem x) = .ok r := h1
  simp [Op.exitSearch, Search.exitSearchMode, hs, h1', searchOff]

/-! ### The key switch -/

/-- What holds between the key switch and the end of the loop body. -/
structure Post (c : OCfg) (r : Rune) (o : Op) (k : KeyRes) : Prop where
  base : Base c k.op
  vimEq : k.op.vimNormal = o.vimNormal
  son : k.op.search.inMode = true → k.keepSearch = true → k.op.SearchIn
  soff : k.op.search.inMode = false → k.op.NoMarks
  comp : (k.op.comp.inComplete = false ∧ k.op.comp.inSelect = false) ∨ k.op.comp.Inv c.U c.auto k.op.rb ∨
    (k.keepComplete = false ∧ k.op.comp.inSelect = false ∧ (k.op.search.inMode = true → k.keepSearch = true))
  keep : k.keepSearch = true → k.keepComplete = false
  modes : o.search.inMode = false → o.comp.inComplete = false → r ≠ CharTab → r ≠ CharBckSearch → r ≠ CharFwdSearch →
    k.op.search.inMode = false ∧ k.op.comp.inComplete = false

/-- A key that keeps the modes and ends both (the common case). -/
theorem Mid.plain {o o' : Op} {r : Rune} {u : Bool} (h : Mid c o) (hb : Base c o') (h1 : o'.vimNormal = o.vimNormal)
    (h2 : o'.search = o.search) (h3 : o'.comp = o.comp) : Post c r o { op := o', update := u } where
  base := hb
  vimEq := h1
  son := by simp
  soff := by simp only [h2, NoMarks]; exact h.soff
  comp := by
    by_cases hm : o.search.inMode = true
    · left
      simp only [h3]
      exact ⟨h.excl hm, h.nosel⟩
    · right; right
      simp only [h2, h3]
      exact ⟨trivial, h.nosel, fun h => (hm h).elim⟩
  keep := by simp
  modes := by
    intro a b _ _ _
    simp only [h2, h3]
    exact ⟨a, b⟩

/-- A key after which search and completion are over. -/
theorem Mid.ended {o o' : Op} {r : Rune} {u : Bool} (hb : Base c o') (h1 : o'.vimNormal = o.vimNormal)
    (h2 : o'.search.inMode = false) (h3 : o'.NoMarks) (h4 : o'.comp.inComplete = false) (h5 : o'.comp.inSelect = false) :
    Post c r o { op := o', update := u } :=
  ⟨hb, h1, by simp, fun _ => h3, .inl ⟨h4, h5⟩, by simp, fun _ _ _ _ _ => ⟨h2, h4⟩⟩

theorem keyBell_safe {o : Op} (h : Mid c o) (hs : o.search.inMode = true → o.search.source ≠ none) (r) :
    ∃ k, keyBell c o = .ok k ∧ Post c r o k := by
  unfold keyBell
  by_cases hm : o.search.inMode = true
  · have hc := h.excl hm
    obtain ⟨x, hx⟩ := Option.ne_none_iff_exists'.1 (hs hm)
    obtain ⟨r1, h1, h2, _, h4⟩ := h.base.exitRevert hx ((h.son hm).2 x hx)
    obtain ⟨r2, h5, _, _, h8⟩ := h4.refreshNil
    simp only [hm, if_true, h1, R.bind_ok, h5, hc, Bool.false_eq_true, if_false]
    exact ⟨_, rfl, Mid.ended h8 rfl rfl ⟨rfl, rfl⟩ hc h.nosel⟩
  · simp only [hm, Bool.false_eq_true, if_false, R.bind_ok]
    by_cases hc : o.comp.inComplete = true
    · simp only [hc, if_true]
      have hb : Base c { o with comp := o.comp.exitComplete } := ⟨h.base.rb, h.base.hist, h.base.sw, h.base.cw, h.base.col⟩
      obtain ⟨r2, h5, _, _, h8⟩ := hb.refreshNil
      simp only [h5, R.bind_ok]
      exact ⟨_, rfl, Mid.ended h8 rfl (by simpa using hm) (h.soff (by simpa using hm)) rfl rfl⟩
    · simp only [hc, Bool.false_eq_true, if_false, R.bind_ok]
      exact ⟨_, rfl, h.plain h.base rfl rfl rfl⟩

/-- `OnComplete` on the state `o` with the buffer `r`. -/
theorem onComplete_safe (hf : Friendly c) {o : Op} (hb : Base c o) (ha : c.auto ≠ none) (hns : o.comp.inSelect = false)
    (hold : o.comp.inComplete = true → ∀ s, o.comp.source = some s → o.rb.buf = s → o.comp.Fits c.U c.auto o.rb) :
    ∃ b cm r, o.onComplete c = .ok (b, { o with comp := cm, rb := r }) ∧ Base c { o with comp := cm, rb := r } ∧
      cm.Inv c.U c.auto r := by
  obtain ⟨f, hauto⟩ := Option.ne_none_iff_exists'.1 ha
  obtain ⟨b, cm, r, h1, h2, h3, h4⟩ := Comp.onComplete_total hauto (hf.completer f hauto) hb.rb hb.cw hb.col hns hold
  exact ⟨b, cm, r, by simp [Op.onComplete, h1], ⟨h2, hb.hist, hb.sw.trans h3.width.symm, h4.width, h4.col⟩, h4⟩

theorem keyTab_safe (hf : Friendly c) {o : Op} (h : Mid c o) : ∃ k, keyTab c o = .ok k ∧ Post c CharTab o k := by
  unfold keyTab
  split
  · exact ⟨_, rfl, h.plain (h.base.write _) rfl rfl rfl⟩
  · next f hauto =>
    obtain ⟨b, cm, r, h1, h2, h3⟩ := onComplete_safe hf h.base (by simp [hauto]) h.nosel (by
      intro hc s hs _
      rcases h.fits hc with h0 | h0
      · rw [h0] at hs; cases hs
      · exact h0)
    have hsoff : o.search.inMode = false → NoMarks { o with comp := cm, rb := r } := h.soff
    simp only [h1, R.bind_ok]
    split
    · exact ⟨_, rfl, h2, rfl, by simp, hsoff, .inr (.inl h3), by simp, by simp⟩
    · exact ⟨_, rfl, h2.write _, rfl, by simp, hsoff, .inr (.inl (h3.congr rfl (write_same _ _).2)), by simp, by simp⟩

theorem keySearch_safe {o : Op} (h : Mid c o) (fwd : Bool) {r : Rune} (hr : r = CharBckSearch ∨ r = CharFwdSearch) :
    ∃ k, keySearch c fwd o = .ok k ∧ Post c r o k := by
  have hw0 : o.search.width ≠ 0 := by have := h.base.sw; have := h.base.rb.width; omega
  have hno : r ≠ CharBckSearch → r ≠ CharFwdSearch → False := fun a b => hr.elim a b
  have hcomp : ∀ (o' : Op), o'.comp = o.comp → (o.search.inMode = true → o'.comp.inComplete = false) := by
    intro o' h1 h2; rw [h1]; exact h.excl h2
  unfold keySearch Op.enterSearch Search.searchMode
  rw [if_neg hw0]
  by_cases hm : o.search.inMode = true
  · obtain ⟨hmk, hsrc⟩ := h.son hm
    simp only [hm, if_true]
    obtain ⟨f, a, b, cur, r', h1, h2, h3, h4, h5, h6⟩ := search_total (U := c.U) (d := c.d) c.h
      (s := { o.search with inMode := true, fwd := fwd, source := o.hist.current }) false h.base.rb h.base.hist hw0 hmk
    simp only [h1, R.bind_ok, if_true]
    refine ⟨_, rfl, ⟨h2, h6, h.base.sw.trans h3.width.symm, h.base.cw.trans h3.width.symm, h.base.col⟩, rfl, ?_, by simp,
      .inr (.inr ⟨rfl, h.nosel, fun _ => rfl⟩), by simp, fun _ _ _ a b => (hno a b).elim⟩
    intro _ _
    exact ⟨⟨h4, h5⟩, fun x hx => h.base.hist.cur x hx⟩
  · simp only [hm, Bool.false_eq_true, if_false]
    have hz := h.soff (by simpa using hm)
    obtain ⟨ts, h1⟩ := h.base.rb.searchRefresh (s := { o.search with inMode := true, fwd := fwd, source := o.hist.current })
      (x := -1) hw0 (by show o.search.markStart ≤ o.search.markEnd; rw [hz.1, hz.2]; exact Nat.le_refl _)
      (by show o.search.markEnd ≤ _; rw [hz.2]; omega) (by omega)
    have hset : ∀ s : Search, s.setState (-1) = s := by intro s; simp [Search.setState]
    simp only [h1, R.bind_ok, if_true, hset]
    refine ⟨_, rfl, ⟨h.base.rb.write _, h.base.hist, h.base.sw, h.base.cw, h.base.col⟩, rfl, ?_, by simp,
      .inr (.inr ⟨rfl, h.nosel, fun _ => rfl⟩), by simp, fun _ _ _ a b => (hno a b).elim⟩
    intro _ _
    refine ⟨⟨?_, ?_⟩, fun x hx => h.base.hist.cur x hx⟩
    · show o.search.markStart ≤ o.search.markEnd; rw [hz.1, hz.2]; exact Nat.le_refl _
    · show o.search.markEnd ≤ _; rw [hz.2]; omega

/-- A step of a running search keeps the search in its invariant. -/
theorem searchStep {o : Op} (h : Mid c o) (hm : o.search.inMode = true) (data : List Rune) (r : Rune) :
    ∃ s hi rb, Search.search c.U c.d c.h true { o.search with data := data } o.hist o.rb = .ok (s, hi, rb) ∧
      Post c r o { op := { o with search := s, hist := hi, rb := rb }, keepSearch := true } := by
  have hw0 : o.search.width ≠ 0 := by have := h.base.sw; have := h.base.rb.width; omega
  obtain ⟨hmk, hsrc⟩ := h.son hm
  obtain ⟨f, a, b, cur, r', h1, h2, h3, h4, h5, h6⟩ := search_total (U := c.U) (d := c.d) c.h
    (s := { o.search with data := data }) true h.base.rb h.base.hist hw0 hmk
  refine ⟨_, _, _, h1, ⟨h2, h6, h.base.sw.trans h3.width.symm, h.base.cw.trans h3.width.symm, h.base.col⟩, rfl, ?_, ?_,
    .inl ⟨h.excl hm, h.nosel⟩, by simp, ?_⟩
  · intro _ _
    exact ⟨⟨h4, h5⟩, hsrc⟩
  · intro h0; simp [hm] at h0
  · intro h0; simp [hm] at h0

theorem backspaceC_length {e e' : Ed} (h0 : e.idx ≠ 0) (hi : e.idx ≤ e.buf.length) (h : backspaceC e = .ok e') :
    e'.buf.length + 1 = e.buf.length := by
  unfold backspaceC at h
  rw [if_neg h0] at h
  simp only [sliceTo_ok (show e.idx - 1 ≤ e.buf.length by omega), sliceFrom_ok (show e.idx - 1 + 1 ≤ e.buf.length by omega),
    R.bind_ok, Except.ok.injEq] at h
  subst h
  simp only [List.length_append, List.length_take, List.length_drop]
  omega

theorem keyBackspace_safe (hf : Friendly c) {o : Op} (h : Mid c o) (r) : ∃ k, keyBackspace c o = .ok k ∧ Post c r o k := by
  unfold keyBackspace
  split
  · next hm =>
    unfold Op.searchBackspace Search.searchBackspace
    split
    · obtain ⟨s, hi, rb, h1, h2⟩ := searchStep h hm o.search.data.dropLast r
      simp only [h1, R.bind_ok]
      exact ⟨_, rfl, h2⟩
    · simp only [R.bind_ok]
      exact ⟨_, rfl, h.base, rfl, fun _ _ => h.son hm, h.soff, .inl ⟨h.excl hm, h.nosel⟩, by simp,
        fun h0 => by simp [hm] at h0⟩
  · next hm =>
    split
    · exact ⟨_, rfl, h.plain (h.base.write _) rfl rfl rfl⟩
    · obtain ⟨r1, h1, h2, h3, h4⟩ := h.base.edit (k := .backspace) (by simp [Ed.Trigger])
      simp only [h1, R.bind_ok]
      split
      · next hc =>
        obtain ⟨b, cm, r2, h5, h6, h7⟩ := onComplete_safe hf h4 (h.auto hc) h.nosel (by
          intro _ s hs hbuf
          rcases h.fits hc with h0 | h0
          · rw [h0] at hs; cases hs
          · obtain ⟨s', hs', hlen, _⟩ := h0.source
            have : s = s' := by simpa [hs'] using hs.symm
            subst this
            have hi := h.base.rb.idx
            by_cases hz : o.rb.idx = 0
            · simp only [Cmd.core, backspaceC, if_pos hz, Except.ok.injEq] at h2
              exact h0.congr h2.symm
            · have := backspaceC_length hz hi h2
              have hbuf : r1.buf = s := hbuf
              rw [hbuf] at this
              omega)
        simp only [h5, R.bind_ok]
        exact ⟨_, rfl, h6, rfl, by simp, h.soff, .inr (.inl h7), by simp, fun _ h0 => by simp [hc] at h0⟩
      · exact ⟨_, rfl, h.plain h4 rfl rfl rfl⟩


theorem toEndC_eq (e : Ed) : Cmd.core .toEnd e = .ok { e with idx := e.buf.length } := by
  simp only [Cmd.core, moveToLineEndC]

theorem insertC_eq {e : Ed} (s : List Rune) (hi : e.idx ≤ e.buf.length) :
    Cmd.core (.insert s) e = .ok { e with buf := e.buf.take e.idx ++ (s ++ e.buf.drop e.idx), idx := e.idx + s.length } := by
  simp only [Cmd.core, writeRunesC, sliceTo_ok hi, sliceFrom_ok hi, R.bind_ok]

theorem killC_eq {e : Ed} (hi : e.idx ≤ e.buf.length) :
    Cmd.core .kill e = .ok { e with buf := e.buf.take e.idx, lastKill := e.buf.drop e.idx } := by
  simp only [Cmd.core, killC, sliceTo_ok hi, sliceFrom_ok hi, R.bind_ok]

/-- Enter: go to the end, add the newline, take the line. -/
theorem Base.submit {o : Op} (h : Base c o) (tail : List Rune) :
    ∃ r1 r2, o.edit c .toEnd = .ok { o with rb := r1 } ∧ Op.edit c (.insert tail) { o with rb := r1 } = .ok { o with rb := r2 } ∧
      r1.buf = o.rb.buf ∧ r1.idx = o.rb.buf.length ∧ r2.buf = o.rb.buf ++ tail ∧ SameDisp o.rb r1 ∧ SameDisp r1 r2 ∧
      r1.toEd = { o.rb.toEd with idx := o.rb.buf.length } ∧
      Base c { o with rb := r1 } ∧ Base c { o with rb := r2 } := by
  obtain ⟨r1, h1, h2, h3, h4⟩ := h.edit (k := .toEnd) (by simp [Ed.Trigger])
  obtain ⟨r2, h5, h6, h7, h8⟩ := h4.edit (k := .insert tail) (by simp [Ed.Trigger])
  rw [toEndC_eq, Except.ok.injEq] at h2
  have hb : r1.buf = o.rb.buf := by rw [← h2]
  have hi : r1.idx = o.rb.buf.length := by rw [← h2]
  rw [insertC_eq _ h4.rb.idx, Except.ok.injEq] at h6
  refine ⟨r1, r2, h1, h5, hb, hi, ?_, h3, h7, h2.symm, h4, h8⟩
  have := congrArg Ed.buf h6.symm
  rw [this]
  show r1.buf.take r1.idx ++ (tail ++ r1.buf.drop r1.idx) = _
  rw [hb, hi]
  simp

theorem Base.reset {o : Op} (h : Base c o) : Base c { o with rb := o.rb.reset.2 } :=
  h.withRb h.rb.reset ⟨rfl, rfl, rfl⟩

theorem keyEnter_safe {o : Op} (h : Mid c o) (r) : ∃ k, keyEnter c o = .ok k ∧ Post c r o k := by
  -- after the search has ended
  have main : ∀ o1 : Op, Base c o1 → o1.vimNormal = o.vimNormal → o1.search.inMode = false → o1.NoMarks →
      o1.comp = o.comp →
      ∃ k, (do
        let o ← o1.edit c .toEnd
        let (data, o) ←
          if c.unique = false then do
            let o ← o.edit c (.insert [10])
            let (data, rb) := o.rb.reset
            if data.length = 0 then .error .panic else .ok (data.take (data.length - 1), { o with rb := rb })
          else do
            let o ← o.clean c
            let (data, rb) := o.rb.reset
            .ok (data, { o with rb := rb })
        let o := { o with events := o.events ++ [.line data] }
        if c.noSave = false then do
          let h ← o.hist.new c.h data
          .ok { op := { o with hist := h } }
        else .ok { op := o, update := false } : R KeyRes) = .ok k ∧ Post c r o k := by
    intro o1 hb hv hm hz hcmp
    have hpost : ∀ (o2 : Op) (u : Bool), Base c o2 → o2.vimNormal = o1.vimNormal → o2.search = o1.search →
        o2.comp = o1.comp → Post c r o { op := o2, update := u } := by
      intro o2 u a1 a2 a3 a4
      refine ⟨a1, a2.trans hv, by simp, ?_, .inr (.inr ⟨rfl, by simp only [a4, hcmp]; exact h.nosel, ?_⟩), by simp, ?_⟩
      · intro _; simp only [NoMarks, a3]; exact hz
      · simp [a3, hm]
      · intro _ hc _ _ _; simp only [a3, a4, hcmp]; exact ⟨hm, hc⟩
    have hsave : ∀ (o2 : Op) (data : List Rune), Base c o2 → o2.vimNormal = o1.vimNormal → o2.search = o1.search →
        o2.comp = o1.comp → 
        ∃ k, (if c.noSave = false then do
          let h ← o2.hist.new c.h data
          .ok { op := { o2 with hist := h } }
        else .ok { op := o2, update := false } : R KeyRes) = .ok k ∧ Post c r o k := by
      intro o2 data a1 a2 a3 a4
      split
      · obtain ⟨h', e1, e2⟩ := Hist.new_ok a1.hist c.h data
        simp only [e1, R.bind_ok]
        exact ⟨_, rfl, hpost _ _ ⟨a1.rb, e2, a1.sw, a1.cw, a1.col⟩ a2 a3 a4⟩
      · exact ⟨_, rfl, hpost _ _ a1 a2 a3 a4⟩
    obtain ⟨r1, r2, h1, h2, h3, h4, h5, h6, h7, _, h8, h9⟩ := hb.submit [10]
    simp only [h1, R.bind_ok]
    by_cases hu : c.unique = false
    · simp only [hu, if_true, h2, R.bind_ok]
      have hl : ¬ r2.reset.1.length = 0 := by simp [RB.reset, h5]
      simp only [if_neg hl, R.bind_ok]
      exact hsave _ _ ⟨h9.rb.reset, h9.hist, h9.sw, h9.cw, h9.col⟩ rfl rfl rfl
    · obtain ⟨r3, k1, _, k3, k4⟩ := h8.clean
      simp only [hu, Bool.false_eq_true, if_false, k1, R.bind_ok]
      exact hsave _ _ ⟨k4.rb.reset, k4.hist, k4.sw, k4.cw, k4.col⟩ rfl rfl rfl
  unfold keyEnter
  by_cases hm : o.search.inMode = true
  · simp only [hm, if_true, exitSearch_keep, R.bind_ok]
    exact main _ h.base.exitKeep rfl rfl ⟨rfl, rfl⟩ rfl
  · simp only [hm, Bool.false_eq_true, if_false, R.bind_ok]
    exact main o h.base rfl (by simpa using hm) (h.soff (by simpa using hm)) rfl

theorem keyPrev_safe {o : Op} (h : Mid c o) (r) : ∃ k, keyPrev c o = .ok k ∧ Post c r o k := by
  have hw := Hist.prev_WF h.base.hist
  unfold keyPrev
  split
  · next b hi heq =>
    rw [heq] at hw
    have hb : Base c { o with hist := hi } := ⟨h.base.rb, hw, h.base.sw, h.base.cw, h.base.col⟩
    obtain ⟨r1, h1, _, _, h4⟩ := hb.edit (k := .set b) (by simp [Ed.Trigger])
    simp only [h1, R.bind_ok]
    exact ⟨_, rfl, h.plain h4 rfl rfl rfl⟩
  · next hi heq =>
    rw [heq] at hw
    have hb : Base c { o with hist := hi } := ⟨h.base.rb, hw, h.base.sw, h.base.cw, h.base.col⟩
    exact ⟨_, rfl, h.plain (hb.write _) rfl rfl rfl⟩

theorem keyNext_safe {o : Op} (h : Mid c o) (r) : ∃ k, keyNext c o = .ok k ∧ Post c r o k := by
  have hw := Hist.next_WF h.base.hist
  unfold keyNext
  split
  · next b hi heq =>
    rw [heq] at hw
    have hb : Base c { o with hist := hi } := ⟨h.base.rb, hw, h.base.sw, h.base.cw, h.base.col⟩
    obtain ⟨r1, h1, _, _, h4⟩ := hb.edit (k := .set b) (by simp [Ed.Trigger])
    simp only [h1, R.bind_ok]
    exact ⟨_, rfl, h.plain h4 rfl rfl rfl⟩
  · next hi heq =>
    rw [heq] at hw
    have hb : Base c { o with hist := hi } := ⟨h.base.rb, hw, h.base.sw, h.base.cw, h.base.col⟩
    exact ⟨_, rfl, h.plain (hb.write _) rfl rfl rfl⟩

theorem keyDelete_safe {o : Op} (h : Mid c o) (r) : ∃ k, keyDelete c o = .ok k ∧ Post c r o k := by
  unfold keyDelete
  split
  · obtain ⟨r1, h1, h2, h3, h4⟩ := h.base.rb.apply (k := .delete) (by simp [Ed.Trigger])
    simp only [Cmd.apply] at h1
    cases hd : o.rb.delete c.U c.d with
    | error e => rw [hd] at h1; cases h1
    | ok v =>
      obtain ⟨ok, rb⟩ := v
      rw [hd] at h1
      simp only [R.map_ok, Except.ok.injEq] at h1
      subst h1
      have hd' : o.kickRead.rb.delete c.U c.d = .ok (ok, rb) := hd
      simp only [hd', R.bind_ok]
      have hb := h.base.withRb h3 h4
      split
      · exact ⟨_, rfl, h.plain ⟨hb.rb, hb.hist, hb.sw, hb.cw, hb.col⟩ rfl rfl rfl⟩
      · have hb := hb.write [.bell]
        exact ⟨_, rfl, h.plain ⟨hb.rb, hb.hist, hb.sw, hb.cw, hb.col⟩ rfl rfl rfl⟩
  · have hrev := Hist.revert_WF h.base.hist
    by_cases hu : c.unique = false
    · obtain ⟨r1, h1, _, _, h4⟩ := h.base.edit (k := .insert (c.eofPrompt ++ [10])) (by simp [Ed.Trigger])
      simp only [hu, if_true, h1, R.bind_ok, Bool.false_eq_true, if_false]
      have hb := h4.reset
      exact ⟨_, rfl, h.plain ⟨hb.rb, hrev, hb.sw, hb.cw, hb.col⟩ rfl rfl rfl⟩
    · have hu : c.unique = true := by simpa using hu
      simp only [hu, Bool.true_eq_false, if_false, if_true, R.bind_ok]
      have hb := h.base.reset
      have hb2 : Base c { o with rb := o.rb.reset.2, hist := o.hist.revert, events := o.events ++ [.eof] } :=
        ⟨hb.rb, hrev, hb.sw, hb.cw, hb.col⟩
      obtain ⟨r1, h1, _, _, h4⟩ := hb2.clean
      simp only [h1, R.bind_ok]
      exact ⟨_, rfl, h.plain h4 rfl rfl rfl⟩

theorem keyInterrupt_safe {o : Op} (h : Mid c o) (hs : o.search.inMode = true → o.search.source ≠ none) (r) :
    ∃ k, keyInterrupt c o = .ok k ∧ Post c r o k := by
  unfold keyInterrupt
  split
  · next hm =>
    obtain ⟨x, hx⟩ := Option.ne_none_iff_exists'.1 (hs hm)
    have hb : Base c o.kickRead := ⟨h.base.rb, h.base.hist, h.base.sw, h.base.cw, h.base.col⟩
    obtain ⟨r1, h1, h2, _, h4⟩ := hb.exitRevert hx ((h.son hm).2 x hx)
    simp only [h1, R.bind_ok]
    exact ⟨_, rfl, Mid.ended h4 rfl rfl ⟨rfl, rfl⟩ (h.excl hm) h.nosel⟩
  · next hm =>
    have hm : o.search.inMode = false := by simpa using hm
    split
    · have hb : Base c { o.kickRead with comp := o.comp.exitComplete } :=
        ⟨h.base.rb, h.base.hist, h.base.sw, h.base.cw, h.base.col⟩
      obtain ⟨r2, h5, _, _, h8⟩ := hb.refreshNil
      simp only [h5, R.bind_ok]
      exact ⟨_, rfl, Mid.ended h8 rfl hm (h.soff hm) rfl rfl⟩
    · obtain ⟨r1, h1, h2, h3, h4⟩ := h.base.edit (k := .toEnd) (by simp [Ed.Trigger])
      obtain ⟨r2, h5, h6, h7, h8⟩ := h4.refreshNil
      simp only [h1, R.bind_ok, h5]
      have hrev := Hist.revert_WF h.base.hist
      by_cases hu : c.unique = false
      · obtain ⟨r3, k1, k2, k3, k4⟩ := h8.edit (k := .insert (c.interruptPrompt ++ [10])) (by simp [Ed.Trigger])
        simp only [hu, if_true, k1, R.bind_ok]
        rw [insertC_eq _ h8.rb.idx, Except.ok.injEq] at k2
        have hl : ¬ (RB.reset r3).1.length < (c.interruptPrompt ++ [10]).length := by
          have := congrArg (fun e => e.buf.length) k2
          simp only [List.length_append, List.length_take, List.length_drop] at this
          simp only [RB.reset, ← this, List.length_append]
          omega
        simp only [if_neg hl, R.bind_ok]
        have hb := k4.reset
        exact ⟨_, rfl, h.plain ⟨hb.rb, hrev, hb.sw, hb.cw, hb.col⟩ rfl rfl rfl⟩
      · simp only [hu, Bool.false_eq_true, if_false, R.bind_ok]
        have hb := h8.reset
        exact ⟨_, rfl, h.plain ⟨hb.rb, hrev, hb.sw, hb.cw, hb.col⟩ rfl rfl rfl⟩

theorem keyText_safe (hf : Friendly c) {o : Op} (h : Mid c o) (x r) : ∃ k, keyText c x o = .ok k ∧ Post c r o k := by
  unfold keyText
  split
  · next hm =>
    unfold Op.searchChar Search.searchChar
    obtain ⟨s, hi, rb, h1, h2⟩ := searchStep h hm (o.search.data ++ [x]) r
    simp only [h1, R.bind_ok]
    exact ⟨_, rfl, h2⟩
  · next hm =>
    obtain ⟨r1, h1, h2, h3, h4⟩ := h.base.edit (k := .insert [x]) (by simp [Ed.Trigger])
    simp only [h1, R.bind_ok]
    split
    · next hc =>
      rw [insertC_eq _ h.base.rb.idx, Except.ok.injEq] at h2
      obtain ⟨b, cm, r2, h5, h6, h7⟩ := onComplete_safe hf h4 (h.auto hc) h.nosel (by
        intro _ s hs hbuf
        rcases h.fits hc with h0 | h0
        · rw [h0] at hs; cases hs
        · obtain ⟨s', hs', hlen, hn⟩ := h0.source
          have : s = s' := by simpa [hs'] using hs.symm
          subst this
          have hbuf : r1.buf = s := hbuf
          have hidx : r1.idx = o.rb.idx + 1 := by rw [← h2]; rfl
          have := h0.offIdx
          exact ⟨h0.cands, h0.off0, by show o.comp.off ≤ (r1.idx : Int); omega, by show Narrow c.U r1.buf _; rw [hbuf]; exact hn,
            ⟨s, hs, by show r1.buf.length ≤ _; rw [hbuf]; exact Nat.le_refl _, hn⟩, h0.offered⟩)
      simp only [h5, R.bind_ok]
      exact ⟨_, rfl, h6, rfl, by simp, h.soff, .inr (.inl h7), by simp, fun _ h0 => by simp [hc] at h0⟩
    · exact ⟨_, rfl, h.plain h4 rfl rfl rfl⟩

/-- The key switch is safe unless the key leads out of the safe states. -/
theorem key_safe (hf : Friendly c) {o : Op} (h : Mid c o) {r : Rune}
    (h1 : r = CharTranspose → ¬ o.rb.toEd.Trigger .transpose)
    (h2 : r = CharBell ∨ r = CharInterrupt → o.search.inMode = true → o.search.source ≠ none)
    (h3 : r = CharKill → o.comp.inComplete = true → o.comp.Fits c.U c.auto o.rb) :
    ∃ k, o.key c r = .ok k ∧ Post c r o k := by
  unfold Op.key
  split
  · next k hk =>
    have ht : ¬ o.rb.toEd.Trigger k := by
      by_cases hT : r = CharTranspose
      · have : k = .transpose := by
          subst hT; exact (Option.some.inj hk).symm
        rw [this]; exact h1 hT
      · unfold simpleKey at hk
        rw [if_neg hT] at hk
        repeat' split at hk
        all_goals first | (cases hk; done) | (cases hk; simp [Ed.Trigger])
    obtain ⟨r1, e1, e2, e3, e4⟩ := h.base.edit ht
    simp only [e1, R.bind_ok]
    by_cases hK : r = CharKill
    · have hkk : k = .kill := by subst hK; exact (Option.some.inj hk).symm
      subst hkk
      rw [killC_eq h.base.rb.idx, Except.ok.injEq] at e2
      have hb1 : r1.buf = o.rb.buf.take o.rb.idx := by rw [← e2]
      have hi1 : r1.idx = o.rb.idx := by rw [← e2]
      refine ⟨_, rfl, e4, rfl, by simp, h.soff, ?_, by simp, fun a b _ _ _ => ⟨a, b⟩⟩
      by_cases hc : o.comp.inComplete = true
      · right; left
        have h0 := h3 hK hc
        refine ⟨e4.cw, e4.col, h.auto, fun _ => ⟨h0.cands, h0.off0, ?_, ?_, ?_, h0.offered⟩, fun hs => ?_, fun hs => ?_, fun hs => ?_⟩
        · show o.comp.off ≤ (r1.idx : Int); rw [hi1]; exact h0.offIdx
        · show Narrow c.U r1.buf _
          rw [hb1]
          apply Narrow.prefix (m := o.rb.buf.drop o.rb.idx)
          rw [List.take_append_drop]; exact h0.narrow
        · obtain ⟨s, a, b, d⟩ := h0.source
          refine ⟨s, a, ?_, d⟩
          show r1.buf.length ≤ _
          rw [hb1, List.length_take]; omega
        · rw [h.nosel] at hs; cases hs
        · rw [h.nosel] at hs; cases hs
        · rw [h.nosel] at hs; cases hs
      · left; exact ⟨by simpa using hc, h.nosel⟩
    · have : (r == CharKill) = false := by simpa using hK
      rw [this]
      exact ⟨_, rfl, h.plain e4 rfl rfl rfl⟩
  · by_cases k1 : r = CharBell
    · rw [if_pos k1]; exact keyBell_safe h (h2 (.inl k1)) r
    rw [if_neg k1]
    by_cases k2 : r = CharTab
    · rw [if_pos k2, k2]; exact keyTab_safe hf h
    rw [if_neg k2]
    by_cases k3 : r = CharBckSearch
    · rw [if_pos k3]; exact keySearch_safe h _ (.inl k3)
    rw [if_neg k3]
    by_cases k4 : r = CharFwdSearch
    · rw [if_pos k4]; exact keySearch_safe h _ (.inr k4)
    rw [if_neg k4]
    by_cases j0 : r = CharBackspace ∨ r = CharCtrlH
    · rw [if_pos j0]
      exact keyBackspace_safe hf h r
    rw [if_neg j0]
    by_cases j1 : r = CharCtrlZ
    · rw [if_pos j1]
      obtain ⟨r1, e1, _, _, e4⟩ := h.base.clean
      obtain ⟨r2, e5, _, _, e8⟩ := e4.refresh
      rw [e1, R.bind_ok, e5]
      exact ⟨_, rfl, h.plain e8 rfl rfl rfl⟩
    rw [if_neg j1]
    by_cases j2 : r = CharCtrlL
    · rw [if_pos j2]
      obtain ⟨r2, e5, _, _, e8⟩ := (h.base.write [.home]).refresh
      rw [e5]
      exact ⟨_, rfl, h.plain e8 rfl rfl rfl⟩
    rw [if_neg j2]
    by_cases j3 : r = CharEnter ∨ r = CharCtrlJ
    · rw [if_pos j3]
      exact keyEnter_safe h r
    rw [if_neg j3]
    by_cases j4 : r = CharPrev
    · rw [if_pos j4]
      exact keyPrev_safe h r
    rw [if_neg j4]
    by_cases j5 : r = CharNext
    · rw [if_pos j5]
      exact keyNext_safe h r
    rw [if_neg j5]
    by_cases j6 : r = CharDelete
    · rw [if_pos j6]
      exact keyDelete_safe h r
    rw [if_neg j6]
    by_cases k5 : r = CharInterrupt
    · rw [if_pos k5]; exact keyInterrupt_safe h (h2 (.inr k5)) r
    rw [if_neg k5]
    exact keyText_safe hf h r r

/-- The end of the loop body. -/
theorem finish_safe {o : Op} {r : Rune} {k : KeyRes} (h : Post c r o k)
    (hv : c.vim = true → o.vimNormal = true → k.op.search.inMode = false ∧ k.op.comp.inComplete = false) :
    ∃ o', finish c k = .ok o' ∧ Inv c o' := by
  suffices hs : ∃ o1, settle c k = .ok o1 ∧ Inv c o1 by
    obtain ⟨o1, e1, hi⟩ := hs
    unfold finish
    rw [e1, R.bind_ok]
    split
    · next hc =>
      refine ⟨_, rfl, ⟨hi.base.rb, Hist.update_WF hi.base.hist _ _ _, hi.base.sw, hi.base.cw, hi.base.col⟩, ?_, hi.soff,
        hi.comp, hi.excl, hi.vim⟩
      intro h0
      rw [show (o1.updateHistory c).search = o1.search from rfl, hc.2] at h0
      cases h0
    · exact ⟨_, rfl, hi⟩
  unfold settle
  by_cases h1 : k.keepSearch = false ∧ k.op.search.inMode = true
  · obtain ⟨r1, e1, e2, e3, e4⟩ := h.base.exitKeep.refreshNil
    rw [if_pos h1, exitSearch_keep, R.bind_ok, e1]
    refine ⟨_, rfl, e4, by simp [searchOff], fun _ => ⟨rfl, rfl⟩, ?_, by simp [searchOff], ?_⟩
    · rcases h.comp with ⟨a, b⟩ | a | ⟨a, _, b⟩
      · exact ⟨e4.cw, e4.col, by simp [a], by simp [a], by simp [b], by simp [b], by simp [b]⟩
      · exact a.congr e2 e3
      · have := b h1.2
        rw [h1.1] at this; cases this
    · intro a b
      exact ⟨rfl, (hv a (h.vimEq ▸ b)).2⟩
  · rw [if_neg h1]
    have hs : k.op.search.inMode = true → k.keepSearch = true := by
      intro h2
      cases hk : k.keepSearch with
      | true => rfl
      | false => exact (h1 ⟨hk, h2⟩).elim
    by_cases h2 : k.op.comp.inComplete = true
    · rw [if_pos h2]
      by_cases h3 : k.keepComplete = false
      · rw [if_pos h3]
        have hb : Base c { k.op with comp := k.op.comp.exitComplete } :=
          ⟨h.base.rb, h.base.hist, h.base.sw, h.base.cw, h.base.col⟩
        obtain ⟨r1, e1, e2, e3, e4⟩ := hb.refresh
        rw [e1]
        refine ⟨_, rfl, e4, ?_, h.soff, Comp.exitComplete_Inv e4.cw e4.col, fun _ => rfl, fun a b => ⟨(hv a (h.vimEq ▸ b)).1, rfl⟩⟩
        intro h4
        obtain ⟨⟨a1, a2⟩, b⟩ := h.son h4 (hs h4)
        exact ⟨⟨a1, by
          show _ ≤ r1.buf.length
          rw [show r1.buf = k.op.rb.buf from congrArg Ed.buf e2]; exact a2⟩, b⟩
      · rw [if_neg h3]
        obtain ⟨r1, e1, e2, e3, e4⟩ := h.base.refreshNil
        rw [e1, R.bind_ok]
        have hks : k.op.search.inMode = false := by
          cases h5 : k.op.search.inMode with
          | false => rfl
          | true => exact (h3 (h.keep (hs h5))).elim
        have hcinv : k.op.comp.Inv c.U c.auto r1 := by
          rcases h.comp with ⟨a, _⟩ | a | ⟨a, _⟩
          · rw [a] at h2; cases h2
          · exact a.congr e2 e3
          · exact (h3 a).elim
        obtain ⟨n, ts, e5, e6⟩ := e4.rb.menu hcinv.weak
        have e5' : k.op.comp.completeRefresh c.U r1 = .ok ({ k.op.comp with colNum := n }, r1.write ts) := e5
        rw [Op.completeRefresh, e5', R.bind_ok]
        have hb := e4.write ts
        refine ⟨_, rfl, ⟨hb.rb, hb.hist, hb.sw, hb.cw, e6.col⟩, ?_, h.soff, e6, ?_, fun a b => hv a (h.vimEq ▸ b)⟩
        · intro h4; have h4 : k.op.search.inMode = true := h4; rw [hks] at h4; cases h4
        · intro h4; have h4 : k.op.search.inMode = true := h4; rw [hks] at h4; cases h4
    · rw [if_neg h2]
      have h2 : k.op.comp.inComplete = false := by simpa using h2
      refine ⟨_, rfl, h.base, fun h4 => h.son h4 (hs h4), h.soff, ?_, fun _ => h2, fun a b => hv a (h.vimEq ▸ b)⟩
      rcases h.comp with ⟨a, b⟩ | a | ⟨_, a, _⟩
      · exact ⟨h.base.cw, h.base.col, by simp [a], by simp [a], by simp [b], by simp [b], by simp [b]⟩
      · exact a
      · exact ⟨h.base.cw, h.base.col, by simp [h2], by simp [h2], by simp [a], by simp [a], by simp [a]⟩

theorem listen_friendly (hf : Friendly c) (r : Rune) (k : KeyRes) : listen c r k = .ok k := by
  unfold listen
  split
  · rfl
  · next f hl => rw [hf.listener f hl]

theorem dispatch_safe (hf : Friendly c) {o : Op} (h : Mid c o) {r : Rune}
    (h1 : r = CharTranspose → ¬ o.rb.toEd.Trigger .transpose)
    (h2 : r = CharBell ∨ r = CharInterrupt → o.search.inMode = true → o.search.source ≠ none)
    (h3 : r = CharKill → o.comp.inComplete = true → o.comp.Fits c.U c.auto o.rb)
    (h4 : c.vim = true → o.vimNormal = true → r ≠ CharTab ∧ r ≠ CharBckSearch ∧ r ≠ CharFwdSearch) :
    ∃ o', o.dispatch c r = .ok o' ∧ Inv c o' := by
  obtain ⟨k, e1, e2⟩ := key_safe hf h h1 h2 h3
  unfold dispatch
  rw [e1, R.bind_ok, listen_friendly hf, R.bind_ok]
  refine finish_safe e2 ?_
  intro a b
  obtain ⟨x, y, z⟩ := h4 a b
  exact e2.modes (h.vim a b).1 (h.vim a b).2 x y z

/-! ### Vim, the menu and the filter -/

/-- The computation yields a value with the property, or waits for input that cannot come; it never panics. -/
def NoCrash {α} (P : α → Prop) (x : R α) : Prop := x = .error .block ∨ ∃ a, x = .ok a ∧ P a

theorem NoCrash.ok {α} {P : α → Prop} {a : α} (h : P a) : NoCrash P (.ok a) := .inr ⟨a, rfl, h⟩

theorem NoCrash.of {α} {P : α → Prop} {x : R α} (h : ∃ a, x = .ok a ∧ P a) : NoCrash P x := .inr h

theorem NoCrash.bind {α β} {P : α → Prop} {Q : β → Prop} {x : R α} {f : α → R β} (h : NoCrash P x)
    (hf : ∀ a, P a → NoCrash Q (f a)) : NoCrash Q (x >>= f) := by
  rcases h with h | ⟨a, h, ha⟩
  · left; rw [h]; rfl
  · rw [h]; exact hf a ha

/-- Neither search nor completion. -/
structure Quiet (c : OCfg) (o : Op) : Prop where
  base : Base c o
  smode : o.search.inMode = false
  marks : o.NoMarks
  cmode : o.comp.inComplete = false
  nosel : o.comp.inSelect = false

theorem Quiet.inv {o : Op} (h : Quiet c o) : Inv c o :=
  ⟨h.base, by simp [h.smode], fun _ => h.marks, ⟨h.base.cw, h.base.col, by simp [h.cmode], by simp [h.cmode], by simp [h.nosel],
    by simp [h.nosel], by simp [h.nosel]⟩,
    fun _ => h.cmode, fun _ _ => ⟨h.smode, h.cmode⟩⟩

theorem Quiet.mid {o : Op} (h : Quiet c o) : Mid c o := h.inv.mid h.nosel

theorem Quiet.io {o : Op} (h : Quiet c o) (inp gate kick) : Quiet c { o with inp := inp, gate := gate, kick := kick } :=
  ⟨⟨h.base.rb, h.base.hist, h.base.sw, h.base.cw, h.base.col⟩, h.smode, h.marks, h.cmode, h.nosel⟩

theorem Inv.io {o : Op} (h : Inv c o) (inp gate kick) : Inv c { o with inp := inp, gate := gate, kick := kick } :=
  ⟨⟨h.base.rb, h.base.hist, h.base.sw, h.base.cw, h.base.col⟩, h.son, h.soff, h.comp, h.excl, h.vim⟩

theorem Inv.withRb {o : Op} (h : Inv c o) {r : RB} (hr : RBok c.U c.d r) (he : r.toEd = o.rb.toEd) (hd : SameDisp o.rb r) :
    Inv c { o with rb := r } :=
  ⟨h.base.withRb hr hd, fun h1 => ⟨⟨(h.son h1).1.1, by
      show _ ≤ r.buf.length
      rw [show r.buf = o.rb.buf from congrArg Ed.buf he]; exact (h.son h1).1.2⟩, (h.son h1).2⟩, h.soff, h.comp.congr he hd, h.excl, h.vim⟩

theorem Inv.update {o : Op} (h : Inv c o) (hm : o.search.inMode = false) : Inv c (o.updateHistory c) := by
  refine ⟨⟨h.base.rb, Hist.update_WF h.base.hist _ _ _, h.base.sw, h.base.cw, h.base.col⟩, ?_, h.soff, h.comp, h.excl, h.vim⟩
  intro h0
  rw [show (o.updateHistory c).search = o.search from rfl, hm] at h0
  cases h0

/-- What reading a key can change. -/
theorem readRune_io (o : Op) :
    NoCrash (fun p => ∃ inp gate kick, p.2 = { o with inp := inp, gate := gate, kick := kick }) o.readRune := by
  unfold readRune
  split
  · exact .inl rfl
  · cases o.inp
    · refine .inr ⟨_, rfl, ?_⟩
      exact ⟨_, _, _, rfl⟩
    · refine .inr ⟨_, rfl, ?_⟩
      exact ⟨_, _, _, rfl⟩

theorem Quiet.edit {o : Op} (h : Quiet c o) {k : Cmd} (ht : ¬ o.rb.toEd.Trigger k) :
    ∃ r, o.edit c k = .ok { o with rb := r } ∧ Quiet c { o with rb := r } := by
  obtain ⟨r, h1, _, _, h4⟩ := h.base.edit ht
  exact ⟨r, h1, h4, h.smode, h.marks, h.cmode, h.nosel⟩

theorem Quiet.write {o : Op} (h : Quiet c o) (ts) : Quiet c { o with rb := o.rb.write ts } :=
  ⟨h.base.write ts, h.smode, h.marks, h.cmode, h.nosel⟩

/-- The keys vim normal mode is translated to. -/
def VimKey (r : Rune) : Prop :=
  r = CharBackward ∨ r = CharNext ∨ r = CharPrev ∨ r = CharForward ∨ r = CharEnter ∨ r = CharInterrupt

/-- Result of vim's key handling: a quiet state, and the key is used up or one of `VimKey`. -/
def VimRes (c : OCfg) (p : Rune × Op) : Prop := (p.1 = 0 ∨ VimKey p.1) ∧ Quiet c p.2

theorem vim_ed {o : Op} (h : Quiet c o) {k : Cmd} (ht : ¬ o.rb.toEd.Trigger k) :
    NoCrash (fun x => ∀ p, x = some p → VimRes c p) (do let o ← o.edit c k; .ok (some (0, o)) : R (Option (Rune × Op))) := by
  obtain ⟨r, h1, h2⟩ := h.edit ht
  rw [h1]
  exact .ok (by rintro p ⟨⟩; exact ⟨.inl rfl, h2⟩)

theorem vim_edIns {o : Op} (h : Quiet c o) {k : Cmd} (ht : ¬ o.rb.toEd.Trigger k) :
    NoCrash (fun x => ∀ p, x = some p → VimRes c p)
      (do let o ← o.edit c k; .ok (some (0, { o with vimNormal := false })) : R (Option (Rune × Op))) := by
  obtain ⟨r, h1, h2⟩ := h.edit ht
  rw [h1]
  refine .ok ?_
  rintro p ⟨⟩
  exact ⟨.inl rfl, ⟨h2.base.rb, h2.base.hist, h2.base.sw, h2.base.cw, h2.base.col⟩, h2.smode, h2.marks, h2.cmode, h2.nosel⟩

theorem vimMovement_safe {o : Op} (h : Quiet c o) {r : Rune} (hr : r = 114 → o.rb.idx ≠ o.rb.buf.length)
    (he : r = 101 ∨ r = 69 → ¬ o.rb.toEd.Trigger .endWord) :
    NoCrash (fun x => ∀ p, x = some p → VimRes c p) (vimMovement c r o) := by
  have hsame : NoCrash (fun x => ∀ p, x = some p → VimRes c p) (.ok (some (0, o)) : R (Option (Rune × Op))) :=
    .ok (by rintro p ⟨⟩; exact ⟨.inl rfl, h⟩)
  have hkey : ∀ t, VimKey t → NoCrash (fun x => ∀ p, x = some p → VimRes c p) (.ok (some (t, o)) : R (Option (Rune × Op))) :=
    fun t ht => .ok (by rintro p ⟨⟩; exact ⟨.inr ht, h⟩)
  unfold vimMovement
  dsimp only
  by_cases k1 : r = 104
  · rw [if_pos k1]; exact hkey _ (.inl rfl)
  rw [if_neg k1]
  by_cases k2 : r = 106
  · rw [if_pos k2]; exact hkey _ (.inr (.inl rfl))
  rw [if_neg k2]
  by_cases k3 : r = 107
  · rw [if_pos k3]; exact hkey _ (.inr (.inr (.inl rfl)))
  rw [if_neg k3]
  by_cases k4 : r = 108
  · rw [if_pos k4]; exact hkey _ (.inr (.inr (.inr (.inl rfl))))
  rw [if_neg k4]
  by_cases k5 : r = 48 ∨ r = 94
  · rw [if_pos k5]; exact vim_ed h (by simp [Ed.Trigger])
  rw [if_neg k5]
  by_cases k6 : r = 36
  · rw [if_pos k6]; exact vim_ed h (by simp [Ed.Trigger])
  rw [if_neg k6]
  by_cases k7 : r = 120
  · rw [if_pos k7]
    obtain ⟨r1, h1, h2⟩ := h.edit (k := .delete) (by simp [Ed.Trigger])
    rw [h1, R.bind_ok]
    split
    · exact vim_ed h2 (by simp [Ed.Trigger])
    · exact .ok (by rintro p ⟨⟩; exact ⟨.inl rfl, h2⟩)
  rw [if_neg k7]
  by_cases k8 : r = 114
  · rw [if_pos k8]
    refine (readRune_io o).bind ?_
    rintro ⟨n, o1⟩ ⟨i, g, k, rfl⟩
    refine vim_ed (h.io i g k) ?_
    simp only [Ed.Trigger]
    exact hr k8
  rw [if_neg k8]
  by_cases k9 : r = 100
  · rw [if_pos k9]
    refine (readRune_io o).bind ?_
    rintro ⟨n, o1⟩ ⟨i, g, k, rfl⟩
    have h' := h.io i g k
    dsimp only
    split
    · exact vim_ed h' (by simp [Ed.Trigger])
    split
    · exact vim_ed h' (by simp [Ed.Trigger])
    split
    · exact vim_ed h' (by simp [Ed.Trigger])
    split
    · exact vim_ed h' (by simp [Ed.Trigger])
    · exact .ok (by rintro p ⟨⟩; exact ⟨.inl rfl, h'⟩)
  rw [if_neg k9]
  by_cases k10 : r = 112
  · rw [if_pos k10]; exact vim_ed h (by simp [Ed.Trigger])
  rw [if_neg k10]
  by_cases k11 : r = 98 ∨ r = 66
  · rw [if_pos k11]; exact vim_ed h (by simp [Ed.Trigger])
  rw [if_neg k11]
  by_cases k12 : r = 119 ∨ r = 87
  · rw [if_pos k12]; exact vim_ed h (by simp [Ed.Trigger])
  rw [if_neg k12]
  by_cases k13 : r = 101 ∨ r = 69
  · rw [if_pos k13]; exact vim_ed h (he k13)
  rw [if_neg k13]
  by_cases k14 : r = 102 ∨ r = 70 ∨ r = 116 ∨ r = 84
  · rw [if_pos k14]
    refine (readRune_io o).bind ?_
    rintro ⟨n, o1⟩ ⟨i, g, k, rfl⟩
    have h' := h.io i g k
    dsimp only
    split
    · exact .ok (by rintro p ⟨⟩; exact ⟨.inl rfl, h'⟩)
    · exact vim_ed h' (by simp [Ed.Trigger])
  rw [if_neg k14]
  exact .ok (by simp)

theorem vimEnterInsert_safe {o : Op} (h : Quiet c o) (r : Rune) :
    NoCrash (fun x => ∀ p, x = some p → VimRes c p) (vimEnterInsert c r o) := by
  have hins : ∀ {o : Op}, Quiet c o → Quiet c { o with vimNormal := false } := fun h2 =>
    ⟨⟨h2.base.rb, h2.base.hist, h2.base.sw, h2.base.cw, h2.base.col⟩, h2.smode, h2.marks, h2.cmode, h2.nosel⟩
  unfold vimEnterInsert
  dsimp only
  by_cases k1 : r = 105
  · rw [if_pos k1]; exact .ok (by rintro p ⟨⟩; exact ⟨.inl rfl, hins h⟩)
  rw [if_neg k1]
  by_cases k2 : r = 73
  · rw [if_pos k2]; exact vim_edIns h (by simp [Ed.Trigger])
  rw [if_neg k2]
  by_cases k3 : r = 97
  · rw [if_pos k3]; exact vim_edIns h (by simp [Ed.Trigger])
  rw [if_neg k3]
  by_cases k4 : r = 65
  · rw [if_pos k4]; exact vim_edIns h (by simp [Ed.Trigger])
  rw [if_neg k4]
  by_cases k5 : r = 115
  · rw [if_pos k5]; exact vim_edIns h (by simp [Ed.Trigger])
  rw [if_neg k5]
  by_cases k6 : r = 83
  · rw [if_pos k6]; exact vim_edIns h (by simp [Ed.Trigger])
  rw [if_neg k6]
  by_cases k7 : r = 99
  · rw [if_pos k7]
    refine (readRune_io o).bind ?_
    rintro ⟨n, o1⟩ ⟨i, g, k, rfl⟩
    have h' := h.io i g k
    dsimp only
    split
    · exact vim_edIns h' (by simp [Ed.Trigger])
    split
    · exact vim_edIns h' (by simp [Ed.Trigger])
    split
    · exact vim_edIns h' (by simp [Ed.Trigger])
    split
    · exact vim_edIns h' (by simp [Ed.Trigger])
    · exact .ok (by rintro p ⟨⟩; exact ⟨.inl rfl, hins h'⟩)
  rw [if_neg k7]
  exact .ok (by simp)

theorem vimNormalKey_safe {o : Op} (h : Quiet c o) {r : Rune} (hr : r = 114 → o.rb.idx ≠ o.rb.buf.length)
    (he : r = 101 ∨ r = 69 → ¬ o.rb.toEd.Trigger .endWord) : NoCrash (VimRes c) (vimNormalKey c r o) := by
  unfold vimNormalKey
  by_cases k1 : r = CharEnter ∨ r = CharInterrupt
  · rw [if_pos k1]
    refine .ok ⟨.inr (k1.elim (fun e => .inr (.inr (.inr (.inr (.inl e))))) (fun e => .inr (.inr (.inr (.inr (.inr e)))))), ?_⟩
    exact ⟨⟨h.base.rb, h.base.hist, h.base.sw, h.base.cw, h.base.col⟩, h.smode, h.marks, h.cmode, h.nosel⟩
  · rw [if_neg k1]
    refine (vimMovement_safe h hr he).bind ?_
    intro x hx
    cases x with
    | some p => exact .ok (hx p rfl)
    | none =>
      refine (vimEnterInsert_safe h r).bind ?_
      intro y hy
      cases y with
      | some p => exact .ok (hy p rfl)
      | none => exact .ok ⟨.inl rfl, h.write _⟩

/-- The key `r` (as left by the input filter) leads out of the safe states: at once a crash, or a state from which one
more key crashes. -/
def Risky (c : OCfg) (o : Op) (r : Rune) : Prop :=
  (r = CharTranspose ∧ ¬ (c.vim = true ∧ o.vimNormal = true) ∧ o.rb.buf.length = 1 ∧ o.rb.idx = 1) ∨
  ((r = CharBell ∨ r = CharInterrupt) ∧ o.search.inMode = true ∧ o.search.source = none) ∨
  (o.comp.inSelect = true ∧ (r = CharKill ∨ (o.comp.colNum = 0 ∧ Comp.Divides r))) ∨
  (c.vim = true ∧ o.vimNormal = false ∧ r = CharEsc ∧ (o.search.inMode = true ∨ o.comp.inComplete = true)) ∨
  (c.vim = true ∧ o.vimNormal = true ∧
    ((r = 114 ∧ o.rb.idx = o.rb.buf.length) ∨ ((r = 101 ∨ r = 69) ∧ o.rb.toEd.Trigger .endWord)))

theorem viaVim_safe (hf : Friendly c) {o : Op} (h : Mid c o) {r : Rune} (hr0 : r ≠ 0)
    (h1 : r = CharTranspose → ¬ (c.vim = true ∧ o.vimNormal = true) → ¬ o.rb.toEd.Trigger .transpose)
    (h2 : r = CharBell ∨ r = CharInterrupt → o.search.inMode = true → o.search.source ≠ none)
    (h3 : r = CharKill → o.comp.inComplete = true → o.comp.Fits c.U c.auto o.rb)
    (h4 : c.vim = true → o.vimNormal = false → r = CharEsc → o.search.inMode = false ∧ o.comp.inComplete = false)
    (h5 : c.vim = true → o.vimNormal = true → (r = 114 → o.rb.idx ≠ o.rb.buf.length) ∧
      (r = 101 ∨ r = 69 → ¬ o.rb.toEd.Trigger .endWord)) :
    NoCrash (Inv c) (o.viaVim c r) := by
  unfold viaVim
  by_cases hv : c.vim = true
  · rw [if_pos hv]
    by_cases hn : o.vimNormal = true
    · obtain ⟨q1, q2⟩ := h.vim hv hn
      have hq : Quiet c o := ⟨h.base, q1, h.soff q1, q2, h.nosel⟩
      unfold handleVim
      rw [if_pos hn]
      refine (vimNormalKey_safe hq (h5 hv hn).1 (h5 hv hn).2).bind ?_
      rintro ⟨t, o1⟩ ⟨ht, hq1⟩
      dsimp only at ht hq1 ⊢
      split
      · exact .ok hq1.inv
      · next hne =>
        have ht := ht.resolve_left hne
        have hsm := hq1.smode
        have hcm := hq1.cmode
        refine .of (dispatch_safe hf hq1.mid ?_ (by simp [hsm]) (by simp [hcm]) ?_)
        · rintro rfl; revert ht; simp [VimKey, CharTranspose, CharBackward, CharNext, CharPrev, CharForward, CharEnter, CharInterrupt]
        · intro _ _
          unfold VimKey at ht
          refine ⟨?_, ?_, ?_⟩ <;> rintro rfl <;> revert ht <;>
            simp [CharTab, CharBckSearch, CharFwdSearch, CharBackward, CharNext, CharPrev, CharForward, CharEnter, CharInterrupt]
    · have hn' : o.vimNormal = false := by simpa using hn
      unfold handleVim
      rw [if_neg hn]
      by_cases hesc : r = CharEsc
      · obtain ⟨q1, q2⟩ := h4 hv hn' hesc
        rw [if_pos hesc, R.bind_ok]
        dsimp only
        rw [if_pos rfl]
        refine .ok (Quiet.inv ⟨?_, q1, h.soff q1, q2, h.nosel⟩)
        exact ⟨h.base.rb, h.base.hist, h.base.sw, h.base.cw, h.base.col⟩
      · rw [if_neg hesc, R.bind_ok]
        dsimp only
        rw [if_neg hr0]
        exact .of (dispatch_safe hf h (fun a => h1 a (by simp [hn'])) h2 h3 (by simp [hn']))
  · rw [if_neg hv]
    exact .of (dispatch_safe hf h (fun a => h1 a (by simp [hv])) h2 h3 (fun a => (hv a).elim))


theorem viaMenu_safe (hf : Friendly c) {o : Op} (h : InvW c o) {r : Rune} (hr0 : r ≠ 0) (hr : ¬ Risky c o r) :
    NoCrash (Inv c) (o.viaMenu c r) := by
  unfold Risky at hr
  have hT : r = CharTranspose → ¬ (c.vim = true ∧ o.vimNormal = true) → ¬ o.rb.toEd.Trigger .transpose :=
    fun a b d => hr (.inl ⟨a, b, d⟩)
  have hB : r = CharBell ∨ r = CharInterrupt → o.search.inMode = true → o.search.source ≠ none :=
    fun a b d => hr (.inr (.inl ⟨a, b, d⟩))
  have hE : c.vim = true → o.vimNormal = false → r = CharEsc → o.search.inMode = false ∧ o.comp.inComplete = false := by
    intro a b d
    constructor
    · cases hh : o.search.inMode with
      | false => rfl
      | true => exact (hr (.inr (.inr (.inr (.inl ⟨a, b, d, .inl hh⟩))))).elim
    · cases hh : o.comp.inComplete with
      | false => rfl
      | true => exact (hr (.inr (.inr (.inr (.inl ⟨a, b, d, .inr hh⟩))))).elim
  have hV : c.vim = true → o.vimNormal = true → (r = 114 → o.rb.idx ≠ o.rb.buf.length) ∧
      (r = 101 ∨ r = 69 → ¬ o.rb.toEd.Trigger .endWord) :=
    fun a b => ⟨fun d e => hr (.inr (.inr (.inr (.inr ⟨a, b, .inl ⟨d, e⟩⟩)))),
      fun d e => hr (.inr (.inr (.inr (.inr ⟨a, b, .inr ⟨d, e⟩⟩))))⟩
  unfold viaMenu
  by_cases hs : o.comp.inSelect = true
  · rw [if_pos hs]
    obtain ⟨hin, _⟩ := h.comp.sel hs
    have hsm : o.search.inMode = false := by
      cases hh : o.search.inMode with
      | false => rfl
      | true => rw [h.excl hh] at hin; cases hin
    obtain ⟨keep, cm, rb, e1, e2, e3, e4, e5⟩ := Comp.handleSelect_total (auto := c.auto) h.base.rb h.comp hs (k := r)
      (fun a b => hr (.inr (.inr (.inl ⟨hs, .inr ⟨b, a⟩⟩))))
    rw [e1, R.bind_ok]
    dsimp only
    have hb0 := h.base.withRb e2 e3
    cases keep with
    | true =>
      rw [if_pos rfl]
      have hci := e4 rfl
      refine .ok ⟨⟨hb0.rb, hb0.hist, hb0.sw, hci.width, hci.col⟩, ?_, h.soff, hci, ?_, ?_⟩
      · intro a; have a : o.search.inMode = true := a; rw [hsm] at a; cases a
      · intro a; have a : o.search.inMode = true := a; rw [hsm] at a; cases a
      · intro a b
        have := (h.vim a b).2
        rw [hin] at this; cases this
    | false =>
      rw [if_neg (by simp)]
      obtain ⟨f1, f2, f3, f4, f5, f6, f7⟩ := e5 rfl
      have hb1 : Base c { o with comp := cm, rb := rb } := ⟨hb0.rb, hb0.hist, hb0.sw, f3, f4⟩
      obtain ⟨r1, g1, g2, g3, g4⟩ := hb1.refreshNil
      rw [g1, R.bind_ok]
      have hmid : Mid c { o with comp := cm, rb := r1 } := by
        refine ⟨g4, ?_, h.soff, f1, fun a => h.comp.auto (f5 a), fun _ => .inl f2, ?_, ?_⟩
        · intro a; have a : o.search.inMode = true := a; rw [hsm] at a; cases a
        · intro a; have a : o.search.inMode = true := a; rw [hsm] at a; cases a
        · intro a b
          have := (h.vim a b).2
          rw [hin] at this; cases this
      have hquiet : r = CharEnter ∨ r = CharCtrlJ ∨ r = CharInterrupt ∨ r = CharBell →
          Quiet c { o with comp := cm, rb := r1 } := fun a => ⟨g4, hsm, h.soff hsm, f6 a, f1⟩
      by_cases k1 : r = CharEnter ∨ r = CharCtrlJ
      · rw [if_pos k1]
        have hq := hquiet (k1.elim .inl (fun a => .inr (.inl a)))
        exact .ok ((hq.inv.update hsm).io _ _ _)
      rw [if_neg k1]
      by_cases k2 : r = CharInterrupt
      · rw [if_pos k2]
        exact .ok ((hquiet (.inr (.inr (.inl k2)))).inv.io _ _ _)
      rw [if_neg k2]
      by_cases k3 : r = CharBell
      · rw [if_pos k3]
        exact .ok (hquiet (.inr (.inr (.inr k3)))).inv
      rw [if_neg k3]
      have hrr : rb = o.rb := f7 (fun a => k1 (.inl a)) (fun a => k1 (.inr a))
      have hed : r1.toEd = o.rb.toEd := by rw [← hrr]; exact g2
      have hbuf : r1.buf = o.rb.buf := congrArg Ed.buf hed
      have hidx : r1.idx = o.rb.idx := congrArg Ed.idx hed
      refine viaVim_safe hf hmid hr0 ?_ ?_ ?_ ?_ ?_
      · intro a b; show ¬ r1.toEd.Trigger _; rw [hed]; exact hT a b
      · intro a; have := hB a; exact this
      · intro a; exact (hr (.inr (.inr (.inl ⟨hs, .inl a⟩)))).elim
      · intro a b d
        have := (hE a b d).2
        rw [hin] at this; cases this
      · intro a b
        have := (h.vim a b).2
        rw [hin] at this; cases this
  · rw [if_neg hs]
    exact viaVim_safe hf ((h.inv (by simpa using hs)).mid (by simpa using hs)) hr0 hT hB (fun _ a => h.comp.fits a) hE hV

/-- Enter is never risky. -/
theorem enter_not_risky (o : Op) : ¬ Risky c o CharEnter := by
  unfold Risky Comp.Divides
  simp [CharEnter, CharTranspose, CharBell, CharInterrupt, CharKill, CharLineStart, CharLineEnd, CharNext, CharEsc]

theorem handle_safe (hf : Friendly c) {o : Op} (h : Inv c o) {r : Rune} (hr : ¬ Risky c o r) :
    NoCrash (Inv c) (o.handle c r) := by
  unfold handle
  by_cases h0 : r = 0
  · rw [if_pos h0]
    split
    · obtain ⟨r1, e1, e2, e3, e4⟩ := h.base.clean
      rw [e1, R.bind_ok]
      have := h.withRb e4.rb e2 e3
      exact .ok ⟨⟨this.base.rb, this.base.hist, this.base.sw, this.base.cw, this.base.col⟩, this.son, this.soff, this.comp,
        this.excl, this.vim⟩
    · exact viaMenu_safe hf h.weak (by simp [CharEnter]) (enter_not_risky o)
  · rw [if_neg h0]
    exact viaMenu_safe hf h.weak h0 hr

/-- The key as the editing loop sees it (after `FuncFilterInputRune`), if it is not rejected. -/
def filtered (c : OCfg) (r : Rune) : Option Rune :=
  match c.filter with
  | none => some r
  | some f => if (f r).2 then some (f r).1 else none

theorem accept_safe (hf : Friendly c) {o : Op} (h : Inv c o) {r : Rune}
    (hr : ∀ r', filtered c r = some r' → ¬ Risky c o r') : NoCrash (Inv c) (o.accept c r) := by
  unfold accept
  unfold filtered at hr
  split
  · next hc =>
    simp only [hc, Option.some.injEq] at hr
    exact handle_safe hf h (hr r rfl)
  · next f hc =>
    simp only [hc] at hr
    split
    · obtain ⟨r1, e1, e2, e3, e4⟩ := (h.io o.inp o.gate true).base.refreshNil
      exact .inr ⟨_, e1, (h.io o.inp o.gate true).withRb e4.rb e2 e3⟩
    · next r' heq =>
      rw [heq] at hr
      exact handle_safe hf h (hr r' rfl)

/-- The key the next iteration reads (0 at the end of input). -/
def nextKey (o : Op) : Rune := o.inp.headD 0

/-- One iteration of the editing loop. -/
theorem iter_safe (hf : Friendly c) {o : Op} (h : Inv c o) (hr : ∀ r', filtered c o.nextKey = some r' → ¬ Risky c o r') :
    NoCrash (Inv c) (o.iter c) := by
  unfold iter
  unfold readRune
  by_cases hg : o.gate = true ∧ o.kick = false
  · rw [if_pos hg]; exact .inl rfl
  · rw [if_neg hg]
    unfold nextKey at hr
    cases hi : o.inp with
    | nil =>
      rw [hi] at hr
      dsimp only
      rw [R.bind_ok]
      refine accept_safe hf ?_ hr
      exact h.io _ _ _
    | cons r rest =>
      rw [hi] at hr
      dsimp only
      rw [R.bind_ok]
      refine accept_safe hf ?_ hr
      exact h.io _ _ _

end Op
end RL
