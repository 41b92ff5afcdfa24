import Verif.Proofs.Operation
/-! What an iteration of the editing loop does, key by key: whenever it returns, its effect on the line, the history and
the results (C28-C35, C40, C41, C57). -/

namespace RL
open Spec RB Ed

theorem R.bind_inv {α β} {x : R α} {f : α → R β} {b : β} (h : x >>= f = .ok b) : ∃ a, x = .ok a ∧ f a = .ok b := by
  cases x with
  | error => cases h
  | ok a => exact ⟨a, rfl, h⟩

/-- Drawing the menu changes the screen and the number of columns only. -/
theorem Comp.completeRefresh_ok {U : UTables} {c c' : Comp} {r r' : RB} (h : c.completeRefresh U r = .ok (c', r')) :
    r'.toEd = r.toEd ∧ SameDisp r r' ∧ c' = { c with colNum := c'.colNum } := by
  unfold Comp.completeRefresh at h
  split at h
  · cases h; exact ⟨rfl, .refl _, rfl⟩
  · obtain ⟨_, _, h⟩ := R.bind_inv h
    obtain ⟨_, _, h⟩ := R.bind_inv h
    obtain ⟨_, _, h⟩ := R.bind_inv h
    dsimp only at h
    split at h
    · obtain ⟨_, _, h⟩ := R.bind_inv h
      rw [R.bind_ok] at h
      obtain ⟨_, _, h⟩ := R.bind_inv h
      obtain ⟨⟨_, _⟩, _, h⟩ := R.bind_inv h
      obtain ⟨_, _, h⟩ := R.bind_inv h
      cases h
      exact ⟨rfl, (write_same _ _).2, rfl⟩
    · rw [R.bind_ok] at h
      obtain ⟨_, _, h⟩ := R.bind_inv h
      obtain ⟨⟨_, _⟩, _, h⟩ := R.bind_inv h
      obtain ⟨_, _, h⟩ := R.bind_inv h
      cases h
      exact ⟨rfl, (write_same _ _).2, rfl⟩

theorem RB.setStyle_ok {U : UTables} {r r' : RB} {a b : Nat} {st} (h : r.setStyle U a b st = .ok r') :
    r'.toEd = r.toEd ∧ SameDisp r r' := by
  unfold RB.setStyle at h
  split at h
  · cases h
  · dsimp only at h
    split at h
    · obtain ⟨_, _, h⟩ := R.bind_inv h
      rw [R.bind_ok] at h
      obtain ⟨_, _, h⟩ := R.bind_inv h
      cases h; exact write_same _ _
    · obtain ⟨_, _, h⟩ := R.bind_inv h
      rw [R.bind_ok] at h
      obtain ⟨_, _, h⟩ := R.bind_inv h
      cases h; exact write_same _ _

theorem Search.searchRefresh_ok {U : UTables} {s s' : Search} {r r' : RB} {x : Int}
    (h : s.searchRefresh U r x = .ok (s', r')) : s' = s.setState x ∧ r'.toEd = r.toEd ∧ SameDisp r r' := by
  unfold Search.searchRefresh at h
  obtain ⟨_, _, h⟩ := R.bind_inv h
  obtain ⟨_, _, h⟩ := R.bind_inv h
  obtain ⟨_, _, h⟩ := R.bind_inv h
  obtain ⟨r1, e1, h⟩ := R.bind_inv h
  obtain ⟨_, _, h⟩ := R.bind_inv h
  obtain ⟨_, _, h⟩ := R.bind_inv h
  cases h
  unfold Search.underline at e1
  split at e1
  · obtain ⟨h1, h2⟩ := RB.setStyle_ok e1
    exact ⟨rfl, h1, h2.trans (write_same _ _).2⟩
  · cases e1; exact ⟨rfl, rfl, (write_same _ _).2⟩

/-- A step of the search: it stays in search mode, remembers where it started, and moves the history position only to a
matching entry, whose text it shows. -/
theorem Search.search_ok {U : UTables} {d : DCfg} {cfg : HCfg} {b : Bool} {s s' : Search} {h h' : Hist} {r r' : RB}
    (hs : Search.search U d cfg b s h r = .ok (s', h', r')) :
    s'.inMode = s.inMode ∧ s'.source = s.source ∧ s'.data = s.data ∧ s'.width = s.width ∧ SameDisp r r' ∧
    r'.lastKill = r.lastKill ∧
    ((h' = h ∧ r'.toEd = r.toEd) ∨
      ∃ idx e, s.findHistoryBy cfg h r b = .ok (some (idx, e)) ∧ h' = { h with current := some e } ∧
        r'.buf = h.showItem e ∧ r'.idx = if s.fwd then idx + s.data.length else idx) := by
  have hset : ∀ (s : Search) x, (s.setState x).inMode = s.inMode ∧ (s.setState x).source = s.source ∧
      (s.setState x).data = s.data ∧ (s.setState x).width = s.width := by
    intro s x; unfold Search.setState; split
    · exact ⟨rfl, rfl, rfl, rfl⟩
    · split <;> exact ⟨rfl, rfl, rfl, rfl⟩
  unfold Search.search at hs
  split at hs
  · obtain ⟨⟨s1, r1⟩, e1, hs⟩ := R.bind_inv hs
    cases hs
    obtain ⟨rfl, h2, h3⟩ := Search.searchRefresh_ok e1
    obtain ⟨k1, k2, k3, k4⟩ := hset { s with failing := false } (-1)
    exact ⟨k1, k2, k3, k4, h3, by rw [h2], .inl ⟨rfl, h2⟩⟩
  · obtain ⟨x, e0, hs⟩ := R.bind_inv hs
    cases x with
    | none =>
      obtain ⟨⟨s1, r1⟩, e1, hs⟩ := R.bind_inv hs
      cases hs
      obtain ⟨rfl, h2, h3⟩ := Search.searchRefresh_ok e1
      obtain ⟨k1, k2, k3, k4⟩ := hset s (-2)
      exact ⟨k1, k2, k3, k4, h3, by rw [h2], .inl ⟨rfl, h2⟩⟩
    | some p =>
      obtain ⟨idx, e⟩ := p
      obtain ⟨r1, e1, hs⟩ := R.bind_inv hs
      obtain ⟨⟨s2, r2⟩, e2, hs⟩ := R.bind_inv hs
      cases hs
      obtain ⟨rfl, h2, h3⟩ := Search.searchRefresh_ok e2
      obtain ⟨h4, h5⟩ := refresh_ok e1
      have h4 := Except.ok.inj h4
      obtain ⟨k1, k2, k3, k4⟩ := hset { s with markStart := idx, markEnd := idx + s.data.length }
        (if s.fwd then idx + s.data.length else idx : Nat)
      refine ⟨k1, k2, k3, k4, h5.trans h3, by rw [h2, ← h4], .inr ⟨idx, e, e0, rfl, ?_, ?_⟩⟩
      · rw [h2, ← h4]; rfl
      · rw [h2, ← h4]

namespace Op

variable {c : OCfg}

/-- Only the screen and the modes have changed. -/
structure Frame (o o' : Op) : Prop where
  line : o'.rb.toEd = o.rb.toEd
  disp : SameDisp o.rb o'.rb
  hist : o'.hist = o.hist
  inp : o'.inp = o.inp
  gate : o'.gate = o.gate
  kick : o'.kick = o.kick
  events : o'.events = o.events
  stopped : o'.stopped = o.stopped
  vimNormal : o'.vimNormal = o.vimNormal

theorem Frame.refl (o : Op) : Frame o o := ⟨rfl, .refl _, rfl, rfl, rfl, rfl, rfl, rfl, rfl⟩

theorem Frame.trans {a b d : Op} (h : Frame a b) (h' : Frame b d) : Frame a d :=
  ⟨h'.line.trans h.line, h.disp.trans h'.disp, h'.hist.trans h.hist, h'.inp.trans h.inp, h'.gate.trans h.gate,
    h'.kick.trans h.kick, h'.events.trans h.events, h'.stopped.trans h.stopped, h'.vimNormal.trans h.vimNormal⟩

theorem Frame.write (o : Op) (ts) : Frame o { o with rb := o.rb.write ts } :=
  ⟨rfl, (write_same _ _).2, rfl, rfl, rfl, rfl, rfl, rfl, rfl⟩

/-- Editing changes only the line. -/
theorem edit_ok {o o' : Op} {k : Cmd} (h : o.edit c k = .ok o') :
    ∃ r, o' = { o with rb := r } ∧ k.core o.rb.toEd = .ok r.toEd ∧ SameDisp o.rb r := by
  obtain ⟨r, h1, h2⟩ := R.bind_inv h
  cases h2
  exact ⟨r, rfl, apply_ok h1⟩

theorem refreshNil_ok {o o' : Op} (h : o.refreshNil c = .ok o') :
    ∃ r, o' = { o with rb := r } ∧ r.toEd = o.rb.toEd ∧ SameDisp o.rb r := by
  obtain ⟨r, h1, h2⟩ := R.bind_inv h
  cases h2
  obtain ⟨h3, h4⟩ := refresh_ok h1
  exact ⟨r, rfl, (Except.ok.inj h3).symm, h4⟩

theorem clean_ok' {o o' : Op} (h : o.clean c = .ok o') :
    ∃ r, o' = { o with rb := r } ∧ r.toEd = o.rb.toEd ∧ SameDisp o.rb r := by
  obtain ⟨r, h1, h2⟩ := R.bind_inv h
  cases h2
  exact ⟨r, rfl, clean_ok h1⟩

theorem refresh_ok' {o o' : Op} (h : o.refresh c = .ok o') :
    ∃ r, o' = { o with rb := r } ∧ r.toEd = o.rb.toEd ∧ SameDisp o.rb r := by
  unfold Op.refresh at h
  split at h
  · exact refreshNil_ok h
  · cases h; exact ⟨_, rfl, rfl, .refl _⟩

theorem Frame.withRb {o : Op} {r : RB} (h : r.toEd = o.rb.toEd) (hd : SameDisp o.rb r) : Frame o { o with rb := r } :=
  ⟨h, hd, rfl, rfl, rfl, rfl, rfl, rfl, rfl⟩

theorem completeRefresh_ok {o o' : Op} (h : o.completeRefresh c = .ok o') :
    Frame o o' ∧ o'.search = o.search ∧ o'.comp = { o.comp with colNum := o'.comp.colNum } := by
  obtain ⟨⟨cm, r⟩, h1, h2⟩ := R.bind_inv h
  cases h2
  obtain ⟨e1, e2, e3⟩ := Comp.completeRefresh_ok h1
  exact ⟨⟨e1, e2, rfl, rfl, rfl, rfl, rfl, rfl, rfl⟩, rfl, e3⟩

/-- The end of the loop body keeps the line. -/
theorem settle_ok {k : KeyRes} {o' : Op} (h : settle c k = .ok o') :
    Frame k.op o' ∧ (o'.search.inMode = true ↔ k.op.search.inMode = true ∧ k.keepSearch = true) := by
  unfold settle at h
  by_cases h1 : k.keepSearch = false ∧ k.op.search.inMode = true
  · rw [if_pos h1, exitSearch_keep, R.bind_ok] at h
    obtain ⟨r, rfl, h2, h3⟩ := refreshNil_ok h
    refine ⟨⟨h2, h3, rfl, rfl, rfl, rfl, rfl, rfl, rfl⟩, ?_⟩
    simp [searchOff, h1.1]
  · rw [if_neg h1] at h
    have hm : k.op.search.inMode = true ↔ k.op.search.inMode = true ∧ k.keepSearch = true := by
      cases hk : k.keepSearch <;> simp_all
    by_cases h2 : k.op.comp.inComplete = true
    · rw [if_pos h2] at h
      by_cases h3 : k.keepComplete = false
      · rw [if_pos h3] at h
        obtain ⟨r, rfl, h4, h5⟩ := refresh_ok' h
        exact ⟨⟨h4, h5, rfl, rfl, rfl, rfl, rfl, rfl, rfl⟩, hm⟩
      · rw [if_neg h3] at h
        obtain ⟨o1, e1, h⟩ := R.bind_inv h
        obtain ⟨r, rfl, h4, h5⟩ := refreshNil_ok e1
        obtain ⟨f, e2, _⟩ := completeRefresh_ok h
        exact ⟨(Frame.withRb h4 h5).trans f, by rw [e2]; exact hm⟩
    · rw [if_neg h2] at h
      cases h
      exact ⟨.refl _, hm⟩

/-- What the end of the loop body does to the history. -/
structure Finished (c : OCfg) (k : KeyRes) (o' : Op) : Prop where
  line : o'.rb.toEd = k.op.rb.toEd
  disp : SameDisp k.op.rb o'.rb
  inp : o'.inp = k.op.inp
  gate : o'.gate = k.op.gate
  kick : o'.kick = k.op.kick
  events : o'.events = k.op.events
  stopped : o'.stopped = k.op.stopped
  vimNormal : o'.vimNormal = k.op.vimNormal
  smode : o'.search.inMode = true ↔ k.op.search.inMode = true ∧ k.keepSearch = true
  hist : o'.hist = if k.update = true ∧ o'.search.inMode = false then k.op.hist.update c.h k.op.rb.buf false else k.op.hist

theorem finish_ok {k : KeyRes} {o' : Op} (h : finish c k = .ok o') : Finished c k o' := by
  obtain ⟨o1, h1, h⟩ := R.bind_inv h
  obtain ⟨f, hs⟩ := settle_ok h1
  split at h
  · next hu =>
    cases h
    refine ⟨f.line, f.disp, f.inp, f.gate, f.kick, f.events, f.stopped, f.vimNormal, hs, ?_⟩
    rw [show (o1.updateHistory c).search = o1.search from rfl, if_pos hu]
    show o1.hist.update c.h o1.rb.buf false = _
    rw [f.hist, f.line]
  · next hu =>
    cases h
    refine ⟨f.line, f.disp, f.inp, f.gate, f.kick, f.events, f.stopped, f.vimNormal, hs, ?_⟩
    rw [if_neg hu, f.hist]

/-- The listener does not interfere. -/
def Observer (c : OCfg) : Prop := ∀ f, c.listener = some f → ∀ l p r, f l p r = none

theorem listen_observer (hf : Observer c) (r : Rune) (k : KeyRes) : listen c r k = .ok k := by
  unfold listen
  split
  · rfl
  · next f hl => rw [hf f hl]

theorem dispatch_ok (hf : Observer c) {o o' : Op} {r : Rune} (h : o.dispatch c r = .ok o') :
    ∃ k, o.key c r = .ok k ∧ Finished c k o' := by
  obtain ⟨k, h1, h⟩ := R.bind_inv h
  rw [listen_observer hf, R.bind_ok] at h
  exact ⟨k, h1, finish_ok h⟩

/-! ### Single keys -/

/-- A key that ends the call with a line. -/
theorem keyEnter_ok {o : Op} {k : KeyRes} (h : keyEnter c o = .ok k) :
    k.op.rb.toEd = { o.rb.toEd with buf := [], idx := 0 } ∧ SameDisp o.rb k.op.rb ∧
    k.op.events = o.events ++ [.line o.rb.buf] ∧ k.op.search.inMode = false ∧ k.op.comp = o.comp ∧
    k.op.inp = o.inp ∧ k.op.gate = o.gate ∧ k.op.kick = o.kick ∧ k.op.stopped = o.stopped ∧ k.op.vimNormal = o.vimNormal ∧
    k.keepSearch = false ∧ k.keepComplete = false ∧
    (c.noSave = false → k.update = true ∧ o.hist.new c.h o.rb.buf = .ok k.op.hist) ∧
    (c.noSave = true → k.update = false ∧ k.op.hist = o.hist) := by
  have main : ∀ o1 : Op, o1.search.inMode = false →
      (do
        let o ← o1.edit c .toEnd
        let (data, o) ←
          if c.unique = false then do
            let o ← o.edit c (.insert [10])
            let (data, rb) := o.rb.reset
            if data.length = 0 then .error .panic else .ok (data.take (data.length - 1), { o with rb := rb })
          else do
            let o ← o.clean c
            let (data, rb) := o.rb.reset
            .ok (data, { o with rb := rb })
        let o := { o with events := o.events ++ [.line data] }
        if c.noSave = false then do
          let h ← o.hist.new c.h data
          .ok { op := { o with hist := h } }
        else .ok { op := o, update := false } : R KeyRes) = .ok k →
      k.op.rb.toEd = { o1.rb.toEd with buf := [], idx := 0 } ∧ SameDisp o1.rb k.op.rb ∧
      k.op.events = o1.events ++ [.line o1.rb.buf] ∧ k.op.search = o1.search ∧ k.op.comp = o1.comp ∧
      k.op.inp = o1.inp ∧ k.op.gate = o1.gate ∧ k.op.kick = o1.kick ∧ k.op.stopped = o1.stopped ∧ k.op.vimNormal = o1.vimNormal ∧
      k.keepSearch = false ∧ k.keepComplete = false ∧
      (c.noSave = false → k.update = true ∧ o1.hist.new c.h o1.rb.buf = .ok k.op.hist) ∧
      (c.noSave = true → k.update = false ∧ k.op.hist = o1.hist) := by
    intro o1 hm h
    obtain ⟨o2, e1, h⟩ := R.bind_inv h
    obtain ⟨r2, rfl, e2, e3⟩ := edit_ok e1
    rw [toEndC_eq, Except.ok.injEq] at e2
    have save : ∀ (r3 : RB) (data : List Rune), data = o1.rb.buf →
        r3.toEd = { o1.rb.toEd with buf := [], idx := 0 } → SameDisp o1.rb r3 →
        (if c.noSave = false then do
          let h ← o1.hist.new c.h data
          .ok { op := { o1 with rb := r3, events := o1.events ++ [.line data], hist := h } }
        else .ok { op := { o1 with rb := r3, events := o1.events ++ [.line data] }, update := false } : R KeyRes) = .ok k →
        k.op.rb.toEd = { o1.rb.toEd with buf := [], idx := 0 } ∧ SameDisp o1.rb k.op.rb ∧
      k.op.events = o1.events ++ [.line o1.rb.buf] ∧ k.op.search = o1.search ∧ k.op.comp = o1.comp ∧
      k.op.inp = o1.inp ∧ k.op.gate = o1.gate ∧ k.op.kick = o1.kick ∧ k.op.stopped = o1.stopped ∧ k.op.vimNormal = o1.vimNormal ∧
      k.keepSearch = false ∧ k.keepComplete = false ∧
      (c.noSave = false → k.update = true ∧ o1.hist.new c.h o1.rb.buf = .ok k.op.hist) ∧
      (c.noSave = true → k.update = false ∧ k.op.hist = o1.hist) := by
      intro r3 data hd h3 h4 h
      subst hd
      split at h
      · next hs =>
        obtain ⟨h', e4, h⟩ := R.bind_inv h
        cases h
        exact ⟨h3, h4, rfl, rfl, rfl, rfl, rfl, rfl, rfl, rfl, rfl, rfl, fun _ => ⟨rfl, e4⟩, by simp [hs]⟩
      · next hs =>
        cases h
        exact ⟨h3, h4, rfl, rfl, rfl, rfl, rfl, rfl, rfl, rfl, rfl, rfl, fun a => (hs a).elim, fun _ => ⟨rfl, rfl⟩⟩
    have hb : r2.buf = o1.rb.buf := by rw [← e2]
    have hi : r2.idx = o1.rb.buf.length := by rw [← e2]
    dsimp only at h
    by_cases hu : c.unique = false
    · rw [if_pos hu] at h
      obtain ⟨o4, e5, h⟩ := R.bind_inv h
      obtain ⟨r4, rfl, e6, e7⟩ := edit_ok e5
      rw [insertC_eq _ (by show r2.idx ≤ r2.buf.length; rw [hb, hi]; exact Nat.le_refl _), Except.ok.injEq] at e6
      have hb4 : r4.buf = o1.rb.buf ++ [10] := by
        rw [← e6]
        show r2.buf.take r2.idx ++ ([10] ++ r2.buf.drop r2.idx) = _
        rw [hb, hi]; simp
      have hl : ¬ r4.reset.1.length = 0 := by simp [RB.reset, hb4]
      dsimp only at h
      rw [if_neg hl, R.bind_ok] at h
      have hk : r4.lastKill = o1.rb.lastKill ∧ r4.bck = o1.rb.bck := by rw [← e6]; rw [← e2]; exact ⟨rfl, rfl⟩
      refine save r4.reset.2 _ ?_ ?_ (e3.trans ⟨e7.1, e7.2, e7.3⟩) h
      · simp [RB.reset, hb4]
      · simp only [RB.reset, hk.1, hk.2]
    · rw [if_neg hu] at h
      obtain ⟨o4, e5, h⟩ := R.bind_inv h
      obtain ⟨r4, rfl, e6, e7⟩ := clean_ok' e5
      rw [R.bind_ok] at h
      have e6 : r4.toEd = r2.toEd := e6
      have hk : r4.lastKill = o1.rb.lastKill ∧ r4.bck = o1.rb.bck := by rw [e6, ← e2]; exact ⟨rfl, rfl⟩
      refine save r4.reset.2 _ ?_ ?_ (e3.trans ⟨e7.1, e7.2, e7.3⟩) h
      · show r4.buf = _; rw [e6]; exact hb
      · simp only [RB.reset, hk.1, hk.2]
  unfold keyEnter at h
  by_cases hm : o.search.inMode = true
  · simp only [hm, if_true, exitSearch_keep, R.bind_ok] at h
    have := main _ rfl h
    exact ⟨this.1, this.2.1, this.2.2.1, by rw [this.2.2.2.1]; rfl, this.2.2.2.2⟩
  · simp only [hm, Bool.false_eq_true, if_false, R.bind_ok] at h
    have hm : o.search.inMode = false := by simpa using hm
    have := main o hm h
    exact ⟨this.1, this.2.1, this.2.2.1, by rw [this.2.2.2.1]; exact hm, this.2.2.2.2⟩

/-- Ctrl-C outside search and completion. -/
theorem keyInterrupt_ok {o : Op} {k : KeyRes} (h : keyInterrupt c o = .ok k) (h1 : o.search.inMode = false)
    (h2 : o.comp.inComplete = false) :
    k.op.rb.toEd = { o.rb.toEd with buf := [], idx := 0 } ∧ SameDisp o.rb k.op.rb ∧
    k.op.events = o.events ++ [.interrupt o.rb.buf] ∧ k.op.search = o.search ∧ k.op.comp = o.comp ∧
    k.op.inp = o.inp ∧ k.op.gate = o.gate ∧ k.op.kick = o.kick ∧ k.op.stopped = o.stopped ∧ k.op.vimNormal = o.vimNormal ∧
    k.op.hist = o.hist.revert ∧ k.keepSearch = false ∧ k.keepComplete = false ∧ k.update = false := by
  unfold keyInterrupt at h
  rw [if_neg (by simp [h1]), if_neg (by simp [h2])] at h
  obtain ⟨o2, e1, h⟩ := R.bind_inv h
  obtain ⟨r2, rfl, e2, e3⟩ := edit_ok e1
  rw [toEndC_eq, Except.ok.injEq] at e2
  obtain ⟨o3, e4, h⟩ := R.bind_inv h
  obtain ⟨r3, rfl, e5, e6⟩ := refreshNil_ok e4
  have e5 : r3.toEd = r2.toEd := e5
  rw [← e2] at e5
  have e6 : SameDisp r2 r3 := e6
  dsimp only at h
  by_cases hu : c.unique = false
  · simp only [hu, if_true] at h
    obtain ⟨o4, e7, h⟩ := R.bind_inv h
    obtain ⟨r4, rfl, e8, e9⟩ := edit_ok e7
    have hi : r3.idx = o.rb.buf.length := by rw [e5]
    have hb : r3.buf = o.rb.buf := by rw [e5]
    rw [insertC_eq _ (by show r3.idx ≤ r3.buf.length; rw [hi, hb]; exact Nat.le_refl _), Except.ok.injEq] at e8
    have hb4 : r4.buf = o.rb.buf ++ (c.interruptPrompt ++ [10]) := by
      rw [← e8]
      show r3.buf.take r3.idx ++ (_ ++ r3.buf.drop r3.idx) = _
      rw [hb, hi]; simp
    have hk : r4.lastKill = o.rb.lastKill ∧ r4.bck = o.rb.bck := by rw [← e8, e5]; exact ⟨rfl, rfl⟩
    have hl : ¬ (RB.reset r4).1.length < (c.interruptPrompt ++ [10]).length := by simp [RB.reset, hb4]
    simp only [if_neg hl, R.bind_ok] at h
    cases h
    refine ⟨?_, (e3.trans e6).trans ⟨e9.1, e9.2, e9.3⟩, ?_, rfl, rfl, rfl, rfl, rfl, rfl, rfl, rfl, rfl, rfl, rfl⟩
    · simp only [RB.reset, hk.1, hk.2]
    · simp [RB.reset, hb4]
  · simp only [hu, Bool.false_eq_true, if_false, R.bind_ok] at h
    cases h
    refine ⟨?_, (e3.trans e6).trans ⟨rfl, rfl, rfl⟩, ?_, rfl, rfl, rfl, rfl, rfl, rfl, rfl, rfl, rfl, rfl, rfl⟩
    · simp only [RB.reset, e5]
    · simp [RB.reset, e5]

/-- Ctrl-D on an empty line outside search and completion. -/
theorem keyDelete_eof {o : Op} {k : KeyRes} (h : keyDelete c o = .ok k) (h0 : o.rb.buf = [])
    (h1 : o.search.inMode = false) (h2 : o.comp.inComplete = false) :
    k.op.rb.toEd = { o.rb.toEd with buf := [], idx := 0 } ∧ SameDisp o.rb k.op.rb ∧
    k.op.events = o.events ++ [.eof] ∧ k.op.search = o.search ∧ k.op.comp = o.comp ∧
    k.op.inp = o.inp ∧ k.op.gate = o.gate ∧ k.op.kick = o.kick ∧ k.op.stopped = o.stopped ∧ k.op.vimNormal = o.vimNormal ∧
    k.op.hist = o.hist.revert ∧ k.keepSearch = false ∧ k.keepComplete = false ∧ k.update = false := by
  unfold keyDelete at h
  rw [if_neg (by simp [h0, isNormalMode, h1, h2])] at h
  dsimp only at h
  by_cases hu : c.unique = false
  · simp only [hu, if_true, Bool.false_eq_true, if_false, R.bind_ok] at h
    obtain ⟨o2, e1, h⟩ := R.bind_inv h
    obtain ⟨r2, rfl, e2, e3⟩ := edit_ok e1
    cases h
    have hk : r2.lastKill = o.rb.lastKill ∧ r2.bck = o.rb.bck := by
      simp only [Cmd.core, writeRunesC] at e2
      obtain ⟨_, _, e2⟩ := R.bind_inv e2
      obtain ⟨_, _, e2⟩ := R.bind_inv e2
      have e2 := Except.ok.inj e2
      rw [← e2]; exact ⟨rfl, rfl⟩
    exact ⟨by simp only [RB.reset, hk.1, hk.2], ⟨e3.1, e3.2, e3.3⟩, rfl, rfl, rfl, rfl, rfl, rfl, rfl, rfl, rfl, rfl, rfl, rfl⟩
  · have hu : c.unique = true := by simpa using hu
    simp only [hu, Bool.true_eq_false, if_false, if_true, R.bind_ok] at h
    obtain ⟨o2, e1, h⟩ := R.bind_inv h
    obtain ⟨r2, rfl, e2, e3⟩ := clean_ok' e1
    cases h
    exact ⟨e2, ⟨e3.1, e3.2, e3.3⟩, rfl, rfl, rfl, rfl, rfl, rfl, rfl, rfl, rfl, rfl, rfl, rfl⟩

/-- Ctrl-D otherwise. -/
theorem keyDelete_del {o : Op} {k : KeyRes} (h : keyDelete c o = .ok k) (hn : o.rb.buf ≠ [] ∨ o.search.inMode = true ∨ o.comp.inComplete = true) :
    Cmd.core .delete o.rb.toEd = .ok k.op.rb.toEd ∧ SameDisp o.rb k.op.rb ∧ k.op.events = o.events ∧ k.op.search = o.search ∧
    k.op.comp = o.comp ∧ k.op.inp = o.inp ∧ k.op.gate = o.gate ∧ k.op.kick = true ∧ k.op.stopped = o.stopped ∧
    k.op.vimNormal = o.vimNormal ∧ k.op.hist = o.hist ∧ k.keepSearch = false ∧ k.keepComplete = false ∧ k.update = true := by
  unfold keyDelete at h
  rw [if_pos (by
    rcases hn with hn | hn | hn
    · left; cases hb : o.rb.buf with
      | nil => exact (hn hb).elim
      | cons => simp
    · right; simp [isNormalMode, hn]
    · right; simp [isNormalMode, hn])] at h
  dsimp only at h
  obtain ⟨⟨ok, rb⟩, e1, h⟩ := R.bind_inv h
  have e1 : o.rb.delete c.U c.d = .ok (ok, rb) := e1
  have e2 : Cmd.apply c.U c.d .delete o.rb = .ok rb := by simp [Cmd.apply, e1]
  obtain ⟨e3, e4⟩ := apply_ok e2
  dsimp only at h
  split at h
  · cases h
    exact ⟨e3, e4, rfl, rfl, rfl, rfl, rfl, rfl, rfl, rfl, rfl, rfl, rfl, rfl⟩
  · cases h
    exact ⟨e3, ⟨e4.1, e4.2, e4.3⟩, rfl, rfl, rfl, rfl, rfl, rfl, rfl, rfl, rfl, rfl, rfl, rfl⟩

/-! ### Which branch a key takes -/

theorem key_simple {r : Rune} {k : Cmd} (h : simpleKey r = some k) (o : Op) :
    o.key c r = (o.edit c k >>= fun o => .ok { op := o, keepComplete := r == CharKill }) := by
  unfold Op.key; rw [h]

theorem key_enter {r : Rune} (h : r = CharEnter ∨ r = CharCtrlJ) (o : Op) : o.key c r = keyEnter c o := by
  rcases h with rfl | rfl <;> rfl

theorem key_interrupt (o : Op) : o.key c CharInterrupt = keyInterrupt c o := rfl
theorem key_delete (o : Op) : o.key c CharDelete = keyDelete c o := rfl
theorem key_tab (o : Op) : o.key c CharTab = keyTab c o := rfl
theorem key_bell (o : Op) : o.key c CharBell = keyBell c o := rfl
theorem key_prev (o : Op) : o.key c CharPrev = keyPrev c o := rfl
theorem key_next (o : Op) : o.key c CharNext = keyNext c o := rfl
theorem key_backspace {r : Rune} (h : r = CharBackspace ∨ r = CharCtrlH) (o : Op) : o.key c r = keyBackspace c o := by
  rcases h with rfl | rfl <;> rfl
theorem key_search {r : Rune} (h : r = CharBckSearch ∨ r = CharFwdSearch) (o : Op) :
    o.key c r = keySearch c (r == CharFwdSearch) o := by
  rcases h with rfl | rfl <;> rfl

/-- Printable keys (and all runes above) are text. -/
theorem key_text {r : Rune} (h : 32 ≤ r) (h' : r ≠ 127) (o : Op) : o.key c r = keyText c r o := by
  have hs : simpleKey r = none := by
    unfold simpleKey CharCtrlU CharKill MetaForward CharTranspose MetaBackward MetaDelete CharLineStart CharLineEnd MetaBackspace
      CharCtrlW CharCtrlY CharBackward CharForward
    repeat rw [if_neg (by omega)]
  unfold Op.key
  rw [hs]
  dsimp only
  unfold CharBell CharTab CharBckSearch CharFwdSearch CharBackspace CharCtrlH CharCtrlZ CharCtrlL CharEnter CharCtrlJ CharPrev
    CharNext CharDelete CharInterrupt
  repeat rw [if_neg (by omega)]

/-- The terminal delivers the next key at once. -/
def Live (o : Op) : Prop := o.gate = false ∨ o.kick = true

/-- The state after reading the key `r`. -/
def took (o : Op) (r : Rune) (rest : List Rune) : Op :=
  { o with inp := rest, gate := stopKey r, kick := if o.gate then false else o.kick }

theorem readRune_live {o : Op} (h : o.Live) {r : Rune} {rest : List Rune} (hi : o.inp = r :: rest) :
    o.readRune = .ok (r, o.took r rest) := by
  unfold readRune
  rw [if_neg (by rcases h with h | h <;> simp [h]), hi]
  rfl

theorem readRune_end {o : Op} (h : o.Live) (hi : o.inp = []) :
    o.readRune = .ok (0, { o with gate := false, kick := if o.gate then false else o.kick }) := by
  unfold readRune
  rw [if_neg (by rcases h with h | h <;> simp [h]), hi]

/-- Emacs keys are active: vim mode is off, or in insert mode. -/
def Emacs (c : OCfg) (o : Op) : Prop := c.vim = false ∨ o.vimNormal = false

/-- With emacs keys active, outside the menu, a key goes straight to the key switch. -/
theorem iter_emacs {o : Op} (hl : o.Live) (hf : c.filter = none) {r : Rune} {rest : List Rune} (hi : o.inp = r :: rest)
    (hr : r ≠ 0) (hs : o.comp.inSelect = false) (he : c.vim = false ∨ (o.vimNormal = false ∧ r ≠ CharEsc)) :
    o.iter c = (o.took r rest).dispatch c r := by
  unfold iter
  rw [readRune_live hl hi, R.bind_ok]
  unfold accept
  rw [hf]
  dsimp only
  unfold handle viaMenu
  rw [if_neg hr, if_neg (by show ¬ o.comp.inSelect = true; simp [hs])]
  unfold viaVim
  rcases he with he | ⟨he, hr'⟩
  · rw [if_neg (by simp [he])]
  · split
    · unfold handleVim
      rw [if_neg (by show ¬ o.vimNormal = true; simp [he]), if_neg hr', R.bind_ok]
      dsimp only
      rw [if_neg hr]
    · rfl

/-- The keys to which the selection menu reacts otherwise than by closing and passing the key on. -/
def MenuKey (r : Rune) : Prop := r = CharEnter ∨ r = CharCtrlJ ∨ r = CharLineStart ∨ r = CharLineEnd ∨ r = CharTab ∨ r = CharForward ∨
  r = CharBell ∨ r = CharInterrupt ∨ r = CharNext ∨ r = CharBackward ∨ r = CharPrev

/-- Any other key closes the selection menu and then acts as usual. -/
theorem iter_leave {o : Op} (h : Inv c o) (hl : o.Live) (hf : c.filter = none) {r : Rune} {rest : List Rune} (hi : o.inp = r :: rest)
    (hr : r ≠ 0) (hm : ¬ MenuKey r) (hs : o.comp.inSelect = true) (he : c.vim = false ∨ (o.vimNormal = false ∧ r ≠ CharEsc)) :
    ∃ r1, o.iter c = ({ o.took r rest with comp := o.comp.exitSelect, rb := r1 } : Op).dispatch c r ∧
      Mid c ({ o.took r rest with comp := o.comp.exitSelect, rb := r1 } : Op) ∧ r1.toEd = o.rb.toEd := by
  obtain ⟨hin, _⟩ := h.comp.sel hs
  have hsm : o.search.inMode = false := by
    cases hh : o.search.inMode with
    | false => rfl
    | true => rw [h.excl hh] at hin; cases hin
  have hb1 : Base c ({ o.took r rest with comp := o.comp.exitSelect } : Op) :=
    ⟨h.base.rb, h.base.hist, h.base.sw, h.base.cw, h.base.col⟩
  obtain ⟨r1, g1, g2, g3, g4⟩ := hb1.refreshNil
  refine ⟨r1, ?_, ⟨g4, ?_, h.soff, rfl, fun _ => h.comp.auto hin, fun _ => .inl rfl, ?_, ?_⟩, g2⟩
  · unfold MenuKey at hm
    simp only [not_or] at hm
    obtain ⟨k1, k2, k3, k4, k5, k6, k7, k8, k9, k10, k11⟩ := hm
    unfold iter
    rw [readRune_live hl hi, R.bind_ok]
    unfold accept
    rw [hf]
    dsimp only
    unfold handle viaMenu
    rw [if_neg hr, if_pos (by exact hs)]
    have hk : Comp.handleSelect c.U c.d r (o.took r rest).comp (o.took r rest).rb = .ok (false, o.comp.exitSelect, o.rb) := by
      unfold Comp.handleSelect Comp.selectKey
      simp only [k1, k2, k3, k4, k5, k6, k7, k8, k9, k10, k11, or_self, if_false, ite_self]
      rfl
    rw [hk, R.bind_ok]
    dsimp only
    rw [if_neg Bool.false_ne_true]
    have g1 : refreshNil c ({ o.took r rest with comp := o.comp.exitSelect, rb := o.rb } : Op) = _ := g1
    rw [g1, R.bind_ok, if_neg (by simp [k1, k2]), if_neg k8, if_neg k7]
    unfold viaVim
    rcases he with he | ⟨he, hr'⟩
    · rw [if_neg (by simp [he])]
    · split
      · unfold handleVim
        rw [if_neg (by show ¬ o.vimNormal = true; simp [he]), if_neg hr', R.bind_ok]
        dsimp only
        rw [if_neg hr]
      · rfl
  · intro a; have a : o.search.inMode = true := a; rw [hsm] at a; cases a
  · intro a; have a : o.search.inMode = true := a; rw [hsm] at a; cases a
  · intro a b
    have b : o.vimNormal = true := b
    have := (h.vim a b).2
    rw [hin] at this; cases this

/-- A key after which candidates are not kept leaves neither a list nor a menu. -/
theorem dispatch_leaves (hf : Observer c) {o o' : Op} {r : Rune} {k : KeyRes} (hk : o.key c r = .ok k) (hc : k.keepComplete = false)
    (hs : k.op.comp.inSelect = false) (hx : k.op.search.inMode = true → k.op.comp.inComplete = false) (h : o.dispatch c r = .ok o') :
    o'.comp.inSelect = false ∧ o'.comp.inComplete = false := by
  unfold dispatch at h
  rw [hk, R.bind_ok, listen_observer hf, R.bind_ok] at h
  obtain ⟨o1, h1, h⟩ := R.bind_inv h
  have hcomp : o'.comp = o1.comp := by
    split at h <;> (cases h; rfl)
  rw [hcomp]
  unfold settle at h1
  split at h1
  · next hm =>
    obtain ⟨o2, h2, h1⟩ := R.bind_inv h1
    unfold exitSearch at h2
    obtain ⟨x, _, h2⟩ := R.bind_inv h2
    unfold refreshNil at h1
    obtain ⟨y, _, h1⟩ := R.bind_inv h1
    cases h1
    cases h2
    exact ⟨hs, hx hm.2⟩
  · split at h1
    · unfold refresh at h1
      split at h1
      · unfold refreshNil at h1
        obtain ⟨y, _, h1⟩ := R.bind_inv h1
        cases h1
        exact ⟨rfl, rfl⟩
      · cases h1
        exact ⟨rfl, rfl⟩
    · next hn =>
      cases h1
      exact ⟨hs, by simpa using hn⟩

end Op
end RL
