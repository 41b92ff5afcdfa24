import Verif.Spec.Study
import Verif.Proofs.Finder
import Verif.Proofs.Drafts
import Verif.Props.Desk
/-! Sessions with search (C82). -/

namespace RL
open Spec RB Ed

namespace Op
variable {c : OCfg}

/-- Only the place in the history has changed. -/
def Moved (o o1 : Op) : Prop := o1.events = o.events ∧ o1.hist = { o.hist with current := o1.hist.current }

theorem Moved.refl (o : Op) : Moved o o := ⟨rfl, rfl⟩
theorem Moved.trans {o o1 o2 : Op} (h : Moved o o1) (h' : Moved o1 o2) : Moved o o2 := ⟨h'.1.trans h.1, by rw [h'.2, h.2]⟩

theorem edit_moved {o : Op} {k : Cmd} : Oks (Moved o) (o.edit c k) := .bind .any fun _ _ => .ok ⟨rfl, rfl⟩
theorem refreshNil_moved {o : Op} : Oks (Moved o) (o.refreshNil c) := .bind .any fun _ _ => .ok ⟨rfl, rfl⟩
theorem refresh_moved {o : Op} : Oks (Moved o) (o.refresh c) := .ite refreshNil_moved (.ok (.refl _))
theorem clean_moved {o : Op} : Oks (Moved o) (o.clean c) := .bind .any fun _ _ => .ok ⟨rfl, rfl⟩
theorem onComplete_moved {o : Op} : Oks (fun x => Moved o x.2) (o.onComplete c) := .bind .any fun _ _ => .ok ⟨rfl, rfl⟩

theorem exitSearch_moved {o : Op} {b : Bool} : Oks (Moved o) (o.exitSearch c b) := by
  unfold exitSearch
  refine .bind (P := fun x => x.2.1 = { o.hist with current := x.2.1.current }) ?_ fun x h => .ok ⟨rfl, h⟩
  intro x e
  unfold Search.exitSearchMode at e
  by_cases hb : b = true
  · rw [if_pos hb] at e
    split at e
    · cases e
    · obtain ⟨r1, e1, e⟩ := R.bind_inv e
      cases e
      rfl
  · rw [if_neg hb, R.bind_ok] at e
    cases e
    rfl

theorem search_moved {fresh : Bool} {s : Search} {h : Hist} {r : RB} :
    Oks (fun x => x.2.1 = { h with current := x.2.1.current }) (Search.search c.U c.d c.h fresh s h r) := by
  intro x e
  obtain ⟨_, _, _, _, _, _, k7⟩ := Search.search_ok (s' := x.1) (h' := x.2.1) (r' := x.2.2) e
  rcases k7 with ⟨k7, _⟩ | ⟨_, _, _, k7, _⟩ <;> rw [k7]

/-- A key that delivers no result has the line noted, and changes only the place in the history. -/
def Notes (o : Op) (k : KeyRes) : Prop := k.op.events = o.events → k.update = true ∧ Moved o k.op

theorem Notes.of {o : Op} {k : KeyRes} (h : Moved o k.op) (h' : k.update = true) : Notes o k := fun _ => ⟨h', h⟩

theorem key_notes {o : Op} {r : Rune} : Oks (Notes o) (o.key c r) := by
  have noev : ∀ {k : KeyRes} {e : Event}, k.op.events = o.events ++ [e] → Notes o k := by
    intro k e h1 h2
    rw [h2] at h1
    exact absurd (congrArg List.length h1) (by simp)
  have kbell : Oks (Notes o) (keyBell c o) := by
    have h2 : ∀ o1 : Op, Moved o o1 → Oks (Notes o) (if o1.comp.inComplete = true then
        (refreshNil c { o1 with comp := o1.comp.exitComplete } >>= fun o => .ok { op := o })
        else ((.ok o1 : R Op) >>= fun o => .ok { op := o })) := by
      intro o1 a
      refine .ite (.bind refreshNil_moved fun o2 b => .ok (.of (a.trans b) rfl)) (.ok (.of a rfl))
    unfold keyBell
    dsimp only
    split
    · exact .bind exitSearch_moved fun o1 a => .bind refreshNil_moved fun o2 b => h2 o2 (a.trans b)
    · exact h2 o (.refl _)
  have ktab : Oks (Notes o) (keyTab c o) := by
    unfold keyTab
    split
    · exact .ok (.of (.refl _) rfl)
    · refine .bind onComplete_moved fun x a => ?_
      exact .ite (.ok (.of a rfl)) (.ok (.of a rfl))
  have ksearch : ∀ fwd, Oks (Notes o) (keySearch c fwd o) := by
    intro fwd
    unfold keySearch
    refine .bind (P := fun x => Moved o x.2) ?_ fun x a => .ite (.ok (.of a rfl)) (.ok (.of a rfl))
    unfold enterSearch
    refine .bind (P := fun x => x.2.2.1 = { o.hist with current := x.2.2.1.current }) ?_ fun x a => .ok ⟨rfl, a⟩
    unfold Search.searchMode
    refine .ite (.ok rfl) ?_
    dsimp only
    refine .ite (.bind search_moved fun x a => .ok a) (.bind .any fun x _ => .ok rfl)
  have kback : Oks (Notes o) (keyBackspace c o) := by
    unfold keyBackspace
    refine .ite (.bind (P := Moved o) ?_ fun o1 a => .ok (.of a rfl)) (.ite (.ok (.of (.refl _) rfl)) (.bind edit_moved fun o1 a => ?_))
    · unfold searchBackspace
      refine .bind (P := fun x => x.2.1 = { o.hist with current := x.2.1.current }) ?_ fun x h => .ok ⟨rfl, h⟩
      unfold Search.searchBackspace
      exact .ite search_moved (.ok rfl)
    · exact .ite (.bind onComplete_moved fun x b => .ok (.of (a.trans b) rfl)) (.ok (.of a rfl))
  have kenter : (r = CharEnter ∨ r = CharCtrlJ) → Oks (Notes o) (keyEnter c o) := by
    intro hr k e
    obtain ⟨_, _, h3, _⟩ := keyEnter_ok e
    exact noev h3
  have kprev : Oks (Notes o) (keyPrev c o) := by
    unfold keyPrev
    have : o.hist.prev.2 = { o.hist with current := o.hist.prev.2.current } := by
      unfold Hist.prev; split
      · rfl
      · split <;> rfl
    split
    · next heq =>
      rw [heq] at this
      exact .bind edit_moved fun o1 a => .ok (.of ⟨a.1, by rw [a.2]; dsimp only at this ⊢; rw [this]⟩ rfl)
    · next heq =>
      rw [heq] at this
      exact .ok (.of ⟨rfl, this⟩ rfl)
  have knext : Oks (Notes o) (keyNext c o) := by
    unfold keyNext
    have : o.hist.nextLine.2 = { o.hist with current := o.hist.nextLine.2.current } := by
      unfold Hist.nextLine; split
      · rfl
      · split <;> rfl
    split
    · next heq =>
      rw [heq] at this
      exact .bind edit_moved fun o1 a => .ok (.of ⟨a.1, by rw [a.2]; dsimp only at this ⊢; rw [this]⟩ rfl)
    · next heq =>
      rw [heq] at this
      exact .ok (.of ⟨rfl, this⟩ rfl)
  have kdelete : Oks (Notes o) (keyDelete c o) := by
    intro k h
    by_cases hd : o.rb.buf ≠ [] ∨ o.search.inMode = true ∨ o.comp.inComplete = true
    · unfold keyDelete at h
      rw [if_pos (by
        rcases hd with a | a | a
        · left; exact List.length_pos_iff.2 a
        · right; simp [isNormalMode, a]
        · right; simp [isNormalMode, a])] at h
      dsimp only at h
      obtain ⟨⟨ok, rb⟩, e1, h⟩ := R.bind_inv h
      dsimp only at h
      split at h <;> (cases h; exact .of ⟨rfl, rfl⟩ rfl)
    · obtain ⟨_, _, h3, _⟩ := keyDelete_eof h (Classical.not_not.1 fun a => hd (.inl a))
        (by simpa using fun a => hd (.inr (.inl a))) (by simpa using fun a => hd (.inr (.inr a)))
      exact noev h3
  have kint : Oks (Notes o) (keyInterrupt c o) := by
    unfold keyInterrupt
    refine .ite (.bind exitSearch_moved fun o1 a => .ok (.of a rfl)) (.ite (.bind refreshNil_moved fun o1 a => .ok (.of a rfl)) ?_)
    refine .bind edit_moved fun o1 a => .bind refreshNil_moved fun o2 b => ?_
    dsimp only
    split
    · refine .bind edit_moved fun o3 d => ?_
      split
      · exact .error
      · refine .ok (noev (e := .interrupt (o3.rb.reset.1.take (o3.rb.reset.1.length - (c.interruptPrompt ++ [10]).length))) ?_)
        show o3.events ++ _ = _
        rw [d.1, b.1, a.1]
    · refine .ok (noev (e := .interrupt o2.rb.reset.1) ?_)
      show o2.events ++ _ = _
      rw [b.1, a.1]
  have ktext : Oks (Notes o) (keyText c r o) := by
    unfold keyText
    refine .ite (.bind (P := Moved o) ?_ fun o1 a => .ok (.of a rfl)) (.bind edit_moved fun o1 a => ?_)
    · unfold searchChar
      refine .bind (P := fun x => x.2.1 = { o.hist with current := x.2.1.current }) ?_ fun x h => .ok ⟨rfl, h⟩
      exact search_moved
    · exact .ite (.bind onComplete_moved fun x b => .ok (.of (a.trans b) rfl)) (.ok (.of a rfl))
  unfold key
  cases hs : simpleKey r with
  | some cmd => exact .bind edit_moved fun o1 a => .ok (.of a rfl)
  | none =>
    dsimp only
    refine .ite kbell (.ite ktab (.ite (ksearch _) (.ite (ksearch _) (.ite kback (.ite ?_ (.ite ?_ ?_))))))
    · exact .bind clean_moved fun o1 a => .bind refresh_moved fun o2 b => .ok (.of (a.trans b) rfl)
    · exact .bind (refresh_moved (o := { o with rb := o.rb.write [.home] })) fun o1 a => .ok (.of a rfl)
    by_cases hr : r = CharEnter ∨ r = CharCtrlJ
    · rw [if_pos hr]; exact kenter hr
    rw [if_neg hr]
    exact .ite kprev (.ite knext (.ite kdelete (.ite kint ktext)))

/-- What a key that delivers no result does to the history, in the end. -/
theorem dispatch_notes (hob : Observer c) {o o' : Op} (w : o.hist.WF) {r : Rune} (h : o.dispatch c r = .ok o') (he : o'.events = o.events)
    (hs : o'.search.inMode = false) :
    ∃ x, (x = none → o.hist.order = []) ∧ o'.hist = ({ o.hist with current := x } : Hist).update c.h o'.rb.buf false := by
  obtain ⟨k, h1, f⟩ := dispatch_ok hob h
  have hev := f.events.symm.trans he
  obtain ⟨u, m⟩ := key_notes k h1 hev
  have hb : o'.rb.buf = k.op.rb.buf := congrArg Ed.buf f.line
  refine ⟨k.op.hist.current, fun a => ?_, ?_⟩
  · apply w.cur_none
    apply Classical.not_not.1
    intro b
    exact key_current b h1 hev a
  · rw [f.hist, if_pos ⟨u, hs⟩, hb, m.2]

/-- Ctrl-R or Ctrl-S outside a search. -/
theorem dispatch_startSearch (hf : Friendly c) {o : Op} (hm : Mid c o) (htidy : o.Tidy) (hsm : o.search.inMode = false) {x : Nat}
    (hc : o.hist.current = some x) (hv : Emacs c o) {r : Rune} (hr : r = 18 ∨ r = 19) :
    ∃ o', o.dispatch c r = .ok o' ∧ Inv c o' ∧ o'.search.inMode = true ∧ o'.search.data = [] ∧ o'.search.fwd = (r == 19) ∧ o'.search.failing = false ∧
      o'.search.markStart = 0 ∧ o'.search.markEnd = 0 ∧ o'.search.source = some x ∧ o'.hist = o.hist ∧ o'.rb.toEd = o.rb.toEd ∧
      o'.events = o.events ∧ o'.stopped = o.stopped ∧ o'.vimNormal = o.vimNormal ∧ o'.gate = o.gate ∧ o'.inp = o.inp := by
  have n : r ≠ CharTranspose ∧ r ≠ CharBell ∧ r ≠ CharInterrupt ∧ r ≠ CharKill := by rcases hr with rfl | rfl <;> decide
  obtain ⟨n2, n3, n4, n5⟩ := n
  obtain ⟨o', e1, e2⟩ := dispatch_safe (r := r) hf hm (fun a => (n2 a).elim)
    (fun a => a.elim (fun a => (n3 a).elim) (fun a => (n4 a).elim)) (fun a => (n5 a).elim)
    (fun a b => by
      rcases hv with d | d
      · rw [d] at a; cases a
      · rw [d] at b; cases b)
  refine ⟨o', e1, e2, ?_⟩
  obtain ⟨k, g1, g2⟩ := R.bind_inv e1
  rw [listen_observer hf.listener, R.bind_ok] at g2
  have hw0 : ¬ o.search.width = 0 := by have := hm.base.sw; have := hm.base.rb.width; omega
  rw [key_search hr] at g1
  have step : ∃ s rb, k = { op := { o with search := s, rb := rb }, keepSearch := true } ∧ s.inMode = true ∧
      s.data = o.search.data ∧ s.fwd = (r == 19) ∧ s.failing = o.search.failing ∧ s.markStart = o.search.markStart ∧
      s.markEnd = o.search.markEnd ∧ s.source = some x ∧ rb.toEd = o.rb.toEd := by
    unfold keySearch at g1
    obtain ⟨⟨ok, o1⟩, g3, g1⟩ := R.bind_inv g1
    obtain ⟨⟨ok', s, hi, rb⟩, g4, g3⟩ := R.bind_inv g3
    cases g3
    unfold Search.searchMode at g4
    rw [if_neg hw0] at g4
    dsimp only at g4
    rw [if_neg (by simp [hsm])] at g4
    obtain ⟨⟨s1, r1⟩, g5, g4⟩ := R.bind_inv g4
    cases g4
    dsimp only at g1
    cases g1
    obtain ⟨rfl, g6, _⟩ := Search.searchRefresh_ok g5
    exact ⟨_, _, rfl, rfl, rfl, rfl, rfl, rfl, rfl, hc, g6⟩
  obtain ⟨s, rb, rfl, s1, s2, s3, s4, s5, s6, s8, s7⟩ := step
  have f := finish_ok g2
  have fs : o'.search = s := finish_search rfl g2
  have fm : o'.search.inMode = true := by rw [fs]; exact s1
  obtain ⟨t1, t2⟩ := htidy hsm
  obtain ⟨m1, m2⟩ := hm.soff hsm
  refine ⟨fm, by rw [fs, s2, t1], by rw [fs, s3], by rw [fs, s4, t2], by rw [fs, s5, m1], by rw [fs, s6, m2], by rw [fs, s8],
    by rw [f.hist, if_neg (by simp [fm])], f.line.trans s7, f.events, f.stopped, f.vimNormal, f.gate, f.inp⟩

/-- The page to which Ctrl-G goes back. -/
theorem iter_source (hf : Friendly c) (hp : c.filter = none) {o o' : Op} (h : InSearch c o) {r : Rune} {rest : List Rune}
    (hr : SearchKey r ∨ r = 18 ∨ r = 19) (hi : o.inp = r :: rest) (e : o.iter c = .ok o') :
    o'.search.source = if r = 18 ∨ r = 19 then o.hist.current else o.search.source := by
  have n : r ≠ 0 ∧ r ≠ CharEsc := by
    rcases hr with hr | rfl | rfl
    · obtain ⟨a, b, c, d⟩ := searchKey_plain hr
      exact ⟨b, c⟩
    · decide
    · decide
  have hns : o.comp.inSelect = false := by
    have := h.inv.excl h.mode
    cases hs : o.comp.inSelect with
    | false => rfl
    | true => rw [(h.inv.comp.sel hs).1] at this; cases this
  rw [iter_emacs h.live hp hi n.1 hns (h.emacs.imp_right fun a => ⟨a, n.2⟩)] at e
  obtain ⟨k, g1, g2⟩ := R.bind_inv e
  rw [listen_observer hf.listener, R.bind_ok] at g2
  have hsm : (o.took r rest).search.inMode = true := h.mode
  have hw0 : ¬ o.search.width = 0 := by have := h.inv.base.sw; have := h.inv.base.rb.width; omega
  have src : ∀ {b : Bool} {s0 s : Search} {h0 h1 : Hist} {r0 r1 : RB}, Search.search c.U c.d c.h b s0 h0 r0 = .ok (s, h1, r1) → s.source = s0.source := by
    intro b s0 s h0 h1 r0 r1 e
    obtain ⟨_, k2, _⟩ := Search.search_ok e
    exact k2
  rcases hr with (⟨a, b⟩ | hb) | ha
  · rw [if_neg (by omega)]
    rw [key_text a b] at g1
    unfold keyText at g1
    rw [if_pos hsm] at g1
    obtain ⟨o1, g3, g1⟩ := R.bind_inv g1
    obtain ⟨⟨s, hi, rb⟩, g4, g3⟩ := R.bind_inv g3
    cases g3; cases g1
    rw [finish_search rfl g2]
    exact src (s0 := { o.search with data := o.search.data ++ [r] }) g4
  · rw [if_neg (by omega)]
    rw [key_backspace hb] at g1
    unfold keyBackspace at g1
    rw [if_pos hsm] at g1
    obtain ⟨o1, g3, g1⟩ := R.bind_inv g1
    obtain ⟨⟨s, hi, rb⟩, g4, g3⟩ := R.bind_inv g3
    cases g3; cases g1
    rw [finish_search rfl g2]
    unfold Search.searchBackspace at g4
    split at g4
    · exact src (s0 := { o.search with data := o.search.data.dropLast }) g4
    · cases g4; rfl
  · rw [if_pos ha]
    rw [key_search (by exact ha)] at g1
    unfold keySearch at g1
    obtain ⟨⟨ok, o1⟩, g3, g1⟩ := R.bind_inv g1
    obtain ⟨⟨ok', s, hi, rb⟩, g4, g3⟩ := R.bind_inv g3
    cases g3
    unfold Search.searchMode at g4
    rw [if_neg (show ¬ (o.took r rest).search.width = 0 from hw0)] at g4
    dsimp only at g4
    rw [if_pos hsm] at g4
    obtain ⟨⟨s1, h1, r1⟩, g5, g4⟩ := R.bind_inv g4
    cases g4
    dsimp only at g1
    cases g1
    rw [finish_search rfl g2]
    exact src g5

/-- Leaving the search leaves the list of candidates alone. -/
theorem settle_found {k : KeyRes} {o1 : Op} (h1 : k.keepSearch = false) (h2 : k.op.search.inMode = true) (e : settle c k = .ok o1) : o1.comp = k.op.comp := by
  unfold settle at e
  rw [if_pos ⟨h1, h2⟩] at e
  rw [exitSearch_keep, R.bind_ok] at e
  obtain ⟨r1, rfl, _⟩ := refreshNil_ok e
  rfl

/-- The end of the loop body after a key that ends the search. -/
theorem finish_found (hob : Observer c) {o o' : Op} {r : Rune} {k : KeyRes} (hk : o.key c r = .ok k) (hd : o.dispatch c r = .ok o')
    (h1 : k.keepSearch = false) (h2 : k.op.search.inMode = true) : o'.comp = k.op.comp ∧ o'.search.inMode = false := by
  unfold dispatch at hd
  rw [hk, R.bind_ok, listen_observer hob, R.bind_ok] at hd
  have hfin := finish_ok hd
  obtain ⟨o1, g1, g2⟩ := R.bind_inv hd
  refine ⟨?_, ?_⟩
  · rw [← settle_found h1 h2 g1]
    split at g2 <;> (cases g2; rfl)
  · cases hh : o'.search.inMode with
    | false => rfl
    | true => have := (hfin.smode.1 hh).2; rw [h1] at this; cases this

/-- The end of the loop body after a key that edits the line found to `z`. -/
theorem step_found (hob : Observer c) (hl : 0 < c.h.limit) {o o' : Op} (hw : o.hist.WF) {b : Book} (hs : Opened c o b) {r : Rune} {k : KeyRes}
    (hk : o.key c r = .ok k) (hd : o.dispatch c r = .ok o') (hi : Inv c o') {m : Choices} {z : Line}
    (h1 : k.op.rb.toEd.line = z) (h2 : k.op.hist = o.hist) (h3 : k.op.search.inMode = true) (h4 : k.keepSearch = false) (h5 : k.update = true)
    (h6 : k.op.inp = o.inp) (h7 : k.op.gate = o.gate) (h8 : stopKey r = true → k.op.kick = true) (h9 : k.op.events = o.events)
    (h10 : k.op.stopped = o.stopped) (h11 : k.op.vimNormal = o.vimNormal) (h12 : k.op.comp.Shows m) :
    Step c o o' r ⟨b.write c.h.limit z, m⟩ := by
  obtain ⟨hc, hs'⟩ := finish_found hob hk hd h4 h3
  unfold dispatch at hd
  rw [hk, R.bind_ok, listen_observer hob, R.bind_ok] at hd
  have hfin := finish_ok hd
  have hhist : o'.hist = k.op.hist.update c.h k.op.rb.buf false := by rw [hfin.hist, if_pos ⟨h5, hs'⟩]
  refine ⟨hi, hs', by rw [hc]; exact h12, ?_, hfin.gate.trans h7, fun a => hfin.kick.trans (h8 a), hfin.inp.trans h6, hfin.events.trans h9,
    hfin.stopped.trans h10, hfin.vimNormal.trans h11, ?_⟩
  · refine Shows.note' (o := k.op) (b := { b with line := z }) hl (by rw [h2]; exact hw) ?_ h1 (by rw [h2]; exact hs.enable) hs.fits.pos
      hhist hfin.line
    rw [h2]
    exact ⟨hs.hist.stored, hs.hist.length, hs.hist.pages, hs.hist.pos, hs.hist.empty, hs.hist.rest⟩
  · rw [hhist, update_file, h2]

/-- A key whose case in the switch does not look at the search. -/
def SBlind (c : OCfg) (r : Rune) : Prop := ∀ (o : Op) (s : Search) (k : KeyRes), ({ o with search := s } : Op).key c r = .ok k →
  o.key c r = .ok { k with op := { k.op with search := o.search } }

theorem sblind_edit {o : Op} {s : Search} {k : Cmd} {o1 : Op} (h : edit c k { o with search := s } = .ok o1) :
    o.edit c k = .ok { o1 with search := o.search } := by
  unfold edit at *
  obtain ⟨rb, e1, h⟩ := R.bind_inv h
  cases h
  have e1 : k.apply c.U c.d o.rb = .ok rb := e1
  rw [e1]; rfl

theorem sblind {r : Rune} (hr : (∃ k, simpleKey r = some k) ∨ r = 16 ∨ r = 14) : SBlind c r := by
  rcases hr with ⟨cmd, hr⟩ | rfl | rfl
  · intro o s kr hk
    rw [key_simple hr] at *
    obtain ⟨o1, e1, hk⟩ := R.bind_inv hk
    cases hk
    rw [sblind_edit e1, R.bind_ok]
  · intro o s kr hk
    have hk : keyPrev c { o with search := s } = .ok kr := hk
    show keyPrev c o = _
    unfold keyPrev at *
    dsimp only at hk
    split at hk
    · next h' e =>
      obtain ⟨o1, e1, hk⟩ := R.bind_inv hk
      cases hk
      have := sblind_edit (o := { o with hist := h' }) e1
      dsimp only
      rw [this]; rfl
    · next h' e =>
      cases hk
      rfl
  · intro o s kr hk
    have hk : keyNext c { o with search := s } = .ok kr := hk
    show keyNext c o = _
    unfold keyNext at *
    dsimp only at hk
    split at hk
    · next h' e =>
      obtain ⟨o1, e1, hk⟩ := R.bind_inv hk
      cases hk
      have := sblind_edit (o := { o with hist := h' }) e1
      dsimp only
      rw [this]; rfl
    · next h' e =>
      cases hk
      rfl

/-- A key of the book during a search. -/
theorem dispatch_found (hf : Friendly c) (hp : Plain c) (hl : 0 < c.h.limit) {o : Op} (h : Mid c o) (hsm : o.search.inMode = true)
    (hem : Emacs c o) {b b' : Book} (hs : Opened c o b) {r : Rune} (hb : BookKey c.h.limit r b b') (h1 : r < 32) (h2 : r ≠ 8) (h3 : r ≠ 4) :
    ∃ o', o.dispatch c r = .ok o' ∧ Step c o o' r ⟨b', .closed⟩ ∧ r ≠ 0 ∧ r ≠ CharEsc := by
  have hcm := h.excl hsm
  have hq : Quiet c { o with search := searchOff o.search } :=
    ⟨⟨h.base.rb, h.base.hist, h.base.sw, h.base.cw, h.base.col⟩, rfl, ⟨rfl, rfl⟩, hcm, h.nosel⟩
  obtain ⟨q, e1, e2, e3, e4, e5, e6, e7, e8, e9, e10, e11, e12⟩ := dispatch_book hp hl hq
    (b := b) ⟨hs.hist, hs.line, hs.enable, hs.fits⟩ hb
  obtain ⟨_, hsimple⟩ := closing (c := c) hb h1 h2 h3
  obtain ⟨n7, n3, _, _⟩ := bookKey_ne hb
  have hv' : c.vim = true → o.vimNormal = true → False := by
    intro a d
    rcases hem with hv | hv
    · rw [hv] at a; cases a
    · rw [hv] at d; cases d
  obtain ⟨o', f1, f2⟩ := dispatch_safe (r := r) hf h (fun a t => by
      have a : r = 20 := a
      subst a
      cases hb with
      | edit he =>
        have := transpose_ok he
        rw [← hs.line, Ed.line_text] at this
        unfold Ed.Trigger at t
        omega)
    (fun a => by rcases a with a | a; exact (n7 a).elim; exact (n3 a).elim) (fun _ a => by rw [hcm] at a; cases a) (fun a d => (hv' a d).elim)
  obtain ⟨k1, g1, g2⟩ := dispatch_ok hp.listener e1
  obtain ⟨k2, p1, p2⟩ := dispatch_ok hp.listener f1
  obtain ⟨c1, c2, c3, _⟩ := blind_comp hsimple p1
  obtain ⟨d1, d2⟩ := finish_found hp.listener p1 f1 c3 (by rw [c2]; exact hsm)
  have hk2 := sblind hsimple o (searchOff o.search) k1 g1
  rw [p1, Except.ok.injEq] at hk2
  have a1 : o'.rb.toEd = q.rb.toEd := by rw [p2.line, g2.line, hk2]
  have a2 : o'.hist = q.hist := by
    rw [p2.hist, g2.hist, hk2, d2, e2.smode]
  refine ⟨o', f1, ⟨f2, d2, by rw [d1, c1]; exact ⟨hcm, h.nosel⟩,
    ⟨by rw [a2]; exact e12.hist, by rw [a1]; exact e12.line, by rw [a2]; exact e12.noted, by rw [a2]; exact e12.enable, e12.fits⟩, ?_, fun a => ?_, ?_, ?_, ?_, ?_,
    by rw [a2]; exact e11⟩, e5, e6⟩
  · rw [p2.gate, hk2]; exact g2.gate.symm.trans e3
  · rw [p2.kick, hk2]; exact g2.kick.symm.trans (e4 a)
  · rw [p2.inp, hk2]; exact g2.inp.symm.trans e7
  · rw [p2.events, hk2]; exact g2.events.symm.trans e8
  · rw [p2.stopped, hk2]; exact g2.stopped.symm.trans e9
  · rw [p2.vimNormal, hk2]; exact g2.vimNormal.symm.trans e10

/-- Ctrl-D during a search. -/
theorem dispatch_foundDelete (hf : Friendly c) (hp : Plain c) (hl : 0 < c.h.limit) {o : Op} (h : Mid c o) (hsm : o.search.inMode = true)
    (hem : Emacs c o) {b : Book} (hs : Opened c o b) :
    ∃ o', o.dispatch c 4 = .ok o' ∧ Step c o o' 4 ⟨b.write c.h.limit b.line.delete, .closed⟩ := by
  have hv' : c.vim = true → o.vimNormal = true → False := by
    intro a d
    rcases hem with hv | hv
    · rw [hv] at a; cases a
    · rw [hv] at d; cases d
  obtain ⟨o', f1, f2⟩ := dispatch_safe (r := 4) hf h (fun a => absurd a (by decide)) (fun a => absurd a (by decide)) (fun a => absurd a (by decide))
    (fun a d => (hv' a d).elim)
  obtain ⟨k, g1, _⟩ := R.bind_inv f1
  refine ⟨o', f1, ?_⟩
  have g2 : keyDelete c o = .ok k := g1
  obtain ⟨j1, j2, j3, j4, j5, j6, j7, j8, j9, j10, j11, j12, j13, j14⟩ := keyDelete_del g2 (.inr (.inl hsm))
  obtain ⟨e', l1, l2, l3⟩ := core_basic (c := .delete) rfl (show o.rb.toEd.CursorIn from h.base.rb.idx)
  rw [j1, Except.ok.injEq] at l1
  subst l1
  rw [hs.line] at l3
  exact step_found hp.listener hl h.base.hist hs g1 f1 f2 l3 j11 (by rw [j4]; exact hsm) j12 j14 j6 j7 (fun _ => j8) j3 j9 j10
    (by rw [j5]; exact ⟨h.excl hsm, h.nosel⟩)

/-- Tab during a search. -/
theorem dispatch_foundTab (hf : Friendly c) (hp : Plain c) (hl : 0 < c.h.limit) {f : Completer} (ha : c.auto = some f) {o : Op} (h : Mid c o)
    (hsm : o.search.inMode = true) (hem : Emacs c o) {b : Book} (hs : Opened c o b) {z : Line} {m' : Choices} (hc : Completes f b.line .closed z m') :
    ∃ o', o.dispatch c 9 = .ok o' ∧ Step c o o' 9 ⟨b.write c.h.limit z, m'⟩ := by
  have hv' : c.vim = true → o.vimNormal = true → False := by
    intro a d
    rcases hem with hv | hv
    · rw [hv] at a; cases a
    · rw [hv] at d; cases d
  obtain ⟨o', f1, f2⟩ := dispatch_safe (r := 9) hf h (fun a => absurd a (by decide)) (fun a => absurd a (by decide)) (fun a => absurd a (by decide))
    (fun a d => (hv' a d).elim)
  obtain ⟨k, g1, _⟩ := R.bind_inv f1
  refine ⟨o', f1, ?_⟩
  have hwid : o.comp.width ≠ 0 := by have := h.base.cw; have := h.base.rb.width; omega
  have g2 : keyTab c o = .ok k := g1
  unfold keyTab at g2
  rw [ha] at g2
  dsimp only at g2
  obtain ⟨⟨b', o1⟩, k1, g2⟩ := R.bind_inv g2
  unfold Op.onComplete at k1
  obtain ⟨⟨b'', cm, rb⟩, k2, k1⟩ := R.bind_inv k1
  cases k1
  rw [ha] at k2
  obtain ⟨rfl, m'', k3, k4⟩ := Comp.onComplete_completes hwid h.nosel (fun a => by rw [h.excl hsm] at a; cases a) k2 h.base.rb.idx
    (m := .closed) ⟨h.excl hsm, h.nosel⟩
  rw [hs.line] at k3
  obtain ⟨rfl, rfl⟩ := Completes.unique hc k3
  dsimp only at g2
  rw [if_pos rfl] at g2
  cases g2
  exact step_found hp.listener hl h.base.hist hs g1 f1 f2 rfl rfl hsm rfl rfl rfl rfl (fun a => absurd a (by decide)) rfl rfl rfl k4

end Op
end RL
