import Verif.Proofs.Menu
import Verif.Proofs.Typing
import Verif.Props.Safety
import Verif.Props.History
/-! The history keeps up with the line (C33). -/

namespace RL
open Spec RB Ed

/-- The editing loop has noted the text `s` in the history: nothing is recalled, or the recalled entry's pending edit is `s`. -/
def Hist.Noted (h : Hist) (s : List Rune) : Prop := h.current = h.back ∨ ∃ x, h.current = some x ∧ (h.elems x).tmp = s

theorem keepNewest_newest {α} {n : Int} (hn : 0 < n) (l : List α) (a : α) : (keepNewest n (l ++ [a])).getLast? = some a := by
  unfold keepNewest
  rw [List.drop_append_of_le_length (by simp; omega)]
  simp

theorem Hist.update_noted {cfg : HCfg} (hl : 0 < cfg.limit) (h : Hist) (s : List Rune) : (h.update cfg s false).Noted s := by
  unfold Hist.update Hist.Noted
  cases hc : h.current with
  | none =>
    left
    dsimp only
    show some h.next = (compactList cfg.limit (h.order ++ [h.next])).getLast?
    rw [compactList_eq, keepNewest_newest hl]
  | some x =>
    right
    refine ⟨x, hc, ?_⟩
    simp [Hist.compact, Hist.setItem]

namespace Op
variable {c : OCfg}

/-- Results of the key switch that ask for the history to be updated. -/
def Upd (x : R KeyRes) : Prop := ∀ k, x = .ok k → k.update = true

theorem Upd.ok {k : KeyRes} (h : k.update = true) : Upd (.ok k) := by
  intro k' e; cases e; exact h

theorem Upd.bind {α} {x : R α} {f : α → R KeyRes} (h : ∀ a, Upd (f a)) : Upd (x >>= f) := by
  intro k e
  obtain ⟨a, _, e⟩ := R.bind_inv e
  exact h a k e

theorem keyBell_upd (o : Op) : Upd (keyBell c o) := by
  unfold keyBell
  dsimp only
  have h2 : ∀ o : Op, Upd (if o.comp.inComplete = true then
      (refreshNil c { o with comp := o.comp.exitComplete } >>= fun o => .ok { op := o })
      else ((.ok o : R Op) >>= fun o => .ok { op := o })) := by
    intro o
    split
    · exact .bind fun _ => .ok rfl
    · exact .bind fun _ => .ok rfl
  split
  · exact .bind fun _ => .bind fun o => h2 o
  · exact .bind fun o => h2 o

theorem keyTab_upd (o : Op) : Upd (keyTab c o) := by
  unfold keyTab
  split
  · exact .ok rfl
  · refine .bind fun ⟨b, o⟩ => ?_
    dsimp only
    split
    · exact .ok rfl
    · exact .ok rfl

theorem keySearch_upd (o : Op) (fwd) : Upd (keySearch c fwd o) := by
  unfold keySearch
  refine .bind fun ⟨b, o⟩ => ?_
  dsimp only
  split
  · exact .ok rfl
  · exact .ok rfl

theorem keyBackspace_upd (o : Op) : Upd (keyBackspace c o) := by
  unfold keyBackspace
  split
  · exact .bind fun _ => .ok rfl
  split
  · exact .ok rfl
  · refine .bind fun o => ?_
    split
    · exact .bind fun _ => .ok rfl
    · exact .ok rfl

theorem keyPrev_upd (o : Op) : Upd (keyPrev c o) := by
  unfold keyPrev
  split
  · exact .bind fun _ => .ok rfl
  · exact .ok rfl

theorem keyNext_upd (o : Op) : Upd (keyNext c o) := by
  unfold keyNext
  split
  · exact .bind fun _ => .ok rfl
  · exact .ok rfl

theorem keyText_upd (o : Op) (r) : Upd (keyText c r o) := by
  unfold keyText
  split
  · exact .bind fun _ => .ok rfl
  · refine .bind fun o => ?_
    split
    · exact .bind fun _ => .ok rfl
    · exact .ok rfl

theorem keyEnter_upd (hn : c.noSave = false) (o : Op) : Upd (keyEnter c o) := by
  intro k h
  obtain ⟨_, _, _, _, _, _, _, _, _, _, _, _, h13, _⟩ := keyEnter_ok h
  exact (h13 hn).1

/-- Every key asks for the history to be updated, except Ctrl-C and Ctrl-D when they end the call; then the history is
reset to its newest element and a result is delivered. -/
theorem key_update (hn : c.noSave = false) {o : Op} {r : Rune} {k : KeyRes} (h : o.key c r = .ok k) :
    k.update = true ∨ (k.op.hist.current = k.op.hist.back ∧ ∃ e, k.op.events = o.events ++ [e]) := by
  have up : ∀ {x : R KeyRes}, Upd x → x = .ok k → k.update = true ∨ (k.op.hist.current = k.op.hist.back ∧ ∃ e, k.op.events = o.events ++ [e]) := fun h e => .inl (h k e)
  unfold key at h
  cases hs : simpleKey r with
  | some cmd =>
    rw [hs] at h
    exact up (.bind fun _ => .ok rfl) h
  | none =>
    rw [hs] at h
    dsimp only at h
    by_cases k1 : r = CharBell
    · rw [if_pos k1] at h; exact up (keyBell_upd o) h
    rw [if_neg k1] at h
    by_cases k2 : r = CharTab
    · rw [if_pos k2] at h; exact up (keyTab_upd o) h
    rw [if_neg k2] at h
    by_cases k3 : r = CharBckSearch
    · rw [if_pos k3] at h; exact up (keySearch_upd o _) h
    rw [if_neg k3] at h
    by_cases k4 : r = CharFwdSearch
    · rw [if_pos k4] at h; exact up (keySearch_upd o _) h
    rw [if_neg k4] at h
    by_cases k5 : r = CharBackspace ∨ r = CharCtrlH
    · rw [if_pos k5] at h; exact up (keyBackspace_upd o) h
    rw [if_neg k5] at h
    by_cases k6 : r = CharCtrlZ
    · rw [if_pos k6] at h; exact up (.bind fun _ => .bind fun _ => .ok rfl) h
    rw [if_neg k6] at h
    by_cases k7 : r = CharCtrlL
    · rw [if_pos k7] at h; exact up (.bind fun _ => .ok rfl) h
    rw [if_neg k7] at h
    by_cases k8 : r = CharEnter ∨ r = CharCtrlJ
    · rw [if_pos k8] at h; exact up (keyEnter_upd hn o) h
    rw [if_neg k8] at h
    by_cases k9 : r = CharPrev
    · rw [if_pos k9] at h; exact up (keyPrev_upd o) h
    rw [if_neg k9] at h
    by_cases k10 : r = CharNext
    · rw [if_pos k10] at h; exact up (keyNext_upd o) h
    rw [if_neg k10] at h
    by_cases k11 : r = CharDelete
    · rw [if_pos k11] at h
      by_cases hd : o.rb.buf ≠ [] ∨ o.search.inMode = true ∨ o.comp.inComplete = true
      · left
        obtain ⟨_, _, _, _, _, _, _, _, _, _, _, _, _, h14⟩ := keyDelete_del h hd
        exact h14
      · right
        obtain ⟨_, _, h3, _, _, _, _, _, _, _, h11, _⟩ := keyDelete_eof h (Classical.not_not.1 fun a => hd (.inl a))
          (by simpa using fun a => hd (.inr (.inl a))) (by simpa using fun a => hd (.inr (.inr a)))
        rw [h11]; exact ⟨rfl, _, h3⟩
    rw [if_neg k11] at h
    by_cases k12 : r = CharInterrupt
    · rw [if_pos k12] at h
      by_cases hs1 : o.search.inMode = true
      · unfold keyInterrupt at h
        rw [if_pos hs1] at h
        exact up (.bind fun _ => .ok rfl) h
      by_cases hs2 : o.comp.inComplete = true
      · unfold keyInterrupt at h
        rw [if_neg hs1, if_pos hs2] at h
        exact up (.bind fun _ => .ok rfl) h
      right
      obtain ⟨_, _, h3, _, _, _, _, _, _, _, h11, _⟩ := keyInterrupt_ok h (by simpa using hs1) (by simpa using hs2)
      rw [h11]; exact ⟨rfl, _, h3⟩
    rw [if_neg k12] at h
    exact up (keyText_upd o r) h

/-- Results that have a current history element. -/
def Cur (x : R KeyRes) : Prop := ∀ k, x = .ok k → k.op.hist.current ≠ none

theorem Cur.ok {k : KeyRes} (h : k.op.hist.current ≠ none) : Cur (.ok k) := by
  intro k' e; cases e; exact h

/-- The same for single steps. -/
def CurO (x : R Op) : Prop := ∀ o, x = .ok o → o.hist.current ≠ none

theorem CurO.ok {o : Op} (h : o.hist.current ≠ none) : CurO (.ok o) := by
  intro o' e; cases e; exact h

theorem Cur.bindO {x : R Op} {f : Op → R KeyRes} (hx : CurO x) (h : ∀ o, o.hist.current ≠ none → Cur (f o)) : Cur (x >>= f) := by
  intro k e
  obtain ⟨a, ea, e⟩ := R.bind_inv e
  exact h a (hx a ea) k e

theorem CurO.bind {x : R Op} {f : Op → R Op} (hx : CurO x) (h : ∀ o, o.hist.current ≠ none → CurO (f o)) : CurO (x >>= f) := by
  intro k e
  obtain ⟨a, ea, e⟩ := R.bind_inv e
  exact h a (hx a ea) k e

theorem edit_cur {o : Op} (h : o.hist.current ≠ none) (k) : CurO (o.edit c k) := by
  intro o' e
  obtain ⟨r, rfl, _⟩ := edit_ok e
  exact h

theorem refreshNil_cur {o : Op} (h : o.hist.current ≠ none) : CurO (o.refreshNil c) := by
  intro o' e
  obtain ⟨r, rfl, _⟩ := refreshNil_ok e
  exact h

theorem refresh_cur {o : Op} (h : o.hist.current ≠ none) : CurO (o.refresh c) := by
  intro o' e
  obtain ⟨r, rfl, _⟩ := refresh_ok' e
  exact h

theorem clean_cur {o : Op} (h : o.hist.current ≠ none) : CurO (o.clean c) := by
  intro o' e
  obtain ⟨r, rfl, _⟩ := clean_ok' e
  exact h

theorem exitSearch_cur {o : Op} : CurO (o.exitSearch c true) := by
  intro o' e
  obtain ⟨⟨s, hi, rb⟩, e1, e⟩ := R.bind_inv e
  cases e
  unfold Search.exitSearchMode at e1
  dsimp only at e1
  rw [if_pos rfl] at e1
  cases hs : o.search.source with
  | none => rw [hs] at e1; cases e1
  | some x =>
    rw [hs] at e1
    obtain ⟨r1, _, e1⟩ := R.bind_inv e1
    cases e1
    simp

theorem search_cur {b : Bool} {s : Search} {h : Hist} {r : RB} (hc : h.current ≠ none) {s' h' r'}
    (e : Search.search c.U c.d c.h b s h r = .ok (s', h', r')) : h'.current ≠ none := by
  obtain ⟨_, _, _, _, _, _, k7⟩ := Search.search_ok e
  rcases k7 with ⟨rfl, _⟩ | ⟨_, _, _, rfl, _⟩
  · exact hc
  · simp

theorem onComplete_cur {o : Op} (h : o.hist.current ≠ none) {f : Bool × Op → R KeyRes}
    (hf : ∀ b o, o.hist.current ≠ none → Cur (f (b, o))) : Cur (o.onComplete c >>= f) := by
  intro k e
  obtain ⟨⟨b, o1⟩, e1, e⟩ := R.bind_inv e
  obtain ⟨⟨b', cm, rb⟩, _, e1⟩ := R.bind_inv e1
  cases e1
  exact hf _ _ (show ({ o with comp := cm, rb := rb } : Op).hist.current ≠ none from h) k e

/-- A key that delivers no result keeps a current history element. -/
theorem key_current {o : Op} (hc : o.hist.current ≠ none) {r : Rune} {k : KeyRes} (h : o.key c r = .ok k)
    (he : k.op.events = o.events) : k.op.hist.current ≠ none := by
  have noev : ∀ {e : Event}, k.op.events = o.events ++ [e] → k.op.hist.current ≠ none := by
    intro e h1
    rw [he] at h1
    exact absurd (congrArg List.length h1) (by simp)
  unfold key at h
  cases hs : simpleKey r with
  | some cmd =>
    rw [hs] at h
    exact Cur.bindO (edit_cur hc _) (fun _ a => .ok a) k h
  | none =>
    rw [hs] at h
    dsimp only at h
    by_cases k1 : r = CharBell
    · rw [if_pos k1] at h
      refine (?_ : Cur (keyBell c o)) k h
      have h2 : ∀ o : Op, o.hist.current ≠ none → Cur (if o.comp.inComplete = true then
          (refreshNil c { o with comp := o.comp.exitComplete } >>= fun o => .ok { op := o })
          else ((.ok o : R Op) >>= fun o => .ok { op := o })) := by
        intro o a
        split
        · exact .bindO (refreshNil_cur a) fun _ b => .ok b
        · exact .ok a
      unfold keyBell
      dsimp only
      split
      · exact .bindO exitSearch_cur fun _ a => .bindO (refreshNil_cur a) fun o b => h2 o b
      · exact h2 o hc
    rw [if_neg k1] at h
    by_cases k2 : r = CharTab
    · rw [if_pos k2] at h
      refine (?_ : Cur (keyTab c o)) k h
      unfold keyTab
      split
      · exact .ok hc
      · refine onComplete_cur hc fun b o a => ?_
        dsimp only
        split
        · exact .ok a
        · exact .ok a
    rw [if_neg k2] at h
    have srch : ∀ fwd, Cur (keySearch c fwd o) := by
      intro fwd k e
      unfold keySearch at e
      obtain ⟨⟨ok, o1⟩, e1, e⟩ := R.bind_inv e
      obtain ⟨⟨ok', s, hi, rb⟩, e2, e1⟩ := R.bind_inv e1
      cases e1
      have hcur : hi.current ≠ none := by
        unfold Search.searchMode at e2
        by_cases q : o.search.width = 0
        · rw [if_pos q] at e2; cases e2; exact hc
        rw [if_neg q] at e2
        dsimp only at e2
        by_cases q : o.search.inMode = true
        · rw [if_pos q] at e2
          obtain ⟨⟨s1, h1, r1⟩, e3, e2⟩ := R.bind_inv e2
          cases e2
          exact search_cur hc e3
        · rw [if_neg q] at e2
          obtain ⟨⟨s1, r1⟩, e3, e2⟩ := R.bind_inv e2
          cases e2
          exact hc
      dsimp only at e
      split at e
      · cases e; exact hcur
      · cases e; exact hcur
    by_cases k3 : r = CharBckSearch
    · rw [if_pos k3] at h; exact srch _ k h
    rw [if_neg k3] at h
    by_cases k4 : r = CharFwdSearch
    · rw [if_pos k4] at h; exact srch _ k h
    rw [if_neg k4] at h
    by_cases k5 : r = CharBackspace ∨ r = CharCtrlH
    · rw [if_pos k5] at h
      unfold keyBackspace at h
      by_cases q : o.search.inMode = true
      · rw [if_pos q] at h
        obtain ⟨o1, e1, h⟩ := R.bind_inv h
        obtain ⟨⟨s, hi, rb⟩, e2, e1⟩ := R.bind_inv e1
        cases e1; cases h
        unfold Search.searchBackspace at e2
        split at e2
        · exact search_cur hc e2
        · cases e2; exact hc
      rw [if_neg q] at h
      by_cases q : o.rb.buf.length = 0
      · rw [if_pos q] at h; cases h; exact hc
      rw [if_neg q] at h
      refine Cur.bindO (edit_cur hc _) (fun o a => ?_) k h
      split
      · exact onComplete_cur a fun b o a => .ok a
      · exact .ok a
    rw [if_neg k5] at h
    by_cases k6 : r = CharCtrlZ
    · rw [if_pos k6] at h
      exact Cur.bindO (clean_cur hc) (fun _ a => .bindO (refresh_cur a) fun _ b => .ok b) k h
    rw [if_neg k6] at h
    by_cases k7 : r = CharCtrlL
    · rw [if_pos k7] at h
      exact Cur.bindO (refresh_cur (o := { o with rb := o.rb.write [.home] }) hc) (fun _ b => .ok b) k h
    rw [if_neg k7] at h
    by_cases k8 : r = CharEnter ∨ r = CharCtrlJ
    · rw [if_pos k8] at h
      obtain ⟨_, _, h3, _⟩ := keyEnter_ok h
      exact noev h3
    rw [if_neg k8] at h
    by_cases k9 : r = CharPrev
    · rw [if_pos k9] at h
      have hp : o.hist.prev.2.current ≠ none := by
        unfold Hist.prev
        split
        · exact hc
        · split
          · exact hc
          · simp
      refine (?_ : Cur (keyPrev c o)) k h
      unfold keyPrev
      split
      · next b hi heq => rw [heq] at hp; exact .bindO (edit_cur (o := { o with hist := hi }) hp _) fun _ a => .ok a
      · next hi heq => rw [heq] at hp; exact .ok hp
    rw [if_neg k9] at h
    by_cases k10 : r = CharNext
    · rw [if_pos k10] at h
      have hp : o.hist.nextLine.2.current ≠ none := by
        unfold Hist.nextLine
        split
        · exact hc
        · split
          · exact hc
          · simp
      refine (?_ : Cur (keyNext c o)) k h
      unfold keyNext
      split
      · next b hi heq => rw [heq] at hp; exact .bindO (edit_cur (o := { o with hist := hi }) hp _) fun _ a => .ok a
      · next hi heq => rw [heq] at hp; exact .ok hp
    rw [if_neg k10] at h
    by_cases k11 : r = CharDelete
    · rw [if_pos k11] at h
      by_cases hd : o.rb.buf ≠ [] ∨ o.search.inMode = true ∨ o.comp.inComplete = true
      · obtain ⟨_, _, _, _, _, _, _, _, _, _, h11, _⟩ := keyDelete_del h hd
        rw [h11]; exact hc
      · obtain ⟨_, _, h3, _⟩ := keyDelete_eof h (Classical.not_not.1 fun a => hd (.inl a))
          (by simpa using fun a => hd (.inr (.inl a))) (by simpa using fun a => hd (.inr (.inr a)))
        exact noev h3
    rw [if_neg k11] at h
    by_cases k12 : r = CharInterrupt
    · rw [if_pos k12] at h
      by_cases hs1 : o.search.inMode = true
      · unfold keyInterrupt at h
        rw [if_pos hs1] at h
        exact Cur.bindO exitSearch_cur (fun _ a => .ok a) k h
      by_cases hs2 : o.comp.inComplete = true
      · unfold keyInterrupt at h
        rw [if_neg hs1, if_pos hs2] at h
        exact Cur.bindO (refreshNil_cur (o := { o.kickRead with comp := o.comp.exitComplete }) hc) (fun _ a => .ok a) k h
      obtain ⟨_, _, h3, _⟩ := keyInterrupt_ok h (by simpa using hs1) (by simpa using hs2)
      exact noev h3
    rw [if_neg k12] at h
    unfold keyText at h
    by_cases q : o.search.inMode = true
    · rw [if_pos q] at h
      obtain ⟨o1, e1, h⟩ := R.bind_inv h
      obtain ⟨⟨s, hi, rb⟩, e2, e1⟩ := R.bind_inv e1
      cases e1; cases h
      exact search_cur hc e2
    rw [if_neg q] at h
    refine Cur.bindO (edit_cur hc _) (fun o a => ?_) k h
    split
    · exact onComplete_cur a fun b o a => .ok a
    · exact .ok a

/-- The history is in step with the line, except during a search. -/
def Synced (o : Op) : Prop := o.search.inMode = false → o.hist.Noted o.rb.buf

theorem dispatch_synced (hl : 0 < c.h.limit) (hn : c.noSave = false) (hf : Observer c) {o o' : Op} {r : Rune}
    (h : o.dispatch c r = .ok o') : Synced o' := by
  obtain ⟨k, h1, f⟩ := dispatch_ok hf h
  intro hs
  have hb : o'.rb.buf = k.op.rb.buf := by show o'.rb.toEd.buf = _; rw [f.line]
  rw [f.hist, hb]
  split
  · exact Hist.update_noted hl _ _
  · next hu =>
    left
    exact ((key_update hn h1).resolve_left fun a => hu ⟨a, hs⟩).1

theorem Synced.withRb {o : Op} (h : Synced o) {r : RB} (he : r.toEd = o.rb.toEd) : Synced { o with rb := r } := by
  intro hs
  have := h hs
  show o.hist.Noted r.toEd.buf
  rw [he]; exact this

theorem viaMenu_synced (hl : 0 < c.h.limit) (hn : c.noSave = false) (hv : c.vim = false) (hf : Friendly c) {o o' : Op} {r : Rune}
    (hi : Inv c o) (h0 : Synced o) (hr : ¬ Risky c o r) (h : o.viaMenu c r = .ok o') : Synced o' := by
  have hd : ∀ {o1 : Op}, o1.viaVim c r = .ok o' → Synced o' := by
    intro o1 e
    unfold viaVim at e
    rw [if_neg (by simp [hv])] at e
    exact dispatch_synced hl hn hf.listener e
  unfold viaMenu at h
  by_cases hs : o.comp.inSelect = true
  · rw [if_pos hs] at h
    obtain ⟨⟨keep, cm, rb⟩, e1, h⟩ := R.bind_inv h
    dsimp only at h
    obtain ⟨keep', cm', rb', g1, _, _, _, g5⟩ := Comp.handleSelect_total (auto := c.auto) hi.base.rb hi.comp.weak hs (k := r)
      (fun a b => hr (.inr (.inr (.inl ⟨hs, .inr ⟨b, a⟩⟩))))
    rw [e1, Except.ok.injEq] at g1
    cases g1
    have hedit : keep = true → rb.toEd = o.rb.toEd := by
      intro hk
      subst hk
      obtain ⟨⟨nx, c1, r1⟩, k1, k2⟩ := R.bind_inv e1
      dsimp only at k2
      have hnx : nx = true := by
        split at k2
        · assumption
        · cases k2
      rw [if_pos hnx] at k2
      obtain ⟨⟨c2, r2⟩, k3, k4⟩ := R.bind_inv k2
      cases k4
      rw [(Comp.completeRefresh_ok k3).1]
      rw [hnx] at k1
      clear k2 hnx hr g5 hd e1 k3
      unfold Comp.selectKey at k1
      by_cases q1 : r = CharEnter ∨ r = CharCtrlJ
      · rw [if_pos q1] at k1
        obtain ⟨_, _, k1⟩ := R.bind_inv k1
        obtain ⟨_, _, k1⟩ := R.bind_inv k1
        cases k1
      rw [if_neg q1] at k1
      by_cases q2 : r = CharLineStart
      · rw [if_pos q2] at k1
        obtain ⟨_, _, k1⟩ := R.bind_inv k1
        obtain ⟨_, _, k1⟩ := R.bind_inv k1
        cases k1; rfl
      rw [if_neg q2] at k1
      by_cases q3 : r = CharLineEnd
      · rw [if_pos q3] at k1
        obtain ⟨_, _, k1⟩ := R.bind_inv k1
        cases k1; rfl
      rw [if_neg q3] at k1
      by_cases q4 : r = CharBackspace
      · rw [if_pos q4] at k1; cases k1
      rw [if_neg q4] at k1
      by_cases q5 : r = CharTab ∨ r = CharForward
      · rw [if_pos q5] at k1
        obtain ⟨⟨c3, r3⟩, m1, k1⟩ := R.bind_inv k1
        cases k1
        unfold Comp.doSelect at m1
        split at m1
        · next x hx => exact (hi.comp.multi hs x hx).elim
        · obtain ⟨_, _, m1⟩ := R.bind_inv m1
          exact (Comp.completeRefresh_ok m1).1
      rw [if_neg q5] at k1
      by_cases q6 : r = CharBell ∨ r = CharInterrupt
      · rw [if_pos q6] at k1; cases k1
      rw [if_neg q6] at k1
      by_cases q7 : r = CharNext
      · rw [if_pos q7] at k1
        obtain ⟨_, _, k1⟩ := R.bind_inv k1
        cases k1; rfl
      rw [if_neg q7] at k1
      by_cases q8 : r = CharBackward
      · rw [if_pos q8] at k1
        obtain ⟨_, _, k1⟩ := R.bind_inv k1
        cases k1; rfl
      rw [if_neg q8] at k1
      by_cases q9 : r = CharPrev
      · rw [if_pos q9] at k1
        dsimp only at k1
        by_cases q : o.comp.choise - o.comp.colNum < 0
        · rw [if_pos q] at k1
          obtain ⟨_, _, k1⟩ := R.bind_inv k1
          cases k1; rfl
        · rw [if_neg q] at k1
          cases k1; rfl
      rw [if_neg q9] at k1
      cases k1
    by_cases hk : keep = true
    · rw [if_pos hk] at h
      cases h
      exact fun a => h0.withRb (hedit hk) a
    · rw [if_neg hk] at h
      obtain ⟨o1, e2, h⟩ := R.bind_inv h
      obtain ⟨r1, rfl, f1, _⟩ := refreshNil_ok e2
      obtain ⟨_, _, _, _, _, _, g7⟩ := g5 (by simpa using hk)
      by_cases q1 : r = CharEnter ∨ r = CharCtrlJ
      · rw [if_pos q1] at h
        cases h
        intro _
        exact Hist.update_noted hl _ _
      rw [if_neg q1] at h
      have hrb : rb = o.rb := g7 (fun a => q1 (.inl a)) (fun a => q1 (.inr a))
      have hsy : ∀ o2 : Op, o2.rb.toEd = o.rb.toEd → o2.hist = o.hist → o2.search = o.search → Synced o2 := by
        intro o2 a b d e
        rw [d] at e
        have := h0 e
        rw [b]
        show Hist.Noted _ o2.rb.toEd.buf
        rw [a]; exact this
      have hr1 : r1.toEd = o.rb.toEd := by rw [f1, hrb]
      by_cases q2 : r = CharInterrupt
      · rw [if_pos q2] at h
        cases h
        exact hsy _ hr1 rfl rfl
      rw [if_neg q2] at h
      by_cases q3 : r = CharBell
      · rw [if_pos q3] at h
        cases h
        exact hsy _ hr1 rfl rfl
      rw [if_neg q3] at h
      exact hd h
  · rw [if_neg hs] at h
    exact hd h

theorem iter_synced (hl : 0 < c.h.limit) (hn : c.noSave = false) (hv : c.vim = false) (hf : Friendly c) {o o' : Op}
    (hi : Inv c o) (h0 : Synced o) (hr : ∀ r, filtered c o.nextKey = some r → ¬ Risky c o r) (h : o.iter c = .ok o') : Synced o' := by
  obtain ⟨⟨r, o1⟩, h1, h⟩ := R.bind_inv h
  have hio : ∃ i g k, o1 = { o with inp := i, gate := g, kick := k } ∧ r = o.nextKey := by
    unfold readRune at h1
    split at h1
    · cases h1
    · unfold nextKey
      cases hin : o.inp with
      | nil => rw [hin] at h1; cases h1; exact ⟨_, _, _, rfl, rfl⟩
      | cons a l => rw [hin] at h1; cases h1; exact ⟨_, _, _, rfl, rfl⟩
  obtain ⟨i, g, k, rfl, rfl⟩ := hio
  have hi1 := hi.io i g k
  have h01 : Synced { o with inp := i, gate := g, kick := k } := h0
  have hh : ∀ r, filtered c o.nextKey = some r → Op.handle c r { o with inp := i, gate := g, kick := k } = .ok o' → Synced o' := by
    intro r hr1 e
    have hri : ¬ Risky c { o with inp := i, gate := g, kick := k } r := hr r hr1
    unfold handle at e
    by_cases q : r = 0
    · subst q
      rw [if_pos rfl] at e
      by_cases q1 : ({ o with inp := i, gate := g, kick := k } : Op).rb.buf.length = 0
      · rw [if_pos q1] at e
        obtain ⟨o2, e1, e2⟩ := R.bind_inv e
        obtain ⟨r1, rfl, f1, _⟩ := clean_ok' e1
        cases e2
        exact fun a => h01.withRb f1 a
      · rw [if_neg q1] at e
        refine viaMenu_synced hl hn hv hf hi1 h01 ?_ e
        rintro (h | h | h | h | h)
        · exact absurd h.1 (by decide)
        · rcases h.1 with h | h <;> exact absurd h (by decide)
        · rcases h.2 with h | h
          · exact absurd h (by decide)
          · exact absurd h.2 (by unfold Comp.Divides; decide)
        · exact absurd h.2.2.1 (by decide)
        · rw [hv] at h; cases h.1
    · rw [if_neg q] at e
      exact viaMenu_synced hl hn hv hf hi1 h01 hri e
  unfold accept at h
  cases hfl : c.filter with
  | none =>
    rw [hfl] at h
    exact hh _ (by unfold filtered; rw [hfl]) h
  | some f =>
    rw [hfl] at h
    dsimp only at h
    cases hfr : f o.nextKey with
    | mk r' b =>
      rw [hfr] at h
      cases b with
      | false =>
        obtain ⟨r1, rfl, f1, _⟩ := refreshNil_ok h
        exact h01.withRb (o := Op.kickRead _) f1
      | true => exact hh r' (by unfold filtered; rw [hfl]; dsimp only; rw [hfr]; rfl) h

end Op

theorem Session.synced {c : OCfg} (hl : 0 < c.h.limit) (hn : c.noSave = false) (hv : c.vim = false) (hf : Op.Friendly c) {o o' : Op}
    (h : Session c o o') (hi : Op.Inv c o) (h0 : Op.Synced o) : Op.Synced o' := by
  induction h with
  | start => exact h0
  | key s hr e ih => exact Op.iter_synced hl hn hv hf (s.inv hf hi) ih hr e
  | call _ e ih =>
    obtain ⟨r1, rfl, f1, _⟩ := Op.refreshNil_ok e
    exact ih.withRb f1
  | taken es _ ih => exact ih

end RL
