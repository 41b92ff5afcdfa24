import Verif.Proofs.Keys
import Verif.Spec.Wake
import Verif.Proofs.Operation
import Verif.Proofs.NoBlock
/-!
# Handling a key does not read, and every key the terminal waits after is answered

For C40: after Ctrl-C, Enter, Ctrl-J and Ctrl-D the terminal waits for a wake-up.  Outside vim's normal mode the editing loop
answers each of them either with a result for the caller or with a wake-up.
-/

namespace RL
namespace Op
variable {c : OCfg}

/-- What handling a key may do to the terminal and the results: wake the terminal up, add results. -/
structure Io (o o' : Op) : Prop where
  inp : o'.inp = o.inp
  gate : o'.gate = o.gate
  stopped : o'.stopped = o.stopped
  kick : o.kick = true → o'.kick = true
  events : ∃ es, o'.events = o.events ++ es

theorem Io.refl (o : Op) : Io o o := ⟨rfl, rfl, rfl, id, [], by simp⟩
theorem Io.trans {a b d : Op} (h : Io a b) (h' : Io b d) : Io a d := by
  obtain ⟨e1, h1⟩ := h.events
  obtain ⟨e2, h2⟩ := h'.events
  exact ⟨h'.inp.trans h.inp, h'.gate.trans h.gate, h'.stopped.trans h.stopped, fun k => h'.kick (h.kick k), e1 ++ e2,
    by rw [h2, h1, List.append_assoc]⟩

/-- The key has been answered: there is a wake-up or a new result. -/
def Answered (o o' : Op) : Prop := o'.kick = true ∨ o.events.length < o'.events.length

theorem Answered.trans {a b d : Op} (h : Answered a b) (h' : Io b d) : Answered a d := by
  obtain ⟨es, he⟩ := h'.events
  rcases h with h | h
  · exact .inl (h'.kick h)
  · right; rw [he, List.length_append]; omega

/-- Only fields of the line, history, search and completion differ. -/
def Inner (o o' : Op) : Prop :=
  ∃ rb h s cm, o' = { o with rb := rb, hist := h, search := s, comp := cm }

theorem Inner.refl (o : Op) : Inner o o := ⟨_, _, _, _, rfl⟩
theorem Inner.mk (o : Op) (rb h s cm) : Inner o { o with rb := rb, hist := h, search := s, comp := cm } := ⟨_, _, _, _, rfl⟩
theorem Inner.trans {a b d : Op} (h : Inner a b) (h' : Inner b d) : Inner a d := by
  obtain ⟨_, _, _, _, rfl⟩ := h
  obtain ⟨_, _, _, _, rfl⟩ := h'
  exact ⟨_, _, _, _, rfl⟩
theorem Inner.io {o o' : Op} (h : Inner o o') : Io o o' := by
  obtain ⟨_, _, _, _, rfl⟩ := h
  exact ⟨rfl, rfl, rfl, id, [], by simp⟩

theorem edit_inner {k : Cmd} {o o' : Op} (h : o.edit c k = .ok o') : Inner o o' := by
  obtain ⟨r, _, h⟩ := R.bind_inv h; cases h; exact ⟨_, _, _, _, rfl⟩
theorem refreshNil_inner {o o' : Op} (h : o.refreshNil c = .ok o') : Inner o o' := by
  obtain ⟨r, _, h⟩ := R.bind_inv h; cases h; exact ⟨_, _, _, _, rfl⟩
theorem refresh_inner {o o' : Op} (h : o.refresh c = .ok o') : Inner o o' := by
  unfold refresh at h
  split at h
  · exact refreshNil_inner h
  · cases h; exact .refl _
theorem clean_inner {o o' : Op} (h : o.clean c = .ok o') : Inner o o' := by
  obtain ⟨r, _, h⟩ := R.bind_inv h; cases h; exact ⟨_, _, _, _, rfl⟩
theorem exitSearch_inner {b} {o o' : Op} (h : o.exitSearch c b = .ok o') : Inner o o' := by
  obtain ⟨⟨_, _, _⟩, _, h⟩ := R.bind_inv h; cases h; exact ⟨_, _, _, _, rfl⟩
theorem enterSearch_inner {b x} {o o' : Op} (h : o.enterSearch c b = .ok (x, o')) : Inner o o' := by
  obtain ⟨⟨_, _, _, _⟩, _, h⟩ := R.bind_inv h; cases h; exact ⟨_, _, _, _, rfl⟩
theorem searchChar_inner {b} {o o' : Op} (h : o.searchChar c b = .ok o') : Inner o o' := by
  obtain ⟨⟨_, _, _⟩, _, h⟩ := R.bind_inv h; cases h; exact ⟨_, _, _, _, rfl⟩
theorem searchBackspace_inner {o o' : Op} (h : o.searchBackspace c = .ok o') : Inner o o' := by
  obtain ⟨⟨_, _, _⟩, _, h⟩ := R.bind_inv h; cases h; exact ⟨_, _, _, _, rfl⟩
theorem onComplete_inner {x} {o o' : Op} (h : o.onComplete c = .ok (x, o')) : Inner o o' := by
  obtain ⟨⟨_, _, _⟩, _, h⟩ := R.bind_inv h; cases h; exact ⟨_, _, _, _, rfl⟩
theorem completeRefresh_inner {o o' : Op} (h : o.completeRefresh c = .ok o') : Inner o o' := by
  obtain ⟨⟨_, _⟩, _, h⟩ := R.bind_inv h; cases h; exact ⟨_, _, _, _, rfl⟩

theorem keyBell_inner {o : Op} {k} (h : keyBell c o = .ok k) : Inner o k.op := by
  unfold keyBell at h
  dsimp only at h
  by_cases h1 : o.search.inMode = true
  · rw [if_pos h1] at h
    obtain ⟨o1, h2, h⟩ := R.bind_inv h
    obtain ⟨o2, h3, h⟩ := R.bind_inv h
    have i1 := (exitSearch_inner h2).trans (refreshNil_inner h3)
    split at h
    · obtain ⟨o3, h4, h⟩ := R.bind_inv h
      cases h
      exact i1.trans ((Inner.mk o2 _ _ _ _).trans (refreshNil_inner h4))
    · cases h; exact i1
  · rw [if_neg h1, R.bind_ok] at h
    split at h
    · obtain ⟨o3, h4, h⟩ := R.bind_inv h
      cases h
      exact (Inner.mk o _ _ _ _).trans (refreshNil_inner h4)
    · cases h; exact .refl _

theorem keyTab_inner {o : Op} {k} (h : keyTab c o = .ok k) : Inner o k.op := by
  unfold keyTab at h
  split at h
  · cases h; exact .mk _ _ _ _ _
  · obtain ⟨⟨ok, o1⟩, h1, h⟩ := R.bind_inv h
    have := onComplete_inner h1
    dsimp only at h
    split at h
    · cases h; exact this
    · cases h; exact this.trans (.mk _ _ _ _ _)

theorem keySearch_inner {b} {o : Op} {k} (h : keySearch c b o = .ok k) : Inner o k.op := by
  obtain ⟨⟨ok, o1⟩, h1, h⟩ := R.bind_inv h
  have := enterSearch_inner h1
  dsimp only at h
  split at h
  · cases h; exact this
  · cases h; exact this.trans (.mk _ _ _ _ _)

theorem keyBackspace_inner {o : Op} {k} (h : keyBackspace c o = .ok k) : Inner o k.op := by
  unfold keyBackspace at h
  split at h
  · obtain ⟨o1, h1, h⟩ := R.bind_inv h
    cases h; exact searchBackspace_inner h1
  · split at h
    · cases h; exact .mk _ _ _ _ _
    · obtain ⟨o1, h1, h⟩ := R.bind_inv h
      have := edit_inner h1
      split at h
      · obtain ⟨⟨ok, o2⟩, h2, h⟩ := R.bind_inv h
        cases h; exact this.trans (onComplete_inner h2)
      · cases h; exact this

theorem keyPrev_inner {o : Op} {k} (h : keyPrev c o = .ok k) : Inner o k.op := by
  unfold keyPrev at h
  split at h
  · obtain ⟨o1, h1, h⟩ := R.bind_inv h
    cases h; exact (Inner.mk o _ _ _ _).trans (edit_inner h1)
  · cases h; exact .mk _ _ _ _ _

theorem keyNext_inner {o : Op} {k} (h : keyNext c o = .ok k) : Inner o k.op := by
  unfold keyNext at h
  split at h
  · obtain ⟨o1, h1, h⟩ := R.bind_inv h
    cases h; exact (Inner.mk o _ _ _ _).trans (edit_inner h1)
  · cases h; exact .mk _ _ _ _ _

theorem keyText_inner {r} {o : Op} {k} (h : keyText c r o = .ok k) : Inner o k.op := by
  unfold keyText at h
  split at h
  · obtain ⟨o1, h1, h⟩ := R.bind_inv h
    cases h; exact searchChar_inner h1
  · obtain ⟨o1, h1, h⟩ := R.bind_inv h
    have := edit_inner h1
    split at h
    · obtain ⟨⟨ok, o2⟩, h2, h⟩ := R.bind_inv h
      cases h; exact this.trans (onComplete_inner h2)
    · cases h; exact this

/-- Adding a result answers the key. -/
theorem io_event (o : Op) (e : Event) (o1 : Op) (h : Inner { o with events := o.events ++ [e] } o1) :
    Io o o1 ∧ Answered o o1 := by
  obtain ⟨_, _, _, _, rfl⟩ := h
  exact ⟨⟨rfl, rfl, rfl, id, [e], rfl⟩, .inr (by simp)⟩

theorem io_event' {o o1 o2 : Op} (h : Inner o o1) (e : Event) (h2 : Inner { o1 with events := o1.events ++ [e] } o2) :
    Io o o2 ∧ Answered o o2 := by
  obtain ⟨a, b⟩ := io_event o1 e o2 h2
  refine ⟨h.io.trans a, ?_⟩
  obtain ⟨_, _, _, _, rfl⟩ := h
  exact b

/-- Waking the terminal up answers the key. -/
theorem io_kick {o o1 : Op} (h : Inner o.kickRead o1) : Io o o1 ∧ Answered o o1 := by
  obtain ⟨_, _, _, _, rfl⟩ := h
  exact ⟨⟨rfl, rfl, rfl, fun _ => rfl, [], by simp [kickRead]⟩, .inl rfl⟩

theorem keyEnter_io {o : Op} {k} (h : keyEnter c o = .ok k) : Io o k.op ∧ Answered o k.op := by
  obtain ⟨_, _, e3, _, _, e6, e7, e8, e9, _⟩ := keyEnter_ok h
  exact ⟨⟨e6, e7, e9, fun a => e8.trans a, _, e3⟩, .inr (by rw [e3]; simp)⟩

theorem keyInterrupt_io {o : Op} {k} (h : keyInterrupt c o = .ok k) : Io o k.op ∧ Answered o k.op := by
  by_cases h1 : o.search.inMode = true
  · unfold keyInterrupt at h
    rw [if_pos h1] at h
    obtain ⟨o1, h2, h⟩ := R.bind_inv h
    cases h
    exact io_kick (exitSearch_inner h2)
  · by_cases h2 : o.comp.inComplete = true
    · unfold keyInterrupt at h
      rw [if_neg h1, if_pos h2] at h
      obtain ⟨o1, h2, h⟩ := R.bind_inv h
      cases h
      exact io_kick ((Inner.mk _ _ _ _ _).trans (refreshNil_inner h2))
    · obtain ⟨_, _, e3, _, _, e6, e7, e8, e9, _⟩ := keyInterrupt_ok h (by simpa using h1) (by simpa using h2)
      exact ⟨⟨e6, e7, e9, fun a => e8.trans a, _, e3⟩, .inr (by rw [e3]; simp)⟩

theorem keyDelete_io {o : Op} {k} (h : keyDelete c o = .ok k) : Io o k.op ∧ Answered o k.op := by
  by_cases hn : o.rb.buf ≠ [] ∨ o.search.inMode = true ∨ o.comp.inComplete = true
  · obtain ⟨_, _, e3, _, _, e6, e7, e8, e9, _⟩ := keyDelete_del h hn
    exact ⟨⟨e6, e7, e9, fun _ => e8, [], by simp [e3]⟩, .inl e8⟩
  · obtain ⟨n1, hn⟩ := not_or.1 hn
    obtain ⟨n2, n3⟩ := not_or.1 hn
    obtain ⟨_, _, e3, _, _, e6, e7, e8, e9, _⟩ := keyDelete_eof h (Classical.not_not.1 n1) (by simpa using n2) (by simpa using n3)
    exact ⟨⟨e6, e7, e9, fun a => e8.trans a, _, e3⟩, .inr (by rw [e3]; simp)⟩

/-- The key switch never reads, and answers every key the terminal waits after. -/
theorem key_io {r : Rune} {o : Op} {k} (h : o.key c r = .ok k) : Io o k.op ∧ (stopKey r = true → Answered o k.op) := by
  unfold key at h
  cases hs : simpleKey r with
  | some cmd =>
    rw [hs] at h
    dsimp only at h
    obtain ⟨o1, h1, h⟩ := R.bind_inv h
    cases h
    refine ⟨(edit_inner h1).io, fun hr => ?_⟩
    have : r = CharInterrupt ∨ r = CharEnter ∨ r = CharCtrlJ ∨ r = CharDelete := by
      simpa [stopKey, or_assoc] using hr
    have no : ∀ a : Rune, simpleKey a = none → r = a → False := by
      intro a ha e; rw [e, ha] at hs; cases hs
    rcases this with e | e | e | e
    · exact (no _ (by decide) e).elim
    · exact (no _ (by decide) e).elim
    · exact (no _ (by decide) e).elim
    · exact (no _ (by decide) e).elim
  | none =>
    rw [hs] at h
    dsimp only at h
    have no : ∀ {a : Rune}, stopKey a = false → r = a → ∀ {P : Prop}, stopKey r = true → P := by
      intro a ha e P hr; rw [e, ha] at hr; cases hr
    by_cases k1 : r = CharBell
    · rw [if_pos k1] at h; exact ⟨(keyBell_inner h).io, no (by decide) k1⟩
    rw [if_neg k1] at h
    by_cases k2 : r = CharTab
    · rw [if_pos k2] at h; exact ⟨(keyTab_inner h).io, no (by decide) k2⟩
    rw [if_neg k2] at h
    by_cases k3 : r = CharBckSearch
    · rw [if_pos k3] at h; exact ⟨(keySearch_inner h).io, no (by decide) k3⟩
    rw [if_neg k3] at h
    by_cases k4 : r = CharFwdSearch
    · rw [if_pos k4] at h; exact ⟨(keySearch_inner h).io, no (by decide) k4⟩
    rw [if_neg k4] at h
    by_cases k5 : r = CharBackspace ∨ r = CharCtrlH
    · rw [if_pos k5] at h
      refine ⟨(keyBackspace_inner h).io, ?_⟩
      rcases k5 with k5 | k5
      · exact no (by decide) k5
      · exact no (by decide) k5
    rw [if_neg k5] at h
    by_cases k6 : r = CharCtrlZ
    · rw [if_pos k6] at h
      obtain ⟨o1, h1, h⟩ := R.bind_inv h
      obtain ⟨o2, h2, h⟩ := R.bind_inv h
      cases h
      exact ⟨((clean_inner h1).trans (refresh_inner h2)).io, no (by decide) k6⟩
    rw [if_neg k6] at h
    by_cases k7 : r = CharCtrlL
    · rw [if_pos k7] at h
      obtain ⟨o1, h1, h⟩ := R.bind_inv h
      cases h
      exact ⟨((Inner.mk o _ _ _ _).trans (refresh_inner h1)).io, no (by decide) k7⟩
    rw [if_neg k7] at h
    by_cases k8 : r = CharEnter ∨ r = CharCtrlJ
    · rw [if_pos k8] at h
      obtain ⟨a, b⟩ := keyEnter_io h
      exact ⟨a, fun _ => b⟩
    rw [if_neg k8] at h
    by_cases k9 : r = CharPrev
    · rw [if_pos k9] at h; exact ⟨(keyPrev_inner h).io, no (by decide) k9⟩
    rw [if_neg k9] at h
    by_cases k10 : r = CharNext
    · rw [if_pos k10] at h; exact ⟨(keyNext_inner h).io, no (by decide) k10⟩
    rw [if_neg k10] at h
    by_cases k11 : r = CharDelete
    · rw [if_pos k11] at h
      obtain ⟨a, b⟩ := keyDelete_io h
      exact ⟨a, fun _ => b⟩
    rw [if_neg k11] at h
    by_cases k12 : r = CharInterrupt
    · rw [if_pos k12] at h
      obtain ⟨a, b⟩ := keyInterrupt_io h
      exact ⟨a, fun _ => b⟩
    rw [if_neg k12] at h
    refine ⟨(keyText_inner h).io, fun hr => ?_⟩
    have : r = CharInterrupt ∨ r = CharEnter ∨ r = CharCtrlJ ∨ r = CharDelete := by
      simpa [stopKey, or_assoc] using hr
    rcases this with e | e | e | e
    · exact (k12 e).elim
    · exact (k8 (.inl e)).elim
    · exact (k8 (.inr e)).elim
    · exact (k11 e).elim

theorem listen_inner {r} {k k' : KeyRes} (h : listen c r k = .ok k') : Inner k.op k'.op := by
  unfold listen at h
  split at h
  · cases h; exact .refl _
  · split at h
    · cases h; exact .refl _
    · obtain ⟨rb, _, h⟩ := R.bind_inv h
      cases h
      exact .mk _ _ _ _ _

theorem finish_inner {k : KeyRes} {o' : Op} (h : finish c k = .ok o') : Inner k.op o' := by
  have hs : ∀ {o1}, settle c k = .ok o1 → Inner k.op o1 := by
    intro o1 h
    unfold settle at h
    split at h
    · obtain ⟨o2, h2, h⟩ := R.bind_inv h
      exact (exitSearch_inner h2).trans (refreshNil_inner h)
    · split at h
      · split at h
        · exact (Inner.mk k.op _ _ _ _).trans (refresh_inner h)
        · obtain ⟨o2, h2, h⟩ := R.bind_inv h
          exact (refreshNil_inner h2).trans (completeRefresh_inner h)
      · cases h; exact .refl _
  obtain ⟨o1, h1, h⟩ := R.bind_inv h
  split at h
  · cases h; exact (hs h1).trans (.mk _ _ _ _ _)
  · cases h; exact hs h1

theorem dispatch_io {r : Rune} {o o' : Op} (h : o.dispatch c r = .ok o') :
    Io o o' ∧ (stopKey r = true → Answered o o') := by
  obtain ⟨k1, h1, h⟩ := R.bind_inv h
  obtain ⟨k2, h2, h⟩ := R.bind_inv h
  obtain ⟨a, b⟩ := key_io h1
  have i := ((listen_inner h2).trans (finish_inner h)).io
  exact ⟨a.trans i, fun hr => (b hr).trans i⟩

/-! ### Vim -/

/-- Everything but the line is as before, except possibly the vim mode. -/
def InnerV (o o' : Op) : Prop := ∃ rb b, o' = { o with rb := rb, vimNormal := b }

theorem edit_innerV {k : Cmd} {o o' : Op} (h : o.edit c k = .ok o') : InnerV o o' := by
  obtain ⟨r, _, h⟩ := R.bind_inv h; cases h; exact ⟨_, _, rfl⟩

/-- After reading a key: it is the next one, or 0 at the end of the input. -/
theorem readRune_gate {r : Rune} {o o' : Op} (h : o.readRune = .ok (r, o')) :
    r = o.inp.headD 0 ∧ o'.inp = o.inp.tail ∧ o'.gate = stopKey (o.inp.headD 0) ∧ o'.events = o.events ∧
    o'.stopped = o.stopped ∧ o'.rb = o.rb ∧ o'.hist = o.hist ∧ o'.search = o.search ∧ o'.comp = o.comp ∧
    o'.vimNormal = o.vimNormal ∧ (o.gate = false → o'.kick = o.kick) := by
  unfold readRune at h
  split at h
  · cases h
  · dsimp only at h
    split at h
    · rename_i hi
      cases h
      refine ⟨by simp [hi], by simp [hi], by rw [hi]; rfl, rfl, rfl, rfl, rfl, rfl, rfl, rfl, ?_⟩
      intro hg; show (if o.gate = true then false else o.kick) = _; rw [hg]; rfl
    · rename_i hi
      cases h
      refine ⟨by simp [hi], by simp [hi], by rw [hi]; rfl, rfl, rfl, rfl, rfl, rfl, rfl, rfl, ?_⟩
      intro hg; show (if o.gate = true then false else o.kick) = _; rw [hg]; rfl

/-- The outcome of a vim command as far as the terminal is concerned: it has read its argument, if it takes one, and
nothing else; and it has produced no result. -/
structure VimIo (r : Rune) (o : Op) (o' : Op) : Prop where
  gate : o'.gate = if takesArgument r then stopKey (o.inp.headD 0) else o.gate
  inp : o'.inp = if takesArgument r then o.inp.tail else o.inp
  events : o'.events = o.events
  stopped : o'.stopped = o.stopped

theorem VimIo.of_inner {r : Rune} {o o' : Op} (hr : takesArgument r = false) (h : InnerV o o') : VimIo r o o' := by
  obtain ⟨_, _, rfl⟩ := h
  exact ⟨by rw [hr]; rfl, by rw [hr]; rfl, rfl, rfl⟩

theorem VimIo.of_read {r x : Rune} {o o1 o' : Op} (hr : takesArgument r = true) (h1 : o.readRune = .ok (x, o1))
    (h : InnerV o1 o') : VimIo r o o' := by
  obtain ⟨_, _, rfl⟩ := h
  obtain ⟨_, e2, e3, e4, e5, _⟩ := readRune_gate h1
  exact ⟨by rw [hr]; exact e3, by rw [hr]; exact e2, e4, e5⟩

theorem vimMovement_io {r r' : Rune} {o o' : Op} (h : vimMovement c r o = .ok (some (r', o'))) :
    VimIo r o o' ∧ stopKey r' = false := by
  unfold vimMovement at h
  dsimp only at h
  have na : ∀ {a : Rune}, takesArgument a = false → r = a → takesArgument r = false := by intro a ha e; rw [e, ha]
  have ya : ∀ {a : Rune}, takesArgument a = true → r = a → takesArgument r = true := by intro a ha e; rw [e, ha]
  have ed : ∀ {k : Cmd} {o1 : Op}, (do let o ← o1.edit c k; Except.ok (some ((0 : Rune), o))) = Except.ok (some (r', o')) →
      InnerV o1 o' ∧ stopKey r' = false := by
    intro k o1 h
    obtain ⟨o2, h2, h⟩ := R.bind_inv h
    cases h
    exact ⟨edit_innerV h2, by decide⟩
  by_cases k1 : r = 104
  · rw [if_pos k1] at h; cases h; exact ⟨.of_inner (na (by decide) k1) ⟨_, _, rfl⟩, by decide⟩
  rw [if_neg k1] at h
  by_cases k2 : r = 106
  · rw [if_pos k2] at h; cases h; exact ⟨.of_inner (na (by decide) k2) ⟨_, _, rfl⟩, by decide⟩
  rw [if_neg k2] at h
  by_cases k3 : r = 107
  · rw [if_pos k3] at h; cases h; exact ⟨.of_inner (na (by decide) k3) ⟨_, _, rfl⟩, by decide⟩
  rw [if_neg k3] at h
  by_cases k4 : r = 108
  · rw [if_pos k4] at h; cases h; exact ⟨.of_inner (na (by decide) k4) ⟨_, _, rfl⟩, by decide⟩
  rw [if_neg k4] at h
  by_cases k5 : r = 48 ∨ r = 94
  · rw [if_pos k5] at h
    obtain ⟨a, b⟩ := ed h
    exact ⟨.of_inner (k5.elim (na (by decide)) (na (by decide))) a, b⟩
  rw [if_neg k5] at h
  by_cases k6 : r = 36
  · rw [if_pos k6] at h
    obtain ⟨a, b⟩ := ed h
    exact ⟨.of_inner (na (by decide) k6) a, b⟩
  rw [if_neg k6] at h
  by_cases k7 : r = 120
  · rw [if_pos k7] at h
    obtain ⟨o1, h1, h⟩ := R.bind_inv h
    obtain ⟨_, _, rfl⟩ := edit_innerV h1
    split at h
    · obtain ⟨⟨_, _, rfl⟩, b⟩ := ed h
      exact ⟨.of_inner (na (by decide) k7) ⟨_, _, rfl⟩, b⟩
    · cases h
      exact ⟨.of_inner (na (by decide) k7) ⟨_, _, rfl⟩, by decide⟩
  rw [if_neg k7] at h
  by_cases k8 : r = 114
  · rw [if_pos k8] at h
    obtain ⟨⟨x, o1⟩, h1, h⟩ := R.bind_inv h
    obtain ⟨a, b⟩ := ed h
    exact ⟨.of_read (ya (by decide) k8) h1 a, b⟩
  rw [if_neg k8] at h
  by_cases k9 : r = 100
  · rw [if_pos k9] at h
    obtain ⟨⟨x, o1⟩, h1, h⟩ := R.bind_inv h
    have fin : InnerV o1 o' ∧ stopKey r' = false := by
      dsimp only at h
      split at h
      · exact ed h
      · split at h
        · exact ed h
        · split at h
          · exact ed h
          · split at h
            · exact ed h
            · cases h; exact ⟨⟨_, _, rfl⟩, by decide⟩
    exact ⟨.of_read (ya (by decide) k9) h1 fin.1, fin.2⟩
  rw [if_neg k9] at h
  by_cases k10 : r = 112
  · rw [if_pos k10] at h
    obtain ⟨a, b⟩ := ed h
    exact ⟨.of_inner (na (by decide) k10) a, b⟩
  rw [if_neg k10] at h
  by_cases k11 : r = 98 ∨ r = 66
  · rw [if_pos k11] at h
    obtain ⟨a, b⟩ := ed h
    exact ⟨.of_inner (k11.elim (na (by decide)) (na (by decide))) a, b⟩
  rw [if_neg k11] at h
  by_cases k12 : r = 119 ∨ r = 87
  · rw [if_pos k12] at h
    obtain ⟨a, b⟩ := ed h
    exact ⟨.of_inner (k12.elim (na (by decide)) (na (by decide))) a, b⟩
  rw [if_neg k12] at h
  by_cases k13 : r = 101 ∨ r = 69
  · rw [if_pos k13] at h
    obtain ⟨a, b⟩ := ed h
    exact ⟨.of_inner (k13.elim (na (by decide)) (na (by decide))) a, b⟩
  rw [if_neg k13] at h
  by_cases k14 : r = 102 ∨ r = 70 ∨ r = 116 ∨ r = 84
  · rw [if_pos k14] at h
    obtain ⟨⟨x, o1⟩, h1, h⟩ := R.bind_inv h
    have fin : InnerV o1 o' ∧ stopKey r' = false := by
      dsimp only at h
      split at h
      · cases h; exact ⟨⟨_, _, rfl⟩, by decide⟩
      · exact ed h
    refine ⟨.of_read ?_ h1 fin.1, fin.2⟩
    rcases k14 with k | k | k | k
    · exact ya (by decide) k
    · exact ya (by decide) k
    · exact ya (by decide) k
    · exact ya (by decide) k
  rw [if_neg k14] at h
  cases h

theorem vimEnterInsert_io {r r' : Rune} {o o' : Op} (h : vimEnterInsert c r o = .ok (some (r', o'))) :
    VimIo r o o' ∧ r' = 0 := by
  unfold vimEnterInsert at h
  dsimp only at h
  have na : ∀ {a : Rune}, takesArgument a = false → r = a → takesArgument r = false := by intro a ha e; rw [e, ha]
  have ya : ∀ {a : Rune}, takesArgument a = true → r = a → takesArgument r = true := by intro a ha e; rw [e, ha]
  have ed : ∀ {k : Cmd} {o1 : Op}, (do let o ← o1.edit c k; Except.ok (some ((0 : Rune), { o with vimNormal := false }))) =
      Except.ok (some (r', o')) → InnerV o1 o' ∧ r' = 0 := by
    intro k o1 h
    obtain ⟨o2, h2, h⟩ := R.bind_inv h
    obtain ⟨_, _, rfl⟩ := edit_innerV h2
    cases h
    exact ⟨⟨_, _, rfl⟩, rfl⟩
  by_cases k1 : r = 105
  · rw [if_pos k1] at h; cases h; exact ⟨.of_inner (na (by decide) k1) ⟨_, _, rfl⟩, rfl⟩
  rw [if_neg k1] at h
  by_cases k2 : r = 73
  · rw [if_pos k2] at h
    obtain ⟨a, b⟩ := ed h
    exact ⟨.of_inner (na (by decide) k2) a, b⟩
  rw [if_neg k2] at h
  by_cases k3 : r = 97
  · rw [if_pos k3] at h
    obtain ⟨a, b⟩ := ed h
    exact ⟨.of_inner (na (by decide) k3) a, b⟩
  rw [if_neg k3] at h
  by_cases k4 : r = 65
  · rw [if_pos k4] at h
    obtain ⟨a, b⟩ := ed h
    exact ⟨.of_inner (na (by decide) k4) a, b⟩
  rw [if_neg k4] at h
  by_cases k5 : r = 115
  · rw [if_pos k5] at h
    obtain ⟨a, b⟩ := ed h
    exact ⟨.of_inner (na (by decide) k5) a, b⟩
  rw [if_neg k5] at h
  by_cases k6 : r = 83
  · rw [if_pos k6] at h
    obtain ⟨a, b⟩ := ed h
    exact ⟨.of_inner (na (by decide) k6) a, b⟩
  rw [if_neg k6] at h
  by_cases k7 : r = 99
  · rw [if_pos k7] at h
    obtain ⟨⟨x, o1⟩, h1, h⟩ := R.bind_inv h
    have fin : InnerV o1 o' ∧ r' = 0 := by
      dsimp only at h
      split at h
      · exact ed h
      · split at h
        · exact ed h
        · split at h
          · exact ed h
          · split at h
            · exact ed h
            · cases h; exact ⟨⟨_, _, rfl⟩, rfl⟩
    exact ⟨.of_read (ya (by decide) k7) h1 fin.1, fin.2⟩
  rw [if_neg k7] at h
  cases h

/-- The keys vim's normal mode does not handle do nothing. -/
theorem vimMovement_arg {r : Rune} {o : Op} (h : vimMovement c r o = .ok none) (h' : vimEnterInsert c r o = .ok none) :
    takesArgument r = false := by
  cases ha : takesArgument r with
  | false => rfl
  | true =>
    exfalso
    have : r = 114 ∨ r = 100 ∨ r = 102 ∨ r = 70 ∨ r = 116 ∨ r = 84 ∨ r = 99 := by
      simpa [takesArgument, or_assoc] using ha
    have ed : ∀ {k : Cmd} {o1 : Op}, (do let o ← o1.edit c k; Except.ok (some ((0 : Rune), o))) = Except.ok none → False := by
      intro k o1 h
      obtain ⟨o2, h2, h⟩ := R.bind_inv h
      cases h
    have ed' : ∀ {k : Cmd} {o1 : Op}, (do let o ← o1.edit c k; Except.ok (some ((0 : Rune), { o with vimNormal := false }))) =
        Except.ok none → False := by
      intro k o1 h
      obtain ⟨o2, h2, h⟩ := R.bind_inv h
      cases h
    have ft : ∀ a : Rune, (a = 102 ∨ a = 70 ∨ a = 116 ∨ a = 84) → vimMovement c a o = .ok none → False := by
      intro a k h
      unfold vimMovement at h
      dsimp only at h
      have nn : ¬ a = 104 ∧ ¬ a = 106 ∧ ¬ a = 107 ∧ ¬ a = 108 ∧ ¬ (a = 48 ∨ a = 94) ∧ ¬ a = 36 ∧ ¬ a = 120 ∧ ¬ a = 114 ∧
          ¬ a = 100 ∧ ¬ a = 112 ∧ ¬ (a = 98 ∨ a = 66) ∧ ¬ (a = 119 ∨ a = 87) ∧ ¬ (a = 101 ∨ a = 69) := by omega
      obtain ⟨n1, n2, n3, n4, n5, n6, n7, n8, n9, n10, n11, n12, n13⟩ := nn
      rw [if_neg n1, if_neg n2, if_neg n3, if_neg n4, if_neg n5, if_neg n6, if_neg n7, if_neg n8, if_neg n9, if_neg n10,
        if_neg n11, if_neg n12, if_neg n13, if_pos k] at h
      obtain ⟨⟨x, o1⟩, h1, h⟩ := R.bind_inv h
      dsimp only at h
      split at h
      · cases h
      · exact ed h
    rcases this with e | e | e | e | e | e | e
    · subst e
      obtain ⟨⟨x, o1⟩, h1, h⟩ := R.bind_inv (show (o.readRune >>= _) = _ from h)
      exact ed h
    · subst e
      obtain ⟨⟨x, o1⟩, h1, h⟩ := R.bind_inv (show (o.readRune >>= _) = _ from h)
      dsimp only at h
      split at h
      · exact ed h
      · split at h
        · exact ed h
        · split at h
          · exact ed h
          · split at h
            · exact ed h
            · cases h
    · exact ft r (.inl e) h
    · exact ft r (.inr (.inl e)) h
    · exact ft r (.inr (.inr (.inl e))) h
    · exact ft r (.inr (.inr (.inr e))) h
    · subst e
      obtain ⟨⟨x, o1⟩, h1, h'⟩ := R.bind_inv (show (o.readRune >>= _) = _ from h')
      dsimp only at h'
      split at h'
      · exact ed' h'
      · split at h'
        · exact ed' h'
        · split at h'
          · exact ed' h'
          · split at h'
            · exact ed' h'
            · cases h'

/-- A key in vim's normal mode: Enter and Ctrl-C are passed on; other keys read their argument only. -/
theorem vimNormalKey_io {r r' : Rune} {o o' : Op} (h : vimNormalKey c r o = .ok (r', o')) :
    ((r = CharEnter ∨ r = CharInterrupt) ∧ r' = r ∧ o' = { o with vimNormal := false }) ∨
    ((¬ (r = CharEnter ∨ r = CharInterrupt)) ∧ VimIo r o o' ∧ stopKey r' = false) := by
  unfold vimNormalKey at h
  by_cases k : r = CharEnter ∨ r = CharInterrupt
  · rw [if_pos k] at h; cases h; exact .inl ⟨k, rfl, rfl⟩
  · rw [if_neg k] at h
    right
    refine ⟨k, ?_⟩
    obtain ⟨x, h1, h⟩ := R.bind_inv h
    cases x with
    | some x => cases h; exact vimMovement_io h1
    | none =>
      dsimp only at h
      obtain ⟨y, h2, h⟩ := R.bind_inv h
      cases y with
      | some y =>
        cases h
        obtain ⟨a, b⟩ := vimEnterInsert_io h2
        exact ⟨a, by rw [b]; decide⟩
      | none =>
        cases h
        exact ⟨.of_inner (vimMovement_arg h1 h2) ⟨_, _, rfl⟩, by decide⟩

/-! ### One iteration -/

/-- There is a new result. -/
def NewResult (o o' : Op) : Prop := o.events.length < o'.events.length

/-- Nothing is lost: keys are taken from the front of the input, and either the loop and the terminal go on or there is a new
result. -/
structure GoesOn (o o' : Op) : Prop where
  inp : o'.inp <:+ o.inp
  alive : (o'.Live ∧ o'.stopped = o.stopped) ∨ NewResult o o'

theorem GoesOn.of_gate {o o' : Op} (h : Io o o') (hg : o.gate = false) : GoesOn o o' :=
  ⟨by rw [h.inp]; exact List.suffix_refl _, .inl ⟨.inl (h.gate.trans hg), h.stopped⟩⟩

theorem GoesOn.of_answered {o o' : Op} (h : Io o o') (ha : Answered o o') : GoesOn o o' :=
  ⟨by rw [h.inp]; exact List.suffix_refl _, ha.imp (fun a => ⟨.inr a, h.stopped⟩) id⟩

theorem goesOn_of_io {r : Rune} {o o' : Op} (hg : o.gate = stopKey r ∨ o.gate = false) (h : Io o o')
    (ha : stopKey r = true → Answered o o') : GoesOn o o' := by
  rcases hg with hg | hg
  · cases hr : stopKey r with
    | false => exact .of_gate h (by rw [hg, hr])
    | true => exact .of_answered h (ha hr)
  · exact .of_gate h hg

theorem viaVim_goesOn {r : Rune} {o o' : Op} (hg : o.gate = stopKey r ∨ o.gate = false)
    (hv : Emacs c o ∨ ¬ Stalls r (o.inp.headD 0)) (h : o.viaVim c r = .ok o') : GoesOn o o' := by
  have zero : ∀ b, stopKey r = false → GoesOn o { o with vimNormal := b } := fun b hr =>
    .of_gate ⟨rfl, rfl, rfl, id, [], by simp⟩ (hg.elim (fun a => a.trans hr) id)
  have cast : ∀ b, GoesOn { o with vimNormal := b } o' → GoesOn o o' := fun b a => ⟨a.inp, a.alive⟩
  unfold viaVim at h
  by_cases k : c.vim = true
  · rw [if_pos k] at h
    obtain ⟨⟨r', o1⟩, h1, h⟩ := R.bind_inv h
    unfold handleVim at h1
    by_cases kn : o.vimNormal = true
    · rw [if_pos kn] at h1
      rcases vimNormalKey_io h1 with ⟨_, rfl, rfl⟩ | ⟨hk, hio, hs⟩
      · dsimp only at h
        by_cases h0 : r' = 0
        · rw [if_pos h0] at h
          cases h
          exact zero false (by rw [h0]; decide)
        · rw [if_neg h0] at h
          obtain ⟨a, b⟩ := dispatch_io h
          exact cast false (goesOn_of_io (o := { o with vimNormal := false }) hg a b)
      · have hns : ¬ Stalls r (o.inp.headD 0) := by
          rcases hv with hv | hv
          · rcases hv with hv | hv
            · rw [k] at hv; cases hv
            · rw [kn] at hv; cases hv
          · exact hv
        have hg1 : o1.gate = false := by
          rw [hio.gate]
          by_cases ht : takesArgument r = true
          · rw [if_pos ht]
            cases hst : stopKey (o.inp.headD 0) with
            | false => rfl
            | true => exact (hns (.inr (.inr ⟨ht, hst⟩))).elim
          · rw [if_neg ht]
            rcases hg with hg | hg
            · rw [hg]
              cases hst : stopKey r with
              | false => rfl
              | true =>
                have : r = CharInterrupt ∨ r = CharEnter ∨ r = CharCtrlJ ∨ r = CharDelete := by
                  simpa [stopKey, or_assoc] using hst
                rcases this with e | e | e | e
                · exact (hk (.inr e)).elim
                · exact (hk (.inl e)).elim
                · exact (hns (.inl e)).elim
                · exact (hns (.inr (.inl e))).elim
            · exact hg
        have hin : o1.inp <:+ o.inp := by
          rw [hio.inp]
          split
          · exact List.tail_suffix _
          · exact List.suffix_refl _
        dsimp only at h
        split at h
        · cases h; exact ⟨hin, .inl ⟨.inl hg1, hio.stopped⟩⟩
        · obtain ⟨a, _⟩ := dispatch_io h
          exact ⟨by rw [a.inp]; exact hin, .inl ⟨.inl (by rw [a.gate, hg1]), a.stopped.trans hio.stopped⟩⟩
    · rw [if_neg kn] at h1
      by_cases ke : r = CharEsc
      · rw [if_pos ke] at h1
        cases h1
        dsimp only at h
        rw [if_pos rfl] at h
        cases h
        exact zero true (by rw [ke]; decide)
      · rw [if_neg ke] at h1
        cases h1
        dsimp only at h
        by_cases h0 : r = 0
        · rw [if_pos h0] at h
          cases h
          exact zero o.vimNormal (by rw [h0]; decide)
        · rw [if_neg h0] at h
          obtain ⟨a, b⟩ := dispatch_io h
          exact goesOn_of_io hg a b
  · rw [if_neg k] at h
    obtain ⟨a, b⟩ := dispatch_io h
    exact goesOn_of_io hg a b

/-- The keys that stay in the menu are not keys the terminal waits after. -/
theorem selectKey_stop {U : UTables} {d : DCfg} {r : Rune} {cm cm' : Comp} {rb rb' : RB} {next : Bool}
    (h : Comp.selectKey U d r cm rb = .ok (next, cm', rb')) (hs : stopKey r = true) : next = false := by
  have : r = CharInterrupt ∨ r = CharEnter ∨ r = CharCtrlJ ∨ r = CharDelete := by
    simpa [stopKey, or_assoc] using hs
  unfold Comp.selectKey at h
  rcases this with e | e | e | e
  · subst e
    rw [if_neg (by decide), if_neg (by decide), if_neg (by decide), if_neg (by decide), if_neg (by decide),
      if_pos (by decide)] at h
    cases h; rfl
  · subst e
    rw [if_pos (by decide)] at h
    obtain ⟨_, _, h⟩ := R.bind_inv h
    obtain ⟨_, _, h⟩ := R.bind_inv h
    cases h; rfl
  · subst e
    rw [if_pos (by decide)] at h
    obtain ⟨_, _, h⟩ := R.bind_inv h
    obtain ⟨_, _, h⟩ := R.bind_inv h
    cases h; rfl
  · subst e
    rw [if_neg (by decide), if_neg (by decide), if_neg (by decide), if_neg (by decide), if_neg (by decide),
      if_neg (by decide), if_neg (by decide), if_neg (by decide), if_neg (by decide)] at h
    cases h; rfl

theorem handleSelect_stop {U : UTables} {d : DCfg} {r : Rune} {cm cm' : Comp} {rb rb' : RB}
    (h : Comp.handleSelect U d r cm rb = .ok (true, cm', rb')) : stopKey r = false := by
  cases hs : stopKey r with
  | false => rfl
  | true =>
    obtain ⟨⟨next, c1, r1⟩, h2, h3⟩ := R.bind_inv h
    rw [selectKey_stop h2 hs] at h3
    cases h3

theorem viaMenu_goesOn {r : Rune} {o o' : Op} (hg : o.gate = stopKey r ∨ o.gate = false)
    (hv : Emacs c o ∨ ¬ Stalls r (o.inp.headD 0)) (h : o.viaMenu c r = .ok o') : GoesOn o o' := by
  unfold viaMenu at h
  by_cases k : o.comp.inSelect = true
  · rw [if_pos k] at h
    obtain ⟨⟨keep, cm, rb⟩, h1, h⟩ := R.bind_inv h
    dsimp only at h
    by_cases hk : keep = true
    · rw [if_pos hk] at h
      rw [hk] at h1
      cases h
      exact .of_gate (Inner.io ⟨_, _, _, _, rfl⟩) (hg.elim (fun a => a.trans (handleSelect_stop h1)) id)
    · rw [if_neg hk] at h
      obtain ⟨o1, h2, h⟩ := R.bind_inv h
      have hi : Inner o o1 := (Inner.mk o _ _ _ _).trans (refreshNil_inner h2)
      by_cases k1 : r = CharEnter ∨ r = CharCtrlJ
      · rw [if_pos k1] at h; cases h
        obtain ⟨a1, a2, a3, a4, rfl⟩ := hi
        obtain ⟨a, b⟩ := io_kick (o := o) (o1 := kickRead (updateHistory c { o with rb := a1, hist := a2, search := a3, comp := a4 }))
          ⟨_, _, _, _, rfl⟩
        exact .of_answered a b
      rw [if_neg k1] at h
      by_cases k2 : r = CharInterrupt
      · rw [if_pos k2] at h; cases h
        obtain ⟨a1, a2, a3, a4, rfl⟩ := hi
        obtain ⟨a, b⟩ := io_kick (o := o) (o1 := kickRead { o with rb := a1, hist := a2, search := a3, comp := a4 })
          ⟨_, _, _, _, rfl⟩
        exact .of_answered a b
      rw [if_neg k2] at h
      by_cases k3 : r = CharBell
      · rw [if_pos k3] at h; cases h
        rw [k3] at hg
        exact .of_gate hi.io (hg.elim (fun a => a.trans (by decide)) id)
      rw [if_neg k3] at h
      obtain ⟨a1, a2, a3, a4, rfl⟩ := hi
      have := viaVim_goesOn (o := { o with rb := a1, hist := a2, search := a3, comp := a4 }) hg hv h
      exact ⟨this.inp, this.alive⟩
  · rw [if_neg k] at h
    exact viaVim_goesOn hg hv h

theorem iter_goesOn (hf : KeepsStops c) {o o' : Op}
    (hv : Emacs c o ∨ ∀ r, filtered c (o.inp.headD 0) = some r → ¬ Stalls r (o.inp.tail.headD 0))
    (h : o.iter c = .ok o') : GoesOn o o' := by
  obtain ⟨⟨r, o1⟩, h1, h⟩ := R.bind_inv h
  obtain ⟨e1, e2, e3, e4, e5, e6, e7, e8, e9, e10, _⟩ := readRune_gate h1
  have hem : Emacs c o → Emacs c o1 := fun a => a.imp_right fun a => e10.trans a
  have go : GoesOn o1 o' → GoesOn o o' := fun a =>
    ⟨a.inp.trans (by rw [e2]; exact List.tail_suffix _), a.alive.imp (fun x => ⟨x.1, x.2.trans e5⟩)
      fun a => by unfold NewResult at *; rw [← e4]; exact a⟩
  have hg : o1.gate = stopKey r := by rw [e3, e1]
  have hh : ∀ r', (stopKey r = true → r' = 0 ∨ stopKey r' = true) → (Emacs c o1 ∨ ¬ Stalls r' (o1.inp.headD 0)) →
      o1.handle c r' = .ok o' → GoesOn o1 o' := by
    intro r' hk hv h
    unfold handle at h
    by_cases h0 : r' = 0
    · rw [if_pos h0] at h
      split at h
      · obtain ⟨o2, h2, h⟩ := R.bind_inv h
        obtain ⟨_, _, _, _, rfl⟩ := clean_inner h2
        cases h
        exact ⟨List.suffix_refl _, .inr (by simp [NewResult])⟩
      · refine viaMenu_goesOn (r := CharEnter) ?_ (.inr ?_) h
        · cases o1.gate with
          | false => exact .inr rfl
          | true => exact .inl rfl
        · rintro (a | a | ⟨a, _⟩) <;> exact absurd a (by decide)
    · rw [if_neg h0] at h
      refine viaMenu_goesOn ?_ hv h
      cases hs : stopKey r with
      | false => right; rw [hg, hs]
      | true => left; rw [hg, hs, ((hk hs).resolve_left h0)]
  apply go
  unfold accept at h
  cases hc : c.filter with
  | none =>
    rw [hc] at h
    refine hh r (fun a => .inr a) (hv.imp hem fun a => ?_) h
    rw [e2]
    exact a r (by unfold filtered; rw [hc, e1])
  | some f =>
    rw [hc] at h
    dsimp only at h
    rcases hfr : f r with ⟨r', b⟩
    rw [hfr] at h
    cases b with
    | false =>
      dsimp only at h
      obtain ⟨a, b⟩ := io_kick (refreshNil_inner h)
      exact .of_answered a b
    | true =>
      dsimp only at h
      refine hh r' (fun a => hf f hc r r' hfr a) (hv.imp hem fun a => ?_) h
      rw [e2]
      exact a r' (by unfold filtered; rw [hc, ← e1]; dsimp only; rw [hfr]; rfl)

/-! ### Reading itself -/

theorem readRune_nb {o : Op} (h : o.Live) : NB o.readRune := by
  unfold readRune
  rw [if_neg (by rcases h with h | h <;> simp [h])]
  dsimp only
  split <;> exact NB.ok

theorem vimNormalKey_nb {r : Rune} {o : Op} (h : takesArgument r = true → o.gate = false) : NB (vimNormalKey c r o) := by
  unfold vimNormalKey
  apply NB.ite NB.ok
  have hr : takesArgument r = true → NB o.readRune := fun a => readRune_nb (.inl (h a))
  have ft : (r = 102 ∨ r = 70 ∨ r = 116 ∨ r = 84) → takesArgument r = true := by
    rintro (e | e | e | e) <;> rw [e] <;> decide
  apply NB.bind
  · unfold vimMovement
    dsimp only
    by_cases k1 : r = 114
    · have := hr (by rw [k1]; decide)
      subst k1
      simp (config := { decide := true }) only [if_false, if_true]
      nb
    by_cases k2 : r = 100
    · have := hr (by rw [k2]; decide)
      subst k2
      simp (config := { decide := true }) only [if_false, if_true]
      nb
    rw [if_neg k1, if_neg k2]
    by_cases k3 : r = 102 ∨ r = 70 ∨ r = 116 ∨ r = 84
    · have := hr (ft k3)
      rw [if_pos k3]
      nb
    · rw [if_neg k3]
      nb
  · intro x
    cases x with
    | some x => exact NB.ok
    | none =>
      dsimp only
      apply NB.bind
      · unfold vimEnterInsert
        dsimp only
        by_cases k1 : r = 99
        · have := hr (by rw [k1]; decide)
          rw [if_pos k1]
          nb
        · rw [if_neg k1]
          nb
      · intro y
        cases y <;> exact NB.ok

theorem viaVim_nb {r : Rune} {o : Op} (h : takesArgument r = true → o.gate = false) : NB (o.viaVim c r) := by
  unfold viaVim
  apply NB.ite
  · apply NB.bind
    · unfold handleVim
      exact NB.ite (vimNormalKey_nb h) (NB.ite NB.ok NB.ok)
    · rintro ⟨r', o'⟩
      exact NB.ite NB.ok dispatch_nb
  · exact dispatch_nb

theorem viaMenu_nb {r : Rune} {o : Op} (h : takesArgument r = true → o.gate = false) : NB (o.viaMenu c r) := by
  unfold viaMenu
  apply NB.ite
  · apply NB.bind Comp.handleSelect_nb
    rintro ⟨keep, cm, rb⟩
    apply NB.ite NB.ok
    apply NB.bind_ok refreshNil_nb
    intro o1 h1
    have hi : Inner o o1 := (Inner.mk o _ _ _ _).trans (refreshNil_inner h1)
    apply NB.ite NB.ok
    apply NB.ite NB.ok
    apply NB.ite NB.ok
    exact viaVim_nb fun a => hi.io.gate.trans (h a)
  · exact viaVim_nb h

theorem takesArgument_stop {r : Rune} (h : takesArgument r = true) : stopKey r = false ∧ r ≠ 0 := by
  have : r = 114 ∨ r = 100 ∨ r = 102 ∨ r = 70 ∨ r = 116 ∨ r = 84 ∨ r = 99 := by
    simpa [takesArgument, or_assoc] using h
  rcases this with e | e | e | e | e | e | e <;> rw [e] <;> decide

/-- An iteration that starts while the terminal is reading does not wait for ever. -/
theorem iter_nb (hf : KeepsStops c) {o : Op} (h : o.Live) : NB (o.iter c) := by
  unfold iter
  apply NB.bind_ok (readRune_nb h)
  rintro ⟨r, o1⟩ h1
  obtain ⟨e1, e2, e3, _⟩ := readRune_gate h1
  have hg : o1.gate = stopKey r := by rw [e3, e1]
  have hh : ∀ r', (stopKey r = true → r' = 0 ∨ stopKey r' = true) → NB (o1.handle c r') := by
    intro r' hk
    unfold handle
    apply NB.ite
    · apply NB.ite
      · apply NB.bind clean_nb
        intro _; exact NB.ok
      · exact viaMenu_nb fun a => absurd a (by decide)
    · apply viaMenu_nb
      intro a
      obtain ⟨s1, s2⟩ := takesArgument_stop a
      cases hs : stopKey r with
      | false => rw [hg, hs]
      | true => rcases hk hs with e | e
                · exact (s2 e).elim
                · rw [s1] at e; cases e
  dsimp only
  unfold accept
  cases hc : c.filter with
  | none => exact hh r fun a => .inr a
  | some f =>
    dsimp only
    rcases hfr : f r with ⟨r', b⟩
    cases b with
    | false => exact refreshNil_nb
    | true => exact hh r' fun a => hf f hc r r' hfr a

end Op
end RL
