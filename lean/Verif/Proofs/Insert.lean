import Verif.Proofs.Live
/-! Insert mode is emacs mode (C41). -/

namespace RL

theorem R.bind_congr' {α β} {x : R α} {f g : α → R β} (h : ∀ a, x = .ok a → f a = g a) : x >>= f = x >>= g := by
  cases x with
  | error => rfl
  | ok a => exact h a rfl

namespace Op
variable {c : OCfg}

/-! ### The key switch does not change the vim mode -/

theorem Inner.mode {o o' : Op} (h : Inner o o') : o'.vimNormal = o.vimNormal := by
  obtain ⟨_, _, _, _, rfl⟩ := h; rfl

theorem keyInterrupt_mode {o : Op} {k} (h : keyInterrupt c o = .ok k) : k.op.vimNormal = o.vimNormal := by
  by_cases h1 : o.search.inMode = true
  · unfold keyInterrupt at h
    rw [if_pos h1] at h
    obtain ⟨o1, h2, h⟩ := R.bind_inv h
    cases h
    exact (exitSearch_inner h2).mode
  · by_cases h2 : o.comp.inComplete = true
    · unfold keyInterrupt at h
      rw [if_neg h1, if_pos h2] at h
      obtain ⟨o1, h2, h⟩ := R.bind_inv h
      cases h
      exact ((Inner.mk o.kickRead _ _ _ _).trans (refreshNil_inner h2)).mode
    · obtain ⟨_, _, _, _, _, _, _, _, _, e, _⟩ := keyInterrupt_ok h (by simpa using h1) (by simpa using h2)
      exact e

theorem keyDelete_mode {o : Op} {k} (h : keyDelete c o = .ok k) : k.op.vimNormal = o.vimNormal := by
  by_cases hn : o.rb.buf ≠ [] ∨ o.search.inMode = true ∨ o.comp.inComplete = true
  · obtain ⟨_, _, _, _, _, _, _, _, _, e, _⟩ := keyDelete_del h hn
    exact e
  · obtain ⟨n1, hn⟩ := not_or.1 hn
    obtain ⟨n2, n3⟩ := not_or.1 hn
    obtain ⟨_, _, _, _, _, _, _, _, _, e, _⟩ := keyDelete_eof h (Classical.not_not.1 n1) (by simpa using n2) (by simpa using n3)
    exact e

theorem key_mode {r : Rune} {o : Op} {k} (h : o.key c r = .ok k) : k.op.vimNormal = o.vimNormal := by
  unfold key at h
  cases hs : simpleKey r with
  | some cmd =>
    rw [hs] at h
    dsimp only at h
    obtain ⟨o1, h1, h⟩ := R.bind_inv h
    cases h
    exact (edit_inner h1).mode
  | none =>
    rw [hs] at h
    dsimp only at h
    by_cases k1 : r = CharBell
    · rw [if_pos k1] at h; exact (keyBell_inner h).mode
    rw [if_neg k1] at h
    by_cases k2 : r = CharTab
    · rw [if_pos k2] at h; exact (keyTab_inner h).mode
    rw [if_neg k2] at h
    by_cases k3 : r = CharBckSearch
    · rw [if_pos k3] at h; exact (keySearch_inner h).mode
    rw [if_neg k3] at h
    by_cases k4 : r = CharFwdSearch
    · rw [if_pos k4] at h; exact (keySearch_inner h).mode
    rw [if_neg k4] at h
    by_cases k5 : r = CharBackspace ∨ r = CharCtrlH
    · rw [if_pos k5] at h; exact (keyBackspace_inner h).mode
    rw [if_neg k5] at h
    by_cases k6 : r = CharCtrlZ
    · rw [if_pos k6] at h
      obtain ⟨o1, h1, h⟩ := R.bind_inv h
      obtain ⟨o2, h2, h⟩ := R.bind_inv h
      cases h
      exact ((clean_inner h1).trans (refresh_inner h2)).mode
    rw [if_neg k6] at h
    by_cases k7 : r = CharCtrlL
    · rw [if_pos k7] at h
      obtain ⟨o1, h1, h⟩ := R.bind_inv h
      cases h
      exact ((Inner.mk o _ _ _ _).trans (refresh_inner h1)).mode
    rw [if_neg k7] at h
    by_cases k8 : r = CharEnter ∨ r = CharCtrlJ
    · rw [if_pos k8] at h
      obtain ⟨_, _, _, _, _, _, _, _, _, e, _⟩ := keyEnter_ok h
      exact e
    rw [if_neg k8] at h
    by_cases k9 : r = CharPrev
    · rw [if_pos k9] at h; exact (keyPrev_inner h).mode
    rw [if_neg k9] at h
    by_cases k10 : r = CharNext
    · rw [if_pos k10] at h; exact (keyNext_inner h).mode
    rw [if_neg k10] at h
    by_cases k11 : r = CharDelete
    · rw [if_pos k11] at h; exact keyDelete_mode h
    rw [if_neg k11] at h
    by_cases k12 : r = CharInterrupt
    · rw [if_pos k12] at h; exact keyInterrupt_mode h
    rw [if_neg k12] at h
    exact (keyText_inner h).mode

theorem dispatch_mode {r : Rune} {o o' : Op} (h : o.dispatch c r = .ok o') : o'.vimNormal = o.vimNormal := by
  obtain ⟨k1, h1, h⟩ := R.bind_inv h
  obtain ⟨k2, h2, h⟩ := R.bind_inv h
  exact ((listen_inner h2).trans (finish_inner h)).mode.trans (key_mode h1)

/-! ### Insert mode is emacs mode -/

/-- The same configuration without vim mode. -/
def _root_.RL.OCfg.emacs (c : OCfg) : OCfg := { c with vim := false }

theorem viaVim_insert {o : Op} (h : o.vimNormal = false) {r : Rune} (h0 : r ≠ 0) (hr : r ≠ CharEsc) : o.viaVim c r = o.viaVim c.emacs r := by
  unfold viaVim
  rw [if_neg (show ¬ c.emacs.vim = true by simp [OCfg.emacs])]
  split
  · unfold handleVim
    rw [if_neg (by simp [h]), if_neg hr, R.bind_ok]
    dsimp only
    rw [if_neg h0]
    rfl
  · rfl

theorem viaMenu_insert {o : Op} (h : o.vimNormal = false) {r : Rune} (h0 : r ≠ 0) (hr : r ≠ CharEsc) : o.viaMenu c r = o.viaMenu c.emacs r := by
  unfold viaMenu
  split
  · refine bind_congr fun x => ?_
    obtain ⟨b, cm, rb⟩ := x
    dsimp only
    split
    · rfl
    · show (_ >>= _) = (_ >>= _)
      refine R.bind_congr' fun o1 h1 => ?_
      have hm : o1.vimNormal = false := (refreshNil_inner h1).mode.trans h
      by_cases k1 : r = CharEnter ∨ r = CharCtrlJ
      · rw [if_pos k1, if_pos k1]; rfl
      rw [if_neg k1, if_neg k1]
      by_cases k2 : r = CharInterrupt
      · rw [if_pos k2, if_pos k2]
      rw [if_neg k2, if_neg k2]
      by_cases k3 : r = CharBell
      · rw [if_pos k3, if_pos k3]
      rw [if_neg k3, if_neg k3]
      exact viaVim_insert hm h0 hr
  · exact viaVim_insert h h0 hr

theorem handle_insert {o : Op} (h : o.vimNormal = false) {r : Rune} (hr : r ≠ CharEsc) : o.handle c r = o.handle c.emacs r := by
  unfold handle
  split
  · split
    · rfl
    · exact viaMenu_insert h (by decide) (by decide)
  · next h0 => exact viaMenu_insert h h0 hr

theorem accept_insert {o : Op} (h : o.vimNormal = false) {r : Rune} (hr : filtered c r ≠ some CharEsc) : o.accept c r = o.accept c.emacs r := by
  unfold accept
  unfold filtered at hr
  show (match c.filter with | none => _ | some f => _) = (match c.filter with | none => _ | some f => _)
  cases hf : c.filter with
  | none =>
    rw [hf] at hr
    exact handle_insert h fun e => hr (by rw [e]; try rfl)
  | some f =>
    rw [hf] at hr
    dsimp only at hr ⊢
    split
    · rfl
    · next r' hx =>
      rw [hx] at hr
      exact handle_insert h fun e => hr (by rw [e]; try rfl)

theorem viaVim_mode {o o' : Op} (h : o.vimNormal = false) {r : Rune} (hr : r ≠ CharEsc) (hv : o.viaVim c r = .ok o') :
    o'.vimNormal = false ∧ o'.inp = o.inp := by
  unfold viaVim at hv
  split at hv
  · unfold handleVim at hv
    rw [if_neg (by simp [h]), if_neg hr, R.bind_ok] at hv
    dsimp only at hv
    split at hv
    · cases hv; exact ⟨h, rfl⟩
    · exact ⟨(dispatch_mode hv).trans h, (dispatch_io hv).1.inp⟩
  · exact ⟨(dispatch_mode hv).trans h, (dispatch_io hv).1.inp⟩

theorem viaMenu_mode {o o' : Op} (h : o.vimNormal = false) {r : Rune} (hr : r ≠ CharEsc) (hv : o.viaMenu c r = .ok o') :
    o'.vimNormal = false ∧ o'.inp = o.inp := by
  unfold viaMenu at hv
  split at hv
  · obtain ⟨⟨b, cm, rb⟩, _, hv⟩ := R.bind_inv hv
    dsimp only at hv
    split at hv
    · cases hv; exact ⟨h, rfl⟩
    · obtain ⟨o1, h1, hv⟩ := R.bind_inv hv
      have hm : o1.vimNormal = false := (refreshNil_inner h1).mode.trans h
      have hi : o1.inp = o.inp := (refreshNil_inner h1).io.inp
      by_cases k1 : r = CharEnter ∨ r = CharCtrlJ
      · rw [if_pos k1] at hv; cases hv; exact ⟨hm, hi⟩
      rw [if_neg k1] at hv
      by_cases k2 : r = CharInterrupt
      · rw [if_pos k2] at hv; cases hv; exact ⟨hm, hi⟩
      rw [if_neg k2] at hv
      by_cases k3 : r = CharBell
      · rw [if_pos k3] at hv; cases hv; exact ⟨hm, hi⟩
      rw [if_neg k3] at hv
      obtain ⟨a, b⟩ := viaVim_mode hm hr hv
      exact ⟨a, b.trans hi⟩
  · exact viaVim_mode h hr hv

theorem accept_mode {o o' : Op} (h : o.vimNormal = false) {r : Rune} (hr : filtered c r ≠ some CharEsc) (hv : o.accept c r = .ok o') :
    o'.vimNormal = false ∧ o'.inp = o.inp := by
  have hh : ∀ {r}, r ≠ CharEsc → o.handle c r = .ok o' → o'.vimNormal = false ∧ o'.inp = o.inp := by
    intro r hr hv
    unfold handle at hv
    split at hv
    · split at hv
      · obtain ⟨o1, h1, hv⟩ := R.bind_inv hv
        cases hv
        exact ⟨(clean_inner h1).mode.trans h, (clean_inner h1).io.inp⟩
      · exact viaMenu_mode h (by decide) hv
    · exact viaMenu_mode h hr hv
  unfold accept at hv
  unfold filtered at hr
  cases hf : c.filter with
  | none =>
    rw [hf] at hr hv
    exact hh (fun e => hr (by rw [e]; try rfl)) hv
  | some f =>
    rw [hf] at hr hv
    dsimp only at hr hv
    split at hv
    · exact ⟨(refreshNil_inner hv).mode.trans h, (refreshNil_inner hv).io.inp⟩
    · next r' hx =>
      rw [hx] at hr
      exact hh (fun e => hr (by rw [e]; try rfl)) hv

/-- One iteration in insert mode. -/
theorem iter_insert {o : Op} (h : o.vimNormal = false) (hr : filtered c (o.inp.headD 0) ≠ some CharEsc) :
    o.iter c = o.iter c.emacs ∧ ∀ o', o.iter c = .ok o' → o'.vimNormal = false ∧ o'.inp = o.inp.tail := by
  unfold iter
  refine ⟨R.bind_congr' fun x hx => ?_, fun o' ho => ?_⟩
  · obtain ⟨r, o1⟩ := x
    obtain ⟨h1, _, _, _, _, _, _, _, _, h2, _⟩ := readRune_gate hx
    exact accept_insert (h2.trans h) (by rw [h1]; exact hr)
  · obtain ⟨⟨r, o1⟩, hx, ho⟩ := R.bind_inv ho
    obtain ⟨h1, h3, _, _, _, _, _, _, _, h2, _⟩ := readRune_gate hx
    obtain ⟨a, b⟩ := accept_mode (h2.trans h) (by rw [h1]; exact hr) ho
    exact ⟨a, b.trans h3⟩

theorem await_insert : ∀ (n : Nat) (o : Op), o.vimNormal = false → (∀ r ∈ 0 :: o.inp, filtered c r ≠ some CharEsc) →
    await c n o = await c.emacs n o
  | n, o, h, hr => by
    unfold await
    split
    · rfl
    · cases n with
      | zero => rfl
      | succ n =>
        dsimp only
        split
        · rfl
        · have hd : filtered c (o.inp.headD 0) ≠ some CharEsc := by
            cases hi : o.inp with
            | nil => exact hr 0 (by simp)
            | cons a l => exact hr a (by rw [hi]; simp)
          obtain ⟨e1, e2⟩ := iter_insert h hd
          rw [← e1]
          refine R.bind_congr' fun o1 h1 => ?_
          obtain ⟨a, b⟩ := e2 o1 h1
          refine await_insert n o1 a fun r hm => hr r ?_
          rw [b] at hm
          rcases List.mem_cons.1 hm with rfl | hm
          · simp
          · exact List.mem_cons_of_mem _ (List.mem_of_mem_tail hm)

end Op
end RL
