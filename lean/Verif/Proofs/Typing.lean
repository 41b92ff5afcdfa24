import Verif.Proofs.Keys
import Verif.Spec.Keys
/-! Typing and editing a line outside search and completion (C29-C33). -/

namespace RL
open Spec RB Ed

theorem Spec.IsGreatestBelow.unique {P : Nat → Prop} {hi m m' : Nat} (h : IsGreatestBelow P hi m) (h' : IsGreatestBelow P hi m') :
    m = m' := by
  obtain ⟨a, b, d⟩ := h
  obtain ⟨a', b', d'⟩ := h'
  rcases Nat.lt_trichotomy m m' with hl | hl | hl
  · exact (d m' hl a' b').elim
  · exact hl
  · exact (d' m hl a b).elim

theorem Spec.IsLeastAbove.unique {P : Nat → Prop} {lo m m' : Nat} (h : IsLeastAbove P lo m) (h' : IsLeastAbove P lo m') :
    m = m' := by
  obtain ⟨a, b, d⟩ := h
  obtain ⟨a', b', d'⟩ := h'
  rcases Nat.lt_trichotomy m m' with hl | hl | hl
  · exact (d' m a hl b).elim
  · exact hl
  · exact (d m' a' hl b').elim

theorem Spec.PrevWordPos.unique {l : List Rune} {i m m' : Nat} (h : PrevWordPos l i m) (h' : PrevWordPos l i m') : m = m' := by
  rcases h with h | ⟨h, rfl⟩ <;> rcases h' with h' | ⟨h', rfl⟩
  · exact Spec.IsGreatestBelow.unique h h'
  · exact (h' m h.1 h.2.1).elim
  · exact (h m' h'.1 h'.2.1).elim
  · rfl

theorem Spec.NextWordPos.unique {l : List Rune} {i m m' : Nat} (h : NextWordPos l i m) (h' : NextWordPos l i m') : m = m' := by
  rcases h with h | ⟨h, rfl⟩ <;> rcases h' with h' | ⟨h', rfl⟩
  · exact Spec.IsLeastAbove.unique h h'
  · exact (h' m h.1 h.2.1).elim
  · exact (h m' h'.1 h'.2.1).elim
  · rfl

theorem Spec.DeleteWordPos.unique {l : List Rune} {i m m' : Nat} (h : DeleteWordPos l i m) (h' : DeleteWordPos l i m') : m = m' := by
  obtain ⟨a, a1, a2, a3, a4, a5⟩ := h
  obtain ⟨b, b1, b2, b3, b4, b5⟩ := h'
  have hle : ∀ {a b : Nat}, a ≤ l.length → i ≤ a → (∀ c, l[a]? = some c → WordChar c) →
      (∀ j, i ≤ j → j < b → ∃ c, l[j]? = some c ∧ ¬ WordChar c) → b ≤ a := by
    intro a b _ h1 h2 h3
    rcases Nat.lt_or_ge a b with h | h
    · obtain ⟨c, e1, e2⟩ := h3 a h1 h
      exact (e2 (h2 c e1)).elim
    · exact h
  have hab : a = b := Nat.le_antisymm (hle b2 b1 b4 a3) (hle a2 a1 a4 b3)
  subst hab
  rcases a5 with h | ⟨h, rfl⟩ <;> rcases b5 with h' | ⟨h', rfl⟩
  · have := Spec.IsLeastAbove.unique h h'; omega
  · exact (h' _ h.1 h.2.1).elim
  · exact (h _ h'.1 h'.2.1).elim
  · rfl

/-- A line is determined by its text, cursor and cut buffer. -/
theorem Line.eq_of_moved {e : Ed} {m : Nat} (hm : m ≤ e.buf.length) {z : Line} (h : MovedTo e.line z m) :
    ({ e with idx := m } : Ed).line = z := by
  obtain ⟨h1, h2, h3⟩ := h
  rw [Ed.line_text] at h1
  unfold Line.text at h1
  obtain ⟨l, r, k⟩ := z
  simp only [Ed.line] at *
  subst h3
  rw [← h1, h2]
  simp

namespace Op
variable {c : OCfg}

theorem Quiet.update {o : Op} (h : Quiet c o) : Quiet c (o.updateHistory c) :=
  ⟨⟨h.base.rb, Hist.update_WF h.base.hist _ _ _, h.base.sw, h.base.cw, h.base.col⟩, h.smode, h.marks, h.cmode, h.nosel⟩

theorem finish_quiet {k : KeyRes} (h : Quiet c k.op) :
    finish c k = .ok (if k.update then k.op.updateHistory c else k.op) := by
  have hs : settle c k = .ok k.op := by
    unfold settle
    rw [if_neg (by simp [h.smode]), if_neg (by simp [h.cmode])]
  unfold finish
  rw [hs, R.bind_ok]
  cases hu : k.update <;> simp [h.smode]

theorem dispatch_quiet (hf : Observer c) {o : Op} {r : Rune} {k : KeyRes} (hk : o.key c r = .ok k) (h : Quiet c k.op) :
    o.dispatch c r = .ok (if k.update then k.op.updateHistory c else k.op) := by
  unfold dispatch
  rw [hk, R.bind_ok, listen_observer hf, R.bind_ok, finish_quiet h]

/-- Everything a key that only edits the line leaves as it was. -/
structure Edited (c : OCfg) (o o' : Op) : Prop where
  quiet : Quiet c o'
  inp : o'.inp = o.inp
  gate : o'.gate = o.gate
  kick : o'.kick = o.kick ∨ o'.kick = true
  events : o'.events = o.events
  stopped : o'.stopped = o.stopped
  vimNormal : o'.vimNormal = o.vimNormal
  hist : o'.hist = o.hist

theorem Quiet.edited {o : Op} (h : Quiet c o) {k : Cmd} (ht : ¬ o.rb.toEd.Trigger k) :
    ∃ r, o.edit c k = .ok { o with rb := r } ∧ k.core o.rb.toEd = .ok r.toEd ∧ Quiet c { o with rb := r } := by
  obtain ⟨r, h1, h2, _, h4⟩ := h.base.edit ht
  exact ⟨r, h1, h2, h4, h.smode, h.marks, h.cmode, h.nosel⟩

/-- An editing key outside search and completion. -/
theorem key_edit {o : Op} (h : Quiet c o) {r : Rune} {z : Line} (he : Edits r o.rb.toEd.line z) :
    ∃ k, o.key c r = .ok k ∧ k.update = true ∧ Edited c o k.op ∧ k.op.rb.toEd.line = z ∧ (r = 4 → k.op.kick = true) ∧ r ≠ 0 ∧
      r ≠ CharEsc ∧ (stopKey r = true → r = 4) := by
  have hcur : o.rb.toEd.CursorIn := h.base.rb.idx
  have llen : o.rb.toEd.line.left.length = o.rb.idx := by
    simp only [Ed.line, List.length_take]; exact Nat.min_eq_left hcur
  -- keys bound to one command
  have one : ∀ (k : Cmd) (e' : Ed), simpleKey r = some k → k.core o.rb.toEd = .ok e' → e'.line = z →
      ¬ o.rb.toEd.Trigger k → r ≠ 4 → ∃ k, o.key c r = .ok k ∧ k.update = true ∧ Edited c o k.op ∧ k.op.rb.toEd.line = z ∧
        (r = 4 → k.op.kick = true) := by
    intro k e' h1 h2 h3 h4 h5
    obtain ⟨r1, e1, e2, e3⟩ := h.edited h4
    rw [h2, Except.ok.injEq] at e2
    rw [key_simple h1, e1]
    refine ⟨_, rfl, rfl, ⟨e3, rfl, rfl, .inl rfl, rfl, rfl, rfl, rfl⟩, ?_, fun a => (h5 a).elim⟩
    show r1.toEd.line = z
    rw [← e2, h3]
  have simple : ∀ (k : Cmd) (f : Line → Line), simpleKey r = some k → basic k = some f → f o.rb.toEd.line = z →
      ¬ o.rb.toEd.Trigger k → r ≠ 4 → ∃ k, o.key c r = .ok k ∧ k.update = true ∧ Edited c o k.op ∧ k.op.rb.toEd.line = z ∧
        (r = 4 → k.op.kick = true) := by
    intro k f h1 h2 h3 h4 h5
    obtain ⟨r1, e1, e2, e3⟩ := h.edited h4
    obtain ⟨e', e4, _, e6⟩ := core_basic h2 hcur
    rw [e4, Except.ok.injEq] at e2
    rw [key_simple h1, e1]
    refine ⟨_, rfl, rfl, ⟨e3, rfl, rfl, .inl rfl, rfl, rfl, rfl, rfl⟩, ?_, fun a => (h5 a).elim⟩
    show r1.toEd.line = z
    rw [← e2, e6, h3]
  rcases he with he | ⟨rfl, m, hp, hm⟩ | ⟨rfl, m, hp, hm⟩ | ⟨hr, m, hg, hz⟩ | ⟨rfl, he⟩ | ⟨rfl, he⟩
  · unfold editKey at he
    split at he
    · next hr =>
      subst hr; cases he
      obtain ⟨k, h1, h2, h3, h4, h5⟩ := simple .home _ rfl rfl rfl (by simp [Ed.Trigger]) (by decide)
      exact ⟨k, h1, h2, h3, h4, h5, by decide, by decide, by decide⟩
    split at he
    · next hr =>
      subst hr; cases he
      obtain ⟨k, h1, h2, h3, h4, h5⟩ := simple .left _ rfl rfl rfl (by simp [Ed.Trigger]) (by decide)
      exact ⟨k, h1, h2, h3, h4, h5, by decide, by decide, by decide⟩
    split at he
    · next hr =>
      subst hr; cases he
      obtain ⟨k, h1, h2, h3, h4, h5⟩ := simple .toEnd _ rfl rfl rfl (by simp [Ed.Trigger]) (by decide)
      exact ⟨k, h1, h2, h3, h4, h5, by decide, by decide, by decide⟩
    split at he
    · next hr =>
      subst hr; cases he
      obtain ⟨k, h1, h2, h3, h4, h5⟩ := simple .right _ rfl rfl rfl (by simp [Ed.Trigger]) (by decide)
      exact ⟨k, h1, h2, h3, h4, h5, by decide, by decide, by decide⟩
    split at he
    · next hr =>
      cases he
      have hrr : r ≠ 4 ∧ r ≠ 0 ∧ r ≠ CharEsc ∧ (stopKey r = true → r = 4) := by
        rcases hr with rfl | rfl <;> decide
      rw [key_backspace (by rcases hr with rfl | rfl; exact .inr rfl; exact .inl rfl)]
      unfold keyBackspace
      rw [if_neg (by simp [h.smode])]
      by_cases h0 : o.rb.buf.length = 0
      · rw [if_pos h0]
        refine ⟨_, rfl, rfl, ⟨h.write _, rfl, rfl, .inl rfl, rfl, rfl, rfl, rfl⟩, ?_, fun a => (hrr.1 a).elim, hrr.2⟩
        have hn := List.eq_nil_of_length_eq_zero h0
        show o.rb.toEd.line = _
        simp [Ed.line, Line.backspace, hn]
      · rw [if_neg h0]
        obtain ⟨r1, e1, e2, e3⟩ := h.edited (k := .backspace) (by simp [Ed.Trigger])
        obtain ⟨e', e4, _, e6⟩ := core_basic (c := .backspace) rfl hcur
        rw [e4, Except.ok.injEq] at e2
        rw [e1, R.bind_ok, if_neg (by show ¬ o.comp.inComplete = true; simp [h.cmode])]
        refine ⟨_, rfl, rfl, ⟨e3, rfl, rfl, .inl rfl, rfl, rfl, rfl, rfl⟩, ?_, fun a => (hrr.1 a).elim, hrr.2⟩
        show r1.toEd.line = _
        rw [← e2, e6]
    split at he
    · next hr =>
      subst hr; cases he
      obtain ⟨k, h1, h2, h3, h4, h5⟩ := simple .kill _ rfl rfl rfl (by simp [Ed.Trigger]) (by decide)
      exact ⟨k, h1, h2, h3, h4, h5, by decide, by decide, by decide⟩
    split at he
    · next hr =>
      subst hr; cases he
      obtain ⟨k, h1, h2, h3, h4, h5⟩ := simple .killFront _ rfl rfl rfl (by simp [Ed.Trigger]) (by decide)
      exact ⟨k, h1, h2, h3, h4, h5, by decide, by decide, by decide⟩
    split at he
    · next hr =>
      subst hr; cases he
      obtain ⟨k, h1, h2, h3, h4, h5⟩ := simple .yank _ rfl rfl rfl (by simp [Ed.Trigger]) (by decide)
      exact ⟨k, h1, h2, h3, h4, h5, by decide, by decide, by decide⟩
    split at he
    · next hr =>
      subst hr
      rw [Ed.line_text] at he
      split at he
      · cases he
      · next hne =>
        cases he
        obtain ⟨k, e1, e2⟩ := keyDelete_safe h.mid CharDelete
        obtain ⟨d1, d2, d3, d4, d5, d6, d7, d8, d9, d10, d11, _, _, d14⟩ := keyDelete_del e1 (.inl hne)
        obtain ⟨e', e4, _, e6⟩ := core_basic (c := .delete) rfl hcur
        rw [e4, Except.ok.injEq] at d1
        refine ⟨k, e1, d14, ⟨⟨e2.base, by rw [d4]; exact h.smode, by unfold NoMarks; rw [d4]; exact h.marks, by rw [d5]; exact h.cmode,
          by rw [d5]; exact h.nosel⟩, d6, d7, .inr d8, d3, d9, d10, d11⟩, ?_, fun _ => d8, by decide, by decide, fun _ => rfl⟩
        rw [← d1, e6]
    split at he
    · next h1 h2 h3 h4 h5 h6 h7 h8 h9 hr =>
      cases he
      have h127 : r ≠ 127 := fun a => h5 (.inr a)
      rw [key_text hr h127]
      unfold keyText
      rw [if_neg (by simp [h.smode])]
      obtain ⟨r1, e1, e2, e3⟩ := h.edited (k := .insert [r]) (by simp [Ed.Trigger])
      obtain ⟨e', e4, _, e6⟩ := core_basic (c := .insert [r]) rfl hcur
      rw [e4, Except.ok.injEq] at e2
      rw [e1, R.bind_ok, if_neg (by show ¬ o.comp.inComplete = true; simp [h.cmode])]
      refine ⟨_, rfl, rfl, ⟨e3, rfl, rfl, .inl rfl, rfl, rfl, rfl, rfl⟩, ?_, fun a => by omega, by omega, by unfold CharEsc; omega, ?_⟩
      · show r1.toEd.line = _
        rw [← e2, e6]
      · unfold stopKey CharInterrupt CharEnter CharCtrlJ CharDelete
        simp only [Bool.or_eq_true, beq_iff_eq]
        omega
    · cases he
  · obtain ⟨r1, e1, e2, e3⟩ := h.edited (k := .prevWord) (by simp [Ed.Trigger])
    obtain ⟨m', e4, e5, e6⟩ := core_prevWord hcur
    rw [e4, Except.ok.injEq] at e2
    have hlen : o.rb.toEd.line.left.length = o.rb.idx := by
      simp only [Ed.line, List.length_take]; exact Nat.min_eq_left hcur
    rw [Ed.line_text, hlen] at hp
    have : m = m' := Spec.PrevWordPos.unique hp e6
    subst this
    rw [key_simple (k := .prevWord) rfl, e1]
    refine ⟨_, rfl, rfl, ⟨e3, rfl, rfl, .inl rfl, rfl, rfl, rfl, rfl⟩, ?_, fun a => absurd a (by decide), by decide, by decide, by decide⟩
    show r1.toEd.line = z
    rw [← e2]
    exact Line.eq_of_moved (Nat.le_trans e5 hcur) hm
  · obtain ⟨r1, e1, e2, e3⟩ := h.edited (k := .nextWord) (by simp [Ed.Trigger])
    obtain ⟨m', e4, e5, e6⟩ := core_nextWord o.rb.toEd
    rw [e4, Except.ok.injEq] at e2
    have hlen : o.rb.toEd.line.left.length = o.rb.idx := by
      simp only [Ed.line, List.length_take]; exact Nat.min_eq_left hcur
    rw [Ed.line_text, hlen] at hp
    have : m = m' := Spec.NextWordPos.unique hp e6
    subst this
    rw [key_simple (k := .nextWord) rfl, e1]
    refine ⟨_, rfl, rfl, ⟨e3, rfl, rfl, .inl rfl, rfl, rfl, rfl, rfl⟩, ?_, fun a => absurd a (by decide), by decide, by decide, by decide⟩
    show r1.toEd.line = z
    rw [← e2]
    exact Line.eq_of_moved e5 hm
  · rw [Ed.line_text, llen] at hg
    have hcore := (core_backEscapeWord hcur).1 m hg
    have hz' : ({ o.rb.toEd with buf := o.rb.buf.take m ++ o.rb.buf.drop o.rb.idx, idx := m, lastKill := (o.rb.buf.take o.rb.idx).drop m } : Ed).line = z := by
      rw [hz]
      have h1 := hg.1
      have h2 : o.rb.idx ≤ o.rb.buf.length := hcur
      have h3 : (o.rb.buf.take m).length = m := by rw [List.length_take]; omega
      simp only [Ed.line, Line.mk.injEq]
      refine ⟨?_, ?_, trivial⟩
      · rw [List.take_append_of_le_length (by omega), List.take_take, List.take_take]
        congr 1; omega
      · rw [List.drop_append_of_le_length (by omega), List.drop_eq_nil_of_le (by omega)]
        rfl
    obtain ⟨k, h1, h2, h3, h4, h5⟩ := one .backEscapeWord _ (by rcases hr with rfl | rfl <;> rfl) hcore hz' (by simp [Ed.Trigger])
      (by rcases hr with rfl | rfl <;> decide)
    refine ⟨k, h1, h2, h3, h4, h5, ?_⟩
    rcases hr with rfl | rfl <;> decide
  · rcases he with ⟨h0, rfl⟩ | ⟨h0, m, hd, hz⟩
    · have hend : o.rb.idx = o.rb.buf.length := by
        have : o.rb.buf.length ≤ o.rb.idx := by simpa [Ed.line] using h0
        have h2 : o.rb.idx ≤ o.rb.buf.length := hcur
        omega
      obtain ⟨k, h1, h2, h3, h4, h5⟩ := one .deleteWord _ rfl (core_deleteWord_end hend) rfl (by simp [Ed.Trigger]) (by decide)
      exact ⟨k, h1, h2, h3, h4, h5, by decide, by decide, by decide⟩
    · have hlt : o.rb.idx < o.rb.buf.length := by
        rcases Nat.lt_or_ge o.rb.idx o.rb.buf.length with h | h
        · exact h
        · exact (h0 (by simp only [Ed.line]; exact List.drop_eq_nil_of_le h)).elim
      obtain ⟨init, m', a1, a2, a3, a4, a5, a6, a7, a8⟩ := core_deleteWord hcur hlt
      rw [Ed.line_text, llen] at hd
      have : m = m' := Spec.DeleteWordPos.unique hd ⟨init, a1, a2, a3, a4, a7⟩
      subst this
      have hz' : ({ o.rb.toEd with buf := o.rb.buf.take o.rb.idx ++ o.rb.buf.drop m, lastKill := (o.rb.buf.take m).drop o.rb.idx } : Ed).line = z := by
        rw [hz, Ed.line_text, llen]
        have h3 : (o.rb.buf.take o.rb.idx).length = o.rb.idx := by rw [List.length_take]; omega
        simp only [Ed.line, Line.mk.injEq, and_true]
        refine ⟨?_, ?_⟩
        · rw [List.take_append_of_le_length (by omega), List.take_take]
          congr 1; omega
        · rw [List.drop_append_of_le_length (by omega), List.drop_eq_nil_of_le (by omega)]
          rfl
      obtain ⟨k, h1, h2, h3, h4, h5⟩ := one .deleteWord _ rfl a8 hz' (by simp [Ed.Trigger]) (by decide)
      exact ⟨k, h1, h2, h3, h4, h5, by decide, by decide, by decide⟩
  · obtain ⟨pre, a, b, post, t1, t2, t3, t4, t5⟩ := he
    rw [Ed.line_text] at t1
    have h2 : o.rb.idx ≤ o.rb.buf.length := hcur
    have hl : 2 ≤ o.rb.buf.length := by rw [t1]; simp only [List.length_append, List.length_cons]; omega
    obtain ⟨pre', a', b', post', u1, u2, u3, u4, u5⟩ := core_transpose_long hcur hl
    have hleft : o.rb.toEd.line.left = [] ↔ o.rb.idx = 0 := by
      rw [← List.length_eq_zero_iff, llen]
    have hright : o.rb.toEd.line.right = [] ↔ o.rb.idx = o.rb.buf.length := by
      simp only [Ed.line, List.drop_eq_nil_iff]; omega
    rw [hleft] at t3
    rw [ne_eq, ne_eq, hleft, hright, llen] at t4
    rw [hright] at t5
    have hpre : pre.length = pre'.length := by
      by_cases i0 : o.rb.idx = 0
      · rw [t3 i0, u3 i0, List.length_nil]
      · by_cases i1 : o.rb.idx = o.rb.buf.length
        · have e1 := congrArg List.length t1
          have e2 := congrArg List.length u1
          rw [t5 i1] at e1
          rw [u5 i1] at e2
          simp only [List.length_append, List.length_cons, List.length_nil] at e1 e2
          have e2 : o.rb.buf.length = _ := e2
          omega
        · have := t4 i0 i1
          have := u4 (by show 0 < o.rb.idx; omega) (by show o.rb.idx < o.rb.buf.length; omega)
          have : pre'.length + 1 = o.rb.idx := this
          omega
    have u1 : o.rb.buf = _ := u1
    rw [t1] at u1
    obtain ⟨v1, v2⟩ := List.append_inj u1 hpre
    simp only [List.cons.injEq] at v2
    obtain ⟨rfl, rfl, rfl⟩ := v2
    subst v1
    have hz' : ({ o.rb.toEd with buf := pre ++ b :: a :: post, idx := pre.length + 2 } : Ed).line = z := by
      rw [t2]
      simp only [Ed.line, Line.mk.injEq]
      refine ⟨?_, ?_, trivial⟩
      · rw [List.take_append, List.take_of_length_le (by omega)]
        simp [Nat.add_sub_cancel_left]
      · rw [List.drop_append, List.drop_of_length_le (by omega)]
        simp [Nat.add_sub_cancel_left]
    obtain ⟨k, h1, h2, h3, h4, h5⟩ := one .transpose _ rfl u2 hz' (by simp only [Ed.Trigger]; omega) (by decide)
    exact ⟨k, h1, h2, h3, h4, h5, by decide, by decide, by decide⟩

/-- A session without filter whose listener only looks. -/
structure Plain (c : OCfg) : Prop where
  filter : c.filter = none
  listener : Observer c

theorem Quiet.took {o : Op} (h : Quiet c o) (r rest) : Quiet c (o.took r rest) := h.io _ _ _

/-- An editing key, with its effect on the history. -/
theorem iter_edit_hist (hp : Plain c) {o : Op} (h : Quiet c o) (hl : o.Live) (hv : Emacs c o) {r : Rune} {rest : List Rune}
    (hi : o.inp = r :: rest) {z : Line} (he : Edits r o.rb.toEd.line z) :
    ∃ o', o.iter c = .ok o' ∧ Quiet c o' ∧ o'.Live ∧ o'.inp = rest ∧ o'.rb.toEd.line = z ∧ o'.events = o.events ∧
      o'.stopped = o.stopped ∧ o'.vimNormal = o.vimNormal ∧ o'.hist = o.hist.update c.h z.text false := by
  obtain ⟨k, e1, e2, e3, e4, e5, e6, e7, e8⟩ := key_edit (c := c) (h.took r rest) (r := r) (z := z) he
  refine ⟨_, by rw [iter_emacs hl hp.filter hi e6 h.nosel (hv.imp_right (fun a => ⟨a, e7⟩)), dispatch_quiet hp.listener e1 e3.quiet,
    e2, if_pos rfl], e3.quiet.update, ?_, e3.inp, e4, e3.events, e3.stopped, e3.vimNormal, ?_⟩
  · have hg : (k.op.updateHistory c).gate = stopKey r := e3.gate
    cases hs : stopKey r with
    | false => left; rw [hg, hs]
    | true => right; exact e5 (e8 hs)
  · show k.op.hist.update c.h k.op.rb.buf false = _
    rw [e3.hist, ← e4, Ed.line_text]
    rfl

theorem iter_edit (hp : Plain c) {o : Op} (h : Quiet c o) (hl : o.Live) (hv : Emacs c o) {r : Rune} {rest : List Rune}
    (hi : o.inp = r :: rest) {z : Line} (he : Edits r o.rb.toEd.line z) :
    ∃ o', o.iter c = .ok o' ∧ Quiet c o' ∧ o'.Live ∧ o'.inp = rest ∧ o'.rb.toEd.line = z ∧ o'.events = o.events ∧
      o'.stopped = o.stopped ∧ o'.vimNormal = o.vimNormal := by
  obtain ⟨o', e1, e2, e3, e4, e5, e6, e7, e8, _⟩ := iter_edit_hist hp h hl hv hi he
  exact ⟨o', e1, e2, e3, e4, e5, e6, e7, e8⟩

/-- Enter outside search and completion. -/
theorem key_submit {o : Op} (h : Quiet c o) {r : Rune} (hr : r = CharEnter ∨ r = CharCtrlJ) :
    ∃ k, o.key c r = .ok k ∧ Quiet c k.op ∧ k.op.rb.toEd = { o.rb.toEd with buf := [], idx := 0 } ∧
      k.op.events = o.events ++ [.line o.rb.buf] ∧ k.op.inp = o.inp ∧ k.op.gate = o.gate ∧ k.op.kick = o.kick ∧
      k.op.stopped = o.stopped ∧ k.op.vimNormal = o.vimNormal ∧
      (c.noSave = false → k.update = true ∧ o.hist.new c.h o.rb.buf = .ok k.op.hist) ∧
      (c.noSave = true → k.update = false ∧ k.op.hist = o.hist) := by
  obtain ⟨k, e1, e2⟩ := keyEnter_safe h.mid r
  obtain ⟨d1, d2, d3, d4, d5, d6, d7, d8, d9, d10, d11, d12, d13, d14⟩ := keyEnter_ok e1
  refine ⟨k, by rw [key_enter hr]; exact e1, ⟨e2.base, d4, e2.soff d4, by rw [d5]; exact h.cmode, by rw [d5]; exact h.nosel⟩,
    d1, d3, d6, d7, d8, d9, d10, d13, d14⟩

theorem stopKey_enter {r : Rune} (hr : r = CharEnter ∨ r = CharCtrlJ) : stopKey r = true ∧ r ≠ 0 ∧ r ≠ CharEsc := by
  rcases hr with rfl | rfl <;> decide

theorem iter_submit (hp : Plain c) {o : Op} (h : Quiet c o) (hl : o.Live) (hv : Emacs c o) {r : Rune} {rest : List Rune}
    (hr : r = CharEnter ∨ r = CharCtrlJ) (hi : o.inp = r :: rest) :
    ∃ o', o.iter c = .ok o' ∧ Quiet c o' ∧ o'.inp = rest ∧ o'.rb.toEd = { o.rb.toEd with buf := [], idx := 0 } ∧
      o'.events = o.events ++ [.line o.rb.buf] ∧ o'.stopped = o.stopped ∧ o'.vimNormal = o.vimNormal := by
  obtain ⟨k, e1, e2, e3, e4, e5, e6, e7, e8, e9, _⟩ := key_submit (h.took r rest) hr
  obtain ⟨_, hr0, hre⟩ := stopKey_enter hr
  refine ⟨_, by rw [iter_emacs hl hp.filter hi hr0 h.nosel (hv.imp_right (fun a => ⟨a, hre⟩)), dispatch_quiet hp.listener e1 e2], ?_⟩
  split
  · exact ⟨e2.update, e5, e3, e4, e8, e9⟩
  · exact ⟨e2, e5, e3, e4, e8, e9⟩

end Op
end RL

namespace RL
open Spec RB Ed
namespace Op
variable {c : OCfg}

/-- What `Revert` leaves. -/
structure Reverted (h h' : Hist) : Prop where
  order : h'.order = h.order
  elems : h'.elems = h.elems
  disk : h'.disk = h.disk
  fd : h'.fd = h.fd
  current : h'.current = h'.back
  shown : ∀ x, h'.showItem x = (h.elems x).source
  enable : h'.enable = h.enable

theorem reverted {h : Hist} (w : h.WF) : Reverted h h.revert :=
  ⟨rfl, rfl, rfl, rfl, rfl, fun x => by
    have := w.version x
    have h1 : (h.elems x).version ≠ h.ver + 1 := by omega
    simp [Hist.showItem, Hist.revert, h1], rfl⟩

theorem Quiet.vim {o : Op} (h : Quiet c o) (b) : Quiet c { o with vimNormal := b } :=
  ⟨⟨h.base.rb, h.base.hist, h.base.sw, h.base.cw, h.base.col⟩, h.smode, h.marks, h.cmode, h.nosel⟩

/-- Enter and Ctrl-C in either vim mode reach the key switch; normal mode ends. -/
theorem viaVim_out {o : Op} {r : Rune} (hr : r = CharEnter ∨ r = CharInterrupt) :
    ∃ b, o.viaVim c r = dispatch c r { o with vimNormal := b } ∧ (Emacs c o → b = o.vimNormal) ∧ (c.vim = true → b = false) := by
  have h0 : r ≠ 0 ∧ r ≠ CharEsc := by rcases hr with rfl | rfl <;> decide
  unfold viaVim
  by_cases hv : c.vim = true
  · rw [if_pos hv]
    unfold handleVim
    by_cases hn : o.vimNormal = true
    · refine ⟨false, ?_, fun he => ?_, fun _ => rfl⟩
      · rw [if_pos hn]
        unfold vimNormalKey
        rw [if_pos hr, R.bind_ok]
        dsimp only
        rw [if_neg h0.1]
      · rcases he with he | he
        · rw [hv] at he; cases he
        · exact he.symm
    · have hn' : o.vimNormal = false := by simpa using hn
      refine ⟨o.vimNormal, ?_, fun _ => rfl, fun _ => hn'⟩
      rw [if_neg hn, if_neg h0.2, R.bind_ok]
      dsimp only
      rw [if_neg h0.1]
  · exact ⟨o.vimNormal, by rw [if_neg hv], fun _ => rfl, fun h => (hv h).elim⟩

/-- A key outside the menu, without filter. -/
theorem iter_nomenu {o : Op} (hl : o.Live) (hf : c.filter = none) {r : Rune} {rest : List Rune} (hi : o.inp = r :: rest)
    (hr : r ≠ 0) (hs : o.comp.inSelect = false) : o.iter c = (o.took r rest).viaVim c r := by
  unfold iter
  rw [readRune_live hl hi, R.bind_ok]
  unfold accept
  rw [hf]
  dsimp only
  unfold handle viaMenu
  rw [if_neg hr, if_neg (by show ¬ o.comp.inSelect = true; simp [hs])]

theorem iter_interrupt (hp : Plain c) {o : Op} (h : Quiet c o) (hl : o.Live) {rest : List Rune} (hi : o.inp = CharInterrupt :: rest) :
    ∃ o', o.iter c = .ok o' ∧ Quiet c o' ∧ o'.inp = rest ∧ o'.rb.toEd = { o.rb.toEd with buf := [], idx := 0 } ∧
      o'.events = o.events ++ [.interrupt o.rb.buf] ∧ o'.stopped = o.stopped ∧ Emacs c o' ∧ Reverted o.hist o'.hist := by
  obtain ⟨b, e1, e2, e3⟩ := viaVim_out (c := c) (o := o.took CharInterrupt rest) (.inr rfl)
  have hq : Quiet c { o.took CharInterrupt rest with vimNormal := b } := (h.took _ _).vim b
  obtain ⟨k, f1, f2⟩ := keyInterrupt_safe hq.mid (fun a => by rw [hq.smode] at a; cases a) CharInterrupt
  obtain ⟨d1, d2, d3, d4, d5, d6, d7, d8, d9, d10, d11, d12, d13, d14⟩ := keyInterrupt_ok f1 hq.smode hq.cmode
  have hk : Quiet c k.op := ⟨f2.base, by rw [d4]; exact hq.smode, by unfold NoMarks; rw [d4]; exact hq.marks, by rw [d5]; exact hq.cmode,
    by rw [d5]; exact hq.nosel⟩
  refine ⟨k.op, ?_, hk, d6, d1, d3, d9, ?_, by rw [d11]; exact reverted h.base.hist⟩
  · rw [iter_nomenu hl hp.filter hi (by decide) h.nosel, e1, dispatch_quiet hp.listener (by rw [key_interrupt]; exact f1) hk, d14]
    simp
  · by_cases hv : c.vim = true
    · right; rw [d10]; exact e3 hv
    · left; simpa using hv

theorem iter_eof (hp : Plain c) {o : Op} (h : Quiet c o) (hl : o.Live) (hv : Emacs c o) {rest : List Rune}
    (hi : o.inp = CharDelete :: rest) (h0 : o.rb.buf = []) :
    ∃ o', o.iter c = .ok o' ∧ Quiet c o' ∧ o'.inp = rest ∧ o'.rb.toEd = { o.rb.toEd with buf := [], idx := 0 } ∧
      o'.events = o.events ++ [.eof] ∧ o'.stopped = o.stopped ∧ o'.vimNormal = o.vimNormal ∧ Reverted o.hist o'.hist := by
  have hq := h.took CharDelete rest
  obtain ⟨k, f1, f2⟩ := keyDelete_safe hq.mid CharDelete
  obtain ⟨d1, d2, d3, d4, d5, d6, d7, d8, d9, d10, d11, d12, d13, d14⟩ := keyDelete_eof f1 h0 hq.smode hq.cmode
  have hk : Quiet c k.op := ⟨f2.base, by rw [d4]; exact hq.smode, by unfold NoMarks; rw [d4]; exact hq.marks, by rw [d5]; exact hq.cmode,
    by rw [d5]; exact hq.nosel⟩
  refine ⟨k.op, ?_, hk, d6, d1, d3, d9, d10, by rw [d11]; exact reverted h.base.hist⟩
  rw [iter_emacs hl hp.filter hi (by decide) h.nosel (hv.imp_right (fun a => ⟨a, by decide⟩)),
    dispatch_quiet hp.listener (by rw [key_delete]; exact f1) hk, d14]
  simp

/-- End of input with an empty line. -/
theorem iter_end_empty (hf : filtered c 0 = some 0) {o : Op} (h : Base c o) (hl : o.Live) (hi : o.inp = []) (h0 : o.rb.buf = []) :
    ∃ o', o.iter c = .ok o' ∧ o'.inp = [] ∧ o'.rb.toEd = o.rb.toEd ∧ o'.events = o.events ++ [.eof] ∧ o'.stopped = true ∧
      o'.hist = o.hist ∧ Base c o' := by
  obtain ⟨r, e1, e2, e3, e4⟩ := Base.clean (c := c) (o := { o with gate := false, kick := if o.gate then false else o.kick })
    ⟨h.rb, h.hist, h.sw, h.cw, h.col⟩
  have hh : ∀ o1 : Op, o1.accept c 0 = o1.handle c 0 := by
    intro o1
    unfold accept
    unfold filtered at hf
    cases hc : c.filter with
    | none => rfl
    | some f =>
      rw [hc] at hf
      dsimp only at hf ⊢
      cases hfr : f 0 with
      | mk r' b =>
        rw [hfr] at hf
        cases b with
        | false => simp at hf
        | true => simp at hf; rw [hf]
  have hit : o.iter c = .ok { o with
      rb := r, gate := false, kick := (if o.gate then false else o.kick), events := o.events ++ [.eof], stopped := true } := by
    unfold iter
    rw [readRune_end hl hi, R.bind_ok]
    dsimp only
    rw [hh]
    unfold handle
    rw [if_pos rfl, if_pos (by show o.rb.buf.length = 0; rw [h0]; rfl), e1, R.bind_ok]
  exact ⟨_, hit, hi, e2, rfl, rfl, rfl, e4.rb, e4.hist, e4.sw, e4.cw, e4.col⟩

/-- End of input with a pending line acts as Enter. -/
theorem iter_end_line (hp : Plain c) {o : Op} (h : Quiet c o) (hl : o.Live) (hi : o.inp = []) (h0 : o.rb.buf ≠ []) :
    ∃ o', o.iter c = .ok o' ∧ Quiet c o' ∧ o'.inp = [] ∧ o'.gate = false ∧ o'.rb.toEd = { o.rb.toEd with buf := [], idx := 0 } ∧
      o'.events = o.events ++ [.line o.rb.buf] ∧ o'.stopped = o.stopped ∧ Emacs c o' := by
  obtain ⟨o1, ho1⟩ : ∃ o1 : Op, o1 = { o with gate := false, kick := if o.gate then false else o.kick } := ⟨_, rfl⟩
  have hq1 : Quiet c o1 := by rw [ho1]; exact h.io o.inp _ _
  obtain ⟨b, e1, e2, e3⟩ := viaVim_out (c := c) (o := o1) (.inl rfl)
  have hq : Quiet c { o1 with vimNormal := b } := hq1.vim b
  obtain ⟨k, f1, f2, f3, f4, f5, f6, f7, f8, f9, f10, f11⟩ := key_submit hq (.inl rfl)
  have hne : ¬ o1.rb.buf.length = 0 := by
    rw [ho1]
    intro a; exact h0 (List.eq_nil_of_length_eq_zero a)
  have hit : o.iter c = .ok (if k.update then k.op.updateHistory c else k.op) := by
    unfold iter
    rw [readRune_end hl hi, R.bind_ok, ← ho1]
    unfold accept
    rw [hp.filter]
    dsimp only
    unfold handle
    rw [if_pos rfl, if_neg hne]
    unfold viaMenu
    rw [if_neg (by simp [hq1.nosel]), e1, dispatch_quiet hp.listener f1 f2]
  have hem : ∀ x : Op, x.vimNormal = b → Emacs c x := by
    intro x hx
    by_cases hv : c.vim = true
    · right; rw [hx]; exact e3 hv
    · left; simpa using hv
  subst ho1
  refine ⟨_, hit, ?_⟩
  split
  · exact ⟨f2.update, f5.trans hi, f6, f3, f4, f8, hem _ f9⟩
  · exact ⟨f2, f5.trans hi, f6, f3, f4, f8, hem _ f9⟩

end Op
end RL

theorem RL.Op.Quiet.events {c : RL.OCfg} {o : RL.Op} (h : RL.Op.Quiet c o) (es) : RL.Op.Quiet c { o with events := es } :=
  ⟨⟨h.base.rb, h.base.hist, h.base.sw, h.base.cw, h.base.col⟩, h.smode, h.marks, h.cmode, h.nosel⟩

namespace RL.Op
open Spec RB Ed
variable {c : OCfg}

/-- Enter in any mode outside the menu. -/
theorem enter_any (hp : Plain c) (hf : Friendly c) {o : Op} (hm : Mid c o) :
    ∃ o', o.viaVim c CharEnter = .ok o' ∧ o'.events = o.events ++ [.line o.rb.buf] ∧ o'.rb.buf = [] ∧ o'.rb.idx = 0 ∧
      o'.rb.lastKill = o.rb.lastKill ∧ o'.inp = o.inp ∧ o'.stopped = o.stopped ∧ o'.search.inMode = false := by
  obtain ⟨b, e1, _, e3⟩ := viaVim_out (c := c) (o := o) (.inl rfl)
  have hm1 : Mid c { o with vimNormal := b } :=
    ⟨⟨hm.base.rb, hm.base.hist, hm.base.sw, hm.base.cw, hm.base.col⟩, hm.son, hm.soff, hm.nosel, hm.auto, hm.fits, hm.excl,
      fun a (d : b = true) => by rw [e3 a] at d; cases d⟩
  obtain ⟨o', f1, f2⟩ := dispatch_safe (r := CharEnter) hf hm1 (fun a => absurd a (by decide)) (fun a => absurd a (by decide))
    (fun a => absurd a (by decide)) (fun _ _ => by decide)
  obtain ⟨k, g1, g2⟩ := dispatch_ok hp.listener f1
  rw [key_enter (.inl rfl)] at g1
  obtain ⟨d1, d2, d3, d4, d5, d6, d7, d8, d9, d10, _⟩ := keyEnter_ok g1
  refine ⟨o', by rw [e1]; exact f1, g2.events.trans d3, ?_, ?_, ?_, g2.inp.trans d6, g2.stopped.trans d9, ?_⟩
  · show o'.rb.toEd.buf = _; rw [g2.line, d1]
  · show o'.rb.toEd.idx = _; rw [g2.line, d1]
  · show o'.rb.toEd.lastKill = _; rw [g2.line, d1]
  · cases hh : o'.search.inMode with
    | false => rfl
    | true =>
      have := (g2.smode.1 hh).1
      rw [d4] at this; cases this

end RL.Op
