import Verif.Proofs.Synced
/-! # C33: the submitted line is what history records -/

namespace RL
open Spec Hist

theorem keepNewest_dropLast {α} {n : Int} (hn : 0 < n) (l : List α) : (keepNewest n l).dropLast = keepNewest (n - 1) l.dropLast := by
  simp only [keepNewest, List.dropLast_eq_take, List.length_drop, List.length_take, List.drop_take]
  congr 1
  · omega
  · congr 1
    omega

theorem keepNewest_keepNewest {α} {m n : Int} (h : m ≤ n) (l : List α) : keepNewest m (keepNewest n l) = keepNewest m l := by
  simp only [keepNewest, List.length_drop, List.drop_drop]
  congr 1
  omega

theorem new_current {h h' : Hist} {cfg s} (hen : h.enable = true) (e : h.new cfg s = .ok h') : ∃ x, h'.current = some x := by
  have hcm : ∀ {h0 : Hist} {s}, h0.commit cfg s = .ok h' → ∃ x, h'.current = some x := by
    intro h0 s e
    unfold Hist.commit at e
    dsimp only at e
    split at e
    · split at e
      · cases e
      · cases e; exact ⟨_, rfl⟩
    · cases e; exact ⟨_, rfl⟩
  unfold Hist.new at e
  rw [if_neg (by simp [hen])] at e
  cases hb : h.back with
  | none => rw [hb] at e; exact hcm e
  | some b =>
    rw [hb] at e
    dsimp only at e
    split at e
    · cases e; exact ⟨_, rfl⟩
    split at e
    · cases e; exact ⟨_, rfl⟩
    · exact hcm e

/-- Saving a line and noting the empty line that follows. -/
theorem Hist.record_noted {cfg : HCfg} (hl : 0 < cfg.limit) {h : Hist} (w : h.WF) (hen : h.enable = true) {s : List Rune} (hno : h.Noted s)
    (hne : h.order ≠ [] ∨ s ≠ []) {h1 : Hist} (e : h.new cfg s = .ok h1) :
    (h1.update cfg [] false).entries = keepNewest (cfg.limit - 1) (record h.entries s) ∧
    (h1.update cfg [] false).disk = h.disk ++
      (if s ≠ [] ∧ h.entries.getLast? ≠ some s ∧ h.order ≠ [] ∧ h.fd = .opened then encode s ++ [10] else []) := by
  obtain ⟨x, hx⟩ := new_current hen e
  have hup : ∀ es, h1.entries = es → (h1.update cfg [] false).entries = keepNewest (cfg.limit - 1) es := by
    intro es hes
    obtain ⟨u1, u2, _, _⟩ := update_false_order hx cfg []
    unfold Hist.entries at hes ⊢
    rw [u1, u2, keepNewest_dropLast hl, keepNewest_map]
    congr 1
    rw [← hes]
    apply List.map_congr_left
    intro i _
    by_cases hi : i = x
    · simp [hi]
    · simp [hi]
  have hdisk : (h1.update cfg [] false).disk = h1.disk := by simp [Hist.update, hx, compact, setItem]
  rw [hdisk]
  by_cases hr : s = [] ∨ h.entries.getLast? = some s
  · have ho : h.order ≠ [] := by
      rcases hne with a | a
      · exact a
      · rcases hr with b | b
        · exact (a b).elim
        · intro c
          rw [Hist.entries, c] at b
          simp at b
    obtain ⟨h2, f1, _, f3, f4⟩ := C22_unchanged_partial cfg h w ho s hr
    rw [e, Except.ok.injEq] at f1
    subst f1
    refine ⟨?_, ?_⟩
    · rw [hup _ f3, record, if_pos hr]
    · rw [f4, if_neg, List.append_nil]
      rintro ⟨a, b, _⟩
      rcases hr with c | c
      · exact a c
      · exact b c
  · have hs : s ≠ [] := fun a => hr (.inl a)
    have hg : h.entries.getLast? ≠ some s := fun a => hr (.inr a)
    obtain ⟨h2, f1, _, f3, _, _, f6⟩ := C19_append cfg h w hen s hs hg hno
    rw [e, Except.ok.injEq] at f1
    subst f1
    refine ⟨?_, ?_⟩
    · rw [hup _ f3, record, if_neg hr, keepNewest_keepNewest (by omega)]
    · rw [f6]
      congr 1
      simp [hs, hg]

/-- A session that started with nothing recalled is in step. -/
theorem Reachable.synced {c : OCfg} (hl : 0 < c.h.limit) (hn : c.noSave = false) (hv : c.vim = false) (hf : Op.Friendly c) {o : Op}
    (h : Reachable c o) : Op.Synced o := by
  obtain ⟨_, _, _, _, _, h1, h2, h3, h4, h5, h5', h6⟩ := h.session
  exact h6.synced hl hn hv hf (init_Inv h1 h2 h3 h4 h5) fun _ => .inl h5'

/-- C33, partial.  Full statement: also during a search, with vim keys, and on an instance without any history element.
For each of these a session that records another text is given below (`C33_false_…`).

With emacs keys and auto-save, whatever was typed, recalled, edited and completed before: when Enter is pressed outside
search and menu, `Readline` gets the line, and exactly this line is recorded in the history, unless it is empty or repeats
the newest entry; of the entries the newest `HistoryLimit - 1` are kept.  The history file, if open, gets exactly that line. -/
theorem C33_recorded_partial {c : OCfg} (hf : Op.Friendly c) (hp : c.filter = none) (hl : 0 < c.h.limit) (hn : c.noSave = false)
    (hv : c.vim = false) {o : Op} (h : Reachable c o) (hsel : o.comp.inSelect = false) (hsm : o.search.inMode = false) (hlive : o.Live)
    (hen : o.hist.enable = true) (hne : o.hist.order ≠ [] ∨ o.rb.buf ≠ []) {r : Rune} {rest : List Rune} (hr : r = 13 ∨ r = 10)
    (hi : o.inp = r :: rest) :
    ∃ o', o.iter c = .ok o' ∧ o'.events = o.events ++ [.line o.rb.buf] ∧ o'.rb.buf = [] ∧
      o'.hist.entries = keepNewest (c.h.limit - 1) (record o.hist.entries o.rb.buf) ∧
      o'.hist.disk = o.hist.disk ++ (if o.rb.buf ≠ [] ∧ o.hist.entries.getLast? ≠ some o.rb.buf ∧ o.hist.order ≠ [] ∧ o.hist.fd = .opened
        then encode o.rb.buf ++ [10] else []) := by
  have hinv := h.inv hf
  have hsy := h.synced hl hn hv hf hsm
  have hm : Op.Mid c (o.took r rest) := (hinv.io _ _ _).mid hsel
  have hr' : r = CharEnter ∨ r = CharCtrlJ := hr
  have no : ∀ a : Rune, a ≠ 13 → a ≠ 10 → r ≠ a := by
    intro a h1 h2 e
    rcases hr with e1 | e1
    · exact h1 (e.symm.trans e1)
    · exact h2 (e.symm.trans e1)
  obtain ⟨o', e1, e2⟩ := Op.dispatch_safe (r := r) hf hm (fun a => (no _ (by decide) (by decide) a).elim)
    (fun a => a.elim (fun a => (no _ (by decide) (by decide) a).elim) (fun a => (no _ (by decide) (by decide) a).elim))
    (fun a => (no _ (by decide) (by decide) a).elim) (fun a => by rw [hv] at a; cases a)
  obtain ⟨k, g1, g2⟩ := Op.dispatch_ok hf.listener e1
  rw [Op.key_enter hr'] at g1
  obtain ⟨d1, d2, d3, d4, d5, d6, d7, d8, d9, d10, d11, d12, d13, d14⟩ := Op.keyEnter_ok g1
  obtain ⟨u1, u2⟩ := d13 hn
  have u2 : o.hist.new c.h o.rb.buf = .ok k.op.hist := u2
  have hbuf : k.op.rb.buf = [] := by show k.op.rb.toEd.buf = _; rw [d1]
  have hoff : o'.search.inMode = false := by
    cases hh : o'.search.inMode with
    | false => rfl
    | true =>
      have := (g2.smode.1 hh).1
      rw [d4] at this; cases this
  have hhist : o'.hist = k.op.hist.update c.h [] false := by rw [g2.hist, if_pos ⟨u1, hoff⟩, hbuf]
  obtain ⟨v1, v2⟩ := Hist.record_noted hl hinv.base.hist hen hsy hne u2
  refine ⟨o', ?_, g2.events.trans d3, ?_, by rw [hhist]; exact v1, by rw [hhist]; exact v2⟩
  · rw [Op.iter_emacs hlive hp hi (no 0 (by decide) (by decide)) hsel (.inl hv)]; exact e1
  · show o'.rb.toEd.buf = _; rw [g2.line]; exact hbuf

/-- Recall "a" with Ctrl-P twice, edit it, submit: the edited text is recorded, the original entry stays. -/
example : recorded c0 3 (o0 [97, 13, 98, 13, 16, 16, 99, 13]) = .ok ([.line [97], .line [98], .line [97, 99]], [[97], [98], [97, 99]]) := by
  decide

/-- A candidate from the menu, appended to a recalled line. -/
example : recorded { c0 with auto := offers 0 [[120], [121]] } 2 (o0 [97, 13, 16, 9, 9, 13, 13]) =
    .ok ([.line [97], .line [97, 120]], [[97], [97, 120]]) := by decide

/-- The hypotheses hold at that Enter: "a" is recalled and has been edited to "ac". -/
example : ∃ o, Reachable c0 o ∧ o.comp.inSelect = false ∧ o.search.inMode = false ∧ o.Live ∧ o.hist.enable = true ∧ o.hist.order ≠ [] ∧
    o.inp = [13] ∧ o.rb.buf = [97, 99] ∧ o.hist.current ≠ o.hist.back ∧ o.hist.entries = [[97]] := by
  refine ⟨_, ⟨[], 80, Hist.fresh [], [97, 13, 16, 99, 13], 0, by decide, rfl, by decide, by decide, Hist.fresh_WF _, rfl,
    .key (.key (.call (.taken [] (.key (.key (.call (.start _) rfl) ?_ rfl) ?_ rfl)) rfl) ?_ rfl) ?_ rfl⟩,
    rfl, rfl, .inl rfl, rfl, by decide, rfl, rfl, by decide, rfl⟩
  all_goals
    intro r hr
    have := Option.some.inj hr
    subst this
    rintro (h | h | h | h | h)
    · exact absurd h.1 (by decide)
    · exact absurd h.1 (by decide)
    · exact absurd h.1 (by decide)
    · exact absurd h.1 (by decide)
    · exact absurd h.1 (by decide)

/-- The full statement fails during a search: with "ab" and "c" loaded from the history file, Ctrl-R "a" finds "ab" and
Enter returns it, but the empty line is recorded. -/
theorem C33_false_search :
    let h : HCfg := ⟨500, true, false, true⟩
    recorded { c0 with h := h } 1 { o0 [18, 97, 13] with hist := Hist.start h [97, 98, 10, 99, 10] } =
      .ok ([.line [97, 98]], [[97, 98], [99], []]) := by decide

/-- The full statement fails during a search: "ab" was recalled and edited to "abx" before, then left; a later Ctrl-R "a"
and Enter returns "ab" and records "abx". -/
theorem C33_false_search_edited :
    recorded c0 3 (o0 [97, 98, 13, 16, 120, 14, 113, 13, 18, 97, 13]) =
      .ok ([.line [97, 98], .line [113], .line [97, 98]], [[97, 98], [113], [97, 98, 120]]) := by decide

/-- The full statement fails with vim keys: recalling "ab" with `k`, deleting "b" with `x` and pressing Enter returns "a",
but records "ab". -/
theorem C33_false_vim :
    recorded { c0 with vim := true } 3 (o0 [97, 98, 13, 99, 13, CharEsc, 107, 107, 104, 120, 13]) =
      .ok ([.line [97, 98], .line [99], .line [97]], [[97, 98], [99], [97, 98]]) := by decide

/-- The full statement fails for the first line of an instance without history: the empty line is recorded. -/
theorem C33_false_first : recorded c0 1 (o0 [13]) = .ok ([.line []], [[]]) := by decide

end RL
