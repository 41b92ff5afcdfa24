import Verif.Proofs.Typing
import Verif.Props.Safety
/-! # C29-C32: what `Readline` returns -/

namespace RL
open Spec RB Ed

/-- A session between two calls of `Readline`: no search, no menu, nothing typed but not returned yet except a default
line, emacs keys active. -/
structure Ready (c : OCfg) (o : Op) : Prop where
  quiet : Op.Quiet c o
  emacs : Op.Emacs c o
  events : o.events = []
  running : o.stopped = false

/-- A new session is ready. -/
theorem init_Ready {c : OCfg} {prompt : List Rune} {w : Int} {h : Hist} {keys : List Rune} {p : Nat} (hw : 0 < w)
    (hp : (RB.new prompt true w).promptLen c.U = .ok p) (hdvd : 0 < p → ¬ w ∣ (p : Int)) (hpaint : c.d.painter ≠ none)
    (hh : h.WF) : Ready c (Op.init prompt true w h keys) :=
  ⟨⟨(init_Inv hw hp hdvd hpaint hh).base, rfl, ⟨rfl, rfl⟩, rfl, rfl⟩, .inr rfl, rfl, rfl⟩

theorem Op.readline_start {c : OCfg} {o : Op} (h : Ready c o) :
    ∃ o1, (∀ fuel, o.readline c fuel = Op.await c fuel o1) ∧ Ready c o1 ∧ o1.Live ∧ o1.rb.toEd = o.rb.toEd ∧ o1.inp = o.inp ∧
      o1.hist = o.hist ∧ o1.vimNormal = o.vimNormal ∧ o1.comp = o.comp ∧ o1.search = o.search := by
  obtain ⟨r, e1, e2, e3, e4⟩ := h.quiet.base.refreshNil
  refine ⟨Op.kickRead { o with rb := r }, fun fuel => by unfold Op.readline; rw [e1, R.bind_ok], ⟨⟨⟨e4.rb, e4.hist, e4.sw, e4.cw, e4.col⟩, h.quiet.smode,
    h.quiet.marks, h.quiet.cmode, h.quiet.nosel⟩, h.emacs, h.events, h.running⟩, .inr rfl, e2, rfl, rfl, rfl, rfl, rfl⟩

theorem Op.await_step {c : OCfg} {o o1 : Op} {n : Nat} (he : o.events = []) (hs : o.stopped = false) (h : o.iter c = .ok o1) :
    Op.await c (n + 1) o = Op.await c n o1 := by
  conv => lhs; unfold Op.await
  rw [he]
  dsimp only
  rw [if_neg (by simp [hs]), h, R.bind_ok]

theorem Op.await_done {c : OCfg} {o : Op} {e : Event} {n : Nat} (he : o.events = [e]) :
    Op.await c n o = .ok (e, { o with events := [] }) := by
  unfold Op.await
  rw [he]

/-- Typing editing keys: each takes one iteration and no result is produced. -/
theorem Op.await_typed {c : OCfg} (hp : Op.Plain c) {keys : List Rune} {a z : Line} (ht : Typed keys a z) :
    ∀ {o : Op} {rest : List Rune}, Ready c o → o.Live → o.inp = keys ++ rest → o.rb.toEd.line = a →
    ∃ o', (∀ n, Op.await c (n + keys.length) o = Op.await c n o') ∧ Ready c o' ∧ o'.Live ∧ o'.inp = rest ∧ o'.rb.toEd.line = z := by
  induction ht with
  | nil z => intro o rest h hl hi he; exact ⟨o, fun _ => rfl, h, hl, hi, he⟩
  | @cons r ks z z' z'' hr _ ih =>
    intro o rest h hl hi he
    obtain ⟨o1, e1, e2, e3, e4, e5, e6, e7, e8⟩ := Op.iter_edit hp h.quiet hl h.emacs (r := r) (rest := ks ++ rest) hi (z := z') (by rw [he]; exact hr)
    obtain ⟨o', f1, f2⟩ := ih (o := o1) (rest := rest) ⟨e2, h.emacs.imp_right (fun a => e8.trans a), e6.trans h.events, e7.trans h.running⟩ e3 e4 e5
    refine ⟨o', fun n => ?_, f2⟩
    show Op.await c (n + ks.length + 1) o = _
    rw [Op.await_step h.events h.running e1, f1]

/-- C29.  Starting from any line (empty, or the default text), type and edit with any sequence of editing keys and press
Enter: `Readline` returns exactly the text the textbook editor then holds.  Afterwards the line is empty, the cut buffer
is kept, the keys typed ahead are still there, and the session is ready for the next call. -/
theorem C29_readline {c : OCfg} (hp : Op.Plain c) {o : Op} (h : Ready c o) {keys rest : List Rune} {e : Rune}
    (he : e = CharEnter ∨ e = CharCtrlJ) (hi : o.inp = keys ++ e :: rest) {z : Line} (ht : Typed keys o.rb.toEd.line z)
    {fuel : Nat} (hf : keys.length < fuel) :
    ∃ o', o.readline c fuel = .ok (.line z.text, o') ∧ Ready c o' ∧ o'.inp = rest ∧ o'.rb.buf = [] ∧ o'.rb.idx = 0 ∧
      o'.rb.lastKill = z.kill := by
  obtain ⟨o1, a1, a2, a3, a4, a5, _⟩ := Op.readline_start h
  obtain ⟨o2, b1, b2, b3, b4, b5⟩ := Op.await_typed hp ht a2 a3 (a5.trans hi) (by rw [a4])
  obtain ⟨o3, d1, d2, d3, d4, d5, d6, d7⟩ := Op.iter_submit hp b2.quiet b3 b2.emacs he b4
  rw [b2.events] at d5
  obtain ⟨m, rfl⟩ : ∃ m, fuel = (m + 1) + keys.length := ⟨fuel - keys.length - 1, by omega⟩
  have htext : o2.rb.buf = z.text := by rw [← b5, Ed.line_text]
  refine ⟨{ o3 with events := [] }, ?_, ⟨⟨⟨d2.base.rb, d2.base.hist, d2.base.sw, d2.base.cw, d2.base.col⟩, d2.smode, d2.marks, d2.cmode, d2.nosel⟩,
    b2.emacs.imp_right (fun a => d7.trans a), rfl, d6.trans b2.running⟩, d3, by show o3.rb.toEd.buf = []; rw [d4],
    by show o3.rb.toEd.idx = 0; rw [d4], ?_⟩
  · rw [a1, b1, Op.await_step b2.events b2.running d1, Op.await_done d5, htext]
  · show o3.rb.toEd.lastKill = _
    rw [d4, ← b5]
    rfl

/-- Type "ab cd", Alt-B, Ctrl-K, Ctrl-A, Ctrl-Y, Backspace, Alt-F, Ctrl-H: the editor holds "cab". -/
example : ∃ z, Typed [97, 98, 32, 99, 100, -1, 11, 1, 25, 127, -2, 8] (o0 []).rb.toEd.line z ∧ z.text = [99, 97, 98] := by
  refine ⟨_, .cons (.inl rfl) (.cons (.inl rfl) (.cons (.inl rfl) (.cons (.inl rfl) (.cons (.inl rfl)
    (.cons (z' := ⟨[97, 98, 32], [99, 100], []⟩) (.inr (.inl ⟨rfl, 3, .inl ⟨by decide, ?_, fun j h1 h2 => ?_⟩, rfl, rfl, rfl⟩))
    (.cons (.inl rfl) (.cons (.inl rfl) (.cons (.inl rfl) (.cons (.inl rfl)
    (.cons (z' := ⟨[99, 97, 98, 32], [], [99, 100]⟩) (.inr (.inr (.inl ⟨rfl, 4, .inr ⟨fun j h1 => ?_, rfl⟩, rfl, rfl, rfl⟩)))
    (.cons (.inl rfl) (.nil _)))))))))))), rfl⟩
  · exact ⟨32, 99, by decide, rfl, rfl, by unfold WordChar; decide, by unfold WordChar; decide⟩
  · have h1 : 3 < j := h1
    have h2 : j < 5 := h2
    have : j = 4 := by omega
    subst this
    rintro ⟨a, b, _, ha, _, hc, _⟩
    cases ha
    exact hc (by unfold WordChar; decide)
  · have h1 : 1 < j := h1
    rintro ⟨a, b, _, ha, hb, hc, hd⟩
    have hj : j < 4 := by
      rcases Nat.lt_or_ge j 4 with h | h
      · exact h
      · rw [List.getElem?_eq_none (by exact h)] at hb; cases hb
    have : j = 2 ∨ j = 3 := by omega
    rcases this with rfl | rfl
    · cases ha; exact hc (by unfold WordChar; decide)
    · cases hb; exact absurd hd (by unfold WordChar; decide)

/-- Type "ab", Ctrl-T, then Ctrl-A, Alt-D: the editor holds nothing and has cut "ba". -/
example : Typed [97, 98, 20, 1, -3] (o0 []).rb.toEd.line ⟨[], [], [98, 97]⟩ := by
  refine .cons (.inl rfl) (.cons (.inl rfl) (.cons (z' := ⟨[98, 97], [], []⟩)
    (.inr (.inr (.inr (.inr (.inr ⟨rfl, [], 97, 98, [], rfl, rfl, fun _ => rfl, fun _ h => (h rfl).elim, fun _ => rfl⟩)))))
    (.cons (.inl rfl) (.cons (.inr (.inr (.inr (.inr (.inl ⟨rfl, .inr ⟨by decide, 2,
      ⟨0, by decide, by decide, fun j h1 h2 => by omega, fun c h => ?_, .inr ⟨fun j h1 => ?_, rfl⟩⟩, rfl⟩⟩))))) (.nil _)))))
  · cases h; unfold WordChar; decide
  · rintro ⟨a, b, _, ha, hb, hc, _⟩
    have hj : j < 2 := by
      rcases Nat.lt_or_ge j 2 with h | h
      · exact h
      · rw [List.getElem?_eq_none (by exact h)] at hb; cases hb
    have : j = 1 := by omega
    subst this
    cases ha
    exact hc (by unfold WordChar; decide)

example : Ready c0 (o0 [97, 13]) := init_Ready (p := 2) (by decide) rfl (by decide) (by decide) (Hist.fresh_WF _)
example : Op.Plain c0 := ⟨rfl, by simp [Op.Observer, c0]⟩

/-- C29 in any mode but the selection menu: Enter returns the line as it stands, also while a search or the list of
candidates is shown (in vim normal mode too). -/
theorem C29_enter {c : OCfg} (hp : Op.Plain c) (hf : Op.Friendly c) {o : Op} (hi : Op.Inv c o) (hl : o.Live) (hs : o.comp.inSelect = false)
    {rest : List Rune} (hin : o.inp = CharEnter :: rest) :
    ∃ o', o.iter c = .ok o' ∧ o'.events = o.events ++ [.line o.rb.buf] ∧ o'.rb.buf = [] ∧ o'.rb.idx = 0 ∧
      o'.rb.lastKill = o.rb.lastKill ∧ o'.inp = rest ∧ o'.stopped = o.stopped ∧ o'.search.inMode = false := by
  rw [Op.iter_nomenu hl hp.filter hin (by decide) hs]
  exact Op.enter_any hp hf ((hi.io rest (stopKey CharEnter) (if o.gate then false else o.kick)).mid hs)

/-! ## C30 -/

/-- C30.  Ctrl-C outside search and completion, in emacs mode or either vim mode: the current line is reported as
interrupted, whatever the interrupt prompt; the line is emptied, no entry and no file content changes, and the history is
at its end again with all pending edits dropped. -/
theorem C30_interrupt {c : OCfg} (hp : Op.Plain c) {o : Op} (h : Op.Quiet c o) (hl : o.Live) {rest : List Rune}
    (hi : o.inp = CharInterrupt :: rest) :
    ∃ o', o.iter c = .ok o' ∧ Op.Quiet c o' ∧ o'.inp = rest ∧ o'.events = o.events ++ [.interrupt o.rb.buf] ∧
      o'.rb.buf = [] ∧ o'.rb.idx = 0 ∧ o'.rb.lastKill = o.rb.lastKill ∧ o'.hist.order = o.hist.order ∧
      o'.hist.entries = o.hist.entries ∧ o'.hist.disk = o.hist.disk ∧ o'.hist.current = o'.hist.back ∧
      ∀ x, o'.hist.showItem x = (o.hist.elems x).source := by
  obtain ⟨o', e1, e2, e3, e4, e5, e6, e7, e8⟩ := Op.iter_interrupt hp h hl hi
  refine ⟨o', e1, e2, e3, e5, by show o'.rb.toEd.buf = _; rw [e4], by show o'.rb.toEd.idx = _; rw [e4], by show o'.rb.toEd.lastKill = _; rw [e4],
    e8.order, ?_, e8.disk, e8.current, e8.shown⟩
  unfold Hist.entries
  rw [e8.order, e8.elems]

/-- C30 for whole calls: edit with any keys and press Ctrl-C. -/
theorem C30_readline {c : OCfg} (hp : Op.Plain c) {o : Op} (h : Ready c o) {keys rest : List Rune}
    (hi : o.inp = keys ++ CharInterrupt :: rest) {z : Line} (ht : Typed keys o.rb.toEd.line z) {fuel : Nat} (hf : keys.length < fuel) :
    ∃ o', o.readline c fuel = .ok (.interrupt z.text, o') ∧ Ready c o' ∧ o'.inp = rest ∧ o'.rb.buf = [] ∧ o'.rb.idx = 0 ∧
      o'.hist.current = o'.hist.back := by
  obtain ⟨o1, a1, a2, a3, a4, a5, _⟩ := Op.readline_start h
  obtain ⟨o2, b1, b2, b3, b4, b5⟩ := Op.await_typed hp ht a2 a3 (a5.trans hi) (by rw [a4])
  obtain ⟨o3, d1, d2, d3, d4, d5, d6, d7, d8⟩ := Op.iter_interrupt hp b2.quiet b3 b4
  rw [b2.events] at d5
  obtain ⟨m, rfl⟩ : ∃ m, fuel = (m + 1) + keys.length := ⟨fuel - keys.length - 1, by omega⟩
  have htext : o2.rb.buf = z.text := by rw [← b5, Ed.line_text]
  refine ⟨{ o3 with events := [] }, ?_, ⟨d2.events _, d7, rfl, d6.trans b2.running⟩, d3, by show o3.rb.toEd.buf = []; rw [d4],
    by show o3.rb.toEd.idx = 0; rw [d4], d8.current⟩
  rw [a1, b1, Op.await_step b2.events b2.running d1, Op.await_done d5, htext]

/-- "ab" typed, Ctrl-C with the prompt "^C": the hypotheses of `C30_readline` hold, and the call returns "ab". -/
example : firstResult c0 (o0 [97, 98, 3]) = .ok (.interrupt [97, 98]) := by decide

/-! ## C31 -/

/-- C31, empty line: Ctrl-D outside search and completion ends the input; no entry and no file content changes, and the
history is at its end again with all pending edits dropped. -/
theorem C31_eof_partial {c : OCfg} (hp : Op.Plain c) {o : Op} (h : Op.Quiet c o) (hl : o.Live) (hv : Op.Emacs c o)
    {rest : List Rune} (hi : o.inp = CharDelete :: rest) (h0 : o.rb.buf = []) :
    ∃ o', o.iter c = .ok o' ∧ Op.Quiet c o' ∧ o'.inp = rest ∧ o'.events = o.events ++ [.eof] ∧ o'.rb.buf = [] ∧ o'.rb.idx = 0 ∧
      o'.hist.order = o.hist.order ∧ o'.hist.entries = o.hist.entries ∧ o'.hist.disk = o.hist.disk ∧ o'.stopped = o.stopped ∧
      o'.hist.current = o'.hist.back ∧ (∀ x, o'.hist.showItem x = (o.hist.elems x).source) ∧ o'.rb.lastKill = o.rb.lastKill := by
  obtain ⟨o', e1, e2, e3, e4, e5, e6, e7, e8⟩ := Op.iter_eof hp h hl hv hi h0
  refine ⟨o', e1, e2, e3, e5, by show o'.rb.toEd.buf = _; rw [e4], by show o'.rb.toEd.idx = _; rw [e4], e8.order, ?_, e8.disk, e6,
    e8.current, e8.shown, by show o'.rb.toEd.lastKill = _; rw [e4]⟩
  unfold Hist.entries
  rw [e8.order, e8.elems]

/-- C31 otherwise: with text in the line, or during a search, while candidates are listed or chosen from, Ctrl-D deletes the rune
under the cursor (nothing at the end of the line); nothing is returned and the terminal goes on reading. -/
theorem C31_delete_partial {c : OCfg} (hp : Op.Plain c) (hf : Op.Friendly c) {o : Op} (h : Op.Inv c o) (hl : o.Live) (hv : Op.Emacs c o)
    {rest : List Rune} (hi : o.inp = CharDelete :: rest) (hn : o.rb.buf ≠ [] ∨ o.search.inMode = true ∨ o.comp.inComplete = true) :
    ∃ o', o.iter c = .ok o' ∧ Op.Inv c o' ∧ o'.inp = rest ∧ o'.events = o.events ∧ o'.rb.toEd.line = o.rb.toEd.line.delete ∧
      o'.stopped = o.stopped ∧ o'.Live ∧ o'.comp.inSelect = false ∧ o'.comp.inComplete = false := by
  -- the state in which the key switch starts
  obtain ⟨o1, hit, hm, hed, hinp, hev, hst, hn1⟩ : ∃ o1 : Op, o.iter c = o1.dispatch c CharDelete ∧ Op.Mid c o1 ∧
      o1.rb.toEd = o.rb.toEd ∧ o1.inp = rest ∧ o1.events = o.events ∧ o1.stopped = o.stopped ∧
      (o1.rb.buf ≠ [] ∨ o1.search.inMode = true ∨ o1.comp.inComplete = true) := by
    by_cases hs : o.comp.inSelect = true
    · obtain ⟨r1, e1, e2, e3⟩ := Op.iter_leave h hl hp.filter hi (by decide) (by unfold Op.MenuKey; decide) hs
        (hv.imp_right (fun a => ⟨a, by decide⟩))
      exact ⟨_, e1, e2, e3, rfl, rfl, rfl, .inr (.inr (h.comp.sel hs).1)⟩
    · have hs : o.comp.inSelect = false := by simpa using hs
      exact ⟨_, Op.iter_emacs hl hp.filter hi (by decide) hs (hv.imp_right (fun a => ⟨a, by decide⟩)), (h.io _ _ _).mid hs, rfl, rfl,
        rfl, rfl, hn⟩
  obtain ⟨o', e1, e2⟩ := Op.dispatch_safe (r := CharDelete) hf hm (fun a => absurd a (by decide)) (fun a => absurd a (by decide))
    (fun a => absurd a (by decide)) (fun _ _ => by decide)
  obtain ⟨k, f1, f2⟩ := Op.dispatch_ok hp.listener e1
  have f0 := f1
  rw [Op.key_delete] at f1
  obtain ⟨d1, d2, d3, d4, d5, d6, d7, d8, d9, d10, d11, d12, d13, d14⟩ := Op.keyDelete_del f1 hn1
  obtain ⟨e', e4, _, e6⟩ := core_basic (c := .delete) rfl (show o1.rb.toEd.CursorIn from hm.base.rb.idx)
  have d1 : Cmd.core .delete o1.rb.toEd = .ok k.op.rb.toEd := d1
  rw [e4, Except.ok.injEq] at d1
  have hcm := Op.dispatch_leaves hp.listener f0 d13 (by rw [d5]; exact hm.nosel) (by rw [d4, d5]; exact hm.excl) e1
  refine ⟨o', by rw [hit]; exact e1, e2, f2.inp.trans (d6.trans hinp), f2.events.trans (d3.trans hev), ?_, f2.stopped.trans (d9.trans hst),
    .inr (f2.kick.trans d8), hcm⟩
  rw [f2.line, ← d1, e6, ← hed]

/-- Vim's normal mode is excluded above, and has to be: there Ctrl-D neither deletes nor ends the input, and the terminal
waits for a wake-up that never comes. -/
theorem C31_vim_normal : firstResult { c0 with vim := true } (o0 [97, CharEsc, CharDelete, 105, 98, 13]) = .error .block ∧
    firstResult { c0 with vim := true } (o0 [CharEsc, CharDelete, 13]) = .error .block := by decide

/-- Ctrl-D on an empty line, in the middle and at the end of a line, and during a search. -/
example : firstResult c0 (o0 [4]) = .ok .eof ∧ firstResult c0 (o0 [97, 98, 2, 4, 13]) = .ok (.line [97]) ∧
    firstResult c0 (o0 [97, 98, 4, 13]) = .ok (.line [97, 98]) ∧
    calls c0 20 2 (o0 [97, 98, 13, CharBckSearch, 97, 4, 13]) = .ok [.line [97, 98], .line [98]] := by decide

/-- Two candidates for every line. -/
def two31 : Completer := fun _ _ => ([[120], [121]], 0)

/-- Tab lists the candidates of `ab` (cursor on `b`), Tab again opens the menu, Ctrl-D closes it and deletes the `b`; on an empty line
with the menu open, Ctrl-D does not end the input. -/
example : firstResult { c0 with auto := some two31 } (o0 [97, 98, 2, 9, 9, 4, 13]) = .ok (.line [97]) ∧
    firstResult { c0 with auto := some two31 } (o0 [9, 9, 4, 97, 13]) = .ok (.line [97]) := by decide

/-! ## C32 -/

/-- C32.  The input ends after any editing keys: the pending line, if not empty, is returned as if Enter had been pressed,
and the next call reports the end of input; an empty line reports it at once.  (Further calls: see C61.) -/
theorem C32_end_of_input {c : OCfg} (hp : Op.Plain c) {o : Op} (h : Ready c o) {keys : List Rune} (hi : o.inp = keys) {z : Line}
    (ht : Typed keys o.rb.toEd.line z) {fuel : Nat} (hf : keys.length < fuel) :
    ∃ o1, (if z.text = [] then o.readline c fuel = .ok (.eof, o1) ∧ o1.stopped = true
      else o.readline c fuel = .ok (.line z.text, o1) ∧ o1.rb.buf = [] ∧
        ∃ o2, o1.readline c fuel = .ok (.eof, o2) ∧ o2.stopped = true) := by
  have hf0 : Op.filtered c 0 = some 0 := by unfold Op.filtered; rw [hp.filter]
  have hend : ∀ {o o2 : Op} {n : Nat}, Op.Base c o2 → o2.Live → o2.inp = [] → o2.rb.buf = [] → o2.events = [] → o2.stopped = false →
      ∃ o3, Op.await c (n + 1) o2 = .ok (.eof, o3) ∧ o3.stopped = true := by
    intro o o2 n b1 b2 b3 b4 b5 b6
    obtain ⟨o3, d1, d2, d3, d4, d5, d6⟩ := Op.iter_end_empty hf0 b1 b2 b3 b4
    rw [b5] at d4
    exact ⟨{ o3 with events := [] }, by rw [Op.await_step b5 b6 d1, Op.await_done d4], d5⟩
  obtain ⟨o1, a1, a2, a3, a4, a5, _⟩ := Op.readline_start h
  obtain ⟨o2, b1, b2, b3, b4, b5⟩ := Op.await_typed (rest := []) hp ht a2 a3 (by rw [List.append_nil]; exact a5.trans hi) (by rw [a4])
  obtain ⟨m, rfl⟩ : ∃ m, fuel = (m + 1) + keys.length := ⟨fuel - keys.length - 1, by omega⟩
  have htext : o2.rb.buf = z.text := by rw [← b5, Ed.line_text]
  by_cases h0 : z.text = []
  · simp only [if_pos h0, a1, b1]
    exact hend (o := o) b2.quiet.base b3 b4 (htext.trans h0) b2.events b2.running
  · simp only [if_neg h0, a1, b1]
    obtain ⟨o3, d1, d2, d3, d4, d5, d6, d7, d8⟩ := Op.iter_end_line hp b2.quiet b3 b4 (by rw [htext]; exact h0)
    rw [b2.events] at d6
    refine ⟨{ o3 with events := [] }, by rw [Op.await_step b2.events b2.running d1, Op.await_done d6, htext],
      by show o3.rb.toEd.buf = []; rw [d5], ?_⟩
    have hr : Ready c { o3 with events := [] } := ⟨d2.events _, d8, rfl, d7.trans b2.running⟩
    obtain ⟨o4, f1, f2, f3, f4, f5, _⟩ := Op.readline_start hr
    rw [f1]
    refine (Nat.add_right_comm m 1 keys.length) ▸ hend (o := o) f2.quiet.base f3 (f5.trans d3) ?_ f2.events f2.running
    show o4.rb.toEd.buf = []
    rw [f4]
    show o3.rb.toEd.buf = []
    rw [d5]

/-- C32 in any state but the selection menu (search, listed candidates, vim normal mode): a pending line is returned. -/
theorem C32_pending {c : OCfg} (hp : Op.Plain c) (hf : Op.Friendly c) {o : Op} (hi : Op.Inv c o) (hl : o.Live)
    (hs : o.comp.inSelect = false) (hin : o.inp = []) (h0 : o.rb.buf ≠ []) :
    ∃ o', o.iter c = .ok o' ∧ o'.events = o.events ++ [.line o.rb.buf] ∧ o'.rb.buf = [] := by
  obtain ⟨o', e1, e2, e3, _⟩ := Op.enter_any hp hf ((hi.io o.inp false (if o.gate then false else o.kick)).mid hs)
  refine ⟨o', ?_, e2, e3⟩
  unfold Op.iter
  rw [Op.readRune_end hl hin, R.bind_ok]
  unfold Op.accept
  rw [hp.filter]
  dsimp only
  unfold Op.handle
  rw [if_pos rfl, if_neg (by show ¬ o.rb.buf.length = 0; intro a; exact h0 (List.eq_nil_of_length_eq_zero a))]
  unfold Op.viaMenu
  rw [if_neg (by show ¬ o.comp.inSelect = true; simp [hs])]
  exact e1

/-- In the selection menu the end of input first takes the highlighted candidate and then returns the line. -/
example : calls { c0 with auto := offers 0 [[120], [121]] } 20 2 (o0 [97, 9, 9]) = .ok [.line [97, 120], .eof] ∧
    calls c0 20 2 (o0 [97, 98]) = .ok [.line [97, 98], .eof] ∧ calls c0 20 1 (o0 []) = .ok [.eof] := by decide

/-- C61.  After the end of input has been reported the editing goroutine is gone: every further call of `Readline` waits
for ever, whatever the state. -/
theorem C61_after_eof {c : OCfg} {o : Op} (hb : Op.Base c o) (he : o.events = []) (hst : o.stopped = true) (fuel : Nat) (hf : 0 < fuel) :
    o.readline c fuel = .error .block := by
  obtain ⟨r, e1, _⟩ := hb.refreshNil
  unfold Op.readline
  rw [e1, R.bind_ok]
  obtain ⟨m, rfl⟩ : ∃ m, fuel = m + 1 := ⟨fuel - 1, by omega⟩
  unfold Op.await Op.kickRead
  dsimp only
  rw [he]
  dsimp only
  rw [if_pos hst]

/-- C61 for sessions: the input ends after editing keys that leave the line empty.  The call reports the end of input, and
no later call returns. -/
theorem C61_session {c : OCfg} (hp : Op.Plain c) {o : Op} (h : Ready c o) {keys : List Rune} (hi : o.inp = keys) {z : Line}
    (ht : Typed keys o.rb.toEd.line z) (hz : z.text = []) {fuel : Nat} (hf : keys.length < fuel) :
    ∃ o1, o.readline c fuel = .ok (.eof, o1) ∧ ∀ fuel', 0 < fuel' → o1.readline c fuel' = .error .block := by
  obtain ⟨o1, a1, a2, a3, a4, a5, _⟩ := Op.readline_start h
  obtain ⟨o2, b1, b2, b3, b4, b5⟩ := Op.await_typed (rest := []) hp ht a2 a3 (by rw [List.append_nil]; exact a5.trans hi) (by rw [a4])
  obtain ⟨m, rfl⟩ : ∃ m, fuel = (m + 1) + keys.length := ⟨fuel - keys.length - 1, by omega⟩
  have htext : o2.rb.buf = z.text := by rw [← b5, Ed.line_text]
  obtain ⟨o3, d1, d2, d3, d4, d5, d6, d7⟩ := Op.iter_end_empty (by unfold Op.filtered; rw [hp.filter]) b2.quiet.base b3 b4 (htext.trans hz)
  rw [b2.events] at d4
  refine ⟨{ o3 with events := [] }, by rw [a1, b1, Op.await_step b2.events b2.running d1, Op.await_done d4],
    C61_after_eof ⟨d7.rb, d7.hist, d7.sw, d7.cw, d7.col⟩ rfl d5⟩

/-- The hypotheses hold after the input of a new session has ended with an empty line. -/
example : calls c0 20 2 (o0 []) = .error .block ∧ calls c0 20 3 (o0 [97]) = .error .block := by decide

end RL
