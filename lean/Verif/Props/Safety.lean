import Verif.Proofs.Operation
import Verif.Spec.Session
/-! # C15: no key crashes the editing loop

The statement as given is false of the code; the theorems named `C15_crash_…` are concrete sessions that end in a
run-time panic.  `C15_no_crash_partial` says that these are all the reasons there are: on a terminal with a positive
width whose prompt can be drawn, with a completer whose answers fit the line and a listener that only observes, the loop
never panics and never spins as long as none of the six kinds of key in `Op.Risky` is pressed. -/

namespace RL
open Spec RB Ed

/-- A session: iterations of the editing loop in which no risky key is read, and calls of `Readline` by the program. -/
inductive Session (c : OCfg) : Op → Op → Prop
  | start (o) : Session c o o
  | key {o o1 o2} : Session c o o1 → (∀ r, Op.filtered c o1.nextKey = some r → ¬ Op.Risky c o1 r) →
      o1.iter c = .ok o2 → Session c o o2
  | call {o o1 o2} : Session c o o1 → o1.refreshNil c = .ok o2 → Session c o o2.kickRead
  /-- the caller of `Readline` has received the results -/
  | taken {o o1} (es) : Session c o o1 → Session c o { o1 with events := es }

/-- A new instance on a terminal of positive width, with a prompt that can be drawn, is in the safe states. -/
theorem init_Inv {c : OCfg} {prompt : List Rune} {w : Int} {h : Hist} {keys : List Rune} {p : Nat} (hw : 0 < w)
    (hp : (RB.new prompt true w).promptLen c.U = .ok p) (hdvd : 0 < p → ¬ w ∣ (p : Int)) (hpaint : c.d.painter ≠ none)
    (hh : h.WF) : Op.Inv c (Op.init prompt true w h keys) := by
  refine Op.Quiet.inv ⟨⟨⟨hw, .inr ⟨hpaint, hw, p, hp, hdvd⟩, ⟨p, hp⟩, ?_⟩, hh, rfl, rfl, by simp [Op.init, Comp.new]⟩, rfl, ⟨rfl, rfl⟩,
    rfl, rfl⟩
  exact ⟨by simp [Ed.CursorIn, Op.init, RB.new], by simp [Op.init, RB.new]⟩

theorem Session.inv {c : OCfg} (hf : Op.Friendly c) {o o' : Op} (h : Session c o o') (hi : Op.Inv c o) : Op.Inv c o' := by
  induction h with
  | start => exact hi
  | key _ hr e ih =>
    rcases Op.iter_safe hf ih hr with h | ⟨a, h, ha⟩
    · rw [h] at e; cases e
    · rw [h, Except.ok.injEq] at e
      subst e; exact ha
  | call _ e ih =>
    obtain ⟨r, e1, e2, e3, e4⟩ := ih.base.refreshNil
    rw [e1, Except.ok.injEq] at e
    subst e
    exact (ih.withRb e4.rb e2 e3).io _ _ _
  | taken es _ ih =>
    have := ih
    exact ⟨⟨this.base.rb, this.base.hist, this.base.sw, this.base.cw, this.base.col⟩, this.son, this.soff, this.comp,
      this.excl, this.vim⟩

/-- The state `o` occurs in a session without risky keys on a new instance, on a terminal of positive width whose prompt
can be drawn; the history has just been set up. -/
structure Reachable (c : OCfg) (o : Op) : Prop where
  session : ∃ prompt w h keys p, 0 < w ∧ (RB.new prompt true w).promptLen c.U = .ok p ∧ (0 < p → ¬ w ∣ (p : Int)) ∧
    c.d.painter ≠ none ∧ h.WF ∧ h.current = h.back ∧ Session c (Op.init prompt true w h keys) o

theorem Reachable.inv {c : OCfg} (hf : Op.Friendly c) {o : Op} (h : Reachable c o) : Op.Inv c o := by
  obtain ⟨_, _, _, _, _, h1, h2, h3, h4, h5, _, h6⟩ := h.session
  exact h6.inv hf (init_Inv h1 h2 h3 h4 h5)

/-- C15, partial.  Full statement: no key crashes the loop.  Missing: the keys in `Op.Risky`, unfriendly callbacks, and
terminals without a positive width or with an undrawable prompt; for each of these a crashing session is given below. -/
theorem C15_no_crash_partial {c : OCfg} (hf : Op.Friendly c) {prompt : List Rune} {w : Int} {h : Hist} {keys : List Rune}
    {p : Nat} (hw : 0 < w) (hp : (RB.new prompt true w).promptLen c.U = .ok p) (hdvd : 0 < p → ¬ w ∣ (p : Int))
    (hpaint : c.d.painter ≠ none) (hh : h.WF) {o : Op} (hs : Session c (Op.init prompt true w h keys) o)
    (hr : ∀ r, Op.filtered c o.nextKey = some r → ¬ Op.Risky c o r) :
    o.iter c ≠ .error .panic ∧ o.iter c ≠ .error .hang := by
  have hi := hs.inv hf (init_Inv hw hp hdvd hpaint hh)
  rcases Op.iter_safe hf hi hr with h | ⟨a, h, _⟩ <;> rw [h] <;> simp

/-- C15, partial.  Between iterations the cursor is in the line, the highlighted candidate exists, and search and
completion never run at the same time. -/
theorem C15_invariant_partial {c : OCfg} (hf : Op.Friendly c) {prompt : List Rune} {w : Int} {h : Hist} {keys : List Rune}
    {p : Nat} (hw : 0 < w) (hp : (RB.new prompt true w).promptLen c.U = .ok p) (hdvd : 0 < p → ¬ w ∣ (p : Int))
    (hpaint : c.d.painter ≠ none) (hh : h.WF) {o : Op} (hs : Session c (Op.init prompt true w h keys) o) :
    o.rb.idx ≤ o.rb.buf.length ∧
    (o.comp.inSelect = true → 0 ≤ o.comp.choise ∧ o.comp.choise < o.comp.candidate.length) ∧
    ¬ (o.search.inMode = true ∧ o.comp.inComplete = true) := by
  have hi := hs.inv hf (init_Inv hw hp hdvd hpaint hh)
  refine ⟨hi.base.rb.idx, fun a => (hi.comp.sel a).2, fun ⟨a, b⟩ => ?_⟩
  rw [hi.excl a] at b; cases b

/-- The hypotheses hold for a default session that has typed "ab" and opened the menu, and the next key (Ctrl-N) is not
risky. -/
example : ∃ o, Session { c0 with auto := offers 0 [[120], [121]] } (o0 [97, 98, 9, 9, 14]) o ∧ o.comp.inSelect = true ∧
    o.comp.choise = 0 ∧ (∀ r, Op.filtered { c0 with auto := offers 0 [[120], [121]] } o.nextKey = some r →
      ¬ Op.Risky { c0 with auto := offers 0 [[120], [121]] } o r) := by
  refine ⟨_, .key (.key (.key (.key (.call (.start _) rfl) ?_ rfl) ?_ rfl) ?_ rfl) ?_ rfl, rfl, rfl, ?_⟩
  all_goals
    intro r hr
    have := Option.some.inj hr
    subst this
    rintro (h | h | h | h | h)
    · exact absurd h.1 (by decide)
    · exact absurd h.1 (by decide)
    · rcases h.2 with h | h
      · exact absurd h (by decide)
      · first | exact absurd h.1 (by decide) | exact absurd h.2 (by unfold Comp.Divides; decide)
    · exact absurd h.1 (by decide)
    · exact absurd h.1 (by decide)

/-- The configuration of that session is friendly. -/
example : Op.Friendly { c0 with auto := offers 0 [[120], [121]] } := by
  refine ⟨?_, by simp [c0]⟩
  intro f hf line pos cs off hpos h hne
  cases hf
  cases h
  refine ⟨by omega, by omega, ?_⟩
  intro a b d hl hb
  have : b = [] := List.eq_nil_of_length_eq_zero hb
  subst this
  simp [widthAll]

/-- (a) Ctrl-T after a single rune puts the cursor behind the end of the line; typing then crashes. -/
theorem C15_crash_transpose : firstResult c0 (o0 [97, CharTranspose, 98]) = .error .panic := by decide

/-- (b) Ctrl-R, Ctrl-G (or Ctrl-C) in a session without history dereferences a nil element. -/
theorem C15_crash_search_cancel : firstResult c0 (o0 [CharBckSearch, CharBell]) = .error .panic ∧
    firstResult c0 (o0 [CharBckSearch, CharInterrupt]) = .error .panic := by decide

/-- (c) Ctrl-K in the selection menu: the menu is redrawn without candidates and divides by zero. -/
theorem C15_crash_menu_kill :
    firstResult { c0 with auto := offers 0 [[97], [98]] } (o0 [CharTab, CharTab, CharKill]) = .error .panic := by decide

/-- (d) Ctrl-A, Ctrl-E and Ctrl-N in the menu on a terminal too narrow for one column divide by zero. -/
theorem C15_crash_menu_narrow : ∀ k ∈ [CharLineStart, CharLineEnd, CharNext],
    firstResult { c0 with auto := offers 0 [[97], [98]] } (Op.init [] true 2 (Hist.fresh []) [CharTab, CharTab, k]) =
      .error .panic := by decide

/-- (e) Vim: ESC leaves the menu half open; moving to the start of the line and Ctrl-K in insert mode crash. -/
theorem C15_crash_vim_menu : firstResult { c0 with vim := true, auto := offers 1 [[97], [98]] }
    (o0 [97, CharTab, CharEsc, 48, 105, CharKill]) = .error .panic := by decide

/-- (e) Vim: ESC leaves the search half open; deleting the line and typing crash. -/
theorem C15_crash_vim_search : calls { c0 with vim := true } 20 2
    (o0 ([97, 97, 98, CharEnter] ++ [CharBckSearch, 98, CharEsc, 100, 100, 105, 120])) = .error .panic := by decide

/-- (f) Vim: `r` at the end of the line, and `e` on the last rune of the last word. -/
theorem C15_crash_vim_keys :
    firstResult { c0 with vim := true } (o0 [CharEsc, 114, 97]) = .error .panic ∧
    firstResult { c0 with vim := true } (o0 [97, CharEsc, 104, 101]) = .error .panic := by decide

/-- A completer that reports wide text as shared makes the padding negative. -/
theorem C15_crash_wide : firstResult { c0 with auto := offers 2 [[97], [98]] } (o0 [0x4e00, 0x4e00, CharTab]) = .error .panic := by
  decide

/-- Without a terminal (width -1) Tab with several candidates and Ctrl-R crash. -/
theorem C15_crash_no_terminal :
    firstResult { c0 with auto := offers 0 [[97], [98]] } (Op.init [62, 32] false (-1) (Hist.fresh []) [CharTab]) = .error .panic ∧
    firstResult c0 (Op.init [62, 32] false (-1) (Hist.fresh []) [CharBckSearch]) = .error .panic := by decide

/-- A prompt that exactly fills the terminal makes the redraw spin as soon as the cursor
has to be moved back. -/
theorem C15_hang_prompt : firstResult c0 (Op.init [62, 32] true 2 (Hist.fresh []) [97, CharBackward]) = .error .hang := by decide

/-- A listener that shortens the line during a search makes the next step of the search crash. -/
theorem C15_crash_listener : calls { c0 with listener := some fun _ _ k => if k = 98 then some ([], 0) else none } 20 2
    (o0 ([97, 97, 99, CharEnter] ++ [CharBckSearch, 99, 98, 99])) = .error .panic := by decide

end RL
