import Verif.Proofs.Menu
import Verif.Props.Safety
/-! # C34, C35: completion and the selection menu -/

namespace RL
open Spec

/-! ## C34: completion inserts only what the completer offers -/

/-- C34.  Tab, outside the selection menu, inserts some text `s` at the cursor and changes nothing else of the line.
`Comp.Tabbed` says what `s` is: nothing if there are no candidates; the only candidate; the longest common prefix of
several candidates; nothing, with the menu shown, if there is no common prefix or the menu is open; and on a menu opened
for this text, its only candidate, or nothing with the first candidate highlighted. -/
theorem C34_tab {c : OCfg} (hf : Op.Friendly c) (hp : c.filter = none) {f : Completer} (ha : c.auto = some f) {o : Op}
    (h : Reachable c o) (hs : o.comp.inSelect = false) (hv : c.vim = false ∨ o.vimNormal = false)
    (hl : o.Live) {rest : List Rune} (hi : o.inp = 9 :: rest) :
    ∃ o' s, o.iter c = .ok o' ∧ o'.rb.toEd.line = o.rb.toEd.line.insert s ∧ o.comp.Tabbed f o.rb o'.comp s ∧
      o'.events = o.events ∧ o'.inp = rest := by
  obtain ⟨o', s, e1, _, e3, e4, e5, e6, _⟩ := Op.iter_tab hf hp ha (h.inv hf) hs hv hl hi
  exact ⟨o', s, e1, e3, e4, e5, e6⟩

/-- C34: the candidates in an open menu are what the completer answered for the text the menu was opened on. -/
theorem C34_menu {c : OCfg} (hf : Op.Friendly c) {o : Op} (h : Reachable c o) (hm : o.comp.inComplete = true) :
    ∃ f s pos, c.auto = some f ∧ o.comp.source = some s ∧ o.comp.candidate = (f s pos).1 ∧ o.comp.candidate ≠ [] :=
  have hfit := (h.inv hf).comp.fits hm
  let ⟨f, s, pos, h1, h2, h3⟩ := hfit.offered
  ⟨f, s, pos, h1, h2, h3, hfit.cands⟩

/-- Tab without a completer does nothing (the default completer inserts a tab). -/
example : firstResult { c0 with auto := none } (o0 [97, 9, 98, 13]) = .ok (.line [97, 98]) ∧
    firstResult { c0 with auto := some tabCompleter } (o0 [97, 9, 98, 13]) = .ok (.line [97, 9, 98]) := by decide

/-- One candidate, a common prefix, and a choice from the menu (the second Tab highlights "x", the third "y"). -/
example : firstResult { c0 with auto := offers 1 [[98, 99]] } (o0 [97, 9, 13]) = .ok (.line [97, 98, 99]) ∧
    firstResult { c0 with auto := offers 1 [[98, 99], [98, 100]] } (o0 [97, 9, 13]) = .ok (.line [97, 98]) ∧
    firstResult { c0 with auto := offers 1 [[120], [121]] } (o0 [97, 9, 9, 9, 13, 13]) = .ok (.line [97, 121]) := by decide

/-- The hypotheses of `C34_tab` hold after typing "a" on a new instance. -/
example : ∃ o, Reachable { c0 with auto := offers 1 [[120], [121]] } o ∧ o.comp.inSelect = false ∧ o.Live ∧
    o.inp = [9] ∧ o.rb.buf = [97] := by
  refine ⟨_, ⟨[], 80, Hist.fresh [], [97, 9], 0, by decide, rfl, by decide, by decide, Hist.fresh_WF _, rfl,
    .key (.call (.start _) rfl) ?_ rfl⟩, rfl, .inl rfl, rfl, rfl⟩
  intro r hr
  have := Option.some.inj hr
  subst this
  rintro (h | h | h | h | h)
  · exact absurd h.1 (by decide)
  · exact absurd h.1 (by decide)
  · exact absurd h.1 (by decide)
  · exact absurd h.1 (by decide)
  · exact absurd h.1 (by decide)

/-! ## C35: the highlighted candidate -/

theorem Op.InMenu.of {c : OCfg} (hf : Op.Friendly c) {o : Op} (h : Reachable c o) (hs : o.comp.inSelect = true) :
    Op.InMenu c o o.comp.candidate.length o.comp.colNum.toNat o.comp.choise.toNat := by
  have hi := h.inv hf
  obtain ⟨_, h1, h2⟩ := hi.comp.sel hs
  have := hi.comp.col
  exact ⟨hi, hs, rfl, by omega, by omega, by omega⟩

theorem Op.navs {c : OCfg} (hp : c.filter = none) {n k : Nat} (hk : 0 < k) : ∀ (ks : List Rune) {o : Op} {i : Nat} {rest : List Rune},
    Op.InMenu c o n k i → o.Live → o.stopped = false → (∀ r ∈ ks, NavKey r) → o.inp = ks ++ rest →
    ∃ o' j, Op.iters c ks.length o = .ok o' ∧ Navs n k ks i j ∧ Op.InMenu c o' n k j ∧ o'.Live ∧ o'.inp = rest ∧
      o'.rb.toEd = o.rb.toEd ∧ o'.comp.candidate = o.comp.candidate ∧ o'.hist = o.hist ∧ o'.events = o.events ∧ o'.stopped = false
  | [], o, i, rest, h, hl, hst, _, hi => ⟨o, i, rfl, .nil i, h, hl, hi, rfl, rfl, rfl, rfl, hst⟩
  | r :: ks, o, i, rest, h, hl, hst, hn, hi => by
    obtain ⟨o1, j, e1, e2, e3, e4, e5, e6, e7, e8, e9, e10, _⟩ := Op.iter_nav h hk hl hp hi (hn r (by simp))
    obtain ⟨o2, l, f1, f2, f3, f4, f5, f6, f7, f8, f9, f10⟩ := Op.navs hp hk ks e3 e4 (e10.trans hst)
      (fun r hr => hn r (by simp [hr])) e5
    refine ⟨o2, l, ?_, .cons e2 f2, f3, f4, f5, f6.trans e6, f7.trans e7, f8.trans e8, f9.trans e9, f10⟩
    show (if o.stopped = true then _ else o.iter c >>= Op.iters c ks.length) = _
    rw [if_neg (by simp [hst]), e1, R.bind_ok]; exact f1

/-- C35.  In the selection menu any sequence of navigation keys moves the highlight as `Nav` says (one candidate on or
back, cyclically; to the ends of the row; one row down or up in the column, cyclically), always to an existing candidate,
and leaves the menu, the line, the history and the results of `Readline` alone. -/
theorem C35_navigation {c : OCfg} (hf : Op.Friendly c) (hp : c.filter = none) {o : Op} (h : Reachable c o) (hs : o.comp.inSelect = true)
    (hcol : 0 < o.comp.colNum) (hl : o.Live) (hst : o.stopped = false) (ks rest : List Rune) (hks : ∀ r ∈ ks, NavKey r)
    (hi : o.inp = ks ++ rest) :
    ∃ o' j, Op.iters c ks.length o = .ok o' ∧ Navs o.comp.candidate.length o.comp.colNum.toNat ks o.comp.choise.toNat j ∧
      o'.comp.choise = (j : Int) ∧ j < o'.comp.candidate.length ∧ o'.comp.candidate = o.comp.candidate ∧ o'.comp.inSelect = true ∧
      o'.rb.toEd = o.rb.toEd ∧ o'.hist = o.hist ∧ o'.events = o.events ∧ o'.inp = rest := by
  obtain ⟨o', j, e1, e2, e3, e4, e5, e6, e7, e8, e9, e10⟩ := Op.navs hp (by omega) ks (Op.InMenu.of hf h hs) hl hst hks hi
  exact ⟨o', j, e1, e2, e3.at'.choise, by rw [e3.at'.len]; exact e3.at'.lt, e7, e3.sel, e6, e8, e9, e5⟩

/-- C35.  Enter (or Ctrl-J) in the menu inserts exactly the highlighted candidate at the cursor and closes the menu; the
call of `Readline` goes on. -/
theorem C35_enter {c : OCfg} (hf : Op.Friendly c) (hp : c.filter = none) {o : Op} (h : Reachable c o) (hs : o.comp.inSelect = true)
    (hl : o.Live) {r : Rune} {rest : List Rune} (hr : r = 13 ∨ r = 10) (hi : o.inp = r :: rest) :
    ∃ o' x, o.iter c = .ok o' ∧ 0 ≤ o.comp.choise ∧ o.comp.candidate[o.comp.choise.toNat]? = some x ∧
      o'.rb.toEd.line = o.rb.toEd.line.insert x ∧ o'.comp.inComplete = false ∧ o'.comp.inSelect = false ∧
      o'.events = o.events ∧ o'.inp = rest ∧ o'.Live := by
  obtain ⟨o', x, e1, e2, e3, e4, e5, e6, _, e8, _⟩ := Op.iter_choose (Op.InMenu.of hf h hs) hl hp hi hr
  exact ⟨o', x, e1, ((h.inv hf).comp.sel hs).2.1, e2, e6, e3.cmode, e3.nosel, e8, e5, e4⟩

/-- A menu of five candidates ; three columns fit on the screen. -/
def menu5 : OCfg := { c0 with auto := offers 0 [[97], [98], [99], [100], [101]] }

/-- The session: Tab, Tab on a screen of width 7. -/
def menu5start (keys : List Rune) : Op := Op.init [] true 7 (Hist.fresh []) ([9, 9] ++ keys)

/-- Rows "a b c" and "d e".  From "a": Ctrl-N to "d", Ctrl-E to "e", Ctrl-N to the top "b", Ctrl-P to "e", Ctrl-A to "d",
Ctrl-B to "c", Ctrl-P stays in the column of "c". -/
example : firstResult menu5 (menu5start [14, 5, 13, 13]) = .ok (.line [101]) ∧
    firstResult menu5 (menu5start [14, 5, 14, 13, 13]) = .ok (.line [98]) ∧
    firstResult menu5 (menu5start [14, 5, 14, 16, 13, 13]) = .ok (.line [101]) ∧
    firstResult menu5 (menu5start [14, 5, 14, 16, 1, 2, 13, 13]) = .ok (.line [99]) ∧
    firstResult menu5 (menu5start [14, 5, 14, 16, 1, 2, 16, 13, 13]) = .ok (.line [99]) ∧
    firstResult menu5 (menu5start [2, 6, 6, 13, 13]) = .ok (.line [98]) := by decide

/-- The hypotheses of `C35_navigation` hold there. -/
example : ∃ o, Reachable menu5 o ∧ o.comp.inSelect = true ∧ o.comp.colNum = 3 ∧ o.Live ∧ o.stopped = false ∧ o.inp = [14, 5] := by
  refine ⟨_, ⟨[], 7, Hist.fresh [], [9, 9, 14, 5], 0, by decide, rfl, by decide, by decide, Hist.fresh_WF _, rfl,
    .key (.key (.call (.start _) rfl) ?_ rfl) ?_ rfl⟩, rfl, rfl, .inl rfl, rfl, rfl⟩
  all_goals
    intro r hr
    have := Option.some.inj hr
    subst this
    rintro (h | h | h | h | h)
    · exact absurd h.1 (by decide)
    · exact absurd h.1 (by decide)
    · exact absurd h.1 (by decide)
    · exact absurd h.1 (by decide)
    · exact absurd h.1 (by decide)

end RL
