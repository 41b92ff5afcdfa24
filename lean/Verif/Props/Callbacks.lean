import Verif.Proofs.Vim
import Verif.Props.Operation
/-! # C57: input filter and listener -/

namespace RL
open Spec

/-- C57, rejected keys: in every state, a key the filter rejects leaves line, cursor, cut text, history, search, menu, mode and
results as they are; it is consumed, the screen is redrawn and the terminal reads on. -/
theorem C57_rejected {c : OCfg} {f : Rune → Rune × Bool} (hc : c.filter = some f) {o o' : Op} {r : Rune} {rest : List Rune} (hl : o.Live)
    (hi : o.inp = r :: rest) (hr : (f r).2 = false) (h : o.iter c = .ok o') :
    o'.rb.toEd = o.rb.toEd ∧ o'.hist = o.hist ∧ o'.search = o.search ∧ o'.comp = o.comp ∧ o'.vimNormal = o.vimNormal ∧
    o'.events = o.events ∧ o'.stopped = o.stopped ∧ o'.inp = rest ∧ o'.Live := by
  unfold Op.iter at h
  rw [Op.readRune_live hl hi, R.bind_ok] at h
  unfold Op.accept at h
  rw [hc] at h
  dsimp only at h
  split at h
  · obtain ⟨rb, rfl, h2, _⟩ := Op.refreshNil_ok h
    exact ⟨h2, rfl, rfl, rfl, rfl, rfl, rfl, rfl, .inr rfl⟩
  · next r' hx => rw [hx] at hr; cases hr

/-- A rejected key is never a crash in a state the session can reach (`Base`). -/
theorem C57_rejected_ok {c : OCfg} {f : Rune → Rune × Bool} (hc : c.filter = some f) {o : Op} (hb : Op.Base c o) {r : Rune} {rest : List Rune}
    (hl : o.Live) (hi : o.inp = r :: rest) (hr : (f r).2 = false) : ∃ o', o.iter c = .ok o' := by
  unfold Op.iter
  rw [Op.readRune_live hl hi, R.bind_ok]
  unfold Op.accept
  rw [hc]
  dsimp only
  split
  · obtain ⟨rb, e1, _⟩ := Op.Base.refreshNil (o := (o.took r rest).kickRead) ⟨hb.rb, hb.hist, hb.sw, hb.cw, hb.col⟩
    exact ⟨_, e1⟩
  · next r' hx => rw [hx] at hr; cases hr

/-- C57, translated keys: in every state, a key the filter lets through does exactly what its translation does when typed in a
session without filter.  (For keys after which the terminal waits the translation must also be such a key, and conversely; see
`C40_stall_filter` for what happens otherwise.) -/
theorem C57_translated {c : OCfg} {f : Rune → Rune × Bool} (hc : c.filter = some f) {o : Op} {r r' : Rune} {rest : List Rune} (hl : o.Live)
    (hi : o.inp = r :: rest) (hr : f r = (r', true)) (hs : stopKey r = stopKey r') :
    o.iter c = Op.iter { c with filter := none } { o with inp := r' :: rest } := by
  unfold Op.iter
  rw [Op.readRune_live hl hi, R.bind_ok, Op.readRune_live (o := { o with inp := r' :: rest }) hl rfl, R.bind_ok]
  have e : Op.took { o with inp := r' :: rest } r' rest = o.took r rest := by unfold Op.took; rw [hs]
  dsimp only
  rw [e]
  unfold Op.accept
  rw [hc]
  dsimp only
  rw [hr]
  rfl

namespace Op

/-- The listener's answer, if it has one, replaces the line; otherwise the line is what it is without listener. -/
structure Listened (f : List Rune → Nat → Rune → Option (List Rune × Nat)) (r : Rune) (o1 o' : Op) : Prop where
  line : o'.rb.toEd = match f o1.rb.buf o1.rb.idx r with
    | none => o1.rb.toEd
    | some (l, p) => { o1.rb.toEd with buf := l, idx := p }
  events : o'.events = o1.events
  inp : o'.inp = o1.inp
  mode : o'.search.inMode = o1.search.inMode

theorem dispatch_listened {c : OCfg} {f} (hc : c.listener = some f) {o o' o1 : Op} {r : Rune} (h : o.dispatch c r = .ok o')
    (h1 : o.dispatch { c with listener := none } r = .ok o1) : Listened f r o1 o' := by
  have ho : Observer { c with listener := none } := by intro f hf; cases hf
  obtain ⟨k1, a1, b1⟩ := dispatch_ok ho h1
  obtain ⟨k, a, h⟩ := R.bind_inv h
  have : k1 = k := by
    have e : o.key { c with listener := none } r = o.key c r := rfl
    rw [e, a] at a1; cases a1; rfl
  subst this
  obtain ⟨k2, e, h⟩ := R.bind_inv h
  have b := finish_ok h
  have hm : ∀ {x y : Bool}, (x = true ↔ y = true) → x = y := by intro x y; cases x <;> cases y <;> simp
  unfold listen at e
  rw [hc] at e
  dsimp only at e
  have l1 : o1.rb.toEd = k1.op.rb.toEd := b1.line
  have l2 : o1.rb.buf = k1.op.rb.buf := by show o1.rb.toEd.buf = _; rw [l1]
  have l3 : o1.rb.idx = k1.op.rb.idx := by show o1.rb.toEd.idx = _; rw [l1]
  cases hf : f k1.op.rb.buf k1.op.rb.idx r with
  | none =>
    rw [hf] at e
    cases e
    exact ⟨by rw [b.line, l2, l3, hf, l1], b.events.trans b1.events.symm, b.inp.trans b1.inp.symm,
      hm (b.smode.trans b1.smode.symm)⟩
  | some x =>
    obtain ⟨l, p⟩ := x
    rw [hf] at e
    dsimp only at e
    obtain ⟨rb, e1, e⟩ := R.bind_inv e
    cases e
    have e2 := (RB.refresh_ok e1).1
    have e3 : rb.toEd = { k1.op.rb.toEd with buf := l, idx := p } := by
      unfold Ed.setWithIdxC at e2
      exact (Except.ok.inj e2).symm
    refine ⟨?_, b.events.trans b1.events.symm, b.inp.trans b1.inp.symm, hm (b.smode.trans b1.smode.symm)⟩
    rw [b.line, l2, l3, hf, l1]
    exact e3

end Op

/-- C57, listener, partial.  Full statement: for every handled key.  Missing: keys handled by the selection menu and keys of
vim's normal mode, for which the listener is not called (`C57_false_…`).

In every other state the listener is shown the line and the cursor as they are after the key, and the key.  If it answers, its
line and cursor replace them; if it does not, the line is what it would be without a listener. -/
theorem C57_listener_partial {c : OCfg} {f} (hc : c.listener = some f) (hf : c.filter = none) {o o' o1 : Op} {r : Rune} {rest : List Rune}
    (hl : o.Live) (hi : o.inp = r :: rest) (h0 : r ≠ 0) (hs : o.comp.inSelect = false) (hv : c.vim = false ∨ (o.vimNormal = false ∧ r ≠ 27))
    (h : o.iter c = .ok o') (h1 : o.iter { c with listener := none } = .ok o1) : Op.Listened f r o1 o' := by
  rw [Op.iter_emacs hl hf hi h0 hs hv] at h
  rw [Op.iter_emacs (c := { c with listener := none }) hl hf hi h0 hs hv] at h1
  exact Op.dispatch_listened hc h h1

/-- Filter: digits are rejected, "a" becomes "b". -/
def filter57 : Rune → Rune × Bool := fun r => if 48 ≤ r ∧ r ≤ 57 then (r, false) else if r = 97 then (98, true) else (r, true)

example : firstResult { c0 with filter := some filter57 } (o0 [97, 49, 120, 13]) = .ok (.line [98, 120]) := by decide

/-- Listener: after "q", replace the line by its reverse and put the cursor at its start. -/
def listener57 : List Rune → Nat → Rune → Option (List Rune × Nat) := fun l _ r => if r = 113 then some (l.reverse, 0) else none

example : firstResult { c0 with listener := some listener57 } (o0 [97, 98, 113, 99, 13]) = .ok (.line [99, 113, 98, 97]) := by decide

/-- Both hypotheses of `C57_listener_partial` hold for the third key of that session. -/
example : ∃ o' o1, Op.iters { c0 with listener := some listener57 } 1 { o0 [97, 98] with gate := false } = .ok o' ∧
    Op.iters c0 1 { o0 [97, 98] with gate := false } = .ok o1 ∧ o1.rb.buf = [97] := ⟨_, _, rfl, rfl, rfl⟩

/-- The full statement fails in the selection menu.  The listener asks for the line to be emptied after every key but Tab and
Enter; Tab, Tab opens the menu, Ctrl-F moves in it, Enter takes the second candidate: the line comes out untouched by the
listener, which never saw Ctrl-F. -/
theorem C57_false_menu :
    firstResult { c0 with auto := offers 0 [[97], [98]], listener := some fun _ _ r => if r = 9 ∨ r = 13 then none else some ([], 0) }
      (o0 [9, 9, 6, 13, 13]) = .ok (.line [98]) := by decide

/-- The full statement fails in vim's normal mode: the listener empties the line after every "x", but is not called for the
command `x`, which deletes the "a" of "ab". -/
theorem C57_false_vim :
    firstResult { c0 with vim := true, listener := some fun _ _ r => if r = 120 then some ([], 0) else none }
      (o0 [97, 98, 27, 48, 120, 13]) = .ok (.line [98]) := by decide

/-- "The filter sees every key first" fails for the argument of a vim command: a filter that rejects every digit does not stop
`r` `1`. -/
theorem C57_false_argument :
    firstResult { c0 with vim := true, filter := some filter57 } (o0 [120, 27, 94, 114, 49, 13]) = .ok (.line [49]) := by decide

end RL
