import Verif.Proofs.Live
import Verif.Spec.Session
/-! # C40: the reader never stalls

After Ctrl-C, Enter, Ctrl-J and Ctrl-D the terminal goroutine waits until the editing loop or the next call of `Readline`
wakes it up.  The statement is false of the code in vim's normal mode and for filters that translate such a key into an
ordinary one (`C40_stall_…`).  In all other situations `Readline` never waits for a wake-up nobody sends. -/

namespace RL
namespace Op

/-- Emacs keys, or vim with an input that avoids the stalling keys. -/
def Wakes (c : OCfg) (inp : List Rune) : Prop := c.vim = false ∨ (c.filter = none ∧ Calm inp)

theorem Wakes.suffix {c : OCfg} {a b : List Rune} (h : Wakes c b) (hs : a <:+ b) : Wakes c a := by
  refine h.imp_right fun ⟨h1, h2⟩ => ⟨h1, fun pre r rest e => ?_⟩
  obtain ⟨t, rfl⟩ := hs
  exact h2 (t ++ pre) r rest (by rw [e, List.append_assoc])

theorem Wakes.step {c : OCfg} {o : Op} (h : Wakes c o.inp) :
    Emacs c o ∨ ∀ r, filtered c (o.inp.headD 0) = some r → ¬ Stalls r (o.inp.tail.headD 0) := by
  rcases h with h | ⟨h1, h2⟩
  · exact .inl (.inl h)
  · right
    intro r hr
    unfold filtered at hr
    rw [h1] at hr
    cases hr
    cases hi : o.inp with
    | nil => rintro (a | a | ⟨a, _⟩) <;> exact absurd a (by decide)
    | cons a l => exact h2 [] a l hi

theorem await_nb {c : OCfg} (hf : KeepsStops c) : ∀ (n : Nat) (o : Op), Wakes c o.inp → o.events ≠ [] ∨ (o.Live ∧ o.stopped = false) →
    NB (await c n o)
  | n, o, hw, h => by
    unfold await
    cases he : o.events with
    | cons e es => exact NB.ok
    | nil =>
      obtain ⟨hl, hs⟩ := h.resolve_left (fun a => a he)
      cases n with
      | zero => exact NB.hang
      | succ n =>
        dsimp only
        rw [if_neg (by simp [hs])]
        apply NB.bind_ok (iter_nb hf hl)
        intro o1 h1
        have g := iter_goesOn hf hw.step h1
        refine await_nb hf n o1 (hw.suffix g.inp) ?_
        rcases g.alive with ⟨a, b⟩ | a
        · exact .inr ⟨a, b.trans hs⟩
        · left
          intro e
          rw [NewResult, e] at a
          exact Nat.not_lt_zero _ a
end Op

/-- C40, partial.  Full statement: for every configuration.  Missing: vim (next theorem) and filters that translate a key
after which the terminal waits into an ordinary key.

With emacs keys a call of `Readline` never waits for ever for a key that was typed, whatever keys are typed, whatever the
state of the line, the history, the search and the menu, and whatever the callbacks answer. -/
theorem C40_readline_partial {c : OCfg} (hv : c.vim = false) (hf : Op.KeepsStops c) {o : Op} (hs : o.stopped = false) (fuel : Nat) :
    o.readline c fuel ≠ .error .block := by
  refine NB.ne (NB.bind_ok Op.refreshNil_nb fun o1 h1 => Op.await_nb hf fuel _ (.inl hv) (.inr ⟨.inr rfl, ?_⟩))
  exact (Op.refreshNil_inner h1).io.stopped.trans hs

/-- C40, partial: vim.  Missing: inputs with Ctrl-J or Ctrl-D, or with Enter, Ctrl-C, Ctrl-J or Ctrl-D directly after one of
`r d c f F t T`. -/
theorem C40_vim_partial {c : OCfg} (hf : c.filter = none) {o : Op} (hs : o.stopped = false) (hk : Op.Calm o.inp) (fuel : Nat) :
    o.readline c fuel ≠ .error .block := by
  have hks : Op.KeepsStops c := fun f h => by rw [hf] at h; cases h
  refine NB.ne (NB.bind_ok Op.refreshNil_nb fun o1 h1 => Op.await_nb hks fuel _ (.inr ⟨hf, ?_⟩) (.inr ⟨.inr rfl, ?_⟩))
  · have := (Op.refreshNil_inner h1).io.inp
    show Op.Calm o1.inp
    rw [this]; exact hk
  · exact (Op.refreshNil_inner h1).io.stopped.trans hs

/-- C40, partial: one key in any mode.  After a key that produces no result the terminal is reading again and the loop runs;
keys are consumed in order.  Missing: in vim's normal mode the keys in `Op.Stalls`. -/
theorem C40_step_partial {c : OCfg} (hf : Op.KeepsStops c) {o o' : Op}
    (hv : c.vim = false ∨ o.vimNormal = false ∨
      ∀ r, Op.filtered c (o.inp.headD 0) = some r → ¬ Op.Stalls r (o.inp.tail.headD 0))
    (h : o.iter c = .ok o') (hn : ¬ o.events.length < o'.events.length) :
    (o'.gate = false ∨ o'.kick = true) ∧ o'.stopped = o.stopped ∧ o'.inp <:+ o.inp := by
  have g := Op.iter_goesOn hf (or_assoc.2 hv) h
  obtain ⟨a, b⟩ := g.alive.resolve_right hn
  exact ⟨a, b, g.inp⟩

/-- Enter, Ctrl-C, Ctrl-J and Ctrl-D are the keys after which the terminal waits. -/
theorem C40_stop_keys (r : Rune) : stopKey r = true ↔ r = 3 ∨ r = 13 ∨ r = 10 ∨ r = 4 := by
  simp [stopKey, CharInterrupt, CharEnter, CharCtrlJ, CharDelete, or_assoc]

/-- A session with a search cancelled by Ctrl-C, a menu left with Enter, and Ctrl-D in the line: two lines are read. -/
example : calls { c0 with auto := offers 0 [[97], [98]] } 20 2 (o0 [97, 98, CharEnter, 99, CharBckSearch, CharInterrupt, CharTab, CharTab, CharEnter,
    CharBackward, CharDelete, CharEnter]) = .ok [.line [97, 98], .line [99]] := by decide

/-- The key is the argument of a command. -/
example : Op.Calm [CharEsc, 100, 119, 105, 97, CharEnter] := by
  intro pre r rest h
  match pre, h with
  | [], h => cases h; simp [Op.Stalls]; decide
  | [_], h => cases h; simp [Op.Stalls]; decide
  | [_, _], h => cases h; simp [Op.Stalls]; decide
  | [_, _, _], h => cases h; simp [Op.Stalls]; decide
  | [_, _, _, _], h => cases h; simp [Op.Stalls]; decide
  | [_, _, _, _, _], h => cases h; simp [Op.Stalls]; decide
  | _ :: _ :: _ :: _ :: _ :: _ :: _, h => simp at h

/-- The full statement fails: in vim's normal mode Ctrl-J and Ctrl-D stall the reader, although more keys were typed. -/
theorem C40_stall_vim : firstResult { c0 with vim := true } (o0 [97, CharEsc, CharCtrlJ, 105, CharEnter]) = .error .block ∧
    firstResult { c0 with vim := true } (o0 [97, CharEsc, CharDelete, 105, CharEnter]) = .error .block ∧
    -- a key the terminal waits after, as the argument of a command
    firstResult { c0 with vim := true } (o0 [97, CharEsc, 102, CharEnter, 105, CharEnter]) = .error .block ∧
    firstResult { c0 with vim := true } (o0 [97, CharEsc, 100, CharInterrupt, 105, CharEnter]) = .error .block := by decide

/-- The full statement fails for a filter that turns Ctrl-C into a harmless key. -/
theorem C40_stall_filter :
    firstResult { c0 with filter := some fun r => (if r = CharInterrupt then CharLineStart else r, true) }
      (o0 [97, CharInterrupt, 98, CharEnter]) = .error .block := by decide

/-- Rejecting the key altogether is fine. -/
example : firstResult { c0 with filter := some fun r => (r, r != CharInterrupt) } (o0 [97, CharInterrupt, 98, CharEnter]) =
    .ok (.line [97, 98]) := by decide

end RL
