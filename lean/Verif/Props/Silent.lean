import Verif.Proofs.Keys
import Verif.Spec.Concrete
/-! # C63, C64: output on a non-terminal; display width -/

namespace RL

/-- One editing method on a buffer that is not on a terminal writes nothing. -/
theorem apply_silent {U : UTables} {d : DCfg} {c : Cmd} {r r' : RB} (hi : r.interactive = false)
    (h : c.apply U d r = .ok r') : r'.out = r.out := by
  have hf : ∀ {r r' : RB} {f}, r.interactive = false → r.refresh U d f = .ok r' → r'.out = r.out := by
    intro r r' f hi h
    unfold RB.refresh at h
    rw [if_pos (by simp [hi])] at h
    obtain ⟨e, _, h⟩ := R.bind_inv h
    cases h
    rfl
  have hv : ∀ {α} {r : RB} {a : α} {r' : RB} {f}, r.interactive = false → r.refreshV U d f = .ok (a, r') → r'.out = r.out := by
    intro α r a r' f hi h
    unfold RB.refreshV at h
    rw [if_pos (by simp [hi])] at h
    obtain ⟨⟨_, e⟩, _, h⟩ := R.bind_inv h
    cases h
    rfl
  cases c <;> simp only [Cmd.apply] at h
  case delete =>
    obtain ⟨a, ha⟩ := map_snd_ok h
    exact hv hi ha
  case moveTo =>
    obtain ⟨a, ha⟩ := map_snd_ok h
    exact hv hi ha
  case yank =>
    unfold RB.yank at h
    split at h
    · cases h; rfl
    · exact hf hi h
  case deleteWord =>
    unfold RB.deleteWord at h
    split at h
    · cases h; rfl
    · dsimp only at h
      split at h
      · obtain ⟨k, _, h⟩ := R.bind_inv h
        exact hf (r := { r with toEd := r.toEd.pushKill k }) hi h
      · exact hf hi h
  case backup => cases h; rfl
  all_goals exact hf hi h

/-- **C63.**  A buffer that is not on a terminal (`FuncIsTerminal` false) writes nothing: no editing command, no erase
before a redraw and no redraw. -/
theorem C63_silent {U : UTables} {d : DCfg} {r r' : RB} (hi : r.interactive = false) :
    (∀ cs, runCmds U d cs r = .ok r' → r'.out = r.out) ∧ (r.clean U = .ok r' → r' = r) ∧
    (r.refreshNil U d = .ok r' → r' = r) := by
  refine ⟨fun cs => ?_, fun h => ?_, fun h => ?_⟩
  · induction cs generalizing r with
    | nil => intro h; cases h; rfl
    | cons c cs ih =>
      intro h
      obtain ⟨r1, h1, h2⟩ := R.bind_inv h
      rw [ih ((apply_ok h1).2.interactive.trans hi) h2, apply_silent hi h1]
  · unfold RB.clean at h
    obtain ⟨_, _, h⟩ := R.bind_inv h
    rw [if_pos (.inr (by simp [hi]))] at h
    cases h
    rfl
  · unfold RB.refreshNil RB.refresh at h
    rw [if_pos (by simp [hi])] at h
    cases h
    rfl

/-- Non-trivial case: typing, moving and erasing words on a non-terminal. -/
example : ∃ r', runCmds U0 d0 [.insert [97, 98, 32, 99], .left, .prevWord, .kill, .yank] (RB.new [62] false 80) = .ok r' ∧
    r'.buf = [97, 98, 32, 99] ∧ r'.out = [] := ⟨_, rfl, by decide, by decide⟩

/-- On a terminal the same commands do write. -/
example : ∃ r', runCmds U0 d0 [.insert [97]] (RB.new [62] true 80) = .ok r' ∧ r'.out ≠ [] := ⟨_, rfl, by decide⟩

/-- **C64.**  The display width of a text: `TabWidth` cells for a tab, none for a control or combining rune, two for a rune
of a double-width script, one for every other rune. -/
theorem C64_width (U : UTables) (s : List Rune) : widthAll U s =
    U.tabWidth * s.countP (fun r => r = 9) + 2 * s.countP (fun r => r ≠ 9 ∧ U.zero r = false ∧ U.dbl r = true) +
      s.countP (fun r => r ≠ 9 ∧ U.zero r = false ∧ U.dbl r = false) := by
  induction s with
  | nil => rfl
  | cons r s ih =>
    simp only [widthAll, runeWidth, CharTab, List.countP_cons, ih]
    by_cases h : r = 9
    · simp [h, Nat.mul_add]; omega
    · cases hz : U.zero r <;> cases hd : U.dbl r <;> simp [h] <;> omega

/-- Non-trivial case: a tab, a combining mark, a wide rune and two plain runes. -/
example : widthAll { U0 with zero := fun r => r = 0x301, dbl := fun r => r = 0x4E00, tabWidth := 4 }
    [9, 97, 0x301, 0x4E00, 98] = 8 := by decide

end RL
