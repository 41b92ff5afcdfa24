import Verif.Proofs.Twin
import Verif.Props.Resize
/-! # C99: what `Readline` returns does not depend on what is displayed

Two sessions with the same keys, callbacks and history, on different displays: other prompts, widths, masks, painters and width tables,
an interactive terminal or not, and windows that are resized at different times. -/

namespace RL

/-- Windows that have a width. -/
def Op.HasWidth (o : Op) : Prop := o.search.width ≠ 0 ∧ o.comp.width ≠ 0

namespace Op

theorem Tw.of {c : OCfg} {o o' : Op} (h : o.SameButDisplay o') (hw : o.HasWidth) (hw' : o'.HasWidth) (hk : o.RowFree c o.inp) : o.Tw c o' := by
  obtain ⟨h1, h2, h3, h4⟩ := h
  obtain ⟨rb, hist, s, cm, v, inp, g, k, ev, st⟩ := o
  obtain ⟨rb', hist', s', cm', v', inp', g', k', ev', st'⟩ := o'
  dsimp only at h1 h2 h3 h4 ⊢
  simp only [Op.mk.injEq, true_and] at h4
  obtain ⟨rfl, rfl, rfl, rfl, rfl, rfl, rfl⟩ := h4
  exact .mk h1 ⟨hw.1, hw'.1, h2⟩ ⟨hw.2, hw'.2, h3, hk.1⟩ hk.2

theorem Tw.same {c : OCfg} {o o' : Op} (h : o.Tw c o') : o.SameButDisplay o' := by
  obtain ⟨hr, hs, hc, hi⟩ := h
  exact ⟨hr, hs.eq, hc.eq, rfl⟩

theorem Tw.callsW {c : OCfg} {U' : UTables} {d' : DCfg} : ∀ {ss ss' : List (List Int × List (List Int))} {o o' : Op}, ss'.length = ss.length →
    (∀ s ∈ ss, (∀ w ∈ s.1, w ≠ 0) ∧ ∀ l ∈ s.2, ∀ w ∈ l, w ≠ 0) → (∀ s ∈ ss', (∀ w ∈ s.1, w ≠ 0) ∧ ∀ l ∈ s.2, ∀ w ∈ l, w ≠ 0) → o.Tw c o' →
    Both (fun a b => b.1 = a.1 ∧ a.2.Tw c b.2) (o.callsW c ss) (o'.callsW (c.on U' d') ss') := by
  intro ss
  induction ss with
  | nil =>
    intro ss' o o' hl _ _ h
    cases ss' with
    | nil => exact .ok ⟨rfl, h⟩
    | cons => cases hl
  | cons s ss ih =>
    intro ss' o o' hl hs hs' h
    cases ss' with
    | nil => cases hl
    | cons s' ss' =>
      have a := hs s List.mem_cons_self
      have a' := hs' s' List.mem_cons_self
      unfold Op.callsW
      refine .bind (Tw.readlineW a.1 a'.1 a.2 a'.2 h) fun ⟨_, _⟩ ⟨_, _⟩ ⟨h0, h⟩ => ?_
      refine .bind (ih (by simpa using hl) (fun x hx => hs x (List.mem_cons_of_mem _ hx)) (fun x hx => hs' x (List.mem_cons_of_mem _ hx)) h)
        fun ⟨_, _⟩ ⟨_, _⟩ ⟨h1, h⟩ => ?_
      cases h0; cases h1
      exact .ok ⟨rfl, h⟩

/-- Waiting in a window that keeps its size. -/
theorem awaitW_still (c : OCfg) : ∀ (n : Nat) (o : Op), o.awaitW c (List.replicate n []) = o.await c n := by
  intro n
  induction n with
  | zero =>
    intro o
    unfold awaitW await
    cases o.events <;> rfl
  | succ n ih =>
    intro o
    unfold awaitW await
    cases o.events with
    | cons => rfl
    | nil =>
      show (if o.stopped = true then _ else o.iter c >>= awaitW c (List.replicate n [])) = _
      rw [show awaitW c (List.replicate n []) = await c n from funext ih]

theorem readlineW_still (c : OCfg) (n : Nat) (o : Op) : o.readlineW c [] (List.replicate n []) = o.readline c n := by
  unfold readlineW readline
  simp only [awaitW_still]
  rfl

end Op

/-- **C99, the part that holds** (one key).  Two states that differ in the display only; both handle the next key and return.  Then they differ
in the display only: the same line, cursor, kill buffer and backup, the same history, search and list of candidates, the same results sent.
Missing: keys that move by rows or columns in the menu (`C99_false_menu`), windows without a width (`C99_false_width`), keys that crash or
spin on one of the two displays (`C99_false_prompt`). -/
theorem C99_key_partial {c : OCfg} (U' : UTables) (d' : DCfg) {o o' o1 o1' : Op} (h : o.SameButDisplay o') (hw : o.HasWidth) (hw' : o'.HasWidth)
    (hk : o.RowFree c o.inp) (e : o.iter c = .ok o1) (e' : o'.iter (c.on U' d') = .ok o1') :
    o1.SameButDisplay o1' ∧ o1'.rb.buf = o1.rb.buf ∧ o1'.rb.idx = o1.rb.idx ∧ o1'.hist = o1.hist ∧ o1'.events = o1.events := by
  have := (Op.Tw.of h hw hw' hk).iter (U' := U') (d' := d') o1 o1' e e'
  exact ⟨this.same, this.r.buf, this.r.idx, this.hists, this.events⟩

/-- **C99, the part that holds** (one call).  `Readline` with the same keys on two displays: if both calls return, they return the same, and leave
states that differ in the display only.  Missing: as in `C99_key_partial`. -/
theorem C99_readline_partial {c : OCfg} (U' : UTables) (d' : DCfg) {n n' : Nat} {o o' o1 o1' : Op} {e e' : Event} (h : o.SameButDisplay o')
    (hw : o.HasWidth) (hw' : o'.HasWidth) (hk : o.RowFree c o.inp) (h1 : o.readline c n = .ok (e, o1))
    (h2 : o'.readline (c.on U' d') n' = .ok (e', o1')) : e' = e ∧ o1.SameButDisplay o1' := by
  rw [← Op.readlineW_still] at h1 h2
  have := Op.Tw.readlineW (U' := U') (d' := d') (c := c) (pre := []) (pre' := []) (by simp) (by simp)
    (by intro l hl; cases List.eq_of_mem_replicate hl; simp) (by intro l hl; cases List.eq_of_mem_replicate hl; simp) (Op.Tw.of h hw hw' hk)
    _ _ h1 h2
  exact ⟨this.1, this.2.same⟩

/-- **C99, the part that holds** (sessions).  Two sessions of any number of calls with the same keys, on two displays, in windows that are resized
at different times to different widths: if both return, the results are the same.  The keys include searches, completion with its menu, vim
commands, and whatever the filter, the completer and the listener make of them.  Missing: as in `C99_key_partial`. -/
theorem C99_session_partial {c : OCfg} (U' : UTables) (d' : DCfg) {ss ss' : List (List Int × List (List Int))} {o o' o1 o1' : Op}
    {es es' : List Event} (h : o.SameButDisplay o') (hw : o.HasWidth) (hw' : o'.HasWidth) (hk : o.RowFree c o.inp)
    (hl : ss'.length = ss.length) (hs : ∀ s ∈ ss, (∀ w ∈ s.1, w ≠ 0) ∧ ∀ l ∈ s.2, ∀ w ∈ l, w ≠ 0)
    (hs' : ∀ s ∈ ss', (∀ w ∈ s.1, w ≠ 0) ∧ ∀ l ∈ s.2, ∀ w ∈ l, w ≠ 0)
    (h1 : o.callsW c ss = .ok (es, o1)) (h2 : o'.callsW (c.on U' d') ss' = .ok (es', o1')) : es' = es ∧ o1.SameButDisplay o1' := by
  have := Op.Tw.callsW (U' := U') (d' := d') hl hs hs' (Op.Tw.of h hw hw' hk) _ _ h1 h2
  exact ⟨this.1, this.2.same⟩

/-- **C99, from the start**: two new instances with the same history and keys, whatever their prompts and widths (not 0), interactive or not. -/
theorem C99_start (p p' : List Rune) (i i' : Bool) {w w' : Int} (hw : w ≠ 0) (hw' : w' ≠ 0) (h : Hist) (keys : List Rune) :
    (Op.init p i w h keys).SameButDisplay (Op.init p' i' w' h keys) ∧ (Op.init p i w h keys).HasWidth ∧ (Op.init p' i' w' h keys).HasWidth ∧
      ∀ c : OCfg, (c.auto ≠ none → ∀ k ∈ 0 :: keys, ¬ ColKey (c.passed k)) → (Op.init p i w h keys).RowFree c (Op.init p i w h keys).inp :=
  ⟨⟨rfl, rfl, rfl, rfl⟩, ⟨hw, hw⟩, ⟨hw', hw'⟩, fun _ hk => ⟨fun _ => ⟨rfl, rfl⟩, hk⟩⟩

/-! ### What is false -/

/-- **C99 is false of the keys that move by rows and columns.**  Three candidates are in the menu.  Ctrl-N, then Enter twice, in a window with one column of
candidates and in one with three: different candidates are in the line. -/
theorem C99_false_menu :
    (·.1) <$> (Op.init [] true 4 (Hist.fresh []) [9, 9, 14, 13, 13]).readline { c0 with auto := offers 0 [str "ab", str "cd", str "ef"] } 9 =
      .ok (.line (str "cd")) ∧
    (·.1) <$> (Op.init [] true 40 (Hist.fresh []) [9, 9, 14, 13, 13]).readline { c0 with auto := offers 0 [str "ab", str "cd", str "ef"] } 9 =
      .ok (.line (str "ab")) := by
  refine ⟨by decide +kernel, by decide +kernel⟩

/-- **C99 is false of windows without a width.**  The line `xa` is in the history.  Ctrl-R, `a`, Enter: in a window of width 20 a search, which
finds `xa`; in one of width 0 Ctrl-R rings the bell and `a` is text. -/
theorem C99_false_width :
    (·.1) <$> (Op.init [] true 20 (Hist.fresh []) (str "xa" ++ [13, 18, 97, 13])).callsW c0 (List.replicate 2 ([], List.replicate 4 [])) =
      .ok [.line (str "xa"), .line (str "xa")] ∧
    (·.1) <$> (Op.init [] true 0 (Hist.fresh []) (str "xa" ++ [13, 18, 97, 13])).callsW c0 (List.replicate 2 ([], List.replicate 4 [])) =
      .ok [.line (str "xa"), .line (str "a")] := by
  refine ⟨by decide +kernel, by decide +kernel⟩

/-- **C99 is false of prompts that fill whole rows.**  `a`, Left, Enter: returned at the width 10; at the width 2, with the prompt `> `, the second
key never ends (C15). -/
theorem C99_false_prompt : (·.1) <$> (o10 [97, CharBackward, CharEnter]).readline c0 9 = .ok (.line [97]) ∧
    ((o10 [97, CharBackward, CharEnter]).resize 2).readline c0 9 = .error .hang := by
  refine ⟨by decide +kernel, error_of_map (f := fun o => o.2.rb.buf) (by decide +kernel)⟩

/-! ### Non-trivial cases -/

/-- Keys: a word, Ctrl-R, a rune and Enter; then Tab twice, Right and Enter twice in the menu. -/
def twinKeys : List Rune := str "ab" ++ [13, 18, 97, 13, 9, 9, 6, 13, 13]

def twinCfg : OCfg := { c0 with auto := offers 0 [str "hello", str "world"] }

/-- The usual display. -/
def twinA : R (List Event × Op) := (Op.init (str "> ") true 10 (Hist.fresh []) twinKeys).callsW twinCfg
  (List.replicate 3 ([], List.replicate 5 []))

/-- A masked line, another prompt, and a window that is resized. -/
def twinB : R (List Event × Op) := (Op.init (str "password: ") true 33 (Hist.fresh []) twinKeys).callsW (twinCfg.on twinCfg.U ⟨true, 42, some defaultPainter, false⟩)
  [([31], [[25], [], [44, 29]]), ([], List.replicate 5 []), ([], [[], [], [17], [], []])]

/-- Both sessions return. -/
theorem twin_returns : (·.1) <$> twinA = .ok [.line (str "ab"), .line (str "ab"), .line (str "world")] ∧
    (·.1) <$> twinB = .ok [.line (str "ab"), .line (str "ab"), .line (str "world")] := by
  refine ⟨by decide +kernel, by decide +kernel⟩

/-- The theorem applies to them. -/
example {es es' : List Event} {o o' : Op} (h1 : twinA = .ok (es, o)) (h2 : twinB = .ok (es', o')) : es' = es := by
  obtain ⟨a1, a2, a3, a4⟩ := C99_start (str "> ") (str "password: ") true true (w := 10) (w' := 33) (by decide) (by decide) (Hist.fresh []) twinKeys
  unfold twinA at h1
  unfold twinB at h2
  refine (C99_session_partial _ _ a1 a2 a3 (a4 twinCfg fun _ => ?_) ?_ ?_ ?_ h1 h2).1
  · decide
  · rfl
  · decide
  · decide

end RL
