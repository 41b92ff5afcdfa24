import Verif.Props.Browse
/-! # C103: `HistoryDisable` and `HistoryEnable` -/

namespace RL
open Spec Hist

/-- What can happen to the history while it is switched off: saving lines (Enter, `SaveHistory`), recalling, noting edits, cancelling, and
switching it off once more. -/
def HOp.Off : HOp → Prop
  | .new _ | .update _ | .prev | .next | .revert | .disable => True
  | _ => False

theorem off_step (cfg : HCfg) {h : Hist} (w : h.WF) (he : h.enable = false) (hle : h.order.length ≤ cfg.limit.toNat) {o : HOp} (ho : o.Off) :
    ∃ h', o.run cfg h = .ok h' ∧ h'.WF ∧ h'.enable = false ∧ h'.entries = h.entries ∧ h'.disk = h.disk ∧ h'.fd = h.fd ∧
      h'.order.length ≤ cfg.limit.toNat := by
  have br : o.Browse → ∃ h', o.run cfg h = .ok h' ∧ h'.WF ∧ h'.entries = h.entries ∧ h'.disk = h.disk ∧ h'.order.length ≤ cfg.limit.toNat := by
    intro hb
    obtain ⟨h', h1, h2, _, h4, h5, _⟩ := C21_entries cfg h w o hb
    exact ⟨h', h1, h2, (h5 hle).1, h4, (h5 hle).2⟩
  cases o with
  | new s => exact ⟨h, by simp [HOp.run, Hist.new, he], w, he, rfl, rfl, rfl, hle⟩
  | disable => exact ⟨h.disable, rfl, { w with }, rfl, rfl, rfl, rfl, hle⟩
  | update s =>
    obtain ⟨h', h1, h2, h3, h4, h5⟩ := br trivial
    cases h1
    refine ⟨_, rfl, h2, ?_, h3, h4, ?_, h5⟩
    · unfold Hist.update; split
      · exact he
      · simpa [compact, setItem] using he
    · unfold Hist.update; split
      · rfl
      · simp [compact, setItem]
  | prev =>
    obtain ⟨h', h1, h2, h3, h4, h5⟩ := br trivial
    cases h1
    refine ⟨_, rfl, h2, ?_, h3, h4, ?_, h5⟩
    · unfold Hist.prev; split
      · exact he
      · split <;> exact he
    · unfold Hist.prev; split
      · rfl
      · split <;> rfl
  | next =>
    obtain ⟨h', h1, h2, h3, h4, h5⟩ := br trivial
    cases h1
    refine ⟨_, rfl, h2, ?_, h3, h4, ?_, h5⟩
    · unfold Hist.nextLine; split
      · exact he
      · split <;> exact he
    · unfold Hist.nextLine; split
      · rfl
      · split <;> rfl
  | revert => exact ⟨h.revert, rfl, revert_WF w, he, rfl, rfl, rfl, hle⟩
  | reset | enable | close | init => exact ho.elim

theorem off_steps (cfg : HCfg) {os : List HOp} : ∀ {h : Hist}, h.WF → h.enable = false → h.order.length ≤ cfg.limit.toNat → (∀ o ∈ os, o.Off) →
    ∃ h', runHOps cfg os h = .ok h' ∧ h'.WF ∧ h'.enable = false ∧ h'.entries = h.entries ∧ h'.disk = h.disk ∧ h'.fd = h.fd ∧
      h'.order.length ≤ cfg.limit.toNat := by
  induction os with
  | nil => intro h w he hle _; exact ⟨h, rfl, w, he, rfl, rfl, rfl, hle⟩
  | cons o os ih =>
    intro h w he hle ho
    obtain ⟨h1, a1, a2, a3, a4, a5, a6, a7⟩ := off_step cfg w he hle (ho o (by simp))
    obtain ⟨h2, b1, b2, b3, b4, b5, b6, b7⟩ := ih a2 a3 a7 (fun o h => ho o (by simp [h]))
    exact ⟨h2, by simp [runHOps, a1, b1], b2, b3, b4.trans a4, b5.trans a5, b6.trans a6, b7⟩

/-- **C103** (off).  After `HistoryDisable`, whatever is entered, saved, recalled, edited or cancelled: no entry is added, changed or dropped, and
nothing is written to the file. -/
theorem C103_off (cfg : HCfg) {h : Hist} (w : h.WF) (hle : h.order.length ≤ cfg.limit.toNat) {os : List HOp} (ho : ∀ o ∈ os, o.Off) :
    ∃ h', runHOps cfg (.disable :: os) h = .ok h' ∧ h'.entries = h.entries ∧ h'.disk = h.disk := by
  obtain ⟨h', a1, _, _, a4, a5, _⟩ := off_steps cfg (h := h.disable) { w with } rfl hle ho
  exact ⟨h', a1, a4, a5⟩

theorem off_order (cfg : HCfg) : ∀ (os : List HOp) (h h1 : Hist), (∀ o ∈ os, o.Off) → h.enable = false → h.WF → h.order ≠ [] → h.order.length ≤ cfg.limit.toNat →
    runHOps cfg os h = .ok h1 → h1.order ≠ [] := by
  intro os
  induction os with
  | nil => intro h h1 _ _ _ hne _ e; cases e; exact hne
  | cons o os ih =>
    intro h h1 ho he w hne hle e
    obtain ⟨k, d1, d2, d3, d4, d5, d6, d7⟩ := off_step cfg w he hle (ho o (by simp))
    unfold runHOps at e
    rw [d1, R.bind_ok] at e
    refine ih k h1 (fun o h => ho o (by simp [h])) d3 d2 ?_ d7 e
    cases o with
    | new s => simp [HOp.run, Hist.new, he] at d1; rw [← d1]; exact hne
    | update s =>
      cases d1
      cases hc : h.current with
      | none => exact (hne (w.cur_none hc)).elim
      | some c =>
        rw [(update_false_order hc cfg s).1, keepNewest_self hle]
        exact hne
    | prev =>
      cases d1
      unfold Hist.prev; split
      · exact hne
      · split <;> exact hne
    | next =>
      cases d1
      unfold Hist.nextLine; split
      · exact hne
      · split <;> exact hne
    | revert => cases d1; exact hne
    | disable => cases d1; exact hne
    | reset | enable | close | init => exact (ho _ (List.mem_cons_self ..)).elim

theorem runHOps_append (cfg : HCfg) : ∀ (l m : List HOp) (h h1 : Hist), runHOps cfg l h = .ok h1 → runHOps cfg (l ++ m) h = runHOps cfg m h1 := by
  intro l
  induction l with
  | nil => intro m h h1 e; cases e; rfl
  | cons o l ih =>
    intro m h h1 e
    unfold runHOps at e
    obtain ⟨k, e1, e2⟩ := R.bind_inv e
    show (o.run cfg h >>= runHOps cfg (l ++ m)) = _
    rw [e1]
    exact ih m k h1 e2

/-- **C103** (on again).  After `HistoryEnable` the next line typed (its last keystroke noted `s`) is recorded behind what was there before
`HistoryDisable`, in memory and in the file, wherever browsing has left off in the meantime. -/
theorem C103_on (cfg : HCfg) {h : Hist} (w : h.WF) (hne : h.order ≠ []) (hle : h.order.length ≤ cfg.limit.toNat) {os : List HOp} (ho : ∀ o ∈ os, o.Off)
    {s : List Rune} (hs : s ≠ []) (hnew : h.entries.getLast? ≠ some s) :
    ∃ h', runHOps cfg (.disable :: os ++ [.enable, .update s, .new s]) h = .ok h' ∧ h'.entries = keepNewest cfg.limit (h.entries ++ [s]) ∧
      h'.disk = h.disk ++ (if h.fd = .opened then encode s ++ [10] else []) := by
  obtain ⟨h1, a1, a2, a3, a4, a5, a6, a7⟩ := off_steps cfg (h := h.disable) { w with } rfl hle ho
  have a8 := off_order cfg os h.disable h1 ho rfl { w with } hne hle a1
  have we : h1.enableH.WF := { a2 with }
  obtain ⟨k, c1, c2, _, c4, c5, _⟩ := C21_entries cfg h1.enableH we (.update s) trivial
  cases c1
  have hc : ∃ c, h1.enableH.current = some c := by
    cases e : h1.enableH.current with
    | none => exact (a8 (we.cur_none e)).elim
    | some c => exact ⟨c, rfl⟩
  obtain ⟨c, hc⟩ := hc
  obtain ⟨u1, u2, _, u4⟩ := update_false_order hc cfg s
  have ue : (h1.enableH.update cfg s false).enable = true ∧ (h1.enableH.update cfg s false).fd = h.fd := by
    have hc' : h1.current = some c := hc
    have a6 : h1.fd = h.fd := a6
    simp [Hist.update, hc', compact, setItem, enableH, a6]
  have ent : (h1.enableH.update cfg s false).entries = h.entries := (c5 a7).1.trans a4
  have dsk : (h1.enableH.update cfg s false).disk = h.disk := c4.trans a5
  have ord : (h1.enableH.update cfg s false).order ≠ [] := by
    rw [u1, keepNewest_self (show h1.enableH.order.length ≤ _ from a7)]; exact a8
  obtain ⟨h2, b1, _, b3, _, _, b6⟩ := C19_append cfg _ c2 ue.1 s hs (by rw [ent]; exact hnew) (.inr ⟨c, u4, by rw [u2]; simp⟩)
  refine ⟨h2, ?_, by rw [b3, ent], ?_⟩
  · rw [runHOps_append cfg (.disable :: os) [.enable, .update s, .new s] h h1 a1]
    simp only [runHOps, HOp.run, R.bind_ok, b1]
  · rw [b6, dsk, ue.2]
    simp only [ord, ne_eq, not_false_eq_true, true_and]

/-- **C103** (on again, after a cancelled line).  The same for `SaveHistory`, which notes no keystroke, once browsing is back at the end. -/
theorem C103_on_save (cfg : HCfg) {h : Hist} (w : h.WF) (hne : h.order ≠ []) (hle : h.order.length ≤ cfg.limit.toNat) {os : List HOp} (ho : ∀ o ∈ os, o.Off)
    {s : List Rune} (hs : s ≠ []) (hnew : h.entries.getLast? ≠ some s) :
    ∃ h', runHOps cfg (.disable :: os ++ [.revert, .enable, .new s]) h = .ok h' ∧ h'.entries = keepNewest cfg.limit (h.entries ++ [s]) ∧
      h'.disk = h.disk ++ (if h.fd = .opened then encode s ++ [10] else []) := by
  obtain ⟨h1, a1, a2, a3, a4, a5, a6, a7⟩ := off_steps cfg (h := h.disable) { w with } rfl hle ho
  have a4 : h1.entries = h.entries := a4
  have a5 : h1.disk = h.disk := a5
  have a6 : h1.fd = h.fd := a6
  have a8 := off_order cfg os h.disable h1 ho rfl { w with } hne hle a1
  obtain ⟨h2, b1, _, b3, _, _, b6⟩ := C19_append cfg h1.revert.enableH { revert_WF a2 with } rfl s hs (by
    show h1.entries.getLast? ≠ _
    rw [a4]; exact hnew) (.inl rfl)
  refine ⟨h2, ?_, ?_, ?_⟩
  · rw [runHOps_append cfg (.disable :: os) [.revert, .enable, .new s] h h1 a1]
    simp only [runHOps, HOp.run, R.bind_ok, b1]
  · rw [b3]
    show keepNewest cfg.limit (h1.entries ++ [s]) = _
    rw [a4]
  · rw [b6]
    show h1.disk ++ (if h1.order ≠ [] ∧ h1.fd = .opened then _ else []) = _
    rw [a5, a6]
    simp only [a8, ne_eq, not_false_eq_true, true_and]

/-! ### Where it fails -/

/-- A history file with the lines `ab` and `cd`, switched off. -/
def hOff : Hist := (Hist.start ⟨500, true, false, true⟩ (fileOf [[97, 98], [99, 100]])).disable

/-- The configuration with a history. -/
def cKeep : OCfg := { c0 with h := ⟨500, true, false, true⟩ }

/-- **Browsing is not left alone** (history.go:249-251, operation.go:360-363).  `New` returns before it moves `current` back to the end.  With the
history off, Up and Enter submit `cd`; in the next call Up gives `ab`, not the newest entry `cd` … -/
theorem C103_false_newest : calls cKeep 20 2 { o0 [16, 13, 16, 13] with hist := hOff } = .ok [.line [99, 100], .line [97, 98]] := by decide +kernel

/-- … and `cd` itself reads as an empty line: the emptied buffer was noted as its pending edit, and the version was not advanced.  Down and Up, which
lead back to `cd`, submit nothing. -/
theorem C103_false_blank : calls cKeep 20 2 { o0 [16, 13, 14, 16, 13] with hist := hOff } = .ok [.line [99, 100], .line []] := by decide +kernel

/-- The same keys with the history on give `cd` both times. -/
theorem C103_on_newest : calls cKeep 20 2 { o0 [16, 13, 16, 13] with hist := hOff.enableH } = .ok [.line [99, 100], .line [99, 100]] ∧
    calls cKeep 20 2 { o0 [16, 13, 14, 16, 13] with hist := hOff.enableH } = .ok [.line [99, 100], .line [99, 100]] := by decide +kernel

/-! ### Non-trivial case -/

example : let h := Hist.start ⟨500, true, false, true⟩ (fileOf [[97, 98], [99, 100]])
    ∃ h', runHOps ⟨500, true, false, true⟩ (.disable :: [.update [120], .new [120], .prev, .update [121], .new [121]] ++ [.enable, .update [122], .new [122]]) h = .ok h' ∧
      h'.entries = [[97, 98], [99, 100], [122]] ∧ h'.disk = fileOf [[97, 98], [99, 100], [122]] := by
  intro h
  obtain ⟨h', h1, h2, h3⟩ := C103_on ⟨500, true, false, true⟩ (h := h) (start_spec _ _ rfl rfl).2.2.1 (by decide) (by decide)
    (os := [.update [120], .new [120], .prev, .update [121], .new [121]]) (by simp [HOp.Off]) (s := [122]) (by decide) (by decide)
  refine ⟨h', h1, ?_, ?_⟩
  · rw [h2]; decide
  · rw [h3]; decide

end RL
