import Verif.Model.Negative
import Verif.Props.Edit
/-! # C106: the cursor a `Listener` returns -/

namespace RL
open RB

/-- The drawing configuration with a painter that takes any integer. -/
def withPainter (d : DCfg) (p : Option (List Rune → Int → List Rune)) : DCfg := { d with painter := p.map fun f l n => f l (n : Int) }

/-- The closure of the model for one on integers that leaves the cursor at or right of 0. -/
def asEd (f : List Rune → Int → R (List Rune × Int)) (e : Ed) : R Ed := do
  let (b, q) ← f e.buf e.idx
  .ok { e with buf := b, idx := q.toNat }

theorem bsLoopI_nat (width : Int) (sep : List Int) (i n : Nat) : bsLoopI width sep i n = bsLoop width sep i n := by
  induction n with
  | zero => rfl
  | succ n ih => simp only [bsLoopI, bsLoop, bsTok, ih]; rfl

theorem getBackspaceSequenceI_nat (U : UTables) (r : RB) : r.getBackspaceSequenceI U r.idx = r.getBackspaceSequence U := by
  unfold getBackspaceSequenceI getBackspaceSequence
  have : ((r.buf.length : Int) - (r.idx : Int)).toNat = r.buf.length - r.idx := by omega
  simp only [this, bsLoopI_nat]

theorem outputI_nat (U : UTables) (d : DCfg) (p : Option (List Rune → Int → List Rune)) (r : RB) :
    r.outputI U d p r.idx = r.output U (withPainter d p) := by
  unfold outputI output
  simp only [getBackspaceSequenceI_nat, withPainter, gt_iff_lt, Int.ofNat_lt]
  cases p <;> rfl

theorem cleanI_nat (U : UTables) (r : RB) : r.cleanI U r.idx = r.clean U := by
  unfold cleanI clean idxLineI idxLine sliceToI
  have : ¬ ((r.idx : Int) < 0) := by omega
  simp only [this, if_false, Int.toNat_natCast]

/-- On cursors ≥ 0 the functions of Model/Negative are those of the model. -/
theorem C106_same (U : UTables) (d : DCfg) (p : Option (List Rune → Int → List Rune)) (r : RB) (f : List Rune → Int → R (List Rune × Int))
    (hf : ∀ b i c q, f b i = .ok (c, q) → 0 ≤ q) :
    ((r.refreshI U d p r.idx f).map fun x => ({ x.1 with idx := x.2.toNat } : RB)) = r.refresh U (withPainter d p) (asEd f) := by
  unfold refreshI refresh
  by_cases hi : r.interactive = true
  · rw [if_neg (not_not_intro hi), if_neg (not_not_intro hi), cleanI_nat]
    cases hc : r.clean U with
    | error e => rfl
    | ok r1 =>
      have h1 : r1.toEd = r.toEd := (clean_ok hc).1
      have hx : r1.idx = r.idx := congrArg Ed.idx h1
      simp only [R.bind_ok, asEd]
      rw [← hx]
      cases hq : f r1.buf r1.idx with
      | error e => rfl
      | ok x =>
        obtain ⟨b, q⟩ := x
        have h0 := hf _ _ _ _ hq
        simp only [R.bind_ok, printI, print]
        have e : RB.outputI U d p { r1 with buf := b } q = RB.output U (withPainter d p) { r1 with buf := b, idx := q.toNat } := by
          rw [← outputI_nat]
          show RB.outputI U d p { r1 with buf := b } q = RB.outputI U d p { r1 with buf := b, idx := q.toNat } (q.toNat : Int)
          rw [Int.toNat_of_nonneg h0]
          rfl
        rw [e]
        cases RB.output U (withPainter d p) { r1 with buf := b, idx := q.toNat } <;> rfl
  · rw [if_pos hi, if_pos hi]
    simp only [asEd]
    cases f r.buf r.idx <;> rfl

/-- **C106** (within the line).  A cursor within the line is set, and the next redraw goes through. -/
theorem C106_within_partial (U : UTables) (d : DCfg) (hd : d.painter ≠ none) (r : RB) (hi : r.interactive = true) (hc : r.toEd.CursorIn) {n : Nat}
    (hn : r.promptLen U = .ok n) {pos : Nat} {l : List Rune} (hp : pos ≤ l.length) (hs : ¬ SepDiverges (widthAll U l) n r.width) :
    ∃ r', r.setWithIdx U d pos l = .ok r' ∧ r'.buf = l ∧ r'.idx = pos ∧ ∃ r'', r'.refreshNil U d = .ok r'' ∧ r''.buf = l ∧ r''.idx = pos := by
  have go : ∀ (r : RB) (p : Nat) (m : List Rune), r.interactive = true → r.toEd.CursorIn → r.promptLen U = .ok n → ¬ SepDiverges (widthAll U m) n r.width →
      ∃ r', r.refresh U d (fun e => .ok { e with buf := m, idx := p }) = .ok r' ∧ r'.buf = m ∧ r'.idx = p ∧ SameDisp r r' := by
    intro r p m hi hc hn hs
    obtain ⟨r1, hr1⟩ := clean_total hn hc
    obtain ⟨_, h2⟩ := clean_ok hr1
    have hp1 : RB.promptLen U { r1 with buf := m, idx := p } = .ok n := by rw [← hn]; exact promptLen_congr U h2.prompt
    have hw : r1.width = r.width := h2.width
    obtain ⟨ts, hts⟩ := (output_spec (r := { r1 with buf := m, idx := p }) hp1 hd).2 (fun h => hs (hw ▸ h.2))
    refine ⟨{ (RB.write { r1 with buf := m, idx := p } ts) with hadClean := false }, ?_, rfl, rfl, ⟨h2.1, h2.2, h2.3⟩⟩
    unfold refresh
    rw [if_neg (not_not_intro hi), hr1]
    simp only [R.bind_ok, RB.print, hts]
  obtain ⟨r', a1, a2, a3, a4⟩ := go r pos l hi hc hn hs
  have hw : r'.width = r.width := a4.width
  obtain ⟨r'', b1, b2, b3, _⟩ := go r' pos l (a4.interactive.trans hi) (by show r'.idx ≤ r'.buf.length; rw [a2, a3]; exact hp)
    (by rw [← hn]; exact promptLen_congr U a4.prompt) (hw ▸ hs)
  refine ⟨r', a1, a2, a3, r'', ?_, b2, b3⟩
  rw [← b1]
  unfold refreshNil refresh
  rw [if_neg (not_not_intro (a4.interactive.trans hi)), if_neg (not_not_intro (a4.interactive.trans hi))]
  cases hcl : r'.clean U with
  | error e => rfl
  | ok r1 =>
    have h1 : r1.toEd = r'.toEd := (clean_ok hcl).1
    have e : r1.toEd = { r1.toEd with buf := l, idx := pos } := by
      rw [h1, ← a2, ← a3]
    simp only [R.bind_ok]
    rw [← e]

/-- **C106 is false** (crash).  Once the cursor is negative, every command that redraws crashes, whatever it would do: `clean` slices the line at the cursor
before the command is carried out. -/
theorem C106_false_crash (U : UTables) (d : DCfg) (p : Option (List Rune → Int → List Rune)) (r : RB) (hi : r.interactive = true) (hw : r.width ≠ 0) {pos : Int}
    (hp : pos < 0) (f : List Rune → Int → R (List Rune × Int)) : r.refreshI U d p pos f = .error .panic := by
  unfold refreshI cleanI idxLineI sliceToI
  rw [if_neg (not_not_intro hi), if_neg hw, if_pos hp]
  rfl

/-- **C106 is false** (no check).  `SetWithIdx` takes any negative cursor without complaint; it goes left over the whole line and `-pos` columns further, into the prompt. -/
theorem C106_false_set (U : UTables) (d : DCfg) (paint : List Rune → Int → List Rune) (hm : d.enableMask = false) (r : RB) (hi : r.interactive = true)
    (hc : r.toEd.CursorIn) {n : Nat} (hn : r.promptLen U = .ok n) {pos : Int} (hp : pos < 0) {l : List Rune}
    (hs : ¬ SepDiverges (widthAll U l) n r.width) :
    ∃ r' pre k, r.refreshI U d (some paint) r.idx (fun _ _ => .ok (l, pos)) = .ok (r', pos) ∧ r'.buf = l ∧ r'.out = pre ++ k ∧
      k.countP (· == .bs) = l.length + pos.natAbs ∧ r'.interactive = true ∧ r'.width = r.width := by
  obtain ⟨r1, hr1⟩ := clean_total hn hc
  obtain ⟨h1, h2⟩ := clean_ok hr1
  have hp1 : RB.promptLen U { r1 with buf := l } = .ok n := by
    rw [← hn]; exact promptLen_congr U h2.prompt
  have hwd : r1.width = r.width := h2.width
  have cnt : ∀ (sep : List Int) m, (bsLoopI r1.width sep pos m).countP (· == .bs) = m := by
    intro sep m
    induction m with
    | zero => rfl
    | succ m ih => unfold bsLoopI; rw [List.countP_append, ih]; split <;> simp [Nat.add_comm]
  have e : ((l.length : Int) - pos).toNat = l.length + pos.natAbs := by omega
  have hb : ∃ sep, RB.getBackspaceSequenceI U { r1 with buf := l } pos = .ok (bsLoopI r1.width sep pos (l.length + pos.natAbs)) := by
    unfold getBackspaceSequenceI
    by_cases h0 : widthAll U l = 0
    · exact ⟨[], by simp [h0, sepFuel, sepLoop, e]⟩
    · obtain ⟨sep, hsep⟩ := sepLoop_ok (widthAll U l) n r1.width (hwd ▸ hs) _ (Nat.le_refl _)
      refine ⟨sep, ?_⟩
      simp only [h0, if_false, hp1, R.bind_ok, e]
      rw [hsep]; rfl
  obtain ⟨sep, hb⟩ := hb
  obtain ⟨eg, heg⟩ : ∃ e, RB.isInLineEdge U d.windows { r1 with buf := l } = .ok e := isInLineEdge_ok hp1
  have hlt : (l.length : Int) > pos := by omega
  have ho : ∃ pre, RB.outputI U d (some paint) { r1 with buf := l } pos = .ok (pre ++ bsLoopI r1.width sep pos (l.length + pos.natAbs)) := by
    unfold outputI
    have hf : ¬ (d.enableMask = true ∧ l.length > 0) := by simp [hm]
    rw [if_neg hf]
    simp only [heg, R.bind_ok, hb]
    simp only [if_pos hlt]
    cases eg
    · exact ⟨_, rfl⟩
    · exact ⟨_, rfl⟩
  obtain ⟨pre, ho⟩ := ho
  refine ⟨{ (RB.write { r1 with buf := l } (pre ++ bsLoopI r1.width sep pos (l.length + pos.natAbs))) with hadClean := false }, r1.out ++ pre,
    bsLoopI r1.width sep pos (l.length + pos.natAbs), ?_, rfl, ?_, cnt _ _, h2.interactive.trans hi, hwd⟩
  · unfold refreshI
    rw [if_neg (not_not_intro hi), cleanI_nat, hr1]
    simp only [R.bind_ok, printI, ho]
  · show r1.out ++ _ = _
    rw [List.append_assoc]

/-! ### Non-trivial case -/

/-- A listener answers `x` with the line `ab` and the cursor -1: the call returns, three columns are stepped back over; then typing `c` crashes. -/
example : ∃ r', RB.refreshI U0 d0 (some fun l _ => l) (RB.new [62] true 80) 0 (fun _ _ => .ok ([97, 98], -1)) = .ok (r', -1) ∧
    r'.refreshI U0 d0 (some fun l _ => l) (-1) (fun b q => .ok (b ++ [99], q + 1)) = .error .panic := by
  obtain ⟨r', pre, k, h1, _, _, _, hk⟩ := C106_false_set U0 d0 (fun l _ => l) rfl (RB.new [62] true 80) rfl (Nat.le_refl 0) (n := 1) (by decide) (pos := -1) (by decide)
    (l := [97, 98]) (by unfold SepDiverges; decide)
  exact ⟨r', h1, C106_false_crash U0 d0 _ r' hk.1 (by rw [hk.2]; decide) (by decide) _⟩

/-- The same with the cursor 1. -/
example : ∃ r', RB.setWithIdx U0 d0 (RB.new [62] true 80) 1 [97, 98] = .ok r' ∧ r'.buf = [97, 98] ∧ r'.idx = 1 ∧
    ∃ r'', r'.refreshNil U0 d0 = .ok r'' ∧ r''.buf = [97, 98] ∧ r''.idx = 1 :=
  C106_within_partial U0 d0 (by simp [d0]) (RB.new [62] true 80) rfl (Nat.le_refl 0) (n := 1) (by decide) (pos := 1) (l := [97, 98]) (by decide)
    (by unfold SepDiverges; decide)

end RL
