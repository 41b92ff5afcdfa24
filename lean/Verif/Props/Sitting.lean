import Verif.Props.Restart
import Verif.Props.Transcript
/-! # C77: from the bytes typed to the lines returned, the history file and the screen, over several runs -/

namespace RL
open Spec RB Ed Hist

/-- The same runs as in `runs`, on a terminal: the screen at the end.  Every run writes on the screen the previous one left. -/
def shown (c : OCfg) (prompt : List Rune) (w : Int) (fuel : Nat) : Spec.Term → List Nat → List (List Nat × Nat) → R Spec.Term
  | t, _, [] => .ok t
  | t, disk, (bytes, n) :: rs => do
    let o ← after c fuel n (Op.init prompt true w (Hist.start c.h disk) (termKeys c.U false (readBytes bytes)))
    shown c prompt w fuel (screen t o.rb) o.hist.disk rs

variable {c : OCfg} {w : Nat} {vis : List Rune}

theorem Over.trans {t0 t1 t2 : Spec.Term} {p q : List (List Rune)} (h1 : Over w t0 t1 p) (h2 : Over w t1 t2 q) : Over w t0 t2 (p ++ q) := by
  refine ⟨?_, h2.col, fun a ha x => (h2.above a (by have := h1.row; omega) x).trans (h1.above a ha x), fun a x hx => ?_⟩
  · rw [h2.row, h1.row, heights_append]; omega
  · by_cases ha : a < heights w p
    · rw [paper_append_low _ _ _ ha, ← h1.cells a x hx]
      exact h2.above _ (by have := h1.row; omega) x
    · obtain ⟨k, rfl⟩ := Nat.exists_eq_add_of_le (Nat.le_of_not_lt ha)
      rw [paper_append_high, ← h2.cells k x hx, h1.row, Nat.add_assoc]

theorem Hist.AllP.start {cfg : HCfg} {disk : List Nat} {P : Rune → Prop} (h : ∀ t ∈ fileTexts disk, ∀ r ∈ t, P r) : (Hist.start cfg disk).AllP P := by
  have load : ∀ (ls : List (List Nat)) (g : Hist), (∀ l ∈ ls, ∀ r ∈ lineText l, P r) → g.AllP P → (loadLines cfg ls g).AllP P := by
    intro ls
    induction ls with
    | nil => exact fun g _ a => a
    | cons l ls ih =>
      intro g hl a
      unfold loadLines
      split
      · exact ih g (fun x hx => hl x (.tail _ hx)) a
      · exact ih _ (fun x hx => hl x (.tail _ hx)) (a.push (hl l (.head _)))
  have fr : (Hist.fresh disk).AllP P := fun i => ⟨by simp [Hist.fresh], by simp [Hist.fresh]⟩
  have hd : ∀ l ∈ termLines [] disk, ∀ r ∈ lineText l, P r := by
    intro l hl r hr
    refine h (lineText l) ?_ r hr
    unfold fileTexts
    rw [List.mem_filter]
    exact ⟨List.mem_map_of_mem hl, by simp; intro e; rw [e] at hr; cases hr⟩
  unfold Hist.start Hist.init
  split
  · exact fr
  · split
    · unfold updatePath
      split
      · exact fr
      · dsimp only
        refine AllP.push (P := P) ?_ (fun _ hx => by cases hx)
        have k := load (termLines [] disk) { Hist.fresh disk with fd := .opened } hd fr
        split
        · unfold rewrite; split <;> exact k
        · exact k
    · exact fr

theorem mem_recorded {l : List (List Rune)} : ∀ {all : List (List Rune)} {e}, e ∈ l.foldl record all → e ∈ all ∨ e ∈ l := by
  induction l with
  | nil => exact fun h => .inl h
  | cons s l ih =>
    intro all e h
    rcases ih h with h | h
    · unfold record at h
      split at h
      · exact .inl h
      · rcases List.mem_append.1 h with h | h
        · exact .inl h
        · rw [List.mem_singleton.1 h]; exact .inr (.head _)
    · exact .inr (.tail _ h)

theorem shown_runs (hp : Op.Plain c) (hv : Visible c) (hl : 2 ≤ c.h.limit) (hn : c.noSave = false) (hf : c.h.hasFile = true)
    (ho : c.h.openOK = true) {prompt : List Rune} (hpl : Plain c.U c.d w vis (RB.new prompt true w))
    {es es' : List (List Rune)} {rs : List (List Nat × List Event)} (h : Runs c.U c.h.limit es rs es') (hes : ∀ e ∈ es, Storable e)
    (hc : ∀ e ∈ es, ∀ r ∈ e, Cell c.U r) (hcs : ∀ p ∈ rs, ∀ s ∈ submitted p.2, ∀ r ∈ s, Cell c.U r)
    (hk : ∀ p ∈ rs, ∀ k ∈ termKeys c.U false (readBytes p.1), TKey c k) (hne : ∀ p ∈ rs, p.2 ≠ []) :
    ∃ N, ∀ fuel, N ≤ fuel → ∀ t : Spec.Term, t.w = w → t.st = .ground →
      ∃ t', shown c prompt w fuel t (fileOf es) (rs.map fun r => (r.1, r.2.length)) = .ok t' ∧ (rs = [] → t' = t) ∧
        (rs ≠ [] → Over w t t' ((rs.flatMap (·.2)).map (paragraph vis c.interruptPrompt c.eofPrompt))) := by
  have hw0 : 0 < w := by have := hpl.pw; omega
  have hpr := hpl.promptLen
  have hdvd : 0 < vis.length → ¬ (w : Int) ∣ (vis.length : Int) := by
    intro h1 h2
    have := Nat.le_of_dvd h1 (Int.natCast_dvd_natCast.1 h2)
    have := hpl.pw
    omega
  have hpaint : c.d.painter ≠ none := by obtain ⟨f, hf, _⟩ := hpl.paint; rw [hf]; simp
  induction h with
  | none => exact ⟨0, fun _ _ t _ _ => ⟨t, rfl, fun _ => rfl, fun h => (h rfl).elim⟩⟩
  | @run es evs b rs es' cs tl h1 h2 h3 h4 h5 _ ih =>
    have hkn : ∀ e ∈ keepNewest c.h.limit es, Storable e := fun e he => hes e (mem_keepNewest he)
    obtain ⟨N, k2⟩ := ih (record_storable hkn h5) (fun e he => by
        rcases mem_recorded he with he | he
        · exact hc e (mem_keepNewest he)
        · exact hcs _ (.head _) e he)
      (fun p hp => hcs p (.tail _ hp)) (fun p hp => hk p (.tail _ hp)) (fun p hp => hne p (.tail _ hp))
    have hkeys := C38_bytes h1 h2 h3
    refine ⟨max N ((cs.flatMap Chunk.keys).length + 1), fun fuel hfu t hw hst => ?_⟩
    obtain ⟨o', q1, q2, q3, q5⟩ := C74_run hp hl hn hf ho (by omega) hpr hdvd hpaint hes h4 (fuel := fuel) (by omega)
    have ht : fileTexts (fileOf es) = es := by
      have := fileTexts_storable hes []
      rw [List.append_nil] at this
      rw [this]; simp [fileTexts, termLines]
    have hall : (Hist.start c.h (fileOf es)).AllP (Cell c.U) := AllP.start (by rw [ht]; exact hc)
    have hkk := hk _ (.head _)
    dsimp only at hkk
    rw [hkeys] at hkk
    have hr0 := Resting.init (c := c) (t0 := t) (w := w) (vis := vis) (prompt := prompt) hw hst hpl hall hkk
    rcases hr0.calls hv _ q1 q2 with hr | ⟨hs, _⟩
    · rw [List.nil_append] at hr
      have hev := hne _ (.head _)
      dsimp only at hev
      have hps : evs.map (paragraph vis c.interruptPrompt c.eofPrompt) ≠ [] := by simpa using hev
      have hov : Over w t (screen t o'.rb) (evs.map (paragraph vis c.interruptPrompt c.eofPrompt)) :=
        ⟨hr.printed.row, (hr.printed.rest hps).1, hr.printed.above, hr.printed.all hps⟩
      obtain ⟨t', g1, g2, g3⟩ := k2 fuel (by omega) (screen t o'.rb) hr.between.sw hr.between.st
      refine ⟨t', ?_, (fun h => by cases h), fun _ => ?_⟩
      · simp only [List.map_cons, shown, hkeys]
        rw [q2, R.bind_ok, q5, g1]
      · rw [List.flatMap_cons, List.map_append]
        cases rs with
        | nil => rw [g2 rfl]; simpa using hov
        | cons r rs => exact hov.trans (g3 (by simp))
    · rw [q3] at hs; cases hs

/-- **C77, the part that holds.**  A program is run any number of times on one history file and one terminal.  Whatever bytes the keyboard
sends in each run, if they encode keys of the notebook (C67) that are keys of C69: the calls of `Readline` return what the notebook says,
the history file holds the recorded lines, and the screen shows, from the row on in which the cursor was at first, one paragraph per call,
in order and over all runs; above them is what was there before, below them nothing, and the cursor is at the start of the next row.
Missing: what C69 leaves out. -/
theorem C77_runs_partial (hp : Op.Plain c) (hv : Visible c) (hl : 2 ≤ c.h.limit) (hn : c.noSave = false) (hf : c.h.hasFile = true)
    (ho : c.h.openOK = true) {prompt : List Rune} (hpl : Plain c.U c.d w vis (RB.new prompt true w))
    {es es' : List (List Rune)} {rs : List (List Nat × List Event)} (h : Runs c.U c.h.limit es rs es') (hes : ∀ e ∈ es, Storable e)
    (hc : ∀ e ∈ es, ∀ r ∈ e, Cell c.U r) (hcs : ∀ p ∈ rs, ∀ s ∈ submitted p.2, ∀ r ∈ s, Cell c.U r)
    (hk : ∀ p ∈ rs, ∀ k ∈ termKeys c.U false (readBytes p.1), TKey c k) (hne : ∀ p ∈ rs, p.2 ≠ []) (hrs : rs ≠ [])
    {t : Spec.Term} (hw : t.w = w) (hst : t.st = .ground) :
    ∃ N, ∀ fuel, N ≤ fuel →
      runs c prompt w fuel (fileOf es) (rs.map fun r => (r.1, r.2.length)) = .ok (rs.map (·.2), fileOf es') ∧
      ∃ t', shown c prompt w fuel t (fileOf es) (rs.map fun r => (r.1, r.2.length)) = .ok t' ∧
        Over w t t' ((rs.flatMap (·.2)).map (paragraph vis c.interruptPrompt c.eofPrompt)) := by
  have hw0 : 0 < w := by have := hpl.pw; omega
  have hdvd : 0 < vis.length → ¬ (w : Int) ∣ (vis.length : Int) := by
    intro h1 h2
    have := Nat.le_of_dvd h1 (Int.natCast_dvd_natCast.1 h2)
    have := hpl.pw
    omega
  obtain ⟨N1, k1⟩ := (C74_runs hp hl hn hf ho (by omega) hpl.promptLen hdvd
    (by obtain ⟨f, hf, _⟩ := hpl.paint; rw [hf]; simp) h hes).2
  obtain ⟨N2, k2⟩ := shown_runs hp hv hl hn hf ho hpl h hes hc hcs hk hne
  refine ⟨max N1 N2, fun fuel hfu => ⟨k1 fuel (by omega), ?_⟩⟩
  obtain ⟨t', g1, _, g3⟩ := k2 fuel (by omega) t hw hst
  exact ⟨t', g1, g3 hrs⟩

/-! ### A non-trivial case -/

theorem cell233 : Cell U0 233 := ⟨by unfold Printable; decide, by decide⟩

theorem cells_hi : ∀ r ∈ ([104, 105, 233] : List Rune), Cell U0 r := by
  intro r hr
  by_cases h : 32 ≤ r ∧ r < 127
  · exact cell0 h
  · rw [show r = 233 by revert h; revert r; decide]; exact cell233

/-- The two runs of C74 ("hi", Enter; then Up as `ESC [ A`, "é" as two bytes, Enter), on a screen of 10 columns. -/
example : ∃ N, ∀ fuel, N ≤ fuel → ∃ t', shown { c0 with h := ⟨500, true, false, true⟩ } (str "> ") 10 fuel t10 []
    [([104, 105, 13], 1), ([27, 91, 65, 195, 169, 13, 27, 91], 1)] = .ok t' ∧ Over 10 t10 t' [str "> hi", str "> hi" ++ [233]] := by
  have h1 : ∀ p ∈ ([([104, 105, 13], [.line [104, 105]]), ([27, 91, 65, 195, 169, 13, 27, 91], [.line [104, 105, 233]])] : List (List Nat × List Event)),
      ∀ s ∈ submitted p.2, ∀ r ∈ s, Cell U0 r := by
    intro p hp s hs r hr
    refine cells_hi r ?_
    revert r; revert s; revert p; decide
  have h2 : ∀ p ∈ ([([104, 105, 13], [.line [104, 105]]), ([27, 91, 65, 195, 169, 13, 27, 91], [.line [104, 105, 233]])] : List (List Nat × List Event)),
      ∀ k ∈ termKeys U0 false (readBytes p.1), TKey { c0 with h := ⟨500, true, false, true⟩ } k := by
    intro p hp k hk
    by_cases h : k ∈ ([104, 105, 233] : List Rune)
    · exact .inl (cells_hi k h)
    · refine .inr (.inl ?_)
      revert h; revert k; revert p; decide
  obtain ⟨N, hN⟩ := C77_runs_partial (c := { c0 with h := ⟨500, true, false, true⟩ }) (w := 10) (vis := str "> ") (prompt := str "> ") (t := t10)
    ⟨rfl, by simp [Op.Observer, c0]⟩ { visible0 with } (by decide) rfl rfl rfl plain10 C74_example (fun _ h => by cases h)
    (fun _ h => by cases h) h1 h2 (by decide) (by decide) rfl rfl
  exact ⟨N, fun fuel hf => (hN fuel hf).2⟩

end RL
