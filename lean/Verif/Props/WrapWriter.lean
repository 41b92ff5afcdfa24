import Verif.Model.WrapWriter
import Verif.Props.Safety
import Verif.Proofs.Keys
import Verif.Spec.Session
/-! # C54: printing while a line is edited -/

namespace RL
open Spec RB Ed

namespace RB

/-- What erasing writes. -/
theorem clean_write {U : UTables} {r r' : RB} (h : r.clean U = .ok r') (hi : r.interactive = true) :
    (r.hadClean = true → r' = r) ∧
    (r.hadClean = false → ∃ n ts, r.idxLine U r.width = .ok n ∧ RB.cleanOutput U r n = .ok ts ∧
      r' = { r with hadClean := true, out := r.out ++ ts }) := by
  unfold RB.clean at h
  obtain ⟨n, h1, h⟩ := R.bind_inv h
  constructor
  · intro hc
    rw [if_pos (.inl hc)] at h
    cases h; rfl
  · intro hc
    rw [if_neg (by simp [hc, hi])] at h
    obtain ⟨ts, h2, h⟩ := R.bind_inv h
    cases h
    exact ⟨n, ts, h1, h2, rfl⟩

theorem write_write (r : RB) (a b : List Tok) : (r.write a).write b = r.write (a ++ b) := by
  simp [RB.write]

/-- Drawing does not depend on what has been written. -/
theorem output_write (U : UTables) (d : DCfg) (r : RB) (ts : List Tok) : (r.write ts).output U d = r.output U d := rfl

end RB

/-- The same buffer with other output. -/
def RB.shown (r : RB) (hc : Bool) (out : List Tok) : RB := { r with hadClean := hc, out := out }

theorem setStyle_out {U : UTables} {r r' : RB} {a b : Nat} {st} (h : r.setStyle U a b st = .ok r') :
    ∃ ts, ∀ hc out, (r.shown hc out).setStyle U a b st = .ok ((r.shown hc out).write ts) := by
  unfold RB.setStyle at h
  split at h
  · cases h
  · next h0 =>
    dsimp only at h
    split at h
    · next ha =>
      obtain ⟨s0, h1, h⟩ := R.bind_inv h
      rw [R.bind_ok] at h
      obtain ⟨s, h2, h⟩ := R.bind_inv h
      refine ⟨s0.map Tok.ch ++ [.sgr st] ++ s.map Tok.ch ++ [.sgr (str "0")], fun hc out => ?_⟩
      unfold RB.setStyle
      rw [if_neg h0]
      dsimp only
      have ha' : a > (r.shown hc out).idx := ha
      have h1' : slice (r.shown hc out).buf (r.shown hc out).idx a = .ok s0 := h1
      have h2' : slice (r.shown hc out).buf a b = .ok s := h2
      rw [if_pos ha', h1', R.bind_ok, R.bind_ok, h2', R.bind_ok]
    · next ha =>
      obtain ⟨w, h1, h⟩ := R.bind_inv h
      rw [R.bind_ok] at h
      obtain ⟨s, h2, h⟩ := R.bind_inv h
      refine ⟨List.replicate w Tok.bs ++ [.sgr st] ++ s.map Tok.ch ++ [.sgr (str "0")], fun hc out => ?_⟩
      unfold RB.setStyle
      rw [if_neg h0]
      dsimp only
      have ha' : ¬ a > (r.shown hc out).idx := ha
      have h1' : (r.shown hc out).calWidthBack U ((r.shown hc out).idx - a) = .ok w := h1
      have h2' : slice (r.shown hc out).buf a b = .ok s := h2
      rw [if_neg ha', h1', R.bind_ok, R.bind_ok, h2', R.bind_ok]

theorem searchRefresh_out {U : UTables} {s s' : Search} {r r' : RB} {x : Int} (h : s.searchRefresh U r x = .ok (s', r')) :
    ∃ ts, ∀ hc out, s.searchRefresh U (r.shown hc out) x = .ok (s', (r.shown hc out).write ts) := by
  unfold Search.searchRefresh at h
  obtain ⟨cw, h1, h⟩ := R.bind_inv h
  obtain ⟨p, h2, h⟩ := R.bind_inv h
  obtain ⟨x', h3, h⟩ := R.bind_inv h
  obtain ⟨r1, h4, h⟩ := R.bind_inv h
  obtain ⟨n, h5, h⟩ := R.bind_inv h
  obtain ⟨b, h6, h⟩ := R.bind_inv h
  cases h
  have hu : ∃ ts, ∀ hc out, s.underline U (r.shown hc out) = .ok ((r.shown hc out).write ts) := by
    unfold Search.underline at h4 ⊢
    by_cases hm : s.markStart > 0
    · simp only [if_pos hm] at h4 ⊢
      exact setStyle_out h4
    · simp only [if_neg hm]
      exact ⟨[], fun hc out => by simp [RB.write]⟩
  have hr1 : r1.toEd = r.toEd ∧ SameDisp r r1 := by
    unfold Search.underline at h4
    split at h4
    · exact RB.setStyle_ok h4
    · cases h4; exact ⟨rfl, .refl _⟩
  obtain ⟨ts, hts⟩ := hu
  refine ⟨ts ++ b, fun hc out => ?_⟩
  have h5' : ((r.shown hc out).write ts).cursorLineCount U = .ok n := by
    rw [← h5]
    obtain ⟨⟨e1⟩, p1, c1, i1, w1, o1⟩ := r1
    obtain ⟨⟨e2⟩, p2, c2, i2, w2, o2⟩ := r
    obtain ⟨k1, k2, k3, k4⟩ := hr1
    simp only at k1 k2 k3 k4
    cases k1; cases k2; cases k3; cases k4
    rfl
  unfold Search.searchRefresh
  rw [show (r.shown hc out).currentWidth U (if x < 0 then ((r.shown hc out).idx : Int) else x).toNat = .ok cw from h1]
  rw [R.bind_ok, show (r.shown hc out).promptLen U = .ok p from h2]
  rw [R.bind_ok, h3, R.bind_ok, hts, R.bind_ok, h5', R.bind_ok, h6, R.bind_ok, RB.write_write]

theorem completeRefresh_out {U : UTables} {s s' : Comp} {r r' : RB} (h : s.completeRefresh U r = .ok (s', r')) :
    ∃ ts, ∀ hc out, s.completeRefresh U (r.shown hc out) = .ok (s', (r.shown hc out).write ts) := by
  unfold Comp.completeRefresh at h
  split at h
  · next h0 =>
    cases h
    refine ⟨[], fun hc out => ?_⟩
    unfold Comp.completeRefresh
    rw [if_pos h0]; simp [RB.write]
  · next h0 =>
    obtain ⟨lc, h1, h⟩ := R.bind_inv h
    obtain ⟨same, h2, h⟩ := R.bind_inv h
    obtain ⟨cn, h3, h⟩ := R.bind_inv h
    dsimp only at h
    obtain ⟨cw, h4, h⟩ : ∃ cw, ((if cn ≠ 0 then (do
        let e ← divR (s.width - 1 - ((Comp.maxWidth U s.candidate 0 : Int) + (s.off + 1)) * cn) cn
        .ok ((Comp.maxWidth U s.candidate 0 : Int) + (s.off + 1) + e)) else .ok ((Comp.maxWidth U s.candidate 0 : Int) + (s.off + 1))) : R Int) = .ok cw ∧
        (do
          let nl ← repeatR [Tok.ch 10] lc
          let (m, lines) ← Comp.menu U same cw cn (fun i => i == s.choise && s.inSelect) s.candidate 0 0 1
          let p ← promptLen U r
          .ok (({ s with colNum := cn } : Comp), r.write (nl ++ [Tok.eraseBelow] ++ m ++ [Tok.up (lc - 1 + lines), Tok.cr, Tok.right (r.idx + p)]))) =
        Except.ok (ε := Fault) (s', r') := by
      split at h
      · next hn =>
        obtain ⟨e, k1, h⟩ := R.bind_inv h
        rw [R.bind_ok] at h
        exact ⟨_, by rw [if_pos hn, k1, R.bind_ok], h⟩
      · next hn =>
        rw [R.bind_ok] at h
        exact ⟨_, by rw [if_neg hn], h⟩
    obtain ⟨nl, h5, h⟩ := R.bind_inv h
    obtain ⟨⟨m, lines⟩, h6, h⟩ := R.bind_inv h
    obtain ⟨p, h7, h⟩ := R.bind_inv h
    cases h
    refine ⟨nl ++ [.eraseBelow] ++ m ++ [.up (lc - 1 + lines), .cr, .right (r.idx + p)], fun hc out => ?_⟩
    unfold Comp.completeRefresh
    rw [if_neg h0, show (r.shown hc out).cursorLineCount U = .ok lc from h1, R.bind_ok]
    dsimp only
    rw [show (r.shown hc out).runeSlice (-s.off) = .ok same from h2, R.bind_ok, h3, R.bind_ok]
    by_cases hn : cn ≠ 0
    · rw [if_pos hn] at h4 ⊢
      obtain ⟨e, k1, h4⟩ := R.bind_inv h4
      rw [k1, R.bind_ok, h4, R.bind_ok, h5, R.bind_ok, h6, R.bind_ok]
      dsimp only
      rw [show (r.shown hc out).promptLen U = .ok p from h7, R.bind_ok]
      rfl
    · rw [if_neg hn] at h4 ⊢
      rw [h4, R.bind_ok, h5, R.bind_ok, h6, R.bind_ok]
      dsimp only
      rw [show (r.shown hc out).promptLen U = .ok p from h7, R.bind_ok]
      rfl

/-- **C54, the part that holds.**  In every reachable state of an instance that is reading, whatever is written through
`Stdout()` or `Stderr()` appears exactly once, after the line on the screen has been erased (unless it was already) and before it is
drawn again; the result of the write is passed on; nothing else that is written depends on the text; the line, the cursor, the cut buffer,
the history, the search and the menu stay as they are.
Missing: the states in which the terminal waits, see `C54_false_window`. -/
theorem C54_partial {c : OCfg} (hf : Op.Friendly c) {o : Op} (h : Reachable c o) (hr : o.isReading = true)
    (hi : o.rb.interactive = true) :
    ∃ erase line extra col, (if o.rb.hadClean then erase = [] else
        ∃ n, o.rb.idxLine c.U o.rb.width = .ok n ∧ o.rb.cleanOutput c.U n = .ok erase) ∧
      o.rb.output c.U c.d = .ok line ∧
      (o.search.inMode = false → o.comp.inComplete = false → extra = []) ∧
      ∀ {ρ : Type} (text : List Tok) (res : ρ), o.wrapWrite c text res =
        .ok (res, { o with
          rb := { o.rb with hadClean := false, out := o.rb.out ++ (erase ++ text ++ line ++ extra) },
          comp := { o.comp with colNum := col } }) := by
  have inv := h.inv hf
  have hb := inv.base.rb
  obtain ⟨r1, e1, e2, e3, e4⟩ := hb.clean
  obtain ⟨r2, e5, -, e6, -⟩ := hb.refreshNil
  -- the line can be drawn
  obtain ⟨line, hl⟩ : ∃ l, o.rb.output c.U c.d = .ok l := by
    unfold RB.refreshNil RB.refresh at e5
    rw [if_neg (by simp [hi]), e1] at e5
    obtain ⟨r3, e7, e5⟩ := R.bind_inv e5
    cases e7
    obtain ⟨e, e8, e5⟩ := R.bind_inv e5
    cases e8
    unfold RB.print at e5
    obtain ⟨l, e9, _⟩ := R.bind_inv e5
    refine ⟨l, ?_⟩
    rcases hc : o.rb.hadClean with _ | _
    · obtain ⟨n, ts, -, -, rfl⟩ := (RB.clean_write e1 hi).2 hc
      exact e9
    · rw [(RB.clean_write e1 hi).1 hc] at e9
      exact e9
  -- erasing
  obtain ⟨erase, he, her⟩ : ∃ erase, (if o.rb.hadClean then erase = [] else
        ∃ n, o.rb.idxLine c.U o.rb.width = .ok n ∧ o.rb.cleanOutput c.U n = .ok erase) ∧
      r1 = { o.rb with hadClean := true, out := o.rb.out ++ erase } := by
    rcases hc : o.rb.hadClean with _ | _
    · obtain ⟨n, ts, h1, h2, rfl⟩ := (RB.clean_write e1 hi).2 hc
      exact ⟨ts, by simpa using ⟨n, h1, h2⟩, rfl⟩
    · refine ⟨[], by simp, ?_⟩
      rw [(RB.clean_write e1 hi).1 hc]
      obtain ⟨⟨ed, p, hcl, ii, w, out⟩, _⟩ := o
      simp only at hc; subst hc
      simp
  subst her
  -- what is drawn below the line
  have hw : o.search.width ≠ 0 := by rw [inv.base.sw]; have := hb.width; omega
  have hsame : ∀ out, o.rb.shown false out = { o.rb with hadClean := false, out := out } := fun _ => rfl
  have hpr : ∀ text, (({ o.rb with hadClean := true, out := o.rb.out ++ erase } : RB).write text).print c.U c.d =
      .ok (o.rb.shown false (o.rb.out ++ (erase ++ text ++ line))) := by
    intro text
    unfold RB.print
    rw [show (({ o.rb with hadClean := true, out := o.rb.out ++ erase } : RB).write text).output c.U c.d = .ok line from hl, R.bind_ok]
    simp [RB.write, RB.shown]
  obtain ⟨sx, hs⟩ : ∃ sx, ∀ out, (if o.search.inMode then o.search.searchRefresh c.U (o.rb.shown false out) (-1) else
      .ok (o.search, o.rb.shown false out)) = .ok (o.search, o.rb.shown false (out ++ sx)) ∧ (o.search.inMode = false → sx = []) := by
    by_cases hm : o.search.inMode = true
    · obtain ⟨k1, k2⟩ := (inv.son hm).1
      obtain ⟨ts, h1⟩ := hb.searchRefresh hw k1 k2 (x := -1) (by omega)
      obtain ⟨ts, h2⟩ := searchRefresh_out h1
      refine ⟨ts, fun out => ⟨?_, fun k => by simp [hm] at k⟩⟩
      rw [if_pos hm, h2]
      rfl
    · exact ⟨[], fun out => ⟨by rw [if_neg hm]; simp, fun _ => rfl⟩⟩
  obtain ⟨col, cx, hcx⟩ : ∃ col cx, ∀ out, o.comp.completeRefresh c.U (o.rb.shown false out) =
      .ok ({ o.comp with colNum := col }, o.rb.shown false (out ++ cx)) ∧ (o.comp.inComplete = false → cx = []) := by
    obtain ⟨n, ts, h1, -⟩ := hb.menu inv.comp.weak
    by_cases hm : o.comp.inComplete = true
    · obtain ⟨ts, h2⟩ := completeRefresh_out h1
      refine ⟨n, ts, fun out => ⟨by rw [h2]; rfl, fun k => by simp [hm] at k⟩⟩
    · refine ⟨o.comp.colNum, [], fun out => ⟨?_, fun _ => rfl⟩⟩
      unfold Comp.completeRefresh
      rw [if_pos (by simpa using hm)]; simp
  refine ⟨erase, line, sx ++ cx, if o.comp.inComplete then col else o.comp.colNum, he, hl, fun k1 k2 => ?_, fun {ρ} text res => ?_⟩
  · rw [(hs []).2 k1, (hcx []).2 k2]; rfl
  · unfold Op.wrapWrite
    rw [if_neg (by simp [hr]), if_neg (by simp [hi]), e1, R.bind_ok, hpr, R.bind_ok]
    dsimp only
    have h1 := (hs (o.rb.out ++ (erase ++ text ++ line))).1
    have h2 := (hcx (o.rb.out ++ (erase ++ text ++ line) ++ sx)).1
    by_cases hm : o.search.inMode = true
    · have hc : ¬ o.comp.inComplete = true := by simp [inv.excl hm]
      rw [if_pos hm] at h1 ⊢
      rw [h1, R.bind_ok, R.bind_ok]
      dsimp only
      rw [if_neg hc, R.bind_ok, (hcx []).2 (by simpa using hc), if_neg hc]
      simp [RB.shown]
    · rw [if_neg hm, R.bind_ok]
      have hsx := (hs []).2 (by simpa using hm)
      subst hsx
      rw [List.append_nil] at h2
      by_cases hc : o.comp.inComplete = true
      · rw [if_pos hc, if_pos hc]
        unfold Op.completeRefresh
        dsimp only
        rw [h2]
        simp [RB.shown]
      · rw [if_neg hc, if_neg hc, R.bind_ok, (hcx []).2 (by simpa using hc)]
        simp [RB.shown]

/-- While the terminal is not reading (before the first kick is taken, and while a line is being handed over) the text is written as it is. -/
theorem C54_idle {ρ : Type} {c : OCfg} {o : Op} (h : o.isReading = false) (text : List Tok) (res : ρ) :
    o.wrapWrite c text res = .ok (res, { o with rb := { o.rb with out := o.rb.out ++ text } }) := by
  unfold Op.wrapWrite
  rw [if_pos h]; rfl

/-- **C54 is false in general.**  `Readline` draws the prompt and then wakes the terminal.  Text written in between (here "x") is written behind
the prompt, without erasing and redrawing the line, and the next key erases the row it is on. -/
theorem C54_false_window : ∃ o1 o2 o3, (o0 [97]).refreshNil c0 = .ok o1 ∧
    o1.kickRead.wrapWrite c0 [.ch 120] () = .ok ((), o2) ∧ o2.iter c0 = .ok o3 ∧
    o2.rb.out = [.eraseBelow, .eraseLine, .cr, .ch 62, .ch 32, .ch 32, .bs, .ch 120] ∧
    o3.rb.out = o2.rb.out ++ [.eraseBelow, .eraseLine, .cr, .ch 62, .ch 32, .ch 97] := by
  refine ⟨_, _, _, rfl, rfl, rfl, ?_, ?_⟩ <;> decide

/-- Non-trivial case for `C54_partial`: a reachable state in which the terminal reads, with a line and the cursor inside it. -/
example : ∃ o, Reachable c0 o ∧ o.isReading = true ∧ o.rb.interactive = true ∧ o.rb.buf = [97, 98] ∧ o.rb.idx = 1 ∧
    (∃ o', o.wrapWrite c0 [.ch 120, .ch 10] () = .ok ((), o') ∧
      o'.rb.out = o.rb.out ++ [.eraseBelow, .eraseLine, .cr, .ch 120, .ch 10, .ch 62, .ch 32, .ch 97, .ch 98, .bs]) := by
  refine ⟨_, ⟨[62, 32], 80, Hist.fresh [], [97, 98, 2], 2, by decide, rfl, by decide, by decide, Hist.fresh_WF [], rfl,
    .key (.key (.key (.call (.start _) rfl) ?_ rfl) ?_ rfl) ?_ rfl⟩, rfl, rfl, rfl, rfl, _, rfl, by decide⟩
  all_goals
    intro r hr
    have := Option.some.inj hr
    subst this
    rintro (h | h | h | h | h)
    · exact absurd h.1 (by decide)
    · exact absurd h.1 (by decide)
    · exact absurd h.1 (by decide)
    · exact absurd h.1 (by decide)
    · exact absurd h.1 (by decide)

end RL
