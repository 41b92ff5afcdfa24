import Verif.Spec.Editor
import Verif.Proofs.Runes
/-! Lemmas about erasing and redrawing the line. -/

namespace RL

namespace RB

theorem sepLoop_ok_aux (W p : Nat) (width : Int) (hw : 0 < width) (fuel : Nat) (i : Int) (sep : List Int)
    (hi : ¬ width ∣ i ∨ 0 < i) (hf : i + fuel ≥ W) :
    ∃ s, sepLoop W p width fuel i sep = .ok s := by
  induction fuel generalizing i sep with
  | zero => exact ⟨sep, by rw [sepLoop, if_pos (by omega)]⟩
  | succ fuel ih =>
    unfold sepLoop
    split
    · exact ⟨sep, rfl⟩
    · next h =>
      have hne : i ≠ 0 := by
        rintro rfl
        rcases hi with h | h
        · exact h (Int.dvd_zero _)
        · omega
      simp only [hne, if_false]
      refine ih _ _ ?_ (by omega)
      rcases hi with h | h
      · left; intro hd
        exact h ((Int.dvd_add_left (Int.dvd_refl _)).1 hd)
      · right; omega

theorem sepLoop_ok (W p : Nat) (width : Int) (h : ¬ SepDiverges W p width) (fuel : Nat) (hf : sepFuel W p ≤ fuel) :
    ∃ s, sepLoop W p width fuel 0 [] = .ok s := by
  unfold SepDiverges at h
  unfold sepFuel at hf
  by_cases hW : W = 0
  · subst hW
    cases fuel <;> exact ⟨[], by simp [sepLoop]⟩
  · have hw : 0 < width := by
      by_cases hw : 0 < width
      · exact hw
      · exact (h ⟨by omega, .inl (by omega)⟩).elim
    obtain ⟨f, rfl⟩ : ∃ f, fuel = f + 1 := ⟨fuel - 1, by omega⟩
    unfold sepLoop
    rw [if_neg (by omega)]
    simp only [if_true]
    refine sepLoop_ok_aux W p width hw f _ _ ?_ (by omega)
    by_cases hp : p = 0
    · right; omega
    · left; intro hd
      have : width ∣ (p : Int) := by
        have h2 : (0 : Int) - p + width = width - p := by omega
        rw [h2] at hd
        have h3 := Int.dvd_sub (Int.dvd_refl width) hd
        rwa [show width - (width - (p : Int)) = p by omega] at h3
      exact h ⟨by omega, .inr ⟨by omega, this⟩⟩

theorem sepLoop_hang (W p : Nat) (width : Int) (h : SepDiverges W p width) (fuel : Nat) :
    sepLoop W p width fuel 0 [] = .error .hang := by
  obtain ⟨hW, h⟩ := h
  rcases h with hw | ⟨hp, hd⟩
  · have : ∀ i sep, i ≤ 0 → sepLoop W p width fuel i sep = .error .hang := by
      induction fuel with
      | zero => intro i sep hi; rw [sepLoop, if_neg (by omega)]
      | succ fuel ih =>
        intro i sep hi
        unfold sepLoop
        rw [if_neg (by omega)]
        apply ih
        split <;> omega
    exact this 0 [] (by omega)
  · by_cases hw : width ≤ 0
    · obtain ⟨k, hk⟩ := hd
      have : ∀ i sep, i ≤ 0 → sepLoop W p width fuel i sep = .error .hang := by
        induction fuel with
        | zero => intro i sep hi; rw [sepLoop, if_neg (by omega)]
        | succ fuel ih =>
          intro i sep hi
          unfold sepLoop
          rw [if_neg (by omega)]
          apply ih
          split <;> omega
      exact this 0 [] (by omega)
    · have hle : width ≤ p := Int.le_of_dvd (by omega) hd
      have : ∀ i sep, i ≤ 0 → width ∣ i → sepLoop W p width fuel i sep = .error .hang := by
        induction fuel with
        | zero => intro i sep hi _; rw [sepLoop, if_neg (by omega)]
        | succ fuel ih =>
          intro i sep hi hdi
          unfold sepLoop
          rw [if_neg (by omega)]
          apply ih
          · split
            · omega
            · have : width ≤ -i := Int.le_of_dvd (by omega) (Int.dvd_neg.2 hdi)
              omega
          · split
            · next h0 => subst h0; exact Int.dvd_add (Int.dvd_sub (Int.dvd_zero _) hd) (Int.dvd_refl _)
            · exact Int.dvd_add hdi (Int.dvd_refl _)
      exact this 0 [] (by omega) (Int.dvd_zero _)

/-- More iterations do not change a result. -/
theorem sepLoop_mono (W p width : Int) {n m : Nat} (hnm : n ≤ m) {i : Int} {sep s : List Int}
    (h : sepLoop W p width n i sep = .ok s) : sepLoop W p width m i sep = .ok s := by
  induction n generalizing m i sep with
  | zero =>
    unfold sepLoop at h
    split at h
    · next hi => cases m <;> (unfold sepLoop; rw [if_pos hi]; exact h)
    · cases h
  | succ n ih =>
    obtain ⟨k, rfl⟩ : ∃ k, m = k + 1 := ⟨m - 1, by omega⟩
    unfold sepLoop at h ⊢
    split
    · next hi => simpa [hi] using h
    · next hi => rw [if_neg hi] at h; exact ih (by omega) h

/-- The parameters that no drawing function changes. -/
structure SameDisp (r r' : RB) : Prop where
  prompt : r'.prompt = r.prompt
  interactive : r'.interactive = r.interactive
  width : r'.width = r.width

theorem SameDisp.refl (r : RB) : SameDisp r r := ⟨rfl, rfl, rfl⟩
theorem SameDisp.trans {a b c : RB} (h : SameDisp a b) (h' : SameDisp b c) : SameDisp a c :=
  ⟨h'.1.trans h.1, h'.2.trans h.2, h'.3.trans h.3⟩

theorem promptLen_congr (U : UTables) {r r' : RB} (h : r'.prompt = r.prompt) : r'.promptLen U = r.promptLen U := by
  unfold promptLen; rw [h]

variable {U : UTables} {d : DCfg}

theorem clean_ok {r r' : RB} (h : r.clean U = .ok r') :
    r'.toEd = r.toEd ∧ SameDisp r r' := by
  unfold clean at h
  cases hi : r.idxLine U r.width with
  | error e => simp [hi] at h
  | ok l =>
    simp only [hi, R.bind_ok] at h
    split at h
    · cases h; exact ⟨rfl, .refl _⟩
    · cases ho : cleanOutput U { r with hadClean := true } l with
      | error e => simp [ho] at h
      | ok o =>
        simp only [ho, R.bind_ok, Except.ok.injEq] at h
        subst h
        exact ⟨rfl, rfl, rfl, rfl⟩

theorem print_ok {r r' : RB} (h : r.print U d = .ok r') :
    r'.toEd = r.toEd ∧ SameDisp r r' := by
  unfold print at h
  cases ho : r.output U d with
  | error e => simp [ho] at h
  | ok o =>
    simp only [ho, R.bind_ok, Except.ok.injEq] at h
    subst h
    exact ⟨rfl, rfl, rfl, rfl⟩

theorem refreshV_ok {α} {r r' : RB} {f : Ed → R (α × Ed)} {a : α} (h : r.refreshV U d f = .ok (a, r')) :
    f r.toEd = .ok (a, r'.toEd) ∧ SameDisp r r' := by
  unfold refreshV at h
  split at h
  · cases hf : f r.toEd with
    | error e => simp [hf] at h
    | ok v =>
      obtain ⟨b, e⟩ := v
      simp only [hf, R.bind_ok, Except.ok.injEq, Prod.mk.injEq] at h
      obtain ⟨rfl, rfl⟩ := h
      exact ⟨rfl, rfl, rfl, rfl⟩
  · cases hc : r.clean U with
    | error e => simp [hc] at h
    | ok r1 =>
      obtain ⟨h1, h2⟩ := clean_ok hc
      simp only [hc, R.bind_ok, h1] at h
      cases hf : f r.toEd with
      | error e => simp [hf] at h
      | ok v =>
        obtain ⟨b, e⟩ := v
        simp only [hf, R.bind_ok] at h
        cases hp : RB.print U d { r1 with toEd := e } with
        | error e => simp [hp] at h
        | ok r2 =>
          simp only [hp, R.bind_ok, Except.ok.injEq, Prod.mk.injEq] at h
          obtain ⟨rfl, rfl⟩ := h
          obtain ⟨h3, h4⟩ := print_ok hp
          exact ⟨by rw [h3], h2.trans ⟨h4.1, h4.2, h4.3⟩⟩

theorem refresh_eq_refreshV (r : RB) (f : Ed → R Ed) :
    r.refresh U d f = (·.2) <$> r.refreshV U d (fun e => (fun x => ((), x)) <$> f e) := by
  unfold refresh refreshV
  dsimp only
  split
  · cases f r.toEd <;> rfl
  · cases r.clean U with
    | error => rfl
    | ok r1 =>
      simp only [R.bind_ok]
      cases f r1.toEd with
      | error => rfl
      | ok e =>
        simp only [R.bind_ok, R.map_ok]
        cases RB.print U d { r1 with toEd := e } <;> rfl

theorem refresh_ok {r r' : RB} {f : Ed → R Ed} (h : r.refresh U d f = .ok r') :
    f r.toEd = .ok r'.toEd ∧ SameDisp r r' := by
  rw [refresh_eq_refreshV] at h
  cases hv : r.refreshV U d (fun e => (fun x => ((), x)) <$> f e) with
  | error => simp [hv] at h
  | ok v =>
    obtain ⟨u, r1⟩ := v
    simp only [hv, R.map_ok, Except.ok.injEq] at h
    subst h
    obtain ⟨h1, h2⟩ := refreshV_ok hv
    refine ⟨?_, h2⟩
    cases hf : f r.toEd with
    | error => simp [hf] at h1
    | ok e => simp [hf] at h1; rw [h1]

theorem DrawOK.congr {r r' : RB} (h : DrawOK U d r) (hs : SameDisp r r') : DrawOK U d r' := by
  unfold DrawOK at *
  rw [hs.interactive, hs.width, promptLen_congr U hs.prompt]
  exact h

theorem getBackspaceSequence_ok {r : RB} {p} (hp : r.promptLen U = .ok p)
    (h : ¬ SepDiverges (widthAll U r.buf) p r.width) : ∃ ts, r.getBackspaceSequence U = .ok ts := by
  unfold getBackspaceSequence
  by_cases hW : widthAll U r.buf = 0
  · simp [hW, sepFuel, sepLoop]
  · simp only [hW, if_false, hp, R.bind_ok]
    obtain ⟨s, hs⟩ := sepLoop_ok _ p _ h (sepFuel (widthAll U r.buf) p) (Nat.le_refl _)
    exact ⟨_, by rw [hs]; rfl⟩

theorem getBackspaceSequence_hang {r : RB} {p} (hp : r.promptLen U = .ok p)
    (h : SepDiverges (widthAll U r.buf) p r.width) : r.getBackspaceSequence U = .error .hang := by
  unfold getBackspaceSequence
  have hW : widthAll U r.buf ≠ 0 := by have := h.1; omega
  simp only [hW, if_false, hp, R.bind_ok, sepLoop_hang _ _ _ h, R.bind_error]

theorem splitByLine_ne_nil (U : UTables) (a b : Int) (rs : List Rune) : splitByLine U a b rs ≠ [] := by
  obtain ⟨h1, _⟩ := splitGo_spec U b a a [] rs (by simp [Spec.cells]) (by simp)
  intro h
  rw [show splitGo U b a [] rs = splitByLine U a b rs from rfl, h] at h1
  cases h1

theorem isInLineEdge_ok {r : RB} {p} {win : Bool} (hp : r.promptLen U = .ok p) : ∃ b, r.isInLineEdge U win = .ok b := by
  unfold isInLineEdge getSplitByLine
  split
  · exact ⟨false, rfl⟩
  simp only [hp, R.bind_ok]
  cases h : (splitByLine U p r.width r.buf).getLast? with
  | none => exact (splitByLine_ne_nil U _ _ _ (List.getLast?_eq_none_iff.1 h)).elim
  | some l => exact ⟨_, rfl⟩

/-- What the redraw does: it succeeds unless there is something to step back over and the loop diverges. -/
theorem output_spec {r : RB} {p} (hp : r.promptLen U = .ok p) (hd : d.painter ≠ none) :
    (r.idx < r.buf.length ∧ SepDiverges (widthAll U r.buf) p r.width → r.output U d = .error .hang) ∧
    (¬ (r.idx < r.buf.length ∧ SepDiverges (widthAll U r.buf) p r.width) → ∃ ts, r.output U d = .ok ts) := by
  obtain ⟨paint, hpaint⟩ := Option.ne_none_iff_exists'.1 hd
  obtain ⟨e, he⟩ := isInLineEdge_ok (win := d.windows) hp
  by_cases hm : d.enableMask ∧ r.buf.length > 0
  · have hlast : ∃ l, getR r.buf (r.buf.length - 1) = .ok l := ⟨_, getR_ok (by omega)⟩
    obtain ⟨l, hl⟩ := hlast
    constructor
    · rintro ⟨h1, h2⟩
      simp [output, hm, hl, h1, getBackspaceSequence_hang hp h2]
    · intro h
      by_cases h1 : r.idx < r.buf.length
      · obtain ⟨ts, hts⟩ := getBackspaceSequence_ok (r := r) hp (fun h2 => h ⟨h1, h2⟩)
        simp [output, hm, hl, h1, hts]
      · simp [output, hm, hl, h1]
  · constructor
    · rintro ⟨h1, h2⟩
      have h3 : ¬ r.buf.length = 0 := by omega
      cases e <;> simp [output, hm, hpaint, he, h1, getBackspaceSequence_hang hp h2]
    · intro h
      by_cases h1 : r.idx < r.buf.length
      · obtain ⟨ts, hts⟩ := getBackspaceSequence_ok (r := r) hp (fun h2 => h ⟨h1, h2⟩)
        cases e <;> simp [output, hm, hpaint, he, h1, hts]
      · cases e <;> simp [output, hm, hpaint, he, h1]

theorem idxLine_ok {r : RB} {p} (hp : r.promptLen U = .ok p) (hi : r.idx ≤ r.buf.length) (w : Int) :
    ∃ l, r.idxLine U w = .ok l := by
  unfold idxLine getSplitByLine
  split
  · exact ⟨_, rfl⟩
  · simp [sliceTo_ok hi, hp]

theorem cleanOutput_ok {r : RB} {p} (hp : r.promptLen U = .ok p) (l : Int) : ∃ o, r.cleanOutput U l = .ok o := by
  unfold cleanOutput
  split
  · simp [hp]
  · split <;> simp

theorem clean_total {r : RB} {p} (hp : r.promptLen U = .ok p) (hi : r.idx ≤ r.buf.length) :
    ∃ r', r.clean U = .ok r' := by
  obtain ⟨l, hl⟩ := idxLine_ok hp hi r.width
  unfold clean
  simp only [hl, R.bind_ok]
  split
  · exact ⟨_, rfl⟩
  · obtain ⟨o, ho⟩ := cleanOutput_ok (U := U) (r := { r with hadClean := true }) (p := p) (by simpa [promptLen] using hp) l
    simp [ho]

theorem print_total {r : RB} (h : DrawOK U d r) (hint : r.interactive = true) : ∃ r', r.print U d = .ok r' := by
  rcases h with h | ⟨hd, hw, p, hp, hdvd⟩
  · simp [hint] at h
  · obtain ⟨ts, hts⟩ := (output_spec hp hd).2 (fun hc => by
      rcases hc.2.2 with h | h
      · omega
      · exact hdvd h.1 h.2)
    simp [print, hts]

theorem refreshV_total {α} {r : RB} {f : Ed → R (α × Ed)} (h : DrawOK U d r) (hi : r.idx ≤ r.buf.length) :
    (∀ e, f r.toEd = .error e → r.refreshV U d f = .error e) ∧
    (∀ a e, f r.toEd = .ok (a, e) → ∃ r', r.refreshV U d f = .ok (a, r') ∧ r'.toEd = e ∧ SameDisp r r') := by
  have hmain : ∀ a e, f r.toEd = .ok (a, e) → ∃ r', r.refreshV U d f = .ok (a, r') := by
    intro a e hf
    unfold refreshV
    split
    · simp [hf]
    · next hint =>
      have hint : r.interactive = true := by simpa using hint
      rcases id h with h0 | ⟨hd, hw, p, hp, hdvd⟩
      · simp [hint] at h0
      obtain ⟨r1, hr1⟩ := clean_total hp hi
      obtain ⟨h1, h2⟩ := clean_ok hr1
      simp only [hr1, R.bind_ok, h1, hf]
      obtain ⟨r2, hr2⟩ := print_total (U := U) (d := d) (r := { r1 with toEd := e })
        (h.congr ⟨h2.1, h2.2, h2.3⟩) (h2.2.trans hint)
      exact ⟨r2, by simp [hr2]⟩
  refine ⟨?_, ?_⟩
  · intro e hf
    unfold refreshV
    split
    · simp [hf]
    · next hint =>
      have hint : r.interactive = true := by simpa using hint
      rcases id h with h0 | ⟨hd, hw, p, hp, hdvd⟩
      · simp [hint] at h0
      obtain ⟨r1, hr1⟩ := clean_total hp hi
      obtain ⟨h1, h2⟩ := clean_ok hr1
      simp [hr1, h1, hf]
  · intro a e hf
    obtain ⟨r', hr'⟩ := hmain a e hf
    obtain ⟨h1, h2⟩ := refreshV_ok hr'
    rw [hf] at h1
    simp only [Except.ok.injEq, Prod.mk.injEq, true_and] at h1
    exact ⟨r', hr', h1.symm, h2⟩

theorem refresh_total {r : RB} {f : Ed → R Ed} (h : DrawOK U d r) (hi : r.idx ≤ r.buf.length) :
    (∀ e, f r.toEd = .error e → r.refresh U d f = .error e) ∧
    (∀ e, f r.toEd = .ok e → ∃ r', r.refresh U d f = .ok r' ∧ r'.toEd = e ∧ SameDisp r r') := by
  obtain ⟨h1, h2⟩ := refreshV_total (f := fun e => (fun x => ((), x)) <$> f e) h hi
  rw [refresh_eq_refreshV]
  refine ⟨fun e hf => ?_, fun e hf => ?_⟩
  · rw [h1 e (by simp [hf])]; rfl
  · obtain ⟨r', hr', h3⟩ := h2 () e (by simp [hf])
    exact ⟨r', by rw [hr']; rfl, h3⟩

end RB
end RL
