import Verif.Proofs.Refresh
import Verif.Props.Runes
/-! Which keys are safe in which states (C15). -/

namespace RL
open Spec RB Ed

variable {U : UTables} {d : DCfg}

/-! ### Search -/

namespace Hist

theorem mem_backChain {x y : Nat} {l acc : List Nat} (h : y ∈ backChain x l acc) : y ∈ l ∨ y ∈ acc := by
  induction l generalizing acc with
  | nil => simp [backChain] at h
  | cons a l ih =>
    unfold backChain at h
    split at h
    · exact .inr h
    · rcases ih h with h | h
      · exact .inl (List.mem_cons_of_mem _ h)
      · rcases List.mem_cons.1 h with rfl | h
        · exact .inl (by simp)
        · exact .inr h

theorem mem_fwdChain {x y : Nat} {l : List Nat} (h : y ∈ fwdChain x l) : y ∈ l := by
  induction l with
  | nil => simp [fwdChain] at h
  | cons a l ih =>
    unfold fwdChain at h
    split at h
    · exact List.mem_cons_of_mem _ h
    · exact List.mem_cons_of_mem _ (ih h)

theorem findBck_total (cfg : HCfg) {h : Hist} (w : h.WF) (isNew : Bool) (rs : List Rune) (start : Nat) :
    ∃ res, h.findBck cfg isNew rs start = .ok res ∧
      ∀ i e, res = some (i, e) → i + rs.length ≤ (h.showItem e).length ∧ e < h.next := by
  unfold findBck
  cases hc : h.current with
  | none => exact ⟨none, rfl, by simp⟩
  | some c =>
    obtain ⟨W, hW⟩ : ∃ W : Nat, (if isNew then (start : Int) + rs.length else (start : Int)) = (W : Int) := by
      split
      · exact ⟨start + rs.length, by simp⟩
      · exact ⟨start, rfl⟩
    obtain ⟨res, g1, g2⟩ := findBckGo_tail cfg h isNew rs (backChain c h.order []) W
    obtain ⟨r, k1, k2⟩ := indexAllBckEx_spec ((h.showItem c).take W) rs cfg.fold
    have hgo : findBckGo cfg h isNew rs start true (c :: backChain c h.order []) =
        match r with
        | none => .ok res
        | some i => .ok (some (i, c)) := by
      simp only [findBckGo, true_and, hW]
      by_cases hle : ((h.showItem c).length : Int) ≥ (W : Int)
      · rw [if_pos hle, if_neg (by omega), Int.toNat_natCast, sliceTo_ok (by omega)]
        simp only [R.bind_ok, k1]
        cases r
        · exact g1
        · rfl
      · rw [if_neg hle]
        rw [List.take_of_length_le (by omega)] at k1
        simp only [k1, R.bind_ok]
        cases r
        · exact g1
        · rfl
    dsimp only
    rw [hgo]
    cases r with
    | some i =>
      refine ⟨_, rfl, ?_⟩
      intro i' e he
      simp only [Option.some.injEq, Prod.mk.injEq] at he
      obtain ⟨rfl, rfl⟩ := he
      have := occursAt_le (occursAt_take.1 k2.1).1
      exact ⟨this, w.cur _ hc⟩
    | none =>
      refine ⟨res, rfl, ?_⟩
      rintro i e rfl
      obtain ⟨h1, a, b, h2, _⟩ := g2
      refine ⟨occursAt_le h1.1, w.known e ?_⟩
      rcases mem_backChain (show e ∈ backChain c h.order [] by rw [h2]; simp) with h | h
      · exact h
      · cases h

theorem findFwd_total (cfg : HCfg) {h : Hist} (w : h.WF) (isNew : Bool) (rs : List Rune) (hrs : rs ≠ []) (start : Nat) :
    ∃ res, h.findFwd cfg isNew rs start = .ok res ∧
      ∀ i e, res = some (i, e) → i + rs.length ≤ (h.showItem e).length ∧ e < h.next := by
  unfold findFwd
  cases hc : h.current with
  | none => exact ⟨none, rfl, by simp⟩
  | some c =>
    obtain ⟨W, hW⟩ : ∃ W : Nat, (if isNew then (if (start : Int) - rs.length < 0 then 0 else (start : Int) - rs.length)
        else (start : Int)) = (W : Int) := by
      split
      · split
        · exact ⟨0, rfl⟩
        · exact ⟨start - rs.length, by omega⟩
      · exact ⟨start, rfl⟩
    obtain ⟨res, g1, g2⟩ := findFwdGo_tail cfg h isNew rs hrs (fwdChain c h.order) W
    have htail : ∃ res', findFwdGo cfg h isNew rs W false (fwdChain c h.order) = .ok res' ∧
        ∀ i e, res' = some (i, e) → i + rs.length ≤ (h.showItem e).length ∧ e < h.next := by
      refine ⟨res, g1, ?_⟩
      rintro i e rfl
      obtain ⟨h1, a, b, h2, _⟩ := g2
      exact ⟨occursAt_le h1.1, w.known e (mem_fwdChain (show e ∈ fwdChain c h.order by rw [h2]; simp))⟩
    simp only [findFwdGo, if_true, hW]
    by_cases hlen : ((h.showItem c).length : Int) - 1 ≥ (W : Int)
    · have hle : W ≤ (h.showItem c).length := by omega
      rw [if_pos hlen, if_neg (by omega), Int.toNat_natCast, sliceFrom_ok hle]
      have hne : (h.showItem c).drop W ≠ [] := by
        intro h0
        have := congrArg List.length h0
        simp at this; omega
      obtain ⟨r, k1, k2⟩ := indexAllEx_spec _ rs cfg.fold hne
      simp only [R.bind_ok, k1]
      cases r with
      | some i =>
        refine ⟨_, rfl, ?_⟩
        intro i' e he
        simp only [Option.some.injEq, Prod.mk.injEq] at he
        obtain ⟨rfl, rfl⟩ := he
        have := occursAt_le k2.1
        simp only [List.length_drop] at this
        exact ⟨by omega, w.cur _ hc⟩
      | none => exact htail
    · rw [if_neg hlen]
      exact htail

end Hist

/-- The marks of a search are in the line. -/
def Search.MarksIn (s : Search) (r : RB) : Prop := s.markStart ≤ s.markEnd ∧ s.markEnd ≤ r.buf.length

/-- What a search step changes: the line, the failing flag, the marks and the history position. -/
theorem search_total (cfg : HCfg) {s : Search} {h : Hist} {r : RB} (isChange : Bool) (hr : RBok U d r) (w : h.WF)
    (hw : s.width ≠ 0) (hm : s.MarksIn r) :
    ∃ f a b cur r', Search.search U d cfg isChange s h r =
        .ok ({ s with failing := f, markStart := a, markEnd := b }, { h with current := cur }, r') ∧
      RBok U d r' ∧ SameDisp r r' ∧ a ≤ b ∧ b ≤ r'.buf.length ∧ { h with current := cur }.WF := by
  have hset : ∀ (s : Search) x, ∃ f, s.setState x = { s with failing := f } := by
    intro s x
    unfold Search.setState
    split
    · exact ⟨true, rfl⟩
    · split
      · exact ⟨false, rfl⟩
      · exact ⟨s.failing, rfl⟩
  unfold Search.search
  by_cases h0 : s.data.length = 0
  · rw [if_pos h0]
    obtain ⟨ts, h1⟩ := hr.searchRefresh (s := { s with failing := false }) (x := -1) hw hm.1 hm.2 (by omega)
    rw [h1]
    obtain ⟨f, hf⟩ := hset { s with failing := false } (-1)
    rw [hf]
    exact ⟨f, s.markStart, s.markEnd, h.current, r.write ts, rfl, hr.write ts, (write_same r ts).2, hm.1, hm.2, w⟩
  · rw [if_neg h0]
    have hne : s.data ≠ [] := by simpa using h0
    have hfind : ∃ res, s.findHistoryBy cfg h r isChange = .ok res ∧
        ∀ i e, res = some (i, e) → i + s.data.length ≤ (h.showItem e).length ∧ e < h.next := by
      unfold Search.findHistoryBy
      split
      · exact Hist.findFwd_total cfg w isChange s.data hne r.idx
      · exact Hist.findBck_total cfg w isChange s.data r.idx
    obtain ⟨res, h1, h2⟩ := hfind
    rw [h1]
    simp only [R.bind_ok]
    match res, h2 with
    | none, _ =>
      obtain ⟨ts, h3⟩ := hr.searchRefresh (s := s) (x := -2) hw hm.1 hm.2 (by omega)
      obtain ⟨f, hf⟩ := hset s (-2)
      simp only [h3, R.bind_ok, hf]
      exact ⟨f, s.markStart, s.markEnd, h.current, r.write ts, rfl, hr.write ts, (write_same r ts).2, hm.1, hm.2, w⟩
    | some (i, e), h2 =>
      obtain ⟨h3, h4⟩ := h2 i e rfl
      have hshow : ({ h with current := some e } : Hist).showItem e = h.showItem e := rfl
      have hi' : (if s.fwd then i + s.data.length else i) ≤ (h.showItem e).length := by split <;> omega
      obtain ⟨r1, h5, h6, h7, h8⟩ := hr.setWithIdx hi'
      simp only [hshow, h5, R.bind_ok]
      have hb : r1.buf = h.showItem e := congrArg Ed.buf h6
      obtain ⟨ts, h9⟩ := h7.searchRefresh (s := { s with markStart := i, markEnd := i + s.data.length })
        (x := ((if s.fwd then i + s.data.length else i : Nat) : Int)) hw (by simp)
        (by dsimp only; rw [hb]; exact h3) (by rw [hb]; omega)
      obtain ⟨f, hf⟩ := hset { s with markStart := i, markEnd := i + s.data.length }
        ((if s.fwd then i + s.data.length else i : Nat) : Int)
      simp only [h9, R.bind_ok, hf]
      exact ⟨f, i, i + s.data.length, some e, r1.write ts, rfl, h7.write ts, h8.trans (write_same r1 ts).2, by omega,
        by show i + s.data.length ≤ r1.buf.length; rw [hb]; exact h3, Hist.setCur_WF w h4⟩

/-! ### Completion -/

/-- A completer whose shared part is left of the cursor and not wider than its length plus one column. -/
def CompleterFits (U : UTables) (f : Completer) : Prop :=
  ∀ line pos cs off, pos ≤ line.length → f line pos = (cs, off) → cs ≠ [] →
    0 ≤ off ∧ off ≤ (pos : Int) ∧ Narrow U line off.toNat

namespace Comp

/-- The menu belongs to the line. -/
structure Fits (U : UTables) (auto : Option Completer) (c : Comp) (r : RB) : Prop where
  cands : c.candidate ≠ []
  off0 : 0 ≤ c.off
  offIdx : c.off ≤ r.idx
  narrow : Narrow U r.buf c.off.toNat
  source : ∃ s, c.source = some s ∧ r.buf.length ≤ s.length ∧ Narrow U s c.off.toNat
  /-- the candidates are what the completer answered for the text the menu was opened on -/
  offered : ∃ f s pos, auto = some f ∧ c.source = some s ∧ c.candidate = (f s pos).1

/-- Invariant of completion mode. -/
structure Inv (U : UTables) (ac : Option Completer) (c : Comp) (r : RB) : Prop where
  width : c.width = r.width
  col : 0 ≤ c.colNum
  auto : c.inComplete = true → ac ≠ none
  fits : c.inComplete = true → c.Fits U ac r
  sel : c.inSelect = true → c.inComplete = true ∧ 0 ≤ c.choise ∧ c.choise < c.candidate.length
  multi : c.inSelect = true → ∀ x, c.candidate ≠ [x]
  drawn : c.inSelect = true → c.colNum = c.cols U

/-- The same, without the number of columns: the window may have been resized since the menu was drawn. -/
structure InvW (U : UTables) (ac : Option Completer) (c : Comp) (r : RB) : Prop where
  width : c.width = r.width
  col : 0 ≤ c.colNum
  auto : c.inComplete = true → ac ≠ none
  fits : c.inComplete = true → c.Fits U ac r
  sel : c.inSelect = true → c.inComplete = true ∧ 0 ≤ c.choise ∧ c.choise < c.candidate.length
  multi : c.inSelect = true → ∀ x, c.candidate ≠ [x]

theorem Inv.weak {ac} {c : Comp} {r : RB} (h : c.Inv U ac r) : c.InvW U ac r := ⟨h.width, h.col, h.auto, h.fits, h.sel, h.multi⟩

theorem InvW.inv {ac} {c : Comp} {r : RB} (h : c.InvW U ac r) (hs : c.inSelect = false) : c.Inv U ac r :=
  ⟨h.width, h.col, h.auto, h.fits, h.sel, h.multi, fun a => by rw [hs] at a; cases a⟩

theorem Fits.congr {auto} {c : Comp} {r r' : RB} (h : c.Fits U auto r) (he : r'.toEd = r.toEd) : c.Fits U auto r' := by
  have h1 : r'.buf = r.buf := congrArg Ed.buf he
  have h2 : r'.idx = r.idx := congrArg Ed.idx he
  exact ⟨h.cands, h.off0, by rw [h2]; exact h.offIdx, by rw [h1]; exact h.narrow, by rw [h1]; exact h.source, h.offered⟩

theorem Inv.congr {auto} {c : Comp} {r r' : RB} (h : c.Inv U auto r) (he : r'.toEd = r.toEd) (hd : SameDisp r r') :
    c.Inv U auto r' :=
  ⟨h.width.trans hd.width.symm, h.col, h.auto, fun hc => (h.fits hc).congr he, h.sel, h.multi, h.drawn⟩

theorem InvW.congr {auto} {c : Comp} {r r' : RB} (h : c.InvW U auto r) (he : r'.toEd = r.toEd) (hd : SameDisp r r') :
    c.InvW U auto r' :=
  ⟨h.width.trans hd.width.symm, h.col, h.auto, fun hc => (h.fits hc).congr he, h.sel, h.multi⟩

theorem exitComplete_Inv {auto} {c : Comp} {r : RB} (hw : c.width = r.width) (hc : 0 ≤ c.colNum) :
    c.exitComplete.Inv U auto r :=
  ⟨hw, hc, by simp [exitComplete, exitSelect], by simp [exitComplete, exitSelect], by simp [exitComplete, exitSelect],
    by simp [exitComplete, exitSelect], by simp [exitComplete, exitSelect]⟩

theorem nextCandidate_total {c : Comp} (i : Int) (h : c.candidate ≠ []) :
    ∃ n, c.nextCandidate i = .ok { c with choise := n } ∧ 0 ≤ n ∧ n < c.candidate.length := by
  have hl : 0 < (c.candidate.length : Int) := by
    cases hc : c.candidate with
    | nil => exact (h hc).elim
    | cons a l => simp
  unfold nextCandidate modR
  rw [if_neg (by omega)]
  simp only [R.bind_ok]
  refine ⟨_, rfl, ?_⟩
  have h1 := Int.tmod_lt_of_pos (c.choise + i) hl
  have h2 : -(c.candidate.length : Int) < (c.choise + i).tmod c.candidate.length := by
    by_cases h3 : 0 ≤ c.choise + i
    · have := Int.tmod_nonneg (c.candidate.length : Int) h3; omega
    · have h4 := Int.neg_tmod (-(c.choise + i)) (c.candidate.length : Int)
      rw [Int.neg_neg] at h4
      have := Int.tmod_lt_of_pos (-(c.choise + i)) hl
      omega
  split <;> omega

end Comp

theorem RBok.menu {auto} {r : RB} (hr : RBok U d r) {c : Comp} (hc : c.InvW U auto r) :
    ∃ n ts, c.completeRefresh U r = .ok ({ c with colNum := n }, r.write ts) ∧
      ({ c with colNum := n } : Comp).Inv U auto (r.write ts) := by
  by_cases hin : c.inComplete = true
  · have hf := hc.fits hin
    obtain ⟨n, ts, h1, h2, h3⟩ := hr.completeRefresh hc.width hf.off0 hf.offIdx hf.narrow hc.col
    exact ⟨n, ts, h1, ⟨hc.width, h2, hc.auto, fun h => ⟨hf.cands, hf.off0, hf.offIdx, hf.narrow, hf.source, hf.offered⟩, hc.sel, hc.multi,
      fun _ => h3 hin⟩⟩
  · refine ⟨c.colNum, [], ?_, ?_⟩
    · rw [Comp.completeRefresh, if_pos (by simpa using hin)]; simp [RB.write]
    · exact ⟨hc.width, hc.col, hc.auto, fun h => (hin h).elim, hc.sel, hc.multi, fun h => (hin (hc.sel h).1).elim⟩

theorem not_trigger_insert (e : Ed) (s) : ¬ e.Trigger (.insert s) := by simp [Ed.Trigger]

namespace Comp

theorem doSelect_total {auto} {r : RB} (hr : RBok U d r) {c : Comp} (hin : c.inComplete = true) (hcol : 0 ≤ c.colNum)
    (hw : c.width = r.width) (ha : auto ≠ none) (hf : c.Fits U auto r) :
    ∃ c' r', c.doSelect U d r = .ok (c', r') ∧ RBok U d r' ∧ SameDisp r r' ∧ c'.Inv U auto r' := by
  unfold doSelect
  split
  · next x hx =>
    obtain ⟨r1, h1, _, h3, h4⟩ := hr.apply (k := .insert x) (not_trigger_insert _ _)
    have h1 : r.writeRunes U d x = .ok r1 := h1
    rw [h1]
    exact ⟨_, _, rfl, h3, h4, exitComplete_Inv (hw.trans h4.width.symm) hcol⟩
  · next hone =>
    obtain ⟨n, h1, h2, h3⟩ := nextCandidate_total (c := c) 1 hf.cands
    rw [h1]
    simp only [R.bind_ok]
    have hinv : ({ c with choise := n } : Comp).InvW U auto r :=
      ⟨hw, hcol, fun _ => ha, fun _ => ⟨hf.cands, hf.off0, hf.offIdx, hf.narrow, hf.source, hf.offered⟩, fun _ => ⟨hin, h2, h3⟩,
        fun _ => hone⟩
    obtain ⟨m, ts, h4, h5⟩ := hr.menu hinv
    rw [h4]
    exact ⟨_, _, rfl, hr.write ts, (write_same r ts).2, h5⟩

/-- `OnComplete` in a state where nothing has been selected yet; the old menu has to belong to the line only if the line
is the one it was computed for. -/
theorem onComplete_total {auto} {f : Completer} (hauto : auto = some f) (hfit : CompleterFits U f) {r : RB}
    (hr : RBok U d r) {c : Comp} (hw : c.width = r.width) (hcol : 0 ≤ c.colNum) (hns : c.inSelect = false)
    (hold : c.inComplete = true → ∀ s, c.source = some s → r.buf = s → c.Fits U auto r) :
    ∃ b c' r', c.onComplete U d auto r = .ok (b, c', r') ∧ RBok U d r' ∧ SameDisp r r' ∧ c'.Inv U auto r' := by
  have ha : auto ≠ none := by simp [hauto]
  have hwp := hr.width
  unfold onComplete
  rw [if_neg (by omega), hns]
  simp only [Bool.false_eq_true, if_false]
  split
  · next hcond =>
    obtain ⟨hin, heq⟩ := hcond
    have hfits : c.Fits U auto r := by
      unfold sameSource at heq
      generalize hs : c.source = src at heq
      match src with
      | none => cases heq
      | some s => exact hold hin s hs ((runesEqual_iff _ _).1 heq)
    unfold enterSelect
    obtain ⟨n, ts, h1, h2, h2'⟩ := hr.completeRefresh (c := { c with inSelect := true, choise := -1 }) hw hfits.off0 hfits.offIdx
      hfits.narrow hcol
    rw [h1]
    simp only [R.bind_ok]
    obtain ⟨c', r', h3, h4, h5, h6⟩ := doSelect_total (auto := auto) (hr.write ts)
      (c := { c with inSelect := true, choise := -1, colNum := n }) hin h2 hw ha
      ⟨hfits.cands, hfits.off0, hfits.offIdx, hfits.narrow, hfits.source, hfits.offered⟩
    rw [h3]
    exact ⟨_, _, _, rfl, h4, (write_same r ts).2.trans h5, h6⟩
  · rw [hauto]
    dsimp only
    have hexit : ∀ {r' : RB}, SameDisp r r' →
        ({ c.exitSelect with source := some r.buf } : Comp).exitComplete.Inv U (some f) r' := by
      intro r' h
      exact exitComplete_Inv (hw.trans h.width.symm) hcol
    have henter : ∀ (off : Int) (cs cs0 : List (List Rune)), f r.buf r.idx = (cs0, off) → cs0 ≠ [] → cs = cs0 →
        ∃ c' r', enterComplete U off cs { c.exitSelect with source := some r.buf } r = .ok (c', r') ∧ RBok U d r' ∧
          SameDisp r r' ∧ c'.Inv U (some f) r' := by
      intro off cs cs0 h1 h2 h3
      obtain ⟨k1, k2, k3⟩ := hfit r.buf r.idx cs0 off hr.idx h1 h2
      unfold enterComplete
      obtain ⟨n, ts, h4, h5⟩ := hr.menu (auto := some f)
        (c := { c.exitSelect with source := some r.buf, inComplete := true, candidate := cs, off := off })
        ⟨hw, hcol, by simp, fun _ => ⟨h3 ▸ h2, k1, k2, k3, ⟨r.buf, rfl, Nat.le_refl _, k3⟩, f, r.buf, r.idx, rfl, rfl,
          h3.trans (by rw [h1])⟩, by simp [exitSelect], by simp [exitSelect]⟩
      rw [h4]
      exact ⟨_, _, rfl, hr.write ts, (write_same r ts).2, h5⟩
    split
    · exact ⟨_, _, _, rfl, hr, .refl r, hexit (.refl r)⟩
    · next n ns off hf =>
      split
      · split
        · obtain ⟨r1, h1, _, h3, h4⟩ := hr.apply (k := .insert n) (not_trigger_insert _ _)
          have h1 : r.writeRunes U d n = .ok r1 := h1
          rw [h1]
          exact ⟨_, _, _, rfl, h3, h4, hexit h4⟩
        · obtain ⟨same, size, cands, hag, hcs⟩ : ∃ same size cands, aggregate (n :: ns) = .ok (same, size, cands) ∧
              (size = 0 → cands = n :: ns) := by
            obtain ⟨same, size, rest, h1, _, h3, h4⟩ := C04_aggregate (n :: ns) (by simp)
            refine ⟨same, size, rest, h1, fun h0 => ?_⟩
            have : same = [] := List.eq_nil_of_length_eq_zero (by omega)
            rw [← h4, this]; simp
          rw [hag]
          simp only [R.bind_ok]
          split
          · obtain ⟨r1, h1, _, h3, h4⟩ := hr.apply (k := .insert same) (not_trigger_insert _ _)
            have h1 : r.writeRunes U d same = .ok r1 := h1
            rw [h1]
            exact ⟨_, _, _, rfl, h3, h4, hexit h4⟩
          · obtain ⟨c', r', k1, k2, k3, k4⟩ := henter off cands _ hf (by simp) (hcs (by omega))
            rw [k1]
            exact ⟨_, _, _, rfl, k2, k3, k4⟩
      · obtain ⟨c', r', k1, k2, k3, k4⟩ := henter off (n :: ns) _ hf (by simp) rfl
        rw [k1]
        exact ⟨_, _, _, rfl, k2, k3, k4⟩

theorem matrixSize_total {c : Comp} (hcol : 0 < c.colNum) (hc : c.candidate ≠ []) :
    ∃ ms, c.matrixSize = .ok ms ∧ c.candidate.length ≤ ms ∧ ms < c.candidate.length + c.colNum ∧
      (ms = c.colNum ∨ 2 * c.colNum ≤ ms) := by
  have hl : 0 < (c.candidate.length : Int) := by
    cases h : c.candidate with
    | nil => exact (hc h).elim
    | cons a l => simp
  unfold matrixSize divR modR
  rw [if_neg (by omega), if_neg (by omega)]
  simp only [R.bind_ok]
  refine ⟨_, rfl, ?_⟩
  generalize hq : (c.candidate.length : Int).tdiv c.colNum = q
  generalize hm : (c.candidate.length : Int).tmod c.colNum = m
  have h1 : c.colNum * q + m = c.candidate.length := by rw [← hq, ← hm]; exact Int.mul_tdiv_add_tmod _ _
  have h2 : 0 ≤ m := by rw [← hm]; exact Int.tmod_nonneg _ (by omega)
  have h3 : m < c.colNum := by rw [← hm]; exact Int.tmod_lt_of_pos _ hcol
  have h4 : 0 ≤ q := by rw [← hq]; exact Int.tdiv_nonneg (by omega) (by omega)
  generalize (c.candidate.length : Int) = n at *
  generalize c.colNum = k at *
  have key : ∀ t : Int, 1 ≤ t → t * k = k ∨ 2 * k ≤ t * k := by
    intro t ht
    by_cases h : t = 1
    · left; rw [h]; omega
    · right; exact Int.mul_le_mul_of_nonneg_right (by omega) (by omega)
  split
  · rw [Int.add_mul, Int.mul_comm q k]
    refine ⟨by omega, by omega, ?_⟩
    have := key (q + 1) (by omega)
    rw [Int.add_mul, Int.mul_comm q k] at this
    exact this
  · have hm0 : m = 0 := by omega
    have hq1 : 1 ≤ q := by
      by_cases h : q = 0
      · rw [h] at h1; omega
      · omega
    have := key q hq1
    rw [Int.mul_comm q k] at this ⊢
    exact ⟨by omega, by omega, this⟩

/-- Keys on which the selection menu divides by the number of columns. -/
def Divides (k : Rune) : Prop := k = CharLineStart ∨ k = CharLineEnd ∨ k = CharNext

theorem handleSelect_total {auto} {r : RB} (hr : RBok U d r) {c : Comp} (hc : c.InvW U auto r) (hsel : c.inSelect = true)
    {k : Rune} (hk : Divides k → c.colNum ≠ 0) :
    ∃ keep c' r', c.handleSelect U d k r = .ok (keep, c', r') ∧ RBok U d r' ∧ SameDisp r r' ∧
      (keep = true → c'.Inv U auto r') ∧
      (keep = false → c'.inSelect = false ∧ c'.source = none ∧ c'.width = r'.width ∧ 0 ≤ c'.colNum ∧
        (c'.inComplete = true → c.inComplete = true) ∧
        (k = CharEnter ∨ k = CharCtrlJ ∨ k = CharInterrupt ∨ k = CharBell → c'.inComplete = false) ∧
        (k ≠ CharEnter → k ≠ CharCtrlJ → r' = r)) := by
  obtain ⟨hin, hc0, hcn⟩ := hc.sel hsel
  have hf := hc.fits hin
  have ha := hc.auto hin
  have hcol := hc.col
  have hstay : ∀ n : Int, 0 ≤ n → n < c.candidate.length → ({ c with choise := n } : Comp).InvW U auto r := by
    intro n h1 h2
    exact ⟨hc.width, hc.col, hc.auto, fun _ => ⟨hf.cands, hf.off0, hf.offIdx, hf.narrow, hf.source, hf.offered⟩,
      fun _ => ⟨hin, h1, h2⟩, hc.multi⟩
  have hmenu : ∀ (c' : Comp) (r' : RB), RBok U d r' → SameDisp r r' → c'.InvW U auto r' →
      c.selectKey U d k r = .ok (true, c', r') →
      ∃ keep c' r', c.handleSelect U d k r = .ok (keep, c', r') ∧ RBok U d r' ∧ SameDisp r r' ∧
      (keep = true → c'.Inv U auto r') ∧
      (keep = false → c'.inSelect = false ∧ c'.source = none ∧ c'.width = r'.width ∧ 0 ≤ c'.colNum ∧
        (c'.inComplete = true → c.inComplete = true) ∧
        (k = CharEnter ∨ k = CharCtrlJ ∨ k = CharInterrupt ∨ k = CharBell → c'.inComplete = false) ∧
        (k ≠ CharEnter → k ≠ CharCtrlJ → r' = r)) := by
    intro c' r' h1 h2 h3 h4
    obtain ⟨m, ts, h5, h6⟩ := h1.menu h3
    refine ⟨true, { c' with colNum := m }, r'.write ts, ?_, h1.write ts, h2.trans (write_same r' ts).2, fun _ => h6, by simp⟩
    unfold handleSelect
    simp only [h4, R.bind_ok, if_true, h5]
  have hleave : ∀ (c' : Comp) (r' : RB), RBok U d r' → SameDisp r r' →
      (c' = c.exitSelect ∨ c' = c.exitComplete) → 
      (k = CharEnter ∨ k = CharCtrlJ ∨ k = CharInterrupt ∨ k = CharBell → c' = c.exitComplete) →
      (k ≠ CharEnter → k ≠ CharCtrlJ → r' = r) → c.selectKey U d k r = .ok (false, c', r') →
      ∃ keep c' r', c.handleSelect U d k r = .ok (keep, c', r') ∧ RBok U d r' ∧ SameDisp r r' ∧
      (keep = true → c'.Inv U auto r') ∧
      (keep = false → c'.inSelect = false ∧ c'.source = none ∧ c'.width = r'.width ∧ 0 ≤ c'.colNum ∧
        (c'.inComplete = true → c.inComplete = true) ∧
        (k = CharEnter ∨ k = CharCtrlJ ∨ k = CharInterrupt ∨ k = CharBell → c'.inComplete = false) ∧
        (k ≠ CharEnter → k ≠ CharCtrlJ → r' = r)) := by
    intro c' r' h1 h2 h3 h4 hrr h5
    refine ⟨false, c', r', ?_, h1, h2, by simp, fun _ => ?_⟩
    · unfold handleSelect
      simp [h5]
    · refine ⟨?_, ?_, ?_, ?_, fun _ => hin, fun h => by rw [h4 h]; rfl, hrr⟩
      · rcases h3 with rfl | rfl <;> rfl
      · rcases h3 with rfl | rfl <;> rfl
      · rcases h3 with rfl | rfl <;> exact hc.width.trans h2.width.symm
      · rcases h3 with rfl | rfl <;> exact hc.col
  unfold Divides at hk
  have hsk : c.selectKey U d k r = c.selectKey U d k r := rfl
  conv at hsk => rhs; unfold selectKey
  by_cases k1 : k = CharEnter ∨ k = CharCtrlJ
  · rw [if_pos k1] at hsk
    have hch : ∃ x, c.chosen = .ok x := by
      unfold chosen
      rw [if_neg (by omega)]
      exact ⟨_, getR_ok (by omega)⟩
    obtain ⟨x, hx⟩ := hch
    obtain ⟨r1, h1, _, h3, h4⟩ := hr.apply (k := .insert x) (not_trigger_insert _ _)
    have h1 : r.writeRunes U d x = .ok r1 := h1
    simp only [hx, h1, R.bind_ok] at hsk
    exact hleave _ _ h3 h4 (.inr rfl) (fun _ => rfl) (fun a b => (k1.elim a b).elim) hsk
  rw [if_neg k1] at hsk
  by_cases k2 : k = CharLineStart
  · rw [if_pos k2] at hsk
    have hne := hk (.inl k2)
    obtain ⟨n, h1, h2, h3⟩ := nextCandidate_total (c := c) (-(c.choise.tmod c.colNum)) hf.cands
    simp only [modR, if_neg hne, R.bind_ok, h1] at hsk
    exact hmenu _ _ hr (.refl r) (hstay n h2 h3) hsk
  rw [if_neg k2] at hsk
  by_cases k3 : k = CharLineEnd
  · rw [if_pos k3] at hsk
    have hne := hk (.inr (.inl k3))
    simp only [modR, if_neg hne, R.bind_ok] at hsk
    have hlt : c.choise.tmod c.colNum < c.colNum := Int.tmod_lt_of_pos _ (by omega)
    refine hmenu _ _ hr (.refl r) (hstay _ ?_ ?_) hsk
    · split <;> omega
    · split <;> omega
  rw [if_neg k3] at hsk
  by_cases k4 : k = CharBackspace
  · rw [if_pos k4] at hsk
    refine hleave _ _ hr (.refl r) (.inl rfl) ?_ (fun _ _ => rfl) hsk
    rw [k4]; simp [CharBackspace, CharEnter, CharCtrlJ, CharInterrupt, CharBell]
  rw [if_neg k4] at hsk
  by_cases k5 : k = CharTab ∨ k = CharForward
  · rw [if_pos k5] at hsk
    obtain ⟨c', r', h1, h2, h3, h4⟩ := doSelect_total (auto := auto) hr hin hc.col hc.width ha hf
    simp only [h1, R.bind_ok] at hsk
    exact hmenu _ _ h2 h3 h4.weak hsk
  rw [if_neg k5] at hsk
  by_cases k6 : k = CharBell ∨ k = CharInterrupt
  · rw [if_pos k6] at hsk
    exact hleave _ _ hr (.refl r) (.inr rfl) (fun _ => rfl) (fun _ _ => rfl) hsk
  rw [if_neg k6] at hsk
  by_cases k7 : k = CharNext
  · rw [if_pos k7] at hsk
    have hne := hk (.inr (.inr k7))
    obtain ⟨ms, h1, h2, h3, h4⟩ := matrixSize_total (c := c) (by omega) hf.cands
    simp only [h1, R.bind_ok] at hsk
    refine hmenu _ _ hr (.refl r) (hstay _ ?_ ?_) hsk
    · split
      · omega
      · split <;> omega
    · split
      · omega
      · split <;> omega
  rw [if_neg k7] at hsk
  by_cases k8 : k = CharBackward
  · rw [if_pos k8] at hsk
    obtain ⟨n, h1, h2, h3⟩ := nextCandidate_total (c := c) (-1) hf.cands
    simp only [h1, R.bind_ok] at hsk
    exact hmenu _ _ hr (.refl r) (hstay n h2 h3) hsk
  rw [if_neg k8] at hsk
  by_cases k9 : k = CharPrev
  · rw [if_pos k9] at hsk
    by_cases ht : c.choise - c.colNum < 0
    · simp only [if_pos ht] at hsk
      obtain ⟨ms, h1, h2, h3, h4⟩ := matrixSize_total (c := c) (by omega) hf.cands
      simp only [h1, R.bind_ok] at hsk
      refine hmenu _ _ hr (.refl r) (hstay _ ?_ ?_) hsk
      · split <;> omega
      · split <;> omega
    · simp only [if_neg ht] at hsk
      exact hmenu _ _ hr (.refl r) (hstay _ (by omega) (by omega)) hsk
  rw [if_neg k9] at hsk
  refine hleave _ _ hr (.refl r) (.inl rfl) ?_ (fun _ _ => rfl) hsk
  rintro (h | h | h | h)
  · exact (k1 (.inl h)).elim
  · exact (k1 (.inr h)).elim
  · exact (k6 (.inr h)).elim
  · exact (k6 (.inl h)).elim

end Comp
end RL
