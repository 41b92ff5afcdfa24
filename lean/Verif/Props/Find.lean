import Verif.Proofs.Find
/-! # C26, C27: incremental search finds the nearest match -/

namespace RL
open Spec Hist

/-- A match of `rs` that the backward search may report in element `e`: in the current element `c` it must end at or before
the limit `w`. -/
def BckMatch (fold : Bool) (h : Hist) (rs : List Rune) (c w e j : Nat) : Prop :=
  OccursAt fold (h.showItem e) rs j ∧ (e = c → j + rs.length ≤ w)

/-- A match the forward search may report: in the current element not before offset `w`. -/
def FwdMatch (fold : Bool) (h : Hist) (rs : List Rune) (c w e j : Nat) : Prop :=
  OccursAt fold (h.showItem e) rs j ∧ (e = c → w ≤ j)

/-- C26.  `pre` are the elements older than the current one `c`, oldest first; `start` is the cursor.  `FindBck` never
crashes; it returns the nearest element (starting with the current one, going back) that has a match, with the rightmost
match in it; it reports failure exactly if no element has one.  When the search text has just changed, matches in the
current element may extend over the typed text. -/
theorem C26_findBck (cfg : HCfg) (h : Hist) (w : h.WF) (pre post : List Nat) (c : Nat) (hc : h.current = some c)
    (ho : h.order = pre ++ c :: post) (isNew : Bool) (rs : List Rune) (start : Nat) :
    ∃ res, h.findBck cfg isNew rs start = .ok res ∧
      match res with
      | none => ∀ e ∈ c :: pre.reverse, ∀ j, ¬ BckMatch cfg.fold h rs c (if isNew then start + rs.length else start) e j
      | some (i, e) =>
          FirstWith (fun e => ∃ j, BckMatch cfg.fold h rs c (if isNew then start + rs.length else start) e j)
            (c :: pre.reverse) e ∧
          BckMatch cfg.fold h rs c (if isNew then start + rs.length else start) e i ∧
          ∀ j, BckMatch cfg.fold h rs c (if isNew then start + rs.length else start) e j → j ≤ i := by
  have hnd := w.nodup
  rw [ho, List.nodup_append] at hnd
  have hcp : c ∉ pre := fun h0 => hnd.2.2 c h0 c (by simp) rfl
  generalize hW : (if isNew then start + rs.length else start) = W
  have hstart : (if isNew then (start : Int) + rs.length else (start : Int)) = (W : Int) := by
    rw [← hW]; split <;> simp
  obtain ⟨r, k1, k2⟩ := indexAllBckEx_spec ((h.showItem c).take W) rs cfg.fold
  have hgo : h.findBck cfg isNew rs start =
      match r with
      | none => findBckGo cfg h isNew rs W false pre.reverse
      | some i => .ok (some (i, c)) := by
    unfold Hist.findBck
    rw [hc, ho]
    simp only [backChain_append hcp, List.append_nil, findBckGo, true_and, hstart]
    by_cases hle : ((h.showItem c).length : Int) ≥ (W : Int)
    · rw [if_pos hle, if_neg (by omega), Int.toNat_natCast, sliceTo_ok (by omega)]
      simp only [R.bind_ok, k1]
      cases r <;> rfl
    · rw [if_neg hle]
      rw [List.take_of_length_le (by omega)] at k1
      simp only [k1, R.bind_ok]
      cases r <;> rfl
  rw [hgo]
  have hcur : ∀ j, OccursAt cfg.fold ((h.showItem c).take W) rs j ↔ BckMatch cfg.fold h rs c W c j := by
    intro j
    rw [occursAt_take]
    simp [BckMatch]
  have hother : ∀ e ∈ pre.reverse, ∀ j, OccursAt cfg.fold (h.showItem e) rs j ↔ BckMatch cfg.fold h rs c W e j := by
    intro e he j
    have : e ≠ c := fun h0 => hcp (by rw [← h0]; simpa using he)
    simp [BckMatch, this]
  cases r with
  | some i =>
    refine ⟨_, rfl, ⟨[], pre.reverse, rfl, ⟨i, (hcur i).1 k2.1⟩, by simp⟩, (hcur i).1 k2.1, ?_⟩
    intro j hj
    exact Nat.le_of_not_lt fun h0 => k2.2 j h0 ((hcur j).2 hj)
  | none =>
    obtain ⟨res, g1, g2⟩ := findBckGo_tail cfg h isNew rs pre.reverse W
    refine ⟨res, g1, ?_⟩
    match res, g2 with
    | none, g2 =>
      intro e he j hj
      rcases List.mem_cons.1 he with rfl | he
      · exact k2 j ((hcur j).2 hj)
      · exact g2 e he j ((hother e he j).2 hj)
    | some (i, e), ⟨g2, a, b, g3, g4⟩ =>
      have he : e ∈ pre.reverse := by rw [g3]; simp
      refine ⟨⟨c :: a, b, by simp [g3], ⟨i, (hother e he i).1 g2.1⟩, ?_⟩, (hother e he i).1 g2.1, ?_⟩
      · rintro y hy ⟨j, hj⟩
        rcases List.mem_cons.1 hy with rfl | hy
        · exact k2 j ((hcur j).2 hj)
        · exact g4 y hy j ((hother y (by rw [g3]; simp [hy]) j).2 hj)
      · intro j hj
        exact Nat.le_of_not_lt fun h0 => g2.2 j h0 ((hother e he j).2 hj)

/-- C27.  `post` are the elements newer than the current one.  `FindFwd` returns the nearest element going forward that has a
match, with the leftmost match in it (in the current element not before the cursor, minus the search text when it has
just changed); it reports failure exactly if there is none. -/
theorem C27_findFwd (cfg : HCfg) (h : Hist) (w : h.WF) (pre post : List Nat) (c : Nat) (hc : h.current = some c)
    (ho : h.order = pre ++ c :: post) (isNew : Bool) (rs : List Rune) (hrs : rs ≠ []) (start : Nat) :
    ∃ res, h.findFwd cfg isNew rs start = .ok res ∧
      match res with
      | none => ∀ e ∈ c :: post, ∀ j, ¬ FwdMatch cfg.fold h rs c (if isNew then start - rs.length else start) e j
      | some (i, e) =>
          FirstWith (fun e => ∃ j, FwdMatch cfg.fold h rs c (if isNew then start - rs.length else start) e j) (c :: post) e ∧
          FwdMatch cfg.fold h rs c (if isNew then start - rs.length else start) e i ∧
          ∀ j, FwdMatch cfg.fold h rs c (if isNew then start - rs.length else start) e j → i ≤ j := by
  have hnd := w.nodup
  rw [ho, List.nodup_append] at hnd
  have hcp : c ∉ pre := fun h0 => hnd.2.2 c h0 c (by simp) rfl
  have hcq : c ∉ post := (List.nodup_cons.1 hnd.2.1).1
  generalize hW : (if isNew then start - rs.length else start) = W
  have hstart : (if isNew then (if (start : Int) - rs.length < 0 then 0 else (start : Int) - rs.length) else (start : Int)) = (W : Int) := by
    rw [← hW]
    split
    · split <;> omega
    · rfl
  have hother : ∀ e ∈ post, ∀ j, OccursAt cfg.fold (h.showItem e) rs j ↔ FwdMatch cfg.fold h rs c W e j := by
    intro e he j
    have : e ≠ c := fun h0 => hcq (by rw [← h0]; exact he)
    simp [FwdMatch, this]
  -- result of continuing with the newer elements when the current one has no match
  have htail : (∀ j, ¬ FwdMatch cfg.fold h rs c W c j) →
      ∃ res, findFwdGo cfg h isNew rs W false post = .ok res ∧
        match res with
        | none => ∀ e ∈ c :: post, ∀ j, ¬ FwdMatch cfg.fold h rs c W e j
        | some (i, e) =>
            FirstWith (fun e => ∃ j, FwdMatch cfg.fold h rs c W e j) (c :: post) e ∧
            FwdMatch cfg.fold h rs c W e i ∧ ∀ j, FwdMatch cfg.fold h rs c W e j → i ≤ j := by
    intro hno
    obtain ⟨res, g1, g2⟩ := findFwdGo_tail cfg h isNew rs hrs post W
    refine ⟨res, g1, ?_⟩
    match res, g2 with
    | none, g2 =>
      intro e he j hj
      rcases List.mem_cons.1 he with rfl | he
      · exact hno j hj
      · exact g2 e he j ((hother e he j).2 hj)
    | some (i, e), ⟨g2, a, b, g3, g4⟩ =>
      have he : e ∈ post := by rw [g3]; simp
      refine ⟨⟨c :: a, b, by simp [g3], ⟨i, (hother e he i).1 g2.1⟩, ?_⟩, (hother e he i).1 g2.1, ?_⟩
      · rintro y hy ⟨j, hj⟩
        rcases List.mem_cons.1 hy with rfl | hy
        · exact hno j hj
        · exact g4 y hy j ((hother y (by rw [g3]; simp [hy]) j).2 hj)
      · intro j hj
        exact Nat.le_of_not_lt fun h0 => g2.2 j h0 ((hother e he j).2 hj)
  unfold Hist.findFwd
  rw [hc, ho]
  simp only [fwdChain_append hcp, findFwdGo, if_true, hstart]
  by_cases hlen : ((h.showItem c).length : Int) - 1 ≥ (W : Int)
  · have hle : W ≤ (h.showItem c).length := by omega
    rw [if_pos hlen, if_neg (by omega), Int.toNat_natCast, sliceFrom_ok hle]
    have hne : (h.showItem c).drop W ≠ [] := by
      intro h0
      have := congrArg List.length h0
      simp at this; omega
    obtain ⟨r, k1, k2⟩ := indexAllEx_spec _ rs cfg.fold hne
    simp only [R.bind_ok, k1]
    have hcur : ∀ j, OccursAt cfg.fold ((h.showItem c).drop W) rs j ↔ FwdMatch cfg.fold h rs c W c (j + W) := by
      intro j
      rw [occursAt_drop hle]
      simp [FwdMatch]
    cases r with
    | some i =>
      refine ⟨_, rfl, ⟨[], post, rfl, ⟨i + W, (hcur i).1 k2.1⟩, by simp⟩, (hcur i).1 k2.1, ?_⟩
      intro j hj
      have hwj := hj.2 rfl
      apply Nat.le_of_not_lt
      intro h0
      apply k2.2 (j - W) (by omega)
      rw [hcur, show j - W + W = j by omega]
      exact hj
    | none =>
      apply htail
      intro j hj
      have hwj := hj.2 rfl
      apply k2 (j - W)
      rw [hcur, show j - W + W = j by omega]
      exact hj
  · rw [if_neg hlen]
    apply htail
    rintro j ⟨hj, hwj⟩
    have h1 := occursAt_le hj
    have h2 := hwj rfl
    have h3 : rs.length ≠ 0 := by simpa using hrs
    omega

-- "ls -a", "make", "ls" are stored, an empty line is being edited: searching "ls" backwards finds the newest "ls" at 0
example :
    let h := (runHOps ⟨10, false, false, false⟩ [.new [108, 115, 32, 45, 97], .new [109, 97], .new [108, 115]] (Hist.fresh [])).toOption
    h.map (fun h => (h.order, h.current)) = some ([0, 1, 2, 3], some 3) ∧
    h.bind (fun h => (h.findBck ⟨10, false, false, false⟩ true [108, 115] 0).toOption) = some (some (0, 2)) ∧
    h.bind (fun h => ({ h with current := some 2 }.findBck ⟨10, false, false, false⟩ false [108, 115] 0).toOption) =
      some (some (0, 0)) ∧
    h.bind (fun h => ({ h with current := some 0 }.findFwd ⟨10, false, false, false⟩ false [108, 115] 2).toOption) =
      some (some (0, 2)) := by decide

end RL
