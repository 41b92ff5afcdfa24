import Verif.Proofs.History
/-! Lemmas for C26 and C27. -/

namespace RL
open Spec

theorem occursAt_take {fold : Bool} {s sub : List Rune} {w j : Nat} :
    OccursAt fold (s.take w) sub j ↔ OccursAt fold s sub j ∧ j + sub.length ≤ w := by
  constructor
  · rintro ⟨pre, mid, post, h1, h2, h3⟩
    have hl := forall2_length h3
    have hw : (s.take w).length = (pre ++ mid ++ post).length := by rw [h1]
    simp only [List.length_take, List.length_append] at hw
    refine ⟨⟨pre, mid, post ++ s.drop w, ?_, h2, h3⟩, by omega⟩
    conv => lhs; rw [← List.take_append_drop w s, h1]
    simp
  · rintro ⟨⟨pre, mid, post, h1, h2, h3⟩, hw⟩
    have hl := forall2_length h3
    refine ⟨pre, mid, post.take (w - (pre ++ mid).length), ?_, h2, h3⟩
    rw [h1, List.take_append, List.take_of_length_le (l := pre ++ mid) (by simp; omega)]

theorem occursAt_drop {fold : Bool} {s sub : List Rune} {w j : Nat} (hw : w ≤ s.length) :
    OccursAt fold (s.drop w) sub j ↔ OccursAt fold s sub (j + w) := by
  constructor
  · rintro ⟨pre, mid, post, h1, h2, h3⟩
    refine ⟨s.take w ++ pre, mid, post, ?_, by simp; omega, h3⟩
    conv => lhs; rw [← List.take_append_drop w s, h1]
    simp
  · rintro ⟨pre, mid, post, h1, h2, h3⟩
    refine ⟨pre.drop w, mid, post, ?_, by simp; omega, h3⟩
    rw [h1, List.append_assoc, List.append_assoc, List.drop_append_of_le_length (by omega)]

namespace Hist

/-- Elements from `c` towards older ones. -/
def older (h : Hist) (c : Nat) : List Nat := c :: backChain c h.order []
/-- Elements from `c` towards newer ones. -/
def newer (h : Hist) (c : Nat) : List Nat := c :: fwdChain c h.order

theorem findBckGo_tail (cfg : HCfg) (h : Hist) (isNew : Bool) (rs : List Rune) (es : List Nat) (start : Int) :
    ∃ res, findBckGo cfg h isNew rs start false es = .ok res ∧
      match res with
      | none => ∀ e ∈ es, ∀ j, ¬ OccursAt cfg.fold (h.showItem e) rs j
      | some (i, e) => LastOcc cfg.fold (h.showItem e) rs (some i) ∧
          ∃ a b, es = a ++ e :: b ∧ ∀ x ∈ a, ∀ j, ¬ OccursAt cfg.fold (h.showItem x) rs j := by
  induction es generalizing start with
  | nil => exact ⟨none, rfl, by simp⟩
  | cons e es ih =>
    obtain ⟨r, h1, h2⟩ := indexAllBckEx_spec (h.showItem e) rs cfg.fold
    simp only [findBckGo, Bool.false_eq_true, false_and, if_false, R.bind_ok, h1]
    cases r with
    | some i => exact ⟨some (i, e), rfl, h2, [], es, rfl, by simp⟩
    | none =>
      obtain ⟨res, k1, k2⟩ := ih (if isNew = true then start + rs.length else start)
      refine ⟨res, k1, ?_⟩
      match res, k2 with
      | none, k2 =>
        intro x hx
        rcases List.mem_cons.1 hx with rfl | hx
        · exact h2
        · exact k2 x hx
      | some (i, x), ⟨k2, a, b, k3, k4⟩ =>
        refine ⟨k2, e :: a, b, by simp [k3], ?_⟩
        intro y hy
        rcases List.mem_cons.1 hy with rfl | hy
        · exact h2
        · exact k4 y hy

theorem findFwdGo_tail (cfg : HCfg) (h : Hist) (isNew : Bool) (rs : List Rune) (hrs : rs ≠ []) (es : List Nat) (start : Int) :
    ∃ res, findFwdGo cfg h isNew rs start false es = .ok res ∧
      match res with
      | none => ∀ e ∈ es, ∀ j, ¬ OccursAt cfg.fold (h.showItem e) rs j
      | some (i, e) => FirstOcc cfg.fold (h.showItem e) rs (some i) ∧
          ∃ a b, es = a ++ e :: b ∧ ∀ x ∈ a, ∀ j, ¬ OccursAt cfg.fold (h.showItem x) rs j := by
  induction es generalizing start with
  | nil => exact ⟨none, rfl, by simp⟩
  | cons e es ih =>
    obtain ⟨r, h1, h2⟩ : ∃ r, indexAllEx (h.showItem e) rs cfg.fold = .ok r ∧ FirstOcc cfg.fold (h.showItem e) rs r := by
      by_cases h0 : h.showItem e = []
      · rw [h0]
        refine ⟨none, rfl, ?_⟩
        intro j hj
        have := occursAt_le hj
        simp at this
        exact hrs this.2
      · exact indexAllEx_spec _ _ _ h0
    simp only [findFwdGo, Bool.false_eq_true, if_false, h1, R.bind_ok]
    cases r with
    | some i => exact ⟨some (i, e), rfl, h2, [], es, rfl, by simp⟩
    | none =>
      obtain ⟨res, k1, k2⟩ := ih (if isNew = true then (if start - rs.length < 0 then 0 else start - rs.length) else start)
      refine ⟨res, k1, ?_⟩
      match res, k2 with
      | none, k2 =>
        intro x hx
        rcases List.mem_cons.1 hx with rfl | hx
        · exact h2
        · exact k2 x hx
      | some (i, x), ⟨k2, a, b, k3, k4⟩ =>
        refine ⟨k2, e :: a, b, by simp [k3], ?_⟩
        intro y hy
        rcases List.mem_cons.1 hy with rfl | hy
        · exact h2
        · exact k4 y hy

end Hist
end RL
