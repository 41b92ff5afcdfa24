import Verif.Proofs.Screen
import Verif.Proofs.Refresh
import Verif.Spec.Listing
/-! Printing a list in columns on the terminal (C68). -/

namespace RL
open Spec

/-! ### The picture -/

theorem getD_snoc_list (l : List (List Rune)) (x : List Rune) (i : Nat) :
    (l ++ [x]).getD i [] = if i = l.length then x else l.getD i [] := by
  simp only [List.getD_eq_getElem?_getD, List.getElem?_append]
  by_cases h : i < l.length
  · simp [h, Nat.ne_of_lt h]
  · simp only [h, if_false]
    by_cases h2 : i = l.length
    · simp [h2]
    · rw [if_neg h2, List.getElem?_eq_none (by simp; omega), List.getElem?_eq_none (by omega)]

theorem getD_pad (s : List Rune) (n i : Nat) : (s ++ List.replicate n 32).getD i 32 = s.getD i 32 := by
  simp only [List.getD_eq_getElem?_getD, List.getElem?_append]
  by_cases h : i < s.length
  · simp [h]
  · simp only [h, if_false]
    rw [List.getElem?_eq_none (by omega : s.length ≤ i), List.getElem?_replicate]
    split <;> rfl

theorem listing_snoc {k cw : Nat} (hcw : 0 < cw) (l : List (List Rune)) (x : List Rune) (hk : 0 < k) (a c : Nat) :
    listing k cw (l ++ [x]) a c =
      if a = l.length / k ∧ l.length % k * cw ≤ c ∧ c < l.length % k * cw + cw then x.getD (c - l.length % k * cw) 32
      else listing k cw l a c := by
  unfold listing
  have hm := Nat.mod_lt l.length hk
  have hmul : (l.length % k + 1) * cw ≤ k * cw := Nat.mul_le_mul_right _ hm
  rw [Nat.add_mul, Nat.one_mul] at hmul
  by_cases hc : c < k * cw
  · rw [if_pos hc, if_pos hc, getD_snoc_list]
    have hq : c / cw < k := Nat.div_lt_of_lt_mul (by rw [Nat.mul_comm]; exact hc)
    have hiff := divmod_iff (r := a) (k := l.length) hq
    have hdm := Nat.div_add_mod c cw
    have hml := Nat.mod_lt c hcw
    by_cases h1 : a * k + c / cw = l.length
    · obtain ⟨e1, e2⟩ := hiff.1 h1
      rw [if_pos h1, if_pos ⟨e1, by rw [← e2, Nat.mul_comm]; omega⟩]
      congr 1
      rw [← e2, Nat.mul_comm]; omega
    · rw [if_neg h1, if_neg]
      rintro ⟨e1, e2, e3⟩
      refine h1 (hiff.2 ⟨e1, ?_⟩)
      refine Nat.le_antisymm (Nat.lt_succ_iff.1 (Nat.div_lt_of_lt_mul ?_)) ((Nat.le_div_iff_mul_le hcw).2 e2)
      rw [Nat.mul_succ, Nat.mul_comm]; exact e3
  · rw [if_neg hc, if_neg hc, if_neg]
    rintro ⟨_, _, h⟩
    omega

theorem listing_pad {k cw : Nat} (l : List (List Rune)) (f : List Rune → Nat) (a c : Nat) :
    listing k cw (l.map (fun s => s ++ List.replicate (f s) 32)) a c = listing k cw l a c := by
  unfold listing
  split
  · generalize a * k + c / cw = i
    simp only [List.getD_eq_getElem?_getD, List.getElem?_map]
    cases h : l[i]? with
    | none => rfl
    | some s =>
      have := getD_pad s (f s) (c % cw)
      simp only [List.getD_eq_getElem?_getD] at this
      simpa using this
  · rfl

namespace Term
open Spec.Term

/-- Printing inside a row. -/
theorem run_row {s vis : List Rune} (hs : Coloured s vis) : ∀ {t : Term} {x : Nat}, t.st = .ground → t.pend = false → t.col = x →
    x + vis.length < t.w →
    (t.run s).st = .ground ∧ (t.run s).pend = false ∧ (t.run s).row = t.row ∧ (t.run s).col = x + vis.length ∧ (t.run s).w = t.w ∧
    ∀ a c, (t.run s).cell a c = if a = t.row ∧ x ≤ c ∧ c < x + vis.length then vis.getD (c - x) 32 else t.cell a c := by
  induction hs with
  | nil =>
    intro t x h1 h2 h3 h4
    refine ⟨h1, h2, rfl, h3, rfl, fun a c => ?_⟩
    rw [if_neg]; · rfl
    simp only [List.length_nil]; omega
  | @char c s v hc _ ih =>
    intro t x h1 h2 h3 h4
    rw [run_cons, Printable.feed hc h1]
    simp only [List.length_cons] at h4
    have hp : t.put c = { t with cell := fun y x => if y = t.row ∧ x = t.col then c else t.cell y x, col := t.col + 1 } := by
      have hwr : t.wrap = t := by unfold wrap; rw [if_neg (by simp [h2])]
      unfold put
      rw [hwr]
      unfold store
      dsimp only
      rw [if_pos (by omega)]
    obtain ⟨g1, g2, g3, g4, g5, g6⟩ := ih (t := t.put c) (x := x + 1) (by rw [hp]; exact h1) (by rw [hp]; exact h2) (by rw [hp]; simp [h3])
      (by rw [hp]; show x + 1 + v.length < t.w; omega)
    refine ⟨g1, g2, g3.trans (by rw [hp]), by rw [g4, List.length_cons]; omega, g5.trans (by rw [hp]), fun a b => ?_⟩
    rw [g6, hp]
    dsimp only
    simp only [List.length_cons]
    by_cases ha : a = t.row
    · by_cases hb : b = x
      · subst hb
        rw [if_neg (by omega), if_pos ⟨ha, h3.symm⟩, if_pos (by omega)]
        simp
      · by_cases hb' : x + 1 ≤ b ∧ b < x + 1 + v.length
        · rw [if_pos (by omega), if_pos (by omega)]
          rw [show b - x = (b - (x + 1)) + 1 by omega, List.getD_cons_succ]
        · rw [if_neg (by omega), if_neg (by omega), if_neg (by omega)]
    · rw [if_neg (by omega), if_neg (by omega), if_neg (by omega)]
  | @colour body s v hb _ ih =>
    intro t x h1 h2 h3 h4
    have e : (27 :: 91 :: body ++ 109 :: s : List Rune) = ([27, 91] ++ body ++ [109]) ++ s := by simp
    rw [e, run_append, run_csi t h1 body hb 109 (by omega)]
    have : ({ t.csi body 109 with st := .ground } : Term) = t := by
      have := h1
      cases t
      simp only [Spec.Term.csi]
      simp_all
    rw [this]
    exact ih h1 h2 h3 h4

/-- `t` has listed `items` from row `y` on and is where the next item goes; the rows above are those of `t0`. -/
structure Listed (t0 t : Term) (y k cw : Nat) (items : List (List Rune)) : Prop where
  w : t.w = t0.w
  st : t.st = .ground
  pend : t.pend = false
  row : t.row = y + items.length / k
  col : t.col = items.length % k * cw
  cells : ∀ a c, c < t.w → t.cell (y + a) c = listing k cw items a c
  above : ∀ a, a < y → ∀ c, t.cell a c = t0.cell a c

theorem run_nl (t : Term) (ht : t.st = .ground) : t.run [10] = t.newline := by
  simp [run, Spec.Term.feed, ht]

/-- One more item. -/
theorem Listed.item {t0 t : Term} {y k cw : Nat} {items : List (List Rune)} (h : Listed t0 t y k cw items) (hk : 0 < k) (hcw : 0 < cw)
    (hw : k * cw < t0.w) {s vis : List Rune} (hs : Coloured s vis) (hl : vis.length = cw) :
    Listed t0 (if (items.length + 1) % k = 0 then (t.run s).run [10] else t.run s) y k cw (items ++ [vis]) := by
  have hm := Nat.mod_lt items.length hk
  have hmul : (items.length % k + 1) * cw ≤ k * cw := Nat.mul_le_mul_right _ hm
  rw [Nat.add_mul, Nat.one_mul] at hmul
  obtain ⟨g1, g2, g3, g4, g5, g6⟩ := run_row hs h.st h.pend h.col (by rw [h.w, hl]; omega)
  have cells : ∀ a c, c < t0.w → (t.run s).cell (y + a) c = listing k cw (items ++ [vis]) a c := by
    intro a c hc
    rw [g6, listing_snoc hcw _ _ hk, h.row, h.cells a c (by rw [h.w]; exact hc), hl]
    by_cases ha : a = items.length / k
    · simp only [ha, true_and]
    · rw [if_neg (fun e => ha (Nat.add_left_cancel e.1)), if_neg (fun e => ha e.1)]
  have above : ∀ a, a < y → ∀ c, (t.run s).cell a c = t0.cell a c := by
    intro a ha c
    rw [g6, h.row, if_neg (fun e => absurd e.1 (Nat.ne_of_lt (Nat.lt_of_lt_of_le ha (Nat.le_add_right ..)))), h.above a ha]
  have hlen : (items ++ [vis]).length = items.length + 1 := by simp
  split
  · next h0 =>
    have : items.length % k + 1 = k := by
      by_cases hh : items.length % k + 1 < k
      · have := (succ_nowrap hh).2; omega
      · omega
    obtain ⟨e1, e2⟩ := succ_wrap this
    rw [run_nl _ g1]
    refine ⟨g5.trans h.w, g1, rfl, ?_, ?_, fun a c hc => cells a c (by rw [← h.w, ← g5]; exact hc), above⟩
    · show (t.run s).row + 1 = _
      rw [g3, h.row, hlen, e1]; rfl
    · show 0 = _
      rw [hlen, e2, Nat.zero_mul]
  · next h0 =>
    have : items.length % k + 1 < k := by
      by_cases hh : items.length % k + 1 < k
      · exact hh
      · exact absurd (succ_wrap (w := k) (k := items.length) (by omega)).2 h0
    obtain ⟨e1, e2⟩ := succ_nowrap this
    refine ⟨g5.trans h.w, g1, g2, ?_, ?_, fun a c hc => cells a c (by rw [← h.w, ← g5]; exact hc), above⟩
    · rw [g3, h.row, hlen, e1]
    · rw [g4, hlen, e2, hl, Nat.add_mul, Nat.one_mul]

end Term
end RL
