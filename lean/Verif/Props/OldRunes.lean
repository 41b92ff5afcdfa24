import Verif.Model.OldRunes
import Verif.Props.Runes
/-! # The deprecated package: C87 -/

namespace RL
namespace Old

theorem get_drop {α} (l : List α) (k : Nat) : getR l k = match l.drop k with | [] => .error .panic | a :: _ => .ok a := by
  by_cases h : k < l.length
  · rw [getR_ok h, List.drop_eq_getElem_cons h]
  · rw [getR_panic (by omega), List.drop_of_length_le (by omega)]

theorem drop_next {α} {l : List α} {k : Nat} {a : α} {t : List α} (h : l.drop k = a :: t) : l.drop (k + 1) = t := by
  rw [← List.drop_drop, h]; rfl

theorem equalFrom_eq {a b : List Rune} (h : a.length = b.length) : ∀ (rem i : Nat), rem + i = a.length →
    equalFrom a b rem i = .ok (runesEqualLoop (a.drop i) (b.drop i)) := by
  intro rem
  induction rem with
  | zero =>
    intro i hi
    rw [List.drop_of_length_le (by omega), List.drop_of_length_le (by omega)]; rfl
  | succ rem ih =>
    intro i hi
    have h1 : i < a.length := by omega
    have h2 : i < b.length := by omega
    rw [equalFrom, getR_ok h1, getR_ok h2, List.drop_eq_getElem_cons h1, List.drop_eq_getElem_cons h2, R.bind_ok, R.bind_ok, runesEqualLoop]
    by_cases hx : a[i] ≠ b[i]
    · rw [if_pos hx, if_pos hx]
    · rw [if_neg hx, if_neg hx, ih (i + 1) (by omega)]

theorem found_eq (r sub : List Rune) (i : Nat) : ∀ (rem j : Nat), rem + j = sub.length →
    found r sub i rem j = matchHere (r.drop (i + j)) (sub.drop j) false := by
  intro rem
  induction rem with
  | zero =>
    intro j hj
    rw [show sub.drop j = [] from List.drop_of_length_le (by omega)]
    cases r.drop (i + j) <;> rfl
  | succ rem ih =>
    intro j hj
    have h2 : j < sub.length := by omega
    rw [found, get_drop r, getR_ok h2, List.drop_eq_getElem_cons h2]
    cases hr : r.drop (i + j) with
    | nil => rfl
    | cons x t =>
      have ht := drop_next hr
      rw [R.bind_ok, R.bind_ok, matchHere, ih (j + 1) (by omega), ← Nat.add_assoc, ht]
      by_cases hx : x = sub[j] <;> simp [equalRune, hx]

theorem bckFrom_eq (r sub : List Rune) (n : Nat) : bckFrom r sub n = indexAllBckLoop r sub false n := by
  induction n with
  | zero => rfl
  | succ i ih =>
    rw [bckFrom, indexAllBckLoop, found_eq r sub i _ 0 rfl, ih]
    rfl

theorem allFrom_eq (r sub : List Rune) : ∀ (rem i : Nat), rem + i = r.length → allFrom r sub rem i = indexAllLoop sub false (r.drop i) i := by
  intro rem
  induction rem with
  | zero =>
    intro i hi
    rw [List.drop_of_length_le (by omega)]; rfl
  | succ rem ih =>
    intro i hi
    have h : i < r.length := by omega
    rw [allFrom, sliceFrom_ok (by omega), R.bind_ok, found_eq r sub i _ 0 rfl, ih (i + 1) (by omega), List.drop_eq_getElem_cons h, indexAllLoop]
    simp only [Nat.add_zero, List.drop_zero]
    rw [List.drop_eq_getElem_cons h]

theorem indexFrom_eq (x : Rune) (rs : List Rune) : ∀ (rem i : Nat), rem + i = rs.length → indexFrom x rs rem i = .ok ((RL.index x (rs.drop i)).map (· + i)) := by
  intro rem
  induction rem with
  | zero =>
    intro i hi
    rw [List.drop_of_length_le (by omega)]; rfl
  | succ rem ih =>
    intro i hi
    have h : i < rs.length := by omega
    rw [indexFrom, getR_ok h, R.bind_ok, List.drop_eq_getElem_cons h, RL.index]
    by_cases hx : rs[i] = x
    · rw [if_pos hx, if_pos hx]; simp
    · rw [if_neg hx, if_neg hx, ih (i + 1) (by omega), Option.map_map]
      congr 2
      funext n
      simp only [Function.comp]
      omega

theorem index_eq (x : Rune) (rs : List Rune) : index x rs = .ok (RL.index x rs) := by
  rw [index, indexFrom_eq x rs _ 0 rfl]; simp

theorem colorGo_skip (k : Nat) (l : List Rune) : colorGo k l = colorGo 0 (l.drop k) := by
  induction k generalizing l with
  | zero => rfl
  | succ k ih =>
    cases l with
    | nil => simp [colorGo]
    | cons a l => rw [colorGo, ih]; rfl

theorem colorFrom_eq (r : List Rune) : ∀ (fuel pos : Nat), r.length - pos < fuel → colorFrom r fuel pos = colorGo 0 (r.drop pos) := by
  intro fuel
  induction fuel with
  | zero =>
    intro pos hf
    omega
  | succ fuel ih =>
    intro pos hf
    rw [colorFrom]
    cases hd : r.drop pos with
    | nil =>
      have : r.length ≤ pos := List.drop_eq_nil_iff.1 hd
      rw [if_neg (by omega)]; rfl
    | cons c rest =>
      have hlt : pos < r.length := by
        apply Classical.byContradiction
        intro h
        rw [List.drop_of_length_le (by omega)] at hd; cases hd
      have h1 := drop_next hd
      have ih1 := ih (pos + 1) (by omega)
      rw [h1] at ih1
      rw [if_pos hlt, get_drop r pos, hd, get_drop r (pos + 1), h1, ih1]
      dsimp only
      rw [R.bind_ok]
      cases rest with
      | nil =>
        unfold colorGo CharEsc
        by_cases hc : c = 27
        · rw [if_pos hc, if_pos hc]; rfl
        · rw [if_neg hc, if_neg hc]; rfl
      | cons d rest' =>
        have h2 := drop_next h1
        have hlt2 : pos + 1 < r.length := by
          apply Classical.byContradiction
          intro h
          rw [List.drop_of_length_le (by omega)] at h1; cases h1
        rw [show colorGo 0 (c :: d :: rest') = _ from by unfold colorGo; rfl]
        unfold CharEsc CharEscapeEx
        by_cases hc : c = 27
        · rw [if_pos hc, if_pos hc]
          dsimp only
          rw [R.bind_ok, R.bind_ok]
          by_cases h91 : d = 91
          · rw [if_pos (by simpa using h91), if_pos h91, sliceFrom_ok (by omega), R.bind_ok, h2, index_eq, R.bind_ok]
            cases hi : RL.index 109 rest' with
            | none => rfl
            | some idx =>
              dsimp only
              rw [ih _ (by omega), colorGo_skip (idx + 2), ← h1, List.drop_drop]
              congr 2; omega
          · rw [if_neg (by simpa using h91), if_neg h91]
        · rw [if_neg hc, if_neg hc, R.bind_ok, if_neg (by decide)]

theorem aggInner_eq (cs : List (List Rune)) (i : Nat) : ∀ (rem j : Nat), rem + j + 1 = cs.length → aggInner cs i rem j = RL.aggInner i (cs.drop j) := by
  intro rem
  induction rem with
  | zero =>
    intro j hj
    have h : j < cs.length := by omega
    rw [List.drop_eq_getElem_cons h, List.drop_of_length_le (by omega)]; rfl
  | succ rem ih =>
    intro j hj
    have h : j < cs.length := by omega
    have h' : j + 1 < cs.length := by omega
    rw [aggInner, getR_ok h, getR_ok h', R.bind_ok, R.bind_ok, ih (j + 1) (by omega), List.drop_eq_getElem_cons h, List.drop_eq_getElem_cons h', RL.aggInner]

theorem aggOuter_eq {cs : List (List Rune)} (h : cs ≠ []) : ∀ (rem i size : Nat), aggOuter cs rem i size = aggLoop cs rem i size := by
  intro rem
  induction rem with
  | zero => intro i size; rfl
  | succ rem ih =>
    intro i size
    have : 0 < cs.length := List.length_pos_iff.2 h
    rw [aggOuter, aggLoop, aggInner_eq cs i _ 0 (by omega), ih]
    rfl

end Old

/-- C87: the functions of the deprecated package do what those of the package do without folding, also where they panic. -/
theorem C87_same (a b : List Rune) (x : Rune) (cs : List (List Rune)) :
    Old.equal a b = .ok (runesEqual a b) ∧ Old.indexAllBck a b = indexAllBck a b ∧ Old.indexAll a b = indexAll a b ∧ Old.index x a = .ok (index x a) ∧
    Old.colorFilter a = colorFilter a ∧ Old.hasPrefix a b = .ok (hasPrefix a b) ∧ Old.aggregate cs = aggregate cs := by
  have eq : ∀ a b : List Rune, Old.equal a b = .ok (runesEqual a b) := by
    intro a b
    unfold Old.equal runesEqual
    by_cases h : a.length ≠ b.length
    · rw [if_pos h, if_pos h]
    · rw [if_neg h, if_neg h, Old.equalFrom_eq (by omega) _ 0 rfl]; rfl
  refine ⟨eq a b, ?_, Old.allFrom_eq a b _ 0 rfl, Old.index_eq x a, Old.colorFrom_eq a _ 0 (by omega), ?_, ?_⟩
  · unfold Old.indexAllBck indexAllBck indexAllBckEx
    by_cases h : b.length ≤ a.length
    · rw [if_pos h, Old.bckFrom_eq]; congr 1; omega
    · rw [if_neg h, show ((a.length : Int) - b.length + 1).toNat = 0 by omega]; rfl
  · unfold Old.hasPrefix hasPrefix
    by_cases h : a.length < b.length
    · rw [if_pos h, if_pos h]
    · rw [if_neg h, if_neg h, sliceTo_ok (by omega), R.bind_ok, eq]
  · cases cs with
    | nil => rfl
    | cons c cs =>
      unfold Old.aggregate aggregate
      rw [getR_ok (by simp), R.bind_ok, Old.aggOuter_eq (by simp)]
      rfl

/-- C87: so are the widths, except that a tab has no width at all. -/
theorem C87_width (U : UTables) (h : U.zero 9 = true) (r : Rune) (s : List Rune) :
    (Old.width U r = if r = 9 then 0 else runeWidth U r) ∧ Old.widthAll U s = widthAll U (s.filter fun r => r ≠ 9) ∧
    Old.backspace U s = List.replicate (widthAll U (s.filter fun r => r ≠ 9)) 8 := by
  have hw : ∀ r : Rune, Old.width U r = if r = 9 then 0 else runeWidth U r := by
    intro r
    by_cases h9 : r = 9
    · subst h9; rw [if_pos rfl, Old.width, if_pos h]
    · rw [if_neg h9, Old.width, runeWidth, if_neg (show ¬ r = CharTab from h9)]
  have ha : ∀ s : List Rune, Old.widthAll U s = widthAll U (s.filter fun r => r ≠ 9) := by
    intro s
    induction s with
    | nil => rfl
    | cons a s ih =>
      rw [Old.widthAll, hw, ih]
      by_cases h9 : a = 9
      · simp [h9]
      · simp [h9, widthAll]
  exact ⟨hw r, ha s, by rw [Old.backspace, ha]⟩

/-- C87 is false of tabs. -/
theorem C87_false_tab (U : UTables) (h : U.zero 9 = true) (ht : U.tabWidth = 4) : Old.width U 9 = 0 ∧ runeWidth U 9 = 4 := by
  refine ⟨by rw [Old.width, if_pos h], ht ▸ rfl⟩

example : Old.indexAllBck [97, 98, 97, 98] [97, 98] = .ok (some 2) ∧ Old.indexAll [97, 98, 97, 98] [98] = .ok (some 1) ∧
    Old.colorFilter [27, 91, 51, 109, 97] = .ok [97] ∧ Old.colorFilter [97, 27] = .error .panic ∧ Old.aggregate [] = .error .panic ∧
    Old.aggregate [[97, 98], [97, 99]] = .ok ([97], 1, [[98], [99]]) := by decide +kernel

end RL
