import Verif.Spec.Runes
/-! Lemmas about the text helpers. -/

namespace RL
open Spec

theorem equalRune_iff (a b : Rune) (fold : Bool) : equalRune a b fold = true ↔ Same fold a b := by
  unfold equalRune Same lower
  cases fold <;> simp
  · by_cases h : a = b
    · simp [h]
    · simp only [h, false_or]
      split <;> split <;> split <;> (try split) <;> omega

theorem forall2_length {α β} {R : α → β → Prop} : ∀ {l : List α} {m : List β}, All2 R l m → l.length = m.length
  | _, _, .nil => rfl
  | _, _, .cons _ h => by simp [forall2_length h]

theorem matchHere_spec (r sub : List Rune) (fold : Bool) (h : sub.length ≤ r.length) :
    ∃ b, matchHere r sub fold = .ok b ∧
      (b = true ↔ ∃ mid post, r = mid ++ post ∧ All2 (Same fold) mid sub) := by
  induction sub generalizing r with
  | nil => exact ⟨true, by simp [matchHere], by simp; exact ⟨[], ⟨r, rfl⟩, .nil⟩⟩
  | cons s sub ih =>
    cases r with
    | nil => simp at h
    | cons a r =>
      simp only [List.length_cons, Nat.add_le_add_iff_right] at h
      obtain ⟨b, hb, hiff⟩ := ih r h
      by_cases he : equalRune a s fold = true
      · refine ⟨b, by simp [matchHere, he, hb], ?_⟩
        rw [hiff]
        constructor
        · rintro ⟨mid, post, rfl, hf⟩
          exact ⟨a :: mid, post, rfl, .cons ((equalRune_iff ..).1 he) hf⟩
        · rintro ⟨mid, post, hr, hf⟩
          cases hf with
          | cons h1 h2 =>
            simp only [List.cons_append, List.cons.injEq] at hr
            exact ⟨_, post, hr.2, h2⟩
      · refine ⟨false, by simp [matchHere, he], ?_⟩
        simp only [Bool.false_eq_true, false_iff]
        rintro ⟨mid, post, hr, hf⟩
        cases hf with
        | cons h1 h2 =>
          simp only [List.cons_append, List.cons.injEq] at hr
          rw [← hr.1] at h1
          exact he ((equalRune_iff ..).2 h1)

theorem occursAt_le {fold r sub i} (h : OccursAt fold r sub i) : i + sub.length ≤ r.length := by
  obtain ⟨pre, mid, post, rfl, rfl, hf⟩ := h
  have := forall2_length hf
  simp; omega

theorem occursAt_iff_drop {fold r sub i} (hi : i ≤ r.length) :
    OccursAt fold r sub i ↔ ∃ mid post, r.drop i = mid ++ post ∧ All2 (Same fold) mid sub := by
  constructor
  · rintro ⟨pre, mid, post, rfl, rfl, hf⟩
    exact ⟨mid, post, by simp, hf⟩
  · rintro ⟨mid, post, hr, hf⟩
    refine ⟨r.take i, mid, post, ?_, by simp; omega, hf⟩
    rw [List.append_assoc, ← hr, List.take_append_drop]

theorem matchHere_drop (r sub : List Rune) (fold : Bool) (i : Nat) (h : i + sub.length ≤ r.length) :
    ∃ b, matchHere (r.drop i) sub fold = .ok b ∧ (b = true ↔ OccursAt fold r sub i) := by
  obtain ⟨b, hb, hiff⟩ := matchHere_spec (r.drop i) sub fold (by simp; omega)
  exact ⟨b, hb, by rw [hiff, occursAt_iff_drop (by omega)]⟩

theorem indexAllBckLoop_spec (r sub : List Rune) (fold : Bool) (n : Nat) (hn : n ≤ r.length - sub.length + 1)
    (hs : sub.length ≤ r.length) (hnone : ∀ j, n ≤ j → ¬ OccursAt fold r sub j) :
    ∃ res, indexAllBckLoop r sub fold n = .ok res ∧ LastOcc fold r sub res := by
  induction n with
  | zero => exact ⟨none, rfl, fun j => hnone j (Nat.zero_le _)⟩
  | succ n ih =>
    obtain ⟨b, hb, hiff⟩ := matchHere_drop r sub fold n (by omega)
    cases b with
    | true =>
      exact ⟨some n, by simp [indexAllBckLoop, hb], hiff.1 rfl, fun j hj => hnone j hj⟩
    | false =>
      obtain ⟨res, h1, h2⟩ := ih (by omega) (fun j hj => by
        rcases Nat.eq_or_lt_of_le hj with rfl | h
        · intro hc; simpa using hiff.2 hc
        · exact hnone j h)
      exact ⟨res, by simp [indexAllBckLoop, hb, h1], h2⟩

theorem indexAllBckEx_spec (r sub : List Rune) (fold : Bool) :
    ∃ res, indexAllBckEx r sub fold = .ok res ∧ LastOcc fold r sub res := by
  unfold indexAllBckEx
  split
  · next h =>
    exact indexAllBckLoop_spec r sub fold _ (Nat.le_refl _) h (fun j hj hc => by
      have := occursAt_le hc; omega)
  · next h => exact ⟨none, rfl, fun j hc => by have := occursAt_le hc; omega⟩

theorem indexAllLoop_spec (r sub : List Rune) (fold : Bool) (rest : List Rune) (i : Nat)
    (hr : rest = r.drop i) (hi : i ≤ r.length)
    (hnone : ∀ j, j < i → ¬ OccursAt fold r sub j) (hlast : i < r.length ∨ sub ≠ []) :
    ∃ res, indexAllLoop sub fold rest i = .ok res ∧ FirstOcc fold r sub res := by
  induction rest generalizing i with
  | nil =>
    refine ⟨none, rfl, fun j hc => ?_⟩
    have h1 := occursAt_le hc
    have h2 : r.length ≤ i := by simpa using hr.symm
    rcases hlast with h | h
    · omega
    · have : sub.length ≠ 0 := by simpa using h
      exact hnone j (by omega) hc
  | cons a rest ih =>
    have hlen : (a :: rest).length = r.length - i := by rw [hr]; simp
    unfold indexAllLoop
    split
    · next h =>
      refine ⟨none, rfl, fun j hc => ?_⟩
      have := occursAt_le hc
      exact hnone j (by omega) hc
    · next h =>
      have hi2 : i < r.length := by simp at hlen; omega
      obtain ⟨b, hb, hiff⟩ := matchHere_drop r sub fold i (by omega)
      rw [← hr] at hb
      cases b with
      | true => exact ⟨some i, by simp [hb], hiff.1 rfl, hnone⟩
      | false =>
        have hsub : sub ≠ [] := by
          rintro rfl
          have := hiff.2 ((occursAt_iff_drop hi).2 ⟨[], r.drop i, rfl, .nil⟩)
          simp at this
        obtain ⟨res, h1, h2⟩ := ih (i + 1) (by
            have h3 : (r.drop i).tail = r.drop (i + 1) := by simp
            rw [← hr] at h3; simpa using h3) hi2 (fun j hj => by
            rcases Nat.eq_or_lt_of_le (Nat.le_of_lt_succ hj) with rfl | h
            · intro hc; simpa using hiff.2 hc
            · exact hnone j h) (.inr hsub)
        exact ⟨res, by simp [hb, h1], h2⟩

theorem indexAllEx_spec (r sub : List Rune) (fold : Bool) (hne : r ≠ []) :
    ∃ res, indexAllEx r sub fold = .ok res ∧ FirstOcc fold r sub res :=
  indexAllLoop_spec r sub fold r 0 (by simp) (by simp) (by simp)
    (.inl (by cases r; contradiction; simp))

/-! ### Aggregate -/

theorem aggInner_iff (i : Nat) (c0 : List Rune) (cs : List (List Rune)) (h0 : i < c0.length) :
    ∃ b, aggInner i (c0 :: cs) = .ok b ∧ (b = true ↔ ∀ c ∈ cs, i < c.length ∧ c[i]? = c0[i]?) := by
  induction cs generalizing c0 with
  | nil => exact ⟨true, by simp [aggInner]⟩
  | cons b rest ih =>
    unfold aggInner
    by_cases h : i ≥ c0.length ∨ i ≥ b.length
    · rw [if_pos h]
      refine ⟨false, rfl, ?_⟩
      simp only [Bool.false_eq_true, false_iff]
      intro hc
      have := (hc b (by simp)).1
      omega
    · have hb : i < b.length := by omega
      rw [if_neg h, getR_ok h0, getR_ok hb]
      simp only [R.bind_ok]
      have e1 : c0[i]? = some c0[i] := by simp [h0]
      have e2 : b[i]? = some b[i] := by simp [hb]
      by_cases h2 : c0[i] ≠ b[i]
      · rw [if_pos h2]
        refine ⟨false, rfl, ?_⟩
        simp only [Bool.false_eq_true, false_iff]
        intro hc
        have := (hc b (by simp)).2
        rw [e1, e2] at this
        exact h2 (Option.some.inj this).symm
      · rw [if_neg h2]
        have h2 : c0[i]? = b[i]? := by rw [e1, e2]; simpa using h2
        obtain ⟨x, hx, hx2⟩ := ih b hb
        refine ⟨x, hx, ?_⟩
        rw [hx2]
        constructor
        · intro hc c hmem
          rcases List.mem_cons.1 hmem with rfl | hm
          · exact ⟨by omega, h2.symm⟩
          · exact ⟨(hc c hm).1, by rw [(hc c hm).2, h2]⟩
        · intro hc c hm
          exact ⟨(hc c (by simp [hm])).1, by rw [(hc c (by simp [hm])).2, h2]⟩

theorem take_succ_prefix {c0 c : List Rune} {i : Nat} (h0 : i < c0.length) :
    c0.take (i + 1) <+: c ↔ c0.take i <+: c ∧ i < c.length ∧ c[i]? = c0[i]? := by
  rw [List.prefix_iff_eq_take, List.prefix_iff_eq_take]
  simp only [List.length_take, Nat.min_eq_left (Nat.le_of_lt h0), Nat.min_eq_left (Nat.succ_le_of_lt h0)]
  constructor
  · intro h
    have hlen : i < c.length := by
      have := congrArg List.length h
      simp at this; omega
    refine ⟨?_, hlen, ?_⟩
    · have := congrArg (List.take i) h
      simpa [List.take_take, Nat.min_eq_left (Nat.le_succ i)] using this
    · have := congrArg (·[i]?) h
      simpa [List.getElem?_take] using this.symm
  · rintro ⟨h1, h2, h3⟩
    rw [List.take_succ_eq_append_getElem h0, List.take_succ_eq_append_getElem h2, h1]
    simp only [List.append_cancel_left_eq, List.cons.injEq, and_true]
    rw [List.getElem?_eq_getElem h2, List.getElem?_eq_getElem h0] at h3
    exact (Option.some.inj h3).symm

theorem aggLoop_spec (c0 : List Rune) (cs : List (List Rune)) (rem i : Nat)
    (hrem : rem + i = c0.length) (hpre : CommonPrefix (c0.take i) (c0 :: cs)) :
    ∃ n, aggLoop (c0 :: cs) rem i i = .ok n ∧ LongestCommonPrefix (c0.take n) (c0 :: cs) ∧ n ≤ c0.length := by
  induction rem generalizing i with
  | zero =>
    have hi : i = c0.length := by omega
    exact ⟨i, rfl, ⟨hpre, fun q hq => by subst hi; simpa using hq c0 (by simp)⟩, by omega⟩
  | succ rem ih =>
    have h0 : i < c0.length := by omega
    obtain ⟨b, hb, h⟩ := aggInner_iff i c0 cs h0
    simp only [aggLoop, hb, R.bind_ok]
    cases b with
    | true =>
      refine ih (i + 1) (by omega) ?_
      intro c hc
      rcases List.mem_cons.1 hc with rfl | hm
      · exact List.take_prefix _ _
      · exact (take_succ_prefix h0).2 ⟨hpre c hc, h.1 rfl c hm⟩
    | false =>
      refine ⟨i, rfl, ⟨hpre, fun q hq => ?_⟩, by omega⟩
      have hq0 := hq c0 (by simp)
      by_cases hlen : q.length ≤ i
      · rw [List.prefix_iff_eq_take] at hq0
        rw [hq0]
        exact List.take_prefix_take_left hlen
      · exfalso
        have h : ¬ _ := fun k => Bool.false_ne_true (h.2 k)
        apply h
        intro c hm
        have h1 : c0.take (i + 1) <+: q := by
          have h2 : q = c0.take q.length := List.prefix_iff_eq_take.1 hq0
          rw [h2]; exact List.take_prefix_take_left (by omega)
        exact ((take_succ_prefix h0).1 (h1.trans (hq c (by simp [hm])))).2

/-! ### ColorFilter -/

theorem index_none {r : Rune} {l : List Rune} : index r l = none ↔ r ∉ l := by
  induction l with
  | nil => simp [index]
  | cons a l ih =>
    unfold index
    split
    · next h => simp [h]
    · next h => simp [ih, Ne.symm h]

theorem index_some {r : Rune} {l : List Rune} {i : Nat} (h : index r l = some i) :
    ∃ body s, l = body ++ r :: s ∧ r ∉ body ∧ body.length = i := by
  induction l generalizing i with
  | nil => simp [index] at h
  | cons a l ih =>
    unfold index at h
    split at h
    · next h2 => exact ⟨[], l, by simp [h2], by simp, by simpa using h⟩
    · next h2 =>
      simp only [Option.map_eq_some_iff] at h
      obtain ⟨j, hj, rfl⟩ := h
      obtain ⟨body, s, rfl, hb, rfl⟩ := ih hj
      refine ⟨a :: body, s, by simp, ?_, by simp⟩
      simp only [List.mem_cons, not_or]
      exact ⟨fun h => h2 h.symm, hb⟩

/-- Outcome of a computation that can only panic. -/
def okOpt {α} : R α → Option α
  | .ok a => some a
  | .error _ => none

theorem colorGo_drop (k : Nat) (s : List Rune) : colorGo k s = colorFilter (s.drop k) := by
  induction s generalizing k with
  | nil => cases k <;> simp [colorFilter, colorGo]
  | cons c s ih =>
    cases k with
    | zero => rfl
    | succ k => simp [colorGo, ih]

theorem colorFilter_esc (d : Rune) (s : List Rune) : colorFilter (27 :: d :: s) =
    if d = 91 then
      match index 109 s with
      | none => colorFilter (d :: s)
      | some i => colorFilter (s.drop (i + 1))
    else colorFilter (d :: s) >>= fun t => .ok (27 :: t) := by
  conv => lhs; unfold colorFilter colorGo
  simp only [CharEsc, if_true]
  by_cases hd : d = 91
  · rw [if_pos hd, if_pos (show d = CharEscapeEx from hd)]
    cases index 109 s with
    | none => rfl
    | some i => dsimp only; rw [colorGo_drop]; rfl
  · rw [if_neg hd, if_neg (show ¬ d = CharEscapeEx from hd)]
    rfl

theorem colorFilter_char (c : Rune) (s : List Rune) (h : c ≠ 27) :
    colorFilter (c :: s) = colorFilter s >>= fun t => .ok (c :: t) := by
  conv => lhs; unfold colorFilter colorGo
  simp only [CharEsc, h, if_false]
  rfl

theorem colorFilter_spec_aux (n : Nat) : ∀ s : List Rune, s.length ≤ n →
    Filtered s (okOpt (colorFilter s)) ∧ (∀ e, colorFilter s = .error e → e = .panic) := by
  induction n with
  | zero =>
    intro s hs
    have : s = [] := by simpa using hs
    subst this
    exact ⟨.nil, by simp [colorFilter, colorGo]⟩
  | succ n ih =>
    intro s hs
    match s with
    | [] => exact ⟨.nil, by simp [colorFilter, colorGo]⟩
    | c :: rest =>
      simp only [List.length_cons, Nat.add_le_add_iff_right] at hs
      by_cases hc : c = 27
      · subst hc
        match rest with
        | [] => exact ⟨.dangling, by simp [colorFilter, colorGo, CharEsc]⟩
        | d :: rest =>
          rw [colorFilter_esc]
          by_cases hd : d = 91
          · subst hd
            rw [if_pos rfl]
            cases hidx : index 109 rest with
            | none =>
              have := ih (91 :: rest) hs
              exact ⟨.unterminated (index_none.1 hidx) this.1, this.2⟩
            | some i =>
              obtain ⟨body, s, rfl, hb, rfl⟩ := index_some hidx
              have ih' := ih s (by simp at hs; omega)
              dsimp only
              rw [show body.length + 1 = (body ++ [(109 : Rune)]).length by simp,
                show body ++ 109 :: s = (body ++ [(109 : Rune)]) ++ s by simp, List.drop_left]
              refine ⟨?_, ih'.2⟩
              have := Filtered.color hb ih'.1
              simpa using this
          · rw [if_neg hd]
            have ih' := ih (d :: rest) hs
            cases hcf : colorFilter (d :: rest) with
            | error e =>
              rw [hcf] at ih'
              exact ⟨by simpa [okOpt] using Filtered.esc hd ih'.1, by simpa using ih'.2⟩
            | ok t =>
              rw [hcf] at ih'
              exact ⟨by simpa [okOpt] using Filtered.esc hd ih'.1, by simp⟩
      · rw [colorFilter_char c rest hc]
        have ih' := ih rest hs
        cases hcf : colorFilter rest with
        | error e =>
          rw [hcf] at ih'
          exact ⟨by simpa [okOpt] using Filtered.char hc ih'.1, by simpa using ih'.2⟩
        | ok t =>
          rw [hcf] at ih'
          exact ⟨by simpa [okOpt] using Filtered.char hc ih'.1, by simp⟩

theorem colorFilter_spec (s : List Rune) :
    Filtered s (okOpt (colorFilter s)) ∧ (∀ e, colorFilter s = .error e → e = .panic) :=
  colorFilter_spec_aux _ s (Nat.le_refl _)

theorem index_append {r : Rune} {body s : List Rune} (h : r ∉ body) :
    index r (body ++ r :: s) = some body.length := by
  induction body with
  | nil => simp [index]
  | cons a body ih =>
    simp only [List.mem_cons, not_or] at h
    simp [index, Ne.symm h.1, ih h.2]

theorem okOpt_bind_cons (c : Rune) (x : R (List Rune)) :
    okOpt (x >>= fun t => .ok (c :: t)) = (okOpt x).map (c :: ·) := by
  cases x <;> rfl

theorem colorFilter_of_filtered {s : List Rune} {t} (h : Filtered s t) : okOpt (colorFilter s) = t := by
  induction h with
  | nil => simp [colorFilter, colorGo, okOpt]
  | @char c s t hc _ ih =>
    rw [colorFilter_char c s hc, okOpt_bind_cons, ih]
  | @esc d s t hd _ ih => rw [colorFilter_esc, if_neg hd, okOpt_bind_cons, ih]
  | @color body s t hb _ ih =>
    simp only [List.cons_append]
    rw [colorFilter_esc, if_pos rfl]
    simp only [index_append hb]
    rw [show body.length + 1 = (body ++ [(109 : Rune)]).length by simp,
      show body ++ 109 :: s = (body ++ [(109 : Rune)]) ++ s by simp, List.drop_left]
    exact ih
  | @unterminated s t hs _ ih =>
    rw [colorFilter_esc, if_pos rfl]
    simp only [index_none.2 hs, ih]
  | dangling => simp [colorFilter, colorGo, okOpt, CharEsc]

/-! ### Equal, EqualFold, HasPrefix -/

theorem equalFold_iff (a b : List Rune) : equalFold a b = true ↔ All2 (Same true) a b := by
  unfold equalFold
  induction a generalizing b with
  | nil =>
    cases b with
    | nil => simp [equalFoldLoop]; exact .nil
    | cons b bs => simp; rintro ⟨⟩
  | cons a as ih =>
    cases b with
    | nil => simp; rintro ⟨⟩
    | cons b bs =>
      have := ih bs
      by_cases he : equalRuneFold a b = true
      · have h1 : Same true a b := (equalRune_iff _ _ _).1 he
        simp only [List.length_cons, ne_eq, Nat.add_right_cancel_iff, equalFoldLoop, he, if_true]
        rw [this]
        exact ⟨fun h => .cons h1 h, fun h => by cases h; assumption⟩
      · simp only [equalFoldLoop, he, Bool.false_eq_true, if_false, ite_self, false_iff]
        intro h
        cases h with
        | cons h1 _ => exact he ((equalRune_iff _ _ _).2 h1)

theorem runesEqual_iff (a b : List Rune) : runesEqual a b = true ↔ a = b := by
  unfold runesEqual
  induction a generalizing b with
  | nil => cases b <;> simp [runesEqualLoop]
  | cons a as ih =>
    cases b with
    | nil => simp
    | cons b bs =>
      have := ih bs
      by_cases he : a = b
      · simpa [runesEqualLoop, he] using this
      · simp [runesEqualLoop, he]

theorem hasPrefix_iff (r p : List Rune) : hasPrefix r p = true ↔ p <+: r := by
  unfold hasPrefix
  split
  · next h =>
    simp only [Bool.false_eq_true, false_iff]
    intro hp
    have := hp.length_le
    omega
  · rw [runesEqual_iff, List.prefix_iff_eq_take, eq_comm]

theorem hasPrefixFold_iff (r p : List Rune) :
    hasPrefixFold r p = true ↔ ∃ mid post, r = mid ++ post ∧ All2 (Same true) mid p := by
  unfold hasPrefixFold
  split
  · next h =>
    simp only [Bool.false_eq_true, false_iff]
    rintro ⟨mid, post, rfl, hf⟩
    have := forall2_length hf
    simp at h; omega
  · rw [equalFold_iff]
    constructor
    · intro h; exact ⟨_, _, (List.take_append_drop p.length r).symm, h⟩
    · rintro ⟨mid, post, rfl, hf⟩
      rw [← forall2_length hf]; simpa using hf

/-! ### SplitByLine -/

theorem widthAll_eq_cells (U : UTables) (s : List Rune) : widthAll U s = cells (runeWidth U) s := by
  induction s with
  | nil => rfl
  | cons a s ih => simp [widthAll, cells, ih]

theorem cells_append (w : Rune → Nat) (a b : List Rune) : cells w (a ++ b) = cells w a + cells w b := by
  simp [cells]

theorem splitGo_spec (U : UTables) (width start : Int) (cur : Int) (acc rs : List Rune)
    (hcur : cur = start + cells (runeWidth U) acc) (hlt : acc ≠ [] → cur < width) :
    Rows (runeWidth U) width start (splitGo U width cur acc rs) ∧
      (splitGo U width cur acc rs).flatten = acc ++ rs := by
  induction rs generalizing cur acc start with
  | nil =>
    refine ⟨.last fun h => ?_, by simp [splitGo]⟩
    have := hlt h
    omega
  | cons r rs ih =>
    have hc : cells (runeWidth U) (acc ++ [r]) = cells (runeWidth U) acc + runeWidth U r := by
      simp [cells]
    simp only [splitGo]
    split
    · next h =>
      have ih' := ih 0 0 [] (by simp [cells]) (by simp)
      refine ⟨.row (fun h' => ?_) ?_ ih'.1, by simp [ih'.2]⟩
      · have := hlt h'; omega
      · omega
    · next h =>
      have ih' := ih start (cur + runeWidth U r) (acc ++ [r]) (by omega) (fun _ => by omega)
      exact ⟨ih'.1, by simp [ih'.2]⟩

/-- A wrapping is determined by the text. -/
theorem Rows.unique {w : Rune → Nat} {width : Int} {start : Int} {ps : List (List Rune)} (h : Rows w width start ps) :
    ∀ {qs}, Rows w width start qs → ps.flatten = qs.flatten → ps = qs := by
  -- two rows that start at the same column and are both "full exactly at the last rune" are equal
  have key : ∀ {st : Int} {p q s t : List Rune} {c e : Rune},
      (p ≠ [] → st + cells w p < width) → st + cells w (p ++ [c]) ≥ width →
      (q ≠ [] → st + cells w q < width) → st + cells w (q ++ [e]) ≥ width →
      (p ++ [c]) ++ s = (q ++ [e]) ++ t → p.length ≤ q.length → p ++ [c] = q ++ [e] := by
    intro st p q s t c e hp1 hp2 hq1 hq2 heq hle
    rcases Nat.eq_or_lt_of_le hle with h | h
    · exact (List.append_inj heq (by simp [h])).1
    · exfalso
      have h1 : p ++ [c] <+: q := by
        have h2 : p ++ [c] <+: (q ++ [e]) ++ t := ⟨s, heq⟩
        have h3 : q <+: (q ++ [e]) ++ t := ⟨[e] ++ t, by simp⟩
        exact List.prefix_of_prefix_length_le h2 h3 (by simp; omega)
      obtain ⟨u, hu⟩ := h1
      have h4 : q ≠ [] := by intro h; simp [h] at hu
      have h5 := hq1 h4
      rw [← hu, cells_append] at h5
      omega
  have key2 : ∀ {st : Int} {p q s : List Rune} {c : Rune},
      (q ≠ [] → st + cells w q < width) → st + cells w (p ++ [c]) ≥ width → q = (p ++ [c]) ++ s → False := by
    intro st p q s c hq hp heq
    have h4 : q ≠ [] := by intro h; simp [h] at heq
    have h5 := hq h4
    rw [heq, cells_append] at h5
    omega
  induction h with
  | last hp =>
    intro qs hq heq
    cases hq with
    | last hq => simpa using heq
    | row hq1 hq2 hq3 => exact (key2 hp hq2 (by simpa using heq)).elim
  | @row start p c rest hp1 hp2 hr ih =>
    intro qs hq heq
    cases hq with
    | last hq => exact (key2 hq hp2 (by simpa using heq.symm)).elim
    | @row _ q e rest' hq1 hq2 hq3 =>
      simp only [List.flatten_cons] at heq
      have h1 : p ++ [c] = q ++ [e] := by
        rcases Nat.le_total p.length q.length with h | h
        · exact key hp1 hp2 hq1 hq2 heq h
        · exact (key hq1 hq2 hp1 hp2 heq.symm h).symm
      rw [h1] at heq ⊢
      rw [ih hq3 (List.append_cancel_left heq)]

end RL
