import Verif.Proofs.Runes
/-! # C01-C06: text helpers -/

namespace RL
open Spec

/-- C01.  Forward search returns the smallest offset of an occurrence; on the empty haystack it always
returns -1.  It never panics. -/
theorem C01_indexAll (r sub : List Rune) (fold : Bool) :
    (r ≠ [] → ∃ res, indexAllEx r sub fold = .ok res ∧ FirstOcc fold r sub res) ∧
    indexAllEx [] sub fold = .ok none ∧
    indexAll r sub = indexAllEx r sub false :=
  ⟨indexAllEx_spec r sub fold, rfl, rfl⟩

/-- The exception in C01 is real: the empty text does occur in the empty text. -/
theorem C01_empty_exception : OccursAt false [] [] 0 ∧ indexAllEx [] [] false = .ok none :=
  ⟨⟨[], [], [], rfl, rfl, .nil⟩, rfl⟩

-- test: "aBCbc" contains "bc" case-insensitively first at 1, case-sensitively at 3
example : indexAllEx [97, 66, 67, 98, 99] [98, 99] true = .ok (some 1) := by decide
example : indexAllEx [97, 66, 67, 98, 99] [98, 99] false = .ok (some 3) := by decide

/-- C02.  Backward search returns the largest offset of an occurrence. -/
theorem C02_indexAllBck (r sub : List Rune) (fold : Bool) :
    (∃ res, indexAllBckEx r sub fold = .ok res ∧ LastOcc fold r sub res) ∧
    indexAllBckEx r [] fold = .ok (some r.length) ∧
    indexAllBck r sub = indexAllBckEx r sub false := by
  refine ⟨indexAllBckEx_spec r sub fold, ?_, rfl⟩
  obtain ⟨res, h1, h2⟩ := indexAllBckEx_spec r [] fold
  have hocc : OccursAt fold r [] r.length := ⟨r, [], [], by simp, rfl, .nil⟩
  rw [h1]
  cases res with
  | none => exact (h2 _ hocc).elim
  | some i =>
    have h3 := occursAt_le h2.1
    simp only [List.length_nil, Nat.add_zero] at h3
    rcases Nat.eq_or_lt_of_le h3 with h | h
    · rw [h]
    · exact (h2.2 _ h hocc).elim

example : indexAllBckEx [97, 66, 67, 98, 99] [98, 99] true = .ok (some 3) := by decide
example : indexAllBckEx [97, 66, 67] [98, 99] false = .ok none := by decide

/-- C03.  Case folding is ASCII case-insensitivity, lifted pointwise to texts and prefixes. -/
theorem C03_fold (a b : Rune) (s t : List Rune) (fold : Bool) :
    (equalRune a b false = true ↔ a = b) ∧
    (equalRune a b true = true ↔ lower a = lower b) ∧
    equalRune a b fold = equalRune b a fold ∧
    equalRuneFold a b = equalRune a b true ∧
    (runesEqual s t = true ↔ s = t) ∧
    (equalFold s t = true ↔ s.map lower = t.map lower) ∧
    (hasPrefix s t = true ↔ t <+: s) ∧
    (hasPrefixFold s t = true ↔ t.map lower <+: s.map lower) := by
  have lift : ∀ s t : List Rune, All2 (Same true) s t ↔ s.map lower = t.map lower := by
    intro s
    induction s with
    | nil =>
      intro t
      cases t with
      | nil => simp; exact .nil
      | cons => simp; rintro ⟨⟩
    | cons a s ih =>
      intro t
      cases t with
      | nil => simp; rintro ⟨⟩
      | cons b t =>
        simp only [List.map_cons, List.cons.injEq, ← ih]
        exact ⟨fun h => by cases h with | cons h1 h2 => exact ⟨by simpa [Same] using h1, h2⟩,
          fun h => .cons (by simpa [Same] using h.1) h.2⟩
  refine ⟨by simp [equalRune_iff, Same], by simp [equalRune_iff, Same], ?_, rfl, runesEqual_iff s t,
    by rw [equalFold_iff, lift], hasPrefix_iff s t, ?_⟩
  · have h1 := equalRune_iff a b fold
    have h2 := equalRune_iff b a fold
    have h3 : Same fold a b ↔ Same fold b a := by cases fold <;> simp [Same, eq_comm]
    rw [Bool.eq_iff_iff, h1, h2, h3]
  · rw [hasPrefixFold_iff]
    constructor
    · rintro ⟨mid, post, rfl, hf⟩
      rw [lift] at hf
      exact ⟨post.map lower, by simp [hf]⟩
    · intro h
      refine ⟨s.take t.length, s.drop t.length, by simp, ?_⟩
      rw [lift, List.map_take]
      rw [List.prefix_iff_eq_take] at h
      simpa using h.symm

example : equalRune 65 97 true = true ∧ equalRune 65 97 false = false ∧ equalRune 0xC4 0xE4 true = false := by decide

/-- C04.  Aggregate computes the longest common prefix and the remainders. -/
theorem C04_aggregate (cs : List (List Rune)) (hne : cs ≠ []) :
    ∃ same size rest, aggregate cs = .ok (same, size, rest) ∧
      LongestCommonPrefix same cs ∧ size = same.length ∧
      rest.map (same ++ ·) = cs := by
  cases cs with
  | nil => contradiction
  | cons c0 cs =>
    obtain ⟨size, hs, h1, h2⟩ := aggLoop_spec c0 cs c0.length 0 (by simp) (fun c _ => by simp)
    simp only [aggregate, hs, R.bind_ok]
    by_cases hpos : size > 0
    · have hlen : ∀ c ∈ c0 :: cs, size ≤ c.length := fun c hc => by
        have := (h1.1 c hc).length_le
        simp at this; omega
      have hm : ∀ l : List (List Rune), (∀ c ∈ l, size ≤ c.length) →
          l.mapM (fun c => sliceFrom c size) = (Except.ok (l.map (List.drop size)) : R _) := by
        intro l
        induction l with
        | nil => intro _; rfl
        | cons c l ih =>
          intro h
          simp [sliceFrom_ok (h c (by simp)), ih (fun c hc => h c (by simp [hc]))]
      refine ⟨c0.take size, size, (c0 :: cs).map (List.drop size), ?_, h1, by simp; omega, ?_⟩
      · rw [if_pos hpos, sliceTo_ok h2, R.bind_ok, hm _ hlen]; rfl
      · rw [List.map_map]
        conv => rhs; rw [← List.map_id (c0 :: cs)]
        apply List.map_congr_left
        intro c hc
        have := h1.1 c hc
        rw [List.prefix_iff_eq_take] at this
        simp only [List.length_take, Nat.min_eq_left h2] at this
        simp [this]
    · have hz : size = 0 := by omega
      subst hz
      exact ⟨[], 0, c0 :: cs, by simp, by simpa using h1, rfl, by simp⟩

example : aggregate [[97, 98, 99], [97, 98], [97, 98, 100]] = .ok ([97, 98], 2, [[99], [], [100]]) := by decide

/-- C05.  Colour filtering keeps exactly what the prompt grammar says, and panics exactly on a trailing ESC reached
by the scan. -/
theorem C05_colorFilter (s : List Rune) :
    (∀ t, colorFilter s = .ok t ↔ Filtered s (some t)) ∧
    (colorFilter s = .error .panic ↔ Filtered s none) ∧
    colorFilter s ≠ .error .hang ∧ colorFilter s ≠ .error .block := by
  obtain ⟨h1, h2⟩ := colorFilter_spec s
  refine ⟨fun t => ⟨fun h => by rw [h] at h1; exact h1, fun h => ?_⟩, ⟨fun h => by rw [h] at h1; exact h1, fun h => ?_⟩,
    fun h => by simpa using h2 _ h, fun h => by simpa using h2 _ h⟩
  · have := colorFilter_of_filtered h
    cases hc : colorFilter s <;> simp_all [okOpt]
  · have := colorFilter_of_filtered h
    cases hc : colorFilter s with
    | ok => simp_all [okOpt]
    | error e => rw [h2 e hc]

/-- A prompt without ESC is not changed. -/
theorem C05_plain (s : List Rune) (h : (27 : Rune) ∉ s) : colorFilter s = .ok s := by
  rw [(C05_colorFilter s).1]
  induction s with
  | nil => exact .nil
  | cons c s ih =>
    simp only [List.mem_cons, not_or] at h
    exact .char (t := some s) (Ne.symm h.1) (ih h.2)

-- "ESC[31mhi ESC[0m" is filtered to "hi "
example : colorFilter ([27, 91, 51, 49, 109, 104, 105, 32, 27, 91, 48, 109]) = .ok [104, 105, 32] := by
  simp [colorFilter, colorGo, index, CharEsc, CharEscapeEx]
-- a prompt ending in ESC panics
example : colorFilter [62, 27] = .error .panic := by
  simp [colorFilter, colorGo, CharEsc]

/-- C06.  SplitByLine is a wrapping of its input, and the only one. -/
theorem C06_splitByLine (U : UTables) (start width : Int) (rs : List Rune) :
    Rows (runeWidth U) width start (splitByLine U start width rs) ∧
    (splitByLine U start width rs).flatten = rs ∧
    (∀ ps, Rows (runeWidth U) width start ps → ps.flatten = rs → ps = splitByLine U start width rs) := by
  obtain ⟨h1, h2⟩ := splitGo_spec U width start start [] rs (by simp [cells]) (by simp)
  exact ⟨h1, by simpa [splitByLine] using h2, fun ps hp hf => Rows.unique hp h1 (by simp [hf, h2, splitByLine])⟩

/-- C06.  LineCount is the width divided by the screen width, rounded up. -/
theorem C06_lineCount (width w : Int) (hw : 0 < width) (h0 : 0 ≤ w) :
    ∃ n, lineCount width w = .ok n ∧ (n - 1) * width < w ∧ w ≤ n * width := by
  have hne : width ≠ 0 := by omega
  have e1 : w.tdiv width = w / width := Int.tdiv_eq_ediv_of_nonneg h0
  have e2 : w.tmod width = w % width := Int.tmod_eq_emod_of_nonneg h0
  have h3 := Int.emod_add_mul_ediv w width
  have h4 := Int.emod_nonneg w hne
  have h5 := Int.emod_lt_of_pos w hw
  by_cases hm : w % width = 0
  · refine ⟨w / width, by simp [lineCount, divR, modR, hne, e1, e2, hm], ?_, ?_⟩
    · rw [Int.sub_mul, Int.mul_comm]; omega
    · rw [Int.mul_comm]; omega
  · refine ⟨w / width + 1, by simp [lineCount, divR, modR, hne, e1, e2, hm], ?_, ?_⟩
    · rw [Int.add_sub_cancel, Int.mul_comm]; omega
    · rw [Int.add_mul, Int.mul_comm]; omega

-- wrapping "abcdef" at width 4 after a prompt of 2 cells: "ab", "cdef", ""
example : splitByLine ⟨fun _ => false, fun _ => false, fun _ => false, 4⟩ 2 4 [97, 98, 99, 100, 101, 102]
    = [[97, 98], [99, 100, 101, 102], []] := by decide
example : lineCount 4 9 = .ok 3 := by decide

end RL
