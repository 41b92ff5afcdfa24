import Verif.Spec.Editor
import Verif.Proofs.Display
/-! The effect of the editing commands on the line, without the display. -/

namespace RL
open Spec RB Ed

/-- Effect of a command on the editing fields. -/
def Cmd.core : Cmd → Ed → R Ed
  | .insert s, e => writeRunesC s e
  | .backspace, e => backspaceC e
  | .delete, e => (·.2) <$> deleteC e
  | .left, e => moveBackwardC e
  | .right, e => moveForwardC e
  | .home, e => moveToLineStartC e
  | .toEnd, e => moveToLineEndC e
  | .kill, e => killC e
  | .killFront, e => killFrontC e
  | .erase, e => eraseC e
  | .yank, e => if e.lastKill.length = 0 then .ok e else yankC e
  | .deleteWord, e =>
    if e.idx = e.buf.length then .ok e
    else
      let init := skipBreaks e.idx (e.buf.drop e.idx)
      match scanUp (wordStartAt e.buf) (init + 1) (e.buf.length - (init + 1)) with
      | some i => do
        let k ← slice e.buf e.idx (i - 1)
        deleteWordC i (e.pushKill k)
      | none => killC e
  | .backEscapeWord, e => backEscapeWordC e
  | .prevWord, e => moveToPrevWordC e
  | .nextWord, e => moveToNextWordC e
  | .endWord, e => moveToEndWordC e
  | .transpose, e => transposeC e
  | .replace c, e => replaceC c e
  | .moveTo c p b, e => (·.2) <$> moveToC c p b e
  | .set s, e => setWithIdxC s.length s e
  | .backup, e => .ok { e with bck := some (e.buf, e.idx) }
  | .restore, e => restoreC e

variable {U : UTables} {d : DCfg}

theorem Ed.fields {a : Ed} {b i k bk} (h : a = ⟨b, i, k, bk⟩) :
    a.buf = b ∧ a.idx = i ∧ a.lastKill = k ∧ a.bck = bk := by subst h; exact ⟨rfl, rfl, rfl, rfl⟩

theorem map_snd_ok {α β} {x : R (α × β)} {b : β} (h : (·.2) <$> x = .ok b) : ∃ a, x = .ok (a, b) := by
  cases x with
  | error => simp at h
  | ok v => obtain ⟨a, b'⟩ := v; simp at h; exact ⟨a, by rw [h]⟩

/-- Whenever a command returns, it has had the effect of its core. -/
theorem apply_ok {c : Cmd} {r r' : RB} (h : c.apply U d r = .ok r') :
    c.core r.toEd = .ok r'.toEd ∧ SameDisp r r' := by
  cases c <;> simp only [Cmd.apply] at h <;> simp only [Cmd.core]
  case delete =>
    obtain ⟨a, ha⟩ := map_snd_ok h
    obtain ⟨h1, h2⟩ := refreshV_ok ha
    exact ⟨by rw [h1]; rfl, h2⟩
  case moveTo =>
    obtain ⟨a, ha⟩ := map_snd_ok h
    obtain ⟨h1, h2⟩ := refreshV_ok ha
    exact ⟨by rw [h1]; rfl, h2⟩
  case yank =>
    unfold yank at h
    split at h
    · next hl => cases h; exact ⟨by simp [hl], .refl _⟩
    · next hl =>
      obtain ⟨h1, h2⟩ := refresh_ok h
      exact ⟨by simp [hl, h1], h2⟩
  case deleteWord =>
    unfold deleteWord at h
    split at h
    · next hl => cases h; exact ⟨by simp [hl], .refl _⟩
    · next hl =>
      rw [if_neg hl]
      simp only at h ⊢
      split at h
      · next i hs =>
        rw [hs]
        cases hk : slice r.buf r.idx (i - 1) with
        | error => simp [hk] at h
        | ok k =>
          simp only [hk, R.bind_ok] at h ⊢
          obtain ⟨h1, h2⟩ := refresh_ok h
          exact ⟨h1, ⟨h2.1, h2.2, h2.3⟩⟩
      · next hs =>
        rw [hs]
        exact refresh_ok h
  case backup => cases h; exact ⟨rfl, rfl, rfl, rfl⟩
  case set => exact refresh_ok h
  all_goals exact refresh_ok h

/-- When drawing works and the cursor is in the line, a command does exactly what its core does. -/
theorem apply_total {c : Cmd} {r : RB} (hd : DrawOK U d r) (hi : r.toEd.CursorIn) :
    (∀ x, c.core r.toEd = .error x → c.apply U d r = .error x) ∧
    (∀ e, c.core r.toEd = .ok e → ∃ r', c.apply U d r = .ok r' ∧ r'.toEd = e ∧ SameDisp r r') := by
  have hi : r.idx ≤ r.buf.length := hi
  cases c <;> simp only [Cmd.apply, Cmd.core]
  case delete =>
    obtain ⟨h1, h2⟩ := refreshV_total (f := deleteC) hd hi
    refine ⟨fun x hx => ?_, fun e he => ?_⟩
    · cases hc : deleteC r.toEd with
      | error y => rw [hc] at hx; cases hx; simp [delete, h1 _ hc]
      | ok v => simp [hc] at hx
    · obtain ⟨a, ha⟩ := map_snd_ok he
      obtain ⟨r', hr', h3⟩ := h2 _ _ ha
      exact ⟨r', by simp [delete, hr'], h3⟩
  case moveTo ch p b =>
    obtain ⟨h1, h2⟩ := refreshV_total (f := moveToC ch p b) hd hi
    refine ⟨fun x hx => ?_, fun e he => ?_⟩
    · cases hc : moveToC ch p b r.toEd with
      | error y => rw [hc] at hx; cases hx; simp [moveTo, h1 _ hc]
      | ok v => simp [hc] at hx
    · obtain ⟨a, ha⟩ := map_snd_ok he
      obtain ⟨r', hr', h3⟩ := h2 _ _ ha
      exact ⟨r', by simp [moveTo, hr'], h3⟩
  case yank =>
    unfold yank
    split
    · exact ⟨by simp, fun e he => by cases he; exact ⟨r, rfl, rfl, .refl _⟩⟩
    · exact refresh_total hd hi
  case deleteWord =>
    unfold deleteWord
    split
    · exact ⟨by simp, fun e he => by cases he; exact ⟨r, rfl, rfl, .refl _⟩⟩
    · simp only
      cases hs : scanUp (wordStartAt r.buf) (skipBreaks r.idx (r.buf.drop r.idx) + 1)
        (r.buf.length - (skipBreaks r.idx (r.buf.drop r.idx) + 1)) with
      | some i =>
        cases hk : slice r.buf r.idx (i - 1) with
        | error => simp [hk]
        | ok k =>
          simp only [hk, R.bind_ok]
          obtain ⟨h1, h2⟩ := refresh_total (U := U) (d := d) (r := { r with toEd := r.toEd.pushKill k })
            (f := deleteWordC i) (hd.congr ⟨rfl, rfl, rfl⟩) hi
          exact ⟨h1, fun e he => by
            obtain ⟨r', hr', h3, h4⟩ := h2 e he
            exact ⟨r', hr', h3, h4.1, h4.2, h4.3⟩⟩
      | none => exact refresh_total (f := killC) hd hi
  case backup => exact ⟨by simp, fun e he => by cases he; exact ⟨_, rfl, rfl, rfl, rfl, rfl⟩⟩
  all_goals exact refresh_total hd hi

/-! ### Scans -/

theorem isWordBreak_iff (c : Rune) : isWordBreak c = false ↔ WordChar c := by
  unfold isWordBreak WordChar
  split
  · simp; omega
  · split
    · simp; omega
    · split
      · simp; omega
      · simp; omega

theorem isWordBreak_iff' (c : Rune) : isWordBreak c = true ↔ ¬ WordChar c := by
  rw [← isWordBreak_iff]; simp

theorem wordStartAt_iff {l : List Rune} {i : Nat} (h0 : 0 < i) (h : i < l.length) :
    wordStartAt l i = true ↔ WordStart l i := by
  unfold wordStartAt WordStart
  have h1 : l[i - 1]? = some l[i - 1] := List.getElem?_eq_getElem (by omega)
  have h2 : l[i]? = some l[i] := List.getElem?_eq_getElem h
  simp only [List.getD_eq_getElem?_getD, h1, h2, Option.getD_some, Bool.and_eq_true, Bool.not_eq_true',
    isWordBreak_iff, isWordBreak_iff', Option.some.injEq]
  constructor
  · rintro ⟨a, b⟩; exact ⟨_, _, h0, rfl, rfl, b, a⟩
  · rintro ⟨_, _, _, rfl, rfl, b, a⟩; exact ⟨a, b⟩

theorem wordStart_lt {l : List Rune} {i : Nat} (h : WordStart l i) : 0 < i ∧ i < l.length := by
  obtain ⟨a, b, h0, _, h2, _⟩ := h
  exact ⟨h0, (List.getElem?_eq_some_iff.1 h2).1⟩

theorem scanUp_some {p : Nat → Bool} {i n m : Nat} (h : scanUp p i n = some m) :
    i ≤ m ∧ m < i + n ∧ p m = true ∧ ∀ j, i ≤ j → j < m → p j = false := by
  induction n generalizing i with
  | zero => simp [scanUp] at h
  | succ n ih =>
    unfold scanUp at h
    split at h
    · next hp => cases h; exact ⟨Nat.le_refl _, by omega, hp, fun j h1 h2 => by omega⟩
    · next hp =>
      obtain ⟨h1, h2, h3, h4⟩ := ih h
      refine ⟨by omega, by omega, h3, fun j hj hjm => ?_⟩
      rcases Nat.eq_or_lt_of_le hj with rfl | hlt
      · simpa using hp
      · exact h4 j hlt hjm

theorem scanUp_none {p : Nat → Bool} {i n : Nat} (h : scanUp p i n = none) :
    ∀ j, i ≤ j → j < i + n → p j = false := by
  induction n generalizing i with
  | zero => intro j h1 h2; omega
  | succ n ih =>
    unfold scanUp at h
    split at h
    · cases h
    · next hp =>
      intro j h1 h2
      rcases Nat.eq_or_lt_of_le h1 with rfl | hlt
      · simpa using hp
      · exact ih h j hlt (by omega)

theorem scanDown_spec (l : List Rune) (i : Nat) (h : i < l.length ∨ i = 0) :
    ∃ res, scanDown l i = .ok res ∧
      match res with
      | some m => m ≤ i ∧ WordStart l m ∧ ∀ j, m < j → j ≤ i → ¬ WordStart l j
      | none => ∀ j, j ≤ i → ¬ WordStart l j := by
  induction i with
  | zero => exact ⟨none, rfl, fun j hj hw => by have := wordStart_lt hw; omega⟩
  | succ i ih =>
    have h1 : i + 1 < l.length := by omega
    have e := wordStartAt_iff (l := l) (i := i + 1) (by omega) h1
    have e2 : wordStartAt l (i + 1) = (!isWordBreak l[i + 1] && isWordBreak l[i]) := by
      simp [wordStartAt, h1, Nat.lt_of_succ_lt h1]
    unfold scanDown
    rw [getR_ok h1, getR_ok (Nat.lt_of_succ_lt h1)]
    simp only [R.bind_ok, ← e2]
    by_cases hw : wordStartAt l (i + 1) = true
    · exact ⟨some (i + 1), by rw [if_pos hw], Nat.le_refl _, e.1 hw, fun j h1 h2 => by omega⟩
    · obtain ⟨res, hr, hs⟩ := ih (.inl (by omega))
      refine ⟨res, by rw [if_neg hw, hr], ?_⟩
      have hlast : ∀ j, j ≤ i + 1 → ¬ j ≤ i → ¬ WordStart l j := by
        intro j h1 h2
        obtain rfl : j = i + 1 := by omega
        exact fun hc => hw (e.2 hc)
      cases res with
      | some m =>
        refine ⟨by have := hs.1; omega, hs.2.1, fun j hj hj2 => ?_⟩
        by_cases h : j ≤ i
        · exact hs.2.2 j hj h
        · exact hlast j hj2 h
      | none =>
        intro j hj
        by_cases h : j ≤ i
        · exact hs j h
        · exact hlast j hj h

theorem findDown_spec (l : List Rune) (c : Rune) (n : Nat) (h : n ≤ l.length) :
    ∃ res, findDown l c n = .ok res ∧
      match res with
      | some m => m < n ∧ l[m]? = some c ∧ ∀ j, m < j → j < n → l[j]? ≠ some c
      | none => ∀ j, j < n → l[j]? ≠ some c := by
  induction n with
  | zero => exact ⟨none, rfl, fun j hj => by omega⟩
  | succ i ih =>
    have h1 : i < l.length := by omega
    have hg : l[i]? = some l[i] := List.getElem?_eq_getElem h1
    unfold findDown
    rw [getR_ok h1]
    simp only [R.bind_ok]
    by_cases hw : l[i] = c
    · exact ⟨some i, by rw [if_pos hw], by omega, by rw [hg, hw], fun j h1 h2 => by omega⟩
    · obtain ⟨res, hr, hs⟩ := ih (by omega)
      refine ⟨res, by rw [if_neg hw, hr], ?_⟩
      cases res with
      | some m =>
        refine ⟨by have := hs.1; omega, hs.2.1, fun j hj hj2 => ?_⟩
        by_cases h : j < i
        · exact hs.2.2 j hj h
        · obtain rfl : j = i := by omega
          rw [hg]; simpa using hw
      | none =>
        intro j hj
        by_cases h : j < i
        · exact hs j h
        · obtain rfl : j = i := by omega
          rw [hg]; simpa using hw

theorem skipBreaks_spec (l : List Rune) (i : Nat) (hi : i ≤ l.length) :
    i ≤ skipBreaks i (l.drop i) ∧ skipBreaks i (l.drop i) ≤ l.length ∧
    (∀ j, i ≤ j → j < skipBreaks i (l.drop i) → ∃ c, l[j]? = some c ∧ ¬ WordChar c) ∧
    (∀ c, l[skipBreaks i (l.drop i)]? = some c → WordChar c) := by
  generalize hr : l.drop i = rest
  induction rest generalizing i with
  | nil =>
    have : l.length ≤ i := by simpa using hr
    have hl : i = l.length := by omega
    refine ⟨Nat.le_refl _, hi, fun j h1 h2 => ?_, fun c hc => ?_⟩
    · simp [skipBreaks] at h2; omega
    · simp [skipBreaks, hl] at hc
  | cons a rest ih =>
    have hlt : i < l.length := by
      by_cases h : i < l.length
      · exact h
      · rw [List.drop_eq_nil_of_le (by omega)] at hr; cases hr
    have ha : l[i]? = some a := by
      have : (l.drop i)[0]? = some a := by rw [hr]; rfl
      simpa using this
    have hrest : l.drop (i + 1) = rest := by
      have : (l.drop i).tail = rest := by rw [hr]; rfl
      simpa using this
    unfold skipBreaks
    by_cases hw : isWordBreak a = true
    · rw [if_pos hw]
      obtain ⟨h1, h2, h3, h4⟩ := ih (i + 1) hlt hrest
      refine ⟨by omega, h2, fun j hj hj2 => ?_, h4⟩
      rcases Nat.eq_or_lt_of_le hj with rfl | h
      · exact ⟨a, ha, (isWordBreak_iff' a).1 hw⟩
      · exact h3 j h hj2
    · rw [if_neg hw]
      refine ⟨Nat.le_refl _, hi, fun j h1 h2 => by omega, fun c hc => ?_⟩
      rw [ha] at hc
      cases hc
      exact (isWordBreak_iff a).1 (by simpa using hw)

/-! ### The abstraction to the textbook editor -/

theorem Ed.line_text (e : Ed) : e.line.text = e.buf := by simp [Ed.line, Line.text]

theorem core_basic {c : Cmd} {f : Line → Line} (hc : basic c = some f) {e : Ed} (hi : e.CursorIn) :
    ∃ e', c.core e = .ok e' ∧ e'.CursorIn ∧ e'.line = f e.line := by
  have hi : e.idx ≤ e.buf.length := hi
  cases c <;> simp only [basic, Option.some.injEq, reduceCtorEq] at hc <;> subst hc <;> simp only [Cmd.core]
  case insert s =>
    refine ⟨_, by simp only [writeRunesC, sliceFrom_ok hi, sliceTo_ok hi, R.bind_ok]; rfl, ?_, ?_⟩
    · simp [CursorIn]; omega
    · simp only [Ed.line, Line.insert, Line.mk.injEq, and_true]
      have h1 : (e.buf.take e.idx).length = e.idx := by simp; omega
      rw [← List.append_assoc]
      have h2 : e.idx + s.length = (e.buf.take e.idx ++ s).length := by simp; omega
      exact ⟨by rw [h2, List.take_left], by rw [h2, List.drop_left]⟩
  case backspace =>
    unfold backspaceC
    split
    · next h => exact ⟨e, rfl, hi, by simp [Ed.line, Line.backspace, h]⟩
    · next h =>
      simp only [sliceFrom_ok (show e.idx - 1 + 1 ≤ e.buf.length by omega),
        sliceTo_ok (show e.idx - 1 ≤ e.buf.length by omega), R.bind_ok]
      refine ⟨_, rfl, ?_, ?_⟩
      · simp [CursorIn]; omega
      · have h1 : e.idx - 1 = (e.buf.take (e.idx - 1)).length := by simp; omega
        have h3 : e.idx - 1 + 1 = e.idx := by omega
        simp only [Ed.line, Line.backspace, Line.mk.injEq, and_true, h3]
        constructor
        · conv => lhs; arg 1; rw [h1]
          rw [List.take_left, List.dropLast_eq_take, List.take_take]
          congr 1; simp; omega
        · conv => lhs; arg 1; rw [h1]
          rw [List.drop_left]
  case delete =>
    unfold deleteC
    split
    · next h =>
      refine ⟨e, rfl, hi, ?_⟩
      have : e.buf.drop e.idx = [] := by simp [h]
      simp [Ed.line, Line.delete, this]
    · next h =>
      have hlt : e.idx < e.buf.length := by omega
      simp only [slice_ok (show e.idx ≤ e.idx + 1 by omega) (show e.idx + 1 ≤ e.buf.length by omega),
        sliceTo_ok hi, sliceFrom_ok (show e.idx + 1 ≤ e.buf.length by omega), R.bind_ok, R.map_ok]
      refine ⟨_, rfl, ?_, ?_⟩
      · simp [CursorIn]; omega
      · have h1 : e.idx = (e.buf.take e.idx).length := by simp; omega
        have h2 : e.buf.drop e.idx = e.buf[e.idx] :: e.buf.drop (e.idx + 1) := List.drop_eq_getElem_cons hlt
        simp only [Ed.line, Line.delete, h2, Line.mk.injEq]
        refine ⟨?_, ?_, ?_⟩
        · conv => lhs; arg 1; rw [h1]
          rw [List.take_left]
        · conv => lhs; arg 1; rw [h1]
          rw [List.drop_left]
        · rw [List.take_succ_eq_append_getElem hlt]
          conv => lhs; arg 1; rw [h1]
          rw [List.drop_left]
  case left =>
    unfold moveBackwardC
    split
    · next h => exact ⟨e, rfl, hi, by simp [Ed.line, Line.goLeft, h]⟩
    · next h =>
      refine ⟨_, rfl, by simp [CursorIn]; omega, ?_⟩
      have hlt : e.idx - 1 < e.buf.length := by omega
      have h3 : e.idx = e.idx - 1 + 1 := by omega
      have h2 : e.buf.take e.idx = e.buf.take (e.idx - 1) ++ [e.buf[e.idx - 1]] := by
        conv => lhs; rw [h3]
        exact List.take_succ_eq_append_getElem hlt
      have h4 : e.buf.drop (e.idx - 1) = e.buf[e.idx - 1] :: e.buf.drop e.idx := by
        conv => rhs; arg 2; arg 1; rw [h3]
        exact List.drop_eq_getElem_cons hlt
      simp only [Ed.line, Line.goLeft]
      rw [h2, h4]
      simp only [List.getLast?_concat, List.dropLast_concat]
  case right =>
    unfold moveForwardC
    split
    · next h => exact ⟨e, rfl, hi, by simp [Ed.line, Line.goRight, h]⟩
    · next h =>
      have hlt : e.idx < e.buf.length := by omega
      refine ⟨_, rfl, by simp [CursorIn]; omega, ?_⟩
      simp only [Ed.line, Line.goRight]
      rw [List.drop_eq_getElem_cons hlt, List.take_succ_eq_append_getElem hlt]
  case home => exact ⟨_, rfl, by simp [CursorIn], by simp [Ed.line, Line.home]⟩
  case toEnd => exact ⟨_, rfl, by simp [CursorIn], by simp [Ed.line, Line.toEnd]⟩
  case kill =>
    simp only [killC, sliceFrom_ok hi, sliceTo_ok hi, R.bind_ok]
    exact ⟨_, rfl, by simp [CursorIn, hi], by simp [Ed.line, Line.killRight, List.take_take]⟩
  case killFront =>
    unfold killFrontC
    split
    · next h => exact ⟨e, rfl, hi, by simp [Ed.line, Line.killLeft, h]⟩
    · next h =>
      simp only [sliceFrom_ok hi, sliceTo_ok hi, R.bind_ok]
      have : e.buf.take e.idx ≠ [] := by
        intro hc
        rcases List.take_eq_nil_iff.1 hc with h' | h'
        · exact h h'
        · simp [h'] at hi; exact h hi
      refine ⟨_, rfl, by simp [CursorIn], by simp [Ed.line, Line.killLeft, this]⟩
  case erase => exact ⟨_, rfl, by simp [CursorIn, Ed.pushKill], by simp [Ed.line, Line.erase, Ed.pushKill]⟩
  case yank =>
    split
    · next h =>
      have : e.lastKill = [] := by simpa using h
      exact ⟨e, rfl, hi, by simp [Ed.line, Line.yank, this]⟩
    · refine ⟨_, by simp only [yankC, sliceFrom_ok hi, sliceTo_ok hi, R.bind_ok]; rfl, ?_, ?_⟩
      · simp [CursorIn]; omega
      · simp only [Ed.line, Line.yank, Line.mk.injEq, and_true]
        have h2 : e.idx + e.lastKill.length = (e.buf.take e.idx ++ e.lastKill).length := by simp; omega
        exact ⟨by rw [h2, List.take_left], by rw [h2, List.drop_left]⟩
  case set s => exact ⟨_, rfl, by simp [CursorIn], by simp [Ed.line, Line.setText]⟩

/-! ### Word commands -/

theorem core_prevWord {e : Ed} (hi : e.CursorIn) :
    ∃ m, Cmd.core .prevWord e = .ok { e with idx := m } ∧ m ≤ e.idx ∧ PrevWordPos e.buf e.idx m := by
  have hi : e.idx ≤ e.buf.length := hi
  simp only [Cmd.core, moveToPrevWordC]
  split
  · next h => exact ⟨0, by rw [← h], by omega, .inr ⟨fun j hj => by omega, rfl⟩⟩
  · next h =>
    obtain ⟨res, hr, hs⟩ := scanDown_spec e.buf (e.idx - 1) (by omega)
    rw [hr]
    cases res with
    | some m =>
      simp only at hs
      refine ⟨m, rfl, by omega, .inl ⟨by omega, hs.2.1, fun j h1 h2 => hs.2.2 j h1 (by omega)⟩⟩
    | none => exact ⟨0, rfl, by omega, .inr ⟨fun j hj => hs j (by omega), rfl⟩⟩

theorem scanUp_word {l : List Rune} {lo : Nat} :
    match scanUp (wordStartAt l) (lo + 1) (l.length - (lo + 1)) with
    | some m => m < l.length ∧ IsLeastAbove (WordStart l) lo m
    | none => ∀ j, lo < j → ¬ WordStart l j := by
  split
  · next m h =>
    obtain ⟨h1, h2, h3, h4⟩ := scanUp_some h
    refine ⟨by omega, by omega, (wordStartAt_iff (by omega) (by omega)).1 h3, fun j hj hj2 hc => ?_⟩
    have := h4 j (by omega) hj2
    rw [(wordStartAt_iff (by omega) (by omega)).2 hc] at this
    cases this
  · next h =>
    intro j hj hc
    have h1 := wordStart_lt hc
    have := scanUp_none h j (by omega) (by omega)
    rw [(wordStartAt_iff (by omega) (by omega)).2 hc] at this
    cases this

theorem core_nextWord (e : Ed) :
    ∃ m, Cmd.core .nextWord e = .ok { e with idx := m } ∧ m ≤ e.buf.length ∧ NextWordPos e.buf e.idx m := by
  simp only [Cmd.core, moveToNextWordC]
  have h := scanUp_word (l := e.buf) (lo := e.idx)
  split at h
  · next m hm => rw [hm]; exact ⟨m, rfl, by omega, .inl h.2⟩
  · next hm => rw [hm]; exact ⟨_, rfl, Nat.le_refl _, .inr ⟨h, rfl⟩⟩

theorem core_deleteWord {e : Ed} (hi : e.CursorIn) (hne : e.idx < e.buf.length) :
    ∃ init m, e.idx ≤ init ∧ init ≤ e.buf.length ∧
      (∀ j, e.idx ≤ j → j < init → ∃ c, e.buf[j]? = some c ∧ ¬ WordChar c) ∧
      (∀ c, e.buf[init]? = some c → WordChar c) ∧
      e.idx < m ∧ m ≤ e.buf.length ∧
      (IsLeastAbove (WordStart e.buf) init (m + 1) ∨ ((∀ j, init < j → ¬ WordStart e.buf j) ∧ m = e.buf.length)) ∧
      Cmd.core .deleteWord e =
        .ok { e with buf := e.buf.take e.idx ++ e.buf.drop m, lastKill := (e.buf.take m).drop e.idx } := by
  have hi : e.idx ≤ e.buf.length := hi
  obtain ⟨h1, h2, h3, h4⟩ := skipBreaks_spec e.buf e.idx hi
  simp only [Cmd.core, if_neg (show ¬ e.idx = e.buf.length by omega)]
  generalize skipBreaks e.idx (e.buf.drop e.idx) = init at *
  have h := scanUp_word (l := e.buf) (lo := init)
  split at h
  · next i hm =>
    obtain ⟨hlt, hlo, hws, hmin⟩ := h
    have hii : init + 1 < i := by
      rcases Nat.lt_or_ge (init + 1) i with h | h
      · exact h
      · exfalso
        obtain rfl : i = init + 1 := by omega
        obtain ⟨a, b, _, ha, _, hna, _⟩ := hws
        exact hna (h4 a (by simpa using ha))
    refine ⟨init, i - 1, h1, h2, h3, h4, by omega, by omega, .inl ⟨by omega, ?_, fun j hj hj2 => hmin j hj (by omega)⟩, ?_⟩
    · rw [show i - 1 + 1 = i by omega]; exact hws
    · simp only [slice_ok (show e.idx ≤ i - 1 by omega) (show i - 1 ≤ e.buf.length by omega), R.bind_ok,
        deleteWordC, Ed.pushKill, sliceTo_ok hi, sliceFrom_ok (show i - 1 ≤ e.buf.length by omega)]
  · next hm =>
    refine ⟨init, e.buf.length, h1, h2, h3, h4, hne, Nat.le_refl _, .inr ⟨h, rfl⟩, ?_⟩
    simp [killC, sliceFrom_ok hi, sliceTo_ok hi]

theorem core_deleteWord_end {e : Ed} (h : e.idx = e.buf.length) : Cmd.core .deleteWord e = .ok e := by
  simp [Cmd.core, h]

theorem core_backEscapeWord {e : Ed} (hi : e.CursorIn) :
    (∀ m, IsGreatestBelow (WordStart e.buf) e.idx m → Cmd.core .backEscapeWord e =
        .ok { e with buf := e.buf.take m ++ e.buf.drop e.idx, idx := m, lastKill := (e.buf.take e.idx).drop m }) ∧
    (0 < e.idx → (∀ j, j < e.idx → ¬ WordStart e.buf j) → Cmd.core .backEscapeWord e = .ok { e with buf := [], idx := 0 }) ∧
    (e.idx = 0 → Cmd.core .backEscapeWord e = .ok e) := by
  have hi : e.idx ≤ e.buf.length := hi
  simp only [Cmd.core, backEscapeWordC]
  refine ⟨fun m hm => ?_, fun h0 hn => ?_, fun h0 => by simp [h0]⟩
  · have hlt := hm.1
    rw [if_neg (by omega)]
    obtain ⟨res, hr, hs⟩ := scanDown_spec e.buf (e.idx - 1) (by omega)
    rw [hr]
    cases res with
    | none => exact (hs m (by omega) hm.2.1).elim
    | some k =>
      simp only at hs
      have hk : k = m := by
        rcases Nat.lt_trichotomy k m with h | h | h
        · exact (hs.2.2 m h (by omega) hm.2.1).elim
        · exact h
        · exact (hm.2.2 k h (by omega) hs.2.1).elim
      subst hk
      simp [slice_ok (Nat.le_of_lt hlt) hi, sliceTo_ok (show k ≤ e.buf.length by omega), sliceFrom_ok hi]
  · rw [if_neg (by omega)]
    obtain ⟨res, hr, hs⟩ := scanDown_spec e.buf (e.idx - 1) (by omega)
    rw [hr]
    cases res with
    | none => rfl
    | some k =>
      simp only at hs
      exact (hn k (by omega) hs.2.1).elim

/-- There is either a greatest number with a property below a bound, or none. -/
theorem greatest_or_none (P : Nat → Prop) (n : Nat) :
    (∃ m, IsGreatestBelow P n m) ∨ ∀ j, j < n → ¬ P j := by
  induction n with
  | zero => exact .inr fun j hj => by omega
  | succ n ih =>
    by_cases h : P n
    · exact .inl ⟨n, by omega, h, fun j h1 h2 => by omega⟩
    · rcases ih with ⟨m, h1, h2, h3⟩ | ih
      · refine .inl ⟨m, by omega, h2, fun j hj hj2 => ?_⟩
        by_cases hjn : j = n
        · subst hjn; exact h
        · exact h3 j hj (by omega)
      · refine .inr fun j hj => ?_
        by_cases hjn : j = n
        · subst hjn; exact h
        · exact ih j (by omega)

/-! ### Transpose, Replace, MoveTo, MoveToEndWord -/

theorem core_transpose_long {e : Ed} (hi : e.CursorIn) (hl : 2 ≤ e.buf.length) :
    ∃ pre a b post, e.buf = pre ++ a :: b :: post ∧
      Cmd.core .transpose e = .ok { e with buf := pre ++ b :: a :: post, idx := pre.length + 2 } ∧
      (e.idx = 0 → pre.length = 0) ∧
      (0 < e.idx → e.idx < e.buf.length → pre.length + 1 = e.idx) ∧
      (e.idx = e.buf.length → post = []) := by
  have hi : e.idx ≤ e.buf.length := hi
  -- k = position of the right one of the two swapped runes
  obtain ⟨k, hk0, hkl, hk⟩ : ∃ k, 0 < k ∧ k < e.buf.length ∧
      k = (if e.idx = 0 then 1 else if e.idx ≥ e.buf.length then e.buf.length - 1 else e.idx) := by
    refine ⟨_, ?_, ?_, rfl⟩ <;> split <;> (try split) <;> omega
  have hdec : e.buf = e.buf.take (k - 1) ++ e.buf[k - 1] :: e.buf[k] :: e.buf.drop (k + 1) := by
    have h1 : e.buf.drop (k - 1) = e.buf[k - 1] :: e.buf.drop (k - 1 + 1) := List.drop_eq_getElem_cons (by omega)
    have h2 : e.buf.drop k = e.buf[k] :: e.buf.drop (k + 1) := List.drop_eq_getElem_cons hkl
    have h3 : k - 1 + 1 = k := by omega
    rw [h3] at h1
    rw [← h2, ← h1, List.take_append_drop]
  have hlen : (e.buf.take (k - 1)).length = k - 1 := by simp; omega
  have hset : (e.buf.set k e.buf[k - 1]).set (k - 1) e.buf[k] =
      e.buf.take (k - 1) ++ e.buf[k] :: e.buf[k - 1] :: e.buf.drop (k + 1) := by
    generalize e.buf[k - 1] = x at *
    generalize e.buf[k] = y at *
    conv => lhs; arg 1; arg 1; rw [hdec]
    rw [List.set_append_right _ _ (by rw [hlen]; omega), hlen, show k - (k - 1) = 1 by omega]
    simp only [List.set_cons_succ, List.set_cons_zero]
    rw [List.set_append_right _ _ (by rw [hlen]; omega), hlen, Nat.sub_self]
    simp
  refine ⟨e.buf.take (k - 1), e.buf[k - 1], e.buf[k], e.buf.drop (k + 1), hdec, ?_, ?_, ?_, ?_⟩
  · simp only [Cmd.core, transposeC]
    rw [if_neg (show ¬ e.buf.length = 1 by omega), if_neg (show ¬ e.buf.length < 2 by omega)]
    have hr : (if e.idx = 0 then { e with idx := 1 } else if e.idx ≥ e.buf.length then
        { e with idx := e.buf.length - 1 } else e) = { e with idx := k } := by
      rw [hk]
      split
      · rfl
      · split
        · rfl
        · rfl
    simp only [hr, getR_ok hkl, getR_ok (show k - 1 < e.buf.length by omega), R.bind_ok, hset, hlen]
    rw [show k - 1 + 2 = k + 1 by omega]
  · intro h0; rw [hlen]; simp [h0] at hk; omega
  · intro h0 h1
    rw [hlen, hk, if_neg (by omega), if_neg (by omega)]; omega
  · intro h1
    rw [if_neg (by omega), if_pos (by omega)] at hk
    simp; omega

theorem core_transpose_short {e : Ed} (hl : e.buf.length < 2) :
    Cmd.core .transpose e = .ok { e with idx := e.idx + (if e.buf.length = 1 then 1 else 0) } := by
  simp only [Cmd.core, transposeC]
  by_cases h : e.buf.length = 1
  · simp [h]
  · rw [if_neg h, if_pos hl, if_neg h]; rfl

theorem core_replace (c : Rune) (e : Ed) :
    (e.idx < e.buf.length → Cmd.core (.replace c) e =
        .ok { e with buf := e.buf.take e.idx ++ c :: e.buf.drop (e.idx + 1) }) ∧
    (e.buf.length ≤ e.idx → Cmd.core (.replace c) e = .error .panic) := by
  simp only [Cmd.core, replaceC]
  constructor
  · intro h
    rw [if_pos h, List.set_eq_take_append_cons_drop, if_pos h]
  · intro h; rw [if_neg (by omega)]

/-- Positions strictly right of `lo` holding `c`. -/
theorem scanUp_char {l : List Rune} {c : Rune} {lo : Nat} :
    match scanUp (fun i => l.getD i 0 == c) (lo + 1) (l.length - (lo + 1)) with
    | some m => m < l.length ∧ IsLeastAbove (fun i => l[i]? = some c) lo m
    | none => ∀ j, lo < j → l[j]? ≠ some c := by
  have e : ∀ i, i < l.length → ((l.getD i 0 == c) = true ↔ l[i]? = some c) := by
    intro i hi
    simp [List.getElem?_eq_getElem hi]
  split
  · next m h =>
    obtain ⟨h1, h2, h3, h4⟩ := scanUp_some h
    refine ⟨by omega, by omega, (e m (by omega)).1 h3, fun j hj hj2 hc => ?_⟩
    have := h4 j (by omega) hj2
    rw [(e j (by omega)).2 hc] at this
    cases this
  · next h =>
    intro j hj hc
    have h1 : j < l.length := (List.getElem?_eq_some_iff.1 hc).1
    have := scanUp_none h j (by omega) (by omega)
    rw [(e j h1).2 hc] at this
    cases this

theorem moveToC_fwd (c : Rune) (prev : Bool) (e : Ed) :
    (∃ m, m < e.buf.length ∧ IsLeastAbove (fun i => e.buf[i]? = some c) e.idx m ∧
      moveToC c prev false e = .ok (true, { e with idx := if prev then m - 1 else m })) ∨
    ((∀ j, e.idx < j → e.buf[j]? ≠ some c) ∧ moveToC c prev false e = .ok (false, e)) := by
  have h := scanUp_char (l := e.buf) (c := c) (lo := e.idx)
  simp only [moveToC, Bool.false_eq_true, if_false]
  split at h
  · next m hm => exact .inl ⟨m, h.1, h.2, by rw [hm]⟩
  · next hm => exact .inr ⟨h, by rw [hm]⟩

theorem moveToC_bwd (c : Rune) (prev : Bool) (e : Ed) (hi : e.CursorIn) :
    (∃ m, IsGreatestBelow (fun i => e.buf[i]? = some c) e.idx m ∧
      moveToC c prev true e = .ok (true, { e with idx := if prev then m + 1 else m })) ∨
    ((∀ j, j < e.idx → e.buf[j]? ≠ some c) ∧ moveToC c prev true e = .ok (false, e)) := by
  obtain ⟨res, hr, hs⟩ := findDown_spec e.buf c e.idx hi
  simp only [moveToC, if_true, hr, R.bind_ok]
  cases res with
  | some m => exact .inl ⟨m, hs, rfl⟩
  | none => exact .inr ⟨hs, rfl⟩

theorem core_endWord {e : Ed} (hi : e.CursorIn) :
    ((∃ c, e.idx + 1 = e.buf.length ∧ e.buf[e.idx]? = some c ∧ WordChar c) →
      Cmd.core .endWord e = .error .panic) ∧
    (¬ (∃ c, e.idx + 1 = e.buf.length ∧ e.buf[e.idx]? = some c ∧ WordChar c) →
      ∃ m, Cmd.core .endWord e = .ok { e with idx := m } ∧ e.idx ≤ m ∧ m ≤ e.buf.length) := by
  have hi : e.idx ≤ e.buf.length := hi
  simp only [Cmd.core, moveToEndWordC]
  have hscan : ∀ r : Ed, r.buf = e.buf → r.lastKill = e.lastKill → r.bck = e.bck → e.idx ≤ r.idx → r.idx ≤ e.buf.length →
      ∃ m, (match scanUp (wordEndAt r.buf) (r.idx + 1) (r.buf.length - (r.idx + 1)) with
        | some i => (.ok { r with idx := i - 1 } : R Ed)
        | none => .ok { r with idx := r.buf.length }) = .ok { e with idx := m } ∧ e.idx ≤ m ∧ m ≤ e.buf.length := by
    rintro ⟨b, i, k, bk⟩ h1 h2 h3 h4 h5
    simp only at h1 h2 h3 h4 h5
    subst h1 h2 h3
    simp only
    cases hs : scanUp (wordEndAt e.buf) (i + 1) (e.buf.length - (i + 1)) with
    | some m =>
      obtain ⟨h6, h7, _⟩ := scanUp_some hs
      exact ⟨m - 1, rfl, by omega, by omega⟩
    | none => exact ⟨_, rfl, by omega, Nat.le_refl _⟩
  constructor
  · rintro ⟨c, h1, h2, h3⟩
    have hlt : e.idx < e.buf.length := by omega
    rw [if_neg (by omega), getR_ok hlt]
    have : e.buf[e.idx] = c := by simpa [hlt] using h2
    simp only [R.bind_ok, this, (isWordBreak_iff c).2 h3, Bool.not_false, if_true,
      getR_panic (show e.buf.length ≤ e.idx + 1 by omega), R.bind_error]
  · intro h
    split
    · next h0 => exact ⟨e.idx, rfl, Nat.le_refl _, hi⟩
    · next h0 =>
      have hlt : e.idx < e.buf.length := by omega
      rw [getR_ok hlt]
      simp only [R.bind_ok]
      by_cases hw : isWordBreak e.buf[e.idx] = true
      · simp only [hw, Bool.not_true, Bool.false_eq_true, if_false, R.bind_ok]
        exact hscan e rfl rfl rfl (Nat.le_refl _) hi
      · have hw : isWordBreak e.buf[e.idx] = false := by simpa using hw
        have hlt2 : e.idx + 1 < e.buf.length := by
          rcases Nat.lt_or_ge (e.idx + 1) e.buf.length with h' | h'
          · exact h'
          · exact (h ⟨e.buf[e.idx], by omega, by simp [hlt], (isWordBreak_iff _).1 hw⟩).elim
        simp only [hw, Bool.not_false, if_true, getR_ok hlt2, R.bind_ok]
        by_cases hw2 : isWordBreak e.buf[e.idx + 1] = true
        · rw [if_pos hw2]
          exact hscan { e with idx := e.idx + 1 } rfl rfl rfl (by simp) (by simp; omega)
        · rw [if_neg hw2]
          exact hscan e rfl rfl rfl (Nat.le_refl _) hi

/-- Cursor and backed-up cursor are in their lines. -/
def Ed.Good (e : Ed) : Prop := e.CursorIn ∧ ∀ b i, e.bck = some (b, i) → i ≤ b.length

/-- The three situations in which an editing command of the buffer goes wrong. -/
def Ed.Trigger (e : Ed) : Cmd → Prop
  | .transpose => e.buf.length = 1 ∧ e.idx = 1
  | .replace _ => e.idx = e.buf.length
  | .endWord => ∃ c, e.idx + 1 = e.buf.length ∧ e.buf[e.idx]? = some c ∧ WordChar c
  | _ => False

theorem core_good {c : Cmd} {e : Ed} (hg : e.Good) (ht : ¬ e.Trigger c) :
    ∃ e', c.core e = .ok e' ∧ e'.Good := by
  obtain ⟨hi, hb⟩ := hg
  have hle : e.idx ≤ e.buf.length := hi
  have keep : ∀ {m}, m ≤ e.buf.length → Ed.Good { e with idx := m } := fun h => ⟨h, hb⟩
  -- basic commands never touch the backup
  have hbasic : ∀ {f : Line → Line}, basic c = some f → ∃ e', c.core e = .ok e' ∧ e'.Good := by
    intro f hf
    obtain ⟨e', h1, h2, _⟩ := core_basic hf hi
    refine ⟨e', h1, h2, ?_⟩
    have hbck : e'.bck = e.bck := by
      cases c <;> simp only [basic, reduceCtorEq, Option.some.injEq] at hf <;>
        simp only [Cmd.core, backspaceC, deleteC, moveBackwardC, moveForwardC, moveToLineStartC, moveToLineEndC, killFrontC,
          eraseC, Ed.pushKill, setWithIdxC, writeRunesC, killC, yankC, sliceFrom_ok hle, sliceTo_ok hle, R.bind_ok] at h1 <;>
        (try split at h1) <;> (try cases h1) <;> (try rfl)
      · rename_i h
        simp only [sliceFrom_ok (show e.idx - 1 + 1 ≤ e.buf.length by omega),
          sliceTo_ok (show e.idx - 1 ≤ e.buf.length by omega), R.bind_ok] at h1
        cases h1; rfl
      · rename_i h
        simp only [slice_ok (show e.idx ≤ e.idx + 1 by omega) (show e.idx + 1 ≤ e.buf.length by omega),
          sliceFrom_ok (show e.idx + 1 ≤ e.buf.length by omega), R.bind_ok, R.map_ok] at h1
        cases h1; rfl
    rw [hbck]; exact hb
  cases c
  case prevWord =>
    obtain ⟨m, h1, h2, _⟩ := core_prevWord hi
    exact ⟨_, h1, keep (by omega)⟩
  case nextWord =>
    obtain ⟨m, h1, h2, _⟩ := core_nextWord e
    exact ⟨_, h1, keep h2⟩
  case endWord =>
    obtain ⟨m, h1, _, h2⟩ := (core_endWord hi).2 ht
    exact ⟨_, h1, keep h2⟩
  case transpose =>
    by_cases hl : 2 ≤ e.buf.length
    · obtain ⟨pre, a, b, post, h1, h2, _⟩ := core_transpose_long hi hl
      exact ⟨_, h2, by simp [Ed.CursorIn], hb⟩
    · refine ⟨_, core_transpose_short (by omega), ?_, hb⟩
      simp only [Ed.Trigger] at ht
      simp only [Ed.CursorIn]
      split <;> omega
  case replace c =>
    refine ⟨_, (core_replace c e).1 (by simp only [Ed.Trigger] at ht; omega), ?_, hb⟩
    simp [Ed.CursorIn]; omega
  case moveTo c p b =>
    simp only [Cmd.core]
    cases b with
    | false =>
      rcases moveToC_fwd c p e with ⟨m, h1, h2, h3⟩ | ⟨_, h3⟩
      · rw [h3]
        exact ⟨_, rfl, keep (by split <;> omega)⟩
      · rw [h3]; exact ⟨_, rfl, hi, hb⟩
    | true =>
      rcases moveToC_bwd c p e hi with ⟨m, h2, h3⟩ | ⟨_, h3⟩
      · rw [h3]
        have := h2.1
        exact ⟨_, rfl, keep (by split <;> omega)⟩
      · rw [h3]; exact ⟨_, rfl, hi, hb⟩
  case deleteWord =>
    rcases Nat.eq_or_lt_of_le hle with h | h
    · exact ⟨e, core_deleteWord_end h, hi, hb⟩
    · obtain ⟨init, m, _, _, _, _, _, hm, _, h1⟩ := core_deleteWord hi h
      exact ⟨_, h1, by simp [Ed.CursorIn]; omega, hb⟩
  case backEscapeWord =>
    obtain ⟨h1, h2, h3⟩ := core_backEscapeWord hi
    by_cases h0 : e.idx = 0
    · exact ⟨e, h3 h0, hi, hb⟩
    · rcases greatest_or_none (WordStart e.buf) e.idx with ⟨m, hm⟩ | hn
      · refine ⟨_, h1 m hm, ?_, hb⟩
        have := hm.1
        simp [Ed.CursorIn]; omega
      · exact ⟨_, h2 (by omega) hn, by simp [Ed.CursorIn], hb⟩
  case backup => exact ⟨_, rfl, hi, fun b i h => by cases h; exact hi⟩
  case restore =>
    simp only [Cmd.core, restoreC]
    cases hbk : e.bck with
    | none => exact ⟨e, rfl, hi, hb⟩
    | some v =>
      obtain ⟨b, i⟩ := v
      exact ⟨_, rfl, hb b i hbk, fun b' i' h => hb b' i' (hbk.trans h)⟩
  all_goals exact hbasic rfl

end RL
