import Verif.Spec.Wide
import Verif.Proofs.Screen
/-! Lemmas for C75: what a terminal with wide characters shows after the characters of a redraw. -/

namespace RL
open Spec
open Term (chars chars_append chars_ch)

theorem add_nowrap {w k n : Nat} (h : k % w + n < w) : (k + n) / w = k / w ∧ (k + n) % w = k % w + n := by
  have := (divmod_iff (w := w) (r := k / w) (c := k % w + n) (k := k + n) h).1 (by
    have := Nat.div_add_mod k w
    rw [Nat.mul_comm]; omega)
  exact ⟨this.1.symm, this.2.symm⟩

theorem add_wrap {w k n : Nat} (h0 : 0 < w) (h : k % w + n = w) : (k + n) / w = k / w + 1 ∧ (k + n) % w = 0 := by
  have := (divmod_iff (w := w) (r := k / w + 1) (c := 0) (k := k + n) h0).1 (by
    have := Nat.div_add_mod k w
    rw [Nat.add_mul, Nat.mul_comm]; omega)
  exact ⟨this.1.symm, this.2.symm⟩

variable {wd : Rune → Nat}

theorem cellsOf_append (a b : List Rune) : cellsOf wd (a ++ b) = cellsOf wd a ++ cellsOf wd b := by simp [cellsOf]

theorem columns_append (a b : List Rune) : columns wd (a ++ b) = columns wd a + columns wd b := by simp [columns]

theorem cellsOf_length {text : List Rune} (h : ∀ c ∈ text, 0 < wd c) : (cellsOf wd text).length = columns wd text := by
  induction text with
  | nil => rfl
  | cons c cs ih =>
    have := h c (List.mem_cons_self ..)
    have ih := ih (fun x hx => h x (List.mem_cons_of_mem _ hx))
    simp only [cellsOf, columns, List.flatMap_cons, List.length_append, List.length_cons, List.length_replicate, List.map_cons, List.sum_cons] at ih ⊢
    omega

theorem length_le_columns {text : List Rune} (h : ∀ c ∈ text, 0 < wd c) : text.length ≤ columns wd text := by
  induction text with
  | nil => exact Nat.le_refl _
  | cons c cs ih =>
    have := h c (List.mem_cons_self ..)
    have ih := ih (fun x hx => h x (List.mem_cons_of_mem _ hx))
    simp only [columns, List.length_cons, List.map_cons, List.sum_cons] at ih ⊢
    omega

/-- A text that fits into a row is not broken. -/
theorem Unbroken.row {w : Nat} {text : List Rune} (h : columns wd text ≤ w) : Unbroken wd w text := by
  rintro pre c post rfl
  simp only [columns, List.map_append, List.map_cons, List.sum_append, List.sum_cons] at h ⊢
  have := Nat.mod_le (pre.map wd).sum w
  omega

theorem Unbroken.left {w : Nat} {a b : List Rune} (h : Unbroken wd w (a ++ b)) : Unbroken wd w a := by
  rintro pre c post rfl
  exact h pre c (post ++ b) (by simp)

namespace WTerm
open Spec.WTerm

/-- The position after `k` columns, possibly with a pending wrap. -/
def At (t : WTerm) (y k : Nat) : Prop :=
  (t.pend = false ∧ t.row = y + k / t.w ∧ t.col = k % t.w ∧ (k % t.w = 0 → k = 0)) ∨
  (t.pend = true ∧ 0 < k ∧ k % t.w = 0 ∧ t.row + 1 = y + k / t.w ∧ t.col + 1 = t.w)

/-- `t` has drawn the cells `cl` from row `y` on and is at column `k`; the rows above are those of `t0`. -/
structure Drawn (t0 t : WTerm) (y : Nat) (cl : List (List Rune)) (k : Nat) : Prop where
  w : t.w = t0.w
  st : t.st = .ground
  cells : ∀ r c, c < t.w → t.cell (y + r) c = cl.getD (r * t.w + c) [32]
  above : ∀ r, r < y → ∀ c, t.cell r c = t0.cell r c
  at' : At t y k

theorem wrap_at {t : WTerm} {y k n : Nat} (h : At t y k) (hn : k % t.w + n ≤ t.w) :
    (t.wrap n).row = y + k / t.w ∧ (t.wrap n).col = k % t.w ∧ (t.wrap n).pend = false ∧ (t.wrap n).cell = t.cell ∧ (t.wrap n).st = t.st ∧
      (t.wrap n).w = t.w := by
  unfold wrap
  rcases h with ⟨h1, h2, h3, _⟩ | ⟨h1, _, h2, h3, h4⟩
  · rw [if_neg]
    · exact ⟨h2, h3, h1, rfl, rfl, rfl⟩
    · rw [h1, h3]; simp; omega
  · rw [if_pos (.inl h1)]
    exact ⟨h3, h2.symm, rfl, rfl, rfl, rfl⟩

theorem getD_store (cl : List (List Rune)) (c : Rune) (n i : Nat) (hn : 0 < n) :
    (cl ++ ([c] :: List.replicate (n - 1) [])).getD i [32] =
      if i = cl.length then [c] else if cl.length < i ∧ i < cl.length + n then [] else cl.getD i [32] := by
  simp only [List.getD_eq_getElem?_getD, List.getElem?_append]
  by_cases h : i < cl.length
  · rw [if_pos h, if_neg (by omega), if_neg (by omega)]
  · rw [if_neg h]
    by_cases h1 : i = cl.length
    · simp [h1]
    · rw [if_neg h1]
      obtain ⟨m, hm⟩ : ∃ m, i - cl.length = m + 1 := ⟨i - cl.length - 1, by omega⟩
      rw [hm, List.getElem?_cons_succ]
      by_cases h2 : m < n - 1
      · rw [if_pos (by omega), List.getElem?_replicate, if_pos h2]; rfl
      · rw [if_neg (by omega), List.getElem?_replicate, if_neg h2, List.getElem?_eq_none (by omega)]

/-- Writing a character of `n` columns behind the text. -/
theorem Drawn.put {t0 t : WTerm} (hw : 0 < t0.w) {y : Nat} {cl : List (List Rune)} (h : Drawn t0 t y cl cl.length) {c : Rune}
    (hn : 0 < wd c) (hu : cl.length % t0.w + wd c ≤ t0.w) :
    Drawn t0 (t.put wd c) y (cl ++ ([c] :: List.replicate (wd c - 1) [])) (cl.length + wd c) := by
  generalize hnn : wd c = n at *
  generalize hk : cl.length = k at *
  rw [← h.w] at hu hw
  obtain ⟨h1, h2, h3, h4, h5, h6⟩ := wrap_at h.at' hu
  have hkw := Nat.mod_lt k hw
  have hblank : ∀ x, x < t.w → k % t.w ≤ x → (t.wrap n).cell (y + k / t.w) x = [32] := by
    intro x hx hx'
    rw [h4, h.cells _ x hx, List.getD_eq_getElem?_getD, List.getElem?_eq_none, Option.getD_none]
    rw [hk]
    have := Nat.div_add_mod k t.w
    rw [Nat.mul_comm] at this
    omega
  have cut1 : (t.wrap n).cut (t.wrap n).row (t.wrap n).col = t.wrap n := by
    unfold cut
    rw [if_neg]
    rintro ⟨_, e⟩
    rw [h1, h2, hblank _ hkw (Nat.le_refl _)] at e
    cases e
  have cut2 : (t.wrap n).cut (t.wrap n).row ((t.wrap n).col + n) = t.wrap n := by
    unfold cut
    rw [if_neg]
    rintro ⟨hlt, e⟩
    rw [h6] at hlt
    rw [h1, h2] at e
    rw [h2] at hlt
    rw [hblank _ hlt (by omega)] at e
    cases e
  have hput : t.put wd c = (t.wrap n).store c n := by
    unfold Spec.WTerm.put
    rw [hnn, if_neg (by omega)]
  rw [hput]
  unfold store
  rw [cut1, cut2]
  dsimp only
  rw [h1, h2, h4, h6]
  have hcells : ∀ r x, x < t.w → (if y + r = y + k / t.w ∧ x = k % t.w then [c] else
      if y + r = y + k / t.w ∧ k % t.w < x ∧ x < k % t.w + n then [] else t.cell (y + r) x) =
      (cl ++ ([c] :: List.replicate (n - 1) [])).getD (r * t.w + x) [32] := by
    intro r x hx
    rw [getD_store _ _ _ _ hn, hk, h.cells r x hx]
    have key := divmod_iff (r := r) (k := k) hx
    have hdm := Nat.div_add_mod k t.w
    rw [Nat.mul_comm] at hdm
    by_cases hr : r = k / t.w
    · have e0 : (y + r = y + k / t.w) = True := by simp [hr]
      rw [← hr] at hdm
      simp only [e0, true_and]
      generalize r * t.w = q at *
      generalize k % t.w = m at *
      by_cases hx1 : x = m
      · simp only [hx1, if_true]
        rw [if_pos (by omega)]
      · rw [if_neg hx1]
        by_cases hx2 : m < x ∧ x < m + n
        · rw [if_pos hx2, if_neg (by omega), if_pos (by omega)]
        · rw [if_neg hx2, if_neg (by omega), if_neg (by omega)]
    · have e0 : (y + r = y + k / t.w) = False := by simp [hr]
      simp only [e0, false_and, if_false]
      rw [if_neg (fun e => hr (key.1 e).1), if_neg]
      rintro ⟨e1, e2⟩
      generalize k % t.w = m at *
      rcases Nat.lt_or_gt_of_ne hr with hlt | hgt
      · have := Nat.mul_le_mul_right t.w (show r + 1 ≤ k / t.w from hlt)
        rw [Nat.add_mul] at this
        generalize k / t.w * t.w = q at *
        omega
      · have := Nat.mul_le_mul_right t.w (show k / t.w + 1 ≤ r from hgt)
        rw [Nat.add_mul] at this
        generalize k / t.w * t.w = q at *
        omega
  have habove : ∀ r, r < y → ∀ x, (if r = y + k / t.w ∧ x = k % t.w then [c] else
      if r = y + k / t.w ∧ k % t.w < x ∧ x < k % t.w + n then [] else t.cell r x) = t0.cell r x := by
    intro r hr x
    have e0 : (r = y + k / t.w) = False := by
      have := Nat.zero_le (k / t.w)
      generalize k / t.w = q at *
      simp only [eq_iff_iff, iff_false]; omega
    simp only [e0, false_and, if_false]
    exact h.above r hr x
  split
  · next hc =>
    obtain ⟨e1, e2⟩ := add_nowrap hc
    refine ⟨h.w, h5.trans h.st, hcells, habove, .inl ⟨h3, by simp only [e1], by simp only [e2], by simp only [e2]; intro h; omega⟩⟩
  · next hc =>
    obtain ⟨e1, e2⟩ := add_wrap (k := k) (n := n) hw (by omega)
    refine ⟨h.w, h5.trans h.st, hcells, habove,
      .inr ⟨rfl, by omega, by simp only [e2], by simp only [e1]; exact Nat.add_assoc .., by simp only; omega⟩⟩

theorem Printable.feed {c : Rune} (hc : Printable c) {t : WTerm} (h : t.st = .ground) : t.feed wd c = t.put wd c := by
  obtain ⟨h1, _, _⟩ := hc
  unfold Spec.WTerm.feed
  rw [h]
  simp only
  rw [if_neg (by omega), if_neg (by omega), if_neg (by omega), if_neg (by omega), if_neg (by omega)]

theorem run_append (t : WTerm) (a b : List Rune) : t.run wd (a ++ b) = (t.run wd a).run wd b := by simp [run, List.foldl_append]
theorem run_cons (t : WTerm) (a : Rune) (b : List Rune) : t.run wd (a :: b) = (t.feed wd a).run wd b := rfl

theorem run_params (t : WTerm) (body : List Rune) (hb : ∀ c ∈ body, 48 ≤ c ∧ c < 64) (ps : List Rune) :
    ({ t with st := .csi ps } : WTerm).run wd body = { t with st := .csi (ps ++ body) } := by
  induction body generalizing ps with
  | nil => simp [run]
  | cons c cs ih =>
    rw [run_cons]
    have hc := hb c (List.mem_cons_self ..)
    have : ({ t with st := .csi ps } : WTerm).feed wd c = { t with st := .csi (ps ++ [c]) } := by
      simp only [Spec.WTerm.feed]
      rw [if_pos (by omega)]
    rw [this, ih (fun x hx => hb x (List.mem_cons_of_mem _ hx))]
    simp

/-- A whole control sequence. -/
theorem run_csi (t : WTerm) (ht : t.st = .ground) (body : List Rune) (hb : ∀ c ∈ body, 48 ≤ c ∧ c < 64) (f : Rune) (hf : 64 ≤ f) :
    t.run wd ([27, 91] ++ body ++ [f]) = { t.csi body f with st := .ground } := by
  rw [run_append, run_append]
  have h1 : t.run wd [27, 91] = { t with st := .csi [] } := by
    simp [run, Spec.WTerm.feed, ht]
  rw [h1, run_params t body hb]
  simp only [List.nil_append, run, List.foldl_cons, List.foldl_nil, Spec.WTerm.feed]
  rw [if_neg (by omega)]
  unfold Spec.WTerm.csi
  repeat' split
  all_goals try rfl
  unfold eraseBelow cut
  dsimp only
  split <;> rfl

theorem run_coloured {s vis : List Rune} (hs : Coloured s vis) : ∀ {t0 t : WTerm} (_ : 0 < t0.w) {y : Nat} {text : List Rune},
    (∀ c ∈ text ++ vis, 0 < wd c) → Unbroken wd t0.w (text ++ vis) →
    Drawn t0 t y (cellsOf wd text) (columns wd text) → Drawn t0 (t.run wd s) y (cellsOf wd (text ++ vis)) (columns wd (text ++ vis)) := by
  induction hs with
  | nil => intro t0 t hw y text _ _ h; simpa [run] using h
  | @char c s v hc _ ih =>
    intro t0 t hw y text hp hu h
    rw [run_cons, Printable.feed hc h.st]
    have hlen := cellsOf_length (wd := wd) (text := text) fun x hx => hp x (List.mem_append_left _ hx)
    have h1 := Drawn.put (wd := wd) hw (cl := cellsOf wd text) (by rw [hlen]; exact h) (hp c (by simp)) (by rw [hlen]; exact hu text c v rfl)
    have h2 := ih hw (text := text ++ [c]) (by simpa using hp) (by simpa using hu) (by
      rw [cellsOf_append, columns_append, ← hlen]
      simpa [cellsOf, columns] using h1)
    simpa using h2
  | @colour body s v hb _ ih =>
    intro t0 t hw y text hp hu h
    have e : (27 :: 91 :: body ++ 109 :: s : List Rune) = ([27, 91] ++ body ++ [109]) ++ s := by simp
    rw [e, run_append, run_csi t h.st body hb 109 (by omega)]
    have : ({ t.csi body 109 with st := .ground } : WTerm) = t := by
      have := h.st
      cases t
      simp only [Spec.WTerm.csi]
      simp_all
    rw [this]
    exact ih hw hp hu h

/-- Writing a blank behind the text does not change what is shown. -/
theorem Drawn.put_blank {t0 t : WTerm} (hw : 0 < t0.w) {y : Nat} {cl : List (List Rune)} (h : Drawn t0 t y cl cl.length) (h1 : wd 32 = 1) :
    Drawn t0 (t.put wd 32) y cl (cl.length + 1) := by
  have := Drawn.put (wd := wd) hw h (c := 32) (by omega) (by rw [h1]; exact Nat.mod_lt _ hw)
  rw [h1] at this
  refine ⟨this.w, this.st, fun r c hc => ?_, this.above, this.at'⟩
  rw [this.cells r c hc, getD_store _ _ _ _ (by omega)]
  split
  · next e => rw [e]; simp [List.getD_eq_getElem?_getD]
  · rw [if_neg (by omega)]

theorem run_bs (t : WTerm) (ht : t.st = .ground) : t.run wd (chars [.bs]) = t.back := by
  simp [chars, Tok.render, run, Spec.WTerm.feed, ht]

theorem run_cr (t : WTerm) (ht : t.st = .ground) : t.run wd (chars [.cr]) = t.home := by
  simp [chars, Tok.render, run, Spec.WTerm.feed, ht]

theorem st_ground (t : WTerm) (ht : t.st = .ground) : ({ t with st := .ground } : WTerm) = t := by cases t; simp_all

theorem run_up1 (t : WTerm) (ht : t.st = .ground) : t.run wd (chars [.up1]) = t.up 1 := by
  have := run_csi (wd := wd) t ht [] (by simp) 65 (by omega)
  simp only [chars, Tok.render, List.flatMap_cons, List.flatMap_nil, List.append_nil] at this ⊢
  rw [show ([27, 91, 65] : List Rune) = [27, 91] ++ [65] from rfl, this]
  have e : t.csi [] 65 = t.up 1 := rfl
  rw [e]; exact st_ground _ ht

theorem cut_st (t : WTerm) (y x : Nat) : (t.cut y x).st = t.st ∧ (t.cut y x).row = t.row ∧ (t.cut y x).col = t.col ∧ (t.cut y x).w = t.w ∧
    ∀ a, a ≠ y → ∀ c, (t.cut y x).cell a c = t.cell a c := by
  unfold cut
  split
  · refine ⟨rfl, rfl, rfl, rfl, fun a ha c => ?_⟩
    show (if _ then _ else _) = _
    rw [if_neg (fun e => ha e.1)]
  · exact ⟨rfl, rfl, rfl, rfl, fun _ _ _ => rfl⟩

theorem run_eraseBelow (t : WTerm) (ht : t.st = .ground) : t.run wd (chars [.eraseBelow]) = t.eraseBelow := by
  have := run_csi (wd := wd) t ht [] (by simp) 74 (by omega)
  simp only [chars, Tok.render, List.flatMap_cons, List.flatMap_nil, List.append_nil] at this ⊢
  rw [show ([27, 91, 74] : List Rune) = [27, 91] ++ [74] from rfl, this]
  have e : t.csi [] 74 = t.eraseBelow := rfl
  rw [e]; exact st_ground _ ((cut_st t t.row t.col).1.trans ht)

theorem run_eraseLine (t : WTerm) (ht : t.st = .ground) : t.run wd (chars [.eraseLine]) = t.eraseLine := by
  have := run_csi (wd := wd) t ht [50] (by simp) 75 (by omega)
  simp only [chars, Tok.render, List.flatMap_cons, List.flatMap_nil, List.append_nil] at this ⊢
  rw [show ([27, 91, 50, 75] : List Rune) = [27, 91] ++ [50] ++ [75] from rfl, this]
  have e : t.csi [50] 75 = t.eraseLine := rfl
  rw [e]; exact st_ground _ ht

/-- Rows from `y` on are blank, the cursor is at the start of row `y`. -/
theorem Drawn.of_blank {t0 t : WTerm} {y : Nat} (hw : t.w = t0.w) (hst : t.st = .ground) (hrow : t.row = y) (hcol : t.col = 0)
    (hp : t.pend = false) (hc : ∀ r, y ≤ r → ∀ c, t.cell r c = [32]) (ha : ∀ r, r < y → ∀ c, t.cell r c = t0.cell r c) :
    Drawn t0 t y [] 0 :=
  ⟨hw, hst, fun r c _ => by rw [hc _ (Nat.le_add_right ..)]; rfl, ha, .inl ⟨hp, by simp [hrow], by simp [hcol], fun _ => rfl⟩⟩

theorem run_eraseUp {t0 : WTerm} {y n : Nat} : ∀ {t : WTerm}, t.w = t0.w → t.st = .ground → t.row = y + n →
    (∀ r, y + n < r → ∀ c, t.cell r c = [32]) → (∀ r, r < y → ∀ c, t.cell r c = t0.cell r c) →
    Drawn t0 (t.run wd (chars ((List.replicate n [Tok.eraseLine, .cr, .up1]).flatten ++ [.eraseLine, .cr]))) y [] 0 := by
  induction n with
  | zero =>
    intro t hw hst hrow hc ha
    have e : chars ((List.replicate 0 [Tok.eraseLine, .cr, .up1]).flatten ++ [.eraseLine, .cr]) = chars [.eraseLine] ++ chars [.cr] := by
      simp [chars]
    rw [e, run_append, run_eraseLine _ hst, run_cr t.eraseLine hst]
    refine .of_blank hw hst hrow rfl rfl (fun r hr c => ?_) (fun r hr c => ?_)
    · show (if r = t.row then [32] else t.cell r c) = [32]
      split
      · rfl
      · exact hc r (by omega) c
    · show (if r = t.row then [32] else t.cell r c) = _
      rw [if_neg (by omega), ha r hr]
  | succ n ih =>
    intro t hw hst hrow hc ha
    have e : chars ((List.replicate (n + 1) [Tok.eraseLine, .cr, .up1]).flatten ++ [.eraseLine, .cr]) =
        chars [.eraseLine] ++ (chars [.cr] ++ (chars [.up1] ++
          chars ((List.replicate n [Tok.eraseLine, .cr, .up1]).flatten ++ [.eraseLine, .cr]))) := by
      simp [chars, List.replicate_succ]
    rw [e, run_append, run_append, run_append, run_eraseLine _ hst, run_cr t.eraseLine hst, run_up1 t.eraseLine.home hst]
    refine ih hw hst ?_ (fun r hr c => ?_) (fun r hr c => ?_)
    · show t.row - 1 = y + n
      omega
    · show (if r = t.row then [32] else t.cell r c) = [32]
      split
      · rfl
      · exact hc r (by omega) c
    · show (if r = t.row then [32] else t.cell r c) = _
      rw [if_neg (by omega), ha r hr]

/-- Erasing the line from any column of the cursor row. -/
theorem run_clean {t : WTerm} {y n : Nat} (hst : t.st = .ground) (hrow : t.row = y + n) :
    Drawn t (t.run wd (chars (Tok.eraseBelow :: ((List.replicate n [Tok.eraseLine, .cr, .up1]).flatten ++ [.eraseLine, .cr])))) y [] 0 := by
  have e : ∀ ts, chars (Tok.eraseBelow :: ts) = chars [.eraseBelow] ++ chars ts := by intro ts; simp [chars]
  rw [e, run_append, run_eraseBelow _ hst]
  obtain ⟨c1, c2, c3, c4, c5⟩ := cut_st t t.row t.col
  refine run_eraseUp (t0 := t) (t := t.eraseBelow) c4 (c1.trans hst) (c2.trans hrow) (fun r hr c => ?_) (fun r hr c => ?_)
  · show (if (t.cut t.row t.col).row < r ∨ (r = (t.cut t.row t.col).row ∧ (t.cut t.row t.col).col ≤ c) then [32] else _) = [32]
    rw [c2, if_pos (.inl (by omega))]
  · show (if (t.cut t.row t.col).row < r ∨ (r = (t.cut t.row t.col).row ∧ (t.cut t.row t.col).col ≤ c) then [32] else _) = _
    rw [c2, if_neg (by omega), c5 r (by omega)]

/-- Backspaces. -/
theorem run_bsLoop {sep : List Int} {idx n : Nat} {W : Int} : ∀ {t : WTerm}, t.st = .ground → t.pend = false →
    (∀ i : Nat, idx < i → i ≤ idx + n → (i : Int) ∉ sep) →
    t.run wd (chars (RB.bsLoop W sep idx n)) = { t with col := t.col - n } := by
  induction n with
  | zero => intro t _ _ _; rfl
  | succ n ih =>
    intro t hst hp hs
    rw [RB.bsLoop, RB.bsTok, if_neg (hs _ (by omega) (by omega)), chars_append, run_append, run_bs _ hst,
      ih (t := t.back) hst rfl (fun i h1 h2 => hs i h1 (by omega))]
    show ({ t with col := t.col - 1 - n, pend := false } : WTerm) = { t with col := t.col - (n + 1) }
    rw [show t.col - 1 - n = t.col - (n + 1) by omega, ← hp]

end WTerm

/-! ### Row breaks -/

/-- The pieces of a text that is not broken. -/
theorem splitGo_unbroken {U : UTables} {w : Nat} {rs : List Rune} : ∀ {cur : Nat} {acc : List Rune}, cur < w → (∀ c ∈ rs, 0 < runeWidth U c) →
    (∀ pre c post, rs = pre ++ c :: post → (cur + columns (runeWidth U) pre) % w + runeWidth U c ≤ w) →
    (splitGo U w cur acc rs).length = (cur + columns (runeWidth U) rs) / w + 1 ∧
    ∃ l, (splitGo U w cur acc rs).getLast? = some l ∧
      (l = [] ↔ (rs = [] ∧ acc = []) ∨ (rs ≠ [] ∧ (cur + columns (runeWidth U) rs) % w = 0)) := by
  induction rs with
  | nil => intro cur acc hc _ _; exact ⟨by simp [splitGo, columns, Nat.div_eq_of_lt hc], acc, rfl, by simp⟩
  | cons c cs ih =>
    intro cur acc hc hp hu
    have hp1 := hp c (List.mem_cons_self ..)
    have hp2 : ∀ x ∈ cs, 0 < runeWidth U x := fun x hx => hp x (List.mem_cons_of_mem _ hx)
    have hu0 := hu [] c cs rfl
    simp only [columns, List.map_nil, List.sum_nil, Nat.add_zero, Nat.mod_eq_of_lt hc] at hu0
    have hcol : columns (runeWidth U) (c :: cs) = runeWidth U c + columns (runeWidth U) cs := by simp [columns]
    have hpos : cs ≠ [] → 0 < columns (runeWidth U) cs := by
      intro h
      have := length_le_columns hp2
      have : cs.length ≠ 0 := fun e => h (List.length_eq_zero_iff.1 e)
      omega
    unfold splitGo
    dsimp only
    generalize hn : runeWidth U c = n at *
    split
    · next hge =>
      have hcw : cur + n = w := by omega
      have hu' : ∀ pre x post, cs = pre ++ x :: post → (0 + columns (runeWidth U) pre) % w + runeWidth U x ≤ w := by
        intro pre x post e
        have := hu (c :: pre) x post (by rw [e]; rfl)
        have ec : columns (runeWidth U) (c :: pre) = n + columns (runeWidth U) pre := by simp [columns, hn]
        rw [ec, ← Nat.add_assoc, hcw, Nat.add_mod_left] at this
        rw [Nat.zero_add]; exact this
      obtain ⟨h1, l, h2, h3⟩ := ih (cur := 0) (acc := []) (by omega) hp2 hu'
      have hne : splitGo U w 0 [] cs ≠ [] := by intro e; rw [Int.natCast_zero, e] at h2; cases h2
      have el : cur + columns (runeWidth U) (c :: cs) = columns (runeWidth U) cs + w := by rw [hcol]; omega
      refine ⟨?_, l, ?_, ?_⟩
      · rw [el, Nat.add_div_right _ (by omega), List.length_cons]
        simpa using h1
      · rw [List.getLast?_cons_of_ne_nil hne]; exact h2
      · rw [el, Nat.add_mod_right]
        rw [h3]
        simp only [Nat.zero_add]
        constructor
        · rintro (⟨rfl, _⟩ | ⟨_, h⟩)
          · exact .inr ⟨by simp, by simp [columns]⟩
          · exact .inr ⟨by simp, h⟩
        · rintro (⟨h, _⟩ | ⟨_, h⟩)
          · cases h
          · by_cases hcs : cs = []
            · exact .inl ⟨hcs, trivial⟩
            · exact .inr ⟨hcs, h⟩
    · next hlt =>
      have hu' : ∀ pre x post, cs = pre ++ x :: post → (cur + n + columns (runeWidth U) pre) % w + runeWidth U x ≤ w := by
        intro pre x post e
        have := hu (c :: pre) x post (by rw [e]; rfl)
        have ec : columns (runeWidth U) (c :: pre) = n + columns (runeWidth U) pre := by simp [columns, hn]
        rw [ec, ← Nat.add_assoc] at this
        exact this
      obtain ⟨h1, l, h2, h3⟩ := ih (cur := cur + n) (acc := acc ++ [c]) (by omega) hp2 hu'
      have el : cur + columns (runeWidth U) (c :: cs) = cur + n + columns (runeWidth U) cs := by rw [hcol]; omega
      have ec : ((cur : Int) + (n : Int)) = ((cur + n : Nat) : Int) := by omega
      rw [el, ec]
      refine ⟨h1, l, h2, ?_⟩
      rw [h3]
      constructor
      · rintro (⟨_, h⟩ | ⟨_, h⟩)
        · simp at h
        · exact .inr ⟨by simp, h⟩
      · rintro (⟨h, _⟩ | ⟨_, h⟩)
        · cases h
        · by_cases hcs : cs = []
          · subst hcs
            have : (cur + n) % w = cur + n := Nat.mod_eq_of_lt (by omega)
            simp [columns, this] at h
            omega
          · exact .inr ⟨hcs, h⟩

theorem widthAll_columns (U : UTables) (s : List Rune) : widthAll U s = columns (runeWidth U) s := by
  induction s with
  | nil => rfl
  | cons c cs ih => simp only [widthAll, columns, List.map_cons, List.sum_cons] at ih ⊢; rw [ih]

/-- What C75 assumes of the rune: the terminal gives it the columns the library counts, at least one. -/
def WCell (U : UTables) (wd : Rune → Nat) (c : Rune) : Prop := Printable c ∧ wd c = runeWidth U c ∧ 0 < wd c

/-- What C75 assumes of the buffer, apart from the length of the line: a terminal of width `w`, a prompt of visible text `vis`
shorter than a row, no mask, a painter that only adds colours, and not Windows. -/
structure WPlain (U : UTables) (wd : Rune → Nat) (d : DCfg) (w : Nat) (vis : List Rune) (r : RB) : Prop where
  width : r.width = (w : Int)
  prompt : Coloured r.prompt vis
  pw : columns wd vis < w
  visW : ∀ c ∈ vis, WCell U wd c
  buf : ∀ c ∈ r.buf, WCell U wd c
  idx : r.idx ≤ r.buf.length
  mask : d.enableMask = false
  paint : ∃ f, d.painter = some f ∧ ∀ s i, (∀ c ∈ s, Printable c) → Coloured (f s i) s
  unix : d.windows = false
  space : wd 32 = 1

/-- No wide rune is cut by the edge of the screen, and the cursor is at the end or the line takes one row. -/
def WFits (wd : Rune → Nat) (w : Nat) (vis : List Rune) (r : RB) : Prop :=
  Unbroken wd w (vis ++ r.buf) ∧ (r.idx = r.buf.length ∨ columns wd (vis ++ r.buf) < w)

namespace WPlain
variable {U : UTables} {d : DCfg} {w : Nat} {vis : List Rune} {r : RB}

theorem width_eq {s : List Rune} (h : ∀ c ∈ s, WCell U wd c) : widthAll U s = columns wd s := by
  rw [widthAll_columns]
  unfold columns
  congr 1
  exact List.map_congr_left fun c hc => (h c hc).2.1.symm

theorem promptLen (h : WPlain U wd d w vis r) : r.promptLen U = .ok (columns wd vis) := by
  unfold RB.promptLen
  have := colorFilter_of_filtered h.prompt.filter
  cases hc : colorFilter r.prompt with
  | error e => rw [hc] at this; simp [okOpt] at this
  | ok t =>
    rw [hc] at this
    simp only [okOpt, Option.some.injEq] at this
    subst this
    simp [width_eq h.visW]

theorem text (h : WPlain U wd d w vis r) : ∀ c ∈ vis ++ r.buf, WCell U wd c := by
  intro c hc
  rcases List.mem_append.1 hc with h1 | h1
  · exact h.visW c h1
  · exact h.buf c h1

/-- The pieces of a part of the line. -/
theorem pieces (h : WPlain U wd d w vis r) {s : List Rune} (hs : ∀ c ∈ s, WCell U wd c) (hu : Unbroken wd w (vis ++ s)) :
    (splitByLine U (columns wd vis) w s).length = (columns wd (vis ++ s)) / w + 1 ∧
    ∃ l, (splitByLine U (columns wd vis) w s).getLast? = some l ∧ (l = [] ↔ s = [] ∨ (columns wd (vis ++ s)) % w = 0) := by
  have ec : ∀ q : List Rune, (∀ c ∈ q, WCell U wd c) → columns (runeWidth U) q = columns wd q := by
    intro q hq
    rw [← widthAll_columns, width_eq hq]
  obtain ⟨h1, l, h2, h3⟩ := splitGo_unbroken (U := U) (w := w) (rs := s) (cur := columns wd vis) (acc := []) h.pw
    (fun c hc => by rw [← (hs c hc).2.1]; exact (hs c hc).2.2) (by
      intro pre c post e
      have := hu (vis ++ pre) c post (by rw [e]; simp)
      rw [columns_append] at this
      rw [ec pre (fun x hx => hs x (by rw [e]; simp [hx])), ← (hs c (by rw [e]; simp)).2.1]
      exact this)
  rw [ec s hs, ← columns_append] at h1 h3
  refine ⟨h1, l, h2, h3.trans ?_⟩
  constructor
  · rintro (h | h)
    · exact .inl h.1
    · exact .inr h.2
  · rintro (h | h)
    · exact .inl ⟨h, rfl⟩
    · by_cases hb : s = []
      · exact .inl ⟨hb, rfl⟩
      · exact .inr ⟨hb, h⟩

theorem idxLine (h : WPlain U wd d w vis r) (hu : Unbroken wd w (vis ++ r.buf)) :
    r.idxLine U r.width = .ok ((columns wd (vis ++ r.buf.take r.idx) / w : Nat) : Int) := by
  unfold RB.idxLine RB.getSplitByLine
  have hw : r.width ≠ 0 := by rw [h.width]; have := h.pw; omega
  rw [if_neg hw, sliceTo_ok h.idx]
  simp only [R.bind_ok, h.promptLen]
  have hu' : Unbroken wd w (vis ++ r.buf.take r.idx) := by
    apply Unbroken.left (b := r.buf.drop r.idx)
    rw [List.append_assoc, List.take_append_drop]; exact hu
  have := (h.pieces (fun c hc => h.buf c (List.mem_of_mem_take hc)) hu').1
  rw [h.width, this]
  congr 1
  omega

theorem edge (h : WPlain U wd d w vis r) (hu : Unbroken wd w (vis ++ r.buf)) :
    r.isInLineEdge U d.windows = .ok (decide (r.buf = [] ∨ columns wd (vis ++ r.buf) % w = 0)) := by
  rw [h.unix]
  unfold RB.isInLineEdge RB.getSplitByLine
  rw [if_neg Bool.false_ne_true]
  simp only [R.bind_ok, h.promptLen]
  obtain ⟨_, l, h2, h3⟩ := h.pieces h.buf hu
  rw [h.width, h2]
  simp only [Except.ok.injEq]
  rw [Bool.eq_iff_iff]
  simp only [beq_iff_eq, List.length_eq_zero_iff, decide_eq_true_eq]
  exact h3

/-- The single case in which the cursor is put in the wrong place without a wide rune: see `Plain.Corner`. -/
def Corner (wd : Rune → Nat) (w : Nat) (vis : List Rune) (r : RB) : Prop := r.buf = [] ∧ columns wd vis + 1 = w ∧ w ≠ 1

/-- The tokens of a redraw. -/
theorem output_eq (h : WPlain U wd d w vis r) (hu : Unbroken wd w (vis ++ r.buf)) {f} (hf : d.painter = some f) {ts : List Tok}
    (ho : r.output U d = .ok ts) :
    ∃ bs, ts = r.prompt.map Tok.ch ++ ((f r.buf r.idx).flatMap (RB.paintTok U) ++
        ((if r.buf = [] ∨ columns wd (vis ++ r.buf) % w = 0 then [.ch 32, .bs] else []) ++ bs)) ∧
      (r.idx < r.buf.length → r.getBackspaceSequence U = .ok bs) ∧ (¬ r.idx < r.buf.length → bs = []) := by
  unfold RB.output at ho
  simp only [h.mask, Bool.false_eq_true, false_and, if_false, hf, h.edge hu, R.bind_ok] at ho
  by_cases he : (r.buf = [] ∨ columns wd (vis ++ r.buf) % w = 0) <;> by_cases hi : r.buf.length > r.idx
  all_goals
    simp only [he, hi, decide_true, decide_false, Bool.false_eq_true, if_true, if_false] at ho
  · obtain ⟨b, hb, ho⟩ := R.bind_inv ho
    cases ho
    exact ⟨b, by rw [if_pos he]; simp, fun _ => hb, fun h => absurd hi h⟩
  · cases ho
    exact ⟨[], by rw [if_pos he]; simp, fun h => absurd h hi, fun _ => rfl⟩
  · obtain ⟨b, hb, ho⟩ := R.bind_inv ho
    cases ho
    exact ⟨b, by rw [if_neg he]; simp, fun _ => hb, fun h => absurd hi h⟩
  · cases ho
    exact ⟨[], by rw [if_neg he]; simp, fun h => absurd h hi, fun _ => rfl⟩

open WTerm Spec.WTerm in
theorem put_back {t : WTerm} (hw : 0 < t.w) {y k : Nat} (h : WTerm.At t y k) (h1 : wd 32 = 1) :
    ((t.put wd 32).back).row = y + k / t.w ∧ ((k % t.w + 1 < t.w ∨ t.w = 1) → ((t.put wd 32).back).col = k % t.w) := by
  have hk := Nat.mod_lt k hw
  obtain ⟨g1, g2, g3, g4, g5, g6⟩ := wrap_at (n := 1) h hk
  have hp : t.put wd 32 = (t.wrap 1).store 32 1 := by
    unfold Spec.WTerm.put
    rw [h1]; rfl
  have c1 := cut_st (t.wrap 1) (t.wrap 1).row (t.wrap 1).col
  have c2 := cut_st ((t.wrap 1).cut (t.wrap 1).row (t.wrap 1).col) (t.wrap 1).row ((t.wrap 1).col + 1)
  rw [hp]
  constructor
  · show ((t.wrap 1).store 32 1).row = _
    unfold Spec.WTerm.store
    dsimp only
    split <;> exact (c2.2.1.trans c1.2.1).trans g1
  · intro hc
    show ((t.wrap 1).store 32 1).col - 1 = _
    unfold Spec.WTerm.store
    dsimp only
    rw [c2.2.2.1, c1.2.2.1, c2.2.2.2.1, c1.2.2.2.1, g2, g6]
    split
    · rfl
    · show t.w - 1 - 1 = k % t.w
      omega

open WTerm Spec.WTerm in
/-- The characters of a redraw on a blank area. -/
theorem drawn (h : WPlain U wd d w vis r) (hfit : WFits wd w vis r) {ts : List Tok} (ho : r.output U d = .ok ts) {t0 t : WTerm}
    (hw : t0.w = w) {y : Nat} (ht : WTerm.Drawn t0 t y [] 0) :
    (t.run wd (chars ts)).w = w ∧ (t.run wd (chars ts)).st = .ground ∧ (t.run wd (chars ts)).pend = false ∧
    (t.run wd (chars ts)).row = y + columns wd (vis ++ r.buf.take r.idx) / w ∧
    (¬ Corner wd w vis r → (t.run wd (chars ts)).col = (columns wd (vis ++ r.buf) - (r.buf.length - r.idx)) % w) ∧
    (∀ a, a < y → ∀ c, (t.run wd (chars ts)).cell a c = t0.cell a c) ∧
    (∀ a c, c < w → (t.run wd (chars ts)).cell (y + a) c = (cellsOf wd (vis ++ r.buf)).getD (a * w + c) [32]) := by
  obtain ⟨hu, hsh⟩ := hfit
  have hw0 : 0 < t0.w := by rw [hw]; have := h.pw; omega
  obtain ⟨f, hf, hcol⟩ := h.paint
  have hcol := hcol r.buf r.idx (fun c hc => (h.buf c hc).1)
  have hpos : ∀ c ∈ vis ++ r.buf, 0 < wd c := fun c hc => (h.text c hc).2.2
  -- the text
  have d1 := run_coloured h.prompt hw0 (text := []) (by simpa using fun c hc => (h.visW c hc).2.2) (by rw [hw]; simpa using Unbroken.left hu)
    (by simpa [cellsOf, columns] using ht)
  simp only [List.nil_append] at d1
  have d2 := run_coloured hcol hw0 hpos (by rw [hw]; exact hu) d1
  obtain ⟨bs, ets, hb1, hb2⟩ := h.output_eq hu hf ho
  have hlen := cellsOf_length hpos
  rw [ets, chars_append, run_append, chars_ch, chars_append, run_append, paint_chars U hcol.no_tab, chars_append, run_append]
  have hcp : columns wd (vis ++ r.buf) = columns wd vis + columns wd r.buf := columns_append ..
  have hlb := length_le_columns (fun c hc => (h.buf c hc).2.2 : ∀ c ∈ r.buf, 0 < wd c)
  generalize hk : columns wd (vis ++ r.buf) = k at *
  generalize (t.run wd r.prompt).run wd (f r.buf r.idx) = t2 at d2
  have hw2 : t2.w = w := d2.w.trans hw
  -- the blank at the edge
  have key : ∃ t3, t2.run wd (chars (if r.buf = [] ∨ k % w = 0 then [.ch 32, .bs] else [])) = t3 ∧ t3.w = w ∧ t3.st = .ground ∧
      t3.row = y + k / w ∧ t3.pend = false ∧ (¬ Corner wd w vis r → t3.col = k % w) ∧
      (∀ a, a < y → ∀ c, t3.cell a c = t0.cell a c) ∧
      (∀ a c, c < w → t3.cell (y + a) c = (cellsOf wd (vis ++ r.buf)).getD (a * w + c) [32]) := by
    by_cases he : r.buf = [] ∨ k % w = 0
    · have d3 := Drawn.put_blank hw0 (by rw [hlen]; exact d2) h.space
      have hpb := put_back (t := t2) (by rw [hw2, ← hw]; exact hw0) d2.at' h.space
      have e : t2.run wd (chars (if r.buf = [] ∨ k % w = 0 then [.ch 32, .bs] else [])) = (t2.put wd 32).back := by
        rw [if_pos he]
        have : chars [.ch 32, .bs] = [32] ++ chars [.bs] := rfl
        rw [this, run_append]
        have : t2.run wd [32] = t2.put wd 32 := WTerm.Printable.feed ⟨by omega, by omega, by omega⟩ d2.st
        rw [this, run_bs _ d3.st]
      have hw3 : (t2.put wd 32).w = w := d3.w.trans hw
      refine ⟨_, e, hw3, d3.st, by rw [hpb.1, hw2], rfl, fun hc => ?_, d3.above, fun a c hc => ?_⟩
      · rw [hpb.2, hw2]
        rw [hw2]
        have hpw := h.pw
        rcases he with he | he
        · have hkp : k = columns wd vis := by rw [hcp, he]; simp [columns]
          rw [hkp, Nat.mod_eq_of_lt hpw]
          unfold Corner at hc
          by_cases h1 : columns wd vis + 1 = w
          · exact .inr (Classical.byContradiction fun h2 => hc ⟨he, h1, h2⟩)
          · exact .inl (by omega)
        · rw [he]; omega
      · have := d3.cells a c (by rw [hw3]; exact hc)
        rw [hw3] at this
        exact this
    · refine ⟨_, rfl, ?_⟩
      rw [if_neg he]
      have hat := d2.at'
      rw [WTerm.At, hw2] at hat
      rcases hat with ⟨h1, h2, h3, _⟩ | ⟨_, _, h2, _⟩
      · refine ⟨hw2, d2.st, h2, h1, fun _ => h3, d2.above, fun a c hc => ?_⟩
        have := d2.cells a c (by rw [hw2]; exact hc)
        rw [hw2] at this
        exact this
      · exact absurd (.inr h2) he
  obtain ⟨t3, e3, k1, k2, k3, k4, k5, k6, k7⟩ := key
  rw [e3]
  -- back to the cursor
  by_cases hi : r.idx < r.buf.length
  · have hnc : ¬ Corner wd w vis r := by rintro ⟨hb, _⟩; rw [hb] at hi; cases hi
    have hkw : k < w := hsh.resolve_left (by omega)
    have hb := hb1 hi
    unfold RB.getBackspaceSequence at hb
    simp only [width_eq h.buf] at hb
    rw [if_neg (by omega)] at hb
    simp only [h.promptLen, R.bind_ok, h.width] at hb
    obtain ⟨sep, hsep, hb⟩ := R.bind_inv hb
    cases hb
    have hbr := RB.sepLoop_breaks h.pw hsep
    rw [run_bsLoop (sep := sep) k2 k4 (fun i hi0 hi1 hm => by
      have := (hbr i (by omega) (by omega)).1 hm
      rw [Nat.mod_eq_of_lt (by omega)] at this
      omega)]
    have hct : columns wd (vis ++ r.buf.take r.idx) ≤ k := by
      rw [hcp, columns_append]
      have : columns wd r.buf = columns wd (r.buf.take r.idx) + columns wd (r.buf.drop r.idx) := by
        rw [← columns_append, List.take_append_drop]
      omega
    refine ⟨k1, k2, k4, ?_, fun _ => ?_, k6, k7⟩
    · show t3.row = _
      rw [k3, Nat.div_eq_of_lt hkw, Nat.div_eq_of_lt (by omega)]
    · show t3.col - (r.buf.length - r.idx) = _
      rw [k5 hnc, Nat.mod_eq_of_lt hkw, Nat.mod_eq_of_lt (by omega)]
  · rw [hb2 hi]
    have hil : r.idx = r.buf.length := by have := h.idx; omega
    have e : t3.run wd (chars []) = t3 := rfl
    rw [e, hil, List.take_length, hk, Nat.sub_self, Nat.sub_zero]
    exact ⟨k1, k2, k4, k3, k5, k6, k7⟩

end WPlain

end RL
