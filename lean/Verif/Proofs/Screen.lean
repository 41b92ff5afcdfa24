import Verif.Spec.Screen
import Verif.Proofs.Keys
/-! Lemmas for C17: what the terminal shows after the characters of a redraw. -/

namespace RL
open Spec

theorem divmod_iff {w r c k : Nat} (hc : c < w) : r * w + c = k ↔ r = k / w ∧ c = k % w := by
  constructor
  · rintro rfl
    have hw : 0 < w := by omega
    rw [Nat.mul_comm, Nat.mul_add_div hw, Nat.mul_add_mod, Nat.div_eq_of_lt hc, Nat.mod_eq_of_lt hc]
    exact ⟨rfl, rfl⟩
  · rintro ⟨rfl, rfl⟩
    rw [Nat.mul_comm]; exact Nat.div_add_mod k w

theorem succ_wrap {w k : Nat} (h : k % w + 1 = w) : (k + 1) / w = k / w + 1 ∧ (k + 1) % w = 0 := by
  have hw : 0 < w := by omega
  have := (divmod_iff (w := w) (r := k / w + 1) (c := 0) (k := k + 1) hw).1 (by
    have := Nat.div_add_mod k w
    rw [Nat.add_mul, Nat.mul_comm]; omega)
  exact ⟨this.1.symm, this.2.symm⟩

theorem succ_nowrap {w k : Nat} (h : k % w + 1 < w) : (k + 1) / w = k / w ∧ (k + 1) % w = k % w + 1 := by
  have := (divmod_iff (w := w) (r := k / w) (c := k % w + 1) (k := k + 1) h).1 (by
    have := Nat.div_add_mod k w
    rw [Nat.mul_comm]; omega)
  exact ⟨this.1.symm, this.2.symm⟩

namespace Term
open Spec.Term

/-- The position after `k` characters, possibly with a pending wrap. -/
def At (t : Term) (y k : Nat) : Prop :=
  (t.pend = false ∧ t.row = y + k / t.w ∧ t.col = k % t.w ∧ (k % t.w = 0 → k = 0)) ∨
  (t.pend = true ∧ 0 < k ∧ k % t.w = 0 ∧ t.row + 1 = y + k / t.w ∧ t.col + 1 = t.w)

/-- `t` has drawn `text` from row `y` on and is at position `k`; the rows above are those of `t0`. -/
structure Drawn (t0 t : Term) (y : Nat) (text : List Rune) (k : Nat) : Prop where
  w : t.w = t0.w
  st : t.st = .ground
  cells : ∀ r c, c < t.w → t.cell (y + r) c = text.getD (r * t.w + c) 32
  above : ∀ r, r < y → ∀ c, t.cell r c = t0.cell r c
  at' : At t y k

theorem wrap_at {t : Term} {y k : Nat} (h : At t y k) :
    t.wrap.row = y + k / t.w ∧ t.wrap.col = k % t.w ∧ t.wrap.pend = false ∧ t.wrap.cell = t.cell ∧ t.wrap.st = t.st ∧ t.wrap.w = t.w := by
  unfold wrap
  rcases h with ⟨h1, h2, h3, _⟩ | ⟨h1, _, h2, h3, h4⟩
  · simp [h1, h2, h3]
  · simp [h1, h2, h3]

theorem getD_snoc (text : List Rune) (c : Rune) (i : Nat) :
    (text ++ [c]).getD i 32 = if i = text.length then c else text.getD i 32 := by
  simp only [List.getD_eq_getElem?_getD, List.getElem?_append]
  by_cases h : i < text.length
  · simp [h, Nat.ne_of_lt h]
  · simp only [h, if_false]
    by_cases h2 : i = text.length
    · simp [h2]
    · rw [if_neg h2, List.getElem?_eq_none (by simp; omega), List.getElem?_eq_none (by omega)]

/-- Storing a character at position `k`. -/
theorem put_at {t : Term} (hw : 0 < t.w) {y k : Nat} (h : At t y k) (c : Rune) :
    At (t.put c) y (k + 1) ∧ (t.put c).w = t.w ∧ (t.put c).st = t.st ∧
    (t.put c).cell = fun a b => if a = y + k / t.w ∧ b = k % t.w then c else t.cell a b := by
  obtain ⟨h1, h2, h3, h4, h5, h6⟩ := wrap_at h
  unfold put store
  have hk := Nat.mod_lt k hw
  dsimp only
  rw [h1, h2, h4, h6]
  split
  · next hc =>
    obtain ⟨e1, e2⟩ := succ_nowrap hc
    exact ⟨.inl ⟨h3, by simp only [e1], by simp only [e2], by simp only [e2]; intro h; cases h⟩, rfl, h5, rfl⟩
  · next hc =>
    obtain ⟨e1, e2⟩ := succ_wrap (w := t.w) (k := k) (by omega)
    exact ⟨.inr ⟨rfl, Nat.succ_pos _, by simp only [e2], by simp only [e1]; exact Nat.add_assoc .., by simp only; omega⟩, rfl, h5, rfl⟩

theorem Drawn.put {t0 t : Term} (hw : 0 < t0.w) {y : Nat} {text : List Rune} (h : Drawn t0 t y text text.length) (c : Rune) :
    Drawn t0 (t.put c) y (text ++ [c]) (text.length + 1) := by
  obtain ⟨g1, g2, g3, g4⟩ := put_at (by rw [h.w]; exact hw) h.at' c
  refine ⟨g2.trans h.w, g3.trans h.st, fun r x hx => ?_, fun r hr x => ?_, g1⟩
  · rw [g2] at hx ⊢
    rw [g4, getD_snoc]
    dsimp only
    rw [h.cells r x hx]
    have := divmod_iff (r := r) (k := text.length) hx
    by_cases hq : r * t.w + x = text.length
    · obtain ⟨e1, e2⟩ := this.1 hq
      rw [if_pos ⟨by rw [e1], e2⟩, if_pos hq]
    · rw [if_neg hq, if_neg]
      rintro ⟨e1, e2⟩
      exact hq (this.2 ⟨Nat.add_left_cancel e1, e2⟩)
  · rw [g4]
    dsimp only
    rw [if_neg (fun e => absurd e.1 (Nat.ne_of_lt (Nat.lt_of_lt_of_le hr (Nat.le_add_right ..)))), h.above r hr]

theorem Printable.feed {c : Rune} (hc : Printable c) {t : Term} (h : t.st = .ground) : t.feed c = t.put c := by
  obtain ⟨h1, _, _⟩ := hc
  unfold Spec.Term.feed
  rw [h]
  simp only
  rw [if_neg (by omega), if_neg (by omega), if_neg (by omega), if_neg (by omega), if_neg (by omega)]

theorem run_append (t : Term) (a b : List Rune) : t.run (a ++ b) = (t.run a).run b := by simp [run, List.foldl_append]
theorem run_cons (t : Term) (a : Rune) (b : List Rune) : t.run (a :: b) = (t.feed a).run b := rfl

theorem run_params (t : Term) (body : List Rune) (hb : ∀ c ∈ body, 48 ≤ c ∧ c < 64) (ps : List Rune) :
    ({ t with st := .csi ps } : Term).run body = { t with st := .csi (ps ++ body) } := by
  induction body generalizing ps with
  | nil => simp [run]
  | cons c cs ih =>
    rw [run_cons]
    have hc := hb c (List.mem_cons_self ..)
    have : ({ t with st := .csi ps } : Term).feed c = { t with st := .csi (ps ++ [c]) } := by
      simp only [Spec.Term.feed]
      rw [if_pos (by omega)]
    rw [this, ih (fun x hx => hb x (List.mem_cons_of_mem _ hx))]
    simp

/-- A whole control sequence. -/
theorem run_csi (t : Term) (ht : t.st = .ground) (body : List Rune) (hb : ∀ c ∈ body, 48 ≤ c ∧ c < 64) (f : Rune) (hf : 64 ≤ f) :
    t.run ([27, 91] ++ body ++ [f]) = { t.csi body f with st := .ground } := by
  rw [run_append, run_append]
  have h1 : t.run [27, 91] = { t with st := .csi [] } := by
    simp [run, Spec.Term.feed, ht]
  rw [h1, run_params t body hb]
  simp only [List.nil_append, run, List.foldl_cons, List.foldl_nil, Spec.Term.feed]
  rw [if_neg (by omega)]
  unfold Spec.Term.csi
  repeat' split
  all_goals rfl

theorem run_coloured {s vis : List Rune} (hs : Coloured s vis) : ∀ {t0 t : Term} (_ : 0 < t0.w) {y : Nat} {text : List Rune},
    Drawn t0 t y text text.length → Drawn t0 (t.run s) y (text ++ vis) (text ++ vis).length := by
  induction hs with
  | nil => intro t0 t hw y text h; simpa [run] using h
  | @char c s v hc _ ih =>
    intro t0 t hw y text h
    rw [run_cons, Printable.feed hc h.st]
    have h1 := h.put hw c
    have h2 := ih hw (text := text ++ [c]) (by simpa using h1)
    simpa using h2
  | @colour body s v hb _ ih =>
    intro t0 t hw y text h
    have e : (27 :: 91 :: body ++ 109 :: s : List Rune) = ([27, 91] ++ body ++ [109]) ++ s := by simp
    rw [e, run_append, run_csi t h.st body hb 109 (by omega)]
    have : ({ t.csi body 109 with st := .ground } : Term) = t := by
      have := h.st
      cases t
      simp only [Spec.Term.csi]
      simp_all
    rw [this]
    exact ih hw h

/-- Writing a blank behind the text does not change what is shown. -/
theorem Drawn.put_blank {t0 t : Term} (hw : 0 < t0.w) {y : Nat} {text : List Rune} (h : Drawn t0 t y text text.length) :
    Drawn t0 (t.put 32) y text (text.length + 1) := by
  have := h.put hw 32
  refine ⟨this.w, this.st, fun r c hc => ?_, this.above, this.at'⟩
  rw [this.cells r c hc, getD_snoc]
  split
  · next e => rw [e]; simp [List.getD_eq_getElem?_getD]
  · rfl

/-! ### Tokens -/

/-- The characters of a list of tokens. -/
def chars (ts : List Tok) : List Rune := ts.flatMap Tok.render

theorem chars_append (a b : List Tok) : chars (a ++ b) = chars a ++ chars b := by simp [chars]

theorem chars_ch (s : List Rune) : chars (s.map Tok.ch) = s := by
  induction s with
  | nil => rfl
  | cons c cs ih => simp only [chars, List.map_cons, List.flatMap_cons, Tok.render] at ih ⊢; rw [ih]; rfl

theorem num_digits (cs : List Char) (h : ∀ c ∈ cs, c.isDigit) (a : Nat) :
    (cs.map (fun c => (c.toNat : Int))).foldl (fun a c => a * 10 + (c - 48).toNat) a = Nat.ofDigitChars 10 cs a := by
  induction cs generalizing a with
  | nil => rfl
  | cons c cs ih =>
    rw [List.map_cons, List.foldl_cons, Nat.ofDigitChars_cons, ← ih (fun x hx => h x (List.mem_cons_of_mem _ hx))]
    congr 1
    have : ('0' : Char).toNat = 48 := rfl
    rw [this]
    omega

theorem itoa_nat (n : Nat) : itoa (n : Int) = (Nat.toDigits 10 n).map (fun c => (c.toNat : Int)) := by
  unfold itoa str
  have : toString (n : Int) = n.repr := rfl
  rw [this, Nat.toList_repr]

theorem num_itoa (n : Nat) : num (itoa (n : Int)) = n := by
  rw [itoa_nat]
  unfold num
  rw [num_digits _ (fun c hc => Nat.isDigit_of_mem_toDigits (by omega) (by omega) hc), Nat.ofDigitChars_ten_toDigits]

theorem itoa_digits (n : Nat) : ∀ c ∈ itoa (n : Int), 48 ≤ c ∧ c < 64 := by
  rw [itoa_nat]
  intro c hc
  obtain ⟨d, hd, rfl⟩ := List.mem_map.1 hc
  have := Nat.isDigit_of_mem_toDigits (b := 10) (by omega) (by omega) hd
  simp only [Char.isDigit, Bool.and_eq_true, decide_eq_true_eq, ge_iff_le] at this
  obtain ⟨h1, h2⟩ := this
  have h1 : 48 ≤ d.toNat := h1
  have h2 : d.toNat ≤ 57 := h2
  omega

theorem run_bs (t : Term) (ht : t.st = .ground) : t.run (chars [.bs]) = t.back := by
  simp [chars, Tok.render, run, Spec.Term.feed, ht]

theorem run_cr (t : Term) (ht : t.st = .ground) : t.run (chars [.cr]) = t.home := by
  simp [chars, Tok.render, run, Spec.Term.feed, ht]

theorem st_ground (t : Term) (ht : t.st = .ground) : ({ t with st := .ground } : Term) = t := by cases t; simp_all

theorem run_up1 (t : Term) (ht : t.st = .ground) : t.run (chars [.up1]) = t.up 1 := by
  have := run_csi t ht [] (by simp) 65 (by omega)
  simp only [chars, Tok.render, List.flatMap_cons, List.flatMap_nil, List.append_nil] at this ⊢
  rw [show ([27, 91, 65] : List Rune) = [27, 91] ++ [65] from rfl, this]
  have e : t.csi [] 65 = t.up 1 := rfl
  rw [e]; exact st_ground _ ht

theorem run_right (t : Term) (ht : t.st = .ground) (n : Nat) (hn : 0 < n) : t.run (chars [.right n]) = t.forward n := by
  have := run_csi t ht (itoa n) (itoa_digits n) 67 (by omega)
  simp only [chars, Tok.render, List.flatMap_cons, List.flatMap_nil, List.append_nil] at this ⊢
  rw [this]
  have e : t.csi (itoa n) 67 = t.forward n := by
    simp only [Spec.Term.csi, num_itoa]
    rw [Nat.max_eq_right hn]; rfl
  rw [e]; exact st_ground _ ht

theorem run_up (t : Term) (ht : t.st = .ground) (n : Nat) (hn : 0 < n) : t.run (chars [.up n]) = t.up n := by
  have := run_csi t ht (itoa n) (itoa_digits n) 65 (by omega)
  simp only [chars, Tok.render, List.flatMap_cons, List.flatMap_nil, List.append_nil] at this ⊢
  rw [this]
  have e : t.csi (itoa n) 65 = t.up n := by
    simp only [Spec.Term.csi, num_itoa]
    rw [Nat.max_eq_right hn]; rfl
  rw [e]; exact st_ground _ ht

theorem run_eraseBelow (t : Term) (ht : t.st = .ground) : t.run (chars [.eraseBelow]) = t.eraseBelow := by
  have := run_csi t ht [] (by simp) 74 (by omega)
  simp only [chars, Tok.render, List.flatMap_cons, List.flatMap_nil, List.append_nil] at this ⊢
  rw [show ([27, 91, 74] : List Rune) = [27, 91] ++ [74] from rfl, this]
  have e : t.csi [] 74 = t.eraseBelow := rfl
  rw [e]; exact st_ground _ ht

theorem run_eraseLine (t : Term) (ht : t.st = .ground) : t.run (chars [.eraseLine]) = t.eraseLine := by
  have := run_csi t ht [50] (by simp) 75 (by omega)
  simp only [chars, Tok.render, List.flatMap_cons, List.flatMap_nil, List.append_nil] at this ⊢
  rw [show ([27, 91, 50, 75] : List Rune) = [27, 91] ++ [50] ++ [75] from rfl, this]
  have e : t.csi [50] 75 = t.eraseLine := rfl
  rw [e]; exact st_ground _ ht

/-! ### Moving back -/

/-- A cursor position without pending wrap. -/
structure On (t : Term) (y k : Nat) : Prop where
  row : t.row = y + k / t.w
  col : t.col = k % t.w
  pend : t.pend = false
  st : t.st = .ground

theorem back_on {t : Term} (hw : 0 < t.w) {y k : Nat} (h : On t y (k + 1)) (hk : (k + 1) % t.w ≠ 0) : On t.back y k := by
  have hlt := Nat.mod_lt k hw
  have : k % t.w + 1 < t.w := by
    by_cases hh : k % t.w + 1 < t.w
    · exact hh
    · exact absurd (succ_wrap (w := t.w) (k := k) (by omega)).2 hk
  obtain ⟨e1, e2⟩ := succ_nowrap this
  refine ⟨by rw [back, h.row, e1], ?_, rfl, h.st⟩
  show t.col - 1 = k % t.w
  rw [h.col, e2]; rfl

/-- Back over the start of a row: `\b`, up, return, right. -/
theorem back_up_on {t : Term} (hw : 0 < t.w) {y k : Nat} (h : On t y (k + 1)) (hk : (k + 1) % t.w = 0) :
    On ((((t.back).up 1).home).forward t.w) y k := by
  have hlt := Nat.mod_lt k hw
  have : k % t.w + 1 = t.w := by
    by_cases hh : k % t.w + 1 < t.w
    · have := (succ_nowrap hh).2
      omega
    · omega
  obtain ⟨e1, e2⟩ := succ_wrap this
  refine ⟨?_, ?_, rfl, h.st⟩
  · show t.row - 1 = y + k / t.w
    rw [h.row, e1]; rfl
  · show min (t.w - 1) (0 + t.w) = k % t.w
    omega

/-- The cells and the width are the same. -/
structure SameText (t t' : Term) : Prop where
  w : t'.w = t.w
  cell : t'.cell = t.cell

theorem run_bsTok {t : Term} (hw : 0 < t.w) {y k : Nat} {sep : List Int} {i : Nat} (h : On t y (k + 1))
    (hs : (i : Int) ∈ sep ↔ (k + 1) % t.w = 0) :
    On (t.run (chars (RB.bsTok t.w sep i))) y k ∧ SameText t (t.run (chars (RB.bsTok t.w sep i))) := by
  unfold RB.bsTok
  split
  · next hi =>
    have h1 := back_up_on hw h (hs.1 hi)
    have e : chars [.bs, .up1, .cr, .right t.w] = chars [.bs] ++ (chars [.up1] ++ (chars [.cr] ++ chars [.right t.w])) := by
      simp [chars]
    rw [e, run_append, run_append, run_append, run_bs _ h.st, run_up1 t.back h.st, run_cr (t.back.up 1) h.st,
      run_right (t.back.up 1).home h.st _ hw]
    exact ⟨h1, rfl, rfl⟩
  · next hi =>
    rw [run_bs _ h.st]
    exact ⟨back_on hw h (fun e => hi (hs.2 e)), rfl, rfl⟩

theorem run_bsLoop {p y idx : Nat} {sep : List Int} {n : Nat} : ∀ {t : Term}, 0 < t.w → On t y (p + idx + n) →
    (∀ i : Nat, 0 < i → i ≤ idx + n → ((i : Int) ∈ sep ↔ (p + i) % t.w = 0)) →
    On (t.run (chars (RB.bsLoop t.w sep idx n))) y (p + idx) ∧ SameText t (t.run (chars (RB.bsLoop t.w sep idx n))) := by
  induction n with
  | zero => intro t hw h hs; exact ⟨h, rfl, rfl⟩
  | succ n ih =>
    intro t hw h hs
    rw [RB.bsLoop, chars_append, run_append]
    obtain ⟨h1, h2⟩ := run_bsTok (sep := sep) (i := idx + n + 1) (k := p + idx + n) hw h
      (by rw [show p + idx + n + 1 = p + (idx + n + 1) by omega]; exact hs (idx + n + 1) (by omega) (by omega))
    obtain ⟨h3, h4⟩ := ih (t := t.run (chars (RB.bsTok t.w sep (idx + n + 1)))) (by rw [h2.w]; exact hw) h1 (fun i hi hi' => by
      rw [h2.w]; exact hs i hi (by omega))
    rw [h2.w] at h3 h4
    exact ⟨h3, h4.w.trans h2.w, h4.cell.trans h2.cell⟩

end Term

/-! ### Row breaks -/

namespace RB

theorem sepLoop_mem {W p w : Nat} (hw : p < w) {fuel : Nat} : ∀ {m : Nat} {sep s : List Int}, 0 < m →
    sepLoop W p w fuel (m * w - p : Int) sep = .ok s →
    ∀ x : Int, x ∈ s ↔ x ∈ sep ∨ ∃ m' : Nat, m < m' ∧ x = m' * w - p ∧ ((m' - 1 : Nat) * w - p : Int) < W := by
  have hpos : ∀ m : Nat, 0 < m → (0 : Int) < m * w - p := by
    intro m hm
    have : (w : Int) ≤ m * w := by
      have := Nat.le_mul_of_pos_left w hm
      exact_mod_cast this
    omega
  have hmono : ∀ a b : Nat, a ≤ b → ((a : Int) * w - p) ≤ (b : Int) * w - p := by
    intro a b hab
    have := Nat.mul_le_mul_right w hab
    have : ((a : Int) * w) ≤ (b : Int) * w := by exact_mod_cast this
    omega
  induction fuel with
  | zero =>
    intro m sep s hm h x
    unfold sepLoop at h
    split at h
    · next hi =>
      cases h
      refine ⟨.inl, fun h => h.resolve_right ?_⟩
      rintro ⟨m', h1, _, h3⟩
      have := hmono m (m' - 1) (by omega)
      omega
    · cases h
  | succ fuel ih =>
    intro m sep s hm h x
    unfold sepLoop at h
    split at h
    · next hi =>
      cases h
      refine ⟨.inl, fun h => h.resolve_right ?_⟩
      rintro ⟨m', h1, _, h3⟩
      have := hmono m (m' - 1) (by omega)
      omega
    · next hi =>
      have hne : ((m : Int) * w - p) ≠ 0 := by have := hpos m hm; omega
      simp only [hne, if_false] at h
      have e : ((m : Int) * w - p + w) = (((m + 1 : Nat) : Int) * w - p) := by
        rw [Int.natCast_add, Int.add_mul]; omega
      rw [e] at h
      rw [ih (by omega) h x, List.mem_cons]
      constructor
      · rintro ((rfl | h1) | ⟨m', h1, h2, h3⟩)
        · exact .inr ⟨m + 1, by omega, rfl, by simpa using hi⟩
        · exact .inl h1
        · exact .inr ⟨m', by omega, h2, h3⟩
      · rintro (h1 | ⟨m', h1, h2, h3⟩)
        · exact .inl (.inr h1)
        · by_cases hq : m' = m + 1
          · subst hq; exact .inl (.inl h2)
          · exact .inr ⟨m', by omega, h2, h3⟩

/-- The row breaks among the positions of the text. -/
theorem sepLoop_breaks {W p w fuel : Nat} (hw : p < w) {s : List Int} (h : sepLoop W p w fuel 0 [] = .ok s) (i : Nat) (hi : 0 < i)
    (hiW : i ≤ W) : (i : Int) ∈ s ↔ (p + i) % w = 0 := by
  have hW : ¬ (0 : Int) ≥ W := by omega
  cases fuel with
  | zero => rw [sepLoop, if_neg hW] at h; cases h
  | succ fuel =>
    rw [sepLoop, if_neg hW] at h
    simp only [if_true] at h
    have e : ((0 : Int) - p + w) = (((1 : Nat) : Int) * w - p) := by omega
    rw [e] at h
    rw [sepLoop_mem hw (by omega) h, List.mem_singleton]
    constructor
    · rintro (h1 | ⟨m, _, h1, _⟩)
      · have : p + i = 1 * w := by omega
        rw [this]; exact Nat.mul_mod_left ..
      · have : p + i = m * w := by
          have : ((p + i : Nat) : Int) = ((m * w : Nat) : Int) := by rw [Int.natCast_add, Int.natCast_mul]; omega
          exact_mod_cast this
        rw [this]; exact Nat.mul_mod_left ..
    · intro h1
      obtain ⟨m, hm⟩ := Nat.dvd_of_mod_eq_zero h1
      rw [Nat.mul_comm] at hm
      have hmi : ((p : Int) + i) = m * w := by exact_mod_cast hm
      rcases Nat.lt_or_ge 1 m with h2 | h2
      · right
        refine ⟨m, h2, by omega, ?_⟩
        have : ((m - 1 : Nat) : Int) * w = m * w - w := by
          rw [Int.natCast_sub (by omega), Int.sub_mul]; simp
        omega
      · left
        have : m = 1 := by
          rcases Nat.eq_zero_or_pos m with h0 | h0
          · subst h0; omega
          · omega
        subst this
        exact_mod_cast (by omega : (i : Int) = ((1 : Nat) : Int) * w - p)

end RB

/-- Every rune takes one cell. -/
def Singles (U : UTables) (s : List Rune) : Prop := ∀ c ∈ s, runeWidth U c = 1

theorem Singles.widthAll {U : UTables} {s : List Rune} (h : Singles U s) : widthAll U s = s.length := by
  induction s with
  | nil => rfl
  | cons c cs ih =>
    rw [RL.widthAll, h c (List.mem_cons_self ..), ih (fun x hx => h x (List.mem_cons_of_mem _ hx)), List.length_cons]
    omega

theorem splitGo_singles {U : UTables} {w : Nat} {rs : List Rune} (h : Singles U rs) : ∀ {cur : Nat} {acc : List Rune}, cur < w →
    (splitGo U w cur acc rs).length = (cur + rs.length) / w + 1 ∧
    ∃ l, (splitGo U w cur acc rs).getLast? = some l ∧
      (l = [] ↔ (rs = [] ∧ acc = []) ∨ (rs ≠ [] ∧ (cur + rs.length) % w = 0)) := by
  induction rs with
  | nil => intro cur acc hc; exact ⟨by simp [splitGo, Nat.div_eq_of_lt hc], acc, rfl, by simp⟩
  | cons c cs ih =>
    intro cur acc hc
    have hs : Singles U cs := fun x hx => h x (List.mem_cons_of_mem _ hx)
    unfold splitGo
    simp only [h c (List.mem_cons_self ..)]
    split
    · next hge =>
      have hcw : cur + 1 = w := by omega
      obtain ⟨h1, l, h2, h3⟩ := ih hs (cur := 0) (acc := []) (by omega)
      have hne : splitGo U w 0 [] cs ≠ [] := by intro e; rw [Int.natCast_zero, e] at h2; cases h2
      have el : cur + (c :: cs).length = cs.length + w := by rw [List.length_cons]; omega
      refine ⟨?_, l, ?_, ?_⟩
      · rw [el, Nat.add_div_right _ (by omega), List.length_cons]
        simpa using h1
      · rw [List.getLast?_cons_of_ne_nil hne]; exact h2
      · rw [el, Nat.add_mod_right]
        rw [h3]
        simp only [Nat.zero_add]
        constructor
        · rintro (⟨rfl, _⟩ | ⟨_, h⟩)
          · exact .inr ⟨by simp, by simp⟩
          · exact .inr ⟨by simp, h⟩
        · rintro (⟨h, _⟩ | ⟨_, h⟩)
          · cases h
          · by_cases hcs : cs = []
            · exact .inl ⟨hcs, trivial⟩
            · exact .inr ⟨hcs, h⟩
    · next hlt =>
      obtain ⟨h1, l, h2, h3⟩ := ih hs (cur := cur + 1) (acc := acc ++ [c]) (by omega)
      have el : cur + (c :: cs).length = cur + 1 + cs.length := by rw [List.length_cons]; omega
      have ec : ((cur : Int) + ((1 : Nat) : Int)) = ((cur + 1 : Nat) : Int) := by omega
      rw [el, ec]
      refine ⟨h1, l, h2, ?_⟩
      rw [h3]
      constructor
      · rintro (⟨_, h⟩ | ⟨_, h⟩)
        · simp at h
        · exact .inr ⟨by simp, h⟩
      · rintro (⟨h, _⟩ | ⟨_, h⟩)
        · cases h
        · by_cases hcs : cs = []
          · subst hcs
            have : (cur + 1) % w = cur + 1 := Nat.mod_eq_of_lt (by omega)
            simp [this] at h
          · exact .inr ⟨hcs, h⟩

namespace Term
open Spec.Term

/-- Rows from `y` on are blank, the cursor is at the start of row `y`. -/
theorem Drawn.of_blank {t0 t : Term} {y : Nat} (hw : t.w = t0.w) (hst : t.st = .ground) (hrow : t.row = y) (hcol : t.col = 0)
    (hp : t.pend = false) (hc : ∀ r, y ≤ r → ∀ c, t.cell r c = 32) (ha : ∀ r, r < y → ∀ c, t.cell r c = t0.cell r c) :
    Drawn t0 t y [] 0 :=
  ⟨hw, hst, fun r c _ => by rw [hc _ (Nat.le_add_right ..)]; rfl, ha, .inl ⟨hp, by simp [hrow], by simp [hcol], fun _ => rfl⟩⟩

theorem run_eraseUp {t0 : Term} {y n : Nat} : ∀ {t : Term}, t.w = t0.w → t.st = .ground → t.row = y + n →
    (∀ r, y + n < r → ∀ c, t.cell r c = 32) → (∀ r, r < y → ∀ c, t.cell r c = t0.cell r c) →
    Drawn t0 (t.run (chars ((List.replicate n [Tok.eraseLine, .cr, .up1]).flatten ++ [.eraseLine, .cr]))) y [] 0 := by
  induction n with
  | zero =>
    intro t hw hst hrow hc ha
    have e : chars ((List.replicate 0 [Tok.eraseLine, .cr, .up1]).flatten ++ [.eraseLine, .cr]) = chars [.eraseLine] ++ chars [.cr] := by
      simp [chars]
    rw [e, run_append, run_eraseLine _ hst, run_cr t.eraseLine hst]
    refine .of_blank hw hst hrow rfl rfl (fun r hr c => ?_) (fun r hr c => ?_)
    · show (if r = t.row then 32 else t.cell r c) = 32
      split
      · rfl
      · exact hc r (by omega) c
    · show (if r = t.row then 32 else t.cell r c) = _
      rw [if_neg (by omega), ha r hr]
  | succ n ih =>
    intro t hw hst hrow hc ha
    have e : chars ((List.replicate (n + 1) [Tok.eraseLine, .cr, .up1]).flatten ++ [.eraseLine, .cr]) =
        chars [.eraseLine] ++ (chars [.cr] ++ (chars [.up1] ++
          chars ((List.replicate n [Tok.eraseLine, .cr, .up1]).flatten ++ [.eraseLine, .cr]))) := by
      simp [chars, List.replicate_succ]
    rw [e, run_append, run_append, run_append, run_eraseLine _ hst, run_cr t.eraseLine hst, run_up1 t.eraseLine.home hst]
    refine ih hw hst ?_ (fun r hr c => ?_) (fun r hr c => ?_)
    · show t.row - 1 = y + n
      omega
    · show (if r = t.row then 32 else t.cell r c) = 32
      split
      · rfl
      · exact hc r (by omega) c
    · show (if r = t.row then 32 else t.cell r c) = _
      rw [if_neg (by omega), ha r hr]

/-- Erasing the line from any column of the cursor row. -/
theorem run_clean {t : Term} {y n : Nat} (hst : t.st = .ground) (hrow : t.row = y + n) :
    Drawn t (t.run (chars (Tok.eraseBelow :: ((List.replicate n [Tok.eraseLine, .cr, .up1]).flatten ++ [.eraseLine, .cr])))) y [] 0 := by
  have e : ∀ ts, chars (Tok.eraseBelow :: ts) = chars [.eraseBelow] ++ chars ts := by intro ts; simp [chars]
  rw [e, run_append, run_eraseBelow _ hst]
  refine run_eraseUp (t0 := t) (t := t.eraseBelow) rfl hst hrow (fun r hr c => ?_) (fun r hr c => ?_)
  · show (if t.row < r ∨ (r = t.row ∧ t.col ≤ c) then 32 else t.cell r c) = 32
    rw [if_pos (.inl (by omega))]
  · show (if t.row < r ∨ (r = t.row ∧ t.col ≤ c) then 32 else t.cell r c) = _
    rw [if_neg (by omega)]

end Term

theorem Spec.Coloured.filter {s vis : List Rune} (h : Coloured s vis) : Filtered s (some vis) := by
  induction h with
  | nil => exact .nil
  | @char c s t hc _ ih =>
    have := Filtered.char (c := c) (by have := hc.1; omega) ih
    simpa using this
  | @colour body s t hb _ ih => exact .color (fun hm => by have := hb _ hm; omega) ih

theorem Spec.Coloured.no_tab {s vis : List Rune} (h : Coloured s vis) : (9 : Rune) ∉ s := by
  induction h with
  | nil => simp
  | @char c s t hc _ ih =>
    have := hc.1
    simp only [List.mem_cons, not_or]
    exact ⟨by omega, ih⟩
  | @colour body s t hb _ ih =>
    intro hm
    rw [List.mem_append, List.mem_cons, List.mem_cons, List.mem_cons] at hm
    rcases hm with (h | h | h) | h | h
    · omega
    · omega
    · have := hb _ h; omega
    · omega
    · exact ih h

theorem Spec.Coloured.printable {s vis : List Rune} (h : Coloured s vis) : ∀ c ∈ vis, Printable c := by
  induction h with
  | nil => simp
  | char hc _ ih =>
    intro c h
    rcases List.mem_cons.1 h with rfl | h
    · exact hc
    · exact ih c h
  | colour _ _ ih => exact ih

theorem Spec.Coloured.plain {s : List Rune} (h : ∀ c ∈ s, Printable c) : Coloured s s := by
  induction s with
  | nil => exact .nil
  | cons c cs ih => exact .char (h c (List.mem_cons_self ..)) (ih (fun x hx => h x (List.mem_cons_of_mem _ hx)))

theorem paint_chars (U : UTables) {s : List Rune} (h : (9 : Rune) ∉ s) : Term.chars (s.flatMap (RB.paintTok U)) = s := by
  have : s.flatMap (RB.paintTok U) = s.map Tok.ch := by
    induction s with
    | nil => rfl
    | cons c cs ih =>
      simp only [List.mem_cons, not_or] at h
      rw [List.flatMap_cons, ih h.2, List.map_cons, RB.paintTok, if_neg (fun e => h.1 (by rw [e]; rfl))]
      rfl
  rw [this, Term.chars_ch]

/-- What C17 assumes of the buffer: a terminal of width `w`, a prompt of visible text `vis` shorter than a row, a line of
printable single-cell runes, no mask, a painter that only adds colours, and not Windows (whose console is not this terminal:
see C70). -/
structure Plain (U : UTables) (d : DCfg) (w : Nat) (vis : List Rune) (r : RB) : Prop where
  width : r.width = (w : Int)
  prompt : Coloured r.prompt vis
  pw : vis.length < w
  visS : Singles U vis
  buf : ∀ c ∈ r.buf, Printable c ∧ runeWidth U c = 1
  idx : r.idx ≤ r.buf.length
  mask : d.enableMask = false
  paint : ∃ f, d.painter = some f ∧ ∀ s i, (∀ c ∈ s, Printable c) → Coloured (f s i) s
  unix : d.windows = false

namespace Plain
variable {U : UTables} {d : DCfg} {w : Nat} {vis : List Rune} {r : RB}

theorem promptLen (h : Plain U d w vis r) : r.promptLen U = .ok vis.length := by
  unfold RB.promptLen
  have := colorFilter_of_filtered h.prompt.filter
  cases hc : colorFilter r.prompt with
  | error e => rw [hc] at this; simp [okOpt] at this
  | ok t =>
    rw [hc] at this
    simp only [okOpt, Option.some.injEq] at this
    subst this
    simp [h.visS.widthAll]

theorem bufS (h : Plain U d w vis r) : Singles U r.buf := fun c hc => (h.buf c hc).2

theorem idxLine (h : Plain U d w vis r) : r.idxLine U r.width = .ok (((vis.length + r.idx) / w : Nat) : Int) := by
  unfold RB.idxLine RB.getSplitByLine
  have hw : r.width ≠ 0 := by rw [h.width]; have := h.pw; omega
  rw [if_neg hw, sliceTo_ok h.idx]
  simp only [R.bind_ok, h.promptLen]
  have hs : Singles U (r.buf.take r.idx) := fun c hc => h.bufS c (List.mem_of_mem_take hc)
  have := (splitGo_singles hs (acc := []) h.pw).1
  rw [h.width, splitByLine, this, List.length_take, Nat.min_eq_left h.idx]
  congr 1
  omega

theorem edge (h : Plain U d w vis r) :
    r.isInLineEdge U d.windows = .ok (decide (r.buf = [] ∨ (vis.length + r.buf.length) % w = 0)) := by
  rw [h.unix]
  unfold RB.isInLineEdge RB.getSplitByLine
  rw [if_neg Bool.false_ne_true]
  simp only [R.bind_ok, h.promptLen]
  obtain ⟨_, l, h2, h3⟩ := splitGo_singles h.bufS (acc := []) h.pw
  rw [h.width, splitByLine, h2]
  simp only [Except.ok.injEq]
  rw [Bool.eq_iff_iff]
  simp only [beq_iff_eq, List.length_eq_zero_iff, decide_eq_true_eq]
  rw [h3]
  constructor
  · rintro (h | h)
    · exact .inl h.1
    · exact .inr h.2
  · rintro (h | h)
    · exact .inl ⟨h, rfl⟩
    · by_cases hb : r.buf = []
      · exact .inl ⟨hb, rfl⟩
      · exact .inr ⟨hb, h⟩

/-- The single case in which the cursor is put in the wrong place: nothing but a prompt that leaves one column. -/
def Corner (w : Nat) (vis : List Rune) (r : RB) : Prop := r.buf = [] ∧ vis.length + 1 = w ∧ w ≠ 1

/-- The tokens of a redraw. -/
theorem output_eq (h : Plain U d w vis r) {f} (hf : d.painter = some f) {ts : List Tok} (ho : r.output U d = .ok ts) :
    ∃ bs, ts = r.prompt.map Tok.ch ++ ((f r.buf r.idx).flatMap (RB.paintTok U) ++
        ((if r.buf = [] ∨ (vis.length + r.buf.length) % w = 0 then [.ch 32, .bs] else []) ++ bs)) ∧
      (r.idx < r.buf.length → r.getBackspaceSequence U = .ok bs) ∧ (¬ r.idx < r.buf.length → bs = []) := by
  unfold RB.output at ho
  simp only [h.mask, Bool.false_eq_true, false_and, if_false, hf, h.edge, R.bind_ok] at ho
  by_cases he : (r.buf = [] ∨ (vis.length + r.buf.length) % w = 0) <;> by_cases hi : r.buf.length > r.idx
  all_goals
    simp only [he, hi, decide_true, decide_false, Bool.false_eq_true, if_true, if_false] at ho
  · obtain ⟨b, hb, ho⟩ := R.bind_inv ho
    cases ho
    exact ⟨b, by rw [if_pos he]; simp, fun _ => hb, fun h => absurd hi h⟩
  · cases ho
    exact ⟨[], by rw [if_pos he]; simp, fun h => absurd h hi, fun _ => rfl⟩
  · obtain ⟨b, hb, ho⟩ := R.bind_inv ho
    cases ho
    exact ⟨b, by rw [if_neg he]; simp, fun _ => hb, fun h => absurd hi h⟩
  · cases ho
    exact ⟨[], by rw [if_neg he]; simp, fun h => absurd h hi, fun _ => rfl⟩

open Term Spec.Term in
theorem put_back {t : Term} (hw : 0 < t.w) {y k : Nat} (h : At t y k) :
    ((t.put 32).back).row = y + k / t.w ∧ ((k % t.w + 1 < t.w ∨ t.w = 1) → ((t.put 32).back).col = k % t.w) := by
  obtain ⟨h1, h2, h3, h4, h5, h6⟩ := wrap_at h
  have hk := Nat.mod_lt k hw
  constructor
  · show (t.put 32).row = _
    unfold put store
    dsimp only
    split <;> exact h1
  · intro hc
    show (t.put 32).col - 1 = _
    unfold put store
    dsimp only
    rw [h2, h6]
    split
    · rfl
    · rename_i hn
      show k % t.w - 1 = k % t.w
      omega

open Term Spec.Term in
/-- The characters of a redraw on a blank area. -/
theorem drawn (h : Plain U d w vis r) {ts : List Tok} (ho : r.output U d = .ok ts) {t0 t : Term} (hw : t0.w = w) {y : Nat}
    (ht : Drawn t0 t y [] 0) :
    (t.run (chars ts)).w = w ∧ (t.run (chars ts)).st = .ground ∧ (t.run (chars ts)).row = y + (vis.length + r.idx) / w ∧
    (∀ a, a < y → ∀ c, (t.run (chars ts)).cell a c = t0.cell a c) ∧
    (∀ a c, c < w → (t.run (chars ts)).cell (y + a) c = (vis ++ r.buf).getD (a * w + c) 32) ∧
    (¬ Corner w vis r → (t.run (chars ts)).Shows y (vis ++ r.buf) (vis.length + r.idx)) := by
  have hw0 : 0 < t0.w := by rw [hw]; have := h.pw; omega
  obtain ⟨f, hf, hcol⟩ := h.paint
  have hcol := hcol r.buf r.idx (fun c hc => (h.buf c hc).1)
  -- the text
  have d1 := run_coloured h.prompt hw0 (text := []) (by simpa using ht)
  simp only [List.nil_append] at d1
  have d2 := run_coloured hcol hw0 d1
  obtain ⟨bs, ets, hb1, hb2⟩ := h.output_eq hf ho
  have hlen : (vis ++ r.buf).length = vis.length + r.buf.length := List.length_append ..
  rw [ets, chars_append, run_append, chars_ch, chars_append, run_append, paint_chars U hcol.no_tab, chars_append, run_append]
  generalize hk : vis.length + r.buf.length = k at *
  rw [hlen] at d2
  generalize (t.run r.prompt).run (f r.buf r.idx) = t2 at d2
  have hw2 : t2.w = w := d2.w.trans hw
  -- the blank at the edge
  have key : ∃ t3, t2.run (chars (if r.buf = [] ∨ k % w = 0 then [.ch 32, .bs] else [])) = t3 ∧ t3.w = w ∧ t3.st = .ground ∧
      t3.row = y + k / w ∧ t3.pend = false ∧ (¬ Corner w vis r → t3.col = k % w) ∧
      (∀ a, a < y → ∀ c, t3.cell a c = t0.cell a c) ∧
      (∀ a c, c < w → t3.cell (y + a) c = (vis ++ r.buf).getD (a * w + c) 32) := by
    by_cases he : r.buf = [] ∨ k % w = 0
    · have d3 := Drawn.put_blank hw0 (by rw [hlen]; exact d2)
      have hpb := put_back (t := t2) (by rw [hw2, ← hw]; exact hw0) d2.at'
      have e : t2.run (chars (if r.buf = [] ∨ k % w = 0 then [.ch 32, .bs] else [])) = (t2.put 32).back := by
        rw [if_pos he]
        have : chars [.ch 32, .bs] = [32] ++ chars [.bs] := rfl
        rw [this, run_append]
        have : t2.run [32] = t2.put 32 := Printable.feed ⟨by omega, by omega, by omega⟩ d2.st
        rw [this, run_bs _ d3.st]
      have hw3 : (t2.put 32).w = w := d3.w.trans hw
      refine ⟨_, e, hw3, d3.st, by rw [hpb.1, hw2], rfl, fun hc => ?_, d3.above, fun a c hc => ?_⟩
      · rw [hpb.2, hw2]
        rw [hw2]
        have hpw := h.pw
        rcases he with he | he
        · have hkp : k = vis.length := by rw [← hk, he]; rfl
          rw [hkp, Nat.mod_eq_of_lt hpw]
          unfold Corner at hc
          by_cases h1 : vis.length + 1 = w
          · exact .inr (Classical.byContradiction fun h2 => hc ⟨he, h1, h2⟩)
          · exact .inl (by omega)
        · rw [he]; omega
      · have := d3.cells a c (by rw [hw3]; exact hc)
        rw [hw3] at this
        exact this
    · refine ⟨_, rfl, ?_⟩
      rw [if_neg he]
      have hat := d2.at'
      rw [Term.At, hw2] at hat
      rcases hat with ⟨h1, h2, h3, _⟩ | ⟨_, _, h2, _⟩
      · refine ⟨hw2, d2.st, h2, h1, fun _ => h3, d2.above, fun a c hc => ?_⟩
        have := d2.cells a c (by rw [hw2]; exact hc)
        rw [hw2] at this
        exact this
      · exact absurd (.inr h2) he
  obtain ⟨t3, e3, k1, k2, k3, k4, k5, k6, k7⟩ := key
  rw [e3]
  -- back to the cursor
  by_cases hi : r.idx < r.buf.length
  · have hnc : ¬ Corner w vis r := by rintro ⟨hb, _⟩; rw [hb] at hi; cases hi
    have hon : On t3 y k := ⟨by rw [k1]; exact k3, by rw [k1]; exact k5 hnc, k4, k2⟩
    have hb := hb1 hi
    unfold RB.getBackspaceSequence at hb
    simp only [h.bufS.widthAll] at hb
    rw [if_neg (by omega)] at hb
    simp only [h.promptLen, R.bind_ok, h.width] at hb
    obtain ⟨sep, hsep, hb⟩ := R.bind_inv hb
    cases hb
    have hbr := RB.sepLoop_breaks h.pw hsep
    have hon' : On t3 y (vis.length + r.idx + (r.buf.length - r.idx)) := by
      rw [show vis.length + r.idx + (r.buf.length - r.idx) = k by omega]; exact hon
    obtain ⟨g1, g2⟩ := run_bsLoop (sep := sep) (by rw [k1, ← hw]; exact hw0) hon' (fun i hi0 hi1 => by
      rw [k1]; exact hbr i hi0 (by omega))
    rw [k1] at g1 g2
    have hw4 := g2.w.trans k1
    refine ⟨hw4, g1.st, by rw [g1.row, hw4], fun a ha c => by rw [g2.cell]; exact k6 a ha c,
      fun a c hc => by rw [g2.cell]; exact k7 a c hc, fun _ => ⟨fun a c hc => ?_, g1.row, g1.col, g1.pend, g1.st⟩⟩
    rw [g2.cell, hw4]
    rw [hw4] at hc
    exact k7 a c hc
  · rw [hb2 hi]
    have : vis.length + r.idx = k := by have := h.idx; omega
    rw [this]
    refine ⟨k1, k2, k3, k6, k7, fun hc => ⟨fun a c hc => ?_, by rw [show t3.run (chars []) = t3 from rfl, k1]; exact k3,
      by rw [show t3.run (chars []) = t3 from rfl, k1]; exact k5 hc, k4, k2⟩⟩
    have e : t3.run (chars []) = t3 := rfl
    rw [e, k1] at hc ⊢
    exact k7 a c hc

end Plain

end RL

namespace RL

/-! ### End of the line -/

/-- A line break at the end is in the last piece. -/
theorem splitGo_break {U : UTables} {w : Int} (hw : 0 < w) {rs : List Rune} {b : Rune} (hb : runeWidth U b = 0) : ∀ {cur : Int} {acc : List Rune},
    cur < w → ∃ l, (splitGo U w cur acc (rs ++ [b])).getLast? = some l ∧ l ≠ [] := by
  induction rs with
  | nil =>
    intro cur acc hc
    refine ⟨acc ++ [b], ?_, by simp⟩
    simp only [List.nil_append, splitGo, hb]
    rw [if_neg (by omega)]
    rfl
  | cons c cs ih =>
    intro cur acc hc
    rw [List.cons_append]
    unfold splitGo
    dsimp only
    split
    · obtain ⟨l, h1, h2⟩ := ih (cur := 0) (acc := []) hw
      have hne : splitGo U w 0 [] (cs ++ [b]) ≠ [] := by intro e; rw [e] at h1; cases h1
      exact ⟨l, by rw [List.getLast?_cons_of_ne_nil hne]; exact h1, h2⟩
    · next hlt => exact ih (by omega)

open Term Spec.Term in
/-- A line break after the text. -/
theorem Term.Drawn.newline {t0 t : Spec.Term} (hw : 0 < t0.w) {y : Nat} {text : List Rune} (h : Drawn t0 t y text text.length) :
    (t.feed 10).w = t0.w ∧ (t.feed 10).st = .ground ∧ (t.feed 10).row = y + (text.length - 1) / t0.w + 1 ∧ (t.feed 10).col = 0 ∧
    (t.feed 10).pend = false ∧ (∀ a, a < y → ∀ c, (t.feed 10).cell a c = t0.cell a c) ∧
    (∀ a c, c < t0.w → (t.feed 10).cell (y + a) c = text.getD (a * t0.w + c) 32) := by
  have e : t.feed 10 = t.newline := by simp [Spec.Term.feed, h.st]
  rw [e]
  refine ⟨h.w, h.st, ?_, rfl, rfl, h.above, fun a c hc => ?_⟩
  · have ha := h.at'
    rw [At, h.w] at ha
    show t.row + 1 = _
    generalize text.length = k at ha
    rcases ha with ⟨_, h2, _, h4⟩ | ⟨_, h0, h2, h3, _⟩
    · rw [h2]
      congr 2
      by_cases h0 : k = 0
      · subst h0; rfl
      · have hne : k % t0.w ≠ 0 := fun e => h0 (h4 e)
        have hlt := Nat.mod_lt (k - 1) hw
        by_cases hh : (k - 1) % t0.w + 1 < t0.w
        · have := (succ_nowrap hh).1
          rw [show k - 1 + 1 = k by omega] at this
          exact this
        · have := (succ_wrap (w := t0.w) (k := k - 1) (by omega)).2
          rw [show k - 1 + 1 = k by omega] at this
          exact absurd this hne
    · have hlt := Nat.mod_lt (k - 1) hw
      by_cases hh : (k - 1) % t0.w + 1 < t0.w
      · have := (succ_nowrap hh).2
        rw [show k - 1 + 1 = k by omega] at this
        omega
      · have := (succ_wrap (w := t0.w) (k := k - 1) (by omega)).1
        rw [show k - 1 + 1 = k by omega] at this
        rw [h3, this]; rfl
  · have := h.cells a c (by rw [h.w]; exact hc)
    rw [h.w] at this
    exact this

end RL

namespace RL
open Ed

/-! ### The runes of the line -/

theorem mem_sliceTo {l x : List Rune} {i} (h : sliceTo l i = .ok x) : ∀ c ∈ x, c ∈ l := by
  unfold sliceTo at h
  split at h
  · cases h; exact fun c hc => List.mem_of_mem_take hc
  · cases h

theorem mem_sliceFrom {l x : List Rune} {i} (h : sliceFrom l i = .ok x) : ∀ c ∈ x, c ∈ l := by
  unfold sliceFrom at h
  split at h
  · cases h; exact fun c hc => List.mem_of_mem_drop hc
  · cases h

theorem mem_slice {l x : List Rune} {i j} (h : slice l i j = .ok x) : ∀ c ∈ x, c ∈ l := by
  unfold slice at h
  split at h
  · cases h; exact fun c hc => List.mem_of_mem_take (List.mem_of_mem_drop hc)
  · cases h

theorem mem_getR {l : List Rune} {i} {a : Rune} (h : getR l i = .ok a) : a ∈ l := by
  unfold getR at h
  split at h
  · next ha => cases h; exact List.mem_of_getElem? ha
  · cases h

/-- All runes of the line, of the cut buffer and of the backup have the property. -/
structure Ed.AllP (P : Rune → Prop) (e : Ed) : Prop where
  buf : ∀ c ∈ e.buf, P c
  kill : ∀ c ∈ e.lastKill, P c
  bck : ∀ b i, e.bck = some (b, i) → ∀ c ∈ b, P c

/-- The runes a command brings in. -/
def Cmd.runes : Cmd → List Rune
  | .insert s => s
  | .set s => s
  | .replace c => [c]
  | _ => []

theorem core_all {P : Rune → Prop} {c : Cmd} {e e' : Ed} (h : c.core e = .ok e') (hi : e.CursorIn) (ha : e.AllP P) (hc : ∀ x ∈ c.runes, P x) :
    e'.AllP P := by
  have hb := ha.buf
  cases c <;> simp only [Cmd.core] at h
  case insert s =>
    obtain ⟨a, h1, h⟩ := R.bind_inv h
    obtain ⟨b, h2, h⟩ := R.bind_inv h
    cases h
    refine ⟨fun x hx => ?_, ha.kill, ha.bck⟩
    rw [List.mem_append, List.mem_append] at hx
    rcases hx with hx | hx | hx
    · exact hb _ (mem_sliceTo h2 _ hx)
    · exact hc _ hx
    · exact hb _ (mem_sliceFrom h1 _ hx)
  case backspace =>
    unfold backspaceC at h
    split at h
    · cases h; exact ha
    · obtain ⟨a, h1, h⟩ := R.bind_inv h
      obtain ⟨b, h2, h⟩ := R.bind_inv h
      cases h
      refine ⟨fun x hx => ?_, ha.kill, ha.bck⟩
      rw [List.mem_append] at hx
      rcases hx with hx | hx
      · exact hb _ (mem_sliceTo h1 _ hx)
      · exact hb _ (mem_sliceFrom h2 _ hx)
  case delete =>
    obtain ⟨q, h⟩ := map_snd_ok h
    unfold deleteC at h
    split at h
    · cases h; exact ha
    · obtain ⟨a, h1, h⟩ := R.bind_inv h
      obtain ⟨b, h2, h⟩ := R.bind_inv h
      obtain ⟨b, h3, h⟩ := R.bind_inv h
      cases h
      refine ⟨fun x hx => ?_, fun x hx => hb _ (mem_slice h1 _ hx), ha.bck⟩
      rw [List.mem_append] at hx
      rcases hx with hx | hx
      · exact hb _ (mem_sliceTo h2 _ hx)
      · exact hb _ (mem_sliceFrom h3 _ hx)
  case left => unfold moveBackwardC at h; split at h <;> cases h <;> exact ⟨hb, ha.kill, ha.bck⟩
  case right => unfold moveForwardC at h; split at h <;> cases h <;> exact ⟨hb, ha.kill, ha.bck⟩
  case home => cases h; exact ⟨hb, ha.kill, ha.bck⟩
  case toEnd => cases h; exact ⟨hb, ha.kill, ha.bck⟩
  case kill =>
    obtain ⟨a, h1, h⟩ := R.bind_inv h
    obtain ⟨b, h2, h⟩ := R.bind_inv h
    cases h
    exact ⟨fun x hx => hb _ (mem_sliceTo h2 _ hx), fun x hx => hb _ (mem_sliceFrom h1 _ hx), ha.bck⟩
  case killFront =>
    unfold killFrontC at h
    split at h
    · cases h; exact ha
    · obtain ⟨a, h1, h⟩ := R.bind_inv h
      obtain ⟨b, h2, h⟩ := R.bind_inv h
      cases h
      exact ⟨fun x hx => hb _ (mem_sliceFrom h2 _ hx), fun x hx => hb _ (mem_sliceTo h1 _ hx), ha.bck⟩
  case erase => cases h; exact ⟨by simp [Ed.pushKill], hb, ha.bck⟩
  case yank =>
    split at h
    · cases h; exact ha
    · obtain ⟨a, h1, h⟩ := R.bind_inv h
      obtain ⟨b, h2, h⟩ := R.bind_inv h
      cases h
      refine ⟨fun x hx => ?_, ha.kill, ha.bck⟩
      rw [List.mem_append, List.mem_append] at hx
      rcases hx with (hx | hx) | hx
      · exact hb _ (mem_sliceTo h1 _ hx)
      · exact ha.kill _ hx
      · exact hb _ (mem_sliceFrom h2 _ hx)
  case deleteWord =>
    split at h
    · cases h; exact ha
    · split at h
      · obtain ⟨k, h0, h⟩ := R.bind_inv h
        obtain ⟨a, h1, h⟩ := R.bind_inv h
        obtain ⟨b, h2, h⟩ := R.bind_inv h
        cases h
        refine ⟨fun x hx => ?_, fun x hx => hb _ (mem_slice h0 _ hx), ha.bck⟩
        rw [List.mem_append] at hx
        rcases hx with hx | hx
        · exact hb _ (mem_sliceTo h1 _ hx)
        · exact hb _ (mem_sliceFrom h2 _ hx)
      · obtain ⟨a, h1, h⟩ := R.bind_inv h
        obtain ⟨b, h2, h⟩ := R.bind_inv h
        cases h
        exact ⟨fun x hx => hb _ (mem_sliceTo h2 _ hx), fun x hx => hb _ (mem_sliceFrom h1 _ hx), ha.bck⟩
  case backEscapeWord =>
    unfold backEscapeWordC at h
    split at h
    · cases h; exact ha
    · obtain ⟨m, h0, h⟩ := R.bind_inv h
      split at h
      · obtain ⟨k, h0, h⟩ := R.bind_inv h
        obtain ⟨a, h1, h⟩ := R.bind_inv h
        obtain ⟨b, h2, h⟩ := R.bind_inv h
        cases h
        refine ⟨fun x hx => ?_, fun x hx => hb _ (mem_slice h0 _ hx), ha.bck⟩
        rw [List.mem_append] at hx
        rcases hx with hx | hx
        · exact hb _ (mem_sliceTo h1 _ hx)
        · exact hb _ (mem_sliceFrom h2 _ hx)
      · cases h; exact ⟨by simp, ha.kill, ha.bck⟩
  case prevWord =>
    unfold moveToPrevWordC at h
    split at h
    · cases h; exact ha
    · obtain ⟨m, h0, h⟩ := R.bind_inv h
      split at h <;> cases h <;> exact ⟨hb, ha.kill, ha.bck⟩
  case nextWord => unfold moveToNextWordC at h; split at h <;> cases h <;> exact ⟨hb, ha.kill, ha.bck⟩
  case endWord =>
    unfold moveToEndWordC at h
    split at h
    · cases h; exact ha
    · obtain ⟨a, h0, h⟩ := R.bind_inv h
      dsimp only at h
      have key : ∀ n, (match scanUp (wordEndAt e.buf) (n + 1) (e.buf.length - (n + 1)) with
          | some i => Except.ok { e with idx := i - 1 }
          | none => Except.ok { e with idx := e.buf.length } : R Ed) = .ok e' → e'.AllP P := by
        intro n h
        split at h <;> cases h <;> exact ⟨hb, ha.kill, ha.bck⟩
      split at h
      · obtain ⟨b, h1, h⟩ := R.bind_inv h
        split at h
        · exact key _ h
        · exact key _ h
      · exact key _ h
  case transpose =>
    by_cases hl : 2 ≤ e.buf.length
    · obtain ⟨pre, a, b, post, h1, h2, _⟩ := core_transpose_long hi hl
      simp only [Cmd.core] at h2
      rw [h2] at h
      cases h
      refine ⟨fun x hx => hb x ?_, ha.kill, ha.bck⟩
      rw [h1]
      simp only [List.mem_append, List.mem_cons] at hx ⊢
      rcases hx with h | h | h | h <;> simp [h]
    · have h2 := core_transpose_short (e := e) (by omega)
      simp only [Cmd.core] at h2
      rw [h2] at h
      cases h
      exact ⟨hb, ha.kill, ha.bck⟩
  case replace c =>
    unfold replaceC at h
    split at h
    · cases h
      refine ⟨fun x hx => ?_, ha.kill, ha.bck⟩
      rcases List.mem_or_eq_of_mem_set hx with hx | rfl
      · exact hb _ hx
      · exact hc _ (by simp [Cmd.runes])
    · cases h
  case moveTo c p b =>
    obtain ⟨q, h⟩ := map_snd_ok h
    unfold moveToC at h
    split at h
    · obtain ⟨m, h0, h⟩ := R.bind_inv h
      split at h <;> cases h <;> exact ⟨hb, ha.kill, ha.bck⟩
    · split at h <;> cases h <;> exact ⟨hb, ha.kill, ha.bck⟩
  case set s => cases h; exact ⟨hc, ha.kill, ha.bck⟩
  case backup => cases h; exact ⟨hb, ha.kill, fun b i h => by cases h; exact hb⟩
  case restore =>
    unfold restoreC at h
    split at h
    · cases h; exact ha
    · next b i hbk => cases h; exact ⟨ha.bck _ _ hbk, ha.kill, ha.bck⟩

end RL
