import Verif.Proofs.Listing
import Verif.Props.Screen
/-! # C68: the list of candidates on the screen -/

namespace RL
open Spec Term Spec.Term RB

variable {U : UTables} {d : DCfg}

/-- The common text of the candidates: the `off` runes in front of the cursor. -/
def Comp.shared (c : Comp) (r : RB) : List Rune := (r.buf.take r.idx).drop (r.idx - c.off.toNat)

theorem repeat_blank {n : Int} (h : 0 ≤ n) : repeatR [Tok.ch 32] n = .ok ((List.replicate n.toNat (32 : Rune)).map Tok.ch) := by
  unfold repeatR
  rw [if_neg (by omega)]
  simp

theorem coloured_append {a b x y : List Rune} (h : Coloured a x) (h' : Coloured b y) : Coloured (a ++ b) (x ++ y) := by
  induction h with
  | nil => exact h'
  | char hc _ ih => exact .char hc ih
  | @colour body s t hb _ ih =>
    rw [List.append_assoc, List.cons_append]
    exact .colour hb ih

theorem coloured_sgr {body : List Rune} (h : ∀ c ∈ body, 48 ≤ c ∧ c < 64) : Coloured (chars [Tok.sgr body]) [] := by
  have := Coloured.colour h .nil
  simpa [chars, Tok.render] using this

/-- One item of the list. -/
theorem item_coloured {same c : List Rune} (hs : ∀ x ∈ same, Printable x) (hc : ∀ x ∈ c, Printable x) (b : Bool) (n : Nat) :
    Coloured (chars ((if b = true then [Tok.sgr (str "30;47")] else []) ++ same.map Tok.ch ++ c.map Tok.ch ++
      (List.replicate n (32 : Rune)).map Tok.ch ++ (if b = true then [Tok.sgr (str "0")] else []))) (same ++ c ++ List.replicate n 32) := by
  have e : Coloured (same ++ c ++ List.replicate n 32) (same ++ c ++ List.replicate n 32) := by
    refine .plain (fun x hx => ?_)
    rcases List.mem_append.1 hx with h | h
    · rcases List.mem_append.1 h with h | h
      · exact hs x h
      · exact hc x h
    · rw [List.eq_of_mem_replicate h]; unfold Printable; decide
  simp only [chars_append, chars_ch]
  cases b
  · simpa [chars] using e
  · have := coloured_append (coloured_append (coloured_sgr (body := str "30;47") (by decide)) e) (coloured_sgr (body := str "0") (by decide))
    simpa using this

/-- The loop over the candidates. -/
theorem menu_listed {same : List Rune} (hs : ∀ x ∈ same, Cell U x) {y k cw : Nat} (hk : 0 < k) (hcw : 0 < cw) (hl : Int → Bool)
    {t0 : Spec.Term} (hw : k * cw < t0.w) : ∀ (cs : List (List Rune)) {done : List (List Rune)} {t : Spec.Term} {m : List Tok} {l : Int},
    (∀ c ∈ cs, (∀ x ∈ c, Cell U x) ∧ same.length + c.length ≤ cw) → Listed t0 t y k cw done →
    Comp.menu U same cw k hl cs done.length ((done.length % k : Nat) : Int) ((1 + done.length / k : Nat) : Int) = .ok (m, l) →
    Listed t0 (t.run (chars m)) y k cw (done ++ cs.map (fun c => (same ++ c) ++ List.replicate (cw - (same ++ c).length) 32)) ∧
      l = ((1 + (done.length + cs.length) / k : Nat) : Int)
  | [], done, t, m, l, _, h, hm => by
    simp only [Comp.menu, Except.ok.injEq, Prod.mk.injEq] at hm
    obtain ⟨rfl, rfl⟩ := hm
    simpa [chars, Spec.Term.run] using h
  | c :: cs, done, t, m, l, hc, h, hm => by
    obtain ⟨h1, h2⟩ := hc c (List.mem_cons_self ..)
    have hsw : widthAll U same = same.length := Singles.widthAll (fun x hx => (hs x hx).2)
    have hcw' : widthAll U c = c.length := Singles.widthAll (fun x hx => (h1 x hx).2)
    unfold Comp.menu at hm
    rw [hsw, hcw', repeat_blank (by omega), R.bind_ok] at hm
    dsimp only at hm
    have hpad : ((cw : Int) - c.length - same.length).toNat = cw - (same ++ c).length := by rw [List.length_append]; omega
    rw [hpad] at hm
    have hit := item_coloured (fun x hx => (hs x hx).1) (fun x hx => (h1 x hx).1) (hl done.length) (cw - (same ++ c).length)
    generalize hitem : (if hl done.length = true then [Tok.sgr (str "30;47")] else []) ++ same.map Tok.ch ++ c.map Tok.ch ++
      (List.replicate (cw - (same ++ c).length) (32 : Rune)).map Tok.ch ++ (if hl done.length = true then [Tok.sgr (str "0")] else []) = item at hit hm
    have hnext := h.item hk hcw hw hit (by simp only [List.length_append, List.length_replicate] at *; omega)
    have hlen : (done ++ [same ++ c ++ List.replicate (cw - (same ++ c).length) 32]).length = done.length + 1 := by simp
    have hm0 := Nat.mod_lt done.length hk
    have hrec := fun {t m l} => menu_listed hs hk hcw hl hw cs (done := done ++ [same ++ c ++ List.replicate (cw - (same ++ c).length) 32])
      (t := t) (m := m) (l := l) (y := y) (fun c' h' => hc c' (List.mem_cons_of_mem _ h'))
    rw [hlen] at hrec
    by_cases hend : done.length % k + 1 = k
    · obtain ⟨e1, e2⟩ := succ_wrap hend
      rw [if_pos (by omega)] at hm
      obtain ⟨⟨rest, l'⟩, hr, hm⟩ := R.bind_inv hm
      cases hm
      rw [if_pos e2] at hnext
      obtain ⟨g1, g2⟩ := hrec hnext (by rw [e1, e2, ← hr]; congr 1)
      rw [chars_append, chars_append, Term.run_append, Term.run_append, show chars [Tok.ch 10] = [10] from rfl]
      refine ⟨by simpa using g1, ?_⟩
      rw [g2, List.length_cons, show done.length + 1 + cs.length = done.length + (cs.length + 1) by omega]
    · obtain ⟨e1, e2⟩ := succ_nowrap (w := k) (k := done.length) (by omega)
      rw [if_neg (by omega)] at hm
      obtain ⟨⟨rest, l'⟩, hr, hm⟩ := R.bind_inv hm
      cases hm
      rw [if_neg (by omega)] at hnext
      obtain ⟨g1, g2⟩ := hrec hnext (by rw [e1, e2, ← hr]; congr 1)
      rw [chars_append, Term.run_append]
      refine ⟨by simpa using g1, ?_⟩
      rw [g2, List.length_cons, show done.length + 1 + cs.length = done.length + (cs.length + 1) by omega]

/-- What is assumed of the completion state: the list is open, made for this screen, and its candidates consist of printable
single-cell runes. -/
structure Comp.Printed (U : UTables) (c : Comp) (w : Nat) (r : RB) : Prop where
  inComplete : c.inComplete = true
  width : c.width = (w : Int)
  off : 0 ≤ c.off
  le : c.off ≤ r.idx
  cells : ∀ x ∈ c.candidate, ∀ a ∈ x, Cell U a
  cands : c.candidate ≠ []
  fit : ∀ x ∈ c.candidate, (c.shared r).length + x.length + 1 < w

theorem maxWidth_mem (U : UTables) (cs : List (List Rune)) (m : Nat) :
    Comp.maxWidth U cs m = m ∨ ∃ c ∈ cs, Comp.maxWidth U cs m = widthAll U c := by
  induction cs generalizing m with
  | nil => exact .inl rfl
  | cons c cs ih =>
    simp only [Comp.maxWidth]
    rcases ih (if widthAll U c > m then widthAll U c else m) with h | ⟨x, hx, h⟩
    · rw [h]
      split
      · exact .inr ⟨c, List.mem_cons_self .., rfl⟩
      · exact .inl rfl
    · exact .inr ⟨x, List.mem_cons_of_mem _ hx, h⟩

theorem maxWidth_attained (U : UTables) {cs : List (List Rune)} (h : cs ≠ []) : ∃ c ∈ cs, Comp.maxWidth U cs 0 = widthAll U c := by
  rcases maxWidth_mem U cs 0 with h0 | h0
  · cases cs with
    | nil => exact absurd rfl h
    | cons c cs =>
      have := (Comp.le_maxWidth U (c :: cs) 0).2 c (List.mem_cons_self ..)
      exact ⟨c, List.mem_cons_self .., by omega⟩
  · exact h0

/-- The rows from the cursor to the end of the text. -/
theorem Plain.cursorLineCount {w : Nat} {vis : List Rune} {r : RB} (hp : Plain U d w vis r) :
    r.cursorLineCount U = .ok ((rows w (vis.length + r.buf.length) - (vis.length + r.idx) / w : Nat) : Int) := by
  have hi := hp.idx
  have hpw := hp.pw
  unfold RB.cursorLineCount RB.lineCount
  rw [hp.idxLine]
  simp only [hp.promptLen, R.bind_ok]
  have hww : ¬ r.width = -1 := by rw [hp.width]; omega
  have h0 : (w : Int) ≠ 0 := by omega
  rw [if_neg hww, hp.bufS.widthAll, hp.width]
  unfold RL.lineCount divR modR
  rw [if_neg h0, if_neg h0]
  simp only [R.bind_ok]
  rw [show ((r.buf.length : Int) + vis.length) = ((vis.length + r.buf.length : Nat) : Int) by omega]
  rw [← Int.ofNat_tdiv, ← Int.ofNat_tmod]
  have hdm : (vis.length + r.idx) / w ≤ (vis.length + r.buf.length) / w := Nat.div_le_div_right (by omega)
  unfold rows
  split
  · rename_i hne
    rw [if_neg (by omega), R.bind_ok]
    congr 1; omega
  · rename_i hne
    rw [if_pos (by omega), R.bind_ok]
    congr 1; omega

/-- What is written. -/
theorem completeRefresh_eq {w : Nat} {vis : List Rune} {r : RB} (hp : Plain U d w vis r) (hr : r.toEd.AllP (Cell U)) {c : Comp}
    (hc : c.Printed U w r) :
    ∃ k cw m l, 0 < k ∧ k * cw < w ∧ (∀ x ∈ c.candidate, (c.shared r).length + x.length < cw) ∧
      (∃ x ∈ c.candidate, w ≤ (k + 1) * ((c.shared r).length + x.length + 1)) ∧
      Comp.menu U (c.shared r) (cw : Nat) (k : Nat) (fun i => i == c.choise && c.inSelect) c.candidate 0 0 1 = .ok (m, l) ∧
      c.completeRefresh U r = .ok ({ c with colNum := (k : Int) },
        r.write (List.replicate (rows w (vis.length + r.buf.length) - (vis.length + r.idx) / w) (Tok.ch 10) ++ [.eraseBelow] ++ m ++
          [.up ((rows w (vis.length + r.buf.length) - (vis.length + r.idx) / w : Nat) - 1 + l), .cr, .right (r.idx + vis.length)])) := by
  obtain ⟨o, ho⟩ := Int.eq_ofNat_of_zero_le hc.off
  have hi := hp.idx
  have hpw := hp.pw
  have hle := hc.le
  have hsl : r.runeSlice (-c.off) = .ok (c.shared r) := by
    unfold RB.runeSlice Comp.shared
    rw [if_neg (by omega), if_neg (by omega), slice_ok (by omega) hi]
    congr 2
    omega
  have hshl : (c.shared r).length = o := by
    unfold Comp.shared
    rw [List.length_drop, List.length_take]; omega
  have hlw : ∀ x ∈ c.candidate, widthAll U x = x.length := fun x hx => Singles.widthAll (fun a ha => (hc.cells x hx a ha).2)
  obtain ⟨x0, hx0, hmx⟩ := maxWidth_attained U hc.cands
  rw [hlw x0 hx0] at hmx
  have hmax : ∀ x ∈ c.candidate, x.length ≤ x0.length := fun x hx => by
    have := (Comp.le_maxWidth U c.candidate 0).2 x hx
    rw [hlw x hx, hmx] at this; exact this
  have hfit := hc.fit x0 hx0
  rw [hshl] at hfit
  -- the columns
  generalize hCW : x0.length + (o + 1) = CW
  have hCW0 : 0 < CW := by omega
  generalize hk : (w - 1) / CW = k
  have hk0 : 0 < k := by rw [← hk]; exact (Nat.le_div_iff_mul_le hCW0).2 (by omega)
  have hkm : CW * k ≤ w - 1 := by rw [← hk]; exact Nat.mul_div_le ..
  generalize he : (w - 1 - CW * k) / k = e
  have hem : k * e ≤ w - 1 - CW * k := by rw [← he]; exact Nat.mul_div_le ..
  have hcw : k * (CW + e) < w := by rw [Nat.mul_add, Nat.mul_comm k CW]; omega
  have hfits : ∀ x ∈ c.candidate, (c.shared r).length + x.length < CW + e := fun x hx => by
    have := hmax x hx
    rw [hshl]; omega
  have hss : ∀ x ∈ c.shared r, Cell U x := fun x hx => hr.buf x (List.mem_of_mem_take (List.mem_of_mem_drop hx))
  obtain ⟨m, l, hm⟩ := Comp.menu_total U (c.shared r) ((CW + e : Nat) : Int) (k : Nat) (fun i => i == c.choise && c.inSelect) c.candidate (by
    intro x hx
    have := hfits x hx
    rw [hlw x hx, Singles.widthAll (fun x hx => (hss x hx).2)]
    omega) 0 0 1
  have hmore : w ≤ (k + 1) * ((c.shared r).length + x0.length + 1) := by
    have := Nat.lt_div_mul_add (a := w - 1) hCW0
    rw [hk] at this
    rw [hshl, show o + x0.length + 1 = CW by omega, Nat.add_mul, Nat.one_mul]
    omega
  refine ⟨k, CW + e, m, l, hk0, hcw, hfits, ⟨x0, hx0, hmore⟩, hm, ?_⟩
  have hlc := hp.cursorLineCount
  unfold Comp.completeRefresh
  rw [if_neg (by rw [hc.inComplete]; simp), hlc, R.bind_ok]
  dsimp only
  rw [hsl, R.bind_ok, hmx, hc.width, ho]
  have e1 : ((x0.length : Int) + ((o : Int) + 1)) = (CW : Nat) := by omega
  have e2 : (w : Int) - 1 = (w - 1 : Nat) := by omega
  rw [e1, e2]
  have e3 : divR ((w - 1 : Nat) : Int) (CW : Nat) = .ok ((k : Nat) : Int) := by
    unfold divR
    rw [if_neg (by omega), ← Int.ofNat_tdiv, hk]
  rw [e3, R.bind_ok, if_pos (by omega)]
  have e4 : divR (((w - 1 : Nat) : Int) - (CW : Nat) * (k : Nat)) (k : Nat) = .ok ((e : Nat) : Int) := by
    unfold divR
    rw [if_neg (by omega), show ((w - 1 : Nat) : Int) - (CW : Nat) * (k : Nat) = ((w - 1 - CW * k : Nat) : Int) by
      rw [Int.ofNat_sub hkm, Int.natCast_mul], ← Int.ofNat_tdiv, he]
  rw [e4]
  simp only [R.bind_ok]
  unfold repeatR
  rw [if_neg (by omega), R.bind_ok, show ((CW : Int) + (e : Int)) = ((CW + e : Nat) : Int) by omega, hm, R.bind_ok, hp.promptLen, R.bind_ok]
  congr 6
  rw [Int.toNat_natCast]
  generalize (rows w (vis.length + r.buf.length) - (vis.length + r.idx) / w) = n
  induction n with
  | zero => rfl
  | succ n ih => rw [List.replicate_succ, List.flatten_cons, ih, List.replicate_succ]; rfl

/-- Line feeds. -/
theorem run_newlines (n : Nat) : ∀ {t : Spec.Term}, t.st = .ground → (n = 0 → t.col = 0 ∧ t.pend = false) →
    (t.run (chars (List.replicate n (Tok.ch 10)))).row = t.row + n ∧ (t.run (chars (List.replicate n (Tok.ch 10)))).col = 0 ∧
    (t.run (chars (List.replicate n (Tok.ch 10)))).pend = false ∧ (t.run (chars (List.replicate n (Tok.ch 10)))).st = .ground ∧
    (t.run (chars (List.replicate n (Tok.ch 10)))).w = t.w ∧ (t.run (chars (List.replicate n (Tok.ch 10)))).cell = t.cell := by
  induction n with
  | zero => intro t h1 h2; exact ⟨rfl, (h2 rfl).1, (h2 rfl).2, h1, rfl, rfl⟩
  | succ n ih =>
    intro t h1 _
    have e : chars (List.replicate (n + 1) (Tok.ch 10)) = [10] ++ chars (List.replicate n (Tok.ch 10)) := by
      rw [List.replicate_succ]; rfl
    rw [e, Term.run_append, run_nl t h1]
    obtain ⟨g1, g2, g3, g4, g5, g6⟩ := ih (t := t.newline) h1 (fun _ => ⟨rfl, rfl⟩)
    refine ⟨g1.trans ?_, g2, g3, g4, g5, g6⟩
    show t.row + 1 + n = _
    omega

theorem run_right_any (t : Spec.Term) (ht : t.st = .ground) (n : Nat) : t.run (chars [.right n]) = t.forward (max 1 n) := by
  have := run_csi t ht (itoa n) (itoa_digits n) 67 (by omega)
  simp only [chars, Tok.render, List.flatMap_cons, List.flatMap_nil, List.append_nil] at this ⊢
  rw [this]
  have e : t.csi (itoa n) 67 = t.forward (max 1 n) := by simp only [Spec.Term.csi, num_itoa]; rfl
  rw [e]; exact st_ground _ ht

theorem run_up_any (t : Spec.Term) (ht : t.st = .ground) (n : Nat) : t.run (chars [.up n]) = t.up (max 1 n) := by
  have := run_csi t ht (itoa n) (itoa_digits n) 65 (by omega)
  simp only [chars, Tok.render, List.flatMap_cons, List.flatMap_nil, List.append_nil] at this ⊢
  rw [this]
  have e : t.csi (itoa n) 65 = t.up (max 1 n) := by simp only [Spec.Term.csi, num_itoa]; rfl
  rw [e]; exact st_ground _ ht

/-- The list of candidates is on the screen `t`, below the text `text` that starts in row `y`, in `k` columns of `cw` cells. -/
structure ListShown (t base : Spec.Term) (y w : Nat) (text same : List Rune) (cands : List (List Rune)) (k cw : Nat) : Prop where
  /-- what is above the line is untouched -/
  above : ∀ a, a < y → ∀ x, t.cell a x = base.cell a x
  /-- the line is still there -/
  line : ∀ a x, a < rows w text.length → x < w → t.cell (y + a) x = text.getD (a * w + x) 32
  /-- below it there are the candidates, each with the text it completes, and nothing else -/
  list : ∀ a x, x < w → t.cell (y + rows w text.length + a) x = listing k cw (cands.map (same ++ ·)) a x
  /-- the candidates do not run into each other, and no row reaches the edge of the screen -/
  columns : 0 < k
  narrow : k * cw < w
  fit : ∀ x ∈ cands, same.length + x.length < cw
  /-- there are as many columns as fit -/
  dense : ∃ x ∈ cands, w ≤ (k + 1) * (same.length + x.length + 1)
  ground : t.st = .ground ∧ t.pend = false ∧ t.w = w

/-- The line is on the screen from row `y` on and the terminal is in the row of the cursor, in any column; anything may be below. -/
structure LineUp (U : UTables) (d : DCfg) (w : Nat) (vis : List Rune) (t0 base : Spec.Term) (y : Nat) (r : RB) : Prop where
  plain : Plain U d w vis r
  runes : r.toEd.AllP (Cell U)
  good : r.toEd.Good
  inter : r.interactive = true
  hc : r.hadClean = false
  sw : (screen t0 r).w = w
  st : (screen t0 r).st = .ground
  row : (screen t0 r).row = y + (vis.length + r.idx) / w
  above : ∀ a, a < y → ∀ c, (screen t0 r).cell a c = base.cell a c
  line : ∀ a x, a < rows w (shownText vis r).length → x < w → (screen t0 r).cell (y + a) x = (shownText vis r).getD (a * w + x) 32

theorem OnScreen.up {w : Nat} {vis : List Rune} {t0 base : Spec.Term} {y : Nat} {r : RB} (h : OnScreen U d w vis t0 base y r) :
    LineUp U d w vis t0 base y r :=
  ⟨h.plain, h.runes, h.good, h.inter, h.hc, h.sw, h.st, h.row, h.above, fun a x _ hx => h.cells a x hx⟩

/-- The line ends at the edge of the screen and the cursor is there (at the start of the next row). -/
def AtEdge (w : Nat) (vis : List Rune) (r : RB) : Prop := r.idx = r.buf.length ∧ (shownText vis r).length % w = 0

/-- **C68** (the list).  If the line is on the screen, drawing the list of candidates succeeds, does not change the line, and shows
every candidate below the line, whatever was there before.  The cursor goes back to its row, except if the line ends at the edge of
the screen, the cursor is there, and the list has less than a row (`C68_false_row`).  The column is that of the cursor if the line up
to the cursor is in the first row and not empty (`C68_cursor`, `C68_false_column`). -/
theorem C68_list_partial {w : Nat} {vis : List Rune} {t0 base : Spec.Term} {y : Nat} {r : RB} (h : LineUp U d w vis t0 base y r)
    (hedge : AtEdge w vis r → (screen t0 r).col = 0 ∧ (screen t0 r).pend = false) {c : Comp} (hc : c.Printed U w r) :
    ∃ (r' : RB) (k cw : Nat), c.completeRefresh U r = .ok ({ c with colNum := (k : Int) }, r') ∧ r'.toEd = r.toEd ∧
      ListShown (screen t0 r') base y w (shownText vis r) (c.shared r) c.candidate k cw ∧
      (screen t0 r').col = min (w - 1) (max 1 (vis.length + r.idx)) ∧
      (¬ (AtEdge w vis r ∧ c.candidate.length < k) → LineUp U d w vis t0 base y r') := by
  obtain ⟨k, cw, m, l, hk, hkcw, hfit, hdense, hm, he⟩ := completeRefresh_eq h.plain h.runes hc
  have hlen : (shownText vis r).length = vis.length + r.buf.length := by simp [shownText]
  have hi := h.plain.idx
  have hpw := h.plain.pw
  refine ⟨_, k, cw, he, rfl, ?_⟩
  generalize hlc : rows w (vis.length + r.buf.length) - (vis.length + r.idx) / w = lc
  have hdm : (vis.length + r.idx) / w ≤ (vis.length + r.buf.length) / w := Nat.div_le_div_right (by omega)
  have hrows : (vis.length + r.idx) / w + lc = rows w (vis.length + r.buf.length) := by
    rw [← hlc]; unfold rows; split <;> omega
  -- without a row below the cursor the line ends there, at the edge
  have hzero : lc = 0 → r.idx = r.buf.length ∧ (vis.length + r.buf.length) % w = 0 := by
    intro h0
    rw [h0] at hrows
    unfold rows at hrows
    split at hrows
    · rename_i hmod
      refine ⟨?_, hmod⟩
      have h1 := Nat.div_add_mod (vis.length + r.buf.length) w
      have h2 := Nat.div_add_mod (vis.length + r.idx) w
      have : (vis.length + r.idx) / w = (vis.length + r.buf.length) / w := by omega
      rw [this] at h2
      omega
    · omega
  have hcol0 : lc = 0 → (screen t0 r).col = 0 ∧ (screen t0 r).pend = false := by
    intro h0
    obtain ⟨e1, e2⟩ := hzero h0
    exact hedge ⟨e1, by rw [hlen]; exact e2⟩
  have hscr : screen t0 (r.write (List.replicate lc (Tok.ch 10) ++ [.eraseBelow] ++ m ++
      [.up ((lc : Nat) - 1 + l), .cr, .right (r.idx + vis.length)])) =
      (((((screen t0 r).run (chars (List.replicate lc (Tok.ch 10)))).run (chars [.eraseBelow])).run (chars m)).run
        (chars [.up ((lc : Nat) - 1 + l)])).run (chars [.cr, .right (r.idx + vis.length)]) := by
    unfold screen RB.write
    simp only [← Term.run_append, ← chars_append]
    simp
  generalize hr' : r.write (List.replicate lc (Tok.ch 10) ++ [.eraseBelow] ++ m ++
      [.up ((lc : Nat) - 1 + l), .cr, .right (r.idx + vis.length)]) = r' at hscr ⊢
  obtain ⟨g1, g2, g3, g4, g5, g6⟩ := run_newlines lc h.st hcol0
  generalize (screen t0 r).run (chars (List.replicate lc (Tok.ch 10))) = t2 at *
  rw [run_eraseBelow t2 g4] at hscr
  have hy : t2.row = y + rows w (vis.length + r.buf.length) := by rw [g1, h.row, Nat.add_assoc, hrows]
  have hL : Listed t2 t2.eraseBelow (y + rows w (vis.length + r.buf.length)) k cw [] := by
    refine ⟨rfl, g4, g3, by simpa [Spec.Term.eraseBelow] using hy, by simpa [Spec.Term.eraseBelow] using g2, fun a x _ => ?_, fun a ha x => ?_⟩
    · have : listing k cw [] a x = 32 := by unfold listing; split <;> simp
      rw [this]
      show (if t2.row < _ ∨ (_ = t2.row ∧ t2.col ≤ x) then 32 else t2.cell _ x) = 32
      rw [if_pos (by rw [hy, g2]; omega)]
    · show (if t2.row < a ∨ (a = t2.row ∧ t2.col ≤ x) then 32 else t2.cell a x) = _
      rw [if_neg (by omega)]
  have hw2 : t2.w = w := g5.trans h.sw
  have hss : ∀ x ∈ c.shared r, Cell U x := fun x hx => h.runes.buf x (List.mem_of_mem_take (List.mem_of_mem_drop hx))
  have hcw0 : 0 < cw := by
    obtain ⟨x, hx, _⟩ := hdense
    have := hfit x hx
    omega
  obtain ⟨hL2, hl⟩ := menu_listed hss hk hcw0 (fun i => i == c.choise && c.inSelect) (t0 := t2) (by rw [hw2]; exact hkcw) c.candidate
    (fun x hx => ⟨hc.cells x hx, Nat.le_of_lt (hfit x hx)⟩) hL (by simpa using hm)
  rw [List.nil_append] at hL2
  rw [List.length_nil, Nat.zero_add] at hl
  generalize t2.eraseBelow.run (chars m) = t3 at *
  rw [show ((lc : Int) - 1 + l) = ((lc + c.candidate.length / k : Nat) : Int) by rw [hl]; omega, run_up_any t3 hL2.st,
    show chars [Tok.cr, .right (r.idx + vis.length)] = chars [.cr] ++ chars [.right ((r.idx + vis.length : Nat) : Int)] by
      rw [← chars_append]; rfl, Term.run_append, run_cr _ (show (t3.up _).st = .ground from hL2.st), run_right_any _ (show ((t3.up _).home).st = .ground from hL2.st)] at hscr
  have hrow3 : t3.row = y + rows w (vis.length + r.buf.length) + c.candidate.length / k := by
    rw [hL2.row, List.length_map]
  have hline : ∀ a x, a < rows w (shownText vis r).length → x < w → t3.cell (y + a) x = (shownText vis r).getD (a * w + x) 32 := by
    intro a x ha hx
    have ha' := ha
    rw [hlen] at ha'
    rw [hL2.above (y + a) (by omega), g6, h.line a x ha hx]
  have habove : ∀ a, a < y → ∀ x, t3.cell a x = base.cell a x := fun a ha x => by rw [hL2.above a (by omega), g6, h.above a ha]
  have hlist : ∀ a x, x < w → t3.cell (y + rows w (shownText vis r).length + a) x =
      listing k cw (c.candidate.map (c.shared r ++ ·)) a x := by
    intro a x hx
    rw [hlen, hL2.cells a x (by rw [hL2.w, hw2]; exact hx)]
    have := listing_pad (k := k) (cw := cw) (c.candidate.map (c.shared r ++ ·)) (fun s => cw - s.length) a x
    rw [List.map_map] at this
    exact this
  refine ⟨by rw [hscr]; exact ⟨habove, hline, hlist, hk, hkcw, hfit, hdense, hL2.st, rfl, hL2.w.trans hw2⟩, ?_, fun hn => ?_⟩
  · rw [hscr]
    show min (t3.w - 1) (0 + max 1 (r.idx + vis.length)) = _
    rw [hL2.w, hw2, Nat.zero_add, Nat.add_comm]
  · have hpos : 0 < lc + c.candidate.length / k := by
      by_cases h0 : lc = 0
      · obtain ⟨e1, e2⟩ := hzero h0
        have : ¬ c.candidate.length < k := fun hlt => hn ⟨⟨e1, by rw [hlen]; exact e2⟩, hlt⟩
        have := Nat.div_pos (Nat.le_of_not_lt this) hk
        omega
      · exact Nat.lt_of_lt_of_le (Nat.pos_of_ne_zero h0) (Nat.le_add_right ..)
    have hp := h.plain
    subst hr'
    refine ⟨⟨hp.width, hp.prompt, hp.pw, hp.visS, hp.buf, hp.idx, hp.mask, hp.paint, hp.unix⟩, h.runes, h.good, h.inter, h.hc, ?_, ?_, ?_, ?_, ?_⟩
    all_goals rw [hscr]
    · exact hL2.w.trans hw2
    · exact hL2.st
    · show t3.row - max 1 (lc + c.candidate.length / k) = y + (vis.length + r.idx) / w
      omega
    · exact habove
    · exact hline

/-- **C68** (opening the list). -/
theorem C68_open_partial {w : Nat} {vis : List Rune} {t0 base : Spec.Term} {y : Nat} {r : RB} (h : OnScreen U d w vis t0 base y r) {c : Comp}
    (hc : c.Printed U w r) :
    ∃ (r' : RB) (k cw : Nat), c.completeRefresh U r = .ok ({ c with colNum := (k : Int) }, r') ∧ r'.toEd = r.toEd ∧
      ListShown (screen t0 r') base y w (shownText vis r) (c.shared r) c.candidate k cw ∧
      (screen t0 r').col = min (w - 1) (max 1 (vis.length + r.idx)) ∧
      (¬ (AtEdge w vis r ∧ c.candidate.length < k) → LineUp U d w vis t0 base y r') := by
  refine C68_list_partial h.up ?_ hc
  rintro ⟨e1, e2⟩
  have hlen : (shownText vis r).length = vis.length + r.buf.length := by simp [shownText]
  have hpw := h.plain.pw
  rw [hlen] at e2
  have hcor : ¬ Plain.Corner w vis r := by
    rintro ⟨b1, b2, b3⟩
    rw [b1, List.length_nil, Nat.add_zero, Nat.mod_eq_of_lt hpw] at e2
    omega
  have hsh := h.shows hcor
  refine ⟨?_, hsh.pend⟩
  rw [hsh.col, h.sw, e1, e2]

/-- **C68** (closing the list).  The next redraw of the line removes the list. -/
theorem C68_close {w : Nat} {vis : List Rune} {t0 base : Spec.Term} {y : Nat} {r r' : RB} (h : LineUp U d w vis t0 base y r) {lk}
    {α} {f : Ed → R (α × Ed)} {a : α} (hr : RB.refreshV U d { r with lastKill := lk } f = .ok (a, r')) (h1 : r'.toEd.AllP (Cell U))
    (h2 : r'.toEd.Good) : OnScreen U d w vis t0 base y r' := by
  have hs := (refreshV_ok hr).2
  have hp := h.plain.congr (r' := r') ⟨hs.1, hs.2, hs.3⟩ h1 h2
  have hp0 : Plain U d w vis { r with lastKill := lk } :=
    ⟨h.plain.width, h.plain.prompt, h.plain.pw, h.plain.visS, h.plain.buf, h.plain.idx, h.plain.mask, h.plain.paint, h.plain.unix⟩
  obtain ⟨g1, g2, g3, g4, g5, g6⟩ := C17_redraw_partial hp0 hp hr h.inter h.hc h.sw h.st h.row
  obtain ⟨k1, k2, _⟩ := refreshV_drawn hr h.inter
  exact ⟨hp, h1, h2, k2, k1, g1, g2, g3, fun a ha c => (g4 a ha c).trans (h.above a ha c), g5, g6⟩

/-- **C68** (the cursor).  If the text up to the cursor is shorter than a row and not empty, the cursor stays where it is. -/
theorem C68_cursor {w : Nat} {vis : List Rune} {t0 base : Spec.Term} {y : Nat} {r : RB} (h : OnScreen U d w vis t0 base y r) {c : Comp}
    (hc : c.Printed U w r) (h0 : 0 < vis.length + r.idx) (h1 : vis.length + r.idx < w) :
    ∃ c' r', c.completeRefresh U r = .ok (c', r') ∧ LineUp U d w vis t0 base y r' ∧
      (screen t0 r').row = y ∧ (screen t0 r').col = vis.length + r.idx := by
  obtain ⟨r', k, cw, e1, e2, _, e4, e5⟩ := C68_open_partial h hc
  have hup := e5 (by
    rintro ⟨⟨g1, g2⟩, _⟩
    rw [shownText, List.length_append, ← g1, Nat.mod_eq_of_lt h1] at g2
    omega)
  refine ⟨_, r', e1, hup, ?_, by rw [e4]; omega⟩
  have : r'.idx = r.idx := by rw [e2]
  rw [hup.row, this, Nat.div_eq_of_lt h1]; rfl

/-! ### The highlighted candidate -/

/-- The characters printed, each with its colour: inverse after `ESC [ 30;47 m`, normal after any other colour sequence. -/
def inked : Bool → List Tok → List (Rune × Bool)
  | _, [] => []
  | b, .ch r :: ts => (r, b) :: inked b ts
  | _, .sgr s :: ts => inked (s == str "30;47") ts
  | b, _ :: ts => inked b ts

theorem inked_chs (b : Bool) (s : List Rune) (ts : List Tok) : inked b (s.map Tok.ch ++ ts) = s.map (·, b) ++ inked b ts := by
  induction s with
  | nil => rfl
  | cons c s ih => simp [inked, ih]

/-- The list: candidate `i` is inverse if `hl i`. -/
def inkedList (U : UTables) (same : List Rune) (cw : Int) (k : Nat) (hl : Nat → Bool) : Nat → List (List Rune) → List (Rune × Bool)
  | _, [] => []
  | i, x :: xs => (same ++ x ++ List.replicate (cw - widthAll U x - widthAll U same).toNat 32).map (·, hl i) ++
      (if (i + 1) % k = 0 then [(10, false)] else []) ++ inkedList U same cw k hl (i + 1) xs

theorem menu_inked {same : List Rune} {cw : Int} {k : Nat} (hl : Nat → Bool) (h : Int → Bool) (hh : ∀ i : Nat, h i = hl i) :
    ∀ (cs : List (List Rune)) {i j : Nat} {lines l : Int} {m ts : List Tok}, (0 < k → j = i % k) →
    Comp.menu U same cw k h cs i j lines = .ok (m, l) → inked false (m ++ ts) = inkedList U same cw k hl i cs ++ inked false ts
  | [], i, j, lines, l, m, ts, _, hm => by
    simp only [Comp.menu, Except.ok.injEq, Prod.mk.injEq] at hm
    obtain ⟨rfl, rfl⟩ := hm
    rfl
  | c :: cs, i, j, lines, l, m, ts, hj, hm => by
    unfold Comp.menu at hm
    obtain ⟨pad, hpad, hm⟩ := R.bind_inv hm
    have hpe : pad = (List.replicate (cw - widthAll U c - widthAll U same).toNat (32 : Rune)).map Tok.ch := by
      unfold repeatR at hpad
      split at hpad
      · cases hpad
      · cases hpad; simp
    dsimp only at hm
    have hitem : ∀ us, inked false ((if h i = true then [Tok.sgr (str "30;47")] else []) ++ same.map Tok.ch ++ c.map Tok.ch ++ pad ++
        (if h i = true then [Tok.sgr (str "0")] else []) ++ us) =
        (same ++ c ++ List.replicate (cw - widthAll U c - widthAll U same).toNat 32).map (·, hl i) ++ inked false us := by
      intro us
      rw [hpe, ← hh i]
      generalize List.replicate (cw - widthAll U c - widthAll U same).toNat (32 : Rune) = q
      cases h i
      · simp [inked_chs]
      · have e1 : ∀ us, inked false (Tok.sgr (str "30;47") :: us) = inked true us := by
          intro us
          show inked (str "30;47" == str "30;47") us = _
          rw [show (str "30;47" == str "30;47") = true from by decide]
        have e2 : ∀ us, inked true (Tok.sgr (str "0") :: us) = inked false us := by
          intro us
          show inked (str "0" == str "30;47") us = _
          rw [show (str "0" == str "30;47") = false from by decide]
        simp [inked_chs, e1, e2]
    have hcast : ((i : Int) + 1) = ((i + 1 : Nat) : Int) := by omega
    rw [hcast] at hm
    by_cases hend : (j : Int) + 1 = k
    · rw [if_pos hend] at hm
      obtain ⟨⟨rest, l'⟩, hr, hm⟩ := R.bind_inv hm
      cases hm
      have hk : 0 < k := by omega
      have hj := hj hk
      obtain ⟨e1, e2⟩ := succ_wrap (w := k) (k := i) (by omega)
      have := menu_inked hl h hh cs (i := i + 1) (j := 0) (ts := ts) (fun _ => e2.symm) hr
      simp only [List.append_assoc] at hitem ⊢
      rw [hitem, inkedList, if_pos e2]
      show _ ++ ((10, false) :: inked false (rest ++ ts)) = _
      rw [this]
      simp
    · rw [if_neg hend] at hm
      obtain ⟨⟨rest, l'⟩, hr, hm⟩ := R.bind_inv hm
      cases hm
      have e2 : ¬ (i + 1) % k = 0 := by
        rcases Nat.eq_zero_or_pos k with h0 | h0
        · rw [h0, Nat.mod_zero]; omega
        · have hj := hj h0
          have := Nat.mod_lt i h0
          rw [(succ_nowrap (w := k) (k := i) (by omega)).2]; omega
      have := menu_inked hl h hh cs (i := i + 1) (j := j + 1) (ts := ts) (fun h0 => by
        have hj := hj h0
        have := Nat.mod_lt i h0
        rw [(succ_nowrap (w := k) (k := i) (by omega)).2, hj]) hr
      simp only [List.append_assoc] at hitem ⊢
      rw [hitem, inkedList, if_neg e2, this]
      simp

/-- **C68** (the highlight).  Whatever the runes and the screen: the list is all candidates in order, each preceded by the shared text
and followed by blanks, a new row after every `colNum`; while a candidate is being selected the one selected is inverse,
and nothing else is. -/
theorem C68_highlight {c c' : Comp} {r r' : RB} (hr : c.completeRefresh U r = .ok (c', r')) (hc : c.inComplete = true) (hw : 0 < c.width)
    (ho : 0 ≤ c.off) (hle : c.off ≤ r.idx) (hi : r.idx ≤ r.buf.length) :
    ∃ ts cw n, r'.out = r.out ++ ts ∧ inked false ts = List.replicate n (10, false) ++
      inkedList U (c.shared r) cw c'.colNum.toNat (fun i => c.inSelect && (i : Int) == c.choise) 0 c.candidate := by
  have hsl : r.runeSlice (-c.off) = .ok (c.shared r) := by
    unfold RB.runeSlice Comp.shared
    rw [if_neg (by omega), if_neg (by omega), slice_ok (by omega) hi]
    congr 2
    omega
  unfold Comp.completeRefresh at hr
  rw [if_neg (by simp [hc])] at hr
  obtain ⟨lc, h1, hr⟩ := R.bind_inv hr
  rw [hsl, R.bind_ok] at hr
  dsimp only at hr
  obtain ⟨cn, h3, hr⟩ := R.bind_inv hr
  have hcn : 0 ≤ cn := by
    unfold divR at h3
    split at h3
    · cases h3
    · cases h3
      rw [Int.tdiv_eq_ediv_of_nonneg (by omega)]
      exact Int.ediv_nonneg (by omega) (by omega)
  obtain ⟨k, rfl⟩ := Int.eq_ofNat_of_zero_le hcn
  obtain ⟨cw, hr⟩ : ∃ cw : Int, (do
      let nl ← repeatR [Tok.ch 10] lc
      let (m, lines) ← Comp.menu U (c.shared r) cw k (fun i => i == c.choise && c.inSelect) c.candidate 0 0 1
      let p ← promptLen U r
      .ok (({ c with colNum := (k : Int) } : Comp), r.write (nl ++ [Tok.eraseBelow] ++ m ++ [Tok.up (lc - 1 + lines), Tok.cr, Tok.right (r.idx + p)]))) =
      Except.ok (ε := Fault) (c', r') := by
    split at hr
    · obtain ⟨e, k1, hr⟩ := R.bind_inv hr
      rw [R.bind_ok] at hr
      exact ⟨_, hr⟩
    · rw [R.bind_ok] at hr
      exact ⟨_, hr⟩
  obtain ⟨nl, h5, hr⟩ := R.bind_inv hr
  obtain ⟨⟨m, lines⟩, h6, hr⟩ := R.bind_inv hr
  obtain ⟨p, h7, hr⟩ := R.bind_inv hr
  cases hr
  refine ⟨_, cw, lc.toNat, rfl, ?_⟩
  have hnl : nl = (List.replicate lc.toNat (10 : Rune)).map Tok.ch := by
    unfold repeatR at h5
    split at h5
    · cases h5
    · cases h5; simp
  have := menu_inked (U := U) (fun i => c.inSelect && (i : Int) == c.choise) (fun i => i == c.choise && c.inSelect)
    (fun i => Bool.and_comm ..) c.candidate (i := 0) (j := 0) (k := k) (ts := [Tok.up (lc - 1 + lines), Tok.cr, Tok.right (r.idx + p)])
    (fun _ => by simp) h6
  rw [hnl, List.append_assoc, List.append_assoc, inked_chs]
  show _ ++ inked false (Tok.eraseBelow :: (m ++ _)) = _
  rw [inked, this]
  · simp [inked]
  all_goals simp

/-! ### Where it fails -/

/-- A list being shown. -/
def listOf (w : Int) (off : Int) (cands : List (List Rune)) : Comp :=
  { Comp.new w with inComplete := true, candidate := cands, off := off }

/-- A screen with an `x` in the top left corner and the cursor at the start of the second row. -/
def tx (w : Nat) : Spec.Term := ⟨w, fun y x => if y = 0 ∧ x = 0 then 120 else 32, 1, 0, false, .ground⟩

/-- **C68 is false at the edge.**  Tab on an empty line with an empty prompt and a list shorter than a row: the library moves up by 0
rows (`ESC [ 0 A`), which for a terminal is 1 row.  The cursor is one row too high and the next key erases the output above. -/
theorem C68_false_row : ∃ r c' r' r'', (RB.new [] true 8).refreshNil U0 d0 = .ok r ∧ (screen (tx 8) r).row = 1 ∧
    (listOf 8 0 [str "a", str "b"]).completeRefresh U0 r = .ok (c', r') ∧ (screen (tx 8) r').row = 0 ∧
    runCmds U0 d0 [.insert (str "a")] r' = .ok r'' ∧ (screen (tx 8) r').cell 0 0 = 120 ∧ (screen (tx 8) r'').cell 0 0 ≠ 120 := by
  exact ⟨_, _, _, _, rfl, by decide, rfl, by decide, rfl, by decide, by decide⟩

/-- **C68 is false for lines of several rows** (the column).  The cursor is moved right by its position in the text, not in its row,
and ends up in the last column. -/
theorem C68_false_column : ∃ r r1 c' r', (RB.new (str ">") true 6).refreshNil U0 d0 = .ok r ∧
    runCmds U0 d0 [.insert (str "abcdefg")] r = .ok r1 ∧ (screen (tx 6) r1).row = 2 ∧ (screen (tx 6) r1).col = 2 ∧
    (listOf 6 0 [str "a", str "b"]).completeRefresh U0 r1 = .ok (c', r') ∧ (screen (tx 6) r').row = 2 ∧ (screen (tx 6) r').col = 5 := by
  exact ⟨_, _, _, _, rfl, rfl, by decide, by decide, rfl, by decide, by decide⟩

/-- **C68 is false for long candidates.**  If a candidate does not fit in a row, the candidates are printed without line breaks and the
rows they take are not counted: the cursor comes back too low, and the next key draws the line in the list. -/
theorem C68_false_long : ∃ r r1 c' r' r'', (RB.new (str ">") true 6).refreshNil U0 d0 = .ok r ∧
    runCmds U0 d0 [.insert (str "a")] r = .ok r1 ∧ (screen (tx 6) r1).row = 1 ∧
    (listOf 6 0 [str "bcdefgh", str "x"]).completeRefresh U0 r1 = .ok (c', r') ∧ (screen (tx 6) r').row = 3 ∧
    runCmds U0 d0 [.insert (str "b")] r' = .ok r'' ∧
    (List.range 6).map ((screen (tx 6) r'').cell 1) = str ">a    " ∧ (List.range 6).map ((screen (tx 6) r'').cell 2) = str "bcdefg" ∧
    (List.range 6).map ((screen (tx 6) r'').cell 3) = str ">ab   " := by
  exact ⟨_, _, _, _, _, rfl, rfl, by decide, rfl, by decide, rfl, by decide, by decide, by decide⟩

/-! ### Non-trivial case -/

/-- The line `> gi`, completed to `git`, `gimp` and `give`: two columns and two rows. -/
theorem list0 : ∃ r r1, (RB.new (str "> ") true 14).refreshNil U0 d0 = .ok r ∧ runCmds U0 d0 [.insert (str "gi")] r = .ok r1 ∧
    OnScreen U0 d0 14 (str "> ") (tx 14) (tx 14) 1 r1 ∧
    (listOf 14 2 [str "t", str "mp", str "ve"]).Printed U0 14 r1 ∧ ¬ AtEdge 14 (str "> ") r1 := by
  obtain ⟨r, hr⟩ : ∃ r, (RB.new (str "> ") true 14).refreshNil U0 d0 = .ok r := ⟨_, rfl⟩
  obtain ⟨r1, hr1, hb, hi⟩ : ∃ r1, runCmds U0 d0 [.insert (str "gi")] r = .ok r1 ∧ r1.buf = str "gi" ∧ r1.idx = 2 := by
    cases (show (RB.new (str "> ") true 14).refreshNil U0 d0 = .ok r from hr)
    exact ⟨_, rfl, rfl, rfl⟩
  have hp : Plain U0 d0 14 (str "> ") (RB.new (str "> ") true 14) := by
    refine ⟨rfl, .plain (by unfold Printable; decide), by decide, by unfold Singles; decide, by simp [RB.new], by decide, rfl,
      ⟨defaultPainter, rfl, fun s i h => .plain h⟩, rfl⟩
  have h0 : OnScreen U0 d0 14 (str "> ") (tx 14) (tx 14) 1 r := C17_start (t0 := tx 14) rfl rfl hp hr
  refine ⟨r, r1, hr, hr1, ?_, ?_, ?_⟩
  · refine C17_commands_partial h0 ?_ (.of_tame (by simp)) hr1
    intro c hc x hx
    simp only [List.mem_singleton] at hc
    subst hc
    revert x
    unfold Cell Printable
    decide
  · refine ⟨rfl, rfl, by decide, ?_, ?_, by decide, ?_⟩
    · rw [hi]; decide
    · unfold Cell Printable; decide
    · unfold Comp.shared
      rw [hi, hb]; decide
  · rintro ⟨_, h⟩
    rw [shownText, hb] at h
    exact absurd h (by decide)

/-- What the screen shows then. -/
example : ∃ r r1 c' r', (RB.new (str "> ") true 14).refreshNil U0 d0 = .ok r ∧ runCmds U0 d0 [.insert (str "gi")] r = .ok r1 ∧
    (listOf 14 2 [str "t", str "mp", str "ve"]).completeRefresh U0 r1 = .ok (c', r') ∧
    (List.range 14).map ((screen (tx 14) r').cell 1) = str "> gi          " ∧
    (List.range 14).map ((screen (tx 14) r').cell 2) = str "git   gimp    " ∧
    (List.range 14).map ((screen (tx 14) r').cell 3) = str "give          " ∧
    (screen (tx 14) r').row = 1 ∧ (screen (tx 14) r').col = 4 := by
  exact ⟨_, _, _, _, rfl, rfl, rfl, by decide, by decide, by decide, by decide, by decide⟩

/-- C68, the runes beside the cursor: a positive argument asks for that many runes to the right, a negative one for that many to the left,
and asking for more than there are is a crash (to the right: unless the slice has spare capacity, which is not modelled here). -/
theorem C68_slice {r : RB} (h : r.idx ≤ r.buf.length) (i : Int) :
    r.runeSlice i =
      if 0 < i then if i ≤ r.toEd.line.right.length then .ok (r.toEd.line.right.take i.toNat) else .error .panic
      else if -i ≤ r.toEd.line.left.length then .ok (r.toEd.line.left.drop (r.toEd.line.left.length - (-i).toNat)) else .error .panic := by
  have h : r.toEd.idx ≤ r.toEd.buf.length := h
  unfold RB.runeSlice Ed.line
  simp only [List.length_drop, List.length_take, Nat.min_eq_left h]
  by_cases hi : 0 < i
  · rw [if_pos hi, if_pos hi]
    unfold slice
    by_cases hj : i ≤ ((r.toEd.buf.length - r.toEd.idx : Nat) : Int)
    · rw [if_pos hj, if_pos (by omega)]
      simp [List.drop_take]
    · rw [if_neg hj, if_neg (by omega)]
  · rw [if_neg hi, if_neg hi]
    by_cases hj : -i ≤ (r.toEd.idx : Int)
    · rw [if_pos hj, if_neg (by omega)]
      unfold slice
      rw [if_pos (by omega)]
      congr 2
      omega
    · rw [if_neg hj, if_pos (by omega)]

/-- In "abc" with the cursor behind "ab". -/
example : let r : RB := { RB.new [] true 80 with buf := str "abc", idx := 2 }
    r.runeSlice 1 = .ok (str "c") ∧ r.runeSlice (-1) = .ok (str "b") ∧ r.runeSlice 2 = .error .panic ∧ r.runeSlice (-3) = .error .panic := by decide

end RL
