import Verif.Proofs.Console
import Verif.Props.Screen
/-! Lemmas for C70: a line drawn on the Windows console. -/

namespace RL.Win
open Spec Spec.Console

theorem pieces_append (k : Console) (a b : List Piece) : k.pieces (a ++ b) = (k.pieces a).pieces b := by
  simp [pieces, List.foldl_append]

theorem pieces_cons (k : Console) (a : Piece) (b : List Piece) : k.pieces (a :: b) = (k.piece a).pieces b := rfl

/-- A printable character on the console. -/
theorem putc_printable {k : Console} {c : Rune} (hc : Printable c) :
    k.putc c = if k.x + 1 < k.w then { k with cell := fun i => if i = k.pos then (c, k.attr) else k.cell i, x := k.x + 1 }
      else ({ k with cell := fun i => if i = k.pos then (c, k.attr) else k.cell i } : Console).nextRow := by
  unfold putc
  have := hc.1
  rw [if_neg (by omega), if_neg (by omega), if_neg (by omega), if_neg (by omega)]

/-- From cell `a` on the console shows the text and then blanks; the cursor is behind the text. -/
structure Typed (k0 k : Console) (a : Nat) (text : List Rune) : Prop where
  w : k.w = k0.w
  h : k.h = k0.h
  ok : k.Ok
  pos : k.pos = a + text.length
  before : ∀ i, i < a → k.cell i = k0.cell i
  after : ∀ i, a + i < k.h * k.w → (k.cell (a + i)).1 = text.getD i 32

theorem Typed.putc {k0 k : Console} {a : Nat} {text : List Rune} (h : Typed k0 k a text) {c : Rune} (hc : Printable c)
    (hf : a + text.length + 1 < k.h * k.w) : Typed k0 (k.putc c) a (text ++ [c]) := by
  have hx := h.ok.x
  have hp := h.pos
  have cells : ∀ i, a + i < k.h * k.w → (if a + i = k.pos then (c, k.attr) else k.cell (a + i)).1 = (text ++ [c]).getD i 32 := by
    intro i hi
    rw [Term.getD_snoc]
    by_cases e : i = text.length
    · rw [if_pos (by omega), if_pos e]
    · rw [if_neg (by omega), if_neg e]; exact h.after i hi
  have before : ∀ i, i < a → (if i = k.pos then (c, k.attr) else k.cell i) = k0.cell i := by
    intro i hi
    rw [if_neg (by omega)]; exact h.before i hi
  obtain ⟨o1, o2, o3⟩ := putc_ok h.ok c
  rw [putc_printable hc] at o1 o2 o3 ⊢
  by_cases hx1 : k.x + 1 < k.w
  · rw [if_pos hx1] at o1 ⊢
    refine ⟨h.w, h.h, o1, ?_, before, cells⟩
    show k.y * k.w + (k.x + 1) = _
    unfold Console.pos at hp
    rw [List.length_append, List.length_singleton]
    omega
  · rw [if_neg hx1] at o1 ⊢
    have hy : k.y + 1 < k.h := by
      apply Classical.byContradiction
      intro hn
      have hy := h.ok.y
      have e : k.h = k.y + 1 := by omega
      unfold Console.pos at hp
      have hf' : k.y * k.w + k.x + 1 < (k.y + 1) * k.w := by rw [← e]; omega
      rw [Nat.add_mul] at hf'
      omega
    have e : ({ k with cell := fun i => if i = k.pos then (c, k.attr) else k.cell i } : Console).nextRow =
        { k with cell := fun i => if i = k.pos then (c, k.attr) else k.cell i, x := 0, y := k.y + 1 } := by
      unfold nextRow
      rw [if_pos hy]
    rw [e] at o1 ⊢
    refine ⟨h.w, h.h, o1, ?_, before, cells⟩
    show (k.y + 1) * k.w + 0 = _
    unfold Console.pos at hp
    rw [List.length_append, List.length_singleton, Nat.add_mul]
    omega

theorem Typed.tint {k0 k : Console} {a : Nat} {text : List Rune} (h : Typed k0 k a text) {p : Piece} (hp : p.Tint) :
    Typed k0 (k.piece p) a text := by
  have ho := (piece_ok h.ok p).1
  cases p <;> first | exact hp.elim | exact ⟨h.w, h.h, ho, h.pos, h.before, h.after⟩

theorem Typed.tinted {ps : List Piece} {vis : List Rune} (ht : Tinted ps vis) : ∀ {k0 k : Console} {a : Nat} {text : List Rune},
    Typed k0 k a text → a + text.length + vis.length < k.h * k.w → Typed k0 (k.pieces ps) a (text ++ vis) := by
  induction ht with
  | nil => intro k0 k a text h _; simpa [pieces] using h
  | @char c ps t hc _ _ ih =>
    intro k0 k a text h hf
    rw [List.length_cons] at hf
    have h1 := h.putc hc (by omega)
    have h2 := putc_ok h.ok c
    have := ih h1 (by rw [h2.2.1, h2.2.2]; simp only [List.length_append, List.length_singleton]; omega)
    rw [pieces_cons]
    rw [List.append_assoc] at this
    exact this
  | tint hp _ _ ih =>
    intro k0 k a text h hf
    have h2 := fun p => piece_ok h.ok p
    rw [pieces_cons]
    exact ih (h.tint hp) (by rw [(h2 _).2.1, (h2 _).2.2]; exact hf)

theorem Tinted.fine {ps : List Piece} {vis : List Rune} (h : Tinted ps vis) : ∀ p ∈ ps, p.Fine := by
  induction h with
  | nil => simp
  | char h1 h2 _ ih =>
    intro p hp
    rcases List.mem_cons.1 hp with rfl | hp
    · have := h1.1
      exact ⟨h2, by omega⟩
    · exact ih p hp
  | tint _ h2 _ ih =>
    intro p hp
    rcases List.mem_cons.1 hp with rfl | hp
    · exact h2
    · exact ih p hp

theorem Tinted.coloured {ps : List Piece} {vis : List Rune} (h : Tinted ps vis) : Coloured (ps.flatMap Piece.chars) vis := by
  have dig : ∀ n : Nat, ∀ c ∈ itoa (n : Int), 48 ≤ c ∧ c < 64 := Term.itoa_digits
  induction h with
  | nil => exact .nil
  | char h1 _ _ ih => exact .char h1 ih
  | @tint p ps t h1 _ _ ih =>
    cases p with
    | fg n =>
      have := Coloured.colour (body := itoa (30 + n : Nat)) (dig _) ih
      simpa [Piece.chars] using this
    | both f b =>
      have := Coloured.colour (body := itoa (30 + f : Nat) ++ [59] ++ itoa (40 + b : Nat)) (by
        intro c hc
        simp only [List.mem_append, List.mem_singleton] at hc
        rcases hc with (hc | rfl) | hc
        · exact dig _ c hc
        · omega
        · exact dig _ c hc) ih
      simpa [Piece.chars] using this
    | underline => exact Coloured.colour (body := [52]) (by simp) ih
    | reset => exact Coloured.colour (body := [48]) (by simp) ih
    | _ => exact h1.elim

/-! ### Erasing -/

/-- Erase the rows from the bottom up. -/
def upPieces : Nat → List Piece
  | 0 => []
  | n + 1 => [.eraseLine, .char 13, .up1] ++ upPieces n

def cleanPieces (n : Nat) : List Piece := .eraseBelow :: (upPieces n ++ [.eraseLine, .char 13])

theorem cleanPieces_chars (n : Nat) : (cleanPieces n).flatMap Piece.chars =
    Term.chars ([.eraseBelow] ++ (List.replicate n [Tok.eraseLine, .cr, .up1]).flatten ++ [.eraseLine, .cr]) := by
  have h : (upPieces n).flatMap Piece.chars = Term.chars (List.replicate n [Tok.eraseLine, .cr, .up1]).flatten := by
    induction n with
    | zero => rfl
    | succ n ih =>
      rw [List.replicate_succ, List.flatten_cons, Term.chars_append, ← ih, upPieces, List.flatMap_append]
      rfl
  rw [cleanPieces, List.flatMap_cons, List.flatMap_append, h, Term.chars_append, Term.chars_append]
  simp [Term.chars, Tok.render, Piece.chars]

theorem cleanPieces_fine (n : Nat) : ∀ p ∈ cleanPieces n, p.Fine := by
  have h : ∀ p ∈ upPieces n, p.Fine := by
    induction n with
    | zero => simp [upPieces]
    | succ n ih =>
      intro p hp
      rw [upPieces] at hp
      rcases List.mem_append.1 hp with hp | hp
      · simp only [List.mem_cons, List.not_mem_nil, or_false] at hp
        rcases hp with rfl | rfl | rfl
        · trivial
        · exact ⟨by decide, by decide⟩
        · trivial
      · exact ih p hp
  intro p hp
  simp only [cleanPieces, List.mem_cons, List.mem_append, List.not_mem_nil, or_false] at hp
  rcases hp with rfl | hp | rfl | rfl
  · trivial
  · exact h p hp
  · trivial
  · exact ⟨by decide, by decide⟩

/-- Rows below `b` are those of `k0`, rows from `e` on are blank. -/
structure Blanked (k0 k : Console) (b e : Nat) : Prop where
  w : k.w = k0.w
  h : k.h = k0.h
  ok : k.Ok
  before : ∀ i, i < b * k.w → k.cell i = k0.cell i
  after : ∀ i, e * k.w ≤ i → i < k.h * k.w → (k.cell i).1 = 32

theorem eraseLine_cr {k0 k : Console} {b : Nat} (h : Blanked k0 k b (k.y + 1)) (hb : b ≤ k.y) :
    Blanked k0 ((k.piece .eraseLine).piece (.char 13)) b k.y ∧ ((k.piece .eraseLine).piece (.char 13)).x = 0 ∧
    ((k.piece .eraseLine).piece (.char 13)).y = k.y ∧ ((k.piece .eraseLine).piece (.char 13)).w = k.w := by
  have e : (k.piece .eraseLine).piece (.char 13) = { k with cell := fun i => if k.y * k.w ≤ i ∧ i < (k.y + 1) * k.w then (32, (k.cell i).2) else k.cell i, x := 0 } := rfl
  rw [e]
  have hx := h.ok.x
  refine ⟨⟨h.w, h.h, ⟨by show 0 < k.w; omega, h.ok.y, h.ok.w, h.ok.h⟩, fun i hi => ?_, fun i h1 h2 => ?_⟩, rfl, rfl, rfl⟩
  · have hi : i < b * k.w := hi
    have := Nat.mul_le_mul_right k.w hb
    dsimp only
    rw [if_neg (by omega)]
    exact h.before i hi
  · dsimp only at h1 h2 ⊢
    by_cases hc : i < (k.y + 1) * k.w
    · rw [if_pos ⟨h1, hc⟩]
    · rw [if_neg (by omega)]; exact h.after i (by omega) h2

theorem upPieces_run {k0 : Console} {b n : Nat} : ∀ {k : Console}, k.y = b + n → Blanked k0 k b (k.y + 1) →
    Blanked k0 (k.pieces (upPieces n)) b (b + 1) ∧ (k.pieces (upPieces n)).y = b := by
  induction n with
  | zero => intro k hy h; exact ⟨by rw [hy] at h; exact h, hy⟩
  | succ n ih =>
    intro k hy h
    obtain ⟨h1, h2, h3, h4⟩ := eraseLine_cr h (by omega)
    rw [upPieces, pieces_append]
    have e : k.pieces [.eraseLine, .char 13, .up1] = ((k.piece .eraseLine).piece (.char 13)).piece .up1 := rfl
    rw [e]
    generalize (k.piece .eraseLine).piece (.char 13) = q at h1 h2 h3 h4
    have hu : q.piece .up1 = { q with y := q.y - 1 } := by
      unfold piece; dsimp only; rw [if_pos (by omega)]
    rw [hu]
    refine ih (by show q.y - 1 = _; omega) ?_
    have : q.y - 1 + 1 = k.y := by omega
    refine ⟨h1.w, h1.h, ⟨h1.ok.x, by show q.y - 1 < q.h; have := h1.ok.y; omega, h1.ok.w, h1.ok.h⟩, h1.before, ?_⟩
    show ∀ i, (q.y - 1 + 1) * q.w ≤ i → _
    rw [this]; exact h1.after

theorem clean_run {k : Console} (hk : k.Ok) {b n : Nat} (hy : k.y = b + n) : Typed k (k.pieces (cleanPieces n)) (b * k.w) [] := by
  rw [cleanPieces, pieces_cons, pieces_append]
  have h1 : Blanked k (k.piece .eraseBelow) b ((k.piece .eraseBelow).y + 1) := by
    refine ⟨rfl, rfl, (piece_ok hk _).1, fun i hi => ?_, fun i h1 h2 => ?_⟩
    · have hi : i < b * k.w := hi
      have : b * k.w ≤ k.y * k.w := Nat.mul_le_mul_right _ (by omega)
      show (if k.pos ≤ i ∧ i < k.h * k.w then (32, 7) else k.cell i) = _
      unfold pos
      rw [if_neg (by omega)]
    · have h1 : (k.y + 1) * k.w ≤ i := h1
      show (if k.pos ≤ i ∧ i < k.h * k.w then (32, 7) else k.cell i).1 = _
      have := hk.x
      rw [Nat.add_mul] at h1
      unfold pos
      rw [if_pos ⟨by omega, h2⟩]
  obtain ⟨h2, h3⟩ := upPieces_run (show (k.piece .eraseBelow).y = b + n from hy) h1
  generalize (k.piece .eraseBelow).pieces (upPieces n) = q at h2 h3
  obtain ⟨h4, h5, h6, h7⟩ := eraseLine_cr (k := q) (by rw [h3]; exact h2) (by omega)
  have e : q.pieces [.eraseLine, .char 13] = (q.piece .eraseLine).piece (.char 13) := rfl
  rw [e]
  refine ⟨h4.w, h4.h, h4.ok, ?_, fun i hi => ?_, fun i hi => ?_⟩
  · unfold Console.pos
    rw [h5, h6, h3, h4.w]; rfl
  · exact h4.before i (by rw [h4.w]; exact hi)
  · have := h4.after (b * k.w + i) (by rw [h3, h4.w]; omega) hi
    rw [this]
    cases i <;> rfl

/-! ### Back to the cursor -/

def bsPiece (w : Nat) (sep : List Int) (i : Nat) : List Piece :=
  if (i : Int) ∈ sep then [.char 8, .up1, .char 13, .right w] else [.char 8]

def bsPieces (w : Nat) (sep : List Int) (idx : Nat) : Nat → List Piece
  | 0 => []
  | n + 1 => bsPiece w sep (idx + n + 1) ++ bsPieces w sep idx n

theorem bsPieces_chars {w : Nat} {sep : List Int} {idx n : Nat} :
    (bsPieces w sep idx n).flatMap Piece.chars = Term.chars (RB.bsLoop w sep idx n) := by
  induction n with
  | zero => rfl
  | succ n ih =>
    rw [bsPieces, RB.bsLoop, List.flatMap_append, Term.chars_append, ih]
    congr 1
    unfold bsPiece RB.bsTok
    split
    · simp [Term.chars, Tok.render, Piece.chars]
    · rfl

theorem bsPieces_fine {w : Nat} (hw : w < 32768) {sep : List Int} {idx n : Nat} : ∀ p ∈ bsPieces w sep idx n, p.Fine := by
  induction n with
  | zero => simp [bsPieces]
  | succ n ih =>
    intro p hp
    rw [bsPieces] at hp
    rcases List.mem_append.1 hp with hp | hp
    · unfold bsPiece at hp
      split at hp
      · simp only [List.mem_cons, List.not_mem_nil, or_false] at hp
        rcases hp with rfl | rfl | rfl | rfl
        · exact ⟨by decide, by decide⟩
        · trivial
        · exact ⟨by decide, by decide⟩
        · exact hw
      · simp only [List.mem_singleton] at hp
        subst hp
        exact ⟨by decide, by decide⟩
    · exact ih p hp

/-- Where the cursor is after stepping back from position `e` to position `i` of the text: in the right row, and in the right
column unless a row was crossed. -/
structure Back (k : Console) (y i e : Nat) : Prop where
  row : k.y = y + i / k.w
  col : k.x = if i / k.w = e / k.w then i % k.w else 0

theorem bs_run {k : Console} (hw : 0 < k.w) {y i e : Nat} (h : Back k y (i + 1) e) (hle : i + 1 ≤ e) {sep : List Int} {j : Nat}
    (hs : (j : Int) ∈ sep ↔ (i + 1) % k.w = 0) :
    Back (k.pieces (bsPiece k.w sep j)) y i e ∧ (k.pieces (bsPiece k.w sep j)).cell = k.cell ∧ (k.pieces (bsPiece k.w sep j)).w = k.w ∧
    (k.pieces (bsPiece k.w sep j)).h = k.h := by
  have hlt := Nat.mod_lt i hw
  unfold bsPiece
  by_cases hm : (i + 1) % k.w = 0
  · rw [if_pos (hs.2 hm)]
    have hh : i % k.w + 1 = k.w := by
      apply Classical.byContradiction
      intro hn
      have := (RL.succ_nowrap (w := k.w) (k := i) (by omega)).2
      omega
    obtain ⟨w1, _⟩ := RL.succ_wrap hh
    have hy := h.row
    rw [w1] at hy
    have hy1 : 1 ≤ k.y := by rw [hy, ← Nat.add_assoc]; exact Nat.le_add_left ..
    have hy2 : k.y - 1 = y + i / k.w := by rw [hy, ← Nat.add_assoc]; rfl
    have e1 : k.pieces [.char 8, .up1, .char 13, .right k.w] = { k with y := k.y - 1, x := 0 } := by
      have a1 : k.piece (.char 8) = { k with x := k.x - 1 } := rfl
      have a2 : ({ k with x := k.x - 1 } : Console).piece .up1 = { k with x := k.x - 1, y := k.y - 1 } := by
        unfold piece; dsimp only; rw [if_pos hy1]
      have a3 : ({ k with x := k.x - 1, y := k.y - 1 } : Console).piece (.char 13) = { k with x := 0, y := k.y - 1 } := rfl
      have a4 : ({ k with x := 0, y := k.y - 1 } : Console).piece (.right k.w) = { k with x := 0, y := k.y - 1 } := by
        unfold piece; dsimp only; rw [if_neg (by omega)]
      rw [pieces_cons, a1, pieces_cons, a2, pieces_cons, a3, pieces_cons, a4]
      rfl
    rw [e1]
    have hlast : i / k.w ≠ e / k.w := by
      have := Nat.div_le_div_right (c := k.w) hle
      rw [w1] at this
      exact Nat.ne_of_lt this
    refine ⟨⟨hy2, ?_⟩, rfl, rfl, rfl⟩
    show 0 = if i / k.w = e / k.w then i % k.w else 0
    rw [if_neg hlast]
  · rw [if_neg (fun h => hm (hs.1 h))]
    have hh : i % k.w + 1 < k.w := by
      apply Classical.byContradiction
      intro hn
      have := (RL.succ_wrap (w := k.w) (k := i) (by omega)).2
      omega
    obtain ⟨w1, w2⟩ := RL.succ_nowrap hh
    have hy := h.row
    have hx := h.col
    rw [w1] at hy hx
    rw [w2] at hx
    refine ⟨⟨hy, ?_⟩, rfl, rfl, rfl⟩
    show k.x - 1 = if i / k.w = e / k.w then i % k.w else 0
    rw [hx]
    split <;> omega

theorem bsPieces_run {p y idx e : Nat} {sep : List Int} {n : Nat} : ∀ {k : Console}, 0 < k.w → Back k y (p + idx + n) e →
    p + idx + n ≤ e → (∀ i, idx < i → i ≤ idx + n → ((i : Int) ∈ sep ↔ (p + i) % k.w = 0)) →
    Back (k.pieces (bsPieces k.w sep idx n)) y (p + idx) e ∧ (k.pieces (bsPieces k.w sep idx n)).cell = k.cell ∧
    (k.pieces (bsPieces k.w sep idx n)).w = k.w ∧ (k.pieces (bsPieces k.w sep idx n)).h = k.h := by
  induction n with
  | zero => intro k _ h _ _; exact ⟨h, rfl, rfl, rfl⟩
  | succ n ih =>
    intro k hw h hle hs
    obtain ⟨a1, a2, a3, a4⟩ := bs_run hw (i := p + idx + n) h (by omega) (sep := sep) (j := idx + n + 1) (by
      rw [hs (idx + n + 1) (by omega) (by omega)]
      rw [show p + (idx + n + 1) = p + idx + n + 1 by omega])
    rw [bsPieces, pieces_append]
    generalize k.pieces (bsPiece k.w sep (idx + n + 1)) = q at a1 a2 a3 a4
    rw [← a3] at hs ⊢
    obtain ⟨b1, b2, b3, b4⟩ := ih (k := q) (by omega) a1 (by omega) (fun i h1 h2 => hs i h1 (by omega))
    exact ⟨b1, b2.trans a2, b3, b4.trans a4⟩

end RL.Win
