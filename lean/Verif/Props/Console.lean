import Verif.Proofs.ConsoleLine
import Verif.Props.Utf8
/-! # C70: the Windows console

The console is `Verif.Spec.Console`; `ansi_windows.go` turns the character stream into its calls (`Verif.Model.AnsiWindows`). -/

namespace RL.Win
open Spec Spec.Console Term RB

/-- The writer between two control sequences, with everything written out. -/
structure Idle (s : St) : Prop where
  esc : s.c.isEsc = false
  seq : s.c.isEscSeq = false
  pend : s.c.pend = []

/-- The value of decimal digits. -/
def decimal : List Rune → Nat
  | [] => 0
  | c :: cs => (c - 48).toNat * 10 ^ cs.length + decimal cs

theorem foldl_decimal (ds : List Rune) (a : Nat) : ds.foldl (fun a c => a * 10 + (c - 48).toNat) a = a * 10 ^ ds.length + decimal ds := by
  induction ds generalizing a with
  | nil => simp [decimal]
  | cons c cs ih =>
    rw [List.foldl_cons, ih, decimal, List.length_cons, Nat.pow_succ, Nat.add_mul]
    have : a * 10 * 10 ^ cs.length = a * (10 ^ cs.length * 10) := by rw [Nat.mul_assoc, Nat.mul_comm 10]
    omega

theorem atoiDigits_inv {ds : List Rune} : ∀ {a n : Nat}, atoiDigits a ds = some n → ∀ c ∈ ds, 48 ≤ c ∧ c ≤ 57 := by
  induction ds with
  | nil => simp
  | cons c cs ih =>
    intro a n h x hx
    unfold atoiDigits at h
    split at h
    · next hc =>
      rcases List.mem_cons.1 hx with rfl | hx
      · exact hc
      · exact ih h x hx
    · cases h

/-- **C70** (numbers in control sequences).  A number is a sequence of decimal digits with an optional sign whose value fits in 64 bits, and
nothing else is one. -/
theorem C70_numbers (s : List Rune) (n : Int) : atoi s = some n ↔ ∃ ds, ds ≠ [] ∧ (∀ c ∈ ds, 48 ≤ c ∧ c ≤ 57) ∧
    (((s = ds ∨ s = 43 :: ds) ∧ n = decimal ds ∧ decimal ds < 2 ^ 63) ∨ (s = 45 :: ds ∧ n = -(decimal ds : Int) ∧ decimal ds ≤ 2 ^ 63)) := by
  have core : ∀ (neg : Bool) (ds : List Rune), (if ds = [] then none else
      match atoiDigits 0 ds with
      | none => none
      | some n => if neg then if n ≤ 2 ^ 63 then some (-(n : Int)) else none else if n < 2 ^ 63 then some (n : Int) else none) = some n ↔
      ds ≠ [] ∧ (∀ c ∈ ds, 48 ≤ c ∧ c ≤ 57) ∧
        (if neg then n = -(decimal ds : Int) ∧ decimal ds ≤ 2 ^ 63 else n = decimal ds ∧ decimal ds < 2 ^ 63) := by
    intro neg ds
    by_cases h0 : ds = []
    · simp [h0]
    · rw [if_neg h0]
      by_cases hd : ∀ c ∈ ds, 48 ≤ c ∧ c ≤ 57
      · rw [atoiDigits_num hd, foldl_decimal, Nat.zero_mul, Nat.zero_add]
        dsimp only
        generalize decimal ds = v
        cases neg
        · simp only [Bool.false_eq_true, if_false]
          split
          · simp only [Option.some.injEq, ne_eq, h0, not_false_eq_true, true_and]
            exact ⟨fun e => ⟨hd, e.symm, by assumption⟩, fun e => e.2.1.symm⟩
          · simp only [reduceCtorEq, false_iff]
            exact fun e => absurd e.2.2.2 (by assumption)
        · simp only [if_true]
          split
          · simp only [Option.some.injEq, ne_eq, h0, not_false_eq_true, true_and]
            exact ⟨fun e => ⟨hd, e.symm, by assumption⟩, fun e => e.2.1.symm⟩
          · simp only [reduceCtorEq, false_iff]
            exact fun e => absurd e.2.2.2 (by assumption)
      · constructor
        · intro h
          exfalso
          cases ha : atoiDigits 0 ds with
          | none => rw [ha] at h; cases h
          | some v => exact hd (atoiDigits_inv ha)
        · exact fun h => absurd h.2.1 hd
  have digit : ∀ {x : Rune} {ds : List Rune}, x < 48 → ¬ ∀ c ∈ x :: ds, 48 ≤ c ∧ c ≤ 57 := fun hx h => by
    have := h _ (List.mem_cons_self ..)
    omega
  unfold atoi
  split
  next neg ds he =>
  refine Iff.trans (core neg ds) ?_
  split at he
  · injection he with e1 e2
    subst e1 e2
    constructor
    · exact fun h => ⟨_, h.1, h.2.1, .inr ⟨rfl, h.2.2⟩⟩
    · rintro ⟨es, h1, h2, ⟨rfl | h3, _⟩ | ⟨h3, h4⟩⟩
      · exact absurd h2 (digit (by decide))
      · injection h3 with h3; exact absurd h3 (by decide)
      · injection h3 with _ h3; subst h3; exact ⟨h1, h2, h4⟩
  · injection he with e1 e2
    subst e1 e2
    constructor
    · exact fun h => ⟨_, h.1, h.2.1, .inl ⟨.inr rfl, h.2.2⟩⟩
    · rintro ⟨es, h1, h2, ⟨rfl | h3, h4⟩ | ⟨h3, _⟩⟩
      · exact absurd h2 (digit (by decide))
      · injection h3 with _ h3; subst h3; exact ⟨h1, h2, h4⟩
      · injection h3 with h3; exact absurd h3 (by decide)
  · next n1 n2 =>
    injection he with e1 e2
    subst e1 e2
    constructor
    · exact fun h => ⟨_, h.1, h.2.1, .inl ⟨.inl rfl, h.2.2⟩⟩
    · rintro ⟨es, h1, h2, ⟨rfl | h3, h4⟩ | ⟨h3, _⟩⟩
      · exact ⟨h1, h2, h4⟩
      · exact absurd h3 (n2 _)
      · exact absurd h3 (n1 _)

example : atoi (str "-12") = some (-12) ∧ atoi (str "+7") = some 7 ∧ atoi (str "1x") = none ∧ atoi (str "-") = none := by decide

/-- **C70, the part that holds** (control sequences).  A stream made of text and of the control sequences of `Piece`, cut into calls of
`Write` between any two characters, has on the console the effect of its pieces in their order, and everything is written out in the
end.  Missing: buffers of more than 32768 cells (`C70_false_large`), other sequences (`C70_false_*`). -/
theorem C70_stream_partial {s : St} (h : Idle s) (hk : s.k.Ok) (hsz : s.k.h * s.k.w ≤ 32768) {ps : List Piece} (hp : ∀ p ∈ ps, p.Fine)
    {css : List (List Rune)} (hc : css.flatten = ps.flatMap Piece.chars) :
    ∃ s', s.writes (css.map encode) = .ok s' ∧ s'.k = s.k.pieces ps ∧ Idle s' := by
  have hfine : ∀ p : Piece, p.Fine → ∀ c ∈ p.chars, Scalar c := by
    have dig : ∀ n : Nat, ∀ c ∈ itoa (n : Int), 48 ≤ c ∧ c ≤ 57 := itoa_ascii
    have low : ∀ c : Rune, 0 ≤ c → c < 128 → Scalar c := fun c h1 h2 => by unfold Scalar; omega
    have num : ∀ (n : Nat) (e : Rune), 0 ≤ e → e < 128 → ∀ c ∈ [27, 91] ++ itoa (n : Int) ++ [e], Scalar c := by
      intro n e h1 h2 c hc
      simp only [List.mem_append, List.mem_cons, List.not_mem_nil, or_false] at hc
      rcases hc with ((rfl | rfl) | hc) | rfl
      · exact low _ (by omega) (by omega)
      · exact low _ (by omega) (by omega)
      · have := dig n c hc; exact low _ (by omega) (by omega)
      · exact low _ h1 h2
    intro p hp c hc
    cases p with
    | char d =>
      simp only [Piece.chars, List.mem_singleton] at hc
      subst hc
      have := hp.1
      unfold validRune at this
      unfold Scalar
      simp only [Bool.or_eq_true, Bool.and_eq_true, decide_eq_true_eq] at this
      omega
    | both f b =>
      simp only [Piece.chars, List.mem_append, List.mem_cons, List.not_mem_nil, or_false] at hc
      rcases hc with ((((rfl | rfl) | hc) | rfl) | hc) | rfl
      · exact low _ (by omega) (by omega)
      · exact low _ (by omega) (by omega)
      · have := dig _ c hc; exact low _ (by omega) (by omega)
      · exact low _ (by omega) (by omega)
      · have := dig _ c hc; exact low _ (by omega) (by omega)
      · exact low _ (by omega) (by omega)
    | up n => exact num n 65 (by omega) (by omega) c hc
    | down n => exact num n 66 (by omega) (by omega) c hc
    | right n => exact num n 67 (by omega) (by omega) c hc
    | left n => exact num n 68 (by omega) (by omega) c hc
    | fg n => exact num (30 + n) 109 (by omega) (by omega) c hc
    | _ =>
      simp only [Piece.chars, List.mem_cons, List.not_mem_nil, or_false] at hc
      rcases hc with rfl | hc
      · exact low _ (by omega) (by omega)
      rcases hc with rfl | hc
      · exact low _ (by omega) (by omega)
      first
        | (subst hc; exact low _ (by omega) (by omega))
        | (rcases hc with rfl | rfl <;> exact low _ (by omega) (by omega))
  have hsc : ∀ cs ∈ css, ∀ c ∈ cs, Scalar c := by
    intro cs hcs c hc'
    have : c ∈ css.flatten := List.mem_flatten.2 ⟨cs, hcs, hc'⟩
    rw [hc] at this
    obtain ⟨p, hp1, hp2⟩ := List.mem_flatMap.1 this
    exact hfine p (hp p hp1) c hp2
  have hdec : ((css.map encode).map decode).flatten = ps.flatMap Piece.chars := by
    rw [← hc, List.map_map]
    congr 1
    calc css.map (decode ∘ encode) = css.map id := List.map_congr_left (fun cs hcs => by
          show decode (encode cs) = cs
          rw [decode_encode, map_scalarize_id (hsc cs hcs)])
      _ = css := List.map_id _
  have habs : s.abs = ⟨false, false, s.c.arg, s.k⟩ := by
    simp [St.abs, h.esc, h.seq, h.pend, Console.write]
  obtain ⟨arg', hst⟩ := steps_pieces hk hsz hp s.c.arg
  rw [← habs, ← hdec] at hst
  obtain ⟨s', e1, _, e3, e4⟩ := writes_abs ⟨fun hn => absurd h.pend hn, fun _ => h.pend⟩ hst (.inr h.pend)
  refine ⟨s', e1, ?_, ?_, ?_, e4⟩
  · have := congrArg Abs.k e3
    simpa [St.abs, e4, Console.write] using this
  · exact congrArg Abs.esc e3
  · exact congrArg Abs.seq e3

theorem decode_no_esc : ∀ (n : Nat) (b : List Nat), b.length ≤ n → 27 ∉ b → (27 : Rune) ∉ decode b := by
  intro n
  induction n with
  | zero => intro b hn _; cases b with
    | nil => simp [decode, decodeGo]
    | cons => simp at hn
  | succ n ih =>
    intro b hn hb
    cases b with
    | nil => simp [decode, decodeGo]
    | cons x bs =>
      rcases decodeRune_sound x bs with ⟨e, rest, h1, h2, h3, _⟩ | h1
      · rw [h1, decode_utf8 h2 h3]
        have hne := utf8_ne_nil h2
        have hlen := congrArg List.length h1
        rw [List.length_append] at hlen
        have : 0 < e.length := List.length_pos_iff.2 hne
        have hr : (27 : Rune) ∉ decode rest := ih rest (by omega) (fun hm => hb (by rw [h1]; exact List.mem_append_right _ hm))
        intro hm
        rcases List.mem_cons.1 hm with hm | hm
        · rw [← hm] at h2
          have h27 : e = [27] := by
            generalize hr : (27 : Rune) = r at h2
            cases h2 with
            | one b h => have : b = 27 := by omega
                         rw [this]
            | _ => omega
          exact hb (by rw [h1, h27]; simp)
        · exact hr hm
      · have : decode (x :: bs) = 0xFFFD :: decode bs := by
          show (decodeRune (x :: bs)).1 :: decodeGo ((decodeRune (x :: bs)).2 - 1) bs = _
          rw [h1]; rfl
        rw [this]
        intro hm
        rcases List.mem_cons.1 hm with hm | hm
        · omega
        · exact ih bs (by simpa using hn) (fun h => hb (List.mem_cons_of_mem _ h)) hm

/-- **C70** (text).  Bytes without ESC reach the console as the text they encode (C60: ill-formed parts as U+FFFD); all are taken. -/
theorem C70_text {s : St} (h : Idle s) {b : List Nat} (hb : 27 ∉ b) :
    ∃ s', s.write b = .ok (b.length, s') ∧ s'.k = s.k.write (decode b) ∧ Idle s' := by
  have hd := decode_no_esc b.length b (Nat.le_refl _) hb
  have habs : s.abs = ⟨false, false, s.c.arg, s.k⟩ := by
    simp [St.abs, h.esc, h.seq, h.pend, Console.write]
  have hst : ∀ (rs : List Rune) (k : Console), 27 ∉ rs →
      Abs.steps ⟨false, false, s.c.arg, k⟩ rs = some ⟨false, false, s.c.arg, k.write rs⟩ := by
    intro rs
    induction rs with
    | nil => intro k _; rfl
    | cons r rs ih =>
      intro k hn
      have h1 : r ≠ 27 := fun e => hn (e ▸ List.mem_cons_self ..)
      simp [Abs.steps, Abs.step, h1, ih (k.putc r) (fun hm => hn (List.mem_cons_of_mem _ hm)), Console.write]
  have h1 := hst (decode b) s.k hd
  rw [← habs] at h1
  obtain ⟨s', e1, _, e3⟩ := processAll_abs ⟨fun hn => absurd h.pend hn, fun _ => h.pend⟩ h1
  refine ⟨s'.flush, ?_, congrArg Abs.k e3, congrArg Abs.esc e3, congrArg Abs.seq e3, rfl⟩
  unfold St.write
  rw [e1]; rfl

/-! ### The line -/

/-- A rune the console shows in one cell. -/
def WCell (U : UTables) (c : Rune) : Prop := Cell U c ∧ validRune c = true

/-- The line is on the console, from row `y` on; the cells before are those of `k0`; the cursor is in the row of the editing cursor, and in its column if
that row is the last one of the line. -/
structure Shown (k0 k : Console) (w y : Nat) (vis : List Rune) (r : RB) : Prop where
  size : k.w = w ∧ k.h = k0.h
  ok : k.Ok
  above : ∀ i, i < y * w → k.cell i = k0.cell i
  cells : ∀ i, y * w + i < k.h * w → (k.cell (y * w + i)).1 = (shownText vis r).getD i 32
  row : k.y = y + (vis.length + r.idx) / w
  col : k.x = if (vis.length + r.idx) / w = (vis.length + r.buf.length) / w then (vis.length + r.idx) % w else 0

/-- What C70 assumes of the buffer: as in C17 (`Plain`), but on Windows, and with prompt and painter using only the colours of `Piece`. -/
structure WPlain (U : UTables) (d : DCfg) (w : Nat) (vis : List Rune) (r : RB) : Prop where
  plain : Plain U { d with windows := false } w vis r
  win : d.windows = true
  wlt : w < 32768
  buf : ∀ c ∈ r.buf, validRune c = true
  prompt : ∃ ps, r.prompt = ps.flatMap Piece.chars ∧ Tinted ps vis
  paint : ∃ f, d.painter = some f ∧ ∀ s i, (∀ c ∈ s, Printable c ∧ validRune c = true) → ∃ ps, f s i = ps.flatMap Piece.chars ∧ Tinted ps s

variable {U : UTables} {d : DCfg} {w : Nat} {vis : List Rune}

theorem WPlain.congr {r r' : RB} (h : WPlain U d w vis r) (hs : SameDisp r r') (hr : r'.toEd.AllP (WCell U)) (hg : r'.toEd.Good) :
    WPlain U d w vis r' :=
  ⟨⟨hs.width.trans h.plain.width, by rw [hs.prompt]; exact h.plain.prompt, h.plain.pw, h.plain.visS, fun c hc => (hr.buf c hc).1, hg.1,
    h.plain.mask, h.plain.paint, rfl⟩, h.win, h.wlt, fun c hc => (hr.buf c hc).2, by rw [hs.prompt]; exact h.prompt, h.paint⟩

theorem WPlain.kill {r : RB} (h : WPlain U d w vis r) {lk} : WPlain U d w vis { r with lastKill := lk } :=
  ⟨⟨h.plain.width, h.plain.prompt, h.plain.pw, h.plain.visS, h.plain.buf, h.plain.idx, h.plain.mask, h.plain.paint, rfl⟩, h.win, h.wlt,
    h.buf, h.prompt, h.paint⟩

/-- Erasing the line. -/
theorem WPlain.cleaned {r : RB} (h : WPlain U d w vis r) {n ts} (h1 : r.idxLine U r.width = .ok n) (h2 : r.cleanOutput U n = .ok ts)
    {k : Console} {y : Nat} (hk : k.Ok) (hrow : k.y = y + (vis.length + r.idx) / w) :
    ∃ ps, chars ts = ps.flatMap Piece.chars ∧ (∀ p ∈ ps, p.Fine) ∧ Typed k (k.pieces ps) (y * k.w) [] := by
  rw [h.plain.idxLine] at h1
  cases h1
  unfold RB.cleanOutput at h2
  have hw : r.width ≠ 0 := by rw [h.plain.width]; have := h.plain.pw; omega
  rw [if_neg hw] at h2
  refine ⟨cleanPieces ((vis.length + r.idx) / w), ?_, cleanPieces_fine _, clean_run hk hrow⟩
  rw [cleanPieces_chars]
  split at h2
  · next h0 =>
    have h0 : (vis.length + r.idx) / w = 0 := by exact_mod_cast h0
    cases h2
    rw [h0]
    rfl
  · cases h2
    rfl

theorem Typed.back {k0 k : Console} {y : Nat} {text : List Rune} (h : Typed k0 k (y * k.w) text) : Back k y text.length text.length := by
  have hp := h.pos
  unfold Console.pos at hp
  have hx := h.ok.x
  have e : k.y * k.w + k.x = y * k.w + text.length := hp
  have hy : y ≤ k.y := by
    apply Classical.byContradiction
    intro hn
    have := Nat.mul_le_mul_right k.w (show k.y + 1 ≤ y by omega)
    rw [Nat.add_mul] at this
    omega
  have e2 : (k.y - y) * k.w + k.x = text.length := by
    have : k.y * k.w = y * k.w + (k.y - y) * k.w := by rw [← Nat.add_mul]; congr 1; omega
    omega
  obtain ⟨d1, d2⟩ := (divmod_iff hx).1 e2
  exact ⟨by omega, by rw [if_pos rfl]; exact d2⟩

/-- Printing the line on the blank area. -/
theorem WPlain.drawn {r : RB} (h : WPlain U d w vis r) {ts : List Tok} (ho : r.output U d = .ok ts) {k0 k : Console} (hw : k0.w = w) {y : Nat}
    (ht : Typed k0 k (y * w) []) (hroom : y * w + (vis.length + r.buf.length) < k0.h * w) :
    ∃ ps, chars ts = ps.flatMap Piece.chars ∧ (∀ p ∈ ps, p.Fine) ∧ Shown k0 (k.pieces ps) w y vis r := by
  obtain ⟨pp, ep, tp⟩ := h.prompt
  obtain ⟨f, hf, hfp⟩ := h.paint
  obtain ⟨pf, ef, tf⟩ := hfp r.buf r.idx (fun c hc => ⟨(h.plain.buf c hc).1, h.buf c hc⟩)
  have hkw : k.w = w := ht.w.trans hw
  have hkh : k.h = k0.h := ht.h
  have hlen : (vis ++ r.buf).length = vis.length + r.buf.length := List.length_append ..
  -- the text
  have d1 := ht.tinted tp (by rw [hkw, hkh, List.length_nil]; omega)
  rw [List.nil_append] at d1
  have s1 := pieces_ok (ps := pp) ht.ok
  have d2 := d1.tinted tf (by rw [s1.2.1, s1.2.2, hkw, hkh]; omega)
  rw [← pieces_append] at d2
  -- what is written
  have key : ∃ bs, ts = r.prompt.map Tok.ch ++ ((f r.buf r.idx).flatMap (RB.paintTok U) ++ bs) ∧
      (r.idx < r.buf.length → r.getBackspaceSequence U = .ok bs) ∧ (¬ r.idx < r.buf.length → bs = []) := by
    have hm : d.enableMask = false := h.plain.mask
    unfold RB.output RB.isInLineEdge at ho
    simp only [hm, Bool.false_eq_true, false_and, if_false, hf, h.win, if_true, R.bind_ok] at ho
    by_cases hi : r.buf.length > r.idx
    · rw [if_pos hi] at ho
      obtain ⟨b, hb, ho⟩ := R.bind_inv ho
      cases ho
      exact ⟨b, by simp, fun _ => hb, fun h => absurd hi h⟩
    · rw [if_neg hi] at ho
      cases ho
      exact ⟨[], by simp, fun h => absurd h hi, fun _ => rfl⟩
  obtain ⟨bs, ets, hb1, hb2⟩ := key
  have etext : chars (r.prompt.map Tok.ch ++ (f r.buf r.idx).flatMap (RB.paintTok U)) = (pp ++ pf).flatMap Piece.chars := by
    rw [chars_append, chars_ch, paint_chars U (by rw [ef]; exact (Win.Tinted.coloured tf).no_tab), List.flatMap_append, ep, ef]
  have fine : ∀ p ∈ pp ++ pf, p.Fine := fun p hp => by
    rcases List.mem_append.1 hp with hp | hp
    · exact Win.Tinted.fine tp p hp
    · exact Win.Tinted.fine tf p hp
  have hw2 : (k.pieces (pp ++ pf)).w = w := d2.w.trans hw
  have hh2 : (k.pieces (pp ++ pf)).h = k0.h := d2.h
  have hw0 : 0 < w := by have := h.plain.pw; omega
  have hback := Typed.back (k := k.pieces (pp ++ pf)) (y := y) (by rw [hw2]; exact d2)
  rw [hlen] at hback
  by_cases hi : r.idx < r.buf.length
  · have hb := hb1 hi
    unfold RB.getBackspaceSequence at hb
    simp only [h.plain.bufS.widthAll] at hb
    rw [if_neg (by omega)] at hb
    simp only [h.plain.promptLen, R.bind_ok, h.plain.width] at hb
    obtain ⟨sep, hsep, hb⟩ := R.bind_inv hb
    cases hb
    have hbr := RB.sepLoop_breaks h.plain.pw hsep
    refine ⟨pp ++ pf ++ bsPieces w sep r.idx (r.buf.length - r.idx), ?_, ?_, ?_⟩
    · rw [ets, ← List.append_assoc, chars_append, etext, List.flatMap_append (xs := pp ++ pf), bsPieces_chars]
    · intro p hp
      rcases List.mem_append.1 hp with hp | hp
      · exact fine p hp
      · exact bsPieces_fine h.wlt p hp
    · have e : vis.length + r.idx + (r.buf.length - r.idx) = vis.length + r.buf.length := by omega
      obtain ⟨g1, g2, g3, g4⟩ := bsPieces_run (p := vis.length) (idx := r.idx) (n := r.buf.length - r.idx) (sep := sep) (y := y)
        (e := vis.length + r.buf.length) (k := k.pieces (pp ++ pf)) (by rw [hw2]; exact hw0) (by rw [e]; exact hback) (by omega) (fun i h1 h2 => by
          rw [hw2]; exact hbr i (by omega) (by omega))
      rw [hw2] at g1 g2 g3 g4
      rw [pieces_append]
      have gok := (pieces_ok (ps := bsPieces w sep r.idx (r.buf.length - r.idx)) d2.ok).1
      generalize (k.pieces (pp ++ pf)).pieces (bsPieces w sep r.idx (r.buf.length - r.idx)) = q at g1 g2 g3 g4 gok
      refine ⟨⟨g3, g4.trans hh2⟩, gok, fun i hi => by rw [g2]; exact d2.before i hi, fun i hi => ?_, by rw [g1.row, g3], by rw [g1.col, g3]⟩
      rw [g2]
      exact d2.after i (by rw [hw2, hh2]; rw [g4, hh2] at hi; exact hi)
  · have hbs := hb2 hi
    subst hbs
    have e : r.idx = r.buf.length := by have := h.plain.idx; omega
    refine ⟨pp ++ pf, by rw [ets, List.append_nil, etext], fine, ⟨hw2, hh2⟩, d2.ok, d2.before, fun i hi => d2.after i (by rw [hw2]; exact hi), ?_, ?_⟩
    · rw [e, hback.row, hw2]
    · rw [e, hback.col, hw2]

/-- The line is on the console: what the buffer has written is made of pieces, and they have drawn it. -/
structure OnConsole (U : UTables) (d : DCfg) (w : Nat) (vis : List Rune) (k0 : Console) (y : Nat) (r : RB) : Prop where
  plain : WPlain U d w vis r
  runes : r.toEd.AllP (WCell U)
  good : r.toEd.Good
  inter : r.interactive = true
  hc : r.hadClean = false
  shown : ∃ ps, chars r.out = ps.flatMap Piece.chars ∧ (∀ p ∈ ps, p.Fine) ∧ Shown k0 (k0.pieces ps) w y vis r

theorem redraw_console {α} {r r' : RB} {f : Ed → R (α × Ed)} {a : α} (h : WPlain U d w vis r) (h' : WPlain U d w vis r')
    (hr : r.refreshV U d f = .ok (a, r')) (hi : r.interactive = true) (hc : r.hadClean = false) {k0 : Console} {ps : List Piece}
    (hch : chars r.out = ps.flatMap Piece.chars) (hfine : ∀ p ∈ ps, p.Fine) (hok : (k0.pieces ps).Ok) (hw : (k0.pieces ps).w = w)
    (hh : (k0.pieces ps).h = k0.h) {y : Nat} (habove : ∀ i, i < y * w → (k0.pieces ps).cell i = k0.cell i)
    (hrow : (k0.pieces ps).y = y + (vis.length + r.idx) / w) (hroom : y * w + (vis.length + r'.buf.length) < k0.h * w) :
    ∃ ps, chars r'.out = ps.flatMap Piece.chars ∧ (∀ p ∈ ps, p.Fine) ∧ Shown k0 (k0.pieces ps) w y vis r' := by
  obtain ⟨_, _, ts1, ts2, n, e, ho, hn, _, hcl⟩ := refreshV_drawn hr hi
  obtain ⟨p1, c1, f1, t1⟩ := h.cleaned hn (hcl hc) hok hrow
  rw [hw] at t1
  obtain ⟨p2, c2, f2, t2⟩ := h'.drawn ho hw t1 (by rw [hh]; exact hroom)
  refine ⟨ps ++ p1 ++ p2, ?_, ?_, ?_⟩
  · rw [e, chars_append, chars_append, hch, c1, c2, List.flatMap_append, List.flatMap_append]
  · intro p hp
    rcases List.mem_append.1 hp with hp | hp
    · rcases List.mem_append.1 hp with hp | hp
      · exact hfine p hp
      · exact f1 p hp
    · exact f2 p hp
  · rw [pieces_append, pieces_append]
    exact ⟨⟨t2.size.1, t2.size.2.trans hh⟩, t2.ok, fun i hi => (t2.above i hi).trans (habove i hi), t2.cells, t2.row, t2.col⟩

/-- At every moment of the editing the line fits on the console, with a cell to spare. -/
def Fits (U : UTables) (d : DCfg) (cs : List Cmd) (r : RB) (bound : Nat) : Prop :=
  ∀ pre post, cs = pre ++ post → ∀ r1, runCmds U d pre r = .ok r1 → r1.buf.length < bound

theorem OnConsole.commands {k0 : Console} {y : Nat} {cs : List Cmd} : ∀ {r r' : RB}, OnConsole U d w vis k0 y r →
    (∀ c ∈ cs, ∀ x ∈ c.runes, WCell U x) → Quiet U d cs r → Fits U d cs r (k0.h * w - (y * w + vis.length)) → runCmds U d cs r = .ok r' →
    OnConsole U d w vis k0 y r' := by
  induction cs with
  | nil => intro r r' h _ _ _ hr; cases hr; exact h
  | cons c cs ih =>
    intro r r' h hc hq hf hr
    unfold runCmds at hr
    obtain ⟨r1, h1, hr⟩ := R.bind_inv hr
    obtain ⟨hcore, hs⟩ := apply_ok h1
    have ha1 := core_all hcore h.good.1 h.runes (hc c (List.mem_cons_self ..))
    have hg1 : r1.toEd.Good := by
      obtain ⟨e', he, hg⟩ := core_good h.good (hq [] c cs rfl r rfl)
      rw [hcore] at he; cases he; exact hg
    have hfit := hf [c] cs rfl r1 (by simp only [runCmds]; rw [h1]; rfl)
    refine ih ?_ (fun k hk => hc k (List.mem_cons_of_mem _ hk)) (fun pre k post e r2 hr2 => ?_) (fun pre post e r2 hr2 => ?_) hr
    · have hp1 := h.plain.congr hs ha1 hg1
      obtain ⟨ps, hch, hfine, hsh⟩ := h.shown
      rcases apply_drawn h1 with ⟨e1, e2, e3, e4, e5⟩ | ⟨lk, α, f, a, e⟩
      · have ht : shownText vis r1 = shownText vis r := by unfold shownText; rw [e1]
        exact ⟨hp1, ha1, hg1, hs.interactive.trans h.inter, e4.trans h.hc, ps, by rw [e3]; exact hch, hfine, hsh.size, hsh.ok, hsh.above,
          by rw [ht]; exact hsh.cells, by rw [e2]; exact hsh.row, by rw [e1, e2]; exact hsh.col⟩
      · obtain ⟨k1, k2, _⟩ := refreshV_drawn e h.inter
        exact ⟨hp1, ha1, hg1, k2, k1, redraw_console h.plain.kill hp1 e h.inter h.hc hch hfine hsh.ok hsh.size.1 hsh.size.2 hsh.above hsh.row
          (by omega)⟩
    · refine hq (c :: pre) k post (by rw [e]; rfl) r2 ?_
      unfold runCmds
      rw [h1]; exact hr2
    · refine hf (c :: pre) post (by rw [e]; rfl) r2 ?_
      unfold runCmds
      rw [h1]; exact hr2

/-- Drawing a fresh buffer. -/
theorem OnConsole.start {prompt : List Rune} {k0 : Console} (hk : k0.Ok) (hw : k0.w = w) {r : RB} (hp : WPlain U d w vis (RB.new prompt true w))
    (hr : (RB.new prompt true w).refreshNil U d = .ok r) (hroom : k0.y * w + vis.length < k0.h * w) : OnConsole U d w vis k0 k0.y r := by
  have hr' : RB.refreshV U d (RB.new prompt true w) (fun e => (fun x => ((), x)) <$> Except.ok e) = .ok ((), r) := by
    rw [RB.refreshNil, refresh_eq_refreshV] at hr
    obtain ⟨a, h⟩ := map_snd_ok hr
    exact h
  obtain ⟨e, hs⟩ := refreshV_ok hr'
  simp only [R.map_ok, Except.ok.injEq, Prod.mk.injEq, true_and] at e
  have h1 : r.toEd.AllP (WCell U) := by rw [← e]; exact ⟨by simp [RB.new], by simp [RB.new], by simp [RB.new]⟩
  have h2 : r.toEd.Good := by rw [← e]; exact ⟨by simp [RB.new, Ed.CursorIn], by simp [RB.new]⟩
  have hb : r.buf = [] := by rw [← e]; rfl
  have hp' := hp.congr hs h1 h2
  obtain ⟨k1, k2, _⟩ := refreshV_drawn hr' rfl
  exact ⟨hp', h1, h2, k2, k1, redraw_console hp hp' hr' rfl rfl (ps := []) rfl (by simp) hk hw rfl (fun _ _ => rfl) (by
    have : vis.length / w = 0 := Nat.div_eq_of_lt hp.plain.pw
    show k0.y = k0.y + (vis.length + 0) / w
    rw [Nat.add_zero, this]; rfl) (by rw [hb, List.length_nil]; exact hroom)⟩

/-- **C70, the part that holds** (the line).  A fresh buffer is drawn on a console and edited by any commands; what it has written goes
through `ANSIWriter.Write` in parts of any length.  Then the console shows, from the row where it all began, the prompt and the line,
wrapped at the width, and blanks behind; what was above is untouched, and the cursor is in the right row.  Missing: the column of the cursor is right only if
the cursor is in the last row of the line (`C70_false_column`); a line that reaches the end of the buffer and makes it scroll;
large buffers (`C70_false_large`); colours of the cells; wide runes, tabs, masks as in C17. -/
theorem C70_line_partial {prompt : List Rune} {s : St} (hidle : Idle s) (hk : s.k.Ok) (hsz : s.k.h * s.k.w ≤ 32768)
    (hp : WPlain U d s.k.w vis (RB.new prompt true s.k.w)) {r r' : RB} (hr : (RB.new prompt true s.k.w).refreshNil U d = .ok r)
    {cs : List Cmd} (hcs : ∀ c ∈ cs, ∀ x ∈ c.runes, WCell U x) (hq : Quiet U d cs r)
    (hfit : Fits U d cs r (s.k.h * s.k.w - (s.k.y * s.k.w + vis.length))) (hrun : runCmds U d cs r = .ok r')
    {css : List (List Rune)} (hcut : css.flatten = chars r'.out) :
    ∃ s', s.writes (css.map encode) = .ok s' ∧ Idle s' ∧ Shown s.k s'.k s.k.w s.k.y vis r' := by
  have hroom : s.k.y * s.k.w + vis.length < s.k.h * s.k.w := by
    have := hfit [] cs rfl r rfl
    omega
  have h := (OnConsole.start hk rfl hp hr hroom).commands hcs hq hfit hrun
  obtain ⟨ps, hch, hfine, hsh⟩ := h.shown
  obtain ⟨s', e1, e2, e3⟩ := C70_stream_partial hidle hk hsz hfine (hcut.trans hch)
  exact ⟨s', e1, e3, by rw [e2]; exact hsh⟩

/-! ### Where it fails -/

/-- An empty console in grey, the cursor in the top left corner. -/
def console (w h : Nat) : Console := ⟨w, h, 0, 0, 7, fun _ => (32, 7)⟩

/-- The writer as it starts. -/
def fresh (w h : Nat) : St := ⟨{}, console w h⟩

/-- Text as bytes. -/
def bytes (s : String) : List Nat := s.toList.map Char.toNat

/-- What a console looks like after some writes: cursor, colour, and the first cells of the first row. -/
def look (n : Nat) : R St → Option ((Nat × Nat) × Nat × List Rune)
  | .ok s => some ((s.k.x, s.k.y), s.k.attr, (List.range n).map fun i => (s.k.cell i).1)
  | .error _ => none

/-- **C70** (which colours crash).  A colour sequence with the single number `n` makes the library crash for 38, 39, 48 and 49 and no other
number; any number below 30 or from 50 on, other than 1 and 4, resets the colour. -/
theorem C70_colours {item : List Rune} {n : Int} (h : atoi item = some n) (k : Nat) :
    (St.colour k [item] = .error .panic ↔ n = 38 ∨ n = 39 ∨ n = 48 ∨ n = 49) ∧
    ((n < 30 ∨ 50 ≤ n) → n ≠ 1 → n ≠ 4 → St.colour k [item] = .ok (some 7)) := by
  have hg : ∀ (l : List Nat), l.length = 8 → ∀ i : Nat, (∃ x, getR l i = .ok x) ∧ i < 8 ∨ getR l i = .error .panic ∧ 8 ≤ i := by
    intro l hl i
    unfold getR
    by_cases hi : i < 8
    · left
      rw [List.getElem?_eq_getElem (by omega)]
      exact ⟨⟨_, rfl⟩, hi⟩
    · right
      rw [List.getElem?_eq_none (by omega)]
      exact ⟨rfl, by omega⟩
  rw [St.colour, h]
  dsimp only
  by_cases h1 : 30 ≤ n ∧ n < 40
  · rw [if_pos h1]
    refine ⟨?_, fun hn => by omega⟩
    rcases hg colorTableFg rfl (n - 30).toNat with ⟨⟨x, hx⟩, hi⟩ | ⟨hx, hi⟩
    · rw [hx, R.bind_ok, St.colour]
      exact ⟨fun e => by (cases e), fun e => by omega⟩
    · rw [hx]
      exact ⟨fun _ => by omega, fun _ => rfl⟩
  rw [if_neg h1]
  by_cases h2 : 40 ≤ n ∧ n < 50
  · rw [if_pos h2]
    refine ⟨?_, fun hn => by omega⟩
    rcases hg colorTableBg rfl (n - 40).toNat with ⟨⟨x, hx⟩, hi⟩ | ⟨hx, hi⟩
    · rw [hx, R.bind_ok, St.colour]
      exact ⟨fun e => by (cases e), fun e => by omega⟩
    · rw [hx]
      exact ⟨fun _ => by omega, fun _ => rfl⟩
  rw [if_neg h2]
  refine ⟨⟨fun e => ?_, fun e => by omega⟩, fun _ h3 h4 => ?_⟩
  · split at e
    · rw [St.colour] at e; cases e
    · split at e
      · rw [St.colour] at e; cases e
      · rw [St.colour] at e; cases e
  · rw [if_neg h4, if_neg h3, St.colour]

example : St.colour 7 [str "+38"] = .error .panic ∧ St.colour 9 [str "99"] = .ok (some 7) :=
  ⟨(C70_colours (item := str "+38") (n := 38) (by decide) 7).1.2 (.inl rfl), (C70_colours (item := str "99") (n := 99) (by decide) 9).2 (by omega) (by omega) (by omega)⟩

/-- **C70 is false for the default colour**: `ESC[39m` and `ESC[49m` make the library crash. -/
theorem C70_false_default_colour : ∃ e, (fresh 80 25).write (bytes "\x1b[39m") = .error e ∧ (fresh 80 25).write (bytes "\x1b[49m") = .error e :=
  ⟨.panic, rfl, rfl⟩

/-- **C70 is false for `ESC[m`**, which should reset the colour: the text becomes black on black. -/
theorem C70_false_empty_colour : look 1 ((fresh 80 25).writes [bytes "\x1b[mx"]) = some ((1, 0), 0, str "x") := by decide

/-- **C70 is false for a reset followed by a colour**: bright white instead of red. -/
theorem C70_false_reset_colour : look 1 ((fresh 80 25).writes [bytes "\x1b[0;31mx"]) = some ((1, 0), 15, str "x") ∧
    look 1 ((fresh 80 25).writes [bytes "\x1b[31mx"]) = some ((1, 0), 12, str "x") := by decide

/-- **C70 is false for all other control sequences**: they are not ignored but swallow the text behind them.  "Hide the cursor" in front
of `hello` (up to the next letter from A to D, J, K or m, none here), "go home" in front of `hello Bob`, which moves the cursor down. -/
theorem C70_false_swallow : look 5 ((fresh 80 25).writes [bytes "\x1b[?25lhello"]) = some ((0, 0), 7, str "     ") ∧
    look 5 ((fresh 80 25).writes [bytes "\x1b[Hhello Bob"]) = some ((2, 1), 7, str "     ") := by decide

/-- **C70 is false after ESC and another character**: the ESC is remembered, and the next bracket starts a sequence. -/
theorem C70_false_bracket : look 5 ((fresh 80 25).writes [bytes "\x1b=a", bytes "x[1] y"]) = some ((3, 0), 7, str "=ax  ") := by decide

/-- **C70 is false in the order**: a colour sequence that cannot be read is printed, but what follows it overtakes it: here the line is
erased before `[1xm` is printed, so that it stays. -/
theorem C70_false_order : look 5 ((fresh 80 25).writes [bytes "\x1b[1xm\x1b[2K"]) = some ((4, 0), 7, str "[1xm ") ∧
    look 5 ((fresh 80 25).writes [bytes "\x1b[1xm", bytes "\x1b[2K"]) = some ((4, 0), 7, str "     ") := by decide

/-- Rows of `x`. -/
def full (w h : Nat) : St := ⟨{}, { console w h with cell := fun _ => (120, 7) }⟩

/-- **C70 is false for large buffers**: of a console buffer with 300 rows of 120 cells "erase below" in the top left corner leaves the last
6464 cells as they are; in one with 512 rows of 128 cells it erases nothing. -/
theorem C70_false_large : (∀ k, (full 120 300).write (bytes "\x1b[J") = .ok k → (k.2.k.cell 29535).1 = 32 ∧ (k.2.k.cell 29536).1 = 120 ∧
      (k.2.k.cell 35999).1 = 120) ∧
    (∀ k, (full 128 512).write (bytes "\x1b[J") = .ok k → (k.2.k.cell 0).1 = 120) := by
  constructor
  · intro k h; cases h; decide
  · intro k h; cases h; decide

/-- Windows. -/
def dw : DCfg := { d0 with windows := true }

/-- **C70 is false for the column of the cursor** when it is not in the last row of the line: 4 columns, prompt `> `, line `hello`, the cursor
on the `e` in the last column of the first row; the console has it in the first column. -/
theorem C70_false_column : ∃ r r', (RB.new (str "> ") true 4).refreshNil U0 dw = .ok r ∧
    runCmds U0 dw [.insert (str "hello"), .left, .left, .left, .left] r = .ok r' ∧ r'.idx = 1 ∧
    look 8 ((fresh 4 5).writes [encode (chars r'.out)]) = some ((0, 0), 7, str "> hello ") := by
  exact ⟨_, _, rfl, rfl, rfl, by set_option maxRecDepth 20000 in decide⟩

/-! ### Non-trivial cases -/

/-- The prompt of C17's example, in pieces. -/
def promptP : List Piece := [.fg 1, .char 62, .char 32]

theorem fits_take {n : Nat} {cs : List Cmd} {r : RB}
    (h : ∀ i, i ≤ cs.length → ∀ r1, runCmds U d (cs.take i) r = .ok r1 → r1.buf.length < n) : Fits U d cs r n :=
  fun pre post e r1 hr => h pre.length (by rw [e]; simp) r1 (by rw [e, List.take_left]; exact hr)

theorem wplain0 : WPlain U0 dw 4 (str "> ") (RB.new prompt0 true 4) := by
  refine ⟨⟨rfl, ?_, by decide, ?_, by simp [RB.new], by decide, rfl, ⟨defaultPainter, rfl, fun s i h => .plain h⟩, rfl⟩, rfl, by decide,
    by simp [RB.new], ⟨promptP, by decide, ?_⟩, ⟨defaultPainter, rfl, fun s i h => ⟨s.map .char, ?_, ?_⟩⟩⟩
  · exact .colour (by decide) (.plain (by unfold Printable; decide))
  · unfold Singles; decide
  · exact .tint trivial (by show 1 < 8; decide) (.char (by unfold Printable; decide) (by decide) (.char (by unfold Printable; decide) (by decide) .nil))
  · show s = _
    induction s with
    | nil => rfl
    | cons c s ih => rw [List.map_cons, List.flatMap_cons, ← ih (fun c hc => h c (List.mem_cons_of_mem _ hc))]; rfl
  · show Tinted _ s
    induction s with
    | nil => exact .nil
    | cons c s ih =>
      obtain ⟨h1, h2⟩ := h c (List.mem_cons_self ..)
      exact .char h1 h2 (ih (fun c hc => h c (List.mem_cons_of_mem _ hc)))

-- the hypotheses of `C70_line_partial`: the edits of C17's example on a console of 10 rows of 4 cells; the output in two writes, cut
-- inside a control sequence
example : ∃ r r', (RB.new prompt0 true 4).refreshNil U0 dw = .ok r ∧ runCmds U0 dw edits0 r = .ok r' ∧
    ∃ s', (fresh 4 10).writes ([(chars r'.out).take 20, (chars r'.out).drop 20].map encode) = .ok s' ∧
      Shown (fresh 4 10).k s'.k 4 0 (str "> ") r' ∧ r'.buf = str "oh hello" := by
  obtain ⟨r, hr⟩ : ∃ r, (RB.new prompt0 true 4).refreshNil U0 dw = .ok r := ⟨_, rfl⟩
  obtain ⟨r', hr', hb⟩ : ∃ r', runCmds U0 dw edits0 r = .ok r' ∧ r'.buf = str "oh hello" := by
    have := hr
    cases this
    exact ⟨_, rfl, rfl⟩
  refine ⟨r, r', hr, hr', ?_⟩
  obtain ⟨s', e1, _, e3⟩ := C70_line_partial (s := fresh 4 10) ⟨rfl, rfl, rfl⟩ ⟨by decide, by decide, by decide, by decide⟩ (by decide) wplain0 hr
    (by unfold WCell Cell Printable; decide) (.of_tame (by simp [edits0])) (fits_take (by
      intro i hi r1 h1
      have hi : i ≤ 4 := hi
      have := hr
      cases this
      have : i = 0 ∨ i = 1 ∨ i = 2 ∨ i = 3 ∨ i = 4 := by omega
      rcases this with rfl | rfl | rfl | rfl | rfl <;> (cases h1; decide))) hr'
    (css := [(chars r'.out).take 20, (chars r'.out).drop 20]) (by simp)
  exact ⟨s', e1, e3, hb⟩

end RL.Win
