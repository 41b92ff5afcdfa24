import Verif.Model.AnsiWindows
import Verif.Proofs.Screen
import Verif.Proofs.Utf8
/-! Lemmas for C70: the escape sequences of `ansi_windows.go` on the console. -/

namespace RL.Win
open Spec Spec.Console

/-! ### Numbers -/

theorem itoa_ascii (n : Nat) : ∀ c ∈ itoa (n : Int), 48 ≤ c ∧ c ≤ 57 := by
  rw [Term.itoa_nat]
  intro c hc
  obtain ⟨d, hd, rfl⟩ := List.mem_map.1 hc
  have := Nat.isDigit_of_mem_toDigits (b := 10) (by omega) (by omega) hd
  simp only [Char.isDigit, Bool.and_eq_true, decide_eq_true_eq, ge_iff_le] at this
  obtain ⟨h1, h2⟩ := this
  have h1 : 48 ≤ d.toNat := h1
  have h2 : d.toNat ≤ 57 := h2
  omega

theorem itoa_ne (n : Nat) : itoa (n : Int) ≠ [] := by
  rw [Term.itoa_nat]
  simp [Nat.toDigits_ne_nil]

theorem atoiDigits_num {ds : List Rune} (h : ∀ c ∈ ds, 48 ≤ c ∧ c ≤ 57) (a : Nat) :
    atoiDigits a ds = some (ds.foldl (fun a c => a * 10 + (c - 48).toNat) a) := by
  induction ds generalizing a with
  | nil => rfl
  | cons c cs ih =>
    unfold atoiDigits
    rw [if_pos (h c (List.mem_cons_self ..)), ih (fun x hx => h x (List.mem_cons_of_mem _ hx))]
    rfl

theorem atoi_itoa {n : Nat} (hn : n < 2 ^ 63) : atoi (itoa (n : Int)) = some (n : Int) := by
  have h1 := itoa_ascii n
  have h2 := atoiDigits_num h1 0
  have h3 : (itoa (n : Int)).foldl (fun a c => a * 10 + (c - 48).toNat) 0 = n := Term.num_itoa n
  rw [h3] at h2
  unfold atoi
  split
  rename_i neg ds he
  have : neg = false ∧ ds = itoa (n : Int) := by
    split at he
    · next e => exact absurd (h1 45 (by rw [e]; simp)) (by omega)
    · next e => exact absurd (h1 43 (by rw [e]; simp)) (by omega)
    · cases he; exact ⟨rfl, rfl⟩
  obtain ⟨rfl, rfl⟩ := this
  rw [if_neg (itoa_ne n), h2]
  simp [hn]

theorem toShort_id {n : Int} (h : -32768 ≤ n) (h' : n < 32768) : toShort n = n := by unfold toShort; omega

/-! ### The stream without buffering -/

/-- The state of the writer as a reader of the console sees it. -/
structure Abs where
  esc : Bool
  seq : Bool
  arg : List (List Rune)
  k : Console

def St.abs (s : St) : Abs := ⟨s.c.isEsc, s.c.isEscSeq, s.c.arg, s.k.write s.c.pend⟩

/-- What is not yet written will be written before the next control sequence. -/
structure Inv (s : St) : Prop where
  want : s.c.pend ≠ [] → s.c.wantFlush = true
  seq : s.c.isEsc = true ∨ s.c.isEscSeq = true → s.c.pend = []

def Abs.step (a : Abs) (r : Rune) : Option Abs :=
  if a.seq then
    if r = 109 ∧ St.colour 0 a.arg = .ok none then none
    else match St.escSeq ⟨{ arg := a.arg }, a.k⟩ r with
      | .ok (more, s) => some ⟨a.esc, more, s.c.arg, s.k⟩
      | .error _ => none
  else if r = 27 then some { a with esc := true }
  else if a.esc then if r = 91 then some ⟨false, true, [], a.k⟩ else none
  else some { a with k := a.k.putc r }

def Abs.steps (a : Abs) : List Rune → Option Abs
  | [] => some a
  | r :: rs => (a.step r).bind (·.steps rs)

theorem Abs.steps_append {rs qs : List Rune} {a : Abs} : a.steps (rs ++ qs) = (a.steps rs).bind (·.steps qs) := by
  induction rs generalizing a with
  | nil => rfl
  | cons r rs ih =>
    simp only [List.cons_append, steps]
    cases a.step r with
    | none => rfl
    | some b => exact ih

theorem Inv.flush {s : St} (h : Inv s) : Inv s.flush ∧ s.flush.abs = s.abs :=
  ⟨⟨fun h => absurd rfl h, fun _ => rfl⟩, rfl⟩

theorem put_abs (s : St) (r : Rune) : (s.put r).abs = { s.abs with k := s.abs.k.putc r } ∧ (s.put r).c.pend ≠ [] ∧
    (s.put r).c.isEsc = s.c.isEsc ∧ (s.put r).c.isEscSeq = s.c.isEscSeq := by
  unfold St.put
  dsimp only
  have key : ∀ n : Nat, (if (encode s.c.pend).length + n > s.c.cap then s.flush else s).abs = s.abs ∧
      (if (encode s.c.pend).length + n > s.c.cap then s.flush else s).c.isEsc = s.c.isEsc ∧
      (if (encode s.c.pend).length + n > s.c.cap then s.flush else s).c.isEscSeq = s.c.isEscSeq := by
    intro n
    split <;> exact ⟨rfl, rfl, rfl⟩
  obtain ⟨h1, h2, h3⟩ := key (if 0 ≤ r ∧ r < 128 then 1 else 4)
  revert h1 h2 h3
  generalize (if (encode s.c.pend).length + (if 0 ≤ r ∧ r < 128 then 1 else 4) > s.c.cap then s.flush else s) = q
  intro h1 h2 h3
  refine ⟨?_, by simp, h2, h3⟩
  rw [← h1]
  simp only [St.abs, Console.write, List.foldl_append, List.foldl_cons, List.foldl_nil]

theorem escSeq_frame {s : St} {r : Rune} (hn : ¬ (r = 109 ∧ St.colour 0 s.c.arg = .ok none)) {more : Bool} {t : St}
    (h : St.escSeq ⟨{ arg := s.c.arg }, s.k⟩ r = .ok (more, t)) :
    s.escSeq r = .ok (more, { c := { s.c with arg := t.c.arg }, k := t.k }) := by
  unfold St.escSeq at h ⊢
  split at h
  · next h0 => rw [if_pos h0]; cases h; rfl
  · next h0 =>
    rw [if_neg h0]
    split at h
    · next h1 => rw [if_pos h1]; cases h; rfl
    · next h1 =>
      rw [if_neg h1]
      split at h
      · next h2 => rw [if_pos h2]; cases h; rfl
      · next h2 =>
        rw [if_neg h2]
        split at h
        · next h3 =>
          rw [if_pos h3]
          obtain ⟨c, hc, h⟩ := R.bind_inv h
          have hc : St.colour 0 s.c.arg = .ok c := hc
          rw [hc]
          cases c with
          | none => exact absurd ⟨h3, hc⟩ hn
          | some a => cases h; rfl
        · next h3 =>
          rw [if_neg h3]
          split at h
          · next h4 => rw [if_pos h4]; cases h; rfl
          · next h4 =>
            rw [if_neg h4]
            split at h
            · next h5 =>
              rw [if_pos h5]
              split at h
              · next h6 => rw [if_pos h6]; cases h; rfl
              · next h6 => rw [if_neg h6]; cases h; rfl
            · next h5 => rw [if_neg h5]; cases h; rfl

/-- One rune: the buffering cannot be observed. -/
theorem process_abs {s : St} (h : Inv s) {r : Rune} {a : Abs} (hs : s.abs.step r = some a) :
    ∃ s', s.process r = .ok s' ∧ Inv s' ∧ s'.abs = a := by
  unfold St.process
  dsimp only
  have key : ∃ q, (if s.c.wantFlush = true ∧ (r = 0 ∨ r = 27) then { s.flush with c := { s.flush.c with wantFlush := false } } else s) = q ∧
      Inv q ∧ q.abs = s.abs ∧ (r = 27 → q.c.pend = []) := by
    split
    · exact ⟨_, rfl, ⟨fun h => absurd rfl h, fun _ => rfl⟩, rfl, fun _ => rfl⟩
    · next hn =>
      refine ⟨_, rfl, h, rfl, fun hr => ?_⟩
      by_cases hp : s.c.pend = []
      · exact hp
      · exact absurd ⟨h.want hp, .inr hr⟩ hn
  obtain ⟨q, hq, hi, ha, hp⟩ := key
  rw [hq]
  rw [← ha] at hs
  clear hq h ha s
  unfold Abs.step at hs
  split at hs
  · next h1 =>
    have h1 : q.c.isEscSeq = true := h1
    have hpe := hi.seq (.inr h1)
    rw [if_pos h1]
    split at hs
    · cases hs
    · next h2 =>
      split at hs
      · next more t he =>
        cases hs
        have he : St.escSeq ⟨{ arg := q.c.arg }, q.k⟩ r = .ok (more, t) := by
          have : q.abs.k = q.k := by simp [St.abs, hpe, Console.write]
          rw [this] at he; exact he
        rw [escSeq_frame h2 he]
        refine ⟨_, rfl, ⟨fun h => absurd hpe h, fun _ => hpe⟩, ?_⟩
        simp [St.abs, hpe, Console.write]
      · cases hs
  · next h1 =>
    have h1 : ¬ q.c.isEscSeq = true := h1
    rw [if_neg h1]
    split at hs
    · next h2 =>
      cases hs
      rw [if_pos h2]
      exact ⟨_, rfl, ⟨fun h => absurd (hp h2) h, fun _ => hp h2⟩, rfl⟩
    · next h2 =>
      rw [if_neg h2]
      split at hs
      · next h3 =>
        have h3 : q.c.isEsc = true := h3
        split at hs
        · next h4 =>
          cases hs
          rw [if_pos ⟨h4, h3⟩]
          have hpe := hi.seq (.inl h3)
          exact ⟨_, rfl, ⟨fun h => absurd hpe h, fun _ => hpe⟩, rfl⟩
        · cases hs
      · next h3 =>
        have h3 : ¬ q.c.isEsc = true := h3
        cases hs
        rw [if_neg (by simp [h3])]
        obtain ⟨p1, p2, p3, p4⟩ := put_abs q r
        refine ⟨_, rfl, ⟨fun _ => rfl, fun h => ?_⟩, p1⟩
        rcases h with h | h
        · have h : (q.put r).c.isEsc = true := h
          rw [p3] at h; exact absurd h h3
        · have h : (q.put r).c.isEscSeq = true := h
          rw [p4] at h; exact absurd h h1

theorem processAll_abs {rs : List Rune} : ∀ {s : St}, Inv s → ∀ {a : Abs}, s.abs.steps rs = some a →
    ∃ s', s.processAll rs = .ok s' ∧ Inv s' ∧ s'.abs = a := by
  induction rs with
  | nil => intro s h a hs; cases hs; exact ⟨s, rfl, h, rfl⟩
  | cons r rs ih =>
    intro s h a hs
    simp only [Abs.steps, Option.bind_eq_some_iff] at hs
    obtain ⟨b, hb, hs⟩ := hs
    obtain ⟨s1, e1, i1, rfl⟩ := process_abs h hb
    obtain ⟨s2, e2, i2, a2⟩ := ih i1 hs
    exact ⟨s2, by rw [St.processAll, e1]; exact e2, i2, a2⟩

/-- Whatever calls of `Write` the stream is cut into. -/
theorem writes_abs {bss : List (List Nat)} : ∀ {s : St}, Inv s → ∀ {a : Abs}, s.abs.steps (bss.map decode).flatten = some a →
    (bss ≠ [] ∨ s.c.pend = []) → ∃ s', s.writes bss = .ok s' ∧ Inv s' ∧ s'.abs = a ∧ s'.c.pend = [] := by
  induction bss with
  | nil => intro s h a hs hp; cases hs; exact ⟨s, rfl, h, rfl, by simpa using hp⟩
  | cons b bss ih =>
    intro s h a hs hp
    rw [List.map_cons, List.flatten_cons, Abs.steps_append, Option.bind_eq_some_iff] at hs
    obtain ⟨a1, h1, hs⟩ := hs
    obtain ⟨s1, e1, i1, rfl⟩ := processAll_abs h h1
    obtain ⟨f1, f2⟩ := i1.flush
    rw [← f2] at hs
    obtain ⟨s2, e2, i2, a2, p2⟩ := ih f1 hs (.inr rfl)
    exact ⟨s2, by rw [St.writes, St.write, e1]; exact e2, i2, a2, p2⟩

/-! ### Control sequences -/

/-- In the middle of a control sequence. -/
theorem step_digit {k : Console} {arg : List (List Rune)} {c : Rune} (h : 48 ≤ c ∧ c ≤ 57) :
    Abs.step ⟨false, true, arg, k⟩ c = some ⟨false, true, St.addRune c arg, k⟩ := by
  unfold Abs.step St.escSeq
  rw [if_pos rfl, if_neg (by omega), if_neg (by omega), if_neg (by omega), if_neg (by omega), if_neg (by omega), if_neg (by omega),
    if_neg (by omega)]

theorem steps_digits {k : Console} {ds : List Rune} (h : ∀ c ∈ ds, 48 ≤ c ∧ c ≤ 57) : ∀ (arg : List (List Rune)) (l : List Rune),
    Abs.steps ⟨false, true, arg ++ [l], k⟩ ds = some ⟨false, true, arg ++ [l ++ ds], k⟩ := by
  induction ds with
  | nil => intro arg l; simp [Abs.steps]
  | cons d ds ih =>
    intro arg l
    rw [Abs.steps, step_digit (h d (List.mem_cons_self ..))]
    have : St.addRune d (arg ++ [l]) = arg ++ [l ++ [d]] := by
      induction arg with
      | nil => rfl
      | cons a arg ih2 =>
        cases arg with
        | nil => simp [St.addRune]
        | cons b arg => simp only [List.cons_append] at ih2 ⊢; simp only [St.addRune, ih2]
    rw [this, Option.bind_some, ih (fun c hc => h c (List.mem_cons_of_mem _ hc))]
    simp

theorem steps_number {k : Console} (n : Nat) : Abs.steps ⟨false, true, [], k⟩ (itoa (n : Int)) = some ⟨false, true, [itoa (n : Int)], k⟩ := by
  have h := itoa_ascii n
  have hne := itoa_ne n
  cases hi : itoa (n : Int) with
  | nil => exact absurd hi hne
  | cons d ds =>
    rw [hi] at h
    rw [Abs.steps, step_digit (h d (List.mem_cons_self ..))]
    have := steps_digits (k := k) (ds := ds) (fun c hc => h c (List.mem_cons_of_mem _ hc)) [] [d]
    simpa [St.addRune] using this

theorem step_open (k : Console) (arg : List (List Rune)) (rs : List Rune) :
    Abs.steps ⟨false, false, arg, k⟩ (27 :: 91 :: rs) = Abs.steps ⟨false, true, [], k⟩ rs := by
  simp [Abs.steps, Abs.step]

/-- The size of the buffer for which `killLines` counts right. -/
def Small (k : Console) : Prop := k.h * k.w ≤ 32768

theorem toDword_neg {n : Nat} (h : 0 < n) (h' : n ≤ 32768) : toDword (-(n : Int)) = 2 ^ 32 - n := by unfold toDword; omega

theorem pos_lt {k : Console} (h : k.Ok) : k.pos < k.h * k.w := by
  unfold pos
  have h1 := Nat.mul_le_mul_right k.w (Nat.succ_le_of_lt h.y)
  rw [Nat.succ_mul] at h1
  have := h.x
  omega

theorem killLines_eq {s : St} (h : s.k.Ok) (hs : Small s.k) : s.killLines.k = s.k.piece .eraseBelow := by
  have h1 := pos_lt h
  have hsm : s.k.h * s.k.w ≤ 32768 := hs
  unfold pos at h1
  have e1 : toShort ((s.k.y : Int) - s.k.h) = -((s.k.h - s.k.y : Nat) : Int) := by
    have := h.y; have := h.h
    rw [toShort_id (by omega) (by omega)]; omega
  have e0 : (s.k.h - s.k.y) * s.k.w = s.k.h * s.k.w - s.k.y * s.k.w := Nat.sub_mul ..
  have e2 : toShort (-((s.k.h - s.k.y : Nat) : Int) * s.k.w) = -(((s.k.h - s.k.y) * s.k.w : Nat) : Int) := by
    rw [Int.neg_mul, ← Int.natCast_mul, toShort_id (by omega) (by omega)]
  have e3 : toShort (-(((s.k.h - s.k.y) * s.k.w : Nat) : Int) + s.k.x) = -((s.k.h * s.k.w - (s.k.y * s.k.w + s.k.x) : Nat) : Int) := by
    rw [toShort_id (by omega) (by omega)]; omega
  unfold St.killLines
  dsimp only
  rw [e1, e2, e3, toDword_neg (by omega) (by omega)]
  unfold fillAttr fillChar piece pos
  have hc : (0 : Int) ≤ (s.k.x : Int) ∧ (s.k.x : Int) < s.k.w ∧ (0 : Int) ≤ (s.k.y : Int) ∧ (s.k.y : Int) < s.k.h := by
    have := h.x; have := h.y; omega
  rw [if_pos hc]
  dsimp only
  rw [if_pos hc]
  simp only [Int.toNat_natCast]
  congr 1
  funext i
  have hi : ∀ a, (a ≤ i ∧ i < a + (2 ^ 32 - (s.k.h * s.k.w - (s.k.y * s.k.w + s.k.x))) ∧ i < s.k.h * s.k.w) ↔ (a ≤ i ∧ i < s.k.h * s.k.w) := by
    intro a; omega
  by_cases hi2 : s.k.y * s.k.w + s.k.x ≤ i ∧ i < s.k.h * s.k.w
  · rw [if_pos hi2, if_pos ((hi _).2 hi2)]
    simp [(hi (s.k.y * s.k.w + s.k.x)).2 hi2]
  · rw [if_neg hi2, if_neg (fun h => hi2 ((hi _).1 h)), if_neg (fun h => hi2 ((hi _).1 h))]

theorem eraseLine_eq {s : St} (h : s.k.Ok) : s.eraseLine.k = s.k.piece .eraseLine := by
  unfold St.eraseLine fillChar piece
  have hx := h.x
  have hy := h.y
  have hw := h.w
  have h1 := Nat.mul_le_mul_right s.k.w (Nat.succ_le_of_lt h.y)
  rw [Nat.succ_mul] at h1
  rw [if_pos (by omega)]
  dsimp only
  have : toDword s.k.w = s.k.w := by unfold toDword; omega
  rw [this]
  congr 1
  funext i
  simp only [Int.toNat_natCast, Nat.add_mul, Nat.one_mul, Int.toNat_zero, Nat.add_zero]
  by_cases hi : s.k.y * s.k.w ≤ i ∧ i < s.k.y * s.k.w + s.k.w
  · rw [if_pos hi, if_pos (by omega)]
  · rw [if_neg hi, if_neg (by omega)]

theorem step_move {k : Console} (hk : k.Ok) {n : Nat} (hn : n < 32768) {r : Rune} (hr : 65 ≤ r ∧ r ≤ 68) (arg : List (List Rune))
    (ha : getInt arg 1 = n) :
    Abs.step ⟨false, true, arg, k⟩ r = some ⟨false, false, arg,
      k.piece (if r = 65 then .up n else if r = 66 then .down n else if r = 67 then .right n else .left n)⟩ := by
  unfold Abs.step
  rw [if_pos rfl, if_neg (by omega)]
  unfold St.escSeq
  rw [if_pos hr]
  dsimp only
  congr 2
  unfold St.move
  dsimp only
  have e0 : toShort (getInt arg 1) = n := by rw [ha]; exact toShort_id (by omega) (by omega)
  rw [e0]
  have := hk.x; have := hk.y; have := hk.w; have := hk.h
  unfold setCursor
  have hr2 : r = 65 ∨ r = 66 ∨ r = 67 ∨ r = 68 := by omega
  rcases hr2 with rfl | rfl | rfl | rfl <;>
    simp only [piece, show (66 : Int) ≠ 65 by decide, show (67 : Int) ≠ 65 by decide, show (68 : Int) ≠ 65 by decide,
      show (67 : Int) ≠ 66 by decide, show (68 : Int) ≠ 66 by decide, show (68 : Int) ≠ 67 by decide, show (65 : Int) ≠ 67 by decide,
      show (65 : Int) ≠ 68 by decide, show (66 : Int) ≠ 67 by decide, show (66 : Int) ≠ 68 by decide, if_true, if_false]
  · by_cases hc : n ≤ k.y
    · rw [if_pos hc, toShort_id (by omega) (by omega), if_pos (by omega), show ((k.y : Int) - n).toNat = k.y - n by omega]
      rfl
    · rw [if_neg hc, if_neg]; unfold toShort; omega
  · by_cases hc : k.y + n < k.h
    · rw [if_pos hc, toShort_id (by omega) (by omega), if_pos (by omega), show ((k.y : Int) + n).toNat = k.y + n by omega]
      rfl
    · rw [if_neg hc, if_neg]; unfold toShort; omega
  · by_cases hc : k.x + n < k.w
    · rw [if_pos hc, toShort_id (by omega) (by omega), if_pos (by omega), show ((k.x : Int) + n).toNat = k.x + n by omega]
      rfl
    · rw [if_neg hc, if_neg]; unfold toShort; omega
  · by_cases hc : n ≤ k.x
    · rw [if_pos hc, toShort_id (by omega) (by omega), if_pos (by omega), show ((k.x : Int) - n).toNat = k.x - n by omega]
      rfl
    · rw [if_neg hc, if_neg]; unfold toShort; omega

theorem step_colour {k : Console} {arg : List (List Rune)} {a : Nat} (h : St.colour 0 arg = .ok (some a)) :
    Abs.step ⟨false, true, arg, k⟩ 109 = some ⟨false, false, [], k.setAttr a⟩ := by
  unfold Abs.step
  rw [if_pos rfl, if_neg (by rw [h]; simp)]
  have : St.escSeq ⟨{ arg := arg }, k⟩ 109 = .ok (false, ⟨{ arg := [] }, k.setAttr a⟩) := by
    unfold St.escSeq
    rw [if_neg (by omega), if_neg (by omega), if_neg (by omega), if_pos rfl, h]
    rfl
  dsimp only
  rw [this]

theorem colour_fg {n : Nat} (hn : n < 8) : St.colour 0 [itoa (30 + n : Nat)] = .ok (some (8 + ansi n)) := by
  unfold St.colour
  rw [atoi_itoa (by omega)]
  have : n = 0 ∨ n = 1 ∨ n = 2 ∨ n = 3 ∨ n = 4 ∨ n = 5 ∨ n = 6 ∨ n = 7 := by omega
  rcases this with rfl | rfl | rfl | rfl | rfl | rfl | rfl | rfl <;> rfl

theorem colour_both {f b : Nat} (hf : f < 8) (hb : b < 8) :
    St.colour 0 [itoa (30 + f : Nat), itoa (40 + b : Nat)] = .ok (some (8 + ansi f + 16 * (8 + ansi b))) := by
  unfold St.colour
  rw [atoi_itoa (by omega)]
  have : f = 0 ∨ f = 1 ∨ f = 2 ∨ f = 3 ∨ f = 4 ∨ f = 5 ∨ f = 6 ∨ f = 7 := by omega
  have : b = 0 ∨ b = 1 ∨ b = 2 ∨ b = 3 ∨ b = 4 ∨ b = 5 ∨ b = 6 ∨ b = 7 := by omega
  have e : ∀ c, St.colour c [itoa (40 + b : Nat)] = .ok (some ((c ^^^ 0x80) ||| (16 * ansi b))) := by
    intro c
    unfold St.colour
    rw [atoi_itoa (by omega)]
    rcases this with rfl | rfl | rfl | rfl | rfl | rfl | rfl | rfl <;> rfl
  have e2 : ∀ c, c < 16 → (c ^^^ 0x80) ||| (16 * ansi b) = c + 16 * (8 + ansi b) := by
    rcases this with rfl | rfl | rfl | rfl | rfl | rfl | rfl | rfl <;> decide
  dsimp only
  rw [if_pos (by omega)]
  have e3 : getR colorTableFg ((30 + f : Nat) - 30 : Int).toNat = .ok (ansi f) := by
    rcases ‹f = 0 ∨ _› with rfl | rfl | rfl | rfl | rfl | rfl | rfl | rfl <;> rfl
  have e4 : (0 ^^^ 8) ||| ansi f = 8 + ansi f ∧ 8 + ansi f < 16 := by
    rcases ‹f = 0 ∨ _› with rfl | rfl | rfl | rfl | rfl | rfl | rfl | rfl <;> decide
  rw [e3, R.bind_ok, e4.1, e, e2 _ e4.2]

theorem write_scroll (k : Console) : k.scroll.w = k.w ∧ k.scroll.h = k.h ∧ k.scroll.x = k.x ∧ k.scroll.y = k.y := ⟨rfl, rfl, rfl, rfl⟩

theorem nextRow_ok {k : Console} (hw : 0 < k.w) (hy : k.y < k.h) (h1 : k.w < 32768) (h2 : k.h < 32768) :
    k.nextRow.Ok ∧ k.nextRow.w = k.w ∧ k.nextRow.h = k.h := by
  unfold nextRow
  split
  · next h => exact ⟨⟨hw, h, h1, h2⟩, rfl, rfl⟩
  · exact ⟨⟨hw, hy, h1, h2⟩, rfl, rfl⟩

theorem putc_ok {k : Console} (h : k.Ok) (c : Rune) : (k.putc c).Ok ∧ (k.putc c).w = k.w ∧ (k.putc c).h = k.h := by
  have := h.x
  unfold putc
  split
  · exact ⟨h, rfl, rfl⟩
  split
  · exact ⟨⟨by show k.x - 1 < k.w; omega, h.y, h.w, h.h⟩, rfl, rfl⟩
  split
  · exact ⟨⟨by show 0 < k.w; omega, h.y, h.w, h.h⟩, rfl, rfl⟩
  split
  · exact nextRow_ok (by omega) h.y h.w h.h
  dsimp only
  split
  · next hx => exact ⟨⟨hx, h.y, h.w, h.h⟩, rfl, rfl⟩
  · exact nextRow_ok (k := { k with cell := _ }) (by show 0 < k.w; omega) h.y h.w h.h

theorem piece_ok {k : Console} (h : k.Ok) (p : Piece) : (k.piece p).Ok ∧ (k.piece p).w = k.w ∧ (k.piece p).h = k.h := by
  have := h.x; have := h.y
  cases p with
  | char c => exact putc_ok h c
  | up n =>
    unfold piece; dsimp only; split
    · exact ⟨⟨h.x, by show k.y - n < k.h; omega, h.w, h.h⟩, rfl, rfl⟩
    · exact ⟨h, rfl, rfl⟩
  | up1 =>
    unfold piece; dsimp only; split
    · exact ⟨⟨h.x, by show k.y - 1 < k.h; omega, h.w, h.h⟩, rfl, rfl⟩
    · exact ⟨h, rfl, rfl⟩
  | down n =>
    unfold piece; dsimp only; split
    · next h' => exact ⟨⟨h.x, h', h.w, h.h⟩, rfl, rfl⟩
    · exact ⟨h, rfl, rfl⟩
  | right n =>
    unfold piece; dsimp only; split
    · next h' => exact ⟨⟨h', h.y, h.w, h.h⟩, rfl, rfl⟩
    · exact ⟨h, rfl, rfl⟩
  | left n =>
    unfold piece; dsimp only; split
    · exact ⟨⟨by show k.x - n < k.w; omega, h.y, h.w, h.h⟩, rfl, rfl⟩
    · exact ⟨h, rfl, rfl⟩
  | _ => exact ⟨⟨h.x, h.y, h.w, h.h⟩, rfl, rfl⟩

/-- One piece. -/
theorem steps_piece {k : Console} (hk : k.Ok) (hs : Small k) {p : Piece} (hp : p.Fine) (arg : List (List Rune)) :
    ∃ arg', Abs.steps ⟨false, false, arg, k⟩ p.chars = some ⟨false, false, arg', k.piece p⟩ := by
  have mv : ∀ (n : Nat) (r : Rune), n < 32768 → 65 ≤ r ∧ r ≤ 68 →
      Abs.steps ⟨false, false, arg, k⟩ ([27, 91] ++ itoa n ++ [r]) = some ⟨false, false, [itoa n],
        k.piece (if r = 65 then .up n else if r = 66 then .down n else if r = 67 then .right n else .left n)⟩ := by
    intro n r hn hr
    rw [show [27, 91] ++ itoa (n : Int) ++ [r] = 27 :: 91 :: (itoa (n : Int) ++ [r]) by simp, step_open, Abs.steps_append, steps_number,
      Option.bind_some, Abs.steps, step_move hk hn hr _ (by simp [getInt, atoi_itoa (show n < 2 ^ 63 by omega)])]
    rfl
  cases p with
  | char c =>
    refine ⟨arg, ?_⟩
    have : c ≠ 27 := hp.2
    simp [Piece.chars, Abs.steps, Abs.step, this, piece]
  | up n => exact ⟨_, mv n 65 hp (by omega)⟩
  | up1 =>
    refine ⟨[], ?_⟩
    rw [Piece.chars, step_open, Abs.steps, step_move hk (n := 1) (by omega) (by omega) [] rfl]
    rfl
  | down n => exact ⟨_, mv n 66 hp (by omega)⟩
  | right n => exact ⟨_, mv n 67 hp (by omega)⟩
  | left n => exact ⟨_, mv n 68 hp (by omega)⟩
  | eraseBelow =>
    refine ⟨[], ?_⟩
    rw [Piece.chars, step_open, Abs.steps, ← killLines_eq (s := ⟨{ arg := [] }, k⟩) hk hs]
    rfl
  | eraseLine =>
    refine ⟨[], ?_⟩
    rw [Piece.chars, step_open, ← eraseLine_eq (s := ⟨{ arg := [[50]] }, k⟩) hk]
    rfl
  | fg n =>
    refine ⟨[], ?_⟩
    rw [Piece.chars, show [27, 91] ++ itoa (30 + n : Nat) ++ [109] = 27 :: 91 :: (itoa (30 + n : Nat) ++ [109]) by simp, step_open,
      Abs.steps_append, steps_number, Option.bind_some, Abs.steps, step_colour (colour_fg hp)]
    rfl
  | both f b =>
    refine ⟨[], ?_⟩
    have h59 : Abs.step ⟨false, true, [itoa (30 + f : Nat)], k⟩ 59 = some ⟨false, true, [itoa (30 + f : Nat)] ++ [[]], k⟩ := by
      unfold Abs.step St.escSeq
      rw [if_pos rfl, if_neg (by omega), if_neg (by omega), if_neg (by omega), if_neg (by omega), if_neg (by omega), if_neg (by omega),
        if_pos rfl, if_pos (.inr (by simpa using itoa_ne (30 + f)))]
    rw [Piece.chars, show [27, 91] ++ itoa (30 + f : Nat) ++ [59] ++ itoa (40 + b : Nat) ++ [109] =
      27 :: 91 :: (itoa (30 + f : Nat) ++ 59 :: (itoa (40 + b : Nat) ++ [109])) by simp, step_open,
      Abs.steps_append, steps_number, Option.bind_some, Abs.steps, h59, Option.bind_some, Abs.steps_append,
      steps_digits (itoa_ascii _), Option.bind_some, Abs.steps]
    rw [show [itoa (30 + f : Nat)] ++ [[] ++ itoa (40 + b : Nat)] = [itoa (30 + f : Nat), itoa (40 + b : Nat)] by simp,
      step_colour (colour_both hp.1 hp.2)]
    rfl
  | underline => exact ⟨[], by rw [Piece.chars, step_open]; rfl⟩
  | reset => exact ⟨[], by rw [Piece.chars, step_open]; rfl⟩

theorem steps_pieces {ps : List Piece} : ∀ {k : Console}, k.Ok → Small k → (∀ p ∈ ps, p.Fine) → ∀ (arg : List (List Rune)),
    ∃ arg', Abs.steps ⟨false, false, arg, k⟩ (ps.flatMap Piece.chars) = some ⟨false, false, arg', k.pieces ps⟩ := by
  induction ps with
  | nil => intro k _ _ _ arg; exact ⟨arg, rfl⟩
  | cons p ps ih =>
    intro k hk hs hp arg
    obtain ⟨a1, h1⟩ := steps_piece hk hs (hp p (List.mem_cons_self ..)) arg
    obtain ⟨k1, k2, k3⟩ := piece_ok hk p
    obtain ⟨a2, h2⟩ := ih k1 (by unfold Small; rw [k2, k3]; exact hs) (fun q hq => hp q (List.mem_cons_of_mem _ hq)) a1
    exact ⟨a2, by rw [List.flatMap_cons, Abs.steps_append, h1, Option.bind_some, h2]; rfl⟩

theorem pieces_ok {ps : List Piece} : ∀ {k : Console}, k.Ok → (k.pieces ps).Ok ∧ (k.pieces ps).w = k.w ∧ (k.pieces ps).h = k.h := by
  induction ps with
  | nil => intro k h; exact ⟨h, rfl, rfl⟩
  | cons p ps ih =>
    intro k h
    obtain ⟨a, b, c⟩ := piece_ok h p
    obtain ⟨d, e, f⟩ := ih a
    exact ⟨d, e.trans b, f.trans c⟩

end RL.Win
