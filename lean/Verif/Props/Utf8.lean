import Verif.Proofs.Utf8
/-! # C60: text survives the byte encoding -/

namespace RL
open Spec

/-- C60.  Encoding a line and decoding it again gives the line with every rune that is not a Unicode scalar value replaced
by U+FFFD; in particular a line of scalar values comes back unchanged. -/
theorem C60_roundtrip (s : List Rune) :
    decode (encode s) = s.map (fun r => open Classical in if Scalar r then r else 0xFFFD) ∧
    ((∀ r ∈ s, Scalar r) → decode (encode s) = s) :=
  ⟨decode_encode s, fun h => by rw [decode_encode, map_scalarize_id h]⟩

/-- The bytes are those of the UTF-8 standard, rune after rune, each below 256. -/
theorem C60_standard (r : Rune) (rest : List Rune) :
    (Scalar r → Utf8 r (encodeRune r)) ∧ (¬ Scalar r → Utf8 0xFFFD (encodeRune r)) ∧
    encode (r :: rest) = encodeRune r ++ encode rest ∧ ∀ b ∈ encodeRune r, b < 256 := by
  have h := encodeRune_utf8 r
  refine ⟨fun hs => ?_, fun hs => ?_, rfl, fun b hb => (utf8_byte h.1 b hb).1⟩
  · have h1 := h.1; rwa [scalarize_id hs] at h1
  · have h1 := h.1; rwa [scalarize, if_neg hs] at h1

/-- The newline byte occurs exactly where the newline rune is: the bytes can be cut at newline bytes and the pieces
decoded separately. -/
theorem C60_newline (s t : List Rune) :
    (10 ∈ encode s ↔ (10 : Rune) ∈ s) ∧
    encode (s ++ 10 :: t) = encode s ++ 10 :: encode t ∧
    (∀ p q, encode s = p ++ 10 :: q → ∃ u v, s = u ++ 10 :: v ∧ p = encode u ∧ q = encode v) := by
  refine ⟨mem_encode (b := 10) (by omega), ?_, ?_⟩
  · rw [encode_append, encode, show encodeRune 10 = [10] from rfl]; rfl
  · induction s with
    | nil => intro p q h; simp [encode] at h
    | cons r s ih =>
      intro p q h
      rw [encode, List.append_eq_append_iff] at h
      rcases h with ⟨a, h1, h2⟩ | ⟨c, h1, h2⟩
      · obtain ⟨u, v, rfl, rfl, rfl⟩ := ih a q h2
        exact ⟨r :: u, v, by simp, by simp [encode, h1], rfl⟩
      · cases c with
        | nil =>
          obtain ⟨u, v, rfl, h3, rfl⟩ := ih [] q (by simpa using h2.symm)
          exact ⟨r :: u, v, by simp, by simp only [encode, ← h3]; simpa using h1.symm, rfl⟩
        | cons b c =>
          simp only [List.cons_append, List.cons.injEq] at h2
          obtain ⟨rfl, h2⟩ := h2
          obtain ⟨h3, h4⟩ := mem_encodeRune (r := r) (b := 10) (by rw [h1]; simp) (by omega)
          rw [h4] at h1
          have hp : p = [] ∧ c = [] := by
            cases p with
            | nil => simpa using h1
            | cons x p => simp at h1
          obtain ⟨rfl, rfl⟩ := hp
          exact ⟨[], s, by simp [h3], by simp [encode], by simpa using h2⟩

/-- What decoding one rune yields is backed by the standard: an encoded scalar value, or U+FFFD for one byte. -/
theorem decodeRune_sound (b : Nat) (bs : List Nat) :
    (∃ e rest, b :: bs = e ++ rest ∧ Utf8 (decodeRune (b :: bs)).1 e ∧ Scalar (decodeRune (b :: bs)).1 ∧ (decodeRune (b :: bs)).2 = e.length) ∨
      decodeRune (b :: bs) = (0xFFFD, 1) := by
  generalize hd : decodeRune (b :: bs) = d
  simp only [decodeRune] at hd
  by_cases h0 : b < 0x80
  · rw [if_pos h0] at hd
    subst hd
    exact .inl ⟨[b], bs, rfl, .one b h0, ⟨by dsimp only; omega, by dsimp only; omega, by dsimp only; omega⟩, rfl⟩
  rw [if_neg h0] at hd
  match bs, hd with
  | [], hd => exact .inr hd.symm
  | b1 :: bs, hd =>
  dsimp only at hd
  by_cases h : 0xC2 ≤ b ∧ b ≤ 0xDF ∧ contByte b1
  · rw [if_pos h] at hd
    subst hd
    obtain ⟨h1, h2, h3⟩ := h
    simp only [contByte, Bool.and_eq_true, decide_eq_true_eq] at h3
    left
    refine ⟨[b, b1], bs, rfl, ?_, ⟨by dsimp only; omega, by dsimp only; omega, by dsimp only; omega⟩, rfl⟩
    have := Utf8.two (b - 0xC0) (b1 - 0x80) (by omega) (by omega) (by omega)
    rwa [show 0xC0 + (b - 0xC0) = b by omega, show 0x80 + (b1 - 0x80) = b1 by omega] at this
  rw [if_neg h] at hd
  match bs, hd with
  | [], hd => exact .inr hd.symm
  | b2 :: bs, hd =>
  dsimp only at hd
  by_cases h : 0xE0 ≤ b ∧ b ≤ 0xEF ∧ secondOK b b1 ∧ contByte b2
  · rw [if_pos h] at hd
    subst hd
    obtain ⟨h3, h4, h5, h6⟩ := h
    simp only [contByte, Bool.and_eq_true, decide_eq_true_eq] at h6
    have h7 : 0x80 ≤ b1 ∧ b1 ≤ 0xBF ∧ (b = 0xE0 → 0xA0 ≤ b1) ∧ (b = 0xED → b1 ≤ 0x9F) := by
      unfold secondOK at h5
      split at h5
      · simp at h5; omega
      split at h5
      · simp at h5; omega
      split at h5
      · omega
      split at h5
      · omega
      simp [contByte] at h5; omega
    left
    refine ⟨[b, b1, b2], bs, rfl, ?_, ⟨by dsimp only; omega, by dsimp only; omega, by dsimp only; omega⟩, rfl⟩
    have := Utf8.three (b - 0xE0) (b1 - 0x80) (b2 - 0x80) (by omega) (by omega) (by omega) (by omega)
    rwa [show 0xE0 + (b - 0xE0) = b by omega, show 0x80 + (b1 - 0x80) = b1 by omega, show 0x80 + (b2 - 0x80) = b2 by omega] at this
  rw [if_neg h] at hd
  match bs, hd with
  | [], hd => exact .inr hd.symm
  | b3 :: bs, hd =>
  dsimp only at hd
  by_cases h : 0xF0 ≤ b ∧ b ≤ 0xF4 ∧ secondOK b b1 ∧ contByte b2 ∧ contByte b3
  · rw [if_pos h] at hd
    subst hd
    obtain ⟨h3, h4, h5, h6, h8⟩ := h
    simp only [contByte, Bool.and_eq_true, decide_eq_true_eq] at h6 h8
    have h7 : 0x80 ≤ b1 ∧ b1 ≤ 0xBF ∧ (b = 0xF0 → 0x90 ≤ b1) ∧ (b = 0xF4 → b1 ≤ 0x8F) := by
      unfold secondOK at h5
      split at h5
      · omega
      split at h5
      · omega
      split at h5
      · simp at h5; omega
      split at h5
      · simp at h5; omega
      simp [contByte] at h5; omega
    left
    refine ⟨[b, b1, b2, b3], bs, rfl, ?_, ⟨by dsimp only; omega, by dsimp only; omega, by dsimp only; omega⟩, rfl⟩
    have := Utf8.four (b - 0xF0) (b1 - 0x80) (b2 - 0x80) (b3 - 0x80) (by omega) (by omega) (by omega) (by omega) (by omega)
    rwa [show 0xF0 + (b - 0xF0) = b by omega, show 0x80 + (b1 - 0x80) = b1 by omega, show 0x80 + (b2 - 0x80) = b2 by omega,
      show 0x80 + (b3 - 0x80) = b3 by omega] at this
  · rw [if_neg h] at hd
    exact .inr hd.symm

/-- Decoding arbitrary bytes: if they start with the UTF-8 encoding of a scalar value, that value is read; otherwise (cut off,
overlong, a surrogate, too large, or no UTF-8 at all) one byte is read as U+FFFD.  No input fails. -/
theorem C60_decode (b : Nat) (bs : List Nat) :
    (∀ r e rest, b :: bs = e ++ rest → Scalar r → Utf8 r e → decode (b :: bs) = r :: decode rest) ∧
    ((∀ r e rest, b :: bs = e ++ rest → Scalar r → ¬ Utf8 r e) → decode (b :: bs) = 0xFFFD :: decode bs) := by
  refine ⟨fun r e rest h hs hu => by rw [h]; exact decode_utf8 hu hs rest, fun h => ?_⟩
  rcases decodeRune_sound b bs with ⟨e, rest, h1, h2, h3, _⟩ | h1
  · exact (h _ e rest h1 h3 h2).elim
  · show (decodeRune (b :: bs)).1 :: decodeGo ((decodeRune (b :: bs)).2 - 1) bs = _
    rw [h1]; rfl

-- overlong "/", a surrogate, a value beyond U+10FFFF: every byte becomes U+FFFD
example : decode [0xc0, 0xaf, 0xed, 0xa0, 0x80, 0xf4, 0x90, 0x80, 0x80] = List.replicate 9 0xfffd := by decide

-- "é世😀" and an invalid surrogate
example : encode [0xe9, 0x4e16, 0x1f600, 0xd800] =
    [0xc3, 0xa9, 0xe4, 0xb8, 0x96, 0xf0, 0x9f, 0x98, 0x80, 0xef, 0xbf, 0xbd] := by decide
example : ∀ r ∈ [0xe9, 0x4e16, 0x1f600], Scalar r := by simp [Scalar]
example : decode [0xc3, 0xa9, 0xff, 0x61, 0xe4, 0xb8] = [0xe9, 0xfffd, 0x61, 0xfffd, 0xfffd] := by decide

end RL
