import Verif.Model.Utf8
import Verif.Spec.Utf8
/-! Lemmas for C60. -/

namespace RL
open Spec

theorem validRune_iff (r : Rune) : validRune r = true ↔ Scalar r := by
  simp only [validRune, Scalar, Bool.or_eq_true, Bool.and_eq_true, decide_eq_true_eq]
  omega

theorem encodeValid_utf8 (n : Nat) (h : n ≤ 0x10FFFF) : Utf8 n (encodeValid n) := by
  unfold encodeValid
  split
  · exact .one n (by omega)
  · split
    · have := Utf8.two (n / 64) (n % 64) (by omega) (by omega) (by omega)
      rwa [show n / 64 * 64 + n % 64 = n by omega] at this
    · split
      · have := Utf8.three (n / 4096) (n / 64 % 64) (n % 64) (by omega) (by omega) (by omega) (by omega)
        rwa [show n / 4096 * 4096 + n / 64 % 64 * 64 + n % 64 = n by omega] at this
      · have := Utf8.four (n / 262144) (n / 4096 % 64) (n / 64 % 64) (n % 64) (by omega) (by omega) (by omega) (by omega)
          (by omega)
        rwa [show n / 262144 * 262144 + n / 4096 % 64 * 4096 + n / 64 % 64 * 64 + n % 64 = n by omega] at this

/-- Decoding the standard encoding of a scalar value. -/
theorem decodeRune_utf8 {r : Rune} {bs : List Nat} (h : Utf8 r bs) (hs : Scalar r) (rest : List Nat) :
    decodeRune (bs ++ rest) = (r, bs.length) := by
  obtain ⟨h1, h2, h3⟩ := hs
  cases h with
  | one a ha => simp [decodeRune, ha]
  | two a b ha hb hab =>
    have c1 : ¬ (0xC0 + a < 0x80) := by omega
    have c2 : 0xC2 ≤ 0xC0 + a ∧ 0xC0 + a ≤ 0xDF ∧ contByte (0x80 + b) = true := by
      simp only [contByte, Bool.and_eq_true, decide_eq_true_eq]; omega
    simp only [List.cons_append, List.nil_append, decodeRune, c1, if_false]
    rw [if_pos c2]
    simp
  | three a b c ha hb hc hab =>
    have c1 : ¬ (0xE0 + a < 0x80) := by omega
    have c2 : ¬ (0xC2 ≤ 0xE0 + a ∧ 0xE0 + a ≤ 0xDF ∧ contByte (0x80 + b) = true) := by omega
    have c3 : 0xE0 ≤ 0xE0 + a ∧ 0xE0 + a ≤ 0xEF ∧ secondOK (0xE0 + a) (0x80 + b) = true ∧ contByte (0x80 + c) = true := by
      simp only [contByte, secondOK, Bool.and_eq_true, decide_eq_true_eq]
      refine ⟨by omega, by omega, ?_, by omega⟩
      repeat' split
      all_goals simp only [Bool.and_eq_true, decide_eq_true_eq]; omega
    simp only [List.cons_append, List.nil_append, decodeRune, c1, if_false]
    rw [if_neg c2, if_pos c3]
    simp
  | four a b c d ha hb hc hd hab =>
    have c1 : ¬ (0xF0 + a < 0x80) := by omega
    have c2 : ¬ (0xC2 ≤ 0xF0 + a ∧ 0xF0 + a ≤ 0xDF ∧ contByte (0x80 + b) = true) := by omega
    have c3 : ¬ (0xE0 ≤ 0xF0 + a ∧ 0xF0 + a ≤ 0xEF ∧ secondOK (0xF0 + a) (0x80 + b) = true ∧ contByte (0x80 + c) = true) := by
      omega
    have c4 : 0xF0 ≤ 0xF0 + a ∧ 0xF0 + a ≤ 0xF4 ∧ secondOK (0xF0 + a) (0x80 + b) = true ∧ contByte (0x80 + c) = true ∧
        contByte (0x80 + d) = true := by
      simp only [contByte, secondOK, Bool.and_eq_true, decide_eq_true_eq]
      refine ⟨by omega, by omega, ?_, by omega, by omega⟩
      repeat' split
      all_goals simp only [Bool.and_eq_true, decide_eq_true_eq]; omega
    simp only [List.cons_append, List.nil_append, decodeRune, c1, if_false]
    rw [if_neg c2, if_neg c3, if_pos c4]
    simp

theorem decodeGo_drop (k : Nat) (bs : List Nat) : decodeGo k bs = decode (bs.drop k) := by
  induction bs generalizing k with
  | nil => cases k <;> simp [decode, decodeGo]
  | cons b bs ih =>
    cases k with
    | zero => rfl
    | succ k => simp [decodeGo, ih]

theorem utf8_ne_nil {r : Rune} {bs} (h : Utf8 r bs) : bs ≠ [] := by cases h <;> simp

theorem decode_utf8 {r : Rune} {bs : List Nat} (h : Utf8 r bs) (hs : Scalar r) (rest : List Nat) :
    decode (bs ++ rest) = r :: decode rest := by
  have h1 := decodeRune_utf8 h hs rest
  match bs, utf8_ne_nil h with
  | b :: bs, _ =>
    simp only [List.cons_append] at h1 ⊢
    rw [decode, decodeGo, h1, decodeGo_drop]
    simp

theorem encodeRune_utf8 (r : Rune) : Utf8 (scalarize r) (encodeRune r) ∧ Scalar (scalarize r) := by
  unfold encodeRune scalarize
  by_cases h : Scalar r
  · rw [if_pos h, if_pos ((validRune_iff r).2 h)]
    have h' := h
    unfold Scalar at h'
    have := encodeValid_utf8 r.toNat (by omega)
    rw [Int.toNat_of_nonneg h'.1] at this
    exact ⟨this, h⟩
  · rw [if_neg h, if_neg (fun hh => h ((validRune_iff r).1 hh))]
    exact ⟨encodeValid_utf8 0xFFFD (by omega), by unfold Scalar; omega⟩

theorem decode_encode (s : List Rune) : decode (encode s) = s.map scalarize := by
  induction s with
  | nil => rfl
  | cons r s ih =>
    rw [encode, decode_utf8 (encodeRune_utf8 r).1 (encodeRune_utf8 r).2, ih]
    rfl

theorem encode_append (s t : List Rune) : encode (s ++ t) = encode s ++ encode t := by
  induction s with
  | nil => rfl
  | cons r s ih => simp [encode, ih]

theorem utf8_byte {r : Rune} {bs} (h : Utf8 r bs) : ∀ b ∈ bs, b < 256 ∧ (b < 0x80 → r = b ∧ bs = [b]) := by
  cases h <;> simp only [List.mem_cons, List.not_mem_nil, or_false] <;> intro b hb
  · subst hb; exact ⟨by omega, fun _ => ⟨rfl, rfl⟩⟩
  all_goals exact ⟨by omega, fun _ => by omega⟩

theorem mem_encodeRune {r : Rune} {b : Nat} (hb : b ∈ encodeRune r) (h : b < 0x80) : r = b ∧ encodeRune r = [b] := by
  obtain ⟨h1, h2⟩ := (utf8_byte (encodeRune_utf8 r).1 b hb).2 h
  refine ⟨?_, h2⟩
  unfold scalarize at h1
  split at h1
  · exact h1
  · omega

theorem encodeRune_ascii {b : Nat} (h : b < 0x80) : encodeRune b = [b] := by
  have : validRune (b : Int) = true := by
    simp only [validRune, Bool.or_eq_true, Bool.and_eq_true, decide_eq_true_eq]; omega
  simp [encodeRune, this, encodeValid, h]

theorem mem_encode {s : List Rune} {b : Nat} (h : b < 0x80) : b ∈ encode s ↔ (b : Rune) ∈ s := by
  induction s with
  | nil => simp [encode]
  | cons r s ih =>
    simp only [encode, List.mem_append, List.mem_cons, ih]
    constructor
    · rintro (h1 | h1)
      · exact .inl (mem_encodeRune h1 h).1.symm
      · exact .inr h1
    · rintro (h1 | h1)
      · left; rw [← h1, encodeRune_ascii h]; simp
      · exact .inr h1

theorem scalarize_id {r : Rune} (h : Scalar r) : scalarize r = r := by simp [scalarize, h]

theorem map_scalarize_id {s : List Rune} (h : ∀ r ∈ s, Scalar r) : s.map scalarize = s := by
  induction s with
  | nil => rfl
  | cons r s ih =>
    simp only [List.mem_cons, forall_eq_or_imp] at h
    simp [scalarize_id h.1, ih h.2]

end RL
