import Verif.Props.Remote
import Verif.Props.RemoteRead
import Verif.Props.Tty
import Verif.Props.Decode
import Verif.Props.HistFile
/-! Small statements about single functions: C23, C38, C42, C45, C71, C89. -/

namespace RL

/-- **C42.**  The seven kinds of messages on the wire: data 0, resize 1, width 2, terminal or not 3, raw mode 4, end of raw mode 5,
end of input 6, in the last byte of the header. -/
theorem C42_kinds {data : List Nat} {n : Nat} (h : data.length + 2 = n) (hn : n < 256) :
    (⟨T_DATA, data⟩ : Msg).bytes = [0, 0, 0, n, 0, 0] ++ data ∧ (⟨T_WIDTH, data⟩ : Msg).bytes = [0, 0, 0, n, 0, 1] ++ data ∧
    (⟨T_WIDTH_REPORT, data⟩ : Msg).bytes = [0, 0, 0, n, 0, 2] ++ data ∧ (⟨T_ISTTY_REPORT, data⟩ : Msg).bytes = [0, 0, 0, n, 0, 3] ++ data ∧
    (⟨T_RAW, data⟩ : Msg).bytes = [0, 0, 0, n, 0, 4] ++ data ∧ (⟨T_ERAW, data⟩ : Msg).bytes = [0, 0, 0, n, 0, 5] ++ data ∧
    (⟨T_EOF, data⟩ : Msg).bytes = [0, 0, 0, n, 0, 6] ++ data := by
  have h4 : put32 ((data.length : Int) + 2) = [0, 0, 0, n] := by
    have : ((data.length : Int) + 2) = (n : Int) := by omega
    rw [this]
    unfold put32
    have e : ((n : Int) % 2 ^ 32).toNat = n := by omega
    simp only [e]
    simp only [List.cons.injEq, and_true]
    omega
  simp only [Msg.bytes, h4]
  refine ⟨rfl, rfl, rfl, rfl, rfl, rfl, rfl⟩

example : (⟨T_EOF, []⟩ : Msg).bytes = [0, 0, 0, 2, 0, 6] := (C42_kinds (data := []) (n := 2) rfl (by decide)).2.2.2.2.2.2

namespace Remote

/-- **C45, defect.**  `C45_spurious_eof` for reads of any positive size. -/
theorem C45_spurious_eof_any {k : Nat} (hk : 0 < k) : ∃ s, Reach [⟨T_DATA, []⟩, ⟨T_DATA, [104]⟩] s ∧ s.out = [.eof] ∧ s.eof = false ∧ s.inp ≠ [] := by
  refine ⟨_, .step (.step (.step (.step (.step (.step (.step (.step .init (.call k rfl)) (.empty rfl (by simp [bufRead, St.init]))) (.toWait (k := k) (by simp [bufRead, St.init, Nat.ne_of_gt hk]) rfl)) (.block rfl))
    (.gotData rfl rfl rfl)) (.signal rfl rfl)) (.empty2 (k := k) rfl (by simp [bufRead, St.init]))) (.ret rfl), ?_, rfl, by simp⟩
  simp [bufRead, St.init, Nat.ne_of_gt hk]

end Remote

namespace Tty

/-- **C71.**  `ExitRawMode` fails only if there are settings to restore and the terminal refuses them. -/
theorem C71_exit (s : St) : s.exit.1 = true ↔ s.state = none ∨ (s.dev.refuse = false ∧ s.dev.cur ≠ none) := by
  obtain ⟨st, ⟨c, ref⟩⟩ := s
  cases st <;> cases c <;> cases ref <;> simp [St.exit, Dev.set]

example : (St.exit ⟨some cooked, ⟨some cooked, true⟩⟩).1 = false := rfl

end Tty

/-- **C38.**  The parameters of a sequence consist of the ten digits and the semicolon; the only other characters up to U+00FF accepted are
the superscripts and fractions ² ³ ¹ ¼ ½ ¾. -/
theorem C38_params (U : UTables) {r : Rune} (h0 : 0 ≤ r) (h : r < 256) : Spec.Param U r ↔
    (48 ≤ r ∧ r ≤ 57) ∨ r = 59 ∨ r ∈ [0xB2, 0xB3, 0xB9, 0xBC, 0xBD, 0xBE] := by
  unfold Spec.Param isNumber
  rw [if_pos (by omega)]
  simp only [Bool.or_eq_true, Bool.and_eq_true, decide_eq_true_eq, beq_iff_eq, List.mem_cons, List.not_mem_nil, or_false]
  omega

/-- **C23.**  The blanks trimmed from a history line: the ASCII blanks and the blanks of Unicode (next line, no-break space, the spaces
of general punctuation, ideographic space); not the zero-width space, nor the byte order mark. -/
theorem C23_blank (r : Rune) : isSpace r = true ↔
    r ∈ [9, 10, 11, 12, 13, 32, 0x85, 0xA0, 0x1680, 0x2000, 0x2001, 0x2002, 0x2003, 0x2004, 0x2005, 0x2006, 0x2007, 0x2008, 0x2009, 0x200A,
      0x2028, 0x2029, 0x202F, 0x205F, 0x3000] := by
  unfold isSpace
  simp only [Bool.or_eq_true, Bool.and_eq_true, decide_eq_true_eq, beq_iff_eq, List.mem_cons, List.not_mem_nil, or_false]
  omega

/-! ### C89: `IsPrintable`

Full statement (false): `∀ r, isPrintable r = true ↔ Visual r`. -/

/-- A character that shows: a Unicode scalar value that is not a control character (C0, Delete, C1). -/
def Spec.Visual (r : Rune) : Prop := Spec.Scalar r ∧ ¬ (r < 32 ∨ (127 ≤ r ∧ r < 160))

/-- **C89, partial.**  `IsPrintable` accepts everything that shows, and of the rest exactly Delete, the C1 controls, the second halves of
surrogate pairs and the numbers beyond Unicode. -/
theorem C89_partial (r : Rune) : isPrintable r = true ↔
    Spec.Visual r ∨ (127 ≤ r ∧ r < 160) ∨ (0xDC00 ≤ r ∧ r ≤ 0xDFFF) ∨ 0x10FFFF < r := by
  unfold isPrintable Spec.Visual Spec.Scalar
  simp only [Bool.and_eq_true, Bool.not_eq_true', Bool.and_eq_false_iff, decide_eq_true_eq, decide_eq_false_iff_not]
  omega

/-- **C89 is false**: Delete and half a surrogate pair count as printable. -/
theorem C89_false : isPrintable 127 = true ∧ isPrintable 0xDC00 = true ∧ ¬ Spec.Visual 127 ∧ ¬ Spec.Visual 0xDC00 :=
  ⟨rfl, rfl, by unfold Spec.Visual Spec.Scalar; omega, by unfold Spec.Visual Spec.Scalar; omega⟩

example : Spec.Visual 0x4E2D ∧ isPrintable 0x4E2D = true ∧ isPrintable 9 = false := ⟨by unfold Spec.Visual Spec.Scalar; omega, rfl, rfl⟩

/-! ### C71: the bits of a Windows console mode -/

/-- **C71** (Windows, raw mode).  Exactly the three lowest bits (processed input, line input, echo) are cleared. -/
theorem Tty.C71_windows_raw (st : BitVec 32) (i : Nat) : (Tty.winRaw st).getLsbD i = (st.getLsbD i && decide (3 ≤ i)) := by
  unfold Tty.winRaw
  have h : (Tty.enableEchoInput ||| Tty.enableProcessedInput ||| Tty.enableLineInput ||| Tty.enableProcessedOutput) = 7#32 := rfl
  rw [h]
  simp only [BitVec.getLsbD_and, BitVec.getLsbD_not]
  by_cases hi : i < 32
  · have : ∀ j : Fin 32, (7#32).getLsbD j = decide (j.val < 3) := by decide
    have := this ⟨i, hi⟩
    simp only at this
    rw [this]
    by_cases h3 : i < 3 <;> simp [hi, h3, Nat.not_le.2, Nat.not_lt.1]
  · rw [BitVec.getLsbD_of_ge st i (by omega)]; simp

/-- **C71** (Windows, the mode while a password is read).  Lines are edited by the console (bits 0 and 1 are set), nothing is echoed
(bit 2 is clear), everything else is as before. -/
theorem Tty.C71_windows_mode {st : BitVec 32} {q : List Nat} {m : BitVec 32} {x st'} (h : Tty.winReadPassword st q = .ok (m, x, st')) (i : Nat) :
    st' = st ∧ m.getLsbD i = (if i < 2 then true else if i = 2 then false else st.getLsbD i) := by
  unfold Tty.winReadPassword at h
  obtain ⟨r, _, h⟩ := R.bind_inv h
  cases h
  refine ⟨rfl, ?_⟩
  have h1 : (Tty.enableProcessedInput ||| Tty.enableLineInput ||| Tty.enableProcessedOutput) = 3#32 := rfl
  rw [h1]
  simp only [BitVec.getLsbD_or, BitVec.getLsbD_and, BitVec.getLsbD_not]
  by_cases hi : i < 32
  · have k1 : ∀ j : Fin 32, (3#32).getLsbD j = decide (j.val < 2) := by decide
    have k2 : ∀ j : Fin 32, Tty.enableEchoInput.getLsbD j = decide (j.val = 2) := by decide
    have k1 := k1 ⟨i, hi⟩
    have k2 := k2 ⟨i, hi⟩
    simp only at k1 k2
    rw [k1, k2]
    by_cases h2 : i < 2
    · simp [h2]
    · by_cases h3 : i = 2 <;> simp [h2, h3, hi]
  · rw [BitVec.getLsbD_of_ge st i (by omega), if_neg (by omega), if_neg (by omega)]
    simp only [Bool.false_and, Bool.false_or]
    exact BitVec.getLsbD_of_ge _ i (by omega)

example : Tty.winRaw 0xF7 = 0xF0 := rfl
example : ∃ x, Tty.winReadPassword 0xF4 [120, 13, 10] = .ok (0xF3, x, 0xF4) := ⟨_, rfl⟩

end RL
