import Verif.Model.Fillable
/-! # C49: input prefilled with `WriteStdin` -/

namespace RL.Fill

/-- Prefilled bytes returned by reads. -/
def preOf : List (Nat × Res) → List Nat
  | [] => []
  | (_, .pre b _) :: rs => b ++ preOf rs
  | (_, .real _ _) :: rs => preOf rs

/-- Bytes of the real input returned by reads. -/
def realOf : List (Nat × Res) → List Nat
  | [] => []
  | (_, .pre _ _) :: rs => realOf rs
  | (_, .real b _) :: rs => b ++ realOf rs

theorem preOf_append (a b : List (Nat × Res)) : preOf (a ++ b) = preOf a ++ preOf b := by
  induction a with
  | nil => rfl
  | cons x a ih => obtain ⟨i, _ | _⟩ := x <;> simp [preOf, ih]

theorem realOf_append (a b : List (Nat × Res)) : realOf (a ++ b) = realOf a ++ realOf b := by
  induction a with
  | nil => rfl
  | cons x a ih => obtain ⟨i, _ | _⟩ := x <;> simp [realOf, ih]

/-- Bytes in the hands of the filler. -/
def FPc.bytes : FPc → List Nat
  | .got b => b
  | _ => []

theorem rest_flatten (n : Nat) (b : List Nat) (bs : List (List Nat)) :
    b.take n ++ (rest n (b :: bs)).flatten = (b :: bs).flatten := by
  simp only [rest]
  split
  · rename_i h
    have h := List.isEmpty_iff.1 h
    have : b.take n = b := by
      have := List.take_append_drop n b
      rw [h, List.append_nil] at this; exact this
    simp [this]
  · simp only [List.flatten_cons, ← List.append_assoc, List.take_append_drop]

structure Inv (inp : List Nat) (s : St) : Prop where
  real : realOf s.out ++ s.inp = inp
  sub : (preOf s.out ++ (s.buf ++ (s.fpc.bytes ++ s.pend.flatten))).Sublist s.written
  all : s.short = false → preOf s.out ++ (s.buf ++ (s.fpc.bytes ++ s.pend.flatten)) = s.written
  errs : (s.bufErr = true ∨ ∃ i b, (i, Res.pre b true) ∈ s.out) → s.closed = true

theorem Step.inv {inp : List Nat} {s t : St} (h : Step s t) (v : Inv inp s) : Inv inp t := by
  obtain ⟨v1, v2, v3, v4⟩ := v
  cases h with
  | write b =>
    have e : (s.pend ++ [b]).flatten = s.pend.flatten ++ b := by simp
    refine ⟨v1, ?_, fun h => ?_, v4⟩
    · simp only [e, ← List.append_assoc]
      simp only [← List.append_assoc] at v2
      exact v2.append (List.Sublist.refl _)
    · simp only [e, ← List.append_assoc]
      rw [← v3 h]; simp
  | take h1 h2 =>
    rename_i b bs
    have e : b.take 100 ++ (rest 100 s.pend).flatten = s.fpc.bytes ++ s.pend.flatten := by
      rw [h2, rest_flatten, h1]; rfl
    refine ⟨v1, ?_, fun h => ?_, fun h => v4 (.inr ?_)⟩
    · show (preOf s.out ++ (s.buf ++ (b.take 100 ++ (rest 100 s.pend).flatten))).Sublist _
      rw [e]; exact v2
    · show preOf s.out ++ (s.buf ++ (b.take 100 ++ (rest 100 s.pend).flatten)) = _
      rw [e]; exact v3 h
    · rcases h with h | h
      · cases h
      · exact h
  | @store b h1 =>
    have e : (s.buf ++ b) ++ (FPc.reading.bytes ++ s.pend.flatten) = s.buf ++ (s.fpc.bytes ++ s.pend.flatten) := by
      rw [h1]; simp [FPc.bytes]
    refine ⟨v1, ?_, fun h => ?_, v4⟩
    · show (preOf s.out ++ ((s.buf ++ b) ++ (FPc.reading.bytes ++ s.pend.flatten))).Sublist _
      rw [e]; exact v2
    · show preOf s.out ++ ((s.buf ++ b) ++ (FPc.reading.bytes ++ s.pend.flatten)) = _
      rw [e]; exact v3 h
  | close => exact ⟨v1, v2, v3, fun _ => rfl⟩
  | stop h1 h2 =>
    refine ⟨v1, ?_, fun h => ?_, fun _ => h2⟩
    · rw [h1] at v2; exact v2
    · have := v3 h; rw [h1] at this; exact this
  | @fromBuf i k h1 hk =>
    refine ⟨?_, ?_, fun h => ?_, fun h => v4 ?_⟩
    · simpa [realOf_append, realOf] using v1
    · refine List.Sublist.trans ?_ v2
      simp only [preOf_append, preOf, List.append_nil, List.nil_append, List.append_assoc]
      exact (List.Sublist.refl _).append ((List.take_sublist _ _).append (List.Sublist.refl _))
    · simp only [Bool.or_eq_false_iff, decide_eq_false_iff_not, Nat.not_lt] at h
      rw [← v3 h.1]
      simp only [preOf_append, preOf, List.append_nil, List.nil_append, List.append_assoc]
      rw [List.take_of_length_le h.2]
    · rcases h with h | ⟨j, b, h⟩
      · cases h
      · rcases List.mem_append.1 h with h | h
        · exact .inr ⟨j, b, h⟩
        · simp only [List.mem_singleton, Prod.mk.injEq, Res.pre.injEq] at h
          exact .inl h.2.2.symm
  | toReal k h1 hk => exact ⟨v1, v2, v3, v4⟩
  | @real i k n e h1 hn hi =>
    refine ⟨?_, ?_, fun h => ?_, fun h => v4 ?_⟩
    · simp only [realOf_append, realOf, List.append_nil, List.append_assoc, List.take_append_drop]; exact v1
    · simpa [preOf_append, preOf] using v2
    · simpa [preOf_append, preOf] using v3 h
    · rcases h with h | ⟨j, b, h⟩
      · exact .inl h
      · rcases List.mem_append.1 h with h | h
        · exact .inr ⟨j, b, h⟩
        · simp at h

theorem Reach.inv {inp : List Nat} {s : St} (h : Reach inp s) : Inv inp s := by
  induction h with
  | init => exact ⟨rfl, List.Sublist.refl _, fun _ => rfl, by rintro (h | ⟨i, b, h⟩) <;> cases h⟩
  | step _ hs ih => exact hs.inv ih

/-- **C49 (order, partial).**  In every schedule: the bytes of the real input come out in order, each once; the prefilled
bytes that come out are in the order written and none comes out twice; a read reports an error with prefilled bytes only
after `Close`. -/
theorem C49_order_partial {inp : List Nat} {s : St} (h : Reach inp s) :
    realOf s.out ++ s.inp = inp ∧ (preOf s.out).Sublist s.written ∧
    ((∃ i b, (i, Res.pre b true) ∈ s.out) → s.closed = true) := by
  have v := h.inv
  exact ⟨v.real, (List.sublist_append_left _ _).trans v.sub, fun e => v.errs (.inr e)⟩

/-- **C49 (complete, partial).**  If no read's buffer is shorter than what is buffered, every prefilled byte is returned, in
order: those returned are a prefix of those written, and when the filler is idle and the buffer empty they are all. -/
theorem C49_complete_partial {inp : List Nat} {s : St} (h : Reach inp s) (hs : s.short = false) :
    preOf s.out <+: s.written ∧ (s.pend = [] → s.fpc.bytes = [] → s.buf = [] → preOf s.out = s.written) := by
  have v := h.inv
  refine ⟨?_, fun h1 h2 h3 => ?_⟩
  · rw [← v.all hs]; exact List.prefix_append _ _
  · have := v.all hs
    simpa [h1, h2, h3] using this

/-- **C49 (long buffers, partial).**  If every read offers at least as many bytes as were ever prefilled, none is lost. -/
theorem C49_long_partial {inp : List Nat} {s : St} (h : Reach inp s) (hk : ∀ k ∈ s.ks, s.written.length ≤ k) :
    preOf s.out <+: s.written ∧ (s.pend = [] → s.fpc.bytes = [] → s.buf = [] → preOf s.out = s.written) := by
  refine C49_complete_partial h ?_
  induction h with
  | init => rfl
  | @step s t hr hs ih =>
    cases hs with
    | write b => exact ih (fun k hk' => by have := hk k hk'; simp only [List.length_append] at this; omega)
    | @fromBuf i k h1 h2 =>
      have h3 := ih (fun k' hk' => hk k' (List.mem_append_left _ hk'))
      have h4 : s.written.length ≤ k := hk k (List.mem_append_right _ (by simp))
      have h5 := hr.inv.sub.length_le
      simp only [List.length_append] at h5
      simp only [h3, Bool.false_or, decide_eq_false_iff_not, Nat.not_lt]
      omega
    | _ => exact ih hk

/-- **C49 (first, partial).**  A read that begins when prefilled bytes are buffered returns them, and takes no real input. -/
theorem C49_first_partial {s t : St} {i k : Nat} (hb : s.buf ≠ []) (hk : 0 < k) (h : Step s t) (hi : s.rd i = .idle)
    (h1 : t.rd i = .under k ∨ ∃ r, t.out = s.out ++ [(i, r)]) :
    ∃ n c, 0 < n ∧ t.out = s.out ++ [(i, .pre (s.buf.take n) c)] ∧ t.inp = s.inp := by
  have hl : 0 < s.buf.length := List.length_pos_iff.2 hb
  cases h with
  | @fromBuf j k' h2 h3 =>
    rcases h1 with h1 | ⟨r, h1⟩
    · exact absurd (hi.symm.trans h1) (by simp)
    · have h1 := List.append_cancel_left h1
      simp only [List.cons.injEq, Prod.mk.injEq, and_true] at h1
      exact ⟨k', _, by omega, by rw [h1.1], rfl⟩
  | @toReal j k' h2 h3 =>
    rcases h1 with h1 | ⟨r, h1⟩
    · by_cases hj : i = j
      · subst hj
        simp only [set, if_true, RPc.under.injEq] at h1
        omega
      · simp only [set, hj, if_false] at h1
        exact absurd (hi.symm.trans h1) (by simp)
    · simp at h1
  | @real j k' n e h2 _ _ =>
    rcases h1 with h1 | ⟨r, h1⟩
    · by_cases hj : i = j
      · subst hj; rw [hi] at h2; cases h2
      · simp only [set, hj, if_false] at h1
        exact absurd (hi.symm.trans h1) (by simp)
    · have h1 := List.append_cancel_left h1
      simp only [List.cons.injEq, Prod.mk.injEq, and_true] at h1
      rw [← h1.1, h2] at hi; cases hi
  | _ =>
    rcases h1 with h1 | ⟨r, h1⟩
    · exact absurd (hi.symm.trans h1) (by simp)
    · simp at h1

/-- **C49 is false (short buffer).**  A read with a buffer shorter than what is buffered throws the rest away: the bytes 2
and 3 are never returned, and the next read goes to the real input. -/
theorem C49_false_lost : ∃ s, Reach [9] s ∧ s.written = [1, 2, 3] ∧ s.pend = [] ∧ s.fpc = .reading ∧ s.buf = [] ∧
    s.out = [(0, .pre [1] false), (0, .real [9] none)] := by
  have h := Reach.init (inp := [9])
  have h := h.step (.write [1, 2, 3])
  have h := h.step (.take rfl rfl)
  have h := h.step (.store rfl)
  have h := h.step (.fromBuf (i := 0) 1 rfl (by decide))
  have h := h.step (.toReal (i := 0) 1 rfl (by decide))
  have h := h.step (.real (i := 0) 1 none rfl (by decide) (by decide))
  exact ⟨_, h, rfl, rfl, rfl, rfl, rfl⟩

/-- **C49 is false (timing).**  `WriteStdin` returns when the filler has the bytes, before it has stored them.  A read that
begins then takes the real input first. -/
theorem C49_false_late : ∃ s t, Reach [9] s ∧ s.written = [1, 2, 3] ∧ s.pend = [] ∧ s.out = [] ∧ (∀ i, s.rd i = .idle) ∧
    Steps s t ∧ t.out = [(0, .real [9] none), (0, .pre [1, 2, 3] false)] := by
  have h := Reach.init (inp := [9])
  have h := h.step (.write [1, 2, 3])
  have h := h.step (.take rfl rfl)
  exact ⟨_, _, h, rfl, rfl, rfl, fun _ => rfl,
    .step (.toReal (i := 0) 4096 rfl (by decide)) (.step (.real (i := 0) 1 none rfl (by decide) (by decide))
      (.step (.store rfl) (.step (.fromBuf (i := 0) 4096 rfl (by decide)) .refl))), rfl⟩

/-- Non-trivial case: a read that fits; then the real input. -/
example : ∃ s, Reach [9] s ∧ s.short = false ∧ s.written = [1, 2, 3] ∧
    s.out = [(0, .pre [1, 2, 3] false), (0, .real [9] none)] := by
  have h := Reach.init (inp := [9])
  have h := h.step (.write [1, 2])
  have h := h.step (.write [3])
  have h := h.step (.take rfl rfl)
  have h := h.step (.store rfl)
  have h := h.step (.take rfl rfl)
  have h := h.step (.store rfl)
  have h := h.step (.fromBuf (i := 0) 8 rfl (by decide))
  have h := h.step (.toReal (i := 0) 8 rfl (by decide))
  have h := h.step (.real (i := 0) 1 none rfl (by decide) (by decide))
  exact ⟨_, h, rfl, rfl, rfl⟩

end RL.Fill
