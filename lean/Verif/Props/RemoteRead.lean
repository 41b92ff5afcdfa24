import Verif.Model.RemoteRead
/-! # C45, C46: input of a remote terminal -/

namespace RL.Remote

/-- The bytes `Read` has returned. -/
def returned : List ReadRes → List Nat
  | [] => []
  | .data b :: rs => b ++ returned rs
  | _ :: rs => returned rs

/-- The payloads of the data messages. -/
def payloads (ms : List Msg) : List Nat := (ms.filter (·.typ = 0)).flatMap (·.data)

theorem returned_append (a b : List ReadRes) : returned (a ++ b) = returned a ++ returned b := by
  induction a with
  | nil => rfl
  | cons x a ih => cases x <;> simp [returned, ih]

theorem payloads_append (a b : List Msg) : payloads (a ++ b) = payloads a ++ payloads b := by simp [payloads]

/-- What every step keeps: nothing is lost, duplicated or reordered between the connection and the caller. -/
structure Inv (ms : List Msg) (s : St) : Prop where
  split : ms = s.handled ++ s.inp
  bytes : returned s.out ++ s.dataBuf = payloads s.handled
  eof : s.eof = true ↔ ∃ m ∈ s.handled, m.typ = 6

theorem Step.inv {ms : List Msg} {s t : St} (h : Step s t) (i : Inv ms s) : Inv ms t := by
  obtain ⟨i1, i2, i3⟩ := i
  cases h with
  | close h1 h2 => exact ⟨i1, i2, i3⟩
  | @gotEof m l h1 h2 h3 =>
    refine ⟨by rw [i1, h2]; simp, ?_, ?_⟩
    · have h3 : m.typ = 6 := h3
      show returned s.out ++ s.dataBuf = payloads (s.handled ++ [m])
      rw [payloads_append, i2]
      simp [payloads, h3]
    · have h3 : m.typ = 6 := h3
      simp only [true_iff]
      exact ⟨m, by simp, h3⟩
  | @gotData m l h1 h2 h3 =>
    have h3 : m.typ = 0 := h3
    refine ⟨by rw [i1, h2]; simp, ?_, ?_⟩
    · show returned s.out ++ (s.dataBuf ++ m.data) = payloads (s.handled ++ [m])
      rw [payloads_append, ← i2]
      simp [payloads, h3]
    · show s.eof = true ↔ _
      rw [i3]
      simp [h3]
  | @gotOther m l h1 h2 h3 h4 =>
    have h3 : m.typ ≠ 6 := h3
    have h4 : m.typ ≠ 0 := h4
    refine ⟨by rw [i1, h2]; simp, ?_, ?_⟩
    · show returned s.out ++ s.dataBuf = payloads (s.handled ++ [m])
      rw [payloads_append, i2]
      simp [payloads, h4]
    · show s.eof = true ↔ _
      rw [i3]
      simp [h3]
  | signal h1 h2 => exact ⟨i1, i2, i3⟩
  | drop h1 h2 => exact ⟨i1, i2, i3⟩
  | call k h1 => exact ⟨i1, i2, i3⟩
  | first h1 h2 =>
    refine ⟨i1, ?_, i3⟩
    rw [← i2]
    simp [returned_append, returned, bufRead, List.take_append_drop]
  | empty h1 h2 => exact ⟨i1, i2, i3⟩
  | eof1 h1 h2 => exact ⟨i1, by rw [← i2]; simp [returned_append, returned], i3⟩
  | toWait h1 h2 => exact ⟨i1, i2, i3⟩
  | block h1 => exact ⟨i1, i2, i3⟩
  | skip h1 h2 => exact ⟨i1, i2, i3⟩
  | second h1 h2 =>
    refine ⟨i1, ?_, i3⟩
    rw [← i2]
    simp [returned_append, returned, bufRead, List.take_append_drop]
  | empty2 h1 h2 => exact ⟨i1, i2, i3⟩
  | ret h1 =>
    refine ⟨i1, ?_, i3⟩
    rw [← i2]
    simp only
    split <;> simp [returned_append, returned]

theorem Reach.inv {ms : List Msg} {s : St} (h : Reach ms s) : Inv ms s := by
  induction h with
  | init => exact ⟨rfl, rfl, by simp [St.init]⟩
  | step _ hs ih => exact hs.inv ih

/-- **C45.**  In every schedule, the bytes returned by `Read` so far and the bytes still buffered are together exactly the
payloads of the data messages received so far, in order; so what `Read` returns is a prefix of all payloads. -/
theorem C45_order {ms : List Msg} {s : St} (h : Reach ms s) : ms = s.handled ++ s.inp ∧
    returned s.out ++ s.dataBuf = payloads s.handled ∧ returned s.out <+: payloads ms := by
  obtain ⟨i1, i2, -⟩ := h.inv
  refine ⟨i1, i2, ?_⟩
  rw [i1, payloads_append, ← i2, List.append_assoc]
  exact List.prefix_append _ _

/-- Non-trivial case: two data messages, the reader takes one byte, waits for more and gets it. -/
example : Reach [⟨0, [1, 2]⟩, ⟨0, [3]⟩] ⟨[], [⟨0, [1, 2]⟩, ⟨0, [3]⟩], .read, .idle, [], false, [.data [1, 2], .data [3]]⟩ := by
  have h := Reach.init (ms := [⟨0, [1, 2]⟩, ⟨0, [3]⟩])
  have h := h.step (.gotData rfl rfl rfl)
  have h := h.step (.drop rfl (by intro k h; cases h))
  have h := h.step (.call 5 rfl)
  have h := h.step (.first rfl (by decide))
  have h := h.step (.call 5 rfl)
  have h := h.step (.empty rfl (by decide))
  have h := h.step (.toWait rfl rfl)
  have h := h.step (.block rfl)
  have h := h.step (.gotData rfl rfl rfl)
  have h := h.step (.signal rfl rfl)
  have h := h.step (.second rfl (by decide))
  exact h

/-- **C45, defect.**  `Read` can report the end of input although data has been received that it never returned: the reader
finds the buffer empty, then data and end of input arrive, then the reader looks at the end-of-input flag. -/
theorem C45_eof_before_data : ∃ s, Reach [⟨T_DATA, [104]⟩, ⟨T_EOF, []⟩] s ∧ s.out = [.eof] ∧ s.dataBuf = [104] :=
  ⟨_, .step (.step (.step (.step (.step (.step .init (.call 10 rfl)) (.empty rfl (by decide))) (.gotData rfl rfl rfl))
    (.drop rfl (by intro k h; cases h))) (.gotEof rfl rfl rfl)) (.eof1 rfl rfl), rfl, rfl⟩

/-- **C45, defect.**  An empty data message makes a waiting `Read` report the end of input although it has not been
received. -/
theorem C45_spurious_eof : ∃ s, Reach [⟨T_DATA, []⟩, ⟨T_DATA, [104]⟩] s ∧ s.out = [.eof] ∧ s.eof = false ∧ s.inp ≠ [] :=
  ⟨_, .step (.step (.step (.step (.step (.step (.step (.step .init (.call 10 rfl)) (.empty rfl (by decide))) (.toWait rfl rfl)) (.block rfl))
    (.gotData rfl rfl rfl)) (.signal rfl rfl)) (.empty2 rfl (by decide))) (.ret rfl), rfl, rfl, by simp⟩

/-- The end of input is reported only if it was received or the last read of the buffer found it empty: with `C45_order`,
nothing received before the flag was set is missing unless the race above happens. -/
theorem C45_eof_sound {ms : List Msg} {s t : St} (h : Reach ms s) (hs : Step s t) (ho : t.out = s.out ++ [.eof]) :
    (∃ m ∈ s.handled, m.typ = 6) ∨ s.reader = .check2 true := by
  have i := h.inv.eof
  cases hs with
  | eof1 h1 h2 => exact .inl (i.mp h2)
  | @ret e h1 =>
    by_cases he : s.eof = true
    · exact .inl (i.mp he)
    · cases e with
      | true => exact .inr h1
      | false => simp [he] at ho
  | first => simp at ho
  | second => simp at ho
  | _ => simp at ho

theorem Steps.mono {a b : St} (h : Steps a b) : ∃ r, b.out = a.out ++ r := by
  induction h with
  | refl => exact ⟨[], by simp⟩
  | step h1 _ ih =>
    obtain ⟨r, hr⟩ := ih
    cases h1 <;> first | exact ⟨r, hr⟩ | exact ⟨_, by rw [hr]; simp only [List.append_assoc]; rfl⟩

/-! ### C46 -/

/-- No step is possible. -/
def Stuck (s : St) : Prop := ∀ t, ¬ Step s t

/-- **C46 is false: lost wake-up.**  The reader finds the buffer empty; data arrives and the signal is dropped because the
reader does not wait yet; the reader waits.  Nothing more arrives: it waits forever although there is data. -/
theorem C46_false_lost : ∃ s, Reach [⟨T_DATA, [104]⟩] s ∧ s.reader = .wait 10 ∧ s.dataBuf = [104] ∧ Stuck s := by
  refine ⟨_, .step (.step (.step (.step (.step (.step (.step .init (.call 10 rfl)) (.empty rfl (by decide))) (.gotData rfl rfl rfl))
    (.drop rfl (by intro k h; cases h))) (.toWait rfl rfl)) (.block rfl)) (.close rfl rfl), rfl, rfl, ?_⟩
  intro t h
  cases h <;> simp_all

/-- **C46 is false: end of input.**  The same with the end-of-input message. -/
theorem C46_false_eof : ∃ s, Reach [⟨T_EOF, []⟩] s ∧ s.reader = .wait 10 ∧ s.eof = true ∧ Stuck s := by
  refine ⟨_, .step (.step (.step (.step (.step (.step (.step .init (.call 10 rfl)) (.empty rfl (by decide))) (.toWait rfl rfl))
    (.gotEof rfl rfl rfl)) (.drop rfl (by intro k h; cases h))) (.block rfl)) (.close rfl rfl), rfl, rfl, ?_⟩
  intro t h
  cases h <;> simp_all

/-- **C46 is false: broken connection.**  A reader that waits when the connection breaks waits forever. -/
theorem C46_false_closed : ∃ s, Reach [] s ∧ s.reader = .wait 10 ∧ s.recv = .stopped ∧ Stuck s := by
  refine ⟨_, .step (.step (.step (.step (.step .init (.call 10 rfl)) (.empty rfl (by decide))) (.toWait rfl rfl)) (.block rfl)) (.close rfl rfl),
    rfl, rfl, ?_⟩
  intro t h
  cases h <;> simp_all

/-- A step of the reader. -/
def ReaderStep (s : St) : Prop := ∃ t, Step s t ∧ t.reader ≠ s.reader ∧ t.recv = s.recv

/-- **C46 (part).**  A reader that is blocked when the receive loop has handled a message is woken by the very next step. -/
theorem C46_woken_partial {s t : St} {k : Nat} (hr : s.recv = .signal) (hw : s.reader = .wait k) (h : Step s t) :
    t = { s with recv := .read, reader := .second k } := by
  cases h with
  | signal h1 h2 => rw [hw] at h2; cases h2; rfl
  | drop h1 h2 => exact absurd hw (h2 k)
  | _ => simp_all

/-- **C46 (part).**  Once woken with data in the buffer, whatever the receive loop does in between, the reader never blocks
again before it returns, and it returns the first bytes of the buffer. -/
theorem C46_data_partial {s t : St} {k : Nat} (hk : k ≠ 0) (hr : s.reader = .second k) (hd : s.dataBuf ≠ [])
    (h : Steps s t) : (t.reader = .second k ∧ t.out = s.out ∧ ReaderStep t) ∨
      ∃ b rest, t.out = s.out ++ .data b :: rest ∧ b ≠ [] ∧ b.head? = s.dataBuf.head? := by
  induction h with
  | @refl s =>
    obtain ⟨x, l, hx⟩ := List.exists_cons_of_ne_nil hd
    obtain ⟨n, rfl⟩ := Nat.exists_eq_succ_of_ne_zero hk
    exact .inl ⟨hr, rfl, _, .second hr (by simp [bufRead, hx]), by simp [hr], rfl⟩
  | @step s u t hs hst ih =>
    by_cases hu : u.reader = .second k
    · have : u.dataBuf ≠ [] ∧ u.out = s.out ∧ u.dataBuf.head? = s.dataBuf.head? := by
        obtain ⟨x, l, hx⟩ := List.exists_cons_of_ne_nil hd
        cases hs <;> simp_all
      rcases ih hu this.1 with ⟨a, b, c⟩ | ⟨b, rest, c, d, e⟩
      · exact .inl ⟨a, b.trans this.2.1, c⟩
      · exact .inr ⟨b, rest, by rw [c, this.2.1], d, e.trans this.2.2⟩
    · obtain ⟨x, l, hx⟩ := List.exists_cons_of_ne_nil hd
      obtain ⟨n, rfl⟩ := Nat.exists_eq_succ_of_ne_zero hk
      have key : u.out = s.out ++ [.data (s.dataBuf.take (n + 1))] := by
        cases hs <;> simp_all [bufRead]
      obtain ⟨r, hr⟩ := hst.mono
      refine .inr ⟨s.dataBuf.take (n + 1), r, by rw [hr, key]; simp, by simp [hx], by simp [hx]⟩

/-- **C46 (part).**  Once woken after the end of input was received, the reader never blocks again before it returns. -/
theorem C46_eof_partial {s t : St} {k : Nat} (hr : s.reader = .second k) (he : s.eof = true)
    (h : Steps s t) : (t.out = s.out ∧ ReaderStep t) ∨ ∃ r rest, t.out = s.out ++ r :: rest ∧ r ≠ .nothing := by
  have gen : ∀ {s t : St}, Steps s t → s.eof = true → ((∃ k, s.reader = .second k) ∨ ∃ e, s.reader = .check2 e) →
      (t.out = s.out ∧ ReaderStep t) ∨ ∃ r rest, t.out = s.out ++ r :: rest ∧ r ≠ .nothing := by
    intro s t h
    induction h with
    | @refl s =>
      intro he hp
      refine .inl ⟨rfl, ?_⟩
      rcases hp with ⟨k, hp⟩ | ⟨e, hp⟩
      · by_cases hb : (bufRead k s.dataBuf).1 = []
        · exact ⟨_, .empty2 hp hb, by simp [hp], rfl⟩
        · exact ⟨_, .second hp hb, by simp [hp], rfl⟩
      · exact ⟨_, .ret hp, by simp [hp], rfl⟩
    | @step s u t hs hst ih =>
      intro he hp
      by_cases hu : (∃ k, u.reader = .second k) ∨ ∃ e, u.reader = .check2 e
      · have : u.eof = true ∧ u.out = s.out := by
          rcases hp with ⟨k, hp⟩ | ⟨e, hp⟩ <;> cases hs <;> simp_all
        rw [← this.2]
        exact ih this.1 hu
      · have : ∃ r, u.out = s.out ++ [r] ∧ r ≠ .nothing := by
          rcases hp with ⟨k, hp⟩ | ⟨e, hp⟩ <;> cases hs <;> simp_all
        obtain ⟨r, h1, h2⟩ := this
        obtain ⟨r', h3⟩ := hst.mono
        exact .inr ⟨r, r', by rw [h3, h1]; simp, h2⟩
  exact gen h he (.inl ⟨k, hr⟩)

/-- Non-trivial case of the three theorems: the reader blocks, data and end of input arrive. -/
example : ∃ s, Reach [⟨T_DATA, [7]⟩, ⟨T_EOF, []⟩] s ∧ s.recv = .signal ∧ s.reader = .wait 3 ∧ s.dataBuf ≠ [] :=
  ⟨_, .step (.step (.step (.step (.step .init (.call 3 rfl)) (.empty rfl (by decide))) (.toWait rfl rfl)) (.block rfl))
    (.gotData rfl rfl rfl), rfl, rfl, by simp⟩

end RL.Remote
