import Verif.Model.RemoteWrite
import Verif.Props.Remote
/-! # C47: writes on a remote connection -/

namespace RL

/-- What a finished frame has put on the connection. -/
def WDone.piece (d : WDone) : List Nat := d.msg.bytes.take d.n

/-- A frame reported without error is complete. -/
def WDone.Sound (d : WDone) : Prop := d.n ≤ d.msg.bytes.length ∧ (d.ok = true → d.n = d.msg.bytes.length)

/-- The entries of one writer. -/
def ofWriter (i : Nat) (l : List WDone) : List WDone := l.filter (·.who = i)

/-- The calls of one writer. -/
def callsOf (i : Nat) (l : List (Nat × Msg)) : List Msg := (l.filter (·.1 = i)).map (·.2)

theorem ofWriter_append (i : Nat) (l : List WDone) (d : WDone) :
    ofWriter i (l ++ [d]) = ofWriter i l ++ if d.who = i then [d] else [] := by
  simp [ofWriter, List.filter_append]
  split <;> simp_all

theorem callsOf_append (i j : Nat) (l : List (Nat × Msg)) (m : Msg) :
    callsOf i (l ++ [(j, m)]) = callsOf i l ++ if j = i then [m] else [] := by
  simp [callsOf, List.filter_append]
  split <;> simp_all

namespace SvrW

/-- Frame written for writer `i` whose outcome has not reached it yet. -/
def unreported (s : St) (i : Nat) : List WDone :=
  match s.loop with
  | .replying d => if d.who = i then [d] else []
  | _ => []

/-- Message of the call writer `i` is in. -/
def pending (s : St) (i : Nat) : List Msg :=
  match s.w i with
  | .idle => []
  | .sending m => [m]
  | .waiting m => [m]

/-- What every step keeps. -/
structure Inv (s : St) : Prop where
  wire : s.wire = (s.done.map WDone.piece).flatten
  sound : ∀ d ∈ s.done, d.Sound
  own : ∀ i, ofWriter i s.done = ofWriter i s.ans ++ unreported s i
  calls : ∀ i, callsOf i s.called = (ofWriter i s.ans).map (·.msg) ++ pending s i
  served : ∀ i m, s.w i = .waiting m ↔ s.loop = .writing i m ∨ ∃ d, s.loop = .replying d ∧ d.who = i ∧ d.msg = m

theorem Step.inv {s t : St} (h : Step s t) (v : Inv s) : Inv t := by
  obtain ⟨v1, v2, v3, v4, v5⟩ := v
  cases h with
  | call i m h1 =>
    refine ⟨v1, v2, v3, fun j => ?_, fun j m' => ?_⟩
    · simp only [callsOf_append, v4 j]
      by_cases hj : i = j
      · subst hj; simp [pending, h1, set]
      · simp [pending, set, hj, Ne.symm hj]
    · simp only [set]
      by_cases hj : j = i
      · subst hj
        have := v5 j m'
        simp [h1] at this
        simpa using this
      · simpa [hj] using v5 j m'
  | @accept i m h1 h2 =>
    refine ⟨v1, v2, fun j => ?_, fun j => ?_, fun j m' => ?_⟩
    · simpa [unreported, h1] using v3 j
    · rw [v4 j]
      by_cases hj : j = i
      · subst hj; simp [pending, h2, set]
      · simp [pending, set, hj]
    · have := v5 j m'
      by_cases hj : j = i
      · subst hj; simp [set]
      · simp [set, hj, h1] at this ⊢
        exact ⟨fun k => absurd k this, fun k => absurd k.1.symm hj⟩
  | @write i m h1 h2 =>
    refine ⟨?_, ?_, fun j => ?_, fun j => v4 j, fun j m' => ?_⟩
    · simp [v1, WDone.piece, Msg.written]
    · intro d hd
      rcases List.mem_append.1 hd with hd | hd
      · exact v2 d hd
      · simp at hd; subst hd; simp [WDone.Sound, Msg.written]
    · have := v3 j
      simp only [unreported, h1, List.append_nil] at this
      simp [ofWriter_append, this, unreported]
    · rw [v5 j m', h1]
      constructor
      · rintro (h | ⟨d, h, _⟩)
        · cases h; exact .inr ⟨_, rfl, rfl, rfl⟩
        · cases h
      · rintro (h | ⟨d, h, e1, e2⟩)
        · cases h
        · cases h; subst e1 e2; exact .inl rfl
  | @fail i m k h1 h2 =>
    refine ⟨?_, ?_, fun j => ?_, fun j => v4 j, fun j m' => ?_⟩
    · simp [v1, WDone.piece]
    · intro d hd
      rcases List.mem_append.1 hd with hd | hd
      · exact v2 d hd
      · simp at hd; subst hd; simpa [WDone.Sound, Msg.written] using h2
    · have := v3 j
      simp only [unreported, h1, List.append_nil] at this
      simp [ofWriter_append, this, unreported]
    · rw [v5 j m', h1]
      constructor
      · rintro (h | ⟨d, h, _⟩)
        · cases h; exact .inr ⟨_, rfl, rfl, rfl⟩
        · cases h
      · rintro (h | ⟨d, h, e1, e2⟩)
        · cases h
        · cases h; subst e1 e2; exact .inl rfl
  | @reply d m h1 h2 =>
    have hm : d.msg = m := by
      rcases (v5 d.who m).1 h2 with h | ⟨d', h, _, e⟩
      · rw [h1] at h; cases h
      · rw [h1] at h; cases h; exact e
    refine ⟨v1, v2, fun j => ?_, fun j => ?_, fun j m' => ?_⟩
    · rw [v3 j]
      simp [ofWriter_append, unreported, h1]
    · rw [v4 j]
      simp only [ofWriter_append]
      by_cases hj : d.who = j
      · subst hj; simp [pending, h2, set, hm]
      · simp [pending, set, hj, Ne.symm hj]
    · have := v5 j m'
      by_cases hj : j = d.who
      · subst hj; simp [set]
      · simp only [set, hj, if_false]
        rw [this, h1]
        constructor
        · rintro (h | ⟨d', h, e, _⟩)
          · cases h
          · cases h; exact absurd e.symm hj
        · rintro (h | ⟨d', h, _⟩) <;> cases h
  | close => exact ⟨v1, v2, v3, v4, v5⟩
  | stop h1 h2 =>
    refine ⟨v1, v2, fun j => ?_, v4, fun j m' => ?_⟩
    · simpa [unreported, h1] using v3 j
    · rw [v5 j m', h1]
      simp

theorem Reach.inv {s : St} (h : Reach s) : Inv s := by
  induction h with
  | init =>
    refine ⟨rfl, by simp [St.init], fun i => rfl, fun i => rfl, fun i m => ?_⟩
    simp [St.init]
  | step _ hs ih => exact hs.inv ih

/-- **C47 (frames and answers).**  In every schedule of any number of writers, `writeLoop` and `Close`:
the bytes on the connection are the finished frames one after the other, each whole or, when an error is reported for it,
cut after the reported number of bytes; the frames of a writer are, in order, the ones it got answers for, each with its own
outcome, plus at most one whose answer is on its way; and its calls are, in order, the ones that were answered plus the one
it is in. -/
theorem C47_frames {s : St} (h : Reach s) :
    s.wire = (s.done.map fun d => d.msg.bytes.take d.n).flatten ∧
    (∀ d ∈ s.done, d.n ≤ d.msg.bytes.length ∧ (d.ok = true → d.n = d.msg.bytes.length)) ∧
    (∀ i, (∃ l, l.length ≤ 1 ∧ ofWriter i s.done = ofWriter i s.ans ++ l) ∧
      ∃ l, l.length ≤ 1 ∧ callsOf i s.called = (ofWriter i s.ans).map (·.msg) ++ l ∧ (s.w i = .idle → l = [])) := by
  have v := h.inv
  refine ⟨v.wire, v.sound, fun i => ⟨⟨_, ?_, v.own i⟩, ⟨_, ?_, v.calls i, fun e => by simp [pending, e]⟩⟩⟩
  · unfold unreported
    split
    · split <;> simp
    · simp
  · unfold pending
    split <;> simp

/-- **C47 (the other side).**  While no write fails, the peer reads exactly the messages of the finished frames, in the order
they were written. -/
theorem C47_peer {s : St} (h : Reach s) (hm : ∀ d ∈ s.done, d.msg.Sendable) (hok : ∀ d ∈ s.done, d.ok = true) :
    readStream s.wire = .ok (s.done.map (·.msg), .eof) := by
  have v := h.inv
  have : s.wire = streamOf (s.done.map (·.msg)) := by
    rw [v.wire, streamOf]
    congr 1
    rw [List.map_map]
    apply List.map_congr_left
    intro d hd
    have := (v.sound d hd).2 (hok d hd)
    simp [WDone.piece, this]
  rw [this]
  apply C43_stream
  intro m hm'
  obtain ⟨d, hd, rfl⟩ := List.mem_map.1 hm'
  exact hm d hd

/-- **C47 (progress).**  While the connection is open nobody waits for ever: a writer waiting for its answer is the one
`writeLoop` works for, the loop can always make its next step, and whenever the loop is free it can take any writer. -/
theorem C47_progress_partial {s : St} (h : Reach s) (hc : s.closed = false) :
    (∀ i m, s.w i = .waiting m → ∃ t, Step s t ∧ t.loop ≠ s.loop) ∧
    (∀ i m, s.w i = .sending m → s.loop = .select → ∃ t, Step s t ∧ t.w i = .waiting m) ∧
    s.loop ≠ .stopped := by
  have v := h.inv
  refine ⟨fun i m hw => ?_, fun i m hw hl => ⟨_, .accept hl hw, by simp [set]⟩, ?_⟩
  · rcases (v.served i m).1 hw with h | ⟨d, h, rfl, rfl⟩
    · exact ⟨_, .write h hc, by simp [h]⟩
    · exact ⟨_, .reply h hw, by simp [h]⟩
  · have : ∀ {s}, Reach s → s.loop = .stopped → s.closed = true := by
      intro s h
      induction h with
      | init => intro e; cases e
      | step _ hs ih => cases hs <;> simp_all
    intro e
    rw [this h e] at hc
    cases hc

/-- Non-trivial case: two writers, the second call is served first. -/
example : ∃ s, Reach s ∧ s.ans = [⟨2, ⟨0, [7, 8]⟩, 8, true⟩] ∧ s.w 1 = .sending ⟨0, [9]⟩ ∧ s.closed = false ∧
    s.wire = [0, 0, 0, 4, 0, 0, 7, 8] := by
  have h := Reach.init
  have h := h.step (.call 1 ⟨0, [9]⟩ rfl)
  have h := h.step (.call 2 ⟨0, [7, 8]⟩ rfl)
  have h := h.step (.accept (i := 2) rfl rfl)
  have h := h.step (.write rfl rfl)
  have h := h.step (.reply rfl rfl)
  exact ⟨_, h, rfl, rfl, rfl, rfl⟩

/-- **C47 is false: the count.**  `Write` reports the bytes of the frame, six more than the caller's data. -/
theorem C47_false_count : ∃ s, Reach s ∧ ∃ d ∈ s.ans, d.ok = true ∧ d.n = d.msg.data.length + 6 := by
  have h := Reach.init
  have h := h.step (.call 1 ⟨T_DATA, [9]⟩ rfl)
  have h := h.step (.accept (i := 1) rfl rfl)
  have h := h.step (.write rfl rfl)
  have h := h.step (.reply rfl rfl)
  exact ⟨_, h, ⟨1, ⟨T_DATA, [9]⟩, 7, true⟩, by decide, rfl, rfl⟩

/-- Every successful call has this count. -/
theorem C47_count {s : St} (h : Reach s) {d : WDone} (hd : d ∈ s.ans) (hok : d.ok = true) : d.n = d.msg.data.length + 6 := by
  have v := h.inv
  have : d ∈ s.done := by
    have h1 : d ∈ ofWriter d.who s.ans := by simp [ofWriter, hd]
    have h2 : d ∈ ofWriter d.who s.done := by rw [v.own]; simp [h1]
    exact (List.mem_filter.1 h2).1
  rw [(v.sound d this).2 hok, bytes_length]

/-- **C47 is false: after `Close`.**  A writer that calls after `Close` can wait for ever: once the loop has ended, no later
state has it answered. -/
theorem C47_false_closed : ∃ s, Reach s ∧ s.w 1 = .sending ⟨T_DATA, [9]⟩ ∧
    ∀ t, Steps s t → t.w 1 = .sending ⟨T_DATA, [9]⟩ := by
  have h := Reach.init
  have h := h.step .close
  have h := h.step (.stop rfl rfl)
  have h := h.step (.call 1 ⟨T_DATA, [9]⟩ rfl)
  refine ⟨_, h, rfl, ?_⟩
  have gen : ∀ {a b : St}, Steps a b → a.loop = .stopped → a.w 1 = .sending ⟨T_DATA, [9]⟩ → b.w 1 = .sending ⟨T_DATA, [9]⟩ := by
    intro a b h
    induction h with
    | refl => intro _ h; exact h
    | step hs _ ih =>
      intro h1 h2
      cases hs with
      | call i m h =>
        refine ih h1 ?_
        by_cases e : 1 = i
        · subst e; rw [h2] at h; cases h
        · simpa [set, e] using h2
      | accept h => rw [h1] at h; cases h
      | write h => rw [h1] at h; cases h
      | fail _ h => rw [h1] at h; cases h
      | reply h => rw [h1] at h; cases h
      | close => exact ih h1 h2
      | stop => exact ih rfl h2
  intro t ht
  exact gen ht rfl rfl

end SvrW

namespace CliW

structure Inv (s : St) : Prop where
  wire : s.wire = (s.done.map WDone.piece).flatten
  sound : ∀ d ∈ s.done, d.Sound
  count : ∀ d ∈ s.ans, d.n = d.msg.data.length
  holds : ∀ i, (∃ m, s.w i = .writing m) ∨ (∃ d, s.w i = .unlocking d) ↔ s.holder = some i
  calls : ∀ i, callsOf i s.called = (ofWriter i s.ans).map (·.msg) ++
    (match s.w i with | .idle => [] | .locking m => [m] | .writing m => [m] | .unlocking d => [d.msg])
  own : ∀ i, (ofWriter i s.done).map (fun d => (d.msg, d.ok)) = (ofWriter i s.ans).map (fun d => (d.msg, d.ok)) ++
    (match s.w i with | .unlocking d => [(d.msg, d.ok)] | _ => [])
  who : ∀ i d, s.w i = .unlocking d → d.who = i

theorem Step.inv {s t : St} (h : Step s t) (v : Inv s) : Inv t := by
  obtain ⟨v1, v2, v3, v4, v5, v6, v7⟩ := v
  cases h with
  | call i m h1 =>
    refine ⟨v1, v2, v3, fun j => ?_, fun j => ?_, fun j => ?_, fun j d => ?_⟩
    · by_cases hj : j = i
      · subst hj; simpa [set, h1] using v4 j
      · simpa [set, hj] using v4 j
    · simp only [callsOf_append, v5 j]
      by_cases hj : i = j
      · subst hj; simp [h1, set]
      · simp [set, hj, Ne.symm hj]
    · by_cases hj : j = i
      · subst hj; simpa [set, h1] using v6 j
      · simpa [set, hj] using v6 j
    · by_cases hj : j = i
      · subst hj; simp [set]
      · simpa [set, hj] using v7 j d
  | @lock i m h1 h2 =>
    refine ⟨v1, v2, v3, fun j => ?_, fun j => ?_, fun j => ?_, fun j d => ?_⟩
    · have := v4 j
      by_cases hj : j = i
      · subst hj; simp [set]
      · simp [set, hj, h2, Ne.symm hj] at this ⊢
        exact this
    · rw [v5 j]
      by_cases hj : j = i
      · subst hj; simp [h1, set]
      · simp [set, hj]
    · by_cases hj : j = i
      · subst hj; simpa [set, h1] using v6 j
      · simpa [set, hj] using v6 j
    · by_cases hj : j = i
      · subst hj; simp [set]
      · simpa [set, hj] using v7 j d
  | @write i m h1 =>
    refine ⟨?_, ?_, v3, fun j => ?_, fun j => ?_, fun j => ?_, fun j d => ?_⟩
    · simp [v1, WDone.piece, Msg.written]
    · intro d hd
      rcases List.mem_append.1 hd with hd | hd
      · exact v2 d hd
      · simp at hd; subst hd; simp [WDone.Sound, Msg.written]
    · have := v4 j
      by_cases hj : j = i
      · subst hj; simpa [set, h1] using this
      · simpa [set, hj] using this
    · rw [v5 j]
      by_cases hj : j = i
      · subst hj; simp [h1, set]
      · simp [set, hj]
    · have := v6 j
      by_cases hj : j = i
      · subst hj; simp only [h1] at this; simp [ofWriter_append, set, this]
      · simpa [ofWriter_append, set, hj, Ne.symm hj] using this
    · by_cases hj : j = i
      · subst hj; simp [set]; rintro rfl; rfl
      · simpa [set, hj] using v7 j d
  | @fail i m k h1 h2 =>
    refine ⟨?_, ?_, v3, fun j => ?_, fun j => ?_, fun j => ?_, fun j d => ?_⟩
    · simp [v1, WDone.piece]
    · intro d hd
      rcases List.mem_append.1 hd with hd | hd
      · exact v2 d hd
      · simp at hd; subst hd; simpa [WDone.Sound, Msg.written] using h2
    · have := v4 j
      by_cases hj : j = i
      · subst hj; simpa [set, h1] using this
      · simpa [set, hj] using this
    · rw [v5 j]
      by_cases hj : j = i
      · subst hj; simp [h1, set]
      · simp [set, hj]
    · have := v6 j
      by_cases hj : j = i
      · subst hj; simp only [h1] at this; simp [ofWriter_append, set, this]
      · simpa [ofWriter_append, set, hj, Ne.symm hj] using this
    · by_cases hj : j = i
      · subst hj; simp [set]; rintro rfl; rfl
      · simpa [set, hj] using v7 j d
  | @unlock i d h1 =>
    have hw := v7 i d h1
    refine ⟨v1, v2, ?_, fun j => ?_, fun j => ?_, fun j => ?_, fun j e => ?_⟩
    · intro e he
      rcases List.mem_append.1 he with he | he
      · exact v3 e he
      · simp at he; subst he; rfl
    · have h0 := (v4 i).1 (.inr ⟨d, h1⟩)
      have := v4 j
      by_cases hj : j = i
      · subst hj; simp [set]
      · rw [h0] at this
        have : ¬ ((∃ m, s.w j = .writing m) ∨ ∃ d, s.w j = .unlocking d) := fun k => hj (Option.some.inj (this.1 k)).symm
        simpa [set, hj] using this
    · rw [v5 j]
      by_cases hj : j = i
      · subst hj; simp [h1, set, ofWriter_append, hw]
      · have : ¬ d.who = j := fun k => hj (k.symm.trans hw)
        simp [set, hj, ofWriter_append, this]
    · rw [v6 j]
      by_cases hj : j = i
      · subst hj; simp [h1, set, ofWriter_append, hw]
      · have : ¬ d.who = j := fun k => hj (k.symm.trans hw)
        simp [set, hj, ofWriter_append, this]
    · by_cases hj : j = i
      · subst hj; simp [set]
      · simpa [set, hj] using v7 j e

theorem Reach.inv {s : St} (h : Reach s) : Inv s := by
  induction h with
  | init => exact ⟨rfl, by simp [St.init], by simp [St.init], fun i => by simp [St.init], fun i => rfl, fun i => rfl,
      fun i d h => by cases h⟩
  | step _ hs ih => exact hs.inv ih

/-- **C47 (client).**  In every schedule of any number of writers: the bytes on the connection are the frames one after the
other, each whole unless an error is reported for it; every call is answered once, with the error of its own frame and with
the length of the caller's data; and somebody can always go on: if the lock is held its holder can, otherwise every waiting
writer can take it. -/
theorem C47_client {s : St} (h : Reach s) :
    s.wire = (s.done.map fun d => d.msg.bytes.take d.n).flatten ∧
    (∀ d ∈ s.done, d.ok = true → d.n = d.msg.bytes.length) ∧
    (∀ d ∈ s.ans, d.n = d.msg.data.length) ∧
    (∀ i, ∃ l, l.length ≤ 1 ∧ callsOf i s.called = (ofWriter i s.ans).map (·.msg) ++ l ∧ (s.w i = .idle → l = [])) ∧
    (∀ i, ∃ l, l.length ≤ 1 ∧
      (ofWriter i s.done).map (fun d => (d.msg, d.ok)) = (ofWriter i s.ans).map (fun d => (d.msg, d.ok)) ++ l) ∧
    (∀ i m, s.w i = .locking m → ∃ t, Step s t ∧ t.called = s.called) := by
  have v := h.inv
  refine ⟨v.wire, fun d hd => (v.sound d hd).2, v.count, fun i => ⟨_, ?_, v.calls i, fun e => by rw [e]⟩,
    fun i => ⟨_, ?_, v.own i⟩, fun i m hw => ?_⟩
  · split <;> simp
  · split <;> simp
  · cases hh : s.holder with
    | none => exact ⟨_, .lock hw hh, rfl⟩
    | some j =>
      rcases (v.holds j).2 hh with ⟨m, h⟩ | ⟨d, h⟩
      · exact ⟨_, .write h, rfl⟩
      · exact ⟨_, .unlock h, rfl⟩

/-- Non-trivial case: two writers, one waits for the lock. -/
example : ∃ s, Reach s ∧ s.w 1 = .locking ⟨0, [9]⟩ ∧ s.holder = some 2 ∧ s.wire = [0, 0, 0, 4, 0, 0, 7, 8] := by
  have h := Reach.init
  have h := h.step (.call 1 ⟨0, [9]⟩ rfl)
  have h := h.step (.call 2 ⟨0, [7, 8]⟩ rfl)
  have h := h.step (.lock (i := 2) rfl rfl)
  have h := h.step (.write (i := 2) rfl)
  exact ⟨_, h, rfl, rfl, rfl⟩

end CliW
end RL
