import Verif.Model.Remote
/-! # C42, C43, C44: the wire protocol of the remote terminal -/

namespace RL

/-- A message that can be sent: an `int16` type and a payload of bytes whose frame length fits an `int32`. -/
def Msg.Sendable (m : Msg) : Prop :=
  -2 ^ 15 ≤ m.typ ∧ m.typ < 2 ^ 15 ∧ m.data.length + 2 < 2 ^ 31 ∧ ∀ b ∈ m.data, b < 256

theorem get32_put32 {n : Int} (h1 : -2 ^ 31 ≤ n) (h2 : n < 2 ^ 31) :
    ∃ a b c d, put32 n = [a, b, c, d] ∧ get32 a b c d = n ∧ a < 256 ∧ b < 256 ∧ c < 256 ∧ d < 256 := by
  refine ⟨_, _, _, _, rfl, ?_, ?_, ?_, ?_, ?_⟩
  · unfold get32
    dsimp only
    split <;> omega
  all_goals omega

theorem get16_put16 {n : Int} (h1 : -2 ^ 15 ≤ n) (h2 : n < 2 ^ 15) :
    ∃ a b, put16 n = [a, b] ∧ get16 a b = n ∧ a < 256 ∧ b < 256 := by
  refine ⟨_, _, rfl, ?_, ?_, ?_⟩
  · unfold get16
    dsimp only
    split <;> omega
  all_goals omega

/-- **C42.**  The layout: four bytes for the length of what follows, most significant first, two bytes for the type, the
payload. -/
theorem C42_layout {m : Msg} (h : m.Sendable) : ∃ a b c d e f : Nat, m.bytes = [a, b, c, d, e, f] ++ m.data ∧
    a * 2 ^ 24 + b * 2 ^ 16 + c * 2 ^ 8 + d = m.data.length + 2 ∧ get16 e f = m.typ ∧
    ∀ x ∈ m.bytes, x < 256 := by
  obtain ⟨h1, h2, h3, h4⟩ := h
  obtain ⟨a, b, c, d, e1, e2, ha, hb, hc, hd⟩ := get32_put32 (n := m.data.length + 2) (by omega) (by omega)
  obtain ⟨e, f, e3, e4, he, hf⟩ := get16_put16 h1 h2
  have hb' : m.bytes = [a, b, c, d, e, f] ++ m.data := by unfold Msg.bytes; rw [e1, e3]; rfl
  refine ⟨a, b, c, d, e, f, hb', ?_, e4, ?_⟩
  · unfold get32 at e2; dsimp only at e2; split at e2 <;> omega
  · intro x hx
    rw [hb'] at hx
    simp only [List.cons_append, List.nil_append, List.mem_cons] at hx
    rcases hx with rfl | rfl | rfl | rfl | rfl | rfl | hx
    all_goals first | assumption | exact h4 x hx

/-- **C42.**  Reading what was written gives the same message and leaves what follows. -/
theorem C42_roundtrip {m : Msg} (h : m.Sendable) (rest : List Nat) :
    readMessage (m.bytes ++ rest) = .ok (.ok (m, rest)) := by
  obtain ⟨h1, h2, h3, h4⟩ := h
  obtain ⟨a, b, c, d, e1, e2, -⟩ := get32_put32 (n := m.data.length + 2) (by omega) (by omega)
  obtain ⟨e, f, e3, e4, -⟩ := get16_put16 h1 h2
  have hs : m.bytes ++ rest = a :: b :: c :: d :: e :: f :: (m.data ++ rest) := by
    unfold Msg.bytes; rw [e1, e3]; simp
  rw [hs]
  have hf4 : readFull 4 (a :: b :: c :: d :: e :: f :: (m.data ++ rest)) = .ok ([a, b, c, d], e :: f :: (m.data ++ rest)) := by
    unfold readFull; rw [if_pos (by simp)]; rfl
  have hf2 : readFull 2 (e :: f :: (m.data ++ rest)) = .ok ([e, f], m.data ++ rest) := by
    unfold readFull; rw [if_pos (by simp)]; rfl
  have hfd : readFull (get32 a b c d - 2).toNat (m.data ++ rest) = .ok (m.data, rest) := by
    rw [e2, show ((m.data.length : Int) + 2 - 2).toNat = m.data.length by omega]
    unfold readFull
    rw [if_pos (by simp)]; simp
  unfold readMessage
  simp only [hf4, hf2, hfd]
  rw [if_neg (by omega), e4]

example : (⟨T_DATA, [104, 105]⟩ : Msg).Sendable ∧ (⟨T_DATA, [104, 105]⟩ : Msg).bytes = [0, 0, 0, 4, 0, 0, 104, 105] := by
  refine ⟨⟨by decide, by decide, by decide, by decide⟩, by decide⟩

/-! ### C43 -/

/-- The bytes of a sequence of messages. -/
def streamOf (ms : List Msg) : List Nat := ms.flatMap Msg.bytes

theorem bytes_length {m : Msg} : m.bytes.length = m.data.length + 6 := by
  unfold Msg.bytes put32 put16; simp

/-- A strict prefix of a frame is an error. -/
theorem readMessage_cut {m : Msg} (h : m.Sendable) {p q : List Nat} (e : p ++ q = m.bytes) (hq : q ≠ []) :
    ∃ err, readMessage p = .ok (.error err) ∧ (p = [] → err = .eof) := by
  have hfail : ∀ {n : Nat} {s : List Nat}, s.length < n → ∃ err, readFull n s = .error err ∧ (s = [] → err = .eof) := by
    intro n s hl
    unfold readFull
    rw [if_neg (by omega)]
    by_cases hs : s = []
    · rw [if_pos hs]; exact ⟨.eof, rfl, fun _ => rfl⟩
    · rw [if_neg hs]; exact ⟨_, rfl, fun h => absurd h hs⟩
  have hlen : p.length < m.data.length + 6 := by
    rw [← bytes_length (m := m), ← e, List.length_append]
    have : 0 < q.length := List.length_pos_iff.mpr hq
    omega
  unfold readMessage
  by_cases h4 : p.length < 4
  · obtain ⟨err, h1, h2⟩ := hfail h4
    rw [h1]
    exact ⟨err, rfl, h2⟩
  · have hp4 : readFull 4 p = .ok (p.take 4, p.drop 4) := by unfold readFull; rw [if_pos (by omega)]
    rw [hp4]
    have hpne : p = [] → False := by rintro rfl; simp at h4
    simp only
    by_cases h6 : (p.drop 4).length < 2
    · obtain ⟨err, h1, h2⟩ := hfail h6
      rw [h1]
      exact ⟨err, rfl, fun hp => absurd hp hpne⟩
    · have hp2 : readFull 2 (p.drop 4) = .ok ((p.drop 4).take 2, (p.drop 4).drop 2) := by
        unfold readFull; rw [if_pos (by omega)]
      rw [hp2]
      obtain ⟨h1, h2, h3, h4'⟩ := h
      obtain ⟨a, b, c, d, e1, e2, -⟩ := get32_put32 (n := m.data.length + 2) (by omega) (by omega)
      obtain ⟨x, y, e3, e4, -⟩ := get16_put16 h1 h2
      have hb : m.bytes = a :: b :: c :: d :: x :: y :: m.data := by unfold Msg.bytes; rw [e1, e3]; simp
      rw [List.length_drop] at h6
      match p, h4, h6, e with
      | p0 :: p1 :: p2 :: p3 :: p4 :: p5 :: p, _, _, e =>
        rw [hb] at e
        simp only [List.cons_append, List.cons.injEq] at e
        obtain ⟨rfl, rfl, rfl, rfl, rfl, rfl, e⟩ := e
        simp only [List.take_succ_cons, List.take_zero, List.drop_succ_cons, List.drop_zero]
        rw [if_neg (by omega)]
        have hl : p.length < (get32 p0 p1 p2 p3 - 2).toNat := by
          simp only [List.length_cons] at hlen; omega
        obtain ⟨err, h1, -⟩ := hfail hl
        rw [h1]
        exact ⟨err, rfl, fun hp => by cases hp⟩
      | [], h, _, _ => simp at h
      | [_], h, _, _ => simp at h
      | [_, _], h, _, _ => simp at h
      | [_, _, _], h, _, _ => simp at h
      | [_, _, _, _], _, h, _ => simp at h
      | [_, _, _, _, _], _, h, _ => simp at h

theorem readMessages_frames {ms : List Msg} (h : ∀ m ∈ ms, m.Sendable) {m : Msg} (hm : m.Sendable) {p q : List Nat}
    (e : p ++ q = m.bytes) (hq : q ≠ []) (n : Nat) (hn : (streamOf ms ++ p).length < n) :
    ∃ err, readMessages n (streamOf ms ++ p) = .ok (ms, err) ∧ (p = [] → err = .eof) := by
  induction ms generalizing n with
  | nil =>
    cases n with
    | zero => omega
    | succ n =>
      obtain ⟨err, h1, h2⟩ := readMessage_cut hm e hq
      refine ⟨err, ?_, h2⟩
      show readMessages (n + 1) p = _
      rw [readMessages, h1]; rfl
  | cons a ms ih =>
    cases n with
    | zero => omega
    | succ n =>
      have hs : streamOf (a :: ms) ++ p = a.bytes ++ (streamOf ms ++ p) := by simp [streamOf]
      rw [hs] at hn ⊢
      have hl := bytes_length (m := a)
      obtain ⟨err, h1, h2⟩ := ih (fun x hx => h x (List.mem_cons_of_mem _ hx)) n (by
        rw [List.length_append] at hn; omega)
      refine ⟨err, ?_, h2⟩
      rw [readMessages, C42_roundtrip (h a List.mem_cons_self)]
      show (do
        let (ms, e) ← readMessages n (streamOf ms ++ p)
        .ok (a :: ms, e)) = _
      rw [h1]; rfl

/-- **C43.**  A stream of messages is read back as the same messages, then the end of the stream is reported. -/
theorem C43_stream {ms : List Msg} (h : ∀ m ∈ ms, m.Sendable) : readStream (streamOf ms) = .ok (ms, .eof) := by
  have hm : (⟨T_RAW, []⟩ : Msg).Sendable := ⟨by decide, by decide, by decide, by simp⟩
  obtain ⟨err, h1, h2⟩ := readMessages_frames h hm (p := []) (q := (⟨T_RAW, []⟩ : Msg).bytes) rfl (by decide)
    ((streamOf ms).length + 1) (by simp)
  rw [List.append_nil] at h1
  rw [readStream, h1, h2 rfl]

/-- **C43.**  A stream cut within a message gives exactly the complete messages before the cut, then an error.  Every proper
prefix of a stream has this form (`C43_every_cut`). -/
theorem C43_cut {ms : List Msg} (h : ∀ m ∈ ms, m.Sendable) {m : Msg} (hm : m.Sendable) {p q : List Nat}
    (e : p ++ q = m.bytes) (hq : q ≠ []) : ∃ err, readStream (streamOf ms ++ p) = .ok (ms, err) := by
  obtain ⟨err, h1, -⟩ := readMessages_frames h hm e hq _ (Nat.lt_succ_self _)
  exact ⟨err, h1⟩

theorem C43_every_cut {ms : List Msg} {p q : List Nat} (e : p ++ q = streamOf ms) (hq : q ≠ []) :
    ∃ (as bs : List Msg) (m : Msg) (p' q' : List Nat), ms = as ++ m :: bs ∧ p = streamOf as ++ p' ∧ p' ++ q' = m.bytes ∧
      q' ≠ [] := by
  induction ms generalizing p with
  | nil =>
    simp [streamOf] at e
    exact absurd e.2 hq
  | cons a ms ih =>
    have hs : streamOf (a :: ms) = a.bytes ++ streamOf ms := by simp [streamOf]
    rw [hs] at e
    rcases List.append_eq_append_iff.mp e with ⟨c, h1, h2⟩ | ⟨c, h1, h2⟩
    · by_cases hc : c = []
      · subst hc
        rw [List.append_nil] at h1
        rw [List.nil_append] at h2
        obtain ⟨as, bs, m, p', q', e1, e2, e3, e4⟩ := ih (p := []) (by rw [h2]; rfl)
        refine ⟨a :: as, bs, m, p', q', by rw [e1]; rfl, ?_, e3, e4⟩
        have he : streamOf as = [] ∧ p' = [] := by simpa using e2.symm
        rw [he.2, ← h1, show streamOf (a :: as) = a.bytes ++ streamOf as by simp [streamOf], he.1]; simp
      · exact ⟨[], ms, a, p, c, rfl, rfl, h1.symm, hc⟩
    · obtain ⟨as, bs, m, p', q', e1, e2, e3, e4⟩ := ih (p := c) h2.symm
      refine ⟨a :: as, bs, m, p', q', by rw [e1]; rfl, ?_, e3, e4⟩
      rw [h1, e2, show streamOf (a :: as) = a.bytes ++ streamOf as by simp [streamOf], List.append_assoc]

example : readStream (streamOf [⟨T_DATA, [104, 105]⟩, ⟨T_EOF, []⟩] ++ [0, 0, 0, 9, 0, 0, 1]) =
    .ok ([⟨T_DATA, [104, 105]⟩, ⟨T_EOF, []⟩], .unexpectedEOF) := by decide

/-! ### C44 -/

/-- **C44 is false**: a frame whose length field is less than 2 makes the server panic, before the handshake and after. -/
theorem C44_false_length : Svr.serve [0, 0, 0, 1, 0, 0] = .error .panic ∧
    Svr.serve (streamOf (helloMsgs true 80) ++ [255, 255, 255, 255, 0, 0]) = .error .panic := by decide

/-- **C44 is false**: a width or terminal report with fewer than two bytes makes the server panic. -/
theorem C44_false_report : Svr.serve (streamOf [⟨T_ISTTY_REPORT, [1]⟩]) = .error .panic ∧
    Svr.serve (streamOf (helloMsgs true 80 ++ [⟨T_WIDTH_REPORT, []⟩])) = .error .panic := by decide

/-- A message that does not make the server panic. -/
def Msg.Harmless (m : Msg) : Prop := m.typ = T_WIDTH_REPORT ∨ m.typ = T_ISTTY_REPORT → 2 ≤ m.data.length

/-- **C44, decoding.**  Whatever bytes arrive, reading a message gives a message, an error, or panics because the length field
is less than 2; a message read is within the bytes received. -/
theorem C44_decode_partial (s : List Nat) : (∃ e, readMessage s = .ok (.error e)) ∨
    (∃ m rest, readMessage s = .ok (.ok (m, rest)) ∧ ∃ h : List Nat, h.length = 6 ∧ s = h ++ m.data ++ rest) ∨
    (readMessage s = .error .panic ∧ ∃ a b c d t, s = a :: b :: c :: d :: t ∧ get32 a b c d < 2) := by
  have hrf : ∀ (n : Nat) (s : List Nat), (∃ e, readFull n s = .error e) ∨
      ∃ a b, readFull n s = .ok (a, b) ∧ s = a ++ b ∧ a.length = n := by
    intro n s
    unfold readFull
    by_cases h : n ≤ s.length
    · rw [if_pos h]; exact .inr ⟨_, _, rfl, (List.take_append_drop _ _).symm, by simp [h]⟩
    · rw [if_neg h]
      by_cases hs : s = []
      · rw [if_pos hs]; exact .inl ⟨_, rfl⟩
      · rw [if_neg hs]; exact .inl ⟨_, rfl⟩
  unfold readMessage
  rcases hrf 4 s with ⟨e, he⟩ | ⟨l, s1, he, hs, hl⟩
  · rw [he]; exact .inl ⟨e, rfl⟩
  rw [he]
  simp only
  rcases hrf 2 s1 with ⟨e, he⟩ | ⟨t, s2, he, hs1, ht⟩
  · rw [he]; exact .inl ⟨e, rfl⟩
  rw [he]
  simp only
  match l, t, hl, ht with
  | [a, b, c, d], [e, f], _, _ =>
    simp only
    by_cases h : get32 a b c d - 2 < 0
    · rw [if_pos h]
      exact .inr (.inr ⟨rfl, a, b, c, d, s1, by rw [hs]; rfl, by omega⟩)
    · rw [if_neg h]
      rcases hrf (get32 a b c d - 2).toNat s2 with ⟨e, he⟩ | ⟨dt, s3, he, hs2, hd⟩
      · rw [he]; exact .inl ⟨e, rfl⟩
      · rw [he]
        exact .inr (.inl ⟨_, _, rfl, [a, b, c, d, e, f], rfl, by rw [hs, hs1, hs2]; simp⟩)

/-- **C44, handling.**  A server that receives only frames with a length of at least 2 and reports of at least two bytes does
not panic, whatever else they contain and wherever the stream breaks off. -/
theorem C44_serve_partial {ms : List Msg} (h : ∀ m ∈ ms, m.Sendable) (hh : ∀ m ∈ ms, m.Harmless) {m : Msg} (hm : m.Sendable)
    {p q : List Nat} (e : p ++ q = m.bytes) (hq : q ≠ []) : ∃ v, Svr.serve (streamOf ms ++ p) = .ok v := by
  have hgot : ∀ {m : Msg} (v : Svr), m.Harmless → ∃ v', v.got m = .ok v' := by
    intro m v hm
    unfold Svr.got
    by_cases h1 : m.typ = T_EOF
    · rw [if_pos h1]; exact ⟨_, rfl⟩
    rw [if_neg h1]
    by_cases h2 : m.typ = T_DATA
    · rw [if_pos h2]; exact ⟨_, rfl⟩
    rw [if_neg h2]
    by_cases h3 : m.typ = T_WIDTH_REPORT
    · rw [if_pos h3]
      have := hm (.inl h3)
      match hd : m.data, this with
      | a :: b :: t, _ => exact ⟨_, rfl⟩
    rw [if_neg h3]
    by_cases h4 : m.typ = T_ISTTY_REPORT
    · rw [if_pos h4]
      have := hm (.inr h4)
      match hd : m.data, this with
      | a :: b :: t, _ => exact ⟨_, rfl⟩
    rw [if_neg h4]; exact ⟨_, rfl⟩
  have hloop : ∀ (ms : List Msg), (∀ m ∈ ms, m.Sendable) → (∀ m ∈ ms, m.Harmless) → ∀ (n : Nat) (v : Svr),
      (streamOf ms ++ p).length < n → ∃ v', Svr.readLoop n (streamOf ms ++ p) v = .ok v' := by
    intro ms
    induction ms with
    | nil =>
      intro _ _ n v hn
      cases n with
      | zero => omega
      | succ n =>
        obtain ⟨err, h1, -⟩ := readMessage_cut hm e hq
        refine ⟨v, ?_⟩
        show Svr.readLoop (n + 1) p v = _
        rw [Svr.readLoop, h1]; rfl
    | cons a ms ih =>
      intro hs hh n v hn
      cases n with
      | zero => omega
      | succ n =>
        have hst : streamOf (a :: ms) ++ p = a.bytes ++ (streamOf ms ++ p) := by simp [streamOf]
        rw [hst] at hn ⊢
        rw [List.length_append, bytes_length] at hn
        obtain ⟨v1, h1⟩ := hgot v (hh a List.mem_cons_self)
        obtain ⟨v2, h2⟩ := ih (fun x hx => hs x (List.mem_cons_of_mem _ hx)) (fun x hx => hh x (List.mem_cons_of_mem _ hx)) n v1
          (by omega)
        refine ⟨v2, ?_⟩
        rw [Svr.readLoop, C42_roundtrip (hs a List.mem_cons_self), R.bind_ok]
        dsimp only
        rw [h1, R.bind_ok, h2]
  have hread : ∀ (a : Msg) (ms : List Msg), a.Sendable →
      readMessage (streamOf (a :: ms) ++ p) = .ok (.ok (a, streamOf ms ++ p)) := by
    intro a ms ha
    rw [show streamOf (a :: ms) ++ p = a.bytes ++ (streamOf ms ++ p) by simp [streamOf]]
    exact C42_roundtrip ha _
  have hcut : ∃ err, readMessage (streamOf [] ++ p) = .ok (.error err) := by
    obtain ⟨err, h1, -⟩ := readMessage_cut hm e hq
    exact ⟨err, h1⟩
  have hu : ∀ {d : List Nat}, 2 ≤ d.length → ∃ n, Svr.uint16 d = .ok n := by
    intro d hd
    match d, hd with
    | a :: b :: t, _ => exact ⟨_, rfl⟩
  unfold Svr.serve Svr.handshake
  match ms, h, hh with
  | [], _, _ =>
    obtain ⟨err, h1⟩ := hcut
    rw [h1]; exact ⟨_, rfl⟩
  | a :: ms, h, hh =>
    rw [hread a ms (h a List.mem_cons_self), R.bind_ok]
    dsimp only
    by_cases ha : a.typ ≠ T_ISTTY_REPORT
    · rw [if_pos ha]; exact ⟨_, rfl⟩
    rw [if_neg ha]
    obtain ⟨n, hn⟩ := hu (hh a List.mem_cons_self (.inr (Decidable.not_not.mp ha)))
    rw [Svr.gotIsTerminal, hn, R.bind_ok, R.bind_ok]
    match ms, h, hh with
    | [], _, _ =>
      obtain ⟨err, h1⟩ := hcut
      rw [h1]; exact ⟨_, rfl⟩
    | b :: ms, h, hh =>
      have hb : b ∈ a :: b :: ms := List.mem_cons_of_mem _ List.mem_cons_self
      rw [hread b ms (h b hb), R.bind_ok]
      dsimp only
      by_cases hw : b.typ ≠ T_WIDTH_REPORT
      · rw [if_pos hw]; exact ⟨_, rfl⟩
      rw [if_neg hw]
      obtain ⟨n', hn'⟩ := hu (hh b hb (.inl (Decidable.not_not.mp hw)))
      rw [Svr.gotReportWidth, hn', R.bind_ok, R.bind_ok, R.bind_ok]
      dsimp only
      obtain ⟨v', hv⟩ := hloop ms (fun x hx => h x (List.mem_cons_of_mem _ (List.mem_cons_of_mem _ hx)))
        (fun x hx => hh x (List.mem_cons_of_mem _ (List.mem_cons_of_mem _ hx))) _ _ (Nat.lt_succ_self _)
      rw [hv]
      exact ⟨_, rfl⟩

example : (∀ m ∈ helloMsgs true 80 ++ [⟨T_DATA, [104]⟩, ⟨99, []⟩], m.Sendable ∧ m.Harmless) ∧
    Svr.serve (streamOf (helloMsgs true 80 ++ [⟨T_DATA, [104]⟩, ⟨99, []⟩]) ++ [0, 0]) = .ok (some ⟨false, 80, true, [104]⟩) := by
  refine ⟨?_, by decide⟩
  unfold Msg.Sendable Msg.Harmless
  decide

/-! ### What a served client has told the server -/

/-- The last width reported after the handshake, or the one of the handshake. -/
def lastWidth (w : Int) : List Msg → Int
  | [] => w
  | m :: ms => lastWidth (match m.typ, m.data with
    | 2, a :: b :: _ => a * 256 + b
    | _, _ => w) ms

/-- **C43.**  After the greeting of a client and any harmless messages the server holds the payloads of all data messages, in
order and nothing else, knows whether the input ended, and knows the last width reported. -/
theorem C43_received {ms : List Msg} (h : ∀ m ∈ ms, m.Sendable) (hh : ∀ m ∈ ms, m.Harmless) (t : Bool) {w : Int}
    (hw : 0 ≤ w ∧ w < 2 ^ 16) : ∃ v, Svr.serve (streamOf (helloMsgs t w ++ ms)) = .ok (some v) ∧
      v.dataBuf = (ms.filter (·.typ = 0)).flatMap (·.data) ∧ (v.eof = true ↔ ∃ m ∈ ms, m.typ = 6) ∧
      v.width = lastWidth w ms ∧ ((∀ m ∈ ms, m.typ ≠ 3) → v.isTerminal = t) := by
  have hread : ∀ (a : Msg) (ms : List Msg), a.Sendable → readMessage (streamOf (a :: ms)) = .ok (.ok (a, streamOf ms)) := by
    intro a ms ha
    rw [show streamOf (a :: ms) = a.bytes ++ streamOf ms by simp [streamOf]]
    exact C42_roundtrip ha _
  have hloop : ∀ (ms : List Msg), (∀ m ∈ ms, m.Sendable) → (∀ m ∈ ms, m.Harmless) → ∀ (n : Nat) (v : Svr),
      (streamOf ms).length < n → ∃ v', Svr.readLoop n (streamOf ms) v = .ok v' ∧
        v'.dataBuf = v.dataBuf ++ (ms.filter (·.typ = 0)).flatMap (·.data) ∧
        (v'.eof = true ↔ v.eof = true ∨ ∃ m ∈ ms, m.typ = 6) ∧
        v'.width = lastWidth v.width ms ∧ ((∀ m ∈ ms, m.typ ≠ 3) → v'.isTerminal = v.isTerminal) := by
    intro ms
    induction ms with
    | nil =>
      intro _ _ n v hn
      cases n with
      | zero => omega
      | succ n => exact ⟨v, rfl, by simp, by simp, rfl, fun _ => rfl⟩
    | cons a ms ih =>
      intro hs hh n v hn
      cases n with
      | zero => omega
      | succ n =>
        have hn' : (streamOf ms).length < n := by
          rw [show streamOf (a :: ms) = a.bytes ++ streamOf ms by simp [streamOf], List.length_append, bytes_length] at hn
          omega
        have ih := ih (fun x hx => hs x (List.mem_cons_of_mem _ hx)) (fun x hx => hh x (List.mem_cons_of_mem _ hx)) n
        have hsimp : ∀ v1, v.got a = .ok v1 → Svr.readLoop (n + 1) (streamOf (a :: ms)) v = Svr.readLoop n (streamOf ms) v1 := by
          intro v1 h1
          rw [Svr.readLoop, hread a ms (hs a List.mem_cons_self), R.bind_ok]
          dsimp only
          rw [h1, R.bind_ok]
        obtain ⟨ty, d⟩ := a
        have hha : ty = 2 ∨ ty = 3 → 2 ≤ d.length := hh _ List.mem_cons_self
        by_cases h6 : ty = 6
        · subst h6
          obtain ⟨v2, e, i1, i2, i3, i4⟩ := ih { v with eof := true } hn'
          refine ⟨v2, by rw [hsimp _ rfl, e], by simpa using i1, by simpa using i2, i3, fun h => i4 fun m hm => h m (List.mem_cons_of_mem _ hm)⟩
        by_cases h0 : ty = 0
        · subst h0
          obtain ⟨v2, e, i1, i2, i3, i4⟩ := ih { v with dataBuf := v.dataBuf ++ d } hn'
          refine ⟨v2, by rw [hsimp _ rfl, e], by simpa using i1, by simpa using i2, i3, fun h => i4 fun m hm => h m (List.mem_cons_of_mem _ hm)⟩
        by_cases h2 : ty = 2
        · subst h2
          match d, hha (.inl rfl) with
          | x :: y :: d, _ =>
            obtain ⟨v2, e, i1, i2, i3, i4⟩ := ih { v with width := ((x * 256 + y : Nat) : Int) } hn'
            refine ⟨v2, by rw [hsimp _ rfl, e], by simpa using i1, by simpa using i2, ?_, fun h => i4 fun m hm => h m (List.mem_cons_of_mem _ hm)⟩
            rw [i3]
            simp [lastWidth]
        have hlw : lastWidth v.width (⟨ty, d⟩ :: ms) = lastWidth v.width ms := by
          rw [lastWidth]
          congr 1
          split
          · next e _ => exact absurd e h2
          · rfl
        by_cases h3 : ty = 3
        · subst h3
          match d, hha (.inr rfl) with
          | x :: y :: d, _ =>
            obtain ⟨v2, e, i1, i2, i3, i4⟩ := ih { v with isTerminal := decide (x * 256 + y ≠ 0) } hn'
            refine ⟨v2, by rw [hsimp _ rfl, e], by simpa using i1, by simpa using i2, by rw [hlw]; exact i3, fun h => absurd rfl (h _ List.mem_cons_self)⟩
        · obtain ⟨v2, e, i1, i2, i3, i4⟩ := ih v hn'
          have hg : v.got ⟨ty, d⟩ = .ok v := by
            unfold Svr.got
            rw [if_neg (show ¬ ty = T_EOF from h6), if_neg (show ¬ ty = T_DATA from h0),
              if_neg (show ¬ ty = T_WIDTH_REPORT from h2), if_neg (show ¬ ty = T_ISTTY_REPORT from h3)]
          refine ⟨v2, by rw [hsimp _ hg, e], ?_, ?_, by rw [hlw]; exact i3, fun h => i4 fun m hm => h m (List.mem_cons_of_mem _ hm)⟩
          · rw [List.filter_cons_of_neg (by simpa using h0)]; exact i1
          · rw [i2]
            constructor
            · rintro (h | ⟨m, hm, h⟩)
              · exact .inl h
              · exact .inr ⟨m, List.mem_cons_of_mem _ hm, h⟩
            · rintro (h | ⟨m, hm, h⟩)
              · exact .inl h
              · rcases List.mem_cons.mp hm with rfl | hm
                · exact absurd h h6
                · exact .inr ⟨m, hm, h⟩
  have hu : ∃ a b, put16 w = [a, b] ∧ ((a * 256 + b : Nat) : Int) = w ∧ a < 256 ∧ b < 256 := by
    refine ⟨_, _, rfl, ?_, ?_, ?_⟩ <;> omega
  obtain ⟨a, b, e1, e2, ha, hb⟩ := hu
  have s1 : (⟨T_ISTTY_REPORT, if t then [0, 1] else [0, 0]⟩ : Msg).Sendable := by
    cases t <;> (unfold Msg.Sendable; decide)
  have s2 : (⟨T_WIDTH_REPORT, put16 w⟩ : Msg).Sendable := by
    refine ⟨by show (-2 ^ 15 : Int) ≤ 2; decide, by show (2 : Int) < 2 ^ 15; decide, by rw [e1]; show (2 : Nat) + 2 < 2 ^ 31; decide, ?_⟩
    intro x hx
    rw [e1] at hx
    simp only [List.mem_cons, List.not_mem_nil, or_false] at hx
    rcases hx with rfl | rfl <;> assumption
  have ht : Svr.gotIsTerminal (if t then [0, 1] else [0, 0]) Svr.init = .ok ⟨false, -1, t, []⟩ := by
    cases t <;> rfl
  have hwd : Svr.gotReportWidth (put16 w) ⟨false, -1, t, []⟩ = .ok ⟨false, w, t, []⟩ := by
    rw [e1]
    show (Except.ok _ : R Svr) = _
    rw [e2]
  obtain ⟨v, e, i1, i2, i3, i4⟩ := hloop ms h hh ((streamOf ms).length + 1) ⟨false, w, t, []⟩ (Nat.lt_succ_self _)
  refine ⟨v, ?_, by simpa using i1, by simpa using i2, i3, i4⟩
  unfold Svr.serve Svr.handshake helloMsgs
  rw [List.cons_append, List.cons_append, List.nil_append, hread _ _ s1, R.bind_ok]
  dsimp only
  rw [if_neg (fun h => h rfl), ht, R.bind_ok, hread _ _ s2, R.bind_ok]
  dsimp only
  rw [if_neg (fun h => h rfl), hwd, R.bind_ok, R.bind_ok]
  dsimp only
  rw [e]; rfl

end RL
