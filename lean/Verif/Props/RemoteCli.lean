import Verif.Spec.Remote
import Verif.Props.RemoteRead
import Verif.Props.RemoteWrite
import Verif.Props.Restart
import Verif.Props.Tty
/-! # C88: a session on a remote terminal -/

namespace RL.Cli
open Remote

/-! ### What the client sends -/

theorem copy_spec : ∀ (s : List Src) (up : Nat), s.length < up → ∃ m n up' s', copy up s = (m.map (Msg.mk T_DATA), n, up', s') ∧
    up = up' + m.length ∧ s'.length + m.length ≤ s.length ∧ (n = 0 → m = []) ∧ (n ≠ 0 → s'.length < s.length) ∧ (∀ b ∈ m, b ≠ []) ∧
    ∀ f : Bool, pieces f s = m ++ (if f = true ∨ n ≠ 0 then pieces false s' else []) := by
  intro s
  induction s with
  | nil => exact fun up _ => ⟨[], 0, up, [], rfl, rfl, by simp, fun _ => rfl, fun h => (h rfl).elim, by simp, fun f => by cases f <;> rfl⟩
  | cons x s ih =>
    intro up hup
    simp only [List.length_cons] at hup
    cases x with
    | eof => exact ⟨[], 0, up, s, by rw [copy]; rfl, rfl, by simp, fun _ => rfl, fun h => (h rfl).elim, by simp, fun f => by cases f <;> rfl⟩
    | err => exact ⟨[], 0, up, s, by rw [copy]; rfl, rfl, by simp, fun _ => rfl, fun h => (h rfl).elim, by simp, fun f => by cases f <;> rfl⟩
    | data b =>
      by_cases hb : b = []
      · obtain ⟨m, n, up', s', e, h1, h2, h3, h4, h5, h6⟩ := ih up (by omega)
        refine ⟨m, n, up', s', by rw [copy, if_pos hb]; exact e, h1, by simp only [List.length_cons]; omega, h3,
          fun h => by have := h4 h; simp only [List.length_cons]; omega, h5, fun f => ?_⟩
        rw [pieces, if_pos hb]; exact h6 f
      · obtain ⟨up, rfl⟩ : ∃ u, up = u + 1 := ⟨up - 1, by omega⟩
        obtain ⟨m, n, up', s', e, h1, h2, h3, h4, h5, h6⟩ := ih up (by omega)
        have hl : b.length ≠ 0 := fun h => hb (List.length_eq_zero_iff.1 h)
        refine ⟨b :: m, b.length + n, up', s', ?_, by simp only [List.length_cons]; omega, by simp only [List.length_cons]; omega,
          fun h => by omega, fun _ => by simp only [List.length_cons]; omega, ?_, fun f => ?_⟩
        · rw [copy, if_neg hb, if_neg (by omega), Nat.add_sub_cancel, e]; rfl
        · intro x hx
          rcases List.mem_cons.1 hx with rfl | hx
          · exact hb
          · exact h5 x hx
        · rw [pieces, if_neg hb, h6 true, if_pos (.inl rfl), if_pos (.inr (by omega))]; rfl

/-- **C88** (what is sent).  On a connection that works, the client sends one data frame for every read that gave something, in
order and up to the end of what was typed, then the end of input. -/
theorem C88_sent : ∀ (s : List Src) (up fuel : Nat), s.length < up → s.length < fuel → ∃ rest,
    pump fuel up s = .ok ((pieces false s).map (Msg.mk T_DATA) ++ [⟨T_EOF, []⟩], rest) := by
  intro s
  induction hn : s.length using Nat.strongRecOn generalizing s with
  | ind n ih =>
    intro up fuel hup hf
    subst hn
    obtain ⟨fuel, rfl⟩ : ∃ u, fuel = u + 1 := ⟨fuel - 1, by omega⟩
    obtain ⟨m, n, up', s', e, h1, h2, h3, h4, h5, h6⟩ := copy_spec s up hup
    rw [pump, e]
    dsimp only
    by_cases h0 : n = 0
    · rw [if_pos h0, if_neg (by omega), h3 h0]
      refine ⟨s', ?_⟩
      have : pieces false s = [] := by rw [h6, h3 h0, if_neg (by simp [h0])]; rfl
      rw [this]
    · have := h4 h0
      obtain ⟨rest, er⟩ := ih s'.length this s' rfl up' fuel (by omega) (by omega)
      rw [if_neg h0, er]
      refine ⟨rest, ?_⟩
      rw [h6 false, if_pos (.inr h0)]
      simp

theorem pieces_ne : ∀ (s : List Src) (f : Bool), ∀ b ∈ pieces f s, b ≠ [] := by
  intro s
  induction s with
  | nil => intro f b h; cases h
  | cons x s ih =>
    intro f b h
    cases x with
    | data c =>
      rw [pieces] at h
      split at h
      · exact ih _ b h
      · rcases List.mem_cons.1 h with rfl | h
        · assumption
        · exact ih _ b h
    | eof => rw [pieces] at h; split at h; exact ih _ b h; cases h
    | err => rw [pieces] at h; split at h; exact ih _ b h; cases h

example : typed [.data [104], .data [105, 13], .eof, .data [97], .eof, .eof, .data [98]] = [104, 105, 13, 97] ∧
    pump 8 8 [.data [104], .data [105, 13], .eof, .data [97], .eof, .eof, .data [98]] =
      .ok ([⟨0, [104]⟩, ⟨0, [105, 13]⟩, ⟨0, [97]⟩, ⟨6, []⟩], [.data [98]]) := by decide

/-- **C88 is false of a broken connection**: the client goes on reading what the user types and throws it away. -/
theorem C88_false_swallow : ∀ bs : List (List Nat), ∀ fuel, bs.length < fuel → pump fuel 0 (bs.map .data) = .ok ([], []) := by
  intro bs
  induction bs with
  | nil =>
    intro fuel hf
    obtain ⟨fuel, rfl⟩ : ∃ u, fuel = u + 1 := ⟨fuel - 1, by simp at hf; omega⟩
    rfl
  | cons b bs ih =>
    intro fuel hf
    simp only [List.length_cons] at hf
    obtain ⟨fuel, rfl⟩ : ∃ u, fuel = u + 1 := ⟨fuel - 1, by omega⟩
    by_cases hb : b = []
    · have h1 : ∀ up s, copy up (.data b :: s) = copy up s := fun up s => by rw [copy, if_pos hb]
      have h2 : pump (fuel + 1) 0 (.data b :: bs.map .data) = pump (fuel + 1) 0 (bs.map .data) := by
        rw [pump, pump, h1]
      rw [List.map_cons, h2]
      exact ih (fuel + 1) (by omega)
    · have hl : b.length ≠ 0 := fun h => hb (List.length_eq_zero_iff.1 h)
      have : copy 0 (.data b :: bs.map .data) = ([], b.length, 0, bs.map .data) := by rw [copy, if_neg hb, if_pos rfl]
      rw [List.map_cons, pump, this]
      dsimp only
      rw [if_neg hl, ih fuel (by omega)]
      rfl

/-! ### What the server gets -/

theorem sent {src rest : List Src} {up fuel : Nat} {fs ms : List Msg} (hp : pump fuel up src = .ok (fs, rest)) (hup : src.length < up)
    (hfu : src.length < fuel) (hm : Mixed fs ms) : Mixed ((pieces false src).map (Msg.mk T_DATA) ++ [⟨T_EOF, []⟩]) ms := by
  obtain ⟨r, e⟩ := C88_sent src up fuel hup hfu
  rw [hp] at e
  cases e
  exact hm

theorem mixed_payloads {fs ms : List Msg} (h : Mixed fs ms) : payloads ms = payloads fs := by
  unfold payloads
  rw [← h.1, List.filter_filter]
  congr 1
  apply List.filter_congr
  intro m _
  by_cases h0 : m.typ = 0
  · simp [h0, T_WIDTH_REPORT]
  · simp [h0]

theorem payloads_pieces (ps : List (List Nat)) : payloads (ps.map (Msg.mk T_DATA) ++ [⟨T_EOF, []⟩]) = ps.flatten := by
  induction ps with
  | nil => rfl
  | cons p ps ih =>
    rw [List.map_cons, List.cons_append]
    show payloads (_ :: _) = _
    rw [show payloads (⟨T_DATA, p⟩ :: (ps.map (Msg.mk T_DATA) ++ [⟨T_EOF, []⟩])) =
      p ++ payloads (ps.map (Msg.mk T_DATA) ++ [⟨T_EOF, []⟩]) from rfl, ih]
    rfl

/-- A prefix of what a client sends is read as a prefix of its messages. -/
theorem cut_prefix {ms : List Msg} (h : ∀ m ∈ ms, m.Sendable) {p q : List Nat} (e : p ++ q = streamOf ms) :
    ∃ as err, readStream p = .ok (as, err) ∧ as <+: ms := by
  by_cases hq : q = []
  · subst hq
    rw [List.append_nil] at e
    exact ⟨ms, _, e ▸ C43_stream h, List.prefix_refl _⟩
  · obtain ⟨as, bs, m, p', q', e1, e2, e3, e4⟩ := C43_every_cut e hq
    subst e1 e2
    obtain ⟨err, he⟩ := C43_cut (ms := as) (fun x hx => h x (by simp [hx])) (h m (by simp)) e3 e4
    exact ⟨as, err, he, List.prefix_append _ _⟩

theorem payloads_prefix {as ms : List Msg} (h : as <+: ms) : payloads as <+: payloads ms := by
  obtain ⟨t, rfl⟩ := h
  rw [payloads_append]
  exact List.prefix_append _ _

/-- **C88** (input).  Whatever the user types, wherever the reads of the source cut it, wherever the reports of the width come,
wherever the connection breaks and however the goroutines of the server interleave: the bytes `Read` has returned on the
server are the first bytes the user has typed. -/
theorem C88_input {src rest : List Src} {up fuel : Nat} {fs ms : List Msg} (hp : pump fuel up src = .ok (fs, rest)) (hup : src.length < up)
    (hfu : src.length < fuel) (hm : Mixed fs ms) (hs : ∀ m ∈ ms, m.Sendable) (tty : Bool) (w : Int) {p q : List Nat}
    (e : p ++ q = streamOf (helloMsgs tty w ++ ms)) :
    ∃ as err, readStream p = .ok (as, err) ∧ ∀ s, Reach (as.drop 2) s → returned s.out <+: typed src := by
  have hm := sent hp hup hfu hm
  have hello : ∀ m ∈ helloMsgs tty w ++ ms, m.Sendable := by
    intro m h
    rcases List.mem_append.1 h with h | h
    · simp only [helloMsgs, List.mem_cons, List.not_mem_nil, or_false] at h
      rcases h with rfl | rfl
      · cases tty <;> exact ⟨by decide, by decide, by decide, by decide⟩
      · refine ⟨by show -2 ^ 15 ≤ T_WIDTH_REPORT; decide, by show T_WIDTH_REPORT < 2 ^ 15; decide, by simp [put16], ?_⟩
        simp only [put16, List.mem_cons, List.not_mem_nil, or_false]
        rintro b (rfl | rfl) <;> omega
    · exact hs m h
  obtain ⟨as, err, h1, h2⟩ := cut_prefix hello e
  refine ⟨as, err, h1, fun s hr => ?_⟩
  have h2 : as.drop 2 <+: ms := by
    obtain ⟨t, ht⟩ := h2
    by_cases hl : 2 ≤ as.length
    · have := congrArg (List.drop 2) ht
      rw [List.drop_append_of_le_length hl] at this
      exact ⟨t, this⟩
    · rw [List.drop_of_length_le (by omega)]; exact List.nil_prefix
  have := (C45_order hr).2.2.trans (payloads_prefix h2)
  rw [mixed_payloads hm, payloads_pieces] at this
  exact this

/-! ### Calm schedules -/

theorem Calm_reach {ms : List Msg} {s : Remote.St} (h : Calm ms s) : Reach ms s := by
  induction h with
  | init => exact .init
  | step _ hs _ _ _ ih => exact ih.step hs

/-- What the reader can rely on in calm schedules. -/
def Place (s : Remote.St) : Prop :=
  match s.reader with
  | .idle => True
  | .first k => k ≠ 0
  | .check1 k e => k ≠ 0 ∧ e = true ∧ s.recv ≠ .signal ∧ s.dataBuf = []
  | .enter k => k ≠ 0 ∧ s.recv ≠ .signal ∧ s.dataBuf = [] ∧ s.eof = false
  | .wait k => k ≠ 0 ∧ (s.recv ≠ .signal → s.dataBuf = [] ∧ s.eof = false) ∧ (s.recv = .signal → s.dataBuf ≠ [] ∨ s.eof = true)
  | .second k => k ≠ 0 ∧ (s.dataBuf ≠ [] ∨ s.eof = true)
  | .check2 _ => s.eof = true ∧ s.dataBuf = []

/-- No data after the end of input. -/
def EofLast (ms : List Msg) : Prop := ∀ a m b, ms = a ++ m :: b → m.typ = T_EOF → ∀ x ∈ b, x.typ ≠ T_DATA

theorem Calm_place {ms : List Msg} (hd : ∀ m ∈ ms, m.typ = T_DATA → m.data ≠ []) (hl : EofLast ms) {s : Remote.St} (h : Calm ms s) :
    Place s ∧ (.eof ∈ s.out → s.eof = true ∧ s.dataBuf = []) := by
  induction h with
  | init => exact ⟨trivial, fun h => by cases h⟩
  | @step s t hc hs h1 h2 h3 ih =>
    obtain ⟨ip, io⟩ := ih
    have inv := (Calm_reach hc).inv
    have late : s.eof = true → ∀ m l, s.inp = m :: l → m.typ ≠ T_DATA := by
      intro he m l hi
      obtain ⟨x, hx, hx6⟩ := inv.eof.1 he
      obtain ⟨a, b, hab⟩ := List.append_of_mem hx
      exact hl a x (b ++ m :: l) (by rw [inv.split, hab, hi]; simp) hx6 m (by simp)
    obtain ⟨inp, handled, recv, reader, dataBuf, eof, out⟩ := s
    cases hs with
    | close a b => exact ⟨by revert ip; unfold Place; dsimp only at a; subst a; cases reader <;> simp, io⟩
    | @gotEof m l a b c =>
      dsimp only at a b
      have h1 := h1 (by simp)
      dsimp only at h1
      refine ⟨?_, fun h => ⟨rfl, (io h).2⟩⟩
      rcases h1 with h1 | ⟨k, h1⟩
      · subst h1; trivial
      · subst h1
        simp only [Place] at ip ⊢
        exact ⟨ip.1, fun h => (h rfl).elim, fun _ => .inr trivial⟩
    | @gotData m l a b c =>
      dsimp only at a b
      have h1 := h1 (by simp)
      dsimp only at h1
      have hne : m.data ≠ [] := hd m (by rw [inv.split]; dsimp only; rw [b]; simp) c
      refine ⟨?_, fun h => (late (io h).1 m l b c).elim⟩
      rcases h1 with h1 | ⟨k, h1⟩
      · subst h1; trivial
      · subst h1
        simp only [Place] at ip ⊢
        exact ⟨ip.1, fun h => (h rfl).elim, fun _ => .inl (by simp [hne])⟩
    | @gotOther m l a b c d =>
      dsimp only at a b
      refine ⟨?_, io⟩
      revert ip
      unfold Place
      dsimp only
      exact id
    | @signal k a b =>
      dsimp only at a b
      subst a b
      simp only [Place] at ip ⊢
      exact ⟨⟨ip.1, ip.2.2 trivial⟩, io⟩
    | drop a b =>
      dsimp only at a b
      subst a
      refine ⟨?_, io⟩
      cases reader with
      | wait k => exact (b k rfl).elim
      | check1 => simp [Place] at ip
      | enter => simp [Place] at ip
      | _ => exact ip
    | call k a =>
      refine ⟨?_, io⟩
      show k ≠ 0
      intro hk
      subst hk
      exact h3 rfl
    | first a b =>
      refine ⟨trivial, fun h => ?_⟩
      dsimp only at h
      rw [List.mem_append] at h
      rcases h with h | h
      · exact ⟨(io h).1, by have e : dataBuf = [] := (io h).2; simp [e]⟩
      · simp at h
    | @empty k a b =>
      dsimp only at a b
      subst a
      have hk : k ≠ 0 := ip
      have hrecv : recv ≠ .signal := fun h => h2 h h
      have hb : dataBuf = [] := by
        simp only [bufRead] at b
        cases dataBuf with
        | nil => rfl
        | cons x l => obtain ⟨k, rfl⟩ := Nat.exists_eq_succ_of_ne_zero hk; simp at b
      subst hb
      refine ⟨?_, io⟩
      show k ≠ 0 ∧ _ ∧ recv ≠ _ ∧ _
      exact ⟨hk, by simp [bufRead, hk], hrecv, rfl⟩
    | @eof1 k e a b =>
      dsimp only at a b
      subst a b
      simp only [Place] at ip
      exact ⟨trivial, fun _ => ⟨rfl, ip.2.2.2⟩⟩
    | @toWait k a b =>
      dsimp only at a b
      subst a b
      simp only [Place] at ip ⊢
      exact ⟨⟨ip.1, ip.2.2.1, ip.2.2.2, trivial⟩, io⟩
    | @block k a =>
      dsimp only at a
      subst a
      simp only [Place] at ip ⊢
      exact ⟨⟨ip.1, fun _ => ip.2.2, fun h => (ip.2.1 h).elim⟩, io⟩
    | @skip k a b =>
      dsimp only at a
      subst a
      simp [Place] at ip
    | second a b =>
      refine ⟨trivial, fun h => ?_⟩
      dsimp only at h
      rw [List.mem_append] at h
      rcases h with h | h
      · exact ⟨(io h).1, by have e : dataBuf = [] := (io h).2; simp [e]⟩
      · simp at h
    | @empty2 k a b =>
      dsimp only at a b
      subst a
      simp only [Place] at ip ⊢
      have hb : dataBuf = [] := by
        simp only [bufRead] at b
        cases dataBuf with
        | nil => rfl
        | cons x l => obtain ⟨k, rfl⟩ := Nat.exists_eq_succ_of_ne_zero ip.1; simp at b
      exact ⟨⟨ip.2.resolve_left (fun h => h hb), hb⟩, io⟩
    | @ret e a =>
      dsimp only at a
      subst a
      simp only [Place] at ip
      exact ⟨trivial, fun _ => ip⟩

theorem client_frames {src : List Src} {ms : List Msg} (hm : Mixed ((pieces false src).map (Msg.mk T_DATA) ++ [⟨T_EOF, []⟩]) ms) :
    (∀ m ∈ ms, m.typ = T_DATA → m.data ≠ []) ∧ EofLast ms := by
  refine ⟨fun m h ht => ?_, ?_⟩
  · have : m ∈ ms.filter (·.typ ≠ T_WIDTH_REPORT) := by rw [List.mem_filter]; exact ⟨h, by rw [ht]; decide⟩
    rw [hm.1, List.mem_append] at this
    rcases this with h | h
    · obtain ⟨b, hb, rfl⟩ := List.mem_map.1 h
      exact pieces_ne src false b hb
    · rw [List.mem_singleton.1 h] at ht; cases ht
  · rintro a m b rfl h6 x hx h0
    have e := hm.1
    rw [List.filter_append, List.filter_cons_of_pos (by rw [h6]; decide)] at e
    have hxm : x ∈ b.filter (·.typ ≠ T_WIDTH_REPORT) := by rw [List.mem_filter]; exact ⟨hx, by rw [h0]; decide⟩
    generalize b.filter (·.typ ≠ T_WIDTH_REPORT) = b', a.filter (·.typ ≠ T_WIDTH_REPORT) = a' at e hxm
    have hb : b' = [] := by
      cases List.eq_nil_or_concat b' with
      | inl h => exact h
      | inr h =>
        obtain ⟨b'', z, rfl⟩ := h
        have e' : (a' ++ m :: b'') ++ [z] = (pieces false src).map (Msg.mk T_DATA) ++ [⟨T_EOF, []⟩] := by rw [← e]; simp
        have := (List.append_inj' e' rfl).1
        have : m ∈ (pieces false src).map (Msg.mk T_DATA) := by rw [← this]; simp
        obtain ⟨c, _, rfl⟩ := List.mem_map.1 this
        cases h6
    rw [hb] at hxm
    cases hxm

/-- **C88, the part that holds** (end of input).  In calm schedules `Read` reports the end of input only when it has returned all
the bytes the user has typed; and it waits only while there is nothing to return and the end has not come, or when it is
about to be woken.  Missing: other schedules (`C88_false_eof`, `C45_eof_before_data`, `C46_false_lost`). -/
theorem C88_calm_partial {src rest : List Src} {up fuel : Nat} {fs ms : List Msg} (hp : pump fuel up src = .ok (fs, rest)) (hup : src.length < up)
    (hfu : src.length < fuel) (hm : Mixed fs ms) {s : Remote.St} (h : Calm ms s) : (.eof ∈ s.out → returned s.out = typed src) ∧
      (∀ k, s.reader = .wait k → (s.dataBuf = [] ∧ s.eof = false) ∨ s.recv = .signal) := by
  have hm := sent hp hup hfu hm
  obtain ⟨h1, h2⟩ := client_frames hm
  obtain ⟨ip, io⟩ := Calm_place h1 h2 h
  have inv := (Calm_reach h).inv
  refine ⟨fun he => ?_, fun k hk => ?_⟩
  · obtain ⟨e1, e2⟩ := io he
    obtain ⟨x, hx, hx6⟩ := inv.eof.1 e1
    obtain ⟨a, b, hab⟩ := List.append_of_mem hx
    have hnil : payloads s.inp = [] := by
      unfold payloads
      rw [List.filter_eq_nil_iff.2]
      · rfl
      · intro y hy
        have : ¬ y.typ = 0 := h2 a x (b ++ s.inp) (by rw [inv.split, hab]; simp) hx6 y (by simp [hy])
        simpa using this
    have := inv.bytes
    rw [e2, List.append_nil] at this
    rw [this]
    have hp : payloads ms = payloads s.handled := by rw [inv.split, payloads_append, hnil, List.append_nil]
    rw [← hp, mixed_payloads hm, payloads_pieces]
    rfl
  · unfold Place at ip
    rw [hk] at ip
    by_cases hr : s.recv = .signal
    · exact .inr hr
    · exact .inl (ip.2.1 hr)

/-- **C88 is false: the input seems to end.**  The reader takes the data of a message before the receive loop signals it, and waits for more; the
signal then wakes it, it finds nothing, and reports the end of input although the connection is open, the user has not
ended the input and more is coming. -/
theorem C88_false_eof : ∃ s, Reach [⟨T_DATA, [104]⟩, ⟨T_DATA, [105]⟩, ⟨T_EOF, []⟩] s ∧ s.out = [.data [104], .eof] ∧ s.eof = false ∧
    s.inp = [⟨T_DATA, [105]⟩, ⟨T_EOF, []⟩] := by
  have h := Reach.init (ms := [⟨T_DATA, [104]⟩, ⟨T_DATA, [105]⟩, ⟨T_EOF, []⟩])
  have h := h.step (.gotData rfl rfl rfl)
  have h := h.step (.call 10 rfl)
  have h := h.step (.first rfl (by decide))
  have h := h.step (.call 10 rfl)
  have h := h.step (.empty rfl (by decide))
  have h := h.step (.toWait rfl rfl)
  have h := h.step (.block rfl)
  have h := h.step (.signal rfl rfl)
  have h := h.step (.empty2 rfl (by decide))
  have h := h.step (.ret rfl)
  exact ⟨_, h, rfl, rfl, rfl⟩

/-- A calm schedule: the reader waits, both keys arrive, then the end of input. -/
theorem C88_calm_example : ∃ s, Calm [⟨T_DATA, [104, 13]⟩, ⟨T_WIDTH_REPORT, [0, 80]⟩, ⟨T_EOF, []⟩] s ∧ s.out = [.data [104], .data [13], .eof] := by
  have h := Calm.init (ms := [⟨T_DATA, [104, 13]⟩, ⟨T_WIDTH_REPORT, [0, 80]⟩, ⟨T_EOF, []⟩])
  unfold St.init at h
  have h := h.step (.call 1 rfl) (by simp) (by simp) (by simp)
  have h := h.step (.empty rfl (by decide)) (by simp) (by simp) (by simp)
  have h := h.step (.toWait rfl rfl) (by simp) (by simp) (by simp)
  have h := h.step (.block rfl) (by simp) (by simp) (by simp)
  have h := h.step (.gotData rfl rfl rfl) (by simp) (by simp) (by simp)
  have h := h.step (.signal rfl rfl) (by simp) (by simp) (by simp)
  have h := h.step (.second rfl (by decide)) (by simp) (by simp) (by simp)
  have h := h.step (.gotOther rfl rfl (by decide) (by decide)) (by simp) (by simp) (by simp)
  have h := h.step (.gotEof rfl rfl rfl) (by simp) (by simp) (by simp)
  have h := h.step (.drop rfl (by intro k h; cases h)) (by simp) (by simp) (by simp)
  have h := h.step (.call 1 rfl) (by simp) (by simp) (by simp)
  have h := h.step (.first rfl (by decide)) (by simp) (by simp) (by simp)
  have h := h.step (.call 1 rfl) (by simp) (by simp) (by simp)
  have h := h.step (.empty rfl (by decide)) (by simp) (by simp) (by simp)
  have h := h.step (.eof1 rfl rfl) (by simp) (by simp) (by simp)
  exact ⟨_, h, rfl⟩

/-! ### Output -/

theorem readLoop_eq (p : Tty.Plat) : ∀ (n : Nat) (w : List Nat) (s : St) {ms : List Msg} {e : IoErr}, readMessages n w = .ok (ms, e) →
    s.readLoop p n w = .ok (ms.foldl (St.got p) s) := by
  intro n
  induction n with
  | zero => intro w s ms e h; cases h
  | succ n ih =>
    intro w s ms e h
    rw [readMessages] at h
    rw [St.readLoop]
    obtain ⟨x, hx, h⟩ := R.bind_inv h
    rw [hx, R.bind_ok]
    cases x with
    | error e' => cases h; rfl
    | ok y =>
      obtain ⟨m, w'⟩ := y
      dsimp only at h ⊢
      obtain ⟨z, hz, h⟩ := R.bind_inv h
      obtain ⟨ms', e'⟩ := z
      cases h
      exact ih w' (s.got p m) hz

theorem got_out (p : Tty.Plat) : ∀ (ms : List Msg) (s : St), (ms.foldl (St.got p) s).out = s.out ++ texts ms := by
  intro ms
  induction ms with
  | nil => intro s; simp [texts]
  | cons m ms ih =>
    intro s
    rw [List.foldl_cons, ih]
    unfold St.got
    by_cases h1 : m.typ = T_ERAW
    · rw [if_pos h1]; simp [texts, h1, show ¬ T_ERAW = T_DATA by decide]
    · rw [if_neg h1]
      by_cases h2 : m.typ = T_RAW
      · rw [if_pos h2]; simp [texts, h2, show ¬ T_RAW = T_DATA by decide]
      · rw [if_neg h2]
        by_cases h3 : m.typ = T_DATA
        · rw [if_pos h3]; simp [texts, h3]
        · rw [if_neg h3]; simp [texts, h3]

/-- The client's terminal outside and inside raw mode, when `d` is how it was found. -/
def Mode (p : Tty.Plat) (d : Tty.Dev) : Bool → Tty.St → Prop
  | false, s => s.dev = d ∧ (s.state = none ∨ s.state = d.cur)
  | true, s => Tty.InCall p d.cur d.refuse s

theorem Mode.exit {p : Tty.Plat} {d : Tty.Dev} {raw : Bool} {s : Tty.St} (h : Mode p d raw s) : Mode p d false (s.act p .exit) := by
  cases raw with
  | true =>
    have := Tty.InCall.exit h
    exact ⟨this.1, .inr this.2⟩
  | false =>
    obtain ⟨st, dev⟩ := s
    obtain ⟨h1, h2⟩ := h
    dsimp only at h1 h2
    subst h1
    obtain ⟨c, r⟩ := dev
    rcases h2 with h2 | h2
    · subst h2; exact ⟨rfl, .inl rfl⟩
    · dsimp only at h2
      subst h2
      cases st <;> cases r <;> exact ⟨rfl, .inr rfl⟩

/-- Whether the server wants raw mode after some messages. -/
def wantsRaw (raw : Bool) : List Msg → Bool
  | [] => raw
  | m :: ms => wantsRaw (if m.typ = T_ERAW then false else if m.typ = T_RAW then true else raw) ms

theorem got_mode (p : Tty.Plat) (d : Tty.Dev) : ∀ (ms : List Msg) (raw : Bool) (s : St), Mode p d raw s.tty → Balanced raw ms →
    Mode p d (wantsRaw raw ms) (ms.foldl (St.got p) s).tty := by
  intro ms
  induction ms with
  | nil => exact fun _ _ h _ => h
  | cons m ms ih =>
    intro raw s h hb
    rw [Balanced] at hb
    rw [List.foldl_cons, wantsRaw]
    unfold St.got
    by_cases h1 : m.typ = T_ERAW
    · rw [if_pos h1] at hb ⊢
      rw [if_pos h1]
      exact ih _ _ h.exit hb
    · rw [if_neg h1] at hb ⊢
      rw [if_neg h1]
      by_cases h2 : m.typ = T_RAW
      · rw [if_pos h2] at hb ⊢
        rw [if_pos h2]
        obtain ⟨hr, hb⟩ := hb
        subst hr
        refine ih true _ ?_ hb
        have := Tty.enter_inCall p s.tty
        rw [h.1] at this
        exact this
      · rw [if_neg h2] at hb ⊢
        rw [if_neg h2]
        split
        · exact ih _ _ h hb
        · exact ih _ _ h hb

theorem Balanced.prefix : ∀ {as ms : List Msg} {raw : Bool}, as <+: ms → Balanced raw ms → Balanced raw as := by
  intro as
  induction as with
  | nil => intros; trivial
  | cons a as ih =>
    rintro ms raw ⟨t, rfl⟩ h
    rw [List.cons_append, Balanced] at h
    rw [Balanced]
    split
    · rename_i h1; rw [if_pos h1] at h; exact ih (List.prefix_append _ _) h
    · rename_i h1; rw [if_neg h1] at h
      split
      · rename_i h2; rw [if_pos h2] at h; exact ⟨h.1, ih (List.prefix_append _ _) h.2⟩
      · rename_i h2; rw [if_neg h2] at h; exact ih (List.prefix_append _ _) h

/-- **C88** (output).  Any number of goroutines of the server write, and the connection delivers any part of what they wrote and breaks.  The
client has then written to its standard output the texts of the frames, in order, up to where the connection broke, and the
settings of its terminal are as they were; if nothing was cut off, all texts. -/
theorem C88_output (pl : Tty.Plat) {s : SvrW.St} (h : SvrW.Reach s) (hm : ∀ d ∈ s.done, d.msg.Sendable) (hok : ∀ d ∈ s.done, d.ok = true)
    (hb : Balanced false (s.done.map (·.msg))) {p q : List Nat} (e : p ++ q = s.wire) (dev : Tty.Dev) :
    ∃ c, St.serve pl p ⟨⟨none, dev⟩, []⟩ = .ok c ∧ c.tty.dev = dev ∧ c.out <+: texts (s.done.map (·.msg)) ∧
      (q = [] → c.out = texts (s.done.map (·.msg))) := by
  have hms : ∀ m ∈ s.done.map (·.msg), m.Sendable := by
    intro m hm'
    obtain ⟨d, hd, rfl⟩ := List.mem_map.1 hm'
    exact hm d hd
  have hw : s.wire = streamOf (s.done.map (·.msg)) := by
    have v := h.inv
    rw [v.wire, streamOf]
    congr 1
    rw [List.map_map]
    apply List.map_congr_left
    intro d hd
    have := (v.sound d hd).2 (hok d hd)
    simp [WDone.piece, this]
  obtain ⟨as, err, h1, h2⟩ := cut_prefix hms (e.trans hw)
  have hl := readLoop_eq pl _ _ ⟨⟨none, dev⟩, []⟩ h1
  have hmode := (got_mode pl dev as false ⟨⟨none, dev⟩, []⟩ ⟨rfl, .inl rfl⟩ (hb.prefix h2)).exit
  refine ⟨_, by rw [St.serve, hl]; rfl, hmode.1, ?_, ?_⟩
  · show (as.foldl (St.got pl) _).out <+: _
    rw [got_out]
    obtain ⟨t, ht⟩ := h2
    rw [← ht]
    show [] ++ texts as <+: texts (as ++ t)
    simp [texts]
  · intro hq
    subst hq
    rw [List.append_nil] at e
    rw [e, hw, C43_stream hms] at h1
    cases h1
    show (List.foldl (St.got pl) _ _).out = _
    rw [got_out]; rfl

/-- **C88** (raw mode).  After any messages of the server, the client's terminal is in raw mode if the last switch the server asked
for was to raw mode, with all other settings kept; otherwise it is as it was found. -/
theorem C88_raw (pl : Tty.Plat) {ms : List Msg} (hb : Balanced false ms) {t : Tty.Termios} :
    ∃ t', ((ms.foldl (St.got pl) ⟨⟨none, ⟨some t, false⟩⟩, []⟩).tty.dev.cur = some t') ∧
      (wantsRaw false ms = true → Tty.Raw pl t' ∧ Tty.Rest pl t t') ∧ (wantsRaw false ms = false → t' = t) := by
  have h := got_mode pl ⟨some t, false⟩ ms false ⟨⟨none, ⟨some t, false⟩⟩, []⟩ ⟨rfl, .inl rfl⟩ hb
  cases hw : wantsRaw false ms with
  | true =>
    rw [hw] at h
    exact ⟨Tty.rawOf pl t, by rw [h.dev]; rfl, fun _ => ⟨Tty.rawOf_raw .., Tty.rawOf_rest ..⟩, fun h => by cases h⟩
  | false =>
    rw [hw] at h
    exact ⟨t, by rw [h.1], (fun h => by cases h), fun _ => rfl⟩

/-- What a server sends during two calls of `Readline` and `Close`. -/
example : Balanced false [⟨T_RAW, []⟩, ⟨T_DATA, [62, 32]⟩, ⟨T_DATA, [104, 105, 10]⟩, ⟨T_ERAW, []⟩, ⟨T_RAW, []⟩, ⟨T_DATA, [62]⟩, ⟨T_ERAW, []⟩, ⟨T_ERAW, []⟩] ∧
    texts [⟨T_RAW, []⟩, ⟨T_DATA, [62, 32]⟩, ⟨T_DATA, [104, 105, 10]⟩, ⟨T_ERAW, []⟩] = [62, 32, 104, 105, 10] ∧
    wantsRaw false [⟨T_RAW, []⟩, ⟨T_DATA, [62, 32]⟩] = true := by
  simp [Balanced, texts, wantsRaw, T_RAW, T_DATA, T_ERAW]

/-- A connection that breaks in the third message. -/
example (pl : Tty.Plat) (dev : Tty.Dev) : ∃ c, St.serve pl (streamOf [⟨T_RAW, []⟩, ⟨T_DATA, [62, 32]⟩] ++ [0, 0, 0]) ⟨⟨none, dev⟩, []⟩ = .ok c ∧
    c.tty.dev = dev ∧ c.out = [62, 32] := by
  obtain ⟨cur, ref⟩ := dev
  cases cur <;> cases ref <;> exact ⟨_, rfl, rfl, rfl⟩

/-- **C88 is false of raw mode entered twice** (two calls of `Readline` at once on the server): the client's terminal stays raw after the
connection is closed. -/
theorem C88_false_raw : ∃ c t, St.serve Tty.linux (streamOf [⟨T_RAW, []⟩, ⟨T_RAW, []⟩, ⟨T_ERAW, []⟩, ⟨T_ERAW, []⟩]) ⟨⟨none, ⟨some Tty.cooked, false⟩⟩, []⟩ = .ok c ∧
    c.tty.dev.cur = some t ∧ Tty.Raw Tty.linux t :=
  ⟨_, _, rfl, rfl, Tty.rawOf_raw ..⟩

/-! ### A whole session -/

open Spec RB Ed Hist in
/-- **C88, the part that holds** (a session).  A user types at a client; the program that calls `Readline` is at the other end of a connection.
In calm schedules, once `Read` has reported the end of input, the calls return what the notebook (C67) says for the keys typed, and the history
file is the one of a local session.  Missing: other schedules, and what C74 leaves out. -/
theorem C88_session_partial {c : OCfg} (hp : Op.Plain c) (hl : 2 ≤ c.h.limit) (hn : c.noSave = false) (hf : c.h.hasFile = true) (ho : c.h.openOK = true)
    {prompt : List Rune} {w : Int} {p : Nat} (hw : 0 < w) (hpr : (RB.new prompt true w).promptLen c.U = .ok p)
    (hdvd : 0 < p → ¬ w ∣ (p : Int)) (hpaint : c.d.painter ≠ none) {es : List (List Rune)} (hes : ∀ e ∈ es, Storable e)
    {src : List Src} {cs : List Chunk} {t : List Rune} (hcs : ∀ c' ∈ cs, Chunk.Ok c.U c') (hsc : ∀ r ∈ cs.flatMap Chunk.runes ++ t, Scalar r)
    (hcut : Cut c.U (t.map .rune)) (hsrc : typed src = encode (cs.flatMap Chunk.runes ++ t))
    {evs : List Event} {b : Book} (hb : BookRun true c.h.limit (cs.flatMap Chunk.keys) (Book.opened (keepNewest c.h.limit es)) evs b)
    {rest : List Src} {up k : Nat} {fs ms : List Msg} (hpump : pump k up src = .ok (fs, rest)) (hup : src.length < up) (hk : src.length < k)
    (hm : Mixed fs ms) {s : Remote.St} (hs : Calm ms s) (he : .eof ∈ s.out)
    {fuel : Nat} (hfu : (cs.flatMap Chunk.keys).length < fuel) :
    ∃ o', calls c fuel evs.length (Op.init prompt true w (Hist.start c.h (fileOf es)) (termKeys c.U false (readBytes (returned s.out)))) = .ok evs ∧
      after c fuel evs.length (Op.init prompt true w (Hist.start c.h (fileOf es)) (termKeys c.U false (readBytes (returned s.out)))) = .ok o' ∧
      o'.hist.disk = fileOf ((submitted evs).foldl record (keepNewest c.h.limit es)) := by
  rw [(C88_calm_partial hpump hup hk hm hs).1 he, hsrc, C38_bytes hcs hsc hcut]
  obtain ⟨o', h1, h2, _, h4⟩ := C74_run hp hl hn hf ho hw hpr hdvd hpaint hes hb hfu
  exact ⟨o', h1, h2, h4⟩

/-- The hypotheses about the input hold for "h", Enter, typed at once, with a report of the width in between. -/
example : pump 4 4 [.data [104, 13], .eof, .eof] = .ok ([⟨T_DATA, [104, 13]⟩, ⟨T_EOF, []⟩], []) ∧
    Mixed [⟨T_DATA, [104, 13]⟩, ⟨T_EOF, []⟩] [⟨T_DATA, [104, 13]⟩, ⟨T_WIDTH_REPORT, [0, 80]⟩, ⟨T_EOF, []⟩] ∧
    typed [.data [104, 13], .eof, .eof] = encode ([Spec.Chunk.plain 104, .plain 13].flatMap Spec.Chunk.runes ++ []) := by
  refine ⟨by decide, ⟨by decide, ?_⟩, by decide⟩
  simp [T_DATA, T_WIDTH_REPORT, T_EOF]

/-! ### Width -/

/-- **C88 is false of the width.**  A client without a terminal has the width -1; the server takes it for 65535. -/
theorem C88_false_width : (Svr.serve (streamOf (helloMsgs false (-1)))).toOption.map (·.map (·.width)) = some (some 65535) := by decide

end RL.Cli
