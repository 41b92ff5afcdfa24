import Verif.Model.Close
/-! # C50: closing an instance -/

namespace RL.Shut

theorem set_same {α} (f : Nat → α) (i : Nat) (p : α) : set f i p i = p := by simp [set]
theorem set_other {α} (f : Nat → α) {i j : Nat} (p : α) (h : j ≠ i) : set f i p j = f j := by simp [set, h]

structure Inv (s : St) : Prop where
  stop : ∀ i, s.cl i = .stop → s.closed = true ∧ s.stop = false ∧ ∀ j, s.cl j = .stop → j = i
  wait : ∀ i, s.cl i = .wait → s.stop = true
  closed : s.stop = true → s.closed = true
  first : s.closed = true → s.stop = true ∨ ∃ i, s.cl i = .stop
  crash : s.crashed = false

/-- Steps that leave the closers alone. -/
theorem Inv.same {s t : St} (v : Inv s) (h1 : t.cl = s.cl) (h2 : t.closed = s.closed) (h3 : t.stop = s.stop)
    (h4 : t.crashed = s.crashed) : Inv t := by
  obtain ⟨a, b, c, d, e⟩ := v
  exact ⟨by rw [h1, h2, h3]; exact a, by rw [h1, h3]; exact b, by rw [h2, h3]; exact c, by rw [h1, h2, h3]; exact d, by rw [h4]; exact e⟩

/-- Steps of a closer that does not hold the task of closing the channel, to a place that is neither that nor waiting. -/
theorem Inv.move {s : St} (v : Inv s) {i : Nat} {p : CPc} (hi : s.cl i ≠ .stop) (hp : p ≠ .stop) (hw : p ≠ .wait) :
    Inv { s with cl := set s.cl i p } := by
  obtain ⟨a, b, c, d, e⟩ := v
  refine ⟨fun j h => ?_, fun j h => ?_, c, fun h => ?_, e⟩
  · by_cases hj : j = i
    · subst hj; exact absurd ((set_same _ _ _).symm.trans h) hp
    · have h : s.cl j = .stop := (set_other _ _ hj).symm.trans h
      obtain ⟨a1, a2, a3⟩ := a j h
      refine ⟨a1, a2, fun k hk => ?_⟩
      by_cases hk' : k = i
      · subst hk'; exact absurd ((set_same _ _ _).symm.trans hk) hp
      · exact a3 k ((set_other _ _ hk').symm.trans hk)
  · by_cases hj : j = i
    · subst hj; exact absurd ((set_same _ _ _).symm.trans h) hw
    · exact b j ((set_other _ _ hj).symm.trans h)
  · rcases d h with h | ⟨j, h'⟩
    · exact .inl h
    · refine .inr ⟨j, ?_⟩
      have hj : j ≠ i := by rintro rfl; exact hi h'
      exact (set_other _ _ hj).trans h'

theorem Quiet.inv {s t : St} (h : Quiet s t) (v : Inv s) : Inv t := by
  cases h with
  | close i h1 => exact v.move (by rw [h1]; simp) (by simp) (by simp)
  | opClose h1 => exact (v.move (by rw [h1]; simp) (by simp) (by simp) : Inv { s with cl := set s.cl _ .swap }).same rfl rfl rfl rfl
  | @lost i h1 _ => exact (v.move (i := i) (p := .idle) (by rw [h1]; simp) (by simp) (by simp)).same rfl rfl rfl rfl
  | @waited i h1 _ => exact (v.move (i := i) (p := .idle) (by rw [h1]; simp) (by simp) (by simp)).same rfl rfl rfl rfl
  | @won i h1 h2 =>
    obtain ⟨a, b, c, d, e⟩ := v
    have hn : ∀ j, s.cl j ≠ .stop := fun j hj => by rw [(a j hj).1] at h2; cases h2
    have hs : s.stop = false := by
      by_cases hs : s.stop = true
      · rw [c hs] at h2; cases h2
      · simpa using hs
    refine ⟨fun j h => ⟨rfl, hs, fun k hk => ?_⟩, fun j h => ?_, fun _ => rfl, fun _ => .inr ⟨i, set_same _ _ _⟩, e⟩
    · have : ∀ k, set s.cl i .stop k = .stop → k = i := by
        intro k hk
        by_cases hk' : k = i
        · exact hk'
        · exact absurd ((set_other _ _ hk').symm.trans hk) (hn k)
      rw [this k hk, this j h]
    · by_cases hj : j = i
      · subst hj; cases (set_same _ _ _).symm.trans h
      · exact b j ((set_other _ _ hj).symm.trans h)
  | @stopIt i h1 =>
    obtain ⟨a, b, c, d, e⟩ := v
    obtain ⟨a1, a2, a3⟩ := a i h1
    refine ⟨fun j h => ?_, fun j h => rfl, fun _ => a1, fun _ => .inl rfl, by simp [e, a2]⟩
    by_cases hj : j = i
    · subst hj; cases (set_same _ _ _).symm.trans h
    · exact absurd (a3 j ((set_other _ _ hj).symm.trans h)) hj
  | _ => exact v.same rfl rfl rfl rfl

theorem Reach.inv {s : St} (h : Reach s) : Inv s := by
  induction h with
  | init => exact ⟨fun i h => (by cases h), fun i h => (by cases h), fun h => (by cases h), fun h => (by cases h), rfl⟩
  | step _ hs ih =>
    rcases hs with hs | hs
    · exact hs.inv ih
    · cases hs <;> exact ih.same rfl rfl rfl rfl

/-- **C50 (repeated, concurrent).**  Any number of concurrent calls of `Close` never close the stop channel twice, and every
call that is not the one waiting for the terminal loop can go on at once. -/
theorem C50_concurrent {s : St} (h : Reach s) : s.crashed = false ∧
    ∀ i, s.cl i ≠ .idle → s.cl i ≠ .wait → ∃ t, Quiet s t ∧ t.cl i ≠ s.cl i ∧ t.t = s.t ∧ t.o = s.o := by
  refine ⟨h.inv.crash, fun i h1 h2 => ?_⟩
  cases e : s.cl i with
  | idle => exact absurd e h1
  | wait => exact absurd e h2
  | op => exact ⟨_, .opClose e, by simp [set], rfl, rfl⟩
  | swap =>
    by_cases hc : s.closed = true
    · exact ⟨_, .lost e hc, by simp [set], rfl, rfl⟩
    · exact ⟨_, .won e (by simpa using hc), by simp [set], rfl, rfl⟩
  | stop => exact ⟨_, .stopIt e, by simp [set], rfl, rfl⟩

/-- Without a `Readline` returning, an error that is waiting stays. -/
theorem err_stays {s t : St} (h : Steps s t) {e : Err} (he : s.err = some e) : t.out = s.out → t.err = some e := by
  have grow : ∀ {a b : St}, Step a b → ∃ r, b.out = a.out ++ r := by
    intro a b h
    rcases h with h | h <;> cases h <;> first | exact ⟨[], (List.append_nil _).symm⟩ | exact ⟨_, rfl⟩
  have growS : ∀ {a b : St}, Steps a b → ∃ r, b.out = a.out ++ r := by
    intro a b h
    induction h with
    | refl => exact ⟨[], by simp⟩
    | step _ hs ih =>
      obtain ⟨r, hr⟩ := ih
      obtain ⟨r', hr'⟩ := grow hs
      exact ⟨r ++ r', by rw [hr', hr, List.append_assoc]⟩
  induction h with
  | refl => exact fun _ => he
  | @step t u hst hs ih =>
    intro hu
    obtain ⟨r, hr⟩ := growS hst
    obtain ⟨r', hr'⟩ := grow hs
    have : r = [] ∧ r' = [] := by
      rw [hr', hr, List.append_assoc] at hu
      have := List.append_right_eq_self.1 hu
      simpa using this
    obtain ⟨rfl, rfl⟩ := this
    have it := ih (by simpa using hr)
    rcases hs with hs | hs
    · cases hs with
      | takeErr h1 h2 => simp at hr'
      | opClose h1 => simp [it]
      | putErr h1 h2 => rw [it] at h2; cases h2
      | _ => exact it
    · cases hs <;> exact it

/-- **C50 (pending `Readline`).**  Once a `Close` has run `Operation.Close`, then as long as no `Readline` has returned, an
error is waiting for it, and every pending `Readline` can return at once, without any input.  If no error was waiting before,
it is end of input. -/
theorem C50_pending {s t u : St} {i : Nat} (h1 : s.cl i = .op)
    (h2 : t = { s with cl := set s.cl i .swap, err := match s.err with | none => some .eof | some e => some e })
    (h3 : Steps t u) (h4 : u.out = t.out) :
    (∃ e, u.err = some e ∧ (s.err = none → e = .eof) ∧
      ∀ j, u.rl j = true → ∃ v, Quiet u v ∧ v.out = u.out ++ [(j, .err e)] ∧ v.rl j = false) := by
  have _ := h1
  obtain ⟨e, he, hee⟩ : ∃ e, t.err = some e ∧ (s.err = none → e = .eof) := by
    subst h2
    cases hs : s.err with
    | none => exact ⟨.eof, by simp, fun _ => rfl⟩
    | some e => exact ⟨e, by simp, fun k => by cases k⟩
  have hu := err_stays h3 he h4
  exact ⟨e, hu, hee, fun j hj => ⟨_, .takeErr hj hu, rfl, set_same _ _ _⟩⟩

/-- The waiting `Close` returns when the terminal loop has ended, and not before. -/
theorem C50_waits {s t : St} {i : Nat} (h : s.cl i = .wait) (hs : Step s t) (ht : t.cl i ≠ .wait) : s.t = .done := by
  rcases hs with hs | hs
  · cases hs with
    | @waited j h1 h2 => exact h2
    | @close j h1 =>
      by_cases hj : i = j
      · subst hj; rw [h] at h1; cases h1
      · exact absurd ((set_other _ _ hj).trans h) ht
    | @opClose j h1 =>
      by_cases hj : i = j
      · subst hj; rw [h] at h1; cases h1
      · exact absurd ((set_other _ _ hj).trans h) ht
    | @lost j h1 h2 =>
      by_cases hj : i = j
      · subst hj; rw [h] at h1; cases h1
      · exact absurd ((set_other _ _ hj).trans h) ht
    | @won j h1 h2 =>
      by_cases hj : i = j
      · subst hj; rw [h] at h1; cases h1
      · exact absurd ((set_other _ _ hj).trans h) ht
    | @stopIt j h1 =>
      by_cases hj : i = j
      · subst hj; rw [h] at h1; cases h1
      · exact absurd ((set_other _ _ hj).trans h) ht
    | _ => exact absurd h ht
  · cases hs <;> exact absurd h ht

/-- Runs without input in which no `Readline` is called. -/
inductive Calm : St → St → Prop
  | refl {s} : Calm s s
  | step {s t u} : Calm s t → Quiet t u → (∀ i, t.rl i = false → u.rl i = false) → Calm s u

/-- **C50 (returns, partial).**  If the terminal loop is not in the middle of reading a key (it is at its `select` with no kick
waiting, and the editing loop is waiting for a key), then after any steps without input and without a new `Readline` a waiting
`Close` has returned, or the terminal loop has ended (so that `Close` can return), or can end at once.  Missing for the full
claim: the terminal loop in the middle of a read, see `C50_false_hang`. -/
theorem C50_returns_partial {s u : St} {i : Nat} (hs : s.stop = true) (ht : s.t = .idle) (hk : s.kick = false) (ho : s.o = .recv)
    (hi : s.cl i = .wait) (h : Calm s u) :
    u.cl i ≠ .wait ∨ (u.t = .done ∧ ∃ v, Quiet u v ∧ v.cl i = .idle) ∨ ∃ v, Quiet u v ∧ v.t = .done := by
  have key : u.stop = true ∧ (u.t = .done ∨ (u.t = .idle ∧ u.kick = false ∧ u.o = .recv)) := by
    induction h with
    | refl => exact ⟨hs, .inr ⟨ht, hk, ho⟩⟩
    | step _ hq hr ih =>
      obtain ⟨i1, i2⟩ := ih
      rcases i2 with i2 | ⟨i2, i3, i4⟩
      · cases hq <;> first
          | exact ⟨i1, .inl i2⟩
          | exact ⟨rfl, .inl i2⟩
          | (rename_i h _; rw [i2] at h; cases h)
      · cases hq with
        | readline j h => exact absurd (hr j h) (by simp [set])
        | takeLine h1 h2 => rw [i4] at h2; cases h2
        | kicked h1 h2 => rw [i3] at h2; cases h2
        | stopped h1 h2 => exact ⟨i1, .inl rfl⟩
        | send h1 h2 => rw [i2] at h1; cases h1
        | ended h1 h2 => rw [i2] at h1; cases h1
        | next h1 => rw [i4] at h1; cases h1
        | kickRead h1 => rw [i4] at h1; cases h1
        | submit h1 => rw [i4] at h1; cases h1
        | fail e l h1 => rw [i4] at h1; cases h1
        | putErr h1 h2 => rw [i4] at h1; cases h1
        | stopIt h1 => exact ⟨rfl, .inr ⟨i2, i3, i4⟩⟩
        | _ => exact ⟨i1, .inr ⟨i2, i3, i4⟩⟩
  by_cases hw : u.cl i = .wait
  · rcases key with ⟨k1, k2 | ⟨k2, k3, k4⟩⟩
    · exact .inr (.inl ⟨k2, _, .waited hw k2, set_same _ _ _⟩)
    · exact .inr (.inr ⟨_, .stopped k2 k1, rfl⟩)
  · exact .inl hw

/-- Non-trivial case: `Close` after a `Readline` has returned, the terminal loop being idle. -/
example : ∃ s, Reach s ∧ s.stop = true ∧ s.t = .idle ∧ s.kick = false ∧ s.o = .recv ∧ s.cl 0 = .wait ∧ s.out = [(0, .line)] := by
  have h := Reach.init
  have h := h.step (.inl (.readline 0 rfl))
  have h := h.step (.inl (.kicked rfl rfl))
  have h := h.step (.inr (.key false rfl))
  have h := h.step (.inl (.send (b := false) rfl rfl))
  have h := h.step (.inl (.submit rfl))
  have h := h.step (.inl (.takeLine (i := 0) rfl rfl))
  have h := h.step (.inl (.next rfl))
  have h := h.step (.inl (.close 0 rfl))
  have h := h.step (.inl (.opClose (i := 0) rfl))
  have h := h.step (.inl (.won (i := 0) rfl rfl))
  have h := h.step (.inl (.stopIt (i := 0) rfl))
  exact ⟨_, h, rfl, rfl, rfl, rfl, rfl, rfl⟩

/-- **C50 is false (hang).**  When a `Readline` is pending, the terminal loop is normally in the middle of a read, and nothing
ends that read: `Close` does not return however long it runs, unless input arrives.  (The pending `Readline` has already
returned end of input.) -/
theorem C50_false_hang : ∃ s, Reach s ∧ s.out = [(0, .err .eof)] ∧ s.cl 1 = .wait ∧ ∀ t, Quiets s t → t.cl 1 = .wait := by
  have h := Reach.init
  have h := h.step (.inl (.readline 0 rfl))
  have h := h.step (.inl (.kicked rfl rfl))
  have h := h.step (.inl (.close 1 rfl))
  have h := h.step (.inl (.opClose (i := 1) rfl))
  have h := h.step (.inl (.won (i := 1) rfl rfl))
  have h := h.step (.inl (.stopIt (i := 1) rfl))
  have h := h.step (.inl (.takeErr (i := 0) (e := .eof) rfl rfl))
  refine ⟨_, h, rfl, rfl, fun t ht => ?_⟩
  have key : t.t = .reading ∧ t.cl 1 = .wait := by
    induction ht with
    | refl => exact ⟨rfl, rfl⟩
    | step _ hq ih =>
      refine ⟨?_, ?_⟩
      · cases hq with
        | kicked => rfl
        | stopped h1 => rw [ih.1] at h1; cases h1
        | send h1 => rw [ih.1] at h1; cases h1
        | _ => exact ih.1
      · refine Classical.byContradiction fun hw => ?_
        have := C50_waits ih.2 (.inl hq) hw
        rw [ih.1] at this; cases this
  exact key.2

/-- **C50 is false (a leftover kick).**  `Close` may also wait for ever with input arriving: a key was submitted after the
`Readline` had returned, the editing loop waits for somebody to take the line, a kick left over has made the terminal loop
read one more key, which nobody takes.  Nothing can happen until `Readline` is called again. -/
theorem C50_false_stuck : ∃ s, Reach s ∧ s.cl 1 = .wait ∧ ∀ t, Step s t → (∀ i, s.rl i = false → t.rl i = false) →
    (∀ i, s.cl i = .idle → t.cl i = .idle) → False := by
  have h := Reach.init
  have h := h.step (.inl (.readline 0 rfl))
  have h := h.step (.inl (.kicked rfl rfl))
  have h := h.step (.inr (.key true rfl))
  have h := h.step (.inl (.send (b := true) rfl rfl))
  have h := h.step (.inl (.kickRead rfl))
  have h := h.step (.inl (.next rfl))
  have h := h.step (.inl (.close 1 rfl))
  have h := h.step (.inl (.opClose (i := 1) rfl))
  have h := h.step (.inl (.takeErr (i := 0) (e := .eof) rfl rfl))
  have h := h.step (.inl (.won (i := 1) rfl rfl))
  have h := h.step (.inl (.stopIt (i := 1) rfl))
  have h := h.step (.inr (.key false rfl))
  have h := h.step (.inl (.send (b := false) rfl rfl))
  have h := h.step (.inl (.submit rfl))
  have h := h.step (.inl (.kicked rfl rfl))
  have h := h.step (.inr (.key false rfl))
  refine ⟨_, h, rfl, fun t ht h1 h2 => ?_⟩
  have hrl : ∀ i, set (set (fun _ => false) 0 true) 0 false i = false := by
    intro i; by_cases hi : i = 0 <;> simp [set, hi]
  rcases ht with ht | ht
  · cases ht with
    | readline i hi => have := h1 i (hrl i); simp [set] at this
    | takeLine hi _ => exact absurd ((hrl _).symm.trans hi) (by simp)
    | takeErr hi _ => exact absurd ((hrl _).symm.trans hi) (by simp)
    | close i hi => have := h2 i hi; simp [set] at this
    | @opClose i hi =>
      by_cases h : i = 1
      · subst h; cases hi
      · simp [set, h, St.init] at hi
    | @lost i hi =>
      by_cases h : i = 1
      · subst h; cases hi
      · simp [set, h, St.init] at hi
    | @won i hi =>
      by_cases h : i = 1
      · subst h; cases hi
      · simp [set, h, St.init] at hi
    | @stopIt i hi =>
      by_cases h : i = 1
      · subst h; cases hi
      · simp [set, h, St.init] at hi
    | waited _ hi => cases hi
    | kicked hi => cases hi
    | stopped hi => cases hi
    | send _ hi => cases hi
    | ended hi => cases hi
    | next hi => cases hi
    | kickRead hi => cases hi
    | submit hi => cases hi
    | fail _ _ hi => cases hi
    | putErr hi => cases hi
  · cases ht with
    | key _ hi => cases hi
    | readErr hi => cases hi

end RL.Shut
