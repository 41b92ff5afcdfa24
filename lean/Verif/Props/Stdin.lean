import Verif.Model.Stdin
/-! # C48: the cancelable standard input -/

namespace RL.Stdin

/-- The results of `Read` that carry data. -/
def dataOf : List (Nat × Res) → List (List Nat × Option Nat)
  | [] => []
  | (_, .data b e) :: rs => (b, e) :: dataOf rs
  | (_, .closed) :: rs => dataOf rs

theorem dataOf_append (a b : List (Nat × Res)) : dataOf (a ++ b) = dataOf a ++ dataOf b := by
  induction a with
  | nil => rfl
  | cons x a ih => obtain ⟨i, _ | _⟩ := x <;> simp [dataOf, ih]

/-- Inside the critical section. -/
def RPc.inside : RPc → Bool
  | .idle => false
  | .locking _ => false
  | _ => true

/-- Data a reader is about to return. -/
def RPc.result : RPc → List (List Nat × Option Nat)
  | .ret (.data b e) => [(b, e)]
  | _ => []

/-- Data the holder of the lock is about to return. -/
def held (s : St) : List (List Nat × Option Nat) :=
  match s.lock with
  | none => []
  | some i => (s.rd i).result

structure Inv (inp : List Nat) (s : St) : Prop where
  lock : ∀ i, (s.rd i).inside = true ↔ s.lock = some i
  closing : ∀ i, s.cl i = .close → s.closed = true ∧ s.stop = false ∧ ∀ j, s.cl j = .close → j = i
  stop : s.stop = true → s.closed = true
  open_ : s.closed = true → s.stop = true ∨ ∃ i, s.cl i = .close
  crash : s.crashed = false
  send : ∀ i k, s.rd i = .send k → s.data = k ∧ (s.loop = .top ∨ s.loop = .stopped)
  recv : ∀ i k, s.rd i = .recv k → s.loop = .reading k ∨ (s.loop = .sending ∧ s.got.1.length ≤ k) ∨ s.loop = .stopped
  busy : s.loop = .sending ∨ (∃ k, s.loop = .reading k) → (∃ i k, s.rd i = .recv k) ∨ s.stop = true
  halt : s.loop = .stopped → s.stop = true
  input : s.reads.flatMap (·.1) ++ s.inp = inp
  order : ∃ l, l.length ≤ 1 ∧ dataOf s.out ++ held s ++ l = s.reads ∧
    (s.loop ≠ .stopped → l = if s.loop = .sending then [s.got] else [])

theorem set_same {α} (f : Nat → α) (i : Nat) (p : α) : set f i p i = p := by simp [set]
theorem set_other {α} (f : Nat → α) {i j : Nat} (p : α) (h : j ≠ i) : set f i p j = f j := by simp [set, h]

/-- A step of the lock holder that stays inside and whose result is unchanged or freshly set. -/
theorem held_set {s : St} {i : Nat} {p : RPc} (h : s.lock = some i) :
    held { s with rd := set s.rd i p } = p.result := by simp [held, h, set]

theorem Step.inv {inp : List Nat} {s t : St} (h : Step s t) (v : Inv inp s) : Inv inp t := by
  obtain ⟨v1, v2, v3, v4, v5, v6, v7, v8, v9, v10, v11⟩ := v
  have only : ∀ {i j}, (s.rd i).inside = true → (s.rd j).inside = true → j = i := by
    intro i j hi hj
    have h1 := (v1 i).1 hi
    have h2 := (v1 j).1 hj
    rw [h1] at h2
    exact (Option.some.inj h2).symm
  cases h with
  | call i k h1 =>
    have hl : s.lock ≠ some i := fun e => by have := (v1 i).2 e; rw [h1] at this; cases this
    have hh : held { s with rd := set s.rd i (.locking k) } = held s := by
      unfold held
      cases e : s.lock with
      | none => rfl
      | some j =>
        have : j ≠ i := fun k => hl (by rw [e, k])
        simp [set, this]
    refine ⟨fun j => ?_, v2, v3, v4, v5, fun j k' => ?_, fun j k' => ?_, fun e => ?_, v9, v10, ?_⟩
    · by_cases hj : j = i
      · subst hj; simp [set, RPc.inside, hl]
      · simpa [set, hj] using v1 j
    · by_cases hj : j = i
      · subst hj; simp [set]
      · simpa [set, hj] using v6 j k'
    · by_cases hj : j = i
      · subst hj; simp [set]
      · simpa [set, hj] using v7 j k'
    · rcases v8 e with ⟨j, k', h⟩ | h
      · refine .inl ⟨j, k', ?_⟩
        have hj : j ≠ i := by rintro rfl; rw [h1] at h; cases h
        simpa [set, hj] using h
      · exact .inr h
    · rw [hh]; exact v11
  | @lock i k h1 h2 =>
    refine ⟨fun j => ?_, v2, v3, v4, v5, fun j k' => ?_, fun j k' => ?_, fun e => ?_, v9, v10, ?_⟩
    · by_cases hj : j = i
      · subst hj; simp [set, RPc.inside]
      · have := v1 j
        rw [h2] at this
        simpa [set, hj, Ne.symm hj] using this
    · by_cases hj : j = i
      · subst hj; simp [set]
      · simpa [set, hj] using v6 j k'
    · by_cases hj : j = i
      · subst hj; simp [set]
      · simpa [set, hj] using v7 j k'
    · rcases v8 e with ⟨j, k', h⟩ | h
      · have := (v1 j).1 (by rw [h]; rfl)
        rw [h2] at this; cases this
      · exact .inr h
    · simpa [held, h2, set, RPc.result] using v11
  | @isClosed i k h1 h2 =>
    have hl := (v1 i).1 (by rw [h1]; rfl)
    refine ⟨fun j => ?_, v2, v3, v4, v5, fun j k' => ?_, fun j k' => ?_, fun e => ?_, v9, v10, ?_⟩
    · by_cases hj : j = i
      · subst hj; simp [set, RPc.inside, hl]
      · simpa [set, hj] using v1 j
    · by_cases hj : j = i
      · subst hj; simp [set]
      · simpa [set, hj] using v6 j k'
    · by_cases hj : j = i
      · subst hj; simp [set]
      · simpa [set, hj] using v7 j k'
    · rcases v8 e with ⟨j, k', h⟩ | h
      · have : j = i := only (by rw [h1]; rfl) (by rw [h]; rfl)
        rw [this, h1] at h; cases h
      · exact .inr h
    · rw [held_set hl]
      simpa [held, hl, h1, RPc.result] using v11
  | @setData i k h1 h2 =>
    have hl := (v1 i).1 (by rw [h1]; rfl)
    have hs : s.stop = false := by
      by_cases e : s.stop = true
      · rw [v3 e] at h2; cases h2
      · simpa using e
    have nobusy : ¬ (s.loop = .sending ∨ ∃ k, s.loop = .reading k) := by
      intro e
      rcases v8 e with ⟨j, k', h⟩ | h
      · have : j = i := only (by rw [h1]; rfl) (by rw [h]; rfl)
        rw [this, h1] at h; cases h
      · rw [hs] at h; cases h
    have htop : s.loop = .top ∨ s.loop = .stopped := by
      cases e : s.loop with
      | top => exact .inl rfl
      | reading k => exact absurd (.inr ⟨k, e⟩) nobusy
      | sending => exact absurd (.inl e) nobusy
      | stopped => exact .inr rfl
    refine ⟨fun j => ?_, v2, v3, v4, v5, fun j k' => ?_, fun j k' => ?_, fun e => absurd e nobusy, v9, v10, ?_⟩
    · by_cases hj : j = i
      · subst hj; simp [set, RPc.inside, hl]
      · simpa [set, hj] using v1 j
    · by_cases hj : j = i
      · subst hj
        simp only [set, if_true]
        intro e; injection e with e; exact ⟨e, htop⟩
      · intro h
        simp only [set_other _ _ hj] at h
        exact absurd (only (i := i) (by rw [h1]; rfl) (by rw [h]; rfl)) hj
    · by_cases hj : j = i
      · subst hj; simp [set]
      · simpa [set, hj] using v7 j k'
    · have hh : held { s with rd := set s.rd i (.send k), data := k } = [] := by simp [held, hl, set, RPc.result]
      rw [hh]
      simpa [held, hl, h1, RPc.result] using v11
  | @notify i k h1 h2 =>
    have hl := (v1 i).1 (by rw [h1]; rfl)
    refine ⟨fun j => ?_, v2, v3, v4, v5, fun j k' => ?_, fun j k' => ?_, fun e => ?_, fun e => (by cases e), v10, ?_⟩
    · by_cases hj : j = i
      · subst hj; simp [set, RPc.inside, hl]
      · simpa [set, hj] using v1 j
    · by_cases hj : j = i
      · subst hj; simp [set]
      · intro h
        simp only [set_other _ _ hj] at h
        exact absurd (only (i := i) (by rw [h1]; rfl) (by rw [h]; rfl)) hj
    · by_cases hj : j = i
      · subst hj
        simp only [set, if_true]
        intro e; injection e with e
        exact .inl (by rw [(v6 j k h1).1, e])
      · intro h
        simp only [set_other _ _ hj] at h
        exact absurd (only (i := i) (by rw [h1]; rfl) (by rw [h]; rfl)) hj
    · exact .inl ⟨i, k, set_same _ _ _⟩
    · have hh : held { s with rd := set s.rd i (.recv k), loop := .reading s.data } = [] := by simp [held, hl, set, RPc.result]
      rw [hh]
      obtain ⟨l, a, b, c⟩ := v11
      have c := c (by rw [h2]; simp)
      rw [h2] at c
      exact ⟨l, a, by simpa [held, hl, h1, RPc.result] using b, fun _ => by simpa using c⟩
  | @stop1 i k h1 h2 =>
    have hl := (v1 i).1 (by rw [h1]; rfl)
    refine ⟨fun j => ?_, v2, v3, v4, v5, fun j k' => ?_, fun j k' => ?_, fun e => .inr h2, v9, v10, ?_⟩
    · by_cases hj : j = i
      · subst hj; simp [set, RPc.inside, hl]
      · simpa [set, hj] using v1 j
    · by_cases hj : j = i
      · subst hj; simp [set]
      · simpa [set, hj] using v6 j k'
    · by_cases hj : j = i
      · subst hj; simp [set]
      · simpa [set, hj] using v7 j k'
    · rw [held_set hl]
      simpa [held, hl, h1, RPc.result] using v11
  | @under k n e h1 h2 h3 =>
    refine ⟨v1, v2, v3, v4, v5, fun j k' h => ?_, fun j k' h => ?_, fun _ => v8 (.inr ⟨k, h1⟩), fun e => (by cases e), ?_, ?_⟩
    · rcases (v6 j k' h).2 with e | e <;> rw [h1] at e <;> cases e
    · rcases v7 j k' h with e | ⟨e, _⟩ | e
      · rw [h1] at e; injection e with e; subst e
        exact .inr (.inl ⟨rfl, by simp; omega⟩)
      · rw [h1] at e; cases e
      · rw [h1] at e; cases e
    · simp only [List.flatMap_append, List.flatMap_cons, List.flatMap_nil, List.append_nil, List.append_assoc,
        List.take_append_drop]
      exact v10
    · obtain ⟨l, _, b, c⟩ := v11
      have c := c (by rw [h1]; simp)
      rw [h1] at c
      have c : l = [] := by simpa using c
      subst c
      refine ⟨[(s.inp.take n, e)], by simp, ?_, fun _ => by simp⟩
      simp only [List.append_nil] at b
      rw [← b]
      rfl
  | @deliver i k h1 h2 =>
    have hl := (v1 i).1 (by rw [h2]; rfl)
    refine ⟨fun j => ?_, v2, v3, v4, v5, fun j k' => ?_, fun j k' => ?_, ?_, fun e => (by cases e), v10, ?_⟩
    · by_cases hj : j = i
      · subst hj; simp [set, RPc.inside, hl]
      · simpa [set, hj] using v1 j
    · by_cases hj : j = i
      · subst hj; simp [set]
      · intro h
        simp only [set_other _ _ hj] at h
        exact absurd (only (i := i) (by rw [h2]; rfl) (by rw [h]; rfl)) hj
    · by_cases hj : j = i
      · subst hj; simp [set]
      · intro h
        simp only [set_other _ _ hj] at h
        exact absurd (only (i := i) (by rw [h2]; rfl) (by rw [h]; rfl)) hj
    · rintro (e | ⟨k, e⟩) <;> cases e
    · obtain ⟨l, _, b, c⟩ := v11
      have c := c (by rw [h1]; simp)
      rw [h1] at c
      have c : l = [s.got] := by simpa using c
      subst c
      have hh : held { s with rd := set s.rd i (.ret (.data s.got.1 s.got.2)), loop := .top } = [s.got] := by
        simp [held, hl, set, RPc.result]
      rw [hh]
      refine ⟨[], by simp, ?_, fun _ => by simp⟩
      rw [← b]
      simp [held, hl, h2, RPc.result]
  | @stop2 i k h1 h2 =>
    have hl := (v1 i).1 (by rw [h1]; rfl)
    refine ⟨fun j => ?_, v2, v3, v4, v5, fun j k' => ?_, fun j k' => ?_, fun e => .inr h2, v9, v10, ?_⟩
    · by_cases hj : j = i
      · subst hj; simp [set, RPc.inside, hl]
      · simpa [set, hj] using v1 j
    · by_cases hj : j = i
      · subst hj; simp [set]
      · simpa [set, hj] using v6 j k'
    · by_cases hj : j = i
      · subst hj; simp [set]
      · simpa [set, hj] using v7 j k'
    · rw [held_set hl]
      simpa [held, hl, h1, RPc.result] using v11
  | endInner h1 h2 =>
    refine ⟨v1, v2, v3, v4, v5, fun j k' h => ⟨(v6 j k' h).1, .inr rfl⟩, fun j k' h => .inr (.inr rfl), ?_, fun _ => h2, v10, ?_⟩
    · rintro (e | ⟨k, e⟩) <;> cases e
    · obtain ⟨l, a, b, c⟩ := v11
      exact ⟨l, a, b, fun e => absurd rfl e⟩
  | endOuter h1 h2 =>
    refine ⟨v1, v2, v3, v4, v5, fun j k' h => ⟨(v6 j k' h).1, .inr rfl⟩, fun j k' h => .inr (.inr rfl), ?_, fun _ => h2, v10, ?_⟩
    · rintro (e | ⟨k, e⟩) <;> cases e
    · obtain ⟨l, a, b, c⟩ := v11
      exact ⟨l, a, b, fun e => absurd rfl e⟩
  | @ret i r h1 =>
    have hl := (v1 i).1 (by rw [h1]; rfl)
    refine ⟨fun j => ?_, v2, v3, v4, v5, fun j k' => ?_, fun j k' => ?_, fun e => ?_, v9, v10, ?_⟩
    · by_cases hj : j = i
      · subst hj; simp [set, RPc.inside]
      · have := v1 j
        rw [hl] at this
        simpa [set, hj, Ne.symm hj] using this
    · by_cases hj : j = i
      · subst hj; simp [set]
      · simpa [set, hj] using v6 j k'
    · by_cases hj : j = i
      · subst hj; simp [set]
      · simpa [set, hj] using v7 j k'
    · rcases v8 e with ⟨j, k', h⟩ | h
      · have : j = i := only (by rw [h1]; rfl) (by rw [h]; rfl)
        rw [this, h1] at h; cases h
      · exact .inr h
    · obtain ⟨l, a, b, c⟩ := v11
      refine ⟨l, a, ?_, c⟩
      rw [← b]
      cases r <;> simp [held, hl, h1, RPc.result, dataOf_append, dataOf]
  | close i h1 =>
    refine ⟨v1, fun j h => ?_, v3, fun e => ?_, v5, v6, v7, v8, v9, v10, v11⟩
    · by_cases hj : j = i
      · subst hj; simp [set] at h
      · simp only [set_other _ _ hj] at h
        obtain ⟨a, b, c⟩ := v2 j h
        refine ⟨a, b, fun j' h' => ?_⟩
        by_cases hj' : j' = i
        · subst hj'; simp [set] at h'
        · simp only [set_other _ _ hj'] at h'; exact c j' h'
    · rcases v4 e with h | ⟨j, h⟩
      · exact .inl h
      · refine .inr ⟨j, ?_⟩
        have hj : j ≠ i := by rintro rfl; rw [h1] at h; cases h
        simpa [set, hj] using h
  | @won i h1 h2 =>
    have hn : ∀ j, s.cl j ≠ .close := fun j h => by rw [(v2 j h).1] at h2; cases h2
    refine ⟨v1, fun j h => ?_, fun _ => rfl, fun e => .inr ⟨i, set_same _ _ _⟩, v5, v6, v7, v8, v9, v10, v11⟩
    by_cases hj : j = i
    · subst hj
      refine ⟨rfl, ?_, fun j' h' => ?_⟩
      · show s.stop = false
        by_cases e : s.stop = true
        · rw [v3 e] at h2; cases h2
        · simpa using e
      · by_cases hj' : j' = j
        · exact hj'
        · simp only [set_other _ _ hj'] at h'; exact absurd h' (hn j')
    · simp only [set_other _ _ hj] at h; exact absurd h (hn j)
  | @lost i h1 h2 =>
    refine ⟨v1, fun j h => ?_, v3, fun e => ?_, v5, v6, v7, v8, v9, v10, v11⟩
    · by_cases hj : j = i
      · subst hj; simp [set] at h
      · simp only [set_other _ _ hj] at h
        obtain ⟨a, b, c⟩ := v2 j h
        refine ⟨a, b, fun j' h' => ?_⟩
        by_cases hj' : j' = i
        · subst hj'; simp [set] at h'
        · simp only [set_other _ _ hj'] at h'; exact c j' h'
    · rcases v4 e with h | ⟨j, h⟩
      · exact .inl h
      · refine .inr ⟨j, ?_⟩
        have hj : j ≠ i := by rintro rfl; rw [h1] at h; cases h
        simpa [set, hj] using h
  | @stopIt i h1 =>
    obtain ⟨a, b, c⟩ := v2 i h1
    refine ⟨v1, fun j h => ?_, fun _ => a, fun _ => .inl rfl, by simp [v5, b], v6, v7, fun e => .inr rfl, fun _ => rfl, v10, v11⟩
    by_cases hj : j = i
    · subst hj; simp [set] at h
    · simp only [set_other _ _ hj] at h; exact absurd (c j h) hj

theorem Reach.inv {inp : List Nat} {s : St} (h : Reach inp s) : Inv inp s := by
  induction h with
  | init =>
    refine ⟨fun i => by simp [St.init, RPc.inside], fun i h => (by cases h), fun h => (by cases h), fun h => (by cases h), rfl,
      fun i k h => (by cases h), fun i k h => (by cases h), ?_, fun h => (by cases h), by simp [St.init],
      [], by simp, by simp [St.init, held, dataOf], by simp [St.init]⟩
    rintro (e | ⟨k, e⟩) <;> cases e
  | step _ hs ih => exact hs.inv ih

/-- **C48 (order).**  In every schedule of any number of readers and closers: the underlying reader's results make up the
input so far; the results `Read` has returned with data are, in order and with their errors, those results, up to one that is
still on its way; so the bytes returned are a prefix of the input. -/
theorem C48_order {inp : List Nat} {s : St} (h : Reach inp s) :
    s.reads.flatMap (·.1) ++ s.inp = inp ∧
    (∃ l, l.length ≤ 2 ∧ dataOf s.out ++ l = s.reads) ∧
    (dataOf s.out).flatMap (·.1) <+: inp := by
  have v := h.inv
  obtain ⟨l, h1, h2, _⟩ := v.order
  have hl : (held s ++ l).length ≤ 2 := by
    have : (held s).length ≤ 1 := by
      unfold held
      split
      · simp
      · unfold RPc.result; split <;> simp
    simp only [List.length_append]; omega
  refine ⟨v.input, ⟨held s ++ l, hl, by rw [← h2, List.append_assoc]⟩, ?_⟩
  rw [← v.input, ← h2]
  simp only [List.flatMap_append, List.append_assoc]
  exact List.prefix_append _ _

/-- **C48 (nothing lost).**  As long as the input has not been closed and nobody is in `Read`, everything the underlying
reader has returned has been returned by `Read`. -/
theorem C48_complete {inp : List Nat} {s : St} (h : Reach inp s) (hs : s.stop = false) (hl : s.lock = none) :
    dataOf s.out = s.reads := by
  have v := h.inv
  obtain ⟨l, h1, h2, h3⟩ := v.order
  have hh : held s = [] := by simp [held, hl]
  have hloop : s.loop ≠ .stopped := fun e => by rw [v.halt e] at hs; cases hs
  have hsend : s.loop ≠ .sending := by
    intro e
    rcases v.busy (.inl e) with ⟨i, k, h⟩ | h
    · have := (v.lock i).1 (by rw [h]; rfl)
      rw [hl] at this; cases this
    · rw [hs] at h; cases h
  rw [if_neg hsend] at h3
  rw [hh, h3 hloop] at h2
  simpa using h2

/-- **C48 (fits).**  Data handed to a reader fits into its buffer. -/
theorem C48_fits {inp : List Nat} {s : St} (h : Reach inp s) {i k : Nat} (h1 : s.rd i = .recv k) (h2 : s.loop = .sending) :
    s.got.1.length ≤ k := by
  rcases h.inv.recv i k h1 with e | ⟨_, e⟩ | e
  · rw [h2] at e; cases e
  · exact e
  · rw [h2] at e; cases e

/-- How many steps a reader still has to make. -/
def RPc.left : RPc → Nat
  | .idle => 0
  | .locking _ => 5
  | .check _ => 4
  | .send _ => 3
  | .recv _ => 2
  | .ret _ => 1

/-- **C48 (no waiting after `Close`).**  Once the input is closed, as long as some reader is in a call there is one that can
go on without any input arriving: the holder of the lock, or, when the lock is free, any waiting one. -/
theorem C48_prompt {inp : List Nat} {s : St} (h : Reach inp s) (hs : s.stop = true) :
    (∀ i, s.lock = some i → ∃ t, Step s t ∧ (t.rd i).left < (s.rd i).left ∧ t.inp = s.inp) ∧
    (s.lock = none → ∀ i, s.rd i ≠ .idle → ∃ t, Step s t ∧ (t.rd i).left < (s.rd i).left ∧ t.inp = s.inp) := by
  have v := h.inv
  refine ⟨fun i hl => ?_, fun hl i hi => ?_⟩
  · have hin := (v.lock i).2 hl
    cases e : s.rd i with
    | idle => rw [e] at hin; cases hin
    | locking k => rw [e] at hin; cases hin
    | check k => exact ⟨_, .isClosed e (v.stop hs), by simp [set, RPc.left], rfl⟩
    | send k => exact ⟨_, .stop1 e hs, by simp [set, RPc.left], rfl⟩
    | recv k => exact ⟨_, .stop2 e hs, by simp [set, RPc.left], rfl⟩
    | ret r => exact ⟨_, .ret e, by simp [set, RPc.left], rfl⟩
  · have hin : (s.rd i).inside ≠ true := fun k => by have := (v.lock i).1 k; rw [hl] at this; cases this
    cases e : s.rd i with
    | idle => exact absurd e hi
    | locking k => exact ⟨_, .lock e hl, by simp [set, RPc.left], rfl⟩
    | _ => rw [e] at hin; exact absurd rfl hin

/-- The results of one reader. -/
def outOf (i : Nat) (s : St) : List (Nat × Res) := s.out.filter (·.1 = i)

/-- **C48 (later reads).**  A `Read` that has not passed its test when `Close` runs returns end of input and nothing else. -/
theorem C48_later {s t : St} {i k : Nat} (hc : s.closed = true) (hr : s.rd i = .locking k ∨ s.rd i = .check k)
    (h : Steps s t) : (outOf i t = outOf i s ∧ (t.rd i = .locking k ∨ t.rd i = .check k ∨ t.rd i = .ret .closed)) ∨
      ∃ rest, outOf i t = outOf i s ++ (i, .closed) :: rest := by
  have grow : ∀ {a b : St}, Steps a b → ∃ rest, outOf i b = outOf i a ++ rest := by
    intro a b h
    induction h with
    | refl => exact ⟨[], by simp⟩
    | step hs _ ih =>
      obtain ⟨r, hr⟩ := ih
      cases hs <;> first
        | exact ⟨r, hr⟩
        | exact ⟨_, by rw [hr]; simp only [outOf, List.filter_append, List.append_assoc]; rfl⟩
  have gen : ∀ {s t : St}, Steps s t → s.closed = true →
      (s.rd i = .locking k ∨ s.rd i = .check k ∨ s.rd i = .ret .closed) →
      (outOf i t = outOf i s ∧ (t.rd i = .locking k ∨ t.rd i = .check k ∨ t.rd i = .ret .closed)) ∨
      ∃ rest, outOf i t = outOf i s ++ (i, .closed) :: rest := by
    intro s t h
    induction h with
    | refl => intro _ h; exact .inl ⟨rfl, h⟩
    | @step s u t hs hst ih =>
      intro hc hr
      by_cases hu : outOf i u = outOf i s ∧ (u.rd i = .locking k ∨ u.rd i = .check k ∨ u.rd i = .ret .closed)
      · have hcu : u.closed = true := by cases hs <;> first | exact hc | rfl
        rw [← hu.1]
        exact ih hcu hu.2
      · right
        have key : outOf i u = outOf i s ++ [(i, .closed)] := by
          cases hs with
          | @ret j r h1 =>
            by_cases hj : j = i
            · subst hj
              rcases hr with hr | hr | hr <;> rw [h1] at hr <;> cases hr
              simp [outOf, List.filter_append]
            · exfalso
              apply hu
              refine ⟨by simp [outOf, List.filter_append, hj], ?_⟩
              simpa [set, Ne.symm hj] using hr
          | @call j _ h1 =>
            exfalso
            apply hu
            refine ⟨rfl, ?_⟩
            have hj : i ≠ j := by rintro rfl; rw [h1] at hr; rcases hr with h | h | h <;> cases h
            simpa [set, hj] using hr
          | @lock j k' h1 h2 =>
            exfalso
            apply hu
            refine ⟨rfl, ?_⟩
            by_cases hj : i = j
            · subst hj
              rcases hr with h | h | h <;> rw [h1] at h <;> cases h
              right; left; simp [set]
            · simpa [set, hj] using hr
          | @isClosed j k' h1 h2 =>
            exfalso
            apply hu
            refine ⟨rfl, ?_⟩
            by_cases hj : i = j
            · subst hj; right; right; simp [set]
            · simpa [set, hj] using hr
          | setData h1 h2 => rw [hc] at h2; cases h2
          | @notify j k' h1 h2 =>
            exfalso
            apply hu
            refine ⟨rfl, ?_⟩
            have hj : i ≠ j := by rintro rfl; rw [h1] at hr; rcases hr with h | h | h <;> cases h
            simpa [set, hj] using hr
          | @stop1 j k' h1 h2 =>
            exfalso
            apply hu
            refine ⟨rfl, ?_⟩
            have hj : i ≠ j := by rintro rfl; rw [h1] at hr; rcases hr with h | h | h <;> cases h
            simpa [set, hj] using hr
          | @deliver j k' h1 h2 =>
            exfalso
            apply hu
            refine ⟨rfl, ?_⟩
            have hj : i ≠ j := by rintro rfl; rw [h2] at hr; rcases hr with h | h | h <;> cases h
            simpa [set, hj] using hr
          | @stop2 j k' h1 h2 =>
            exfalso
            apply hu
            refine ⟨rfl, ?_⟩
            have hj : i ≠ j := by rintro rfl; rw [h1] at hr; rcases hr with h | h | h <;> cases h
            simpa [set, hj] using hr
          | under => exact absurd ⟨rfl, hr⟩ hu
          | endInner => exact absurd ⟨rfl, hr⟩ hu
          | endOuter => exact absurd ⟨rfl, hr⟩ hu
          | close => exact absurd ⟨rfl, hr⟩ hu
          | won => exact absurd ⟨rfl, hr⟩ hu
          | lost => exact absurd ⟨rfl, hr⟩ hu
          | stopIt => exact absurd ⟨rfl, hr⟩ hu
        obtain ⟨r, hr'⟩ := grow hst
        exact ⟨r, by rw [hr', key]; simp⟩
  exact gen h hc (by rcases hr with h | h <;> simp [h])

/-- **C48 (repeated `Close`).**  Any number of concurrent calls of `Close` never close the channel twice, each can always go
on, and once one has returned the input is closed. -/
theorem C48_close {inp : List Nat} {s : St} (h : Reach inp s) : s.crashed = false ∧
    (∀ i, s.cl i ≠ .idle → ∃ t, Step s t ∧ t.cl i ≠ s.cl i ∧ t.rd = s.rd) ∧
    (s.closed = true → s.stop = true ∨ ∃ i, s.cl i = .close) := by
  have v := h.inv
  refine ⟨v.crash, fun i hi => ?_, v.open_⟩
  cases e : s.cl i with
  | idle => exact absurd e hi
  | cas =>
    by_cases hc : s.closed = true
    · exact ⟨_, .lost e hc, by simp [set], rfl⟩
    · exact ⟨_, .won e (by simpa using hc), by simp [set], rfl⟩
  | close => exact ⟨_, .stopIt e, by simp [set], rfl⟩

/-- Non-trivial case: two readers, one gets data while the other waits; two closers. -/
example : ∃ s, Reach [1, 2, 3] s ∧ s.out = [(0, .data [1, 2] none)] ∧ s.rd 1 = .recv 4 ∧ s.stop = true ∧ s.inp = [3] := by
  have h := Reach.init (inp := [1, 2, 3])
  have h := h.step (.call 0 8 rfl)
  have h := h.step (.call 1 4 rfl)
  have h := h.step (.lock (i := 0) rfl rfl)
  have h := h.step (.setData (i := 0) rfl rfl)
  have h := h.step (.notify (i := 0) rfl rfl)
  have h := h.step (.under 2 none rfl (by decide) (by decide))
  have h := h.step (.deliver (i := 0) rfl rfl)
  have h := h.step (.ret (i := 0) rfl)
  have h := h.step (.lock (i := 1) rfl rfl)
  have h := h.step (.setData (i := 1) rfl rfl)
  have h := h.step (.notify (i := 1) rfl rfl)
  have h := h.step (.close 0 rfl)
  have h := h.step (.close 1 rfl)
  have h := h.step (.won (i := 1) rfl rfl)
  have h := h.step (.lost (i := 0) rfl rfl)
  have h := h.step (.stopIt (i := 1) rfl)
  exact ⟨_, h, rfl, rfl, rfl, rfl⟩

/-- **C48 is false of a pending read.**  After `Close` has returned a pending `Read` may still return data: when data is
ready too, `select` picks either. -/
theorem C48_false_pending : ∃ s t, Reach [7] s ∧ s.stop = true ∧ s.out = [] ∧ Steps s t ∧ t.out = [(0, .data [7] none)] := by
  have h := Reach.init (inp := [7])
  have h := h.step (.call 0 8 rfl)
  have h := h.step (.lock (i := 0) rfl rfl)
  have h := h.step (.setData (i := 0) rfl rfl)
  have h := h.step (.notify (i := 0) rfl rfl)
  have h := h.step (.under 1 none rfl (by decide) (by decide))
  have h := h.step (.close 0 rfl)
  have h := h.step (.won (i := 0) rfl rfl)
  have h := h.step (.stopIt (i := 0) rfl)
  exact ⟨_, _, h, rfl, rfl, .step (.deliver (i := 0) rfl rfl) (.step (.ret (i := 0) rfl) .refl), rfl⟩

/-- **C48, defect.**  After `Close`, with nobody in `Read` any more, the background reader still takes input (and writes it
into the buffer of the `Read` that has returned): that input is lost. -/
theorem C48_input_lost : ∃ s t, Reach [7] s ∧ s.out = [(0, .closed)] ∧ (∀ i, s.rd i = .idle) ∧ Step s t ∧ s.inp = [7] ∧
    t.inp = [] := by
  have h := Reach.init (inp := [7])
  have h := h.step (.call 0 8 rfl)
  have h := h.step (.lock (i := 0) rfl rfl)
  have h := h.step (.setData (i := 0) rfl rfl)
  have h := h.step (.notify (i := 0) rfl rfl)
  have h := h.step (.close 0 rfl)
  have h := h.step (.won (i := 0) rfl rfl)
  have h := h.step (.stopIt (i := 0) rfl)
  have h := h.step (.stop2 (i := 0) rfl rfl)
  have h := h.step (.ret (i := 0) rfl)
  refine ⟨_, _, h, rfl, fun i => ?_, .under 1 none rfl (by decide) (by decide), rfl, rfl⟩
  by_cases hi : i = 0
  · subst hi; rfl
  · simp [set, hi, St.init]

end RL.Stdin
