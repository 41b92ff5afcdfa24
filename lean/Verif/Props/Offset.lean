import Verif.Model.Offset
import Verif.Props.Decode
/-! # C104: `GetOffset` -/

namespace RL
open OffSys

/-- The calls of `GetOffset` in a schedule. -/
def callsIn : List Step → List Nat := List.filterMap fun | .spawn c => some c | _ => none

/-- The reports sent to the program: answers, and keys that look like one. -/
def reportsIn : List Step → List (List Rune) := List.filterMap fun | .ask p | .key p => some p | _ => none

/-- What a schedule does to a state: every call is waiting or has been answered, once; what was handed over is part of what was read, in order,
beginning with the first. -/
structure Kept (as : List Step) (s t : OffSys) : Prop where
  once : ∃ new, t.got = s.got ++ new ∧ (new.map (·.1) ++ t.wait).Perm (s.wait ++ callsIn as) ∧
    ∃ read, s.wire ++ reportsIn as = read ++ t.wire ∧ (new.map (·.2) ++ t.chan.toList).Sublist (s.chan.toList ++ read) ∧
      (new.map (·.2) ++ t.chan.toList).head? = (s.chan.toList ++ read).head?

theorem kept_step {a : Step} {s t : OffSys} (h : s.step a = some t) : Kept [a] s t := by
  cases a with
  | spawn c =>
    cases h
    exact ⟨[], by simp, by simp [callsIn], [], by simp [reportsIn], by simp, by simp⟩
  | ask p | key p =>
    cases h
    exact ⟨[], by simp, by simp [callsIn], [], by simp [reportsIn], by simp, by simp⟩
  | read =>
    unfold step at h
    cases hw : s.wire with
    | nil => rw [hw] at h; cases h
    | cons p w =>
      rw [hw] at h; cases h
      refine ⟨[], by simp, by simp [callsIn], [p], by simp [reportsIn, hw], ?_, ?_⟩ <;> cases s.chan <;> simp
  | recv c =>
    unfold step at h
    cases hc : s.chan with
    | none => rw [hc] at h; cases h
    | some p =>
      rw [hc] at h
      dsimp only at h
      split at h
      · next hm =>
        cases h
        refine ⟨[(c, p)], by simp, ?_, [], by simp [reportsIn], by simp [hc], by simp [hc]⟩
        simp only [callsIn, List.filterMap_cons, List.filterMap_nil, List.append_nil, List.map_cons, List.map_nil, List.singleton_append]
        exact (List.perm_cons_erase hm).symm
      · cases h

theorem kept_run {as : List Step} : ∀ {s t : OffSys}, run as s = some t → Kept as s t := by
  induction as with
  | nil => intro s t h; cases h; exact ⟨[], by simp, by simp [callsIn], [], by simp [reportsIn], by simp, by simp⟩
  | cons a as ih =>
    intro s t h
    unfold run at h
    obtain ⟨u, h1, h2⟩ := Option.bind_eq_some_iff.mp h
    obtain ⟨n1, a1, a2, r1, a3, a4, a5⟩ := kept_step h1
    obtain ⟨n2, b1, b2, r2, b3, b4, b5⟩ := ih h2
    have c1 : callsIn (a :: as) = callsIn [a] ++ callsIn as := by rw [callsIn, ← List.filterMap_append]; rfl
    have c2 : reportsIn (a :: as) = reportsIn [a] ++ reportsIn as := by rw [reportsIn, ← List.filterMap_append]; rfl
    refine ⟨n1 ++ n2, by rw [b1, a1, List.append_assoc], ?_, r1 ++ r2, ?_, ?_, ?_⟩
    · rw [c1, List.map_append, List.append_assoc, ← List.append_assoc s.wait]
      refine (List.Perm.append_left _ b2).trans ?_
      rw [← List.append_assoc]
      exact a2.append_right _
    · rw [c2, ← List.append_assoc, a3, List.append_assoc, b3, List.append_assoc]
    · rw [List.map_append, List.append_assoc]
      refine (List.Sublist.append_left b4 _).trans ?_
      rw [← List.append_assoc, ← List.append_assoc]
      exact a4.append_right _
    · rw [List.head?_append] at a5 b5
      rw [List.map_append, List.append_assoc, ← List.append_assoc s.chan.toList, List.head?_append, List.head?_append (l := n2.map _), b5, List.head?_append,
        List.head?_append (l := s.chan.toList ++ r1), ← a5, Option.or_assoc]

/-- **C104** (once).  In every schedule of any number of calls: a call is still waiting or its callback has been called exactly once; the callbacks get
reports that were read, every report at most once, in order; and no report is read before it is sent. -/
theorem C104_once {as : List Step} {t : OffSys} (h : run as init = some t) :
    (t.got.map (·.1) ++ t.wait).Perm (callsIn as) ∧ ∃ read, reportsIn as = read ++ t.wire ∧ (t.got.map (·.2)).Sublist read := by
  obtain ⟨new, h1, h2, read, h3, h4, h5⟩ := kept_run h
  have h1 : t.got = new := h1
  subst h1
  exact ⟨h2, read, h3, (List.sublist_append_left _ _).trans h4⟩

/-- Nothing is going on. -/
def OffSys.Idle (s : OffSys) : Prop := s.wait = [] ∧ s.chan = none ∧ s.wire = []

/-- **C104** (one at a time).  If nothing is going on, a call of `GetOffset` whose query is answered with `p` gets `p`, in whatever order goroutine, terminal
and `ioloop` act, and nothing is left over for the next call. -/
theorem C104_alone_partial {as : List Step} {s t : OffSys} {c : Nat} {p : List Rune} (hs : s.Idle) (h : run as s = some t) (hc : callsIn as = [c])
    (hp : reportsIn as = [p]) (hd : t.wait = []) : t.got = s.got ++ [(c, p)] ∧ t.Idle := by
  obtain ⟨new, h1, h2, read, h3, h4, h5⟩ := kept_run h
  obtain ⟨s1, s2, s3⟩ := hs
  rw [s1, hc, hd, List.append_nil, List.nil_append] at h2
  have h2 := List.perm_singleton.mp h2
  rw [s3, hp, List.nil_append] at h3
  rw [s2, Option.toList_none, List.nil_append] at h4
  match new, h2 with
  | [(d, q)], h2 =>
    cases h2
    match read, h3 with
    | [], _ => cases h4
    | r :: rs, h3 =>
      injection h3 with e1 e2
      obtain ⟨e3, e4⟩ := List.append_eq_nil_iff.mp e2.symm
      subst e1; subst e3
      have hl := h4.length_le
      cases hch : t.chan with
      | some x => simp [hch] at hl
      | none =>
        rw [hch] at h4
        have : q = p := by simpa using h4
        subst this
        exact ⟨h1, hd, hch, e4⟩

/-- **C104** (answered).  In the course of such a call, once the query is written, the callback is called at the latest after `ioloop` has read the answer
and the goroutine has run: one of the two can always act. -/
theorem C104_answered_partial {as : List Step} {s t : OffSys} {c : Nat} {p : List Rune} (hs : s.Idle) (h : run as s = some t) (hc : callsIn as = [c])
    (hp : reportsIn as = [p]) (hd : t.wait ≠ []) :
    ∃ bs ∈ [[Step.recv c], [.read, .recv c]], ∃ u, run bs t = some u ∧ u.got = s.got ++ [(c, p)] ∧ u.Idle := by
  obtain ⟨new, h1, h2, read, h3, h4, h5⟩ := kept_run h
  obtain ⟨s1, s2, s3⟩ := hs
  rw [s1, hc, List.nil_append] at h2
  rw [s3, hp, List.nil_append] at h3
  rw [s2, Option.toList_none, List.nil_append] at h4
  have hl := h2.length_eq
  simp only [List.length_append, List.length_map, List.length_singleton] at hl
  have hw : 0 < t.wait.length := List.length_pos_iff.mpr hd
  have hn : new = [] := List.eq_nil_of_length_eq_zero (by omega)
  subst hn
  have hw : t.wait = [c] := List.perm_singleton.mp h2
  rw [List.append_nil] at h1
  cases hch : t.chan with
  | some q =>
    rw [hch] at h4
    match read, h3 with
    | [], _ => cases h4
    | r :: rs, h3 =>
      injection h3 with e1 e2
      obtain ⟨e3, e4⟩ := List.append_eq_nil_iff.mp e2.symm
      subst e1; subst e3
      have : q = p := by simpa using h4
      subst this
      refine ⟨_, List.mem_cons_self .., { t with wait := [], chan := none, got := t.got ++ [(c, q)] }, ?_, by simp only [h1], rfl, rfl, e4⟩
      simp [run, step, hch, hw]
  | none =>
    match read, h3 with
    | [], h3 =>
      have h3 : [p] = t.wire := h3
      refine ⟨_, List.mem_cons_of_mem _ (List.mem_cons_self ..), { t with wire := [], wait := [], chan := none, got := t.got ++ [(c, p)] }, ?_, by simp only [h1], rfl, rfl, rfl⟩
      simp [run, step, hch, hw, ← h3]
    | r :: rs, _ => rw [hch, s2] at h5; cases h5

/-! ### Where it fails -/

/-- Calls with the positions at which they are made, each completed before the next: the goroutine runs as soon as it finds something. -/
def oneByOne : List (Nat × List Rune) → List Step
  | [] => []
  | (c, p) :: l => [.spawn c, .ask p, .recv c, .read] ++ oneByOne l

/-- **C104 is false after a report nobody asked for.**  From then on every call of `GetOffset` gets the answer of the call before it: once `q` has been left in
the channel, calls one after the other, made at the positions `p₁, p₂, …`, get `q, p₁, p₂, …`. -/
theorem C104_false_shifted (l : List (Nat × List Rune)) : ∀ (q : List Rune) (s : OffSys), s.wait = [] → s.chan = some q → s.wire = [] →
    ∃ t, run (oneByOne l) s = some t ∧ t.wait = [] ∧ t.wire = [] ∧ t.got = s.got ++ (l.map (·.1)).zip (q :: l.map (·.2)) := by
  induction l with
  | nil => intro q s h1 h2 h3; exact ⟨s, rfl, h1, h3, by simp⟩
  | cons x l ih =>
    obtain ⟨c, p⟩ := x
    intro q s h1 h2 h3
    obtain ⟨t, a1, a2, a3, a4⟩ := ih p { s with wait := [], chan := some p, wire := [], got := s.got ++ [(c, q)] } rfl rfl rfl
    refine ⟨t, ?_, a2, a3, ?_⟩
    · rw [← a1]
      simp [oneByOne, run, step, h1, h2, h3]
    · rw [a4]; simp

/-- Shift-F3, which xterm sends as `ESC [ 1 ; 2 R`, is such a report … -/
theorem C104_false_key (U : UTables) : sizesOf (termTrace U false ([27, 91, 49, 59, 50, 82].map .rune ++ [])) = [[49, 59, 50]] := by
  refine C38_reports (cs := [.csi 0 [49, 59, 50] 82]) ?_ (reads_map [.csi 0 [49, 59, 50] 82]) .none (.report ?_ .nil)
  · simp only [List.mem_cons, List.not_mem_nil, or_false, forall_eq, Spec.Chunk.Ok, Spec.Param, forall_eq_or_imp]
    simp [isNumber]
  · exact ⟨[49], [50], [], .inl rfl, by decide, by decide, by decide, by decide, by decide, by decide⟩

/-- … so after it `GetOffset` at the position `p` says row 1, column 2. -/
theorem C104_false_stale (p : List Rune) : ∃ t, run [.key [49, 59, 50], .read, .spawn 0, .ask p, .recv 0] init = some t ∧ t.got = [(0, [49, 59, 50])] :=
  ⟨_, rfl, rfl⟩

/-- **C104 is false for two calls at the same time.**  If the second answer is read before the first goroutine has run, it is dropped: the second callback is
never called, and no further step is possible without another call or key. -/
theorem C104_false_dropped (p q : List Rune) : ∃ t, run [.spawn 0, .ask p, .spawn 1, .ask q, .read, .read, .recv 0] init = some t ∧ t.wait = [1] ∧
    t.step .read = none ∧ ∀ c, t.step (.recv c) = none :=
  ⟨_, rfl, rfl, rfl, fun _ => rfl⟩

/-- Two calls at the same time may also get each other's answers. -/
theorem C104_false_swapped (p q : List Rune) : ∃ t, run [.spawn 0, .ask p, .spawn 1, .ask q, .read, .recv 1, .read, .recv 0] init = some t ∧
    t.got = [(1, p), (0, q)] :=
  ⟨_, rfl, rfl⟩

/-! ### Non-trivial cases -/

/-- Three calls, the second before the first is answered, and a key. -/
example : ∃ t, run [.spawn 0, .ask [49, 59, 49], .spawn 1, .read, .key [49, 59, 50], .recv 1, .spawn 2, .read, .ask [51, 59, 51], .recv 0, .read, .recv 2] init = some t ∧
    t.got = [(1, [49, 59, 49]), (0, [49, 59, 50]), (2, [51, 59, 51])] := ⟨_, rfl, rfl⟩

/-- The query may be written before or after the goroutine starts. -/
example : ∃ t, run [.ask [49, 59, 49], .read, .spawn 7, .recv 7] init = some t ∧ t.got = [(7, [49, 59, 49])] ∧ t.Idle := by
  exact ⟨_, rfl, C104_alone_partial (as := [.ask [49, 59, 49], .read, .spawn 7, .recv 7]) (s := init) ⟨rfl, rfl, rfl⟩ rfl rfl rfl rfl⟩

example : ∃ bs ∈ [[Step.recv 7], [.read, .recv 7]], ∃ u, run bs { init with wait := [7], wire := [[49, 59, 49]] } = some u ∧ u.got = [(7, [49, 59, 49])] ∧ u.Idle :=
  C104_answered_partial (as := [.spawn 7, .ask [49, 59, 49]]) (s := init) ⟨rfl, rfl, rfl⟩ rfl rfl rfl (by decide)

end RL
