import Verif.Model.Leak
/-! # C110: closing an instance ends what it has started for its input -/

namespace RL
open Leak

private theorem leak_init_cases (c : Nat) (s : St) : s.init c = s ∨ (s.stream c = none ∧
    s.init c = { s.open (s.own c) with stream := fun k => if k = c then some s.next else s.stream k }) := by
  unfold St.init
  cases h : s.stream c with
  | none => exact .inr ⟨rfl, rfl⟩
  | some x => exact .inl rfl

private theorem leak_open_cancels (b : Bool) (s : St) {x : Nat} (h : x ∈ s.cancels) : x ∈ (s.open b).cancels := by
  show x ∈ if b then s.cancels else s.next :: s.cancels
  split
  · exact h
  · exact List.mem_cons_of_mem _ h

private theorem leak_init_cancels (c : Nat) (s : St) {x : Nat} (h : x ∈ s.cancels) : x ∈ (s.init c).cancels := by
  rcases leak_init_cases c s with e | ⟨_, e⟩ <;> rw [e]
  · exact h
  · exact leak_open_cancels _ _ h

/-- **C110 is false, 1.**  The goroutine of a `CancelableStdin` never ends, whatever is called: the library never closes one. -/
theorem C110_false_cancel {x : Nat} : ∀ (as : List Act) {s : St}, x ∈ s.cancels → x ∈ (s.acts as).cancels
  | [], _, h => h
  | a :: as, s, h => by
    refine C110_false_cancel as (s := s.act a) ?_
    cases a with
    | new i c => exact leak_init_cancels c s h
    | setConfig i c => exact leak_init_cancels c s h
    | clone c d => unfold St.act; dsimp only; split <;> exact h
    | passwordWith c => exact leak_init_cancels c s h
    | password => exact leak_open_cancels false s h
    | close i =>
      show x ∈ (match (s.inst i).bind s.stream with | none => s | some x => { s with fills := s.fills.filter (· != x) }).cancels
      split <;> exact h

/-- The stream `x` is used by no configuration, and will not be. -/
private def Lost (x : Nat) (s : St) : Prop := x < s.next ∧ x ∈ s.fills ∧ ∀ c, s.stream c ≠ some x

private theorem leak_lost_init (c : Nat) {s : St} {x : Nat} (h : Lost x s) : Lost x (s.init c) := by
  rcases leak_init_cases c s with e | ⟨_, e⟩ <;> rw [e]
  · exact h
  · refine ⟨Nat.lt_succ_of_lt h.1, List.mem_cons_of_mem _ h.2.1, fun k => ?_⟩
    show (if k = c then some s.next else s.stream k) ≠ some x
    split
    · intro he
      have : s.next = x := Option.some.inj he
      have := h.1
      omega
    · exact h.2.2 k

private theorem leak_lost {x : Nat} (s : St) (a : Act) (h : Lost x s) : Lost x (s.act a) := by
  cases a with
  | new i c => exact leak_lost_init c h
  | setConfig i c => exact leak_lost_init c h
  | clone c d =>
    unfold St.act; dsimp only; split
    · exact h
    refine ⟨h.1, h.2.1, fun k => ?_⟩
    show (if k = d then s.stream c else s.stream k) ≠ some x
    split
    · exact h.2.2 c
    · exact h.2.2 k
  | passwordWith c => exact leak_lost_init c h
  | password => exact ⟨Nat.lt_succ_of_lt h.1, List.mem_cons_of_mem _ h.2.1, h.2.2⟩
  | close i =>
    show Lost x (match (s.inst i).bind s.stream with | none => s | some x => { s with fills := s.fills.filter (· != x) })
    split
    · exact h
    · rename_i y hy
      refine ⟨h.1, List.mem_filter.mpr ⟨h.2.1, ?_⟩, h.2.2⟩
      obtain ⟨c, _, hc⟩ := Option.bind_eq_some_iff.mp hy
      have : x ≠ y := by
        intro he
        exact h.2.2 c (he ▸ hc)
      simpa using this

/-- Streams in use have been made. -/
private def Made (s : St) : Prop := ∀ c x, s.stream c = some x → x < s.next

private theorem leak_made_init (c : Nat) {s : St} (h : Made s) : Made (s.init c) := by
  rcases leak_init_cases c s with e | ⟨_, e⟩ <;> rw [e]
  · exact h
  · intro k x hk
    have hk : (if k = c then some s.next else s.stream k) = some x := hk
    show x < s.next + 1
    split at hk
    · have : s.next = x := Option.some.inj hk
      omega
    · exact Nat.lt_succ_of_lt (h k x hk)

private theorem leak_made (s : St) (a : Act) (h : Made s) : Made (s.act a) := by
  cases a with
  | new i c => exact leak_made_init c h
  | setConfig i c => exact leak_made_init c h
  | clone c d =>
    unfold St.act; dsimp only; split
    · exact h
    intro k x hk
    have hk : (if k = d then s.stream c else s.stream k) = some x := hk
    split at hk
    · exact h c x hk
    · exact h k x hk
  | passwordWith c => exact leak_made_init c h
  | password => exact fun k x hk => Nat.lt_succ_of_lt (h k x hk)
  | close i =>
    show Made (match (s.inst i).bind s.stream with | none => s | some x => { s with fills := s.fills.filter (· != x) })
    split <;> exact h

private theorem leak_made_acts : ∀ (as : List Act) (s : St), Made s → Made (s.acts as)
  | [], _, h => h
  | a :: as, s, h => leak_made_acts as (s.act a) (leak_made s a h)

private theorem leak_append : ∀ (as bs : List Act) (s : St), s.acts (as ++ bs) = (s.acts as).acts bs
  | [], _, _ => rfl
  | a :: as, bs, s => leak_append as bs (s.act a)

/-- Streams that run have been made. -/
private def Below (s : St) : Prop := (∀ x ∈ s.fills, x < s.next) ∧ ∀ x ∈ s.cancels, x < s.next

private theorem leak_below_open (b : Bool) {s : St} (h : Below s) : Below (s.open b) := by
  have hc : ∀ l : List Nat, (∀ x ∈ l, x < s.next) → ∀ x ∈ s.next :: l, x < s.next + 1 := by
    intro l hl x hx
    rcases List.mem_cons.mp hx with rfl | hx
    · exact Nat.lt_succ_self _
    · exact Nat.lt_succ_of_lt (hl x hx)
  refine ⟨hc _ h.1, fun x hx => ?_⟩
  have hx : x ∈ if b then s.cancels else s.next :: s.cancels := hx
  split at hx
  · exact Nat.lt_succ_of_lt (h.2 x hx)
  · exact hc _ h.2 x hx

private theorem leak_below_init (c : Nat) {s : St} (h : Below s) : Below (s.init c) := by
  rcases leak_init_cases c s with e | ⟨_, e⟩ <;> rw [e]
  · exact h
  · exact leak_below_open (s.own c) h

private theorem leak_below_acts : ∀ (as : List Act) (s : St), Below s → Below (s.acts as)
  | [], _, h => h
  | a :: as, s, h => by
    refine leak_below_acts as (s.act a) ?_
    cases a with
    | new i c => exact leak_below_init c h
    | setConfig i c => exact leak_below_init c h
    | clone c d => unfold St.act; dsimp only; split <;> exact h
    | passwordWith c => exact leak_below_init c h
    | password => exact leak_below_open false h
    | close i =>
      unfold St.act; dsimp only; split
      · exact h
      · exact ⟨fun x hx => h.1 x (List.mem_filter.mp hx).1, h.2⟩

/-- **C110 is false, 2.**  Every `ReadPassword` starts two goroutines that nothing ends: not closing the instance, nor anything else
the program may call. -/
theorem C110_false_password (own : Nat → Bool) (as bs : List Act) :
    let s := (start own).acts as
    s.next ∉ s.fills ∧ s.next ∉ s.cancels ∧ (s.act .password).running = s.running + 2 ∧
      s.next ∈ ((start own).acts (as ++ .password :: bs)).fills ∧ s.next ∈ ((start own).acts (as ++ .password :: bs)).cancels := by
  intro s
  have hm : Made s := leak_made_acts as (start own) (fun _ _ h => nomatch h)
  have hb : Below s := leak_below_acts as (start own) ⟨(fun _ h => nomatch h), (fun _ h => nomatch h)⟩
  refine ⟨fun h => Nat.lt_irrefl _ (hb.1 _ h), fun h => Nat.lt_irrefl _ (hb.2 _ h), ?_, ?_, ?_⟩
  · show (s.next :: s.fills).length + (s.next :: s.cancels).length = s.fills.length + s.cancels.length + 2
    simp only [List.length_cons]
    omega
  · rw [leak_append]
    have lost : ∀ (bs : List Act) (t : St), Lost s.next t → Lost s.next (t.acts bs) := by
      intro bs
      induction bs with
      | nil => intro t h; exact h
      | cons b bs ih => intro t h; exact ih _ (leak_lost t b h)
    refine (lost bs (s.act .password) ⟨Nat.lt_succ_self _, List.mem_cons_self .., fun c hc => ?_⟩).2.1
    exact Nat.lt_irrefl _ (hm c s.next hc)
  · rw [leak_append]
    exact C110_false_cancel bs (s := s.act .password) (List.mem_cons_self ..)

/-- **C110 is false, 3.**  A program that reads `n` passwords and closes its instance leaves `2 n` goroutines, and one more if it
has not set `Stdin`. -/
theorem C110_false_unbounded (own : Nat → Bool) (n : Nat) :
    ((start own).acts ([.new 0 0] ++ List.replicate n .password ++ [.close 0])).running = 2 * n + if own 0 then 0 else 1 := by
  have pw : ∀ (n k m : Nat) (s : St), s.stream 0 = some 0 → s.inst 0 = some 0 → 0 < s.next →
      (s.fills.filter (· != 0)).length = k → s.cancels.length = m →
      ((s.acts (List.replicate n .password ++ [.close 0])).running = 2 * n + k + m) := by
    intro n
    induction n with
    | zero =>
      intro k m s h1 h2 _ h3 h4
      have e : s.acts (List.replicate 0 .password ++ [.close 0]) = { s with fills := s.fills.filter (· != 0) } := by
        show (match (s.inst 0).bind s.stream with | none => s | some x => { s with fills := s.fills.filter (· != x) }) = _
        rw [h2]
        show (match s.stream 0 with | none => s | some x => { s with fills := s.fills.filter (· != x) }) = _
        rw [h1]
      rw [e]
      show (s.fills.filter (· != 0)).length + s.cancels.length = _
      omega
    | succ n ih =>
      intro k m s h1 h2 h0 h3 h4
      have := ih (k + 1) (m + 1) (s.act .password) h1 h2 (Nat.succ_pos _) (by
        show ((s.next :: s.fills).filter (· != 0)).length = k + 1
        rw [List.filter_cons_of_pos (by simpa using Nat.pos_iff_ne_zero.mp h0), List.length_cons, h3]) (by
        show (s.next :: s.cancels).length = m + 1
        rw [List.length_cons, h4])
      show ((s.act .password).acts (List.replicate n .password ++ [.close 0])).running = _
      rw [this]
      omega
  have h := pw n 0 (if own 0 then 0 else 1) ((start own).act (.new 0 0)) rfl rfl (Nat.lt_succ_self _) rfl
    (by show (if own 0 then ([] : List Nat) else [0]).length = _; split <;> rfl)
  exact h

/-- **C110 is false, 4.**  `Close` ends the goroutine of the configuration the instance has then; that of one it had before goes on,
though the program has set `Stdin` in both. -/
theorem C110_false_setConfig {own : Nat → Bool} {c d : Nat} (hc : own c = true) (hd : own d = true) (h : c ≠ d) (i : Nat) :
    ((start own).acts [.new i c, .setConfig i d, .close i]).fills = [0] ∧
      ((start own).acts [.new i c, .setConfig i d, .close i]).cancels = [] := by
  simp [St.acts, St.act, St.init, St.open, start, hc, hd, Ne.symm h]

/-- **C110, one instance.**  Closing an instance ends the goroutine of its configuration's stream and no other. -/
theorem C110_close {s : St} {i c x : Nat} (hi : s.inst i = some c) (hx : s.stream c = some x) (y : Nat) :
    (y ∈ (s.act (.close i)).fills ↔ y ∈ s.fills ∧ y ≠ x) ∧ (s.act (.close i)).cancels = s.cancels := by
  have e : s.act (.close i) = { s with fills := s.fills.filter (· != x) } := by
    show (match (s.inst i).bind s.stream with | none => s | some x => { s with fills := s.fills.filter (· != x) }) = _
    rw [hi]
    show (match s.stream c with | none => s | some x => { s with fills := s.fills.filter (· != x) }) = _
    rw [hx]
  rw [e]
  refine ⟨?_, rfl⟩
  show y ∈ s.fills.filter (· != x) ↔ _
  simp [List.mem_filter]

/-- **C110, clones.**  Using a clone of an initialised configuration, for an instance or for a password, starts nothing; and closing the
instance that has the clone ends the goroutine of the original. -/
theorem C110_clone {s : St} {c d x : Nat} (hx : s.stream c = some x) (hd : s.stream d = none) (i : Nat) :
    (s.acts [.clone c d, .passwordWith d, .setConfig i d]).fills = s.fills ∧
      (s.acts [.clone c d, .passwordWith d, .setConfig i d]).cancels = s.cancels ∧
      x ∉ (s.acts [.clone c d, .passwordWith d, .setConfig i d, .close i]).fills := by
  simp [St.acts, St.act, St.init, hx, hd]

/-- **C110, the package-level functions.**  However often the history file and the completer are changed, nothing is started; each
`Password` adds two goroutines to the two of the instance. -/
theorem C110_std {own : Nat → Bool} (h0 : own 0 = false) (l : List Bool) :
    ((start own).acts (.new 0 0 :: stdCalls 0 l)).running = 2 + 2 * l.count false := by
  have main : ∀ (l : List Bool) (k : Nat) (s : St), s.stream k = some 0 → (∀ j, k < j → s.stream j = none) →
      (s.acts (stdCalls k l)).running = s.running + 2 * l.count false := by
    intro l
    induction l with
    | nil => intro k s _ _; rfl
    | cons b l ih =>
      intro k s h1 h2
      cases b with
      | false =>
        show ((s.act .password).acts (stdCalls k l)).running = _
        rw [ih k (s.act .password) h1 h2, List.count_cons_self]
        show (s.next :: s.fills).length + (s.next :: s.cancels).length + _ = s.fills.length + s.cancels.length + _
        simp only [List.length_cons]
        omega
      | true =>
        show (((s.act (.clone k (k + 1))).act (.setConfig 0 (k + 1))).acts (stdCalls (k + 1) l)).running = _
        have e : s.act (.clone k (k + 1)) = { s with stream := fun j => if j = k + 1 then s.stream k else s.stream j,
                                                     own := fun j => if j = k + 1 then s.own k else s.own j } := by
          unfold St.act; dsimp only; rw [h2 (k + 1) (Nat.lt_succ_self k)]
        have e2 : ((s.act (.clone k (k + 1))).init (k + 1)) = s.act (.clone k (k + 1)) := by
          rw [e]
          simp [St.init, h1]
        have e3 : (s.act (.clone k (k + 1))).act (.setConfig 0 (k + 1)) = { s.act (.clone k (k + 1)) with
            inst := fun j => if j = 0 then some (k + 1) else (s.act (.clone k (k + 1))).inst j } := by
          show ({ (s.act (.clone k (k + 1))).init (k + 1) with inst := _ } : St) = _
          rw [e2]
        rw [e3, e, ih (k + 1), List.count_cons_of_ne (by decide)]
        · rfl
        · exact (if_pos rfl).trans h1
        · intro j hj
          exact (if_neg (by omega)).trans (h2 j (by omega))
  have hs : ((start own).act (.new 0 0)).running = 2 := by
    show ([0] : List Nat).length + (if own 0 then ([] : List Nat) else [0]).length = 2
    rw [h0]
    rfl
  show (((start own).act (.new 0 0)).acts (stdCalls 0 l)).running = _
  rw [main l 0 _ rfl (fun j hj => if_neg (by omega)), hs]

/-- Two changes with a password between them. -/
example : stdCalls 0 [true, false, true] = [.clone 0 1, .setConfig 0 1, .password, .clone 1 2, .setConfig 0 2] := rfl

/-- **C110, what runs (partial).**  A program that sets `Stdin` in all its configurations and does not call `ReadPassword` (it may call
`PasswordWithConfig`) has no goroutine of a `CancelableStdin`, and every other one belongs to one of its configurations. -/
theorem C110_own_partial {own : Nat → Bool} (ho : ∀ c, own c = true) {as : List Act} (hp : .password ∉ as) :
    ((start own).acts as).cancels = [] ∧
      ∀ x ∈ ((start own).acts as).fills, ∃ c, ((start own).acts as).stream c = some x := by
  have main : ∀ (as : List Act) (s : St), .password ∉ as → (∀ c, s.own c = true) → s.cancels = [] →
      (∀ x ∈ s.fills, ∃ c, s.stream c = some x) →
      (s.acts as).cancels = [] ∧ ∀ x ∈ (s.acts as).fills, ∃ c, (s.acts as).stream c = some x := by
    intro as
    induction as with
    | nil => intro s _ _ h1 h2; exact ⟨h1, h2⟩
    | cons a as ih =>
      intro s hp ho h1 h2
      have hi : ∀ c, (∀ k, (s.init c).own k = true) ∧ (s.init c).cancels = [] ∧
          ∀ x ∈ (s.init c).fills, ∃ k, (s.init c).stream k = some x := by
        intro c
        rcases leak_init_cases c s with e | ⟨hn, e⟩ <;> rw [e]
        · exact ⟨ho, h1, h2⟩
        · refine ⟨ho, ?_, fun x hx => ?_⟩
          · show (if s.own c then s.cancels else s.next :: s.cancels) = []
            rw [ho c, if_pos rfl, h1]
          · rcases List.mem_cons.mp hx with rfl | hx
            · exact ⟨c, if_pos rfl⟩
            · obtain ⟨k, hk⟩ := h2 x hx
              have : k ≠ c := by
                intro he
                rw [he, hn] at hk
                cases hk
              exact ⟨k, (if_neg this).trans hk⟩
      have hp' : .password ∉ as := fun h => hp (List.mem_cons_of_mem _ h)
      cases a with
      | new i c => exact ih _ hp' (hi c).1 (hi c).2.1 (hi c).2.2
      | setConfig i c => exact ih _ hp' (hi c).1 (hi c).2.1 (hi c).2.2
      | clone c d =>
        cases hd : s.stream d with
        | some y =>
          have e : s.act (.clone c d) = s := by unfold St.act; dsimp only; rw [hd]
          show ((s.act (.clone c d)).acts as).cancels = [] ∧ ∀ x ∈ ((s.act (.clone c d)).acts as).fills,
            ∃ k, ((s.act (.clone c d)).acts as).stream k = some x
          rw [e]
          exact ih s hp' ho h1 h2
        | none =>
          have e : s.act (.clone c d) = { s with stream := fun k => if k = d then s.stream c else s.stream k,
                                                 own := fun k => if k = d then s.own c else s.own k } := by
            unfold St.act; dsimp only; rw [hd]
          show ((s.act (.clone c d)).acts as).cancels = [] ∧ ∀ x ∈ ((s.act (.clone c d)).acts as).fills,
            ∃ k, ((s.act (.clone c d)).acts as).stream k = some x
          rw [e]
          refine ih _ hp' (fun k => ?_) h1 (fun x hx => ?_)
          · show (if k = d then s.own c else s.own k) = true
            split <;> exact ho _
          · obtain ⟨k, hk⟩ := h2 x hx
            have : k ≠ d := by
              intro he
              rw [he, hd] at hk
              cases hk
            exact ⟨k, (if_neg this).trans hk⟩
      | passwordWith c => exact ih _ hp' (hi c).1 (hi c).2.1 (hi c).2.2
      | password => exact absurd (List.mem_cons_self ..) hp
      | close i =>
        refine ih (s.act (.close i)) hp' ?_ ?_ ?_
        all_goals
          unfold St.act
          dsimp only
          split
        · exact ho
        · exact ho
        · exact h1
        · exact h1
        · exact h2
        · exact fun x hx => h2 x (List.mem_filter.mp hx).1
  exact main as (start own) hp ho rfl (fun _ h => nomatch h)

/-- **C110 (partial).**  If moreover the stream of each of its configurations is that of an instance among `is`, then nothing runs once
those are closed.  Missing: `ReadPassword`, a `Stdin` left unset, and a configuration no instance has any more. -/
theorem C110_all_partial {own : Nat → Bool} (ho : ∀ c, own c = true) {as : List Act} (hp : .password ∉ as) (is : List Nat)
    (hh : ∀ c x, ((start own).acts as).stream c = some x →
      ∃ i ∈ is, ∃ d, ((start own).acts as).inst i = some d ∧ ((start own).acts as).stream d = some x) :
    ((start own).acts (as ++ is.map .close)).running = 0 := by
  have main : ∀ (is : List Nat) (s : St), s.cancels = [] →
      (∀ x ∈ s.fills, ∃ i ∈ is, ∃ d, s.inst i = some d ∧ s.stream d = some x) → (s.acts (is.map .close)).running = 0 := by
    intro is
    induction is with
    | nil =>
      intro s h1 h2
      have : s.fills = [] := List.eq_nil_iff_forall_not_mem.mpr fun x hx => by
        obtain ⟨i, hi, _⟩ := h2 x hx
        cases hi
      show s.fills.length + s.cancels.length = 0
      rw [this, h1]
      rfl
    | cons j is ih =>
      intro s h1 h2
      show ((s.act (.close j)).acts (is.map .close)).running = 0
      cases hj : (s.inst j).bind s.stream with
      | none =>
        have e : s.act (.close j) = s := by unfold St.act; dsimp only; rw [hj]
        rw [e]
        refine ih s h1 fun x hx => ?_
        obtain ⟨i, hi, d, hd, hs⟩ := h2 x hx
        rcases List.mem_cons.mp hi with rfl | hi
        · rw [hd] at hj
          have hj : s.stream d = none := hj
          rw [hj] at hs
          cases hs
        · exact ⟨i, hi, d, hd, hs⟩
      | some y =>
        have e : s.act (.close j) = { s with fills := s.fills.filter (· != y) } := by unfold St.act; dsimp only; rw [hj]
        rw [e]
        refine ih _ h1 fun x hx => ?_
        have hx := List.mem_filter.mp hx
        obtain ⟨i, hi, d, hd, hs⟩ := h2 x hx.1
        rcases List.mem_cons.mp hi with rfl | hi
        · rw [hd] at hj
          have hj : s.stream d = some y := hj
          rw [hj] at hs
          have : y = x := Option.some.inj hs
          have := hx.2
          simp_all
        · exact ⟨i, hi, d, hd, hs⟩
  rw [leak_append]
  obtain ⟨h1, h2⟩ := C110_own_partial ho hp
  refine main is _ h1 fun x hx => ?_
  obtain ⟨c, hc⟩ := h2 x hx
  exact hh c x hc

/-- The hypotheses are met: an instance, a clone of its configuration, a password asked with the clone, and the clone set. -/
example : ((start fun _ => true).acts ([.new 0 0, .clone 0 1, .passwordWith 1, .setConfig 0 1] ++ [0].map .close)).running = 0 := by
  refine C110_all_partial (fun _ => rfl) (by simp) [0] fun c x h => ?_
  have h : (if c = 1 then some 0 else if c = 0 then some 0 else none) = some x := h
  refine ⟨0, List.mem_cons_self .., 1, rfl, ?_⟩
  show some 0 = some x
  split at h
  · exact h
  · split at h
    · exact h
    · cases h

/-- Before it was closed one goroutine ran. -/
example : ((start fun _ => true).acts [.new 0 0, .clone 0 1, .passwordWith 1, .setConfig 0 1]).fills = [0] := rfl

/-- Three passwords and `Stdin` not set: seven goroutines are left. -/
example : ((start fun _ => false).acts [.new 0 0, .password, .password, .password, .close 0]).running = 7 := rfl

/-- `C110_false_cancel`, `C110_close` and (with `d = 1`) `C110_clone` apply to the instance of a program that has not set `Stdin`. -/
example : 0 ∈ ((start fun _ => false).acts [.new 0 0]).cancels ∧ ((start fun _ => false).acts [.new 0 0]).inst 0 = some 0 ∧
    ((start fun _ => false).acts [.new 0 0]).stream 0 = some 0 ∧ ((start fun _ => false).acts [.new 0 0]).stream 1 = none :=
  ⟨List.mem_cons_self .., rfl, rfl, rfl⟩

end RL
