import Verif.Model.Resume
import Verif.Spec.Resume
/-! # C105: coming back from Ctrl-Z -/

namespace RL
open Resume Spec.Resume

/-- **C105** (woken).  The process is stopped for more than 100 ms: at the first tick after it was continued the loop has ended. -/
theorem C105_woken {d : Nat} {stops : List (Nat × Nat)} {a b : Nat} (hs : (a, b) ∈ stops) (hl : 100 < b - a) {ts : List Nat} :
    ∀ {t : Nat}, Ticks d stops t ts → t ≤ a → ∀ n ∈ ts, b ≤ n → ∃ u, loop t ts = some u ∧ u ≤ n := by
  have mono : ∀ {ts : List Nat} {t : Nat}, Ticks d stops t ts → ∀ n ∈ ts, t ≤ n := by
    intro ts
    induction ts with
    | nil => intro t _ n hn; cases hn
    | cons m ts ih =>
      intro t h n hn
      rcases List.mem_cons.mp hn with rfl | hn
      · exact h.1.1
      · exact Nat.le_trans h.1.1 (ih h.2 n hn)
  induction ts with
  | nil => intro t _ _ n hn; cases hn
  | cons m ts ih =>
    intro t h ht n hn hb
    have hmn : m ≤ n := by
      rcases List.mem_cons.mp hn with rfl | hn
      · exact Nat.le_refl _
      · exact mono h.2 n hn
    unfold loop
    split
    · exact ⟨m, rfl, hmn⟩
    · next hg =>
      rcases h.1.2.1 (a, b) hs with hm | hm
      · have hm : m ≤ a := hm
        rcases List.mem_cons.mp hn with rfl | hn
        · omega
        · exact ih h.2 hm n hn hb
      · have hm : b ≤ m := hm
        omega

/-- **C105** (not before).  If the loop ends, the process was stopped for at least 100 ms less its lag, and has been continued, at most the lag ago. -/
theorem C105_stopped_partial {d : Nat} (hd : d ≤ 100) {stops : List (Nat × Nat)} {ts : List Nat} : ∀ {t u : Nat}, Ticks d stops t ts → loop t ts = some u →
    ∃ s ∈ stops, t ≤ s.1 ∧ 100 < (s.2 - s.1) + d ∧ s.2 ≤ u ∧ u ≤ s.2 + d := by
  induction ts with
  | nil => intro t u _ h; cases h
  | cons m ts ih =>
    intro t u h e
    unfold loop at e
    split at e
    · next hg =>
      cases e
      rcases h.1.2.2 with h1 | ⟨s, h1, h2, h3, h4, h5⟩
      · omega
      · exact ⟨s, h1, h2, by omega, h4, by omega⟩
    · obtain ⟨s, h1, h2, h3, h4⟩ := ih h.2 e
      exact ⟨s, h1, Nat.le_trans h.1.1 h2, h3, h4⟩

/-- **C105 is false for short stops and without a stop.**  If no stop, with the lag, takes more than 100 ms, and in particular if there is none (SIGTSTP
is ignored, or has no effect in an orphaned process group; on Windows `SuspendMe` is empty, utils_windows.go:10-11), the loop never ends: Ctrl-Z hangs for ever, however long the process runs on. -/
theorem C105_false_hang {d : Nat} (hd : d ≤ 100) {stops : List (Nat × Nat)} (hs : ∀ s ∈ stops, (s.2 - s.1) + d ≤ 100) {t : Nat} {ts : List Nat}
    (h : Ticks d stops t ts) : loop t ts = none := by
  cases e : loop t ts with
  | none => rfl
  | some u =>
    obtain ⟨s, h1, _, h3, _⟩ := C105_stopped_partial hd h e
    have := hs s h1
    omega

/-- A schedule without a stop: a tick every 10 ms, any number of them. -/
theorem C105_idle (n : Nat) : ∀ t : Nat, Ticks 10 [] t ((List.range' (t + 10) n 10)) := by
  induction n with
  | zero => intro t; trivial
  | succ n ih => intro t; exact ⟨⟨by omega, by simp [Awake], .inl (Nat.le_refl _)⟩, ih (t + 10)⟩

/-- So a process that is not stopped waits for ever. -/
theorem C105_false_ignored (t n : Nat) : loop t (List.range' (t + 10) n 10) = none :=
  C105_false_hang (d := 10) (by decide) (stops := []) (by simp) (C105_idle n t)

/-- A process that is stopped and continued 80 ms later waits for ever as well. -/
theorem C105_false_quick (n : Nat) : loop 0 ([10, 20] ++ List.range' 110 n 10) = none := by
  refine C105_false_hang (d := 20) (by decide) (stops := [(25, 105)]) (by decide) ?_
  refine ⟨⟨by decide, by simp [Awake], .inl (by decide)⟩, ⟨by decide, by simp [Awake], .inl (by decide)⟩, ?_⟩
  cases n with
  | zero => trivial
  | succ n =>
    refine ⟨⟨by decide, by simp [Awake], .inr ⟨(25, 105), by simp, by decide, by decide, by decide, by decide⟩⟩, ?_⟩
    have go : ∀ (n t : Nat), 105 ≤ t → Ticks 20 [(25, 105)] t (List.range' (t + 10) n 10) := by
      intro n
      induction n with
      | zero => intro t _; trivial
      | succ n ih => intro t ht; exact ⟨⟨by omega, by intro s hs; cases List.mem_singleton.mp hs; exact .inr (by show 105 ≤ t + 10; omega), .inl (by omega)⟩, ih (t + 10) (by omega)⟩
    exact go n 110 (by decide)

/-- **C105 is false on a busy machine.**  With a lag of 101 ms the loop ends although the process was never stopped: raw mode is switched on again before
the process stops, and the shell gets a terminal in raw mode. -/
theorem C105_false_busy : Ticks 101 [] 0 [101] ∧ loop 0 [101] = some 101 := by
  refine ⟨⟨⟨by decide, by simp [Awake], .inl (by decide)⟩, trivial⟩, by decide⟩

/-! ### Non-trivial case -/

/-- Stopped from 25 to 5000. -/
example : Ticks 20 [(25, 5000)] 0 [10, 20, 5003, 5010] ∧ loop 0 [10, 20, 5003, 5010] = some 5003 := by
  refine ⟨?_, by decide⟩
  refine ⟨⟨by decide, by simp [Awake], .inl (by decide)⟩, ⟨by decide, by simp [Awake], .inl (by decide)⟩,
    ⟨by decide, by simp [Awake], .inr ⟨(25, 5000), by simp, by decide, by decide, by decide, by decide⟩⟩, ⟨by decide, by simp [Awake], .inl (by decide)⟩, trivial⟩

end RL
