import Verif.Model.Title
import Verif.Props.Console
/-! # C73: the title of the window

`SetTitle` should change the title and leave the screen as it is.  It writes `ESC [ 2 ; title BEL`, a control sequence without an end; the sequence for
titles begins with `ESC ]`. -/

namespace RL
open Spec Spec.Console Term Win

/-- **C73, the part that holds** (Windows console).  A title without the letters A, B, C, D, J, K, m leaves the console as it was, ready for what follows, however the
bytes are cut. -/
theorem C73_windows_partial {s : St} (h : Idle s) {t : List Rune} (ht : ∀ c ∈ t, Scalar c ∧ c ≠ 7 ∧ c ∉ [65, 66, 67, 68, 74, 75, 109])
    {css : List (List Rune)} (hc : css.flatten = setTitle t) : ∃ s', s.writes (css.map encode) = .ok s' ∧ s'.k = s.k ∧ Idle s' := by
  have hgo : ∀ (t : List Rune) (arg : List (List Rune)) (k : Console), (∀ c ∈ t, Scalar c ∧ c ≠ 7 ∧ c ∉ [65, 66, 67, 68, 74, 75, 109]) →
      Abs.steps ⟨false, true, arg, k⟩ (t ++ [7]) = some ⟨false, false, [], k⟩ := by
    intro t
    induction t with
    | nil =>
      intro arg k _
      show (Abs.step ⟨false, true, arg, k⟩ 7).bind _ = _
      have : Abs.step ⟨false, true, arg, k⟩ 7 = some ⟨false, false, [], k⟩ := by
        simp [Abs.step, St.escSeq]
      rw [this]; rfl
    | cons c t ih =>
      intro arg k ht
      obtain ⟨_, h7, hm⟩ := ht c (List.mem_cons_self ..)
      simp only [List.mem_cons, List.not_mem_nil, or_false, not_or] at hm
      have hstep : ∃ arg', Abs.step ⟨false, true, arg, k⟩ c = some ⟨false, true, arg', k⟩ := by
        have h1 : ¬ (65 ≤ c ∧ c ≤ 68) := by omega
        by_cases h59 : c = 59
        · by_cases ha : arg = [] ∨ arg.getLast? ≠ some []
          · exact ⟨arg ++ [[]], by simp [Abs.step, St.escSeq, h59, ha]⟩
          · exact ⟨arg, by simp [Abs.step, St.escSeq, h59, ha]⟩
        · exact ⟨St.addRune c arg, by simp [Abs.step, St.escSeq, h1, hm, h7, h59]⟩
      obtain ⟨arg', e⟩ := hstep
      rw [List.cons_append, Abs.steps, e]
      exact ih arg' k (fun c hc => ht c (List.mem_cons_of_mem _ hc))
  have hs : ∀ c ∈ css.flatten, Scalar c := by
    intro c hcm
    rw [hc] at hcm
    simp only [setTitle, List.mem_append, List.mem_cons, List.not_mem_nil, or_false] at hcm
    rcases hcm with ((rfl | rfl | rfl | rfl) | hcm) | rfl
    · unfold Scalar; omega
    · unfold Scalar; omega
    · unfold Scalar; omega
    · unfold Scalar; omega
    · exact (ht c hcm).1
    · unfold Scalar; omega
  have hdec : ((css.map encode).map decode).flatten = css.flatten := by
    rw [List.map_map]
    congr 1
    refine (List.map_congr_left fun cs hcs => ?_).trans (List.map_id _)
    exact (C60_roundtrip cs).2 fun r hr => hs r (List.mem_flatten.mpr ⟨cs, hcs, hr⟩)
  have hinv : Inv s := ⟨fun hp => absurd h.pend hp, fun _ => h.pend⟩
  have habs : s.abs = ⟨false, false, s.c.arg, s.k⟩ := by
    unfold St.abs; rw [h.esc, h.seq, h.pend]; rfl
  have hst : s.abs.steps ((css.map encode).map decode).flatten = some ⟨false, false, [], s.k⟩ := by
    rw [hdec, hc, habs, setTitle, List.append_assoc]
    show Abs.steps _ (27 :: 91 :: (50 :: 59 :: (t ++ [7]))) = _
    rw [step_open, Abs.steps, step_digit (by omega), Option.bind_some, Abs.steps]
    have : Abs.step ⟨false, true, St.addRune 50 [], s.k⟩ 59 = some ⟨false, true, [[50], []], s.k⟩ := by
      simp [Abs.step, St.escSeq, St.addRune]
    rw [this, Option.bind_some]
    exact hgo t _ _ ht
  obtain ⟨s', e1, _, e3, e4⟩ := writes_abs hinv hst (.inr h.pend)
  unfold St.abs at e3
  injection e3 with e5 e6 e7 e8
  rw [e4] at e8
  exact ⟨s', e1, e8, e5, e6, e4⟩

theorem csi_params {t : Term} {ps : List Rune} : ∀ {qs : List Rune}, t.st = .csi ps → (∀ c ∈ qs, 32 ≤ c ∧ c < 64) →
    t.run qs = { t with st := .csi (ps ++ qs) } := by
  intro qs
  induction qs generalizing t ps with
  | nil => intro h _; rw [List.append_nil]; obtain ⟨_, _, _, _, _, st⟩ := t; dsimp only at h; subst h; rfl
  | cons q qs ih =>
    intro h hq
    have : t.feed q = { t with st := .csi (ps ++ [q]) } := by
      unfold Term.feed; rw [h]; exact if_pos (hq q (List.mem_cons_self ..))
    show Term.run (t.feed q) qs = _
    rw [this, ih rfl (fun c hc => hq c (List.mem_cons_of_mem _ hc))]
    simp

/-- **C73, the part that holds** (terminal), which also says what happens otherwise: of a title, everything up to the first letter is swallowed
(that letter ends the sequence), and the rest is printed at the cursor like any text.  So the screen is left as it was only if there is no rest. -/
theorem C73_terminal_partial {t : Term} (h : t.st = .ground) {ps rest : List Rune} {f : Rune} (hp : ∀ c ∈ ps, 32 ≤ c ∧ c < 64)
    (hf : 64 ≤ f ∧ f ≠ 65 ∧ f ≠ 67) : t.run (setTitle (ps ++ f :: rest)) = t.run (rest ++ [7]) ∧
    (rest = [] → t.run (setTitle (ps ++ f :: rest)) = t) := by
  have e : setTitle (ps ++ f :: rest) = [27, 91] ++ (([50, 59] ++ ps) ++ f :: (rest ++ [7])) := by simp [setTitle]
  have h1 : t.run [27, 91] = { t with st := .csi [] } := by
    show (t.feed 27).feed 91 = _
    have : t.feed 27 = { t with st := .esc } := by unfold Term.feed; rw [h]; rfl
    rw [this]; rfl
  have h2 : ∀ c ∈ [50, 59] ++ ps, 32 ≤ c ∧ c < (64 : Int) := by
    intro c hc
    simp only [List.cons_append, List.nil_append, List.mem_cons] at hc
    rcases hc with rfl | rfl | hc
    · omega
    · omega
    · exact hp c hc
  have main : t.run (setTitle (ps ++ f :: rest)) = t.run (rest ++ [7]) := by
    rw [e]
    unfold Term.run at *
    rw [List.foldl_append, h1, List.foldl_append]
    have := csi_params (t := { t with st := .csi [] }) (ps := []) (qs := [50, 59] ++ ps) rfl h2
    unfold Term.run at this
    rw [this, List.foldl_cons]
    congr 1
    obtain ⟨w, cell, row, col, pend, st⟩ := t
    dsimp only at h
    subst h
    have g1 : ¬ (32 ≤ f ∧ f < 64) := by omega
    simp only [Term.feed, if_neg g1, Term.csi, if_neg hf.2.1, if_neg hf.2.2, List.nil_append, List.cons_append]
    rw [if_neg (by simp), if_neg (by simp), if_neg (by simp)]
  refine ⟨main, fun hr => ?_⟩
  rw [main, hr]
  show t.feed 7 = t
  unfold Term.feed
  rw [h]
  rfl

/-- The first cells of the first row, and the cursor. -/
def Spec.Term.look (t : Term) (n : Nat) : List Rune × Nat × Nat := ((List.range n).map (t.cell 0), t.row, t.col)

/-- **C73 is false on a terminal**: the title "hello" puts "ello" on the screen. -/
theorem C73_false_terminal : ((Term.blank 80).run (setTitle (str "hello"))).look 5 = (str "ello ", 0, 4) := by decide

/-- **C73 is false on a terminal for titles that begin with A**: the cursor goes up. -/
theorem C73_false_up : ((Term.blank 80).run (str "a\nb" ++ setTitle (str "A"))).look 2 = (str "a ", 0, 1) := by decide

/-- **C73 is false on Windows**: the title "Kate" erases the line and prints "ate". -/
theorem C73_false_windows : look 8 ((fresh 80 25).writes [bytes "hello", (setTitle (str "Kate")).map Int.toNat]) = some ((8, 0), 7, str "     ate") := by
  decide

-- non-trivial cases
example : Idle (fresh 80 25) := ⟨rfl, rfl, rfl⟩
example : ∀ c ∈ str "notes: 1; 2", Scalar c ∧ c ≠ 7 ∧ c ∉ [65, 66, 67, 68, 74, 75, 109] := by unfold Scalar; decide
example : (Term.blank 80).st = .ground ∧ (∀ c ∈ str "20 ", 32 ≤ c ∧ c < 64) := by decide

end RL
