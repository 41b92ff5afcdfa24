import Verif.Props.Console
/-! # C70: colour sequences that cannot be read -/

namespace RL.Win
open Spec Spec.Console

/-- A rune that neither ends a control sequence nor separates its arguments. -/
def Inner (r : Rune) : Prop := ¬ (65 ≤ r ∧ r ≤ 68) ∧ r ≠ 74 ∧ r ≠ 75 ∧ r ≠ 109 ∧ r ≠ 7 ∧ r ≠ 59

theorem step_inner {k : Console} {arg : List (List Rune)} {c : Rune} (h : Inner c) :
    Abs.step ⟨false, true, arg, k⟩ c = some ⟨false, true, St.addRune c arg, k⟩ := by
  obtain ⟨h1, h2, h3, h4, h5, h6⟩ := h
  unfold Abs.step St.escSeq
  rw [if_pos rfl, if_neg (fun h => h4 h.1), if_neg h1, if_neg h2, if_neg h3, if_neg h4, if_neg h5, if_neg h6]

theorem addRune_last (d : Rune) (arg : List (List Rune)) (l : List Rune) : St.addRune d (arg ++ [l]) = arg ++ [l ++ [d]] := by
  induction arg with
  | nil => rfl
  | cons a arg ih =>
    cases arg with
    | nil => simp [St.addRune]
    | cons b arg => simp only [List.cons_append] at ih ⊢; simp only [St.addRune, ih]

theorem steps_item {k : Console} {ds : List Rune} (h : ∀ c ∈ ds, Inner c) : ∀ (arg : List (List Rune)) (l : List Rune),
    Abs.steps ⟨false, true, arg ++ [l], k⟩ ds = some ⟨false, true, arg ++ [l ++ ds], k⟩ := by
  induction ds with
  | nil => intro arg l; simp [Abs.steps]
  | cons d ds ih =>
    intro arg l
    rw [Abs.steps, step_inner (h d (List.mem_cons_self ..)), addRune_last, Option.bind_some, ih (fun c hc => h c (List.mem_cons_of_mem _ hc))]
    simp

/-- Arguments with a separator before each. -/
def sepArgs : List (List Rune) → List Rune
  | [] => []
  | a :: as => 59 :: (a ++ sepArgs as)

theorem steps_sep {k : Console} : ∀ (as done : List (List Rune)), (∀ a ∈ as, a ≠ [] ∧ ∀ c ∈ a, Inner c) → done ≠ [] → (∀ a ∈ done, a ≠ []) →
    Abs.steps ⟨false, true, done, k⟩ (sepArgs as) = some ⟨false, true, done ++ as, k⟩ := by
  intro as
  induction as with
  | nil => intro done _ _ _; simp [sepArgs, Abs.steps]
  | cons a as ih =>
    intro done h hd hn
    have h1 : Abs.step ⟨false, true, done, k⟩ 59 = some ⟨false, true, done ++ [[]], k⟩ := by
      unfold Abs.step St.escSeq
      rw [if_pos rfl, if_neg (fun h => absurd h.1 (by omega)), if_neg (by omega), if_neg (by omega), if_neg (by omega), if_neg (by omega), if_neg (by omega), if_pos rfl,
        if_pos (.inr (fun e => hn [] (List.mem_of_getLast? e) rfl))]
    rw [sepArgs, Abs.steps, h1, Option.bind_some, Abs.steps_append, steps_item (h a (List.mem_cons_self ..)).2, Option.bind_some, List.nil_append,
      ih _ (fun x hx => h x (List.mem_cons_of_mem _ hx)) (by simp) (fun x hx => ?_)]
    · simp
    · rcases List.mem_append.1 hx with hx | hx
      · exact hn x hx
      · rw [List.mem_singleton.1 hx]; exact (h a (List.mem_cons_self ..)).1

theorem steps_args {k : Console} {a : List Rune} {as : List (List Rune)} (h : ∀ x ∈ a :: as, x ≠ [] ∧ ∀ c ∈ x, Inner c) :
    Abs.steps ⟨false, true, [], k⟩ (a ++ sepArgs as) = some ⟨false, true, a :: as, k⟩ := by
  obtain ⟨ha, hc⟩ := h a (List.mem_cons_self ..)
  cases a with
  | nil => exact absurd rfl ha
  | cons d ds =>
    rw [Abs.steps_append, Abs.steps, step_inner (hc d (List.mem_cons_self ..)), Option.bind_some]
    rw [show St.addRune d [] = [] ++ [[d]] from rfl, steps_item (fun c hx => hc c (List.mem_cons_of_mem _ hx)), Option.bind_some]
    exact steps_sep as [d :: ds] (fun x hx => h x (List.mem_cons_of_mem _ hx)) (by simp) (by simp)

/-- Text between separators, one by one. -/
theorem join_sep (a : List Rune) (as : List (List Rune)) : St.join (a :: as) = a ++ sepArgs as := by
  induction as generalizing a with
  | nil => simp [St.join, sepArgs]
  | cons b bs ih => rw [St.join, ih]; simp [sepArgs]; simp

theorem intercalate_sep (a : List Rune) (as : List (List Rune)) : [59].intercalate (a :: as) = a ++ sepArgs as := by
  induction as generalizing a with
  | nil => simp [sepArgs]
  | cons b bs ih =>
    rw [show [59].intercalate (a :: b :: bs) = a ++ ([59] ++ [59].intercalate (b :: bs)) from by simp [List.intercalate, List.intersperse], ih]
    simp [sepArgs]

theorem puts_abs : ∀ (rs : List Rune) (s : St), (s.puts rs).abs = { s.abs with k := s.abs.k.write rs } ∧ (s.puts rs).c.isEsc = s.c.isEsc := by
  intro rs
  induction rs with
  | nil => intro s; exact ⟨rfl, rfl⟩
  | cons r rs ih =>
    intro s
    obtain ⟨h1, _, h3, _⟩ := put_abs s r
    obtain ⟨g1, g2⟩ := ih (s.put r)
    exact ⟨by show ((s.put r).puts rs).abs = _; rw [g1, h1]; rfl, g2.trans h3⟩

/-- **C70** (a colour sequence that cannot be read).  A call of `Write` with `ESC[`, arguments separated by `;` of which one is not a number, and
`m`, shows everything but the ESC as text. -/
theorem C70_malformed {s : St} (h : Idle s) {args : List (List Rune)} (hs : ∀ x ∈ args, x ≠ [] ∧ ∀ c ∈ x, Inner c ∧ Scalar c)
    (hbad : St.colour 0 args = .ok none) :
    ∃ s', s.write (encode ([27, 91] ++ [59].intercalate args ++ [109])) = .ok ((encode ([27, 91] ++ [59].intercalate args ++ [109])).length, s') ∧
      s'.k = s.k.write ([91] ++ [59].intercalate args ++ [109]) ∧ Idle s' := by
  cases args with
  | nil => cases hbad
  | cons a as =>
  have hsep : ∀ as : List (List Rune), (∀ x ∈ as, x ≠ [] ∧ ∀ c ∈ x, Inner c ∧ Scalar c) → ∀ c ∈ sepArgs as, Scalar c := by
    intro as
    induction as with
    | nil => intro _ c hc; cases hc
    | cons b bs ih =>
      intro h c hc
      rw [sepArgs] at hc
      rcases List.mem_cons.1 hc with rfl | hc
      · unfold Scalar; omega
      · rcases List.mem_append.1 hc with hc | hc
        · exact ((h b (List.mem_cons_self ..)).2 c hc).2
        · exact ih (fun x hx => h x (List.mem_cons_of_mem _ hx)) c hc
  have hdec : decode (encode ([27, 91] ++ [59].intercalate (a :: as) ++ [109])) = 27 :: 91 :: (a ++ sepArgs as ++ [109]) := by
    rw [decode_encode, map_scalarize_id, intercalate_sep]
    · simp
    · rw [intercalate_sep]
      intro c hc
      have low : ∀ c : Rune, 0 ≤ c → c < 128 → Scalar c := fun c h1 h2 => by unfold Scalar; omega
      simp only [List.mem_append, List.mem_cons, List.not_mem_nil, or_false] at hc
      rcases hc with ((rfl | rfl) | hc | hc) | rfl
      · exact low _ (by omega) (by omega)
      · exact low _ (by omega) (by omega)
      · exact ((hs a (List.mem_cons_self ..)).2 c hc).2
      · exact hsep as (fun x hx => hs x (List.mem_cons_of_mem _ hx)) c hc
      · exact low _ (by omega) (by omega)
  have habs : s.abs = ⟨false, false, s.c.arg, s.k⟩ := by
    simp [St.abs, h.esc, h.seq, h.pend, Console.write]
  have hst : s.abs.steps (27 :: 91 :: (a ++ sepArgs as)) = some ⟨false, true, a :: as, s.k⟩ := by
    rw [habs]
    have h27 : Abs.step ⟨false, false, s.c.arg, s.k⟩ 27 = some ⟨true, false, s.c.arg, s.k⟩ := rfl
    have h91 : Abs.step ⟨true, false, s.c.arg, s.k⟩ 91 = some ⟨false, true, [], s.k⟩ := rfl
    rw [Abs.steps, h27, Option.bind_some, Abs.steps, h91, Option.bind_some]
    exact steps_args (fun x hx => ⟨(hs x hx).1, fun c hc => ((hs x hx).2 c hc).1⟩)
  obtain ⟨s1, e1, i1, a1⟩ := processAll_abs ⟨fun hn => absurd h.pend hn, fun _ => h.pend⟩ hst
  have hesc : s1.c.isEsc = false := congrArg Abs.esc a1
  have hseq : s1.c.isEscSeq = true := congrArg Abs.seq a1
  have harg : s1.c.arg = a :: as := congrArg Abs.arg a1
  have hpend : s1.c.pend = [] := i1.seq (.inr hseq)
  have hk : s1.k = s.k := by
    have := congrArg Abs.k a1
    simpa [St.abs, hpend, Console.write] using this
  have hall : ∀ (l : List Rune) (s s1 : St), s.processAll l = .ok s1 → ∀ r, s.processAll (l ++ [r]) = s1.process r := by
    intro l
    induction l with
    | nil =>
      intro s s1 e r
      cases e
      simp only [List.nil_append, St.processAll]
      cases s.process r <;> rfl
    | cons x l ih =>
      intro s s1 e r
      rw [List.cons_append, St.processAll]
      rw [St.processAll] at e
      obtain ⟨s2, e2, e⟩ := R.bind_inv e
      rw [e2, R.bind_ok]
      exact ih s2 s1 e r
  have hlast : s1.process 109 = .ok { c := { (s1.puts ([91] ++ St.join (a :: as) ++ [109])).c with arg := [], isEscSeq := false }, k := (s1.puts ([91] ++ St.join (a :: as) ++ [109])).k } := by
    unfold St.process
    dsimp only
    rw [if_neg (show ¬ (s1.c.wantFlush = true ∧ ((109 : Rune) = 0 ∨ (109 : Rune) = 27)) by simp), if_pos hseq]
    unfold St.escSeq
    rw [if_neg (by omega), if_neg (by omega), if_neg (by omega), if_pos rfl, harg, hbad]
    rfl
  obtain ⟨p1, p2⟩ := puts_abs ([91] ++ St.join (a :: as) ++ [109]) s1
  refine ⟨St.flush { c := { (s1.puts ([91] ++ St.join (a :: as) ++ [109])).c with arg := [], isEscSeq := false }, k := (s1.puts ([91] ++ St.join (a :: as) ++ [109])).k },
    ?_, ?_, ?_, rfl, rfl⟩
  · unfold St.write
    rw [hdec, show 27 :: 91 :: (a ++ sepArgs as ++ [109]) = 27 :: 91 :: (a ++ sepArgs as) ++ [109] by simp, hall _ _ _ e1, hlast, R.bind_ok]
  · have := congrArg Abs.k p1
    show (s1.puts _).k.write (s1.puts _).c.pend = _
    rw [show (s1.puts ([91] ++ St.join (a :: as) ++ [109])).k.write (s1.puts ([91] ++ St.join (a :: as) ++ [109])).c.pend =
      s1.abs.k.write ([91] ++ St.join (a :: as) ++ [109]) from this, a1, join_sep, intercalate_sep]
  · show (s1.puts _).c.isEsc = false
    rw [p2, hesc]

example : ∃ s' n, (fresh 80 25).write (encode (str "\x1b[31;red;1m")) = .ok (n, s') ∧ s'.k = (fresh 80 25).k.write (str "[31;red;1m") := by
  obtain ⟨s', h1, h2, _⟩ := C70_malformed (s := fresh 80 25) ⟨rfl, rfl, rfl⟩ (args := [str "31", str "red", str "1"])
    (by unfold Inner Scalar; decide) rfl
  exact ⟨s', _, h1, h2⟩

end RL.Win
