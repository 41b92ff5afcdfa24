import Verif.Model.Channels
/-! # C58: results reach the callers -/

namespace RL.Chan

/-- What the editing loop is handing over. -/
def OPc.item : OPc → List Item
  | .line n => [.line n]
  | .err n _ => [.err n]
  | _ => []

/-- What waits in `errchan`. -/
def St.waiting (s : St) : List Item := match s.errq with
  | none => []
  | some n => [.err n]

/-- Results returned so far. -/
def St.got (s : St) : List Item := s.out.map (·.2)

structure Inv (s : St) : Prop where
  perm : s.prod.Perm (s.got ++ (s.waiting ++ s.o.item))
  lines : s.prod.filter Item.isLine = s.got.filter Item.isLine ++ s.o.item.filter Item.isLine
  errs : s.prod.filter (!·.isLine) = s.got.filter (!·.isLine) ++ (s.waiting ++ s.o.item.filter (!·.isLine))

theorem Inv.quiet {s t : St} (v : Inv s) (h1 : t.prod = s.prod) (h2 : t.out = s.out) (h3 : t.errq = s.errq)
    (h4 : t.o.item = s.o.item) : Inv t := by
  obtain ⟨a, b, c⟩ := v
  have hg : t.got = s.got := by unfold St.got; rw [h2]
  have hw : t.waiting = s.waiting := by unfold St.waiting; rw [h3]
  exact ⟨by rw [h1, hg, hw, h4]; exact a, by rw [h1, hg, h4]; exact b, by rw [h1, hg, hw, h4]; exact c⟩

theorem waiting_filter (s : St) : s.waiting.filter Item.isLine = [] ∧ s.waiting.filter (!·.isLine) = s.waiting := by
  unfold St.waiting
  cases s.errq <;> simp [Item.isLine]

theorem Inv.produce {s t : St} (v : Inv s) {x : Item} (h0 : s.o.item = []) (h1 : t.prod = s.prod ++ [x]) (h2 : t.out = s.out)
    (h3 : t.errq = s.errq) (h4 : t.o.item = [x]) : Inv t := by
  obtain ⟨a, b, c⟩ := v
  have hg : t.got = s.got := by unfold St.got; rw [h2]
  have hw : t.waiting = s.waiting := by unfold St.waiting; rw [h3]
  rw [h0] at a b c
  refine ⟨?_, ?_, ?_⟩
  · rw [h1, hg, hw, h4]
    simp only [List.append_nil] at a
    rw [← List.append_assoc]
    exact a.append_right _
  · rw [h1, hg, h4, List.filter_append, b]; simp
  · rw [h1, hg, hw, h4, List.filter_append, c]; simp

theorem Step.inv {strict : Bool} {s t : St} (h : Step strict s t) (v : Inv s) : Inv t := by
  cases h with
  | takeLine h1 h2 =>
    obtain ⟨a, b, c⟩ := v
    simp only [h2, OPc.item] at a b c
    refine ⟨?_, ?_, ?_⟩
    · refine a.trans ?_
      simp only [St.got, St.waiting, OPc.item, List.map_append, List.map_cons, List.map_nil, List.append_nil, List.append_assoc]
      exact List.Perm.append_left _ List.perm_append_comm
    · simpa [St.got, OPc.item, Item.isLine] using b
    · simpa [St.got, St.waiting, OPc.item, Item.isLine] using c
  | takeErr h1 h2 =>
    obtain ⟨a, b, c⟩ := v
    simp only [St.waiting, h2] at a c
    refine ⟨?_, ?_, ?_⟩
    · simpa [St.got, St.waiting] using a
    · simpa [St.got, Item.isLine] using b
    · simpa [St.got, St.waiting, Item.isLine] using c
  | submit n h1 => exact v.produce (x := .line n) (by rcases h1 with h | h <;> rw [h] <;> rfl) rfl rfl rfl rfl
  | fail n h1 => exact v.produce (x := .err n) (by rw [h1]; rfl) rfl rfl rfl rfl
  | eof n h1 => exact v.produce (x := .err n) (by rw [h1]; rfl) rfl rfl rfl rfl
  | @putErr n last h1 h2 =>
    obtain ⟨a, b, c⟩ := v
    simp only [h1, OPc.item, St.waiting, h2] at a b c
    have hi : (if last then OPc.done else OPc.rest).item = [] := by cases last <;> rfl
    refine ⟨?_, ?_, ?_⟩
    · simpa [St.got, St.waiting, hi] using a
    · simpa [St.got, hi, Item.isLine] using b
    · simpa [St.got, St.waiting, hi, Item.isLine] using c
  | send h1 h2 => exact v.quiet rfl rfl rfl (by rw [h2]; rfl)
  | ended h1 h2 => exact v.quiet rfl rfl rfl (by rw [h2]; rfl)
  | plain h1 => exact v.quiet rfl rfl rfl (by rw [h1]; rfl)
  | kickRead h1 => exact v.quiet rfl rfl rfl (by rw [h1]; rfl)
  | extraKick h1 => exact v.quiet rfl rfl rfl (by rw [h1]; rfl)
  | again h1 => exact v.quiet rfl rfl rfl (by rw [h1]; rfl)
  | _ => exact v.quiet rfl rfl rfl rfl

theorem Reach.inv {strict : Bool} {s : St} (h : Reach strict s) : Inv s := by
  induction h with
  | init => exact ⟨List.Perm.refl _, rfl, rfl⟩
  | step _ hs ih => exact hs.inv ih

/-- **C58 (exactly once).**  In every schedule of any number of concurrent callers, whatever the editing loop does with the
keys: the results returned, the one waiting in `errchan` and the one being handed over are together exactly those produced; lines
are returned in the order in which they were produced, and so are errors. -/
theorem C58_once {strict : Bool} {s : St} (h : Reach strict s) :
    s.prod.Perm (s.got ++ (s.waiting ++ s.o.item)) ∧
    s.got.filter Item.isLine <+: s.prod.filter Item.isLine ∧
    s.got.filter (!·.isLine) <+: s.prod.filter (!·.isLine) := by
  have v := h.inv
  exact ⟨v.perm, by rw [v.lines]; exact List.prefix_append _ _, by rw [v.errs]; exact List.prefix_append _ _⟩

/-- Runs with at most one `Readline` at a time. -/
inductive Reach1 (strict : Bool) : St → Prop
  | init : Reach1 strict St.init
  | step {s t} : Reach1 strict s → Step strict s t → (∀ i j, t.rl i = true → t.rl j = true → i = j) → Reach1 strict t

@[simp] def TPc.tok : TPc → Nat
  | .idle => 0
  | .reading => 1
  | .sending _ => 1
  | .done => 0

@[simp] def OPc.tok : OPc → Nat
  | .handle true => 1
  | .handle false => 0
  | .line _ => 1
  | .err _ false => 1
  | .err _ true => 0
  | .recv => 0
  | .handleEnd => 0
  | .rest => 0
  | .done => 0

/-- The places where the permission to go on with the next line can be. -/
def tokens (s : St) : Nat := s.kick.toNat + s.t.tok + s.o.tok + s.errq.isSome.toNat

/-- Before the end of the input there is no result and no permission to go on unless a call is pending, and then at most one; a
stop key is handled only with the terminal idle. -/
structure Inv1 (s : St) : Prop where
  order : s.prod = s.got ++ (s.waiting ++ s.o.item)
  alone : s.errq ≠ none → ∀ n, s.o ≠ .line n
  live : s.t ≠ .done → s.o ≠ .handleEnd ∧ (∀ n, s.o ≠ .err n true) ∧ s.o ≠ .done ∧
    tokens s ≤ 1 ∧ (tokens s = 1 → ∃ i, s.rl i = true)
  over : s.t = .done → (∀ n, s.o ≠ .err n false) ∧ s.o ≠ .handle true ∧ (s.errq ≠ none → s.o = .done)
  one : ∀ i j, s.rl i = true → s.rl j = true → i = j

/-- Compute `tokens`. -/
local macro "tk" : tactic => `(tactic| simp only [tokens, TPc.tok, OPc.tok, Option.isSome_none, Option.isSome_some, Bool.toNat_true, Bool.toNat_false] at *)

theorem Step.inv1 {s t : St} (h : Step true s t) (v : Inv1 s) (ht : ∀ i j, t.rl i = true → t.rl j = true → i = j) : Inv1 t := by
  obtain ⟨v1, v2, v3, v4, v5⟩ := v
  obtain ⟨kick, tt, o, errq, rl, out, prod⟩ := s
  simp only [St.got, St.waiting, tokens] at v1 v2 v3 v4 v5
  cases h with
  | readline i h =>
    have hno : ∀ j, rl j = false := by
      intro j
      cases hj : rl j with
      | false => rfl
      | true =>
        have hji : j ≠ i := by rintro rfl; simp [hj] at h
        exact absurd (ht j i (by simp [set, hji, hj]) (by simp [set])) hji
    refine ⟨v1, v2, fun ht' => ?_, v4, ht⟩
    obtain ⟨a, b, c, d, e⟩ := v3 ht'
    have h0 : ¬ (_ = 1) := fun q => by obtain ⟨i, hi⟩ := e q; simp [hno] at hi
    refine ⟨a, b, c, ?_, fun _ => ⟨i, by simp [set]⟩⟩
    simp only [tokens]
    clear v3 v4 v1 v2 e
    cases kick <;> simp at * <;> omega
  | takeLine h1 h2 =>
    dsimp only at h1 h2; subst h2
    have hq : errq = none := by
      cases errq with
      | none => rfl
      | some m => exact absurd rfl (v2 (by simp) _)
    subst hq
    refine ⟨by simpa [St.got, St.waiting, OPc.item] using v1, by simp, fun ht' => ?_, fun ht' => by simp, ht⟩
    obtain ⟨a, b, c, d, e⟩ := v3 ht'
    clear v3
    refine ⟨by simp, by simp, by simp, ?_, ?_⟩ <;> tk <;> omega
  | takeErr h1 h2 =>
    dsimp only at h1 h2; subst h2
    refine ⟨?_, by simp, fun ht' => ?_, fun ht' => ?_, ht⟩
    · simpa [St.got, St.waiting, OPc.item] using v1
    · obtain ⟨a, b, c, d, e⟩ := v3 ht'
      clear v3
      refine ⟨a, b, c, ?_, ?_⟩ <;> tk <;> omega
    · obtain ⟨a, b, c⟩ := v4 ht'
      exact ⟨a, b, by simp⟩
  | kicked h1 h2 =>
    dsimp only at h1 h2; subst h1; subst h2
    refine ⟨v1, v2, fun ht' => ?_, by simp, ht⟩
    obtain ⟨a, b, c, d, e⟩ := v3 (by simp)
    clear v3
    refine ⟨a, b, c, ?_, fun h => e ?_⟩ <;> tk <;> omega
  | key b h1 =>
    dsimp only at h1; subst h1
    exact ⟨v1, v2, fun _ => v3 (by simp), by simp, ht⟩
  | readErr h1 =>
    dsimp only at h1; subst h1
    obtain ⟨a, b, c, d, e⟩ := v3 (by simp)
    refine ⟨v1, v2, by simp, fun _ => ⟨?_, ?_, ?_⟩, ht⟩
    · rintro n h; dsimp only at h; subst h; clear v3; tk; omega
    · intro h; dsimp only at h; subst h; clear v3; tk; omega
    · intro h; clear v3; cases errq
      · exact absurd rfl h
      · tk; omega
  | @send b h1 h2 =>
    dsimp only at h1 h2; subst h1; subst h2
    obtain ⟨a, b', c, d, e⟩ := v3 (by simp)
    refine ⟨v1, by simp, fun _ => ⟨by simp, by simp, by simp, ?_, ?_⟩, fun h => by cases b <;> simp at h, ht⟩
    · clear v3; cases b <;> simp only [if_true, if_false, Bool.false_eq_true] <;> tk <;> omega
    · clear v3; intro h; apply e; cases b <;> simp only [if_true, if_false, Bool.false_eq_true] at h <;> tk <;> omega
  | ended h1 h2 =>
    dsimp only at h1 h2; subst h1; subst h2
    exact ⟨v1, by simp, by simp, fun _ => ⟨by simp, by simp, fun h => by simpa using (v4 rfl).2.2 h⟩, ht⟩
  | plain h1 =>
    dsimp only at h1; subst h1
    refine ⟨v1, by simp, fun h => ⟨by simp, by simp, by simp, ?_⟩, fun h => ⟨by simp, by simp, fun h' => by simpa using (v4 h).2.2 h'⟩, ht⟩
    simpa [tokens] using (v3 h).2.2.2
  | kickRead h1 =>
    dsimp only at h1; subst h1
    refine ⟨v1, by simp, fun h => ⟨by simp, by simp, by simp, ?_⟩, fun h => absurd rfl (v4 h).2.1, ht⟩
    obtain ⟨a, b, c, d, e⟩ := v3 h
    clear v3
    refine ⟨?_, fun h => e ?_⟩ <;> cases kick <;> tk <;> omega
  | extraKick _ h => cases h
  | submit n h1 =>
    dsimp only at h1
    have hq : errq = none := by
      rcases h1 with h1 | h1 <;> subst h1
      · cases errq with
        | none => rfl
        | some m =>
          by_cases htt : tt = .done
          · exact absurd rfl (v4 htt).2.1
          · have := (v3 htt).2.2.2.1; clear v3; tk; omega
      · by_cases htt : tt = .done
        · cases errq with
          | none => rfl
          | some m => simpa using (v4 htt).2.2 (by simp)
        · exact absurd rfl (v3 htt).1
    subst hq
    have hi : o.item = [] := by rcases h1 with h1 | h1 <;> rw [h1] <;> rfl
    refine ⟨?_, by simp, fun h => ⟨by simp, by simp, by simp, ?_⟩, fun h => ⟨by simp, by simp, by simp⟩, ht⟩
    · rw [hi] at v1
      simp only [St.got, St.waiting, OPc.item]
      rw [v1]; simp
    · rcases h1 with h1 | h1 <;> subst h1
      · simpa [tokens] using (v3 h).2.2.2
      · exact absurd rfl (v3 h).1
  | fail n h1 =>
    dsimp only at h1; subst h1
    have hq : errq = none := by
      cases errq with
      | none => rfl
      | some m =>
        by_cases htt : tt = .done
        · exact absurd rfl (v4 htt).2.1
        · have := (v3 htt).2.2.2.1; clear v3; tk; omega
    subst hq
    refine ⟨?_, by simp, fun h => ⟨by simp, by simp, by simp, ?_⟩, fun h => absurd rfl (v4 h).2.1, ht⟩
    · simp only [St.got, St.waiting, OPc.item] at v1 ⊢
      rw [v1]; simp
    · simpa [tokens] using (v3 h).2.2.2
  | eof n h1 =>
    dsimp only at h1; subst h1
    by_cases htt : tt = .done
    · have hq : errq = none := by
        cases errq with
        | none => rfl
        | some m => simpa using (v4 htt).2.2 (by simp)
      subst hq
      refine ⟨?_, by simp, fun h => absurd htt h, fun h => ⟨by simp, by simp, by simp⟩, ht⟩
      simp only [St.got, St.waiting, OPc.item] at v1 ⊢
      rw [v1]; simp
    · exact absurd rfl (v3 htt).1
  | @putErr n last h1 h2 =>
    dsimp only at h1 h2; subst h1; subst h2
    refine ⟨?_, fun _ m => by cases last <;> simp, fun h => ?_, fun h => ?_, ht⟩
    · cases last <;> simpa [St.got, St.waiting, OPc.item] using v1
    · obtain ⟨a, b, c, d, e⟩ := v3 h
      cases last
      · refine ⟨by simp, by simp, by simp, ?_⟩
        clear v3
        refine ⟨?_, fun h => e ?_⟩
        · simp only [Bool.false_eq_true, if_false]; tk; omega
        · simp only [Bool.false_eq_true, if_false] at h; tk; omega
      · exact absurd rfl (b n)
    · cases last
      · exact absurd rfl ((v4 h).1 n)
      · simp
  | again h1 =>
    dsimp only at h1; subst h1
    exact ⟨v1, by simp, fun h => ⟨by simp, by simp, by simp, (v3 h).2.2.2⟩, fun h => ⟨by simp, by simp, fun h' => by simpa using (v4 h).2.2 h'⟩, ht⟩

theorem Reach1.inv {s : St} (h : Reach1 true s) : Inv1 s := by
  induction h with
  | init => exact ⟨rfl, by simp [St.init], by simp [St.init, tokens], by simp [St.init], by simp [St.init]⟩
  | step _ hs h1 ih => exact hs.inv1 ih h1

/-- **C58 (order), the part that holds.**  With one caller at a time and the editing loop's channel discipline (`C40`), results
are returned exactly in the order in which they were produced, none skipped: what was produced is what was returned, followed by
at most one result on its way. -/
theorem C58_order_partial {s : St} (h : Reach1 true s) :
    s.prod = s.got ++ (s.waiting ++ s.o.item) ∧ (s.waiting ++ s.o.item).length ≤ 1 := by
  have v := h.inv
  refine ⟨v.order, ?_⟩
  have v2 := v.alone; have v3 := v.live; have v4 := v.over
  obtain ⟨kick, tt, o, errq, rl, out, prod⟩ := s
  cases errq with
  | none => cases o <;> simp [St.waiting, OPc.item]
  | some m =>
    by_cases htt : tt = .done
    · have := (v4 htt).2.2 (by simp)
      simp only at this; subst this; simp [St.waiting, OPc.item]
    · obtain ⟨a, b, c, d, e⟩ := v3 htt
      cases o with
      | line n => exact absurd rfl (v2 (by simp) n)
      | err n last => cases last with
        | true => exact absurd rfl (b n)
        | false => clear v3; tk; omega
      | _ => simp [St.waiting, OPc.item]

/-- **C58 is false in general.**  A rejected key leaves a kick behind (or two goroutines call `Readline`): after Ctrl-C the terminal
goes on reading, Enter submits a line while the error still waits, and `select` may take the line first. -/
theorem C58_false_order : ∃ s, Reach1 false s ∧ s.prod = [.err 0, .line 1] ∧ s.got = [.line 1, .err 0] := by
  have one : ∀ b : Bool, ∀ f : Nat → Bool, (∀ j, f j = true → j = 0) →
      ∀ i j, set f 0 b i = true → set f 0 b j = true → i = j := by
    intro b f hf i j hi hj
    have aux : ∀ k, set f 0 b k = true → k = 0 := by
      intro k hk
      by_cases h : k = 0
      · exact h
      · simp only [set, h, if_false] at hk; exact hf k hk
    rw [aux i hi, aux j hj]
  have z : ∀ j, (fun _ : Nat => false) j = true → j = 0 := fun j h => by cases h
  have z1 : ∀ b, ∀ f : Nat → Bool, (∀ j, f j = true → j = 0) → ∀ j, set f 0 b j = true → j = 0 := by
    intro b f hf k hk
    by_cases h : k = 0
    · exact h
    · simp only [set, h, if_false] at hk; exact hf k hk
  have h := Reach1.init (strict := false)
  have h := h.step (.readline 0 rfl) (one _ _ z)
  have h := h.step (.kicked rfl rfl) (one _ _ z)
  have h := h.step (.key false rfl) (one _ _ z)
  have h := h.step (.send rfl rfl) (one _ _ z)
  have h := h.step (.extraKick rfl rfl) (one _ _ z)
  have h := h.step (.key true rfl) (one _ _ z)
  have h := h.step (.send rfl rfl) (one _ _ z)
  have h := h.step (.fail 0 rfl) (one _ _ z)
  have h := h.step (.putErr rfl rfl) (one _ _ z)
  have h := h.step (.again rfl) (one _ _ z)
  have h := h.step (.kicked rfl rfl) (one _ _ z)
  have h := h.step (.key true rfl) (one _ _ z)
  have h := h.step (.send rfl rfl) (one _ _ z)
  have h := h.step (.submit 1 (.inl rfl)) (one _ _ z)
  have h := h.step (.takeLine (i := 0) rfl rfl) (one _ _ (z1 _ _ z))
  have h := h.step (.readline 0 rfl) (one _ _ (z1 _ _ (z1 _ _ z)))
  have h := h.step (.takeErr (i := 0) rfl rfl) (one _ _ (z1 _ _ (z1 _ _ (z1 _ _ z))))
  exact ⟨_, h, rfl, rfl⟩

/-- **C58 is false in general (two callers).**  Even with the channel discipline, a second `Readline` while one is pending leaves
the kick that lets the terminal read on. -/
theorem C58_false_callers : ∃ s, Reach true s ∧ s.prod = [.err 0, .line 1] ∧ s.out = [(0, .line 1), (1, .err 0)] := by
  have h := Reach.init (strict := true)
  have h := h.step (.readline 0 rfl)
  have h := h.step (.kicked rfl rfl)
  have h := h.step (.readline 1 rfl)
  have h := h.step (.key true rfl)
  have h := h.step (.send rfl rfl)
  have h := h.step (.fail 0 rfl)
  have h := h.step (.putErr rfl rfl)
  have h := h.step (.again rfl)
  have h := h.step (.kicked rfl rfl)
  have h := h.step (.key true rfl)
  have h := h.step (.send rfl rfl)
  have h := h.step (.submit 1 (.inl rfl))
  have h := h.step (.takeLine (i := 0) rfl rfl)
  have h := h.step (.takeErr (i := 1) rfl rfl)
  exact ⟨_, h, rfl, rfl⟩

/-- Non-trivial case for `C58_order_partial`: a line and an error are returned in order. -/
example : ∃ s, Reach1 true s ∧ s.got = [.line 0, .err 1] := by
  have one : ∀ b : Bool, ∀ f : Nat → Bool, (∀ j, f j = true → j = 0) →
      ∀ i j, set f 0 b i = true → set f 0 b j = true → i = j := by
    intro b f hf i j hi hj
    have aux : ∀ k, set f 0 b k = true → k = 0 := by
      intro k hk
      by_cases h : k = 0
      · exact h
      · simp only [set, h, if_false] at hk; exact hf k hk
    rw [aux i hi, aux j hj]
  have z : ∀ j, (fun _ : Nat => false) j = true → j = 0 := fun j h => by cases h
  have z1 : ∀ b, ∀ f : Nat → Bool, (∀ j, f j = true → j = 0) → ∀ j, set f 0 b j = true → j = 0 := by
    intro b f hf k hk
    by_cases h : k = 0
    · exact h
    · simp only [set, h, if_false] at hk; exact hf k hk
  have h := Reach1.init (strict := true)
  have h := h.step (.readline 0 rfl) (one _ _ z)
  have h := h.step (.kicked rfl rfl) (one _ _ z)
  have h := h.step (.key true rfl) (one _ _ z)
  have h := h.step (.send rfl rfl) (one _ _ z)
  have h := h.step (.submit 0 (.inl rfl)) (one _ _ z)
  have h := h.step (.takeLine (i := 0) rfl rfl) (one _ _ (z1 _ _ z))
  have h := h.step (.readline 0 rfl) (one _ _ (z1 _ _ (z1 _ _ z)))
  have h := h.step (.kicked rfl rfl) (one _ _ (z1 _ _ (z1 _ _ z)))
  have h := h.step (.readErr rfl) (one _ _ (z1 _ _ (z1 _ _ z)))
  have h := h.step (.again rfl) (one _ _ (z1 _ _ (z1 _ _ z)))
  have h := h.step (.ended rfl rfl) (one _ _ (z1 _ _ (z1 _ _ z)))
  have h := h.step (.eof 1 rfl) (one _ _ (z1 _ _ (z1 _ _ z)))
  have h := h.step (.putErr rfl rfl) (one _ _ (z1 _ _ (z1 _ _ z)))
  have h := h.step (.takeErr (i := 0) rfl rfl) (one _ _ (z1 _ _ (z1 _ _ (z1 _ _ z))))
  exact ⟨_, h, rfl⟩

end RL.Chan
