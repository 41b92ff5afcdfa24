import Verif.Proofs.Keys
import Verif.Spec.Menu
/-! The selection menu (C35). -/

namespace RL
open Spec RB Ed

theorem div_eq_of {j k q : Nat} (h1 : q * k ≤ j) (h2 : j < q * k + k) : j / k = q := by
  apply Nat.div_eq_of_lt_le h1
  rw [Nat.add_mul]; omega

theorem mod_bounds {j k : Nat} (hk : 0 < k) : ∃ q r, j = q * k + r ∧ r < k ∧ j / k = q ∧ j % k = r := by
  refine ⟨j / k, j % k, ?_, Nat.mod_lt _ hk, rfl, rfl⟩
  rw [Nat.mul_comm]; exact (Nat.div_add_mod j k).symm

theorem mod_eq_of {k q r : Nat} (hr : r < k) : (q * k + r) % k = r := by
  rw [Nat.add_comm, Nat.add_mul_mod_self_right, Nat.mod_eq_of_lt hr]

/-- Two positions in the same column differ by full rows. -/
theorem col_le {k q q' r : Nat} (h : q ≤ q') : q * k + r ≤ q' * k + r := by
  have := Nat.mul_le_mul_right k h; omega

theorem tmod_nat (a b : Nat) : ((a : Int).tmod b) = ((a % b : Nat) : Int) := by
  rw [Int.tmod_eq_emod_of_nonneg (by omega)]; rfl

theorem tdiv_nat (a b : Nat) : ((a : Int).tdiv b) = ((a / b : Nat) : Int) := by
  rw [Int.tdiv_eq_ediv_of_nonneg (by omega)]; rfl

namespace Comp
variable {U : UTables} {d : DCfg}

/-- The highlighted candidate is number `i` of `n`, in `k` columns. -/
structure At (c : Comp) (n k i : Nat) : Prop where
  len : c.candidate.length = n
  cols : c.colNum = k
  choise : c.choise = i
  lt : i < n

theorem nextCandidate_fwd {c : Comp} {n k i : Nat} (h : c.At n k i) :
    ∃ j : Nat, c.nextCandidate 1 = .ok { c with choise := (j : Int) } ∧ (i + 1 < n ∧ j = i + 1 ∨ i + 1 = n ∧ j = 0) := by
  have := h.lt
  refine ⟨(i + 1) % n, ?_, ?_⟩
  · unfold nextCandidate modR
    rw [h.len, if_neg (by omega), R.bind_ok, h.choise]
    have : ((i : Int) + 1).tmod n = (((i + 1) % n : Nat) : Int) := tmod_nat (i + 1) n
    rw [this, if_neg (by omega)]
  · by_cases h1 : i + 1 < n
    · rw [Nat.mod_eq_of_lt h1]; exact .inl ⟨h1, rfl⟩
    · have h2 : i + 1 = n := by omega
      rw [h2, Nat.mod_self]; exact .inr ⟨rfl, rfl⟩

theorem nextCandidate_bck {c : Comp} {n k i : Nat} (h : c.At n k i) :
    ∃ j : Nat, c.nextCandidate (-1) = .ok { c with choise := (j : Int) } ∧ (0 < i ∧ j + 1 = i ∨ i = 0 ∧ j + 1 = n) := by
  have := h.lt
  unfold nextCandidate modR
  rw [h.len, if_neg (by omega), R.bind_ok, h.choise]
  by_cases h1 : 0 < i
  · refine ⟨i - 1, ?_, .inl ⟨h1, by omega⟩⟩
    have e : ((i : Int) + -1).tmod n = ((i - 1 : Nat) : Int) := by
      have : (i : Int) + -1 = ((i - 1 : Nat) : Int) := by omega
      rw [this, tmod_nat, Nat.mod_eq_of_lt (by omega)]
    rw [e, if_neg (by omega)]
  · have h0 : i = 0 := by omega
    subst h0
    refine ⟨n - 1, ?_, .inr ⟨rfl, by omega⟩⟩
    have e : (((0 : Nat) : Int) + -1).tmod n = if n = 1 then 0 else -1 := by
      show (-1 : Int).tmod n = _
      rw [Int.neg_tmod]
      by_cases h2 : n = 1
      · subst h2; rfl
      · rw [if_neg h2]
        have := tmod_nat 1 n
        rw [show ((1 : Nat) : Int) = 1 from rfl] at this
        rw [this, Nat.mod_eq_of_lt (by omega)]; rfl
    rw [e]
    by_cases h2 : n = 1
    · subst h2; rfl
    · rw [if_neg h2, if_pos (by decide)]
      congr 2; omega

theorem nextCandidate_row {c : Comp} {n k i : Nat} (h : c.At n k i) (hk : 0 < k) :
    c.nextCandidate (-((i % k : Nat) : Int)) = .ok { c with choise := ((i / k * k : Nat) : Int) } := by
  have := h.lt
  unfold nextCandidate modR
  rw [h.len, if_neg (by omega), R.bind_ok, h.choise]
  obtain ⟨q, r, e1, e2, e3, e4⟩ := mod_bounds (j := i) hk
  have e : (i : Int) + -((i % k : Nat) : Int) = ((i / k * k : Nat) : Int) := by rw [e4, e3]; omega
  rw [e, tmod_nat, Nat.mod_eq_of_lt (by rw [e3]; omega), if_neg (by omega)]

theorem matrixSize_eq {c : Comp} {n k i : Nat} (h : c.At n k i) (hk : 0 < k) :
    ∃ m : Nat, c.matrixSize = .ok (((m * k : Nat)) : Int) ∧ n ≤ m * k ∧ m * k < n + k ∧ 0 < m := by
  have := h.lt
  obtain ⟨q, r, e1, e2, e3, e4⟩ := mod_bounds (j := n) hk
  unfold matrixSize divR modR
  rw [h.len, h.cols, if_neg (by omega), if_neg (by omega), R.bind_ok, R.bind_ok, tdiv_nat, tmod_nat, e3, e4]
  by_cases hr : r = 0
  · refine ⟨q, by simp [hr], by omega, by omega, ?_⟩
    rcases Nat.eq_zero_or_pos q with h0 | h0
    · subst h0; omega
    · exact h0
  · refine ⟨q + 1, ?_, ?_, ?_, by omega⟩
    · rw [if_pos (by omega)]; simp
    · rw [Nat.add_mul]; omega
    · rw [Nat.add_mul]; omega

/-- A navigation key moves the highlight as documented and changes nothing else. -/
theorem selectKey_nav {c : Comp} {r : RB} {n k i : Nat} (h : c.At n k i) (hm : ∀ x, c.candidate ≠ [x]) (hk : 0 < k) {key : Rune}
    (hn : NavKey key) : ∃ j : Nat, Nav n k key i j ∧ j < n ∧
      (c.selectKey U d key r = .ok (true, { c with choise := (j : Int) }, r) ∨
        c.selectKey U d key r = (Comp.completeRefresh U { c with choise := (j : Int) } r >>= fun x => .ok (true, x.1, x.2))) := by
  have hin := h.lt
  obtain ⟨q, m, e1, e2, e3, e4⟩ := mod_bounds (j := i) hk
  rcases hn with rfl | rfl | rfl | rfl | rfl | rfl | rfl
  · -- Ctrl-F
    obtain ⟨j, h1, h2⟩ := nextCandidate_fwd h
    refine ⟨j, .inl ⟨.inl rfl, h2⟩, by omega, .inr ?_⟩
    show (c.doSelect U d r >>= fun x => .ok (true, x.1, x.2)) = _
    have : c.doSelect U d r = (c.nextCandidate 1 >>= fun c => c.completeRefresh U r) := by
      unfold doSelect
      split
      · next x hx => exact (hm x hx).elim
      · rfl
    rw [this, h1, R.bind_ok]
  · -- Tab
    obtain ⟨j, h1, h2⟩ := nextCandidate_fwd h
    refine ⟨j, .inl ⟨.inr rfl, h2⟩, by omega, .inr ?_⟩
    show (c.doSelect U d r >>= fun x => .ok (true, x.1, x.2)) = _
    have : c.doSelect U d r = (c.nextCandidate 1 >>= fun c => c.completeRefresh U r) := by
      unfold doSelect
      split
      · next x hx => exact (hm x hx).elim
      · rfl
    rw [this, h1, R.bind_ok]
  · -- Ctrl-B
    obtain ⟨j, h1, h2⟩ := nextCandidate_bck h
    refine ⟨j, .inr (.inl ⟨rfl, h2⟩), by omega, .inl ?_⟩
    show (c.nextCandidate (-1) >>= fun c => .ok (true, c, r)) = _
    rw [h1, R.bind_ok]
  · -- Ctrl-A
    refine ⟨i / k * k, .inr (.inr (.inl ⟨rfl, ?_, ?_⟩)), ?_, .inl ?_⟩
    · rw [Nat.mul_div_cancel _ hk]
    · rw [Nat.mul_mod_left]
    · rw [e3]; omega
    · show (modR c.choise c.colNum >>= fun num => c.nextCandidate (-num) >>= fun c => .ok (true, c, r)) = _
      unfold modR
      rw [h.cols, if_neg (by omega), R.bind_ok, h.choise, tmod_nat, nextCandidate_row h hk, R.bind_ok, h.cols]
  · -- Ctrl-E
    have hs : c.selectKey U d 5 r = .ok (true, { c with choise := if (i : Int) + (k - ((i % k : Nat) : Int) - 1) ≥ n then (n : Int) - 1
        else (i : Int) + (k - ((i % k : Nat) : Int) - 1) }, r) := by
      show (modR c.choise c.colNum >>= fun m => .ok (true, { c with choise := if c.choise + (c.colNum - m - 1) ≥ c.candidate.length then c.candidate.length - 1 else c.choise + (c.colNum - m - 1) }, r)) = _
      unfold modR
      rw [h.cols, if_neg (by omega), R.bind_ok, h.choise, h.len, tmod_nat]
    rw [e4] at hs
    have hrow : ∀ j', j' / k = i / k → j' < q * k + k := by
      intro j' hj
      obtain ⟨q', m', f1, f2, f3, f4⟩ := mod_bounds (j := j') hk
      rw [f3, e3] at hj
      subst hj; omega
    by_cases hb : n ≤ q * k + (k - 1)
    · refine ⟨n - 1, .inr (.inr (.inr (.inl ⟨rfl, ?_, by omega, fun j' a _ => by omega⟩))), by omega, .inl ?_⟩
      · rw [e3]; exact div_eq_of (by omega) (by omega)
      · rw [hs, if_pos (by omega)]
        congr 4; omega
    · refine ⟨q * k + (k - 1), .inr (.inr (.inr (.inl ⟨rfl, ?_, by omega, fun j' _ b => ?_⟩))), by omega, .inl ?_⟩
      · rw [e3]; exact div_eq_of (by omega) (by omega)
      · have := hrow j' b; omega
      · rw [hs, if_neg (by omega)]
        congr 4; omega
  · -- Ctrl-N
    obtain ⟨M, h1, h2, h3, h4⟩ := matrixSize_eq h hk
    have hs : c.selectKey U d 14 r = .ok (true, { c with choise := if (i : Int) + k ≥ ((M * k : Nat) : Int) then (i : Int) + k - ((M * k : Nat) : Int)
        else if (i : Int) + k ≥ n then (i : Int) + k + k - ((M * k : Nat) : Int) else (i : Int) + k }, r) := by
      show (c.matrixSize >>= fun ms => .ok (true, { c with choise := if c.choise + c.colNum ≥ ms then c.choise + c.colNum - ms
        else if c.choise + c.colNum ≥ c.candidate.length then c.choise + c.colNum + c.colNum - ms else c.choise + c.colNum }, r)) = _
      rw [h1, R.bind_ok, h.cols, h.choise, h.len]
    by_cases hb : i + k < n
    · refine ⟨i + k, .inr (.inr (.inr (.inr (.inl ⟨rfl, .inl ⟨hb, rfl⟩⟩)))), hb, .inl ?_⟩
      rw [hs, if_neg (by omega), if_neg (by omega)]; rfl
    · have hm1 : m < n := by
        have := Nat.zero_le (q * k); omega
      refine ⟨m, .inr (.inr (.inr (.inr (.inl ⟨rfl, .inr ⟨by omega, e2, by rw [e4, Nat.mod_eq_of_lt e2]⟩⟩)))), hm1, .inl ?_⟩
      rw [hs]
      by_cases hc : M * k ≤ i + k
      · -- last row: M = q + 1
        have : M = q + 1 := by
          have a1 : M ≤ q + 1 := by
            apply Nat.le_of_lt_succ
            apply Nat.lt_of_mul_lt_mul_right (a := k)
            rw [Nat.succ_eq_add_one, Nat.add_mul, Nat.add_mul]; omega
          have a2 : q < M := by
            apply Nat.lt_of_mul_lt_mul_right (a := k); omega
          omega
        rw [if_pos (by omega)]
        congr 4
        rw [this, Nat.add_mul]; omega
      · have : M = q + 2 := by
          have a1 : M ≤ q + 2 := by
            apply Nat.le_of_lt_succ
            apply Nat.lt_of_mul_lt_mul_right (a := k)
            rw [Nat.succ_eq_add_one, Nat.add_mul, Nat.add_mul]; omega
          have a2 : q + 1 < M := by
            apply Nat.lt_of_mul_lt_mul_right (a := k)
            rw [Nat.add_mul]; omega
          omega
        rw [if_neg (by omega), if_pos (by omega)]
        congr 4
        rw [this, Nat.add_mul]; omega
  · -- Ctrl-P
    obtain ⟨M, h1, h2, h3, h4⟩ := matrixSize_eq h hk
    have hs : c.selectKey U d 16 r = (if c.choise - c.colNum < 0 then c.matrixSize >>= fun ms =>
        .ok (true, { c with choise := if c.choise - c.colNum + ms ≥ c.candidate.length then c.choise - c.colNum + ms - c.colNum
          else c.choise - c.colNum + ms }, r) else .ok (true, { c with choise := c.choise - c.colNum }, r)) := rfl
    rw [h1, R.bind_ok, h.cols, h.choise, h.len] at hs
    by_cases hb : k ≤ i
    · refine ⟨i - k, .inr (.inr (.inr (.inr (.inr ⟨rfl, .inl ⟨hb, by omega⟩⟩)))), by omega, .inl ?_⟩
      rw [hs, if_neg (by omega)]
      congr 4 <;> first | omega | exact h.cols.symm
    · rw [if_pos (by omega)] at hs
      have hi : i % k = i := Nat.mod_eq_of_lt (by omega)
      have hlow : ∀ (P : Nat), (∀ q', q' * k + i < n → q' ≤ P) → ∀ j', j' < n → j' % k = i % k → j' ≤ P * k + i := by
        intro P hP j' a b
        obtain ⟨q', m', f1, f2, f3, f4⟩ := mod_bounds (j := j') hk
        rw [f4, hi] at b
        rw [f1, b]
        exact col_le (hP q' (by omega))
      obtain ⟨P, rfl⟩ : ∃ P, M = P + 1 := ⟨M - 1, by omega⟩
      have hM : (P + 1) * k = P * k + k := by rw [Nat.add_mul]; omega
      by_cases hd : n ≤ P * k + i
      · have : 0 < P := by
          rcases Nat.eq_zero_or_pos P with h0 | h0
          · subst h0; omega
          · exact h0
        obtain ⟨Q, rfl⟩ : ∃ Q, P = Q + 1 := ⟨P - 1, by omega⟩
        have hQ : (Q + 1) * k = Q * k + k := by rw [Nat.add_mul]; omega
        have hlt : Q * k + i < n := by omega
        refine ⟨Q * k + i, .inr (.inr (.inr (.inr (.inr ⟨rfl, .inr ⟨by omega, hlt, ?_, ?_⟩⟩)))), hlt, .inl ?_⟩
        · rw [mod_eq_of (by omega), hi]
        · refine hlow Q fun q' hq' => ?_
          apply Nat.le_of_lt_succ
          apply Nat.lt_of_mul_lt_mul_right (a := k)
          rw [Nat.succ_eq_add_one]; omega
        · rw [hs, if_pos (by omega)]
          congr 4 <;> first | omega | exact h.cols.symm
      · refine ⟨P * k + i, .inr (.inr (.inr (.inr (.inr ⟨rfl, .inr ⟨by omega, by omega, ?_, ?_⟩⟩)))), by omega, .inl ?_⟩
        · rw [mod_eq_of (by omega), hi]
        · refine hlow P fun q' hq' => ?_
          apply Nat.le_of_lt_succ
          apply Nat.lt_of_mul_lt_mul_right (a := k)
          rw [Nat.succ_eq_add_one, hM]; omega
        · rw [hs, if_neg (by omega)]
          congr 4 <;> first | omega | exact h.cols.symm

/-- The key and the redraw. -/
theorem handleSelect_nav {c c' : Comp} {r r' : RB} {n k i : Nat} (h : c.At n k i) (hm : ∀ x, c.candidate ≠ [x]) (hk : 0 < k) {key : Rune}
    (hn : NavKey key) {keep : Bool} (he : c.handleSelect U d key r = .ok (keep, c', r')) :
    ∃ j : Nat, Nav n k key i j ∧ j < n ∧ keep = true ∧ r'.toEd = r.toEd ∧ c' = { c with choise := (j : Int), colNum := c'.colNum } := by
  obtain ⟨j, h1, h2, h3⟩ := selectKey_nav (U := U) (d := d) (r := r) h hm hk hn
  refine ⟨j, h1, h2, ?_⟩
  obtain ⟨⟨nx, c1, r1⟩, e1, e2⟩ := R.bind_inv he
  have key : nx = true ∧ r1.toEd = r.toEd ∧ c1 = { c with choise := (j : Int), colNum := c1.colNum } := by
    rcases h3 with h3 | h3
    · rw [h3] at e1; cases e1; exact ⟨rfl, rfl, rfl⟩
    · rw [h3] at e1
      obtain ⟨⟨c2, r2⟩, f1, f2⟩ := R.bind_inv e1
      cases f2
      obtain ⟨g1, _, g3⟩ := Comp.completeRefresh_ok f1
      exact ⟨rfl, g1, g3⟩
  obtain ⟨rfl, k2, k3⟩ := key
  dsimp only at e2
  rw [if_pos rfl] at e2
  obtain ⟨⟨c2, r2⟩, f1, f2⟩ := R.bind_inv e2
  cases f2
  obtain ⟨g1, _, g3⟩ := Comp.completeRefresh_ok f1
  refine ⟨rfl, g1.trans k2, ?_⟩
  rw [k3] at g3
  exact g3

theorem handleSelect_enter {c c' : Comp} {r r' : RB} {n k i : Nat} (h : c.At n k i) {key : Rune} (hn : key = CharEnter ∨ key = CharCtrlJ)
    {keep : Bool} (he : c.handleSelect U d key r = .ok (keep, c', r')) :
    ∃ x, c.candidate[i]? = some x ∧ keep = false ∧ Cmd.core (.insert x) r.toEd = .ok r'.toEd ∧ c' = c.exitComplete := by
  obtain ⟨⟨nx, c1, r1⟩, e1, e2⟩ := R.bind_inv he
  unfold selectKey at e1
  rw [if_pos hn] at e1
  obtain ⟨x, f1, e1⟩ := R.bind_inv e1
  obtain ⟨r2, f2, e1⟩ := R.bind_inv e1
  cases e1
  cases e2
  unfold chosen getR at f1
  rw [if_neg (by rw [h.choise]; omega), h.choise, Int.toNat_natCast] at f1
  refine ⟨x, ?_, rfl, ?_, rfl⟩
  · split at f1
    · next hx => cases f1; exact hx
    · cases f1
  · have f2 : Cmd.apply U d (.insert x) r = .ok _ := f2
    exact (apply_ok f2).1

theorem onComplete_ok {f : Completer} {c c' : Comp} {r r' : RB} {b : Bool} (hw : c.width ≠ 0) (hs : c.inSelect = false)
    (hne : c.inComplete = true → c.source = some r.buf → c.candidate ≠ [])
    (h : c.onComplete U d (some f) r = .ok (b, c', r')) (hi : r.toEd.CursorIn) :
    b = true ∧ ∃ s, r'.toEd.line = r.toEd.line.insert s ∧ Tabbed f c r c' s := by
  have hins : ∀ {x r1}, r.writeRunes U d x = .ok r1 → r1.toEd.line = r.toEd.line.insert x := by
    intro x r1 h1
    have h1 : Cmd.apply U d (.insert x) r = .ok r1 := h1
    obtain ⟨e', g1, _, g3⟩ := core_basic (c := .insert x) rfl hi
    rw [(apply_ok h1).1, Except.ok.injEq] at g1
    rw [g1]; exact g3
  have hid : r.toEd.line = r.toEd.line.insert [] := by simp [Line.insert]
  unfold onComplete at h
  rw [if_neg hw, hs] at h
  simp only [Bool.false_eq_true, if_false] at h
  split at h
  · next hc =>
    obtain ⟨hin, hsrc⟩ := hc
    have hsrc : c.source = some r.buf := by
      unfold sameSource at hsrc
      split at hsrc
      · next s hss => rw [hss, (runesEqual_iff _ _).1 hsrc]
      · cases hsrc
    obtain ⟨⟨c1, r1⟩, e1, h⟩ := R.bind_inv h
    obtain ⟨⟨c2, r2⟩, e2, h⟩ := R.bind_inv h
    cases h
    refine ⟨rfl, ?_⟩
    obtain ⟨g1, _, g3⟩ := completeRefresh_ok e1
    unfold doSelect at e2
    have hcand : c1.candidate = c.candidate := by rw [g3]
    split at e2
    · next x hx =>
      obtain ⟨r3, f1, f2⟩ := R.bind_inv e2
      cases f2
      have f1 : Cmd.apply U d (.insert x) r1 = .ok _ := f1
      obtain ⟨e', k1, _, k3⟩ := core_basic (c := .insert x) rfl (e := r1.toEd) (by rw [g1]; exact hi)
      rw [(apply_ok f1).1, Except.ok.injEq] at k1
      refine ⟨x, ?_, .only hin hsrc (hcand.symm.trans hx) rfl⟩
      rw [k1, ← g1]; exact k3
    · next hx =>
      have hx : ∀ x, c1.candidate ≠ [x] := hx
      obtain ⟨c3, f1, f2⟩ := R.bind_inv e2
      obtain ⟨m1, _, m3⟩ := completeRefresh_ok f2
      refine ⟨[], by rw [m1, g1]; exact hid, ?_⟩
      have hc1 : c1.choise = -1 := by rw [g3]
      have hsel : c1.inSelect = true := by rw [g3]
      have hlen : 2 ≤ c1.candidate.length := by
        match hh : c1.candidate with
        | [] => exact (hne hin hsrc (hcand.symm.trans hh)).elim
        | [x] => exact (hx x hh).elim
        | _ :: _ :: _ => simp
      unfold nextCandidate modR at f1
      rw [if_neg (show ¬ (c1.candidate.length : Int) = 0 by omega), R.bind_ok, hc1] at f1
      have f1 := Except.ok.inj f1
      rw [show (-1 + 1 : Int) = 0 from rfl, Int.zero_tmod, if_neg (by decide)] at f1
      refine .select hin hsrc ?_ ?_ ?_ (by rw [← hcand]; exact hlen)
      · rw [m3, ← f1]; exact hsel
      · rw [m3, ← f1]; exact hcand
      · rw [m3, ← f1]
  · next hc =>
    have hopen : ∀ {off cs cs0 c1 r1}, enterComplete U off cs { c.exitSelect with source := some r.buf } r = .ok (c1, r1) →
        f r.buf r.idx = (cs0, off) → cs = cs0 → (c.inComplete = false → 2 ≤ cs0.length ∧ LongestCommonPrefix [] cs0) →
        ∃ s, r1.toEd.line = r.toEd.line.insert s ∧ Tabbed f c r c1 s := by
      intro off cs cs0 c1 r1 e1 e2 e3 e4
      obtain ⟨g1, _, g3⟩ := completeRefresh_ok e1
      refine ⟨[], by rw [g1]; exact hid, .menu (by rw [e2]; exact e4) (by rw [g3]) (by rw [g3]; rfl) (by rw [g3, e2]; exact e3)⟩
    split at h
    · next off hf =>
      cases h
      exact ⟨rfl, [], hid, .nothing (by rw [hf]) rfl⟩
    · next n ns off hf =>
      by_cases hin : c.inComplete = false
      · rw [if_pos (show c.exitSelect.inComplete = false from hin)] at h
        split at h
        · next hl =>
          obtain ⟨r3, f1, f2⟩ := R.bind_inv h
          cases f2
          have : ns = [] := List.eq_nil_of_length_eq_zero hl
          exact ⟨rfl, n, hins f1, .single hin (by rw [hf, this]) rfl⟩
        · next hl =>
          obtain ⟨⟨same, size, cands⟩, f1, f2⟩ := R.bind_inv h
          obtain ⟨same', size', rest, g1, g2, g3, g4⟩ := C04_aggregate (n :: ns) (by simp)
          rw [f1, Except.ok.injEq] at g1
          cases g1
          have hl2 : 2 ≤ (n :: ns).length := by simp; omega
          dsimp only at f2
          split at f2
          · next hsz =>
            obtain ⟨r3, k1, k2⟩ := R.bind_inv f2
            cases k2
            refine ⟨rfl, same, hins k1, .common hin (by rw [hf]; exact hl2) (by rw [hf]; exact g2) ?_ rfl⟩
            rintro rfl
            simp at g3; omega
          · next hsz =>
            obtain ⟨⟨c3, r3⟩, k1, k2⟩ := R.bind_inv f2
            cases k2
            have hs0 : same = [] := List.eq_nil_of_length_eq_zero (by omega)
            subst hs0
            refine ⟨rfl, hopen k1 hf ?_ fun _ => ⟨hl2, g2⟩⟩
            rw [← g4]; simp
      · rw [if_neg (show ¬ c.exitSelect.inComplete = false from hin)] at h
        obtain ⟨⟨c3, r3⟩, k1, k2⟩ := R.bind_inv h
        cases k2
        exact ⟨rfl, hopen k1 hf rfl fun a => (hin a).elim⟩

end Comp

namespace Op
variable {c : OCfg}

theorem iter_menu {o : Op} (hl : o.Live) (hf : c.filter = none) {r : Rune} {rest : List Rune} (hi : o.inp = r :: rest) (hr : r ≠ 0) :
    o.iter c = (o.took r rest).viaMenu c r := by
  unfold iter
  rw [readRune_live hl hi, R.bind_ok]
  unfold accept
  rw [hf]
  dsimp only
  unfold handle
  rw [if_neg hr]

/-- State in the selection menu. -/
structure InMenu (c : OCfg) (o : Op) (n k i : Nat) : Prop where
  inv : Inv c o
  sel : o.comp.inSelect = true
  at' : o.comp.At n k i

theorem InMenu.smode {o : Op} {n k i : Nat} (h : InMenu c o n k i) : o.search.inMode = false := by
  cases hh : o.search.inMode with
  | false => rfl
  | true =>
    have := (h.inv.comp.sel h.sel).1
    rw [h.inv.excl hh] at this; cases this

/-- One navigation key. -/
theorem iter_nav {o : Op} {n k i : Nat} (h : InMenu c o n k i) (hk : 0 < k) (hl : o.Live) (hf : c.filter = none) {r : Rune} {rest : List Rune}
    (hi : o.inp = r :: rest) (hn : NavKey r) :
    ∃ o' j, o.iter c = .ok o' ∧ Nav n k r i j ∧ InMenu c o' n k j ∧ o'.Live ∧ o'.inp = rest ∧ o'.rb.toEd = o.rb.toEd ∧
      o'.comp.candidate = o.comp.candidate ∧ o'.hist = o.hist ∧ o'.events = o.events ∧ o'.stopped = o.stopped ∧
      o'.comp.off = o.comp.off ∧ o'.vimNormal = o.vimNormal := by
  have hr0 : r ≠ 0 := by rcases hn with rfl | rfl | rfl | rfl | rfl | rfl | rfl <;> decide
  have hst : stopKey r = false := by rcases hn with rfl | rfl | rfl | rfl | rfl | rfl | rfl <;> decide
  have hinv := h.inv
  have hsm := h.smode
  obtain ⟨keep, cm, rb, e1, e2, e3, e4, _⟩ := Comp.handleSelect_total (auto := c.auto) hinv.base.rb hinv.comp.weak h.sel (k := r)
    (fun _ => by rw [h.at'.cols]; omega)
  obtain ⟨j, g1, g2, g3, g4, g5⟩ := Comp.handleSelect_nav h.at' (hinv.comp.multi h.sel) hk hn e1
  subst g3
  have hci := e4 rfl
  refine ⟨{ o.took r rest with comp := cm, rb := rb }, j, ?_, g1, ⟨?_, ?_, ?_⟩, .inl ?_, rfl, g4, ?_, rfl, rfl, rfl, ?_, rfl⟩
  · rw [iter_menu hl hf hi hr0]
    unfold viaMenu
    rw [if_pos (show (o.took r rest).comp.inSelect = true from h.sel)]
    show (o.comp.handleSelect c.U c.d r o.rb >>= _) = _
    rw [e1, R.bind_ok]
    dsimp only
    rw [if_pos rfl]
  · have hb := hinv.base.withRb e2 e3
    refine ⟨⟨hb.rb, hb.hist, hb.sw, hci.width, hci.col⟩, ?_, hinv.soff, hci, ?_, ?_⟩
    · intro a; have a : o.search.inMode = true := a; rw [hsm] at a; cases a
    · intro a; have a : o.search.inMode = true := a; rw [hsm] at a; cases a
    · intro a b
      have := (hinv.vim a b).2
      rw [(hinv.comp.sel h.sel).1] at this; cases this
  · rw [g5]; exact h.sel
  · refine ⟨?_, ?_, ?_, g2⟩
    · rw [g5]; exact h.at'.len
    · have hd := hci.drawn (by rw [g5]; exact h.sel)
      show cm.colNum = k
      rw [hd]
      have : cm.cols c.U = o.comp.cols c.U := by rw [g5]; rfl
      rw [this, ← hinv.comp.drawn h.sel]; exact h.at'.cols
    · rw [g5]
  · exact hst
  · show cm.candidate = _; rw [g5]
  · show cm.off = _; rw [g5]

/-- Enter in the menu. -/
theorem iter_choose {o : Op} {n k i : Nat} (h : InMenu c o n k i) (hl : o.Live) (hf : c.filter = none) {r : Rune} {rest : List Rune}
    (hi : o.inp = r :: rest) (hn : r = CharEnter ∨ r = CharCtrlJ) :
    ∃ o' x, o.iter c = .ok o' ∧ o.comp.candidate[i]? = some x ∧ Quiet c o' ∧ o'.Live ∧ o'.inp = rest ∧
      o'.rb.toEd.line = o.rb.toEd.line.insert x ∧ o'.rb.buf.length = o.rb.buf.length + x.length ∧ o'.events = o.events ∧
      o'.stopped = o.stopped ∧ o'.hist = o.hist.update c.h o'.rb.buf false ∧ o'.vimNormal = o.vimNormal := by
  have hr0 : r ≠ 0 := by rcases hn with rfl | rfl <;> decide
  have hinv := h.inv
  have hsm := h.smode
  obtain ⟨keep, cm, rb, e1, e2, e3, e4, e5⟩ := Comp.handleSelect_total (auto := c.auto) hinv.base.rb hinv.comp.weak h.sel (k := r)
    (fun a => by unfold Comp.Divides at a; rcases hn with rfl | rfl <;> exact absurd a (by decide))
  obtain ⟨x, g1, g2, g3, g4⟩ := Comp.handleSelect_enter h.at' hn e1
  subst g2
  obtain ⟨s1, s2, s3, s4, _⟩ := e5 rfl
  have hb := hinv.base.withRb e2 e3
  have hb1 : Base c { o.took r rest with comp := cm, rb := rb } := ⟨hb.rb, hb.hist, hb.sw, s3, s4⟩
  obtain ⟨r1, f1, f2, f3, f4⟩ := hb1.refreshNil
  have hline := core_basic (c := .insert x) rfl hinv.base.rb.idx
  obtain ⟨e', k1, _, k3⟩ := hline
  rw [g3, Except.ok.injEq] at k1
  subst k1
  have hlen : rb.buf.length = o.rb.buf.length + x.length := by
    have := congrArg (fun z => z.text.length) k3
    simp only [Ed.line_text] at this
    rw [this]
    simp [Line.insert, Line.text, Ed.line]
    have := hinv.base.rb.idx
    unfold Ed.CursorIn at this
    omega
  refine ⟨((({ o.took r rest with comp := cm, rb := r1 } : Op)).updateHistory c).kickRead, x, ?_, g1, ⟨?_, hsm, ?_, ?_, ?_⟩, .inr rfl, rfl, ?_, ?_, rfl, rfl, rfl, rfl⟩
  · rw [iter_menu hl hf hi hr0]
    unfold viaMenu
    rw [if_pos (show (o.took r rest).comp.inSelect = true from h.sel)]
    show (o.comp.handleSelect c.U c.d r o.rb >>= _) = _
    rw [e1, R.bind_ok]
    dsimp only
    rw [if_neg (by decide), f1, R.bind_ok, if_pos hn]
  · exact ⟨f4.rb, Hist.update_WF f4.hist _ _ _, f4.sw, f4.cw, f4.col⟩
  · exact hinv.soff hsm
  · show cm.inComplete = false; rw [g4]; rfl
  · exact s1
  · show r1.toEd.line = _; rw [f2]; exact k3
  · show r1.toEd.buf.length = _; rw [f2]; exact hlen

theorem settle_comp {k : KeyRes} {o' : Op} (hk : k.keepComplete = true) (h : settle c k = .ok o') :
    o'.comp = { k.op.comp with colNum := o'.comp.colNum } := by
  unfold settle at h
  by_cases hs : k.keepSearch = false ∧ k.op.search.inMode = true
  · rw [if_pos hs, exitSearch_keep, R.bind_ok] at h
    obtain ⟨r, rfl, _⟩ := refreshNil_ok h
    rfl
  rw [if_neg hs] at h
  split at h
  · rw [if_neg (by simp [hk])] at h
    obtain ⟨o1, h1, h2⟩ := R.bind_inv h
    obtain ⟨r, rfl, _⟩ := refreshNil_ok h1
    exact (completeRefresh_ok h2).2.2
  · cases h; rfl

theorem Comp.Tabbed.congr {f : Completer} {cm c1 : Comp} {r : RB} {s} (h : Comp.Tabbed f cm r c1 s) (m : Int) :
    Comp.Tabbed f cm r { c1 with colNum := m } s := by
  cases h with
  | nothing a b => exact .nothing a b
  | single a b d => exact .single a b d
  | common a b d e f => exact .common a b d e f
  | menu a b d e => exact .menu a b d e
  | select a b d e f g => exact .select a b d e f g
  | only a b d e => exact .only a b d e

/-- Tab outside the selection menu. -/
theorem iter_tab (hf : Friendly c) (hp : c.filter = none) {f : Completer} (ha : c.auto = some f) {o : Op} (h : Inv c o)
    (hs : o.comp.inSelect = false) (hv : Emacs c o) (hl : o.Live) {rest : List Rune}
    (hi : o.inp = CharTab :: rest) :
    ∃ o' s, o.iter c = .ok o' ∧ Inv c o' ∧ o'.rb.toEd.line = o.rb.toEd.line.insert s ∧ Comp.Tabbed f o.comp o.rb o'.comp s ∧
      o'.events = o.events ∧ o'.inp = rest ∧ o'.search.inMode = false ∧ o'.Live ∧ o'.stopped = o.stopped ∧ o'.vimNormal = o.vimNormal := by
  have hm : Mid c (o.took CharTab rest) := (h.io _ _ _).mid hs
  have hv' : c.vim = true → (o.took CharTab rest).vimNormal = true → False := by
    intro a b
    rcases hv with hv | hv
    · rw [hv] at a; cases a
    · have b : o.vimNormal = true := b
      rw [hv] at b; cases b
  obtain ⟨o', e1, e2⟩ := dispatch_safe (r := CharTab) hf hm (fun a => absurd a (by decide)) (fun a => absurd a (by decide))
    (fun a => absurd a (by decide)) (fun a b => (hv' a b).elim)
  have hit : o.iter c = .ok o' := by
    rw [iter_emacs hl hp hi (by decide) hs (hv.imp_right fun a => ⟨a, by decide⟩)]; exact e1
  obtain ⟨k, g1, g2⟩ := R.bind_inv e1
  rw [listen_observer hf.listener, R.bind_ok] at g2
  have hfin := finish_ok g2
  rw [key_tab] at g1
  unfold keyTab at g1
  rw [ha] at g1
  dsimp only at g1
  obtain ⟨⟨b, o1⟩, k1, g1⟩ := R.bind_inv g1
  unfold Op.onComplete at k1
  obtain ⟨⟨b', cm, rb⟩, k2, k1⟩ := R.bind_inv k1
  cases k1
  rw [ha] at k2
  have k2 : o.comp.onComplete c.U c.d (some f) o.rb = .ok (b, cm, rb) := k2
  obtain ⟨rfl, s, k3, k4⟩ := Comp.onComplete_ok (by have := h.base.rb.width; have := h.base.cw; omega) hs
    (fun a _ => (h.comp.fits a).cands) k2 h.base.rb.idx
  dsimp only at g1
  rw [if_pos rfl] at g1
  cases g1
  obtain ⟨o2, f1, f2⟩ := R.bind_inv g2
  have hc := settle_comp (o' := o2) rfl f1
  have hc' : o'.comp = o2.comp := by
    split at f2
    · cases f2; rfl
    · cases f2; rfl
  refine ⟨o', s, hit, e2, by rw [hfin.line]; exact k3, ?_, hfin.events, hfin.inp, ?_, .inl ?_, hfin.stopped, hfin.vimNormal⟩
  · rw [hc', hc]; exact Comp.Tabbed.congr k4 _
  · cases hh : o'.search.inMode with
    | false => rfl
    | true =>
      have := (hfin.smode.1 hh).2
      cases this
  · rw [hfin.gate]; rfl

end Op
end RL
