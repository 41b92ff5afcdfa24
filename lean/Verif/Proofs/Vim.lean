import Verif.Spec.Vim
import Verif.Proofs.Typing
import Verif.Proofs.Live
/-! The commands of vim's normal mode (C41, C62). -/

namespace RL
open Spec RB Ed

namespace Op
variable {c : OCfg}

theorem normal_move {o o1 : Op} {r t : Rune} (hr : ¬ (r = CharEnter ∨ r = CharInterrupt)) (h : vimMovement c r o = .ok (some (t, o1))) :
    vimNormalKey c r o = .ok (t, o1) := by
  unfold vimNormalKey
  rw [if_neg hr, h]; rfl

theorem normal_insert {o o1 : Op} {r t : Rune} (hr : ¬ (r = CharEnter ∨ r = CharInterrupt)) (h0 : vimMovement c r o = .ok none)
    (h : vimEnterInsert c r o = .ok (some (t, o1))) : vimNormalKey c r o = .ok (t, o1) := by
  unfold vimNormalKey
  rw [if_neg hr, h0, R.bind_ok]
  dsimp only
  rw [h]; rfl

/-- The state after a command: line, mode, and what is left alone. -/
structure VimDone (c : OCfg) (o o' : Op) (z : Line) (ins : Bool) : Prop where
  quiet : Quiet c o'
  line : o'.rb.toEd.line = z
  mode : o'.vimNormal = !ins
  hist : o'.hist = o.hist
  events : o'.events = o.events
  stopped : o'.stopped = o.stopped
  inp : o'.inp = o.inp
  live : o'.gate = o.gate ∧ o'.kick = o.kick

theorem edit_to {o : Op} (h : Quiet c o) (hn : o.vimNormal = true) {k : Cmd} {e' : Ed} (hk : k.core o.rb.toEd = .ok e')
    (ht : ¬ o.rb.toEd.Trigger k) :
    ∃ r, o.edit c k = .ok { o with rb := r } ∧ VimDone c o { o with rb := r } e'.line false ∧
      VimDone c o { o with rb := r, vimNormal := false } e'.line true := by
  obtain ⟨r, e1, e2, e3⟩ := h.edited ht
  rw [hk, Except.ok.injEq] at e2
  exact ⟨r, e1, ⟨e3, by rw [e2], by simp [hn], rfl, rfl, rfl, rfl, rfl, rfl⟩, ⟨e3.vim _, by rw [e2], rfl, rfl, rfl, rfl, rfl, rfl, rfl⟩⟩

theorem edit_basic {o : Op} (h : Quiet c o) (hn : o.vimNormal = true) {k : Cmd} {f : Line → Line} (hk : basic k = some f)
    (ht : ¬ o.rb.toEd.Trigger k) :
    ∃ r, o.edit c k = .ok { o with rb := r } ∧ VimDone c o { o with rb := r } (f o.rb.toEd.line) false ∧
      VimDone c o { o with rb := r, vimNormal := false } (f o.rb.toEd.line) true := by
  obtain ⟨e', e1, _, e3⟩ := core_basic hk (show o.rb.toEd.CursorIn from h.base.rb.idx)
  obtain ⟨r, g1, g2, g3⟩ := edit_to h hn e1 ht
  rw [e3] at g2 g3
  exact ⟨r, g1, g2, g3⟩

theorem line_left {e : Ed} (h : e.CursorIn) : e.line.left.length = e.idx := by
  simp only [Ed.line, List.length_take]; exact Nat.min_eq_left h

/-- The line after Alt-D, `dw` and `cw`. -/
theorem core_cutWord {e : Ed} (hcur : e.CursorIn) {z : Line} (hz : CutWordRight e.line z) :
    ∃ e', Cmd.core .deleteWord e = .ok e' ∧ e'.line = z := by
  have llen := line_left hcur
  rcases hz with ⟨h0, rfl⟩ | ⟨h0, m, hd, hz⟩
  · have hend : e.idx = e.buf.length := by
      have : e.buf.length ≤ e.idx := by simpa [Ed.line] using h0
      have h2 : e.idx ≤ e.buf.length := hcur
      omega
    exact ⟨e, core_deleteWord_end hend, rfl⟩
  · have hlt : e.idx < e.buf.length := by
      rcases Nat.lt_or_ge e.idx e.buf.length with h | h
      · exact h
      · exact (h0 (by simp only [Ed.line]; exact List.drop_eq_nil_of_le h)).elim
    obtain ⟨init, m', a1, a2, a3, a4, a5, a6, a7, a8⟩ := core_deleteWord hcur hlt
    rw [Ed.line_text, llen] at hd
    have : m = m' := Spec.DeleteWordPos.unique hd ⟨init, a1, a2, a3, a4, a7⟩
    subst this
    refine ⟨_, a8, ?_⟩
    rw [hz, Ed.line_text, llen]
    have h3 : (e.buf.take e.idx).length = e.idx := by rw [List.length_take]; omega
    simp only [Ed.line, Line.mk.injEq, and_true]
    refine ⟨?_, ?_⟩
    · rw [List.take_append_of_le_length (by omega), List.take_take]
      congr 1; omega
    · rw [List.drop_append_of_le_length (by omega), List.drop_eq_nil_of_le (by omega)]
      rfl

theorem not_stop {r : Rune} (h : r ≠ 13 ∧ r ≠ 3) : ¬ (r = CharEnter ∨ r = CharInterrupt) := fun a => a.elim h.1 h.2

theorem findRight_unique {l : List Rune} {x : Rune} {cur m m' : Nat} (h : FindPos true l x cur m)
    (h' : IsLeastAbove (fun i => l[i]? = some x) cur m') : m = m' := by
  unfold FindPos at h
  rw [if_pos rfl] at h
  exact Spec.IsLeastAbove.unique h h'

theorem findLeft_unique {l : List Rune} {x : Rune} {cur m m' : Nat} (h : FindPos false l x cur m)
    (h' : IsGreatestBelow (fun i => l[i]? = some x) cur m') : m = m' := by
  unfold FindPos at h
  rw [if_neg (by decide)] at h
  exact Spec.IsGreatestBelow.unique h h'

theorem EndWordPos.unique {l : List Rune} {cur m m' : Nat} (h : EndWordPos l cur m) (h' : EndWordPos l cur m') : m = m' := by
  rcases h with h | ⟨h1, rfl⟩ <;> rcases h' with h' | ⟨h1', rfl⟩
  · exact Spec.IsLeastAbove.unique h h'
  · exact (h1' m h.1 h.2.1).elim
  · exact (h1 m' h'.1 h'.2.1).elim
  · rfl

theorem wordEndAt_iff {l : List Rune} {i : Nat} (h : i + 1 < l.length) : wordEndAt l (i + 1) = true ↔ WordEnd l i := by
  have h2 : i < l.length := by omega
  unfold wordEndAt WordEnd
  have e1 : l.getD (i + 1) 0 = l[i + 1] := by simp [List.getD, List.getElem?_eq_getElem h]
  have e2 : l.getD (i + 1 - 1) 0 = l[i] := by simp [List.getD, List.getElem?_eq_getElem h2]
  rw [e1, e2, Bool.and_eq_true, List.getElem?_eq_getElem h, List.getElem?_eq_getElem h2]
  have := isWordBreak_iff l[i]
  have := isWordBreak_iff l[i + 1]
  simp only [Option.some.injEq, exists_and_left, exists_eq_left']
  constructor
  · rintro ⟨a, b⟩
    refine ⟨by rw [← isWordBreak_iff]; simpa using b, fun x => ?_⟩
    rw [← isWordBreak_iff, a] at x; cases x
  · rintro ⟨a, b⟩
    refine ⟨?_, by rw [(isWordBreak_iff _).2 a]; rfl⟩
    cases hb : isWordBreak l[i + 1] with
    | true => rfl
    | false => exact (b ((isWordBreak_iff _).1 hb)).elim

/-- `e`. -/
theorem core_endWord_pos {e : Ed} (hi : e.CursorIn) (ht : ¬ (∃ c, e.idx + 1 = e.buf.length ∧ e.buf[e.idx]? = some c ∧ WordChar c)) :
    ∃ m, Cmd.core .endWord e = .ok { e with idx := m } ∧ EndWordPos e.buf e.idx m ∧ m ≤ e.buf.length := by
  have hi : e.idx ≤ e.buf.length := hi
  simp only [Cmd.core, moveToEndWordC]
  have hscan : ∀ j, e.idx ≤ j → (∀ i, e.idx < i → i < j → ¬ WordEnd e.buf i) → (j = e.idx → ¬ WordEnd e.buf j) → (e.idx < j → ¬ WordEnd e.buf j) →
      ∃ m, (match scanUp (wordEndAt e.buf) (j + 1) (e.buf.length - (j + 1)) with
        | some i => (.ok { e with idx := i - 1 } : R Ed)
        | none => .ok { e with idx := e.buf.length }) = .ok { e with idx := m } ∧ EndWordPos e.buf e.idx m ∧ m ≤ e.buf.length := by
    intro j h1 h2 h3 h4
    have hj : ¬ WordEnd e.buf j := by
      rcases Nat.lt_or_ge e.idx j with h | h
      · exact h4 h
      · exact h3 (by omega)
    cases hs : scanUp (wordEndAt e.buf) (j + 1) (e.buf.length - (j + 1)) with
    | some m =>
      obtain ⟨h5, h6, h7, h8⟩ := scanUp_some hs
      obtain ⟨m, rfl⟩ : ∃ n, m = n + 1 := ⟨m - 1, by omega⟩
      have hm := (wordEndAt_iff (l := e.buf) (i := m) (by omega)).1 h7
      have hne : m ≠ j := fun a => hj (a ▸ hm)
      refine ⟨m, rfl, .inl ⟨by omega, hm, fun i a b hw => ?_⟩, by omega⟩
      rcases Nat.lt_trichotomy i j with h | h | h
      · exact h2 i a h hw
      · exact hj (h ▸ hw)
      · have := h8 (i + 1) (by omega) (by omega)
        rw [(wordEndAt_iff (l := e.buf) (by omega)).2 hw] at this
        cases this
    | none =>
      have h8 := scanUp_none hs
      refine ⟨_, rfl, .inr ⟨fun i a hw => ?_, rfl⟩, Nat.le_refl _⟩
      rcases Nat.lt_trichotomy i j with h | h | h
      · exact h2 i a h hw
      · exact hj (h ▸ hw)
      · have hlt : i + 1 < e.buf.length := by
          obtain ⟨_, b, _, h, _⟩ := hw
          exact (List.getElem?_eq_some_iff.1 h).1
        have := h8 (i + 1) (by omega) (by omega)
        rw [(wordEndAt_iff hlt).2 hw] at this
        cases this
  by_cases h0 : e.idx = e.buf.length
  · rw [if_pos h0]
    refine ⟨e.buf.length, by rw [← h0], .inr ⟨fun j hj hw => ?_, rfl⟩, Nat.le_refl _⟩
    obtain ⟨_, b, _, h, _⟩ := hw
    have := (List.getElem?_eq_some_iff.1 h).1
    omega
  · rw [if_neg h0]
    have hlt : e.idx < e.buf.length := by omega
    rw [getR_ok hlt]
    simp only [R.bind_ok]
    by_cases hw : isWordBreak e.buf[e.idx] = true
    · have hnw : ¬ WordChar e.buf[e.idx] := fun a => by rw [(isWordBreak_iff _).2 a] at hw; cases hw
      simp only [hw, Bool.not_true, Bool.false_eq_true, if_false, R.bind_ok]
      refine hscan e.idx (Nat.le_refl _) (fun i a b => by omega) (fun _ => ?_) (fun a => by omega)
      rintro ⟨a, _, h1, _, h2, _⟩
      rw [List.getElem?_eq_getElem hlt] at h1
      cases h1; exact hnw h2
    · have hw : isWordBreak e.buf[e.idx] = false := by simpa using hw
      have hlt2 : e.idx + 1 < e.buf.length := by
        rcases Nat.lt_or_ge (e.idx + 1) e.buf.length with h' | h'
        · exact h'
        · exact (ht ⟨e.buf[e.idx], by omega, by simp [hlt], (isWordBreak_iff _).1 hw⟩).elim
      simp only [hw, Bool.not_false, if_true, getR_ok hlt2, R.bind_ok]
      by_cases hw2 : isWordBreak e.buf[e.idx + 1] = true
      · have hnw : ¬ WordChar e.buf[e.idx + 1] := fun a => by rw [(isWordBreak_iff _).2 a] at hw2; cases hw2
        rw [if_pos hw2]
        refine hscan (e.idx + 1) (by omega) (fun i a b => by omega) (fun a => by omega) (fun _ => ?_)
        rintro ⟨a, _, h1, _, h2, _⟩
        rw [List.getElem?_eq_getElem hlt2] at h1
        cases h1; exact hnw h2
      · rw [if_neg hw2]
        refine hscan e.idx (Nat.le_refl _) (fun i a b => by omega) (fun _ => ?_) (fun a => by omega)
        rintro ⟨_, b, _, h1, _, h2⟩
        rw [List.getElem?_eq_getElem hlt2] at h1
        cases h1
        exact h2 ((isWordBreak_iff _).1 (by simpa using hw2))

/-- `f`, `t` (right) and `F`, `T` (left), found. -/
theorem core_find {e : Ed} (hcur : e.CursorIn) {right till : Bool} {x : Rune} {m : Nat} {z : Line}
    (hp : FindPos right e.line.text x e.line.left.length m)
    (hm : MovedTo e.line z (if till then (if right then m - 1 else m + 1) else m)) :
    ∃ e', Cmd.core (.moveTo x till (!right)) e = .ok e' ∧ e'.line = z := by
  have hc : e.idx ≤ e.buf.length := hcur
  rw [Ed.line_text, line_left hcur] at hp
  cases right with
  | true =>
    rcases moveToC_fwd x till e with ⟨m', h1, h2, h3⟩ | ⟨h1, h3⟩
    · have : m = m' := findRight_unique hp h2
      subst this
      refine ⟨{ e with idx := if till then m - 1 else m }, by simp only [Cmd.core, Bool.not_true, h3, R.map_ok], ?_⟩
      have h0 := h2.1
      refine Line.eq_of_moved (m := if till then m - 1 else m) (by split <;> omega) ?_
      rw [if_pos rfl] at hm
      exact hm
    · unfold FindPos at hp
      rw [if_pos rfl] at hp
      exact (h1 m hp.1 hp.2.1).elim
  | false =>
    rcases moveToC_bwd x till e hcur with ⟨m', h2, h3⟩ | ⟨h1, h3⟩
    · have : m = m' := findLeft_unique hp h2
      subst this
      refine ⟨{ e with idx := if till then m + 1 else m }, by simp only [Cmd.core, Bool.not_false, h3, R.map_ok], ?_⟩
      have h0 := h2.1
      refine Line.eq_of_moved (m := if till then m + 1 else m) (by split <;> omega) ?_
      rw [if_neg (show ¬ false = true by decide)] at hm
      exact hm
    · unfold FindPos at hp
      rw [if_neg (by decide)] at hp
      exact (h1 m hp.1 hp.2.1).elim

/-- `f`, `t`, `F`, `T`, nothing found. -/
theorem core_find_none {e : Ed} (hcur : e.CursorIn) {right till : Bool} {x : Rune} (hp : FindNone right e.line.text x e.line.left.length) :
    Cmd.core (.moveTo x till (!right)) e = .ok e := by
  rw [Ed.line_text, line_left hcur] at hp
  unfold FindNone at hp
  cases right with
  | true =>
    rw [if_pos rfl] at hp
    rcases moveToC_fwd x till e with ⟨m', h1, h2, h3⟩ | ⟨h1, h3⟩
    · exact (hp m' h2.1 h2.2.1).elim
    · simp only [Cmd.core, Bool.not_true, h3, R.map_ok]
  | false =>
    rw [if_neg (by decide)] at hp
    rcases moveToC_bwd x till e hcur with ⟨m', h2, h3⟩ | ⟨h1, h3⟩
    · exact (hp m' h2.1 h2.2.1).elim
    · simp only [Cmd.core, Bool.not_false, h3, R.map_ok]

/-- The state in which a command with an argument is carried out. -/
def args (o : Op) : List Rune → List Rune → Op
  | [], _ => o
  | k :: _, rest => o.took k rest

/-- One command of normal mode. -/
theorem vim_cmd {o : Op} (h : Quiet c o) (hn : o.vimNormal = true) (hl : o.Live) {key : Rune} {ks rest : List Rune} {z : Line} {ins : Bool}
    (hc : VimCmd (key :: ks) o.rb.toEd.line z ins) (hi : o.inp = ks ++ rest) :
    ∃ t o', vimNormalKey c key o = .ok (t, o') ∧
      ((t = 0 ∧ VimDone c (o.args ks rest) o' z ins) ∨
       (o' = o ∧ ks = [] ∧ (key = 104 ∨ key = 108) ∧ ins = false ∧ (t = CharBackward ∧ z = o.rb.toEd.line.goLeft ∨ t = CharForward ∧ z = o.rb.toEd.line.goRight))) := by
  have hcur : o.rb.toEd.CursorIn := h.base.rb.idx
  have same : VimDone c o o o.rb.toEd.line false := ⟨h, rfl, by simp [hn], rfl, rfl, rfl, rfl, rfl, rfl⟩
  have sameIns : VimDone c o { o with vimNormal := false } o.rb.toEd.line true := ⟨h.vim _, rfl, rfl, rfl, rfl, rfl, rfl, rfl, rfl⟩
  -- commands that stay in normal mode
  have mv : ∀ {r : Rune} {k : Cmd} {o1 : Op} {z}, r ≠ 13 ∧ r ≠ 3 → o.args ks rest = o1 →
      vimMovement c r o = (do let o ← o1.edit c k; .ok (some (0, o))) →
      (∃ r, o1.edit c k = .ok { o1 with rb := r } ∧ VimDone c o1 { o1 with rb := r } z false) →
      ∃ t o', vimNormalKey c r o = .ok (t, o') ∧ ((t = 0 ∧ VimDone c (o.args ks rest) o' z false) ∨ (o' = o ∧ ks = [] ∧ (r = 104 ∨ r = 108) ∧ false = false ∧
        (t = CharBackward ∧ z = o.rb.toEd.line.goLeft ∨ t = CharForward ∧ z = o.rb.toEd.line.goRight))) := by
    rintro r k o1 z hr ho hv ⟨rb, e1, e2⟩
    rw [e1, R.bind_ok] at hv
    exact ⟨0, _, normal_move (not_stop hr) hv, .inl ⟨rfl, by rw [ho]; exact e2⟩⟩
  -- commands that enter insert mode
  have im : ∀ {r : Rune} {k : Cmd} {o1 : Op} {z}, r ≠ 13 ∧ r ≠ 3 → o.args ks rest = o1 → vimMovement c r o = .ok none →
      vimEnterInsert c r o = (do let o ← o1.edit c k; .ok (some (0, { o with vimNormal := false }))) →
      (∃ r, o1.edit c k = .ok { o1 with rb := r } ∧ VimDone c o1 { o1 with rb := r, vimNormal := false } z true) →
      ∃ t o', vimNormalKey c r o = .ok (t, o') ∧ ((t = 0 ∧ VimDone c (o.args ks rest) o' z true) ∨ (o' = o ∧ ks = [] ∧ (r = 104 ∨ r = 108) ∧ true = false ∧
        (t = CharBackward ∧ z = o.rb.toEd.line.goLeft ∨ t = CharForward ∧ z = o.rb.toEd.line.goRight))) := by
    rintro r k o1 z hr ho h0 hv ⟨rb, e1, e2⟩
    rw [e1, R.bind_ok] at hv
    exact ⟨0, _, normal_insert (not_stop hr) h0 hv, .inl ⟨rfl, by rw [ho]; exact e2⟩⟩
  have bas : ∀ {o1 : Op} {k : Cmd} {f}, Quiet c o1 → o1.vimNormal = true → basic k = some f → ¬ o1.rb.toEd.Trigger k →
      (∃ r, o1.edit c k = .ok { o1 with rb := r } ∧ VimDone c o1 { o1 with rb := r } (f o1.rb.toEd.line) false) := by
    intro o1 k f q hn hb ht
    obtain ⟨r, a, b, _⟩ := edit_basic q hn hb ht
    exact ⟨r, a, b⟩
  have basI : ∀ {o1 : Op} {k : Cmd} {f}, Quiet c o1 → o1.vimNormal = true → basic k = some f → ¬ o1.rb.toEd.Trigger k →
      (∃ r, o1.edit c k = .ok { o1 with rb := r } ∧ VimDone c o1 { o1 with rb := r, vimNormal := false } (f o1.rb.toEd.line) true) := by
    intro o1 k f q hn hb ht
    obtain ⟨r, a, _, b⟩ := edit_basic q hn hb ht
    exact ⟨r, a, b⟩
  have cor : ∀ {o1 : Op} {k : Cmd} {e' : Ed} {z}, Quiet c o1 → o1.vimNormal = true → k.core o1.rb.toEd = .ok e' ∧ e'.line = z → ¬ o1.rb.toEd.Trigger k →
      (∃ r, o1.edit c k = .ok { o1 with rb := r } ∧ VimDone c o1 { o1 with rb := r } z false) := by
    rintro o1 k f z q hn ⟨hb, rfl⟩ ht
    obtain ⟨r, a, b, _⟩ := edit_to q hn hb ht
    exact ⟨r, a, b⟩
  have corI : ∀ {o1 : Op} {k : Cmd} {e' : Ed} {z}, Quiet c o1 → o1.vimNormal = true → k.core o1.rb.toEd = .ok e' ∧ e'.line = z → ¬ o1.rb.toEd.Trigger k →
      (∃ r, o1.edit c k = .ok { o1 with rb := r } ∧ VimDone c o1 { o1 with rb := r, vimNormal := false } z true) := by
    rintro o1 k f z q hn ⟨hb, rfl⟩ ht
    obtain ⟨r, a, _, b⟩ := edit_to q hn hb ht
    exact ⟨r, a, b⟩
  have rd : ∀ {k : Rune}, o.inp = k :: rest → o.readRune = .ok (k, o.took k rest) := fun e => readRune_live hl e
  have qt : ∀ k, Quiet c (o.took k rest) := fun k => h.took k rest
  have nt : ∀ k, (o.took k rest).vimNormal = true := fun _ => hn
  have readM : ∀ {r k : Rune} {g : Rune × Op → R (Option (Rune × Op))} {y}, o.inp = k :: rest → vimMovement c r o = (o.readRune >>= g) →
      g (k, o.took k rest) = y → vimMovement c r o = y := by
    intro r k g y e1 e2 e3
    rw [e2, rd e1, R.bind_ok, e3]
  have readI : ∀ {r k : Rune} {g : Rune × Op → R (Option (Rune × Op))} {y}, o.inp = k :: rest → vimEnterInsert c r o = (o.readRune >>= g) →
      g (k, o.took k rest) = y → vimEnterInsert c r o = y := by
    intro r k g y e1 e2 e3
    rw [e2, rd e1, R.bind_ok, e3]
  cases hc with
  | i => exact ⟨0, _, normal_insert (not_stop (by decide)) rfl rfl, .inl ⟨rfl, sameIns⟩⟩
  | I => exact im (by decide) rfl rfl rfl (basI h hn rfl (by simp [Ed.Trigger]))
  | a => exact im (by decide) rfl rfl rfl (basI h hn rfl (by simp [Ed.Trigger]))
  | A => exact im (by decide) rfl rfl rfl (basI h hn rfl (by simp [Ed.Trigger]))
  | s => exact im (by decide) rfl rfl rfl (basI h hn rfl (by simp [Ed.Trigger]))
  | S => exact im (by decide) rfl rfl rfl (basI h hn rfl (by simp [Ed.Trigger]))
  | cc => exact im (k := .erase) (by decide) rfl rfl (readI hi rfl rfl) (basI (qt _) (nt _) rfl (by simp [Ed.Trigger]))
  | ch => exact im (k := .backspace) (by decide) rfl rfl (readI hi rfl rfl) (basI (qt _) (nt _) rfl (by simp [Ed.Trigger]))
  | cl => exact im (k := .delete) (by decide) rfl rfl (readI hi rfl rfl) (basI (qt _) (nt _) rfl (by simp [Ed.Trigger]))
  | cw hz =>
    obtain ⟨e', e1⟩ := core_cutWord hcur hz
    exact im (k := .deleteWord) (by decide) rfl rfl (readI hi rfl rfl) (corI (qt _) (nt _) e1 (by simp [Ed.Trigger]))
  | @cOther _ k n1 n2 n3 n4 =>
    refine ⟨0, { o.took k rest with vimNormal := false }, normal_insert (not_stop (by decide)) rfl (readI hi rfl ?_),
      .inl ⟨rfl, (qt k).vim _, rfl, rfl, rfl, rfl, rfl, rfl, rfl, rfl⟩⟩
    dsimp only
    rw [if_neg n1, if_neg n4, if_neg n2, if_neg n3]
  | start _ hk =>
    rcases hk with rfl | rfl
    · exact mv (by decide) rfl rfl (bas h hn rfl (by simp [Ed.Trigger]))
    · exact mv (by decide) rfl rfl (bas h hn rfl (by simp [Ed.Trigger]))
  | dollar => exact mv (by decide) rfl rfl (bas h hn rfl (by simp [Ed.Trigger]))
  | h => exact ⟨_, _, normal_move (not_stop (by decide)) rfl, .inr ⟨rfl, rfl, .inl rfl, rfl, .inl ⟨rfl, rfl⟩⟩⟩
  | l => exact ⟨_, _, normal_move (not_stop (by decide)) rfl, .inr ⟨rfl, rfl, .inr rfl, rfl, .inr ⟨rfl, rfl⟩⟩⟩
  | @b _ _ m k hk hp hm =>
    have ev : ∃ e', Cmd.core .prevWord o.rb.toEd = .ok e' ∧ e'.line = z := by
      obtain ⟨m', e4, e5, e6⟩ := core_prevWord hcur
      rw [Ed.line_text, line_left hcur] at hp
      have : m = m' := Spec.PrevWordPos.unique hp e6
      subst this
      exact ⟨_, e4, Line.eq_of_moved (Nat.le_trans e5 hcur) hm⟩
    obtain ⟨e', e1⟩ := ev
    rcases hk with rfl | rfl
    · exact mv (k := .prevWord) (by decide) rfl rfl (cor h hn e1 (by simp [Ed.Trigger]))
    · exact mv (k := .prevWord) (by decide) rfl rfl (cor h hn e1 (by simp [Ed.Trigger]))
  | @w _ _ m k hk hp hm =>
    have ev : ∃ e', Cmd.core .nextWord o.rb.toEd = .ok e' ∧ e'.line = z := by
      obtain ⟨m', e4, e5, e6⟩ := core_nextWord o.rb.toEd
      rw [Ed.line_text, line_left hcur] at hp
      have : m = m' := Spec.NextWordPos.unique hp e6
      subst this
      exact ⟨_, e4, Line.eq_of_moved e5 hm⟩
    obtain ⟨e', e1⟩ := ev
    rcases hk with rfl | rfl
    · exact mv (k := .nextWord) (by decide) rfl rfl (cor h hn e1 (by simp [Ed.Trigger]))
    · exact mv (k := .nextWord) (by decide) rfl rfl (cor h hn e1 (by simp [Ed.Trigger]))
  | @e _ _ m k hk hx hp hm =>
    have ht : ¬ (∃ x, o.rb.idx + 1 = o.rb.buf.length ∧ o.rb.buf[o.rb.idx]? = some x ∧ WordChar x) := by
      rintro ⟨x, h1, h2, h3⟩
      refine hx x ?_ h3
      show o.rb.buf.drop o.rb.idx = [x]
      obtain ⟨h4, h5⟩ := List.getElem?_eq_some_iff.1 h2
      rw [List.drop_eq_getElem_cons h4, h5, List.drop_eq_nil_of_le (by omega)]
    have ev : ∃ e', Cmd.core .endWord o.rb.toEd = .ok e' ∧ e'.line = z := by
      obtain ⟨m', e4, e6, e5⟩ := core_endWord_pos hcur ht
      rw [Ed.line_text, line_left hcur] at hp
      have : m = m' := EndWordPos.unique hp e6
      subst this
      exact ⟨_, e4, Line.eq_of_moved e5 hm⟩
    obtain ⟨e', e1⟩ := ev
    rcases hk with rfl | rfl
    · exact mv (k := .endWord) (by decide) rfl rfl (cor h hn e1 (by simp only [Ed.Trigger]; exact ht))
    · exact mv (k := .endWord) (by decide) rfl rfl (cor h hn e1 (by simp only [Ed.Trigger]; exact ht))
  | @f _ _ m k x hk hx hp hm =>
    rcases hk with rfl | rfl
    · obtain ⟨e', e1⟩ := core_find (till := false) hcur (show FindPos true _ _ _ _ from hp) hm
      refine mv (k := .moveTo x false false) (by decide) rfl (readM hi rfl ?_) (cor (qt _) (nt _) e1 (by simp [Ed.Trigger]))
      dsimp only
      rw [if_neg (show ¬ x = CharEsc from hx)]; rfl
    · obtain ⟨e', e1⟩ := core_find (till := false) hcur (show FindPos false _ _ _ _ from hp) hm
      refine mv (k := .moveTo x false true) (by decide) rfl (readM hi rfl ?_) (cor (qt _) (nt _) e1 (by simp [Ed.Trigger]))
      dsimp only
      rw [if_neg (show ¬ x = CharEsc from hx)]; rfl
  | @t _ _ m k x hk hx hp hm =>
    rcases hk with rfl | rfl
    · obtain ⟨e', e1⟩ := core_find (till := true) hcur (show FindPos true _ _ _ _ from hp) hm
      refine mv (k := .moveTo x true false) (by decide) rfl (readM hi rfl ?_) (cor (qt _) (nt _) e1 (by simp [Ed.Trigger]))
      dsimp only
      rw [if_neg (show ¬ x = CharEsc from hx)]; rfl
    · obtain ⟨e', e1⟩ := core_find (till := true) hcur (show FindPos false _ _ _ _ from hp) hm
      refine mv (k := .moveTo x true true) (by decide) rfl (readM hi rfl ?_) (cor (qt _) (nt _) e1 (by simp [Ed.Trigger]))
      dsimp only
      rw [if_neg (show ¬ x = CharEsc from hx)]; rfl
  | @find_none _ k x hk hp =>
    by_cases hx : x = 27
    · subst hx
      rcases hk with rfl | rfl | rfl | rfl
      all_goals exact ⟨0, o.took 27 rest, normal_move (not_stop (by decide)) (readM hi rfl rfl),
        .inl ⟨rfl, qt _, rfl, by simp [nt], rfl, rfl, rfl, rfl, rfl, rfl⟩⟩
    · rcases hk with rfl | rfl | rfl | rfl
      · have e1 := core_find_none (till := false) hcur (show FindNone true _ _ _ from hp)
        refine mv (k := .moveTo x false false) (by decide) rfl (readM hi rfl ?_) (cor (qt _) (nt _) ⟨e1, rfl⟩ (by simp [Ed.Trigger]))
        dsimp only
        rw [if_neg (show ¬ x = CharEsc from hx)]; rfl
      · have e1 := core_find_none (till := false) hcur (show FindNone false _ _ _ from hp)
        refine mv (k := .moveTo x false true) (by decide) rfl (readM hi rfl ?_) (cor (qt _) (nt _) ⟨e1, rfl⟩ (by simp [Ed.Trigger]))
        dsimp only
        rw [if_neg (show ¬ x = CharEsc from hx)]; rfl
      · have e1 := core_find_none (till := true) hcur (show FindNone true _ _ _ from hp)
        refine mv (k := .moveTo x true false) (by decide) rfl (readM hi rfl ?_) (cor (qt _) (nt _) ⟨e1, rfl⟩ (by simp [Ed.Trigger]))
        dsimp only
        rw [if_neg (show ¬ x = CharEsc from hx)]; rfl
      · have e1 := core_find_none (till := true) hcur (show FindNone false _ _ _ from hp)
        refine mv (k := .moveTo x true true) (by decide) rfl (readM hi rfl ?_) (cor (qt _) (nt _) ⟨e1, rfl⟩ (by simp [Ed.Trigger]))
        dsimp only
        rw [if_neg (show ¬ x = CharEsc from hx)]; rfl
  | find_esc _ hk =>
    rcases hk with rfl | rfl | rfl | rfl
    all_goals exact ⟨0, o.took 27 rest, normal_move (not_stop (by decide)) (readM hi rfl rfl),
      .inl ⟨rfl, qt _, rfl, by simp [nt], rfl, rfl, rfl, rfl, rfl, rfl⟩⟩
  | x =>
    obtain ⟨r1, a1, a2, _⟩ := edit_basic h hn (k := .delete) rfl (by simp [Ed.Trigger])
    have hv : vimMovement c 120 o = (do
        let o ← o.edit c .delete
        if o.rb.idx = o.rb.buf.length then (do let o ← o.edit c .left; .ok (some (0, o))) else .ok (some (0, o))) := rfl
    rw [a1, R.bind_ok] at hv
    have hcur1 : r1.toEd.CursorIn := a2.quiet.base.rb.idx
    have hend : o.rb.toEd.line.delete.right = [] ↔ r1.idx = r1.buf.length := by
      rw [← a2.line]
      have h2 : r1.idx ≤ r1.buf.length := hcur1
      simp only [Ed.line, List.drop_eq_nil_iff]; omega
    show ∃ t o', vimNormalKey c 120 o = .ok (t, o') ∧ _
    unfold Line.vimX
    by_cases he : r1.idx = r1.buf.length
    · obtain ⟨r2, b1, b2, _⟩ := edit_basic (o := { o with rb := r1 }) a2.quiet hn (k := .left) rfl (by simp [Ed.Trigger])
      rw [if_pos he, b1, R.bind_ok] at hv
      refine ⟨0, _, normal_move (not_stop (by decide)) hv, .inl ⟨rfl, b2.quiet, ?_, b2.mode, rfl, rfl, rfl, rfl, rfl, rfl⟩⟩
      rw [b2.line, if_pos (hend.2 he)]
      exact congrArg Line.goLeft a2.line
    · rw [if_neg he] at hv
      refine ⟨0, _, normal_move (not_stop (by decide)) hv, .inl ⟨rfl, a2.quiet, ?_, a2.mode, rfl, rfl, rfl, rfl, rfl, rfl⟩⟩
      rw [a2.line, if_neg (fun a => he (hend.1 a))]
  | dd => exact mv (k := .erase) (by decide) rfl (readM hi rfl rfl) (bas (qt _) (nt _) rfl (by simp [Ed.Trigger]))
  | dh => exact mv (k := .backspace) (by decide) rfl (readM hi rfl rfl) (bas (qt _) (nt _) rfl (by simp [Ed.Trigger]))
  | dl => exact mv (k := .delete) (by decide) rfl (readM hi rfl rfl) (bas (qt _) (nt _) rfl (by simp [Ed.Trigger]))
  | dw hz =>
    obtain ⟨e', e1⟩ := core_cutWord hcur hz
    exact mv (k := .deleteWord) (by decide) rfl (readM hi rfl rfl) (cor (qt _) (nt _) e1 (by simp [Ed.Trigger]))
  | @dOther _ k n1 n2 n3 n4 =>
    refine ⟨0, o.took k rest, normal_move (not_stop (by decide)) (readM hi rfl ?_),
      .inl ⟨rfl, qt k, rfl, by simp [nt], rfl, rfl, rfl, rfl, rfl, rfl⟩⟩
    dsimp only
    rw [if_neg n1, if_neg n4, if_neg n2, if_neg n3]
  | p => exact mv (k := .yank) (by decide) rfl rfl (bas h hn rfl (by simp [Ed.Trigger]))
  | @r _ y ys x hr =>
    have hlt : o.rb.idx < o.rb.buf.length := by
      rcases Nat.lt_or_ge o.rb.idx o.rb.buf.length with h | h
      · exact h
      · have : o.rb.toEd.line.right = [] := List.drop_eq_nil_of_le h
        rw [this] at hr; cases hr
    refine mv (k := .replace x) (by decide) rfl (readM hi rfl rfl)
      (cor (qt _) (nt _) ⟨(core_replace x (o.took x rest).rb.toEd).1 hlt, ?_⟩ (by simp only [Ed.Trigger]; exact fun a => absurd a (Nat.ne_of_lt hlt)))
    have h3 : (o.rb.buf.take o.rb.idx).length = o.rb.idx := by rw [List.length_take]; omega
    have hys : ys = o.rb.buf.drop (o.rb.idx + 1) := by
      have : (o.rb.buf.drop o.rb.idx).tail = ys := by
        show o.rb.toEd.line.right.tail = ys
        rw [hr]; rfl
      rw [← this, List.tail_drop]
    rw [hys]
    show Line.mk ((o.rb.buf.take o.rb.idx ++ _).take o.rb.idx) ((o.rb.buf.take o.rb.idx ++ _).drop o.rb.idx) _ = Line.mk (o.rb.buf.take o.rb.idx) _ _
    rw [List.take_left' h3, List.drop_left' h3]
    rfl

/-- A command of normal mode, as one iteration of the loop. -/
theorem iter_vim (hp : Plain c) {o : Op} (h : Quiet c o) (hv : c.vim = true) (hn : o.vimNormal = true) (hl : o.Live)
    {ks rest : List Rune} {z : Line} {ins : Bool} (hc : VimCmd ks o.rb.toEd.line z ins) (hs : ∀ k ∈ ks, stopKey k = false)
    (hi : o.inp = ks ++ rest) :
    ∃ o', o.iter c = .ok o' ∧ Quiet c o' ∧ o'.rb.toEd.line = z ∧ o'.vimNormal = !ins ∧ o'.inp = rest ∧ o'.events = o.events ∧
      o'.stopped = o.stopped ∧ o'.Live ∧ (ks ≠ [104] → ks ≠ [108] → o'.hist = o.hist) := by
  obtain ⟨key, ks, rfl⟩ : ∃ k l, ks = k :: l := by cases hc <;> exact ⟨_, _, rfl⟩
  have h0 : key ≠ 0 := by
    cases hc with
    | start _ hk => rcases hk with rfl | rfl <;> decide
    | b hk => rcases hk with rfl | rfl <;> decide
    | w hk => rcases hk with rfl | rfl <;> decide
    | e hk => rcases hk with rfl | rfl <;> decide
    | f hk => rcases hk with rfl | rfl <;> decide
    | t hk => rcases hk with rfl | rfl <;> decide
    | find_none hk => rcases hk with rfl | rfl | rfl | rfl <;> decide
    | find_esc _ hk => rcases hk with rfl | rfl | rfl | rfl <;> decide
    | _ => decide
  have hi : o.inp = key :: (ks ++ rest) := hi
  have hlen : ks = [] ∨ ∃ k, ks = [k] := by cases hc <;> first | exact .inl rfl | exact .inr ⟨_, rfl⟩
  have hk0 : stopKey key = false := hs key (by simp)
  have hl1 : (o.took key (ks ++ rest)).Live := .inl hk0
  obtain ⟨t, o', e1, e2⟩ := vim_cmd (o := o.took key (ks ++ rest)) (rest := rest) (h.took _ _) hn hl1 hc rfl
  rw [iter_nomenu hl hp.filter hi h0 h.nosel]
  unfold viaVim
  rw [if_pos hv]
  unfold handleVim
  rw [if_pos (show (o.took key (ks ++ rest)).vimNormal = true from hn), e1, R.bind_ok]
  dsimp only
  rcases e2 with ⟨rfl, d⟩ | ⟨rfl, rfl, hkey, rfl, e2⟩
  · rw [if_pos rfl]
    refine ⟨o', rfl, d.quiet, d.line, d.mode, ?_⟩
    rcases hlen with rfl | ⟨k, rfl⟩
    · exact ⟨d.inp, d.events, d.stopped, .inl (d.live.1.trans hk0), fun _ _ => d.hist⟩
    · exact ⟨d.inp, d.events, d.stopped, .inl (d.live.1.trans (hs k (by simp))), fun _ _ => d.hist⟩
  · have hed : Edits t (o.took key ([] ++ rest)).rb.toEd.line z ∧ t ≠ 0 := by
      rcases e2 with ⟨rfl, rfl⟩ | ⟨rfl, rfl⟩
      · exact ⟨.inl rfl, by decide⟩
      · exact ⟨.inl rfl, by decide⟩
    rw [if_neg hed.2]
    obtain ⟨k, e1, e2, e3, e4, e5, e6, e7, e8⟩ := key_edit (c := c) (h.took key ([] ++ rest)) hed.1
    refine ⟨_, by rw [dispatch_quiet hp.listener e1 e3.quiet, e2, if_pos rfl], e3.quiet.update, e4, ?_, e3.inp, e3.events, e3.stopped, ?_, ?_⟩
    · exact e3.vimNormal.trans hn
    · left
      exact e3.gate.trans hk0
    · intro a b
      rcases hkey with rfl | rfl
      · exact (a rfl).elim
      · exact (b rfl).elim

/-! ### Keys that cannot add text -/

/-- The commands that cannot add text. -/
def shrinking : Cmd → Bool
  | .home | .toEnd | .left | .right | .delete | .erase | .deleteWord | .backspace | .prevWord | .nextWord | .endWord | .moveTo .. => true
  | _ => false

theorem core_shrinks {k : Cmd} (hk : shrinking k = true) {e e' : Ed} (hi : e.CursorIn) (h : k.core e = .ok e') : e'.buf.Sublist e.buf := by
  have bas : ∀ {f}, basic k = some f → (f e.line).text.Sublist e.line.text → e'.buf.Sublist e.buf := by
    intro f hf hs
    obtain ⟨e1, a, _, b⟩ := core_basic hf hi
    rw [h, Except.ok.injEq] at a
    subst a
    rw [← b, Ed.line_text, Ed.line_text] at hs
    exact hs
  cases k with
  | home => exact bas rfl (by simp [Line.home, Line.text])
  | toEnd => exact bas rfl (by simp [Line.toEnd, Line.text])
  | left =>
    refine bas rfl ?_
    unfold Line.goLeft
    split
    · exact .refl _
    · next x hx =>
      obtain ⟨l, hl⟩ := List.getLast?_eq_some_iff.1 hx
      simp [Line.text, hl]
  | right =>
    refine bas rfl ?_
    unfold Line.goRight
    split
    · exact .refl _
    · next x xs hx => simp [Line.text, hx]
  | delete =>
    refine bas rfl ?_
    unfold Line.delete
    split
    · exact .refl _
    · next x xs hx =>
      simp only [Line.text, hx]
      exact List.Sublist.append (.refl _) (List.sublist_cons_self _ _)
  | erase => exact bas rfl (by simp [Line.erase, Line.text])
  | backspace => exact bas rfl (List.Sublist.append (List.dropLast_sublist _) (.refl _))
  | deleteWord =>
    have hi' : e.idx ≤ e.buf.length := hi
    rcases Nat.lt_or_ge e.idx e.buf.length with hlt | hge
    · obtain ⟨init, m, _, _, _, _, a5, _, _, a8⟩ := core_deleteWord hi hlt
      rw [h, Except.ok.injEq] at a8
      rw [a8]
      conv => rhs; rw [← List.take_append_drop e.idx e.buf]
      refine List.Sublist.append (.refl _) ?_
      rw [show m = e.idx + (m - e.idx) by omega, ← List.drop_drop]
      exact List.drop_sublist _ _
    · rw [core_deleteWord_end (Nat.le_antisymm hi' hge), Except.ok.injEq] at h
      rw [← h]; exact .refl _
  | prevWord =>
    obtain ⟨m, a, _⟩ := core_prevWord hi
    rw [h, Except.ok.injEq] at a
    rw [a]; exact .refl _
  | nextWord =>
    obtain ⟨m, a, _⟩ := core_nextWord e
    rw [h, Except.ok.injEq] at a
    rw [a]; exact .refl _
  | endWord =>
    by_cases ht : (∃ c, e.idx + 1 = e.buf.length ∧ e.buf[e.idx]? = some c ∧ WordChar c)
    · rw [(core_endWord hi).1 ht] at h; cases h
    · obtain ⟨m, a, _⟩ := (core_endWord hi).2 ht
      rw [h, Except.ok.injEq] at a
      rw [a]; exact .refl _
  | moveTo ch p rv =>
    simp only [Cmd.core] at h
    cases rv with
    | false =>
      rcases moveToC_fwd ch p e with ⟨m, _, _, a⟩ | ⟨_, a⟩
      all_goals
        rw [a, R.map_ok, Except.ok.injEq] at h
        rw [← h]; exact .refl _
    | true =>
      rcases moveToC_bwd ch p e hi with ⟨m, _, a⟩ | ⟨_, a⟩
      all_goals
        rw [a, R.map_ok, Except.ok.injEq] at h
        rw [← h]; exact .refl _
  | _ => cases hk

/-- The state after a key that adds no text. -/
structure NoText (o o' : Op) : Prop where
  sub : o'.rb.buf.Sublist o.rb.buf
  mode : o'.vimNormal = o.vimNormal
  events : o'.events = o.events

theorem edit_noText {o o' : Op} (hi : o.rb.toEd.CursorIn) {k : Cmd} (hk : shrinking k = true) (h : o.edit c k = .ok o') : NoText o o' := by
  obtain ⟨r, rfl, h1, _⟩ := edit_ok h
  exact ⟨core_shrinks hk hi h1, rfl, rfl⟩

theorem edit_cursorIn {o o' : Op} (hi : o.rb.toEd.CursorIn) (h : o.edit c .delete = .ok o') : o'.rb.toEd.CursorIn := by
  obtain ⟨r, rfl, h1, _⟩ := edit_ok h
  obtain ⟨e', a, b, _⟩ := core_basic (c := .delete) rfl hi
  rw [h1, Except.ok.injEq] at a
  rw [← a] at b
  exact b

theorem readRune_noText {o o' : Op} {r : Rune} (h : o.readRune = .ok (r, o')) : NoText o o' ∧ o'.rb = o.rb := by
  obtain ⟨_, _, _, h1, _, h2, _, _, _, h3, _⟩ := readRune_gate h
  exact ⟨⟨by rw [h2]; exact .refl _, h3, h1⟩, h2⟩

theorem NoText.trans {a b d : Op} (h : NoText a b) (h' : NoText b d) : NoText a d :=
  ⟨h'.sub.trans h.sub, h'.mode.trans h.mode, h'.events.trans h.events⟩
theorem NoText.refl (o : Op) : NoText o o := ⟨.refl _, rfl, rfl⟩

/-- The movement commands other than `j`, `k`, `p` and `r`. -/
theorem vimMovement_noText {o o' : Op} {r t : Rune} (hi : o.rb.toEd.CursorIn) (h1 : r ≠ 106 ∧ r ≠ 107 ∧ r ≠ 112 ∧ r ≠ 114)
    (h : vimMovement c r o = .ok (some (t, o'))) : NoText o o' ∧ o'.rb.toEd.CursorIn ∧ (t = 0 ∨ t = CharBackward ∨ t = CharForward) ∨ t = 0 ∧ NoText o o' := by
  unfold vimMovement at h
  dsimp only at h
  have ed : ∀ {o1 : Op} {k}, NoText o o1 → o1.rb.toEd.CursorIn → shrinking k = true →
      (do let o ← o1.edit c k; (.ok (some (0, o)) : R (Option (Rune × Op)))) = .ok (some (t, o')) → t = 0 ∧ NoText o o' := by
    intro o1 k g gi hk h
    obtain ⟨o2, a, b⟩ := R.bind_inv h
    cases b
    exact ⟨rfl, g.trans (edit_noText gi hk a)⟩
  have rf := NoText.refl o
  by_cases k1 : r = 104
  · rw [if_pos k1] at h; cases h; exact .inl ⟨rf, hi, .inr (.inl rfl)⟩
  rw [if_neg k1, if_neg h1.1, if_neg h1.2.1] at h
  by_cases k2 : r = 108
  · rw [if_pos k2] at h; cases h; exact .inl ⟨rf, hi, .inr (.inr rfl)⟩
  rw [if_neg k2] at h
  right
  by_cases k3 : r = 48 ∨ r = 94
  · rw [if_pos k3] at h; exact ed rf hi rfl h
  rw [if_neg k3] at h
  by_cases k4 : r = 36
  · rw [if_pos k4] at h; exact ed rf hi rfl h
  rw [if_neg k4] at h
  by_cases k5 : r = 120
  · rw [if_pos k5] at h
    obtain ⟨o1, a, h⟩ := R.bind_inv h
    have g := edit_noText hi rfl a
    split at h
    · exact ed g (edit_cursorIn hi a) rfl h
    · cases h; exact ⟨rfl, g⟩
  rw [if_neg k5, if_neg h1.2.2.2] at h
  by_cases k6 : r = 100
  · rw [if_pos k6] at h
    obtain ⟨⟨n, o1⟩, a, h⟩ := R.bind_inv h
    dsimp only at h
    obtain ⟨g, gr⟩ := readRune_noText a
    have gi : o1.rb.toEd.CursorIn := by rw [gr]; exact hi
    by_cases j1 : n = 100
    · rw [if_pos j1] at h; exact ed g gi rfl h
    rw [if_neg j1] at h
    by_cases j2 : n = 119
    · rw [if_pos j2] at h; exact ed g gi rfl h
    rw [if_neg j2] at h
    by_cases j3 : n = 104
    · rw [if_pos j3] at h; exact ed g gi rfl h
    rw [if_neg j3] at h
    by_cases j4 : n = 108
    · rw [if_pos j4] at h; exact ed g gi rfl h
    rw [if_neg j4] at h
    cases h; exact ⟨rfl, g⟩
  rw [if_neg k6, if_neg h1.2.2.1] at h
  by_cases k7 : r = 98 ∨ r = 66
  · rw [if_pos k7] at h; exact ed rf hi rfl h
  rw [if_neg k7] at h
  by_cases k8 : r = 119 ∨ r = 87
  · rw [if_pos k8] at h; exact ed rf hi rfl h
  rw [if_neg k8] at h
  by_cases k9 : r = 101 ∨ r = 69
  · rw [if_pos k9] at h; exact ed rf hi rfl h
  rw [if_neg k9] at h
  by_cases k10 : r = 102 ∨ r = 70 ∨ r = 116 ∨ r = 84
  · rw [if_pos k10] at h
    obtain ⟨⟨n, o1⟩, a, h⟩ := R.bind_inv h
    dsimp only at h
    obtain ⟨g, gr⟩ := readRune_noText a
    have gi : o1.rb.toEd.CursorIn := by rw [gr]; exact hi
    by_cases j1 : n = CharEsc
    · rw [if_pos j1] at h; cases h; exact ⟨rfl, g⟩
    rw [if_neg j1] at h
    exact ed g gi rfl h
  rw [if_neg k10] at h
  cases h

/-- The keys that enter insert mode. -/
def insertKeys : List Rune := [105, 73, 97, 65, 115, 83, 99]

theorem vimEnterInsert_none {o : Op} {r : Rune} (h : r ∉ insertKeys) : vimEnterInsert c r o = .ok none := by
  simp only [insertKeys, List.mem_cons, List.not_mem_nil, or_false, not_or] at h
  obtain ⟨h1, h2, h3, h4, h5, h6, h7⟩ := h
  unfold vimEnterInsert
  dsimp only
  rw [if_neg h1, if_neg h2, if_neg h3, if_neg h4, if_neg h5, if_neg h6, if_neg h7]

theorem vimMovement_insertKey {o : Op} {r : Rune} (h : r ∈ insertKeys) : vimMovement c r o = .ok none := by
  simp only [insertKeys, List.mem_cons, List.not_mem_nil, or_false] at h
  rcases h with rfl | rfl | rfl | rfl | rfl | rfl | rfl <;> rfl

/-- The keys of normal mode that cannot add text. -/
theorem iter_noText {o o' : Op} (hv : c.vim = true) (hn : o.vimNormal = true) (hl : o.Live) (hf : c.filter = none) (ho : Observer c)
    (hs : o.comp.inSelect = false) (hcur : o.rb.toEd.CursorIn) {r : Rune} {rest : List Rune} (hi : o.inp = r :: rest)
    (h1 : r ∉ insertKeys) (h2 : r ∉ [0, 3, 13, 106, 107, 112, 114]) (h : o.iter c = .ok o') : NoText o o' := by
  simp only [List.mem_cons, List.not_mem_nil, or_false, not_or] at h2
  obtain ⟨n0, n1, n2, n3, n4, n5, n6⟩ := h2
  rw [iter_nomenu hl hf hi n0 hs] at h
  unfold viaVim handleVim vimNormalKey at h
  rw [if_pos hv, if_pos (show (o.took r rest).vimNormal = true from hn), if_neg (not_stop ⟨n2, n1⟩)] at h
  obtain ⟨⟨t, o1⟩, h, h3⟩ := R.bind_inv h
  dsimp only at h3
  obtain ⟨x, h4, h⟩ := R.bind_inv h
  have tk : NoText o (o.took r rest) := ⟨.refl _, rfl, rfl⟩
  cases x with
  | none =>
    dsimp only at h
    rw [vimEnterInsert_none h1, R.bind_ok] at h
    cases h
    rw [if_pos rfl] at h3
    cases h3
    exact ⟨.refl _, rfl, rfl⟩
  | some x =>
    obtain ⟨t', o2⟩ := x
    dsimp only at h
    cases h
    rcases vimMovement_noText (o := o.took r rest) hcur ⟨n3, n4, n5, n6⟩ h4 with ⟨g, gi, gt⟩ | ⟨rfl, g⟩
    · rcases gt with rfl | gt
      · rw [if_pos rfl] at h3; cases h3; exact tk.trans g
      · have hk : ∃ k, simpleKey t = some k ∧ shrinking k = true ∧ t ≠ 0 := by
          rcases gt with rfl | rfl
          · exact ⟨.left, rfl, rfl, by decide⟩
          · exact ⟨.right, rfl, rfl, by decide⟩
        obtain ⟨k, k1, k2, k3⟩ := hk
        rw [if_neg k3] at h3
        obtain ⟨kr, h5, f⟩ := dispatch_ok ho h3
        rw [key_simple k1] at h5
        obtain ⟨o3, h6, h5⟩ := R.bind_inv h5
        cases h5
        have g2 := edit_noText gi k2 h6
        refine tk.trans (g.trans (g2.trans ⟨?_, f.vimNormal, f.events⟩))
        have : o'.rb.toEd.buf = o3.rb.toEd.buf := by rw [f.line]
        exact this ▸ .refl _
    · rw [if_pos rfl] at h3; cases h3; exact tk.trans g

end Op
end RL
