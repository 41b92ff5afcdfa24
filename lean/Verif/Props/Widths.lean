import Verif.Spec.Widths
import Verif.Props.Search
/-! # C108: every part of the editor knows the width of the window -/

namespace RL
open Wid

variable {src : Nat → Nat}

private theorem wid_setConfig (s : St) (c : Nat) : (s.setConfig src c).win = s.win ∧ (s.setConfig src c).first = s.first ∧
    (s.setConfig src c).buf = s.buf ∧ (s.setConfig src c).backup = s.backup ∧ (s.setConfig src c).cur = c := by
  unfold St.setConfig
  split
  · rename_i h; exact ⟨rfl, rfl, rfl, rfl, h⟩
  · exact ⟨rfl, rfl, rfl, rfl, rfl⟩

private theorem wid_first (s : St) (a : Act) : (s.act src a).first = s.first := by
  cases a with
  | resize j w => show (if j = src s.first then St.notify src _ else _).first = _; split <;> rfl
  | setConfig c => exact (wid_setConfig s c).2.1
  | enter c => exact (wid_setConfig s c).2.1
  | leave =>
    show (match s.backup with | none => s | some c => { s.setConfig src c with backup := none }).first = _
    split
    · rfl
    · exact (wid_setConfig s _).2.1

private theorem wid_buf (s : St) (a : Act) (h : s.buf = s.win (src s.first)) : (s.act src a).buf = (s.act src a).win (src s.first) := by
  cases a with
  | resize j w =>
    show (if j = src s.first then St.notify src _ else _).buf = (if j = src s.first then St.notify src _ else _).win _
    split
    · rfl
    · rename_i hj
      show s.buf = if src s.first = j then w else s.win (src s.first)
      rw [if_neg (Ne.symm hj)]
      exact h
  | setConfig c =>
    show (s.setConfig src c).buf = (s.setConfig src c).win _
    rw [(wid_setConfig s c).1, (wid_setConfig s c).2.2.1]; exact h
  | enter c =>
    show (s.setConfig src c).buf = (s.setConfig src c).win _
    rw [(wid_setConfig s c).1, (wid_setConfig s c).2.2.1]; exact h
  | leave =>
    show (match s.backup with | none => s | some c => { s.setConfig src c with backup := none }).buf =
      (match s.backup with | none => s | some c => { s.setConfig src c with backup := none }).win _
    split
    · exact h
    · show (s.setConfig src _).buf = (s.setConfig src _).win _
      rw [(wid_setConfig s _).1, (wid_setConfig s _).2.2.1]; exact h

private theorem wid_win (j : Nat) (s : St) (a : Act) : (s.act src a).win j = Spec.lastWidth j (s.win j) [a] := by
  cases a with
  | resize k w =>
    show (if k = src s.first then St.notify src _ else _).win j = if k = j then w else s.win j
    have e : (if j = k then w else s.win j) = if k = j then w else s.win j := by
      by_cases h : j = k
      · rw [if_pos h, if_pos h.symm]
      · rw [if_neg h, if_neg (Ne.symm h)]
    split <;> exact e
  | setConfig c => exact congrFun (wid_setConfig s c).1 j
  | enter c => exact congrFun (wid_setConfig s c).1 j
  | leave =>
    show (match s.backup with | none => s | some c => { s.setConfig src c with backup := none }).win j = s.win j
    split
    · rfl
    · exact congrFun (wid_setConfig s _).1 j

private theorem lastWidth_cons (j : Nat) (w : Int) (a : Act) (as : List Act) :
    Spec.lastWidth j w (a :: as) = Spec.lastWidth j (Spec.lastWidth j w [a]) as := by
  cases a <;> rfl

private theorem wid_wins (j : Nat) : ∀ (as : List Act) (s : St), (s.acts src as).win j = Spec.lastWidth j (s.win j) as
  | [], _ => rfl
  | a :: as, s => by
    rw [lastWidth_cons, ← wid_win j s a]
    exact wid_wins j as (s.act src a)

/-- **C108.**  The edit line is always drawn for the width of the window of the first configuration, whatever configurations are
set and passwords read. -/
theorem C108_buffer (win : Nat → Int) (c : Nat) (as : List Act) :
    ((new src win c).acts src as).buf = Spec.lastWidth (src c) (win (src c)) as := by
  have main : ∀ (as : List Act) (s : St), s.buf = s.win (src s.first) →
      (s.acts src as).buf = (s.acts src as).win (src s.first) := by
    intro as
    induction as with
    | nil => intro s h; exact h
    | cons a as ih =>
      intro s h
      have hf := wid_first (src := src) s a
      have := ih (s.act src a) (by rw [hf]; exact wid_buf s a h)
      rw [hf] at this
      exact this
  exact (main as (new src win c) rfl).trans (wid_wins (src c) as (new src win c))

/-- What holds of the completer when all configurations belong to one window `j`. -/
private theorem wid_comp {j : Nat} (hj : ∀ k, src k = j) (s : St) (a : Act) (h : s.comp = s.win j) :
    (s.act src a).comp = (s.act src a).win j := by
  have hc : ∀ c, (s.setConfig src c).comp = (s.setConfig src c).win j := by
    intro c
    unfold St.setConfig
    split
    · exact h
    · show s.win (src c) = s.win j; rw [hj]
  cases a with
  | resize k w =>
    show (if k = src s.first then St.notify src _ else _).comp = (if k = src s.first then St.notify src _ else _).win _
    rw [hj]
    split
    · show (if src s.first = k then w else s.win (src s.first)) = if j = k then w else s.win j; rw [hj]
    · rename_i hk
      show s.comp = if j = k then w else s.win j
      rw [if_neg (Ne.symm hk)]
      exact h
  | setConfig c => exact hc c
  | enter c => exact hc c
  | leave =>
    show (match s.backup with | none => s | some c => { s.setConfig src c with backup := none }).comp =
      (match s.backup with | none => s | some c => { s.setConfig src c with backup := none }).win _
    split
    · exact h
    · exact hc _

/-- **C108.**  So is the list of candidates, when all configurations belong to the same window (the default). -/
theorem C108_list {j : Nat} (hj : ∀ k, src k = j) (win : Nat → Int) (c : Nat) (as : List Act) :
    ((new src win c).acts src as).comp = Spec.lastWidth j (win j) as := by
  have main : ∀ (as : List Act) (s : St), s.comp = s.win j → (s.acts src as).comp = (s.acts src as).win j := by
    intro as
    induction as with
    | nil => intro s h; exact h
    | cons a as ih => intro s h; exact ih _ (wid_comp hj s a h)
  exact (main as (new src win c) (by show win (src c) = win j; rw [hj])).trans (wid_wins j as (new src win c))

/-- The search of configuration `c` is up to date if it exists. -/
private def Fresh (j c : Nat) (s : St) : Prop := ∀ v, s.search c = some v → v = s.win j

private theorem wid_fresh {j : Nat} (hj : ∀ k, src k = j) (c : Nat) (s : St) (a : Act) (h : Fresh j c s)
    (hs : ∀ k w, a = .resize k w → s.cur = c) : Fresh j c (s.act src a) := by
  have hc : ∀ d, Fresh j c (s.setConfig src d) := by
    intro d
    unfold St.setConfig
    split
    · exact h
    · intro v hv
      show v = s.win j
      have hv : (if c = d then (match s.search d with | none => some (s.win (src d)) | some v => some v) else s.search c) = some v := hv
      split at hv
      · rename_i hcd
        split at hv
        · rw [hj] at hv; exact (Option.some.inj hv).symm
        · rename_i u hu
          exact h v (by rw [hcd, hu]; exact hv)
      · exact h v hv
  cases a with
  | resize k w =>
    have hcur := hs k w rfl
    show Fresh j c (if k = src s.first then St.notify src _ else _)
    rw [hj]
    split
    · rename_i hk
      subst hk
      intro v hv
      have hv : (if c = s.cur then some (if src s.first = k then w else s.win (src s.first)) else s.search c) = some v := hv
      show v = if k = k then w else s.win k
      rw [if_pos hcur.symm, hj, if_pos rfl] at hv
      rw [if_pos rfl]
      exact (Option.some.inj hv).symm
    · rename_i hk
      intro v hv
      show v = if j = k then w else s.win j
      rw [if_neg (Ne.symm hk)]
      exact h v hv
  | setConfig d => exact hc d
  | enter d => exact hc d
  | leave =>
    show Fresh j c (match s.backup with | none => s | some c => { s.setConfig src c with backup := none })
    split
    · exact h
    · exact hc _

/-- The current configuration always has a search. -/
private theorem wid_some (s : St) (a : Act) (h : s.searchWidth ≠ none) : (s.act src a).searchWidth ≠ none := by
  have hc : ∀ d, (s.setConfig src d).searchWidth ≠ none := by
    intro d
    unfold St.setConfig
    split
    · exact h
    · show (if d = d then (match s.search d with | none => some (s.win (src d)) | some v => some v) else s.search d) ≠ none
      rw [if_pos rfl]
      split <;> exact fun h => nomatch h
  cases a with
  | resize k w =>
    show (if k = src s.first then St.notify src _ else _).searchWidth ≠ none
    split
    · show (if s.cur = s.cur then some _ else _) ≠ none
      rw [if_pos rfl]; exact fun h => nomatch h
    · exact h
  | setConfig d => exact hc d
  | enter d => exact hc d
  | leave =>
    show (match s.backup with | none => s | some c => { s.setConfig src c with backup := none }).searchWidth ≠ none
    split
    · exact h
    · exact hc _

private theorem wid_desk (s : St) (a : Act) : ((s.act src a).cur, (s.act src a).backup) = Spec.desk (s.cur, s.backup) a := by
  cases a with
  | resize k w => show ((if k = src s.first then St.notify src _ else _).cur, (if k = src s.first then St.notify src _ else _).backup) = _; split <;> rfl
  | setConfig d => show ((s.setConfig src d).cur, (s.setConfig src d).backup) = (d, s.backup); rw [(wid_setConfig s d).2.2.2.1, (wid_setConfig s d).2.2.2.2]
  | enter d => show ((s.setConfig src d).cur, some s.cur) = (d, some s.cur); rw [(wid_setConfig s d).2.2.2.2]
  | leave =>
    cases hb : s.backup with
    | none =>
      have : s.act src .leave = s := by
        show (match s.backup with | none => s | some c => { s.setConfig src c with backup := none }) = s
        rw [hb]
      rw [this, hb]; rfl
    | some b =>
      have : s.act src .leave = { s.setConfig src b with backup := none } := by
        show (match s.backup with | none => s | some c => { s.setConfig src c with backup := none }) = _
        rw [hb]
      rw [this]
      show ((s.setConfig src b).cur, none) = (b, none)
      rw [(wid_setConfig s b).2.2.2.2]

/-- **C108 (partial).**  The search knows the width as well, if the window has been resized only while the configuration now current
was current. -/
theorem C108_search_partial {j : Nat} (hj : ∀ k, src k = j) (win : Nat → Int) (c : Nat) (as : List Act)
    (hw : Spec.Watched ((new src win c).acts src as).cur (c, none) as) :
    ((new src win c).acts src as).searchWidth = some (Spec.lastWidth j (win j) as) := by
  have main : ∀ (e : Nat) (as : List Act) (s : St), Fresh j e s → s.searchWidth ≠ none → Spec.Watched e (s.cur, s.backup) as →
      Fresh j e (s.acts src as) ∧ (s.acts src as).searchWidth ≠ none := by
    intro e as
    induction as with
    | nil => intro s h1 h2 _; exact ⟨h1, h2⟩
    | cons a as ih =>
      intro s h1 h2 h3
      refine ih (s.act src a) (wid_fresh hj e s a h1 ?_) (wid_some s a h2) ?_
      · intro k w he
        subst he
        exact h3.1
      · rw [wid_desk]
        cases a with
        | resize k w => exact h3.2
        | setConfig d => exact h3
        | enter d => exact h3
        | leave => exact h3
  have h0 : Fresh j ((new src win c).acts src as).cur (new src win c) := by
    intro v hv
    have hv : (if ((new src win c).acts src as).cur = c then some (win (src c)) else none) = some v := hv
    show v = win j
    split at hv
    · rw [hj] at hv; exact (Option.some.inj hv).symm
    · cases hv
  obtain ⟨h1, h2⟩ := main _ as (new src win c) h0 (by
    show (if c = c then some (win (src c)) else none) ≠ none
    rw [if_pos rfl]; exact fun h => nomatch h) hw
  cases hv : ((new src win c).acts src as).searchWidth with
  | none => exact absurd hv h2
  | some v => exact congrArg some ((h1 v hv).trans (wid_wins j as (new src win c)))

/-- Non-trivial case: a password, another configuration for a while, and a window resized in between. -/
example : let as := [Act.enter 5, .leave, .resize 0 40, .setConfig 2, .setConfig 1, .resize 0 50]
    Spec.Watched ((new (fun _ => 0) (fun _ => 80) 1).acts (fun _ => 0) as).cur (1, none) as ∧
      ((new (fun _ => 0) (fun _ => 80) 1).acts (fun _ => 0) as).searchWidth = some 50 ∧
      ((new (fun _ => 0) (fun _ => 80) 1).acts (fun _ => 0) (as.take 4)).searchWidth = some 40 :=
  ⟨⟨rfl, rfl, trivial⟩, by decide, by decide⟩

/-- **C108 is false for the search, 1.**  Whenever the window is resized while a password is read, the line and the list of candidates
know the new width afterwards, the search keeps the old one. -/
theorem C108_false_password {j : Nat} (hj : ∀ k, src k = j) (win : Nat → Int) {c d : Nat} (hd : d ≠ c) (w : Int) :
    let s := (new src win c).acts src [.enter d, .resize j w, .leave]
    s.cur = c ∧ s.buf = w ∧ s.comp = w ∧ s.searchWidth = some (win j) := by
  have hcd : (new src win c).cur ≠ d := Ne.symm hd
  have h1 : ((new src win c).act src (.enter d)).cur = d := (wid_setConfig (new src win c) d).2.2.2.2
  have hs1 : ((new src win c).act src (.enter d)).search c = some (win j) := by
    show ((new src win c).setConfig src d).search c = _
    unfold St.setConfig
    rw [if_neg hcd]
    show (if c = d then _ else if c = c then some (win (src c)) else none) = _
    rw [if_neg (Ne.symm hd), if_pos rfl, hj]
  have hb1 : ((new src win c).act src (.enter d)).backup = some c := rfl
  suffices hall : ∀ s, s = (((new src win c).act src (.enter d)).act src (.resize j w)).act src .leave →
      s.cur = c ∧ s.buf = w ∧ s.comp = w ∧ s.searchWidth = some (win j) from hall _ rfl
  intro s he
  generalize (new src win c).act src (.enter d) = s1 at h1 hs1 hb1 he
  have e2 : s1.act src (.resize j w) = St.notify src { s1 with win := fun k => if k = j then w else s1.win k } := by
    show (if j = src s1.first then St.notify src _ else _) = _
    rw [hj, if_pos rfl]
  have e3 : (s1.act src (.resize j w)).act src .leave = { (s1.act src (.resize j w)).setConfig src c with backup := none } := by
    show (match (s1.act src (.resize j w)).backup with | none => _ | some c => _) = _
    rw [e2]
    show (match s1.backup with | none => _ | some c => _) = _
    rw [hb1]
  have hw : (s1.act src (.resize j w)).win j = w := by
    rw [e2]
    show (if j = j then w else _) = w
    rw [if_pos rfl]
  have hb : (s1.act src (.resize j w)).buf = w := by
    rw [e2]
    show (if src s1.first = j then w else _) = w
    rw [hj, if_pos rfl]
  have hs : (s1.act src (.resize j w)).search c = some (win j) := by
    rw [e2]
    show (if c = s1.cur then _ else s1.search c) = _
    rw [if_neg (by rw [h1]; exact Ne.symm hd), hs1]
  have hc : (s1.act src (.resize j w)).cur = d := by rw [e2]; exact h1
  rw [e3] at he
  subst he
  generalize s1.act src (.resize j w) = s2 at hw hb hs hc
  have e4 := wid_setConfig (src := src) s2 c
  refine ⟨e4.2.2.2.2, e4.2.2.1.trans hb, ?_, ?_⟩
  · show (s2.setConfig src c).comp = w
    unfold St.setConfig
    rw [if_neg (by rw [hc]; exact hd)]
    show s2.win (src c) = w
    rw [hj, hw]
  · show (s2.setConfig src c).search (s2.setConfig src c).cur = some (win j)
    rw [e4.2.2.2.2]
    unfold St.setConfig
    rw [if_neg (by rw [hc]; exact hd)]
    show (if c = c then (match s2.search c with | none => some _ | some v => some v) else _) = _
    rw [if_pos rfl, hs]

/-- **C108 is false for the search, 2.**  The old width stays, whatever configurations are set and passwords read, as long as the
window is not resized again. -/
theorem C108_false_lasts {c : Nat} {v : Int} : ∀ {as : List Act} {s : St}, (∀ a ∈ as, ∀ k w, a ≠ .resize k w) → s.search c = some v →
    (s.acts src as).search c = some v
  | [], _, _, h => h
  | a :: as, s, hn, h => by
    have hc : ∀ d, (s.setConfig src d).search c = some v := by
      intro d
      unfold St.setConfig
      split
      · exact h
      · show (if c = d then (match s.search d with | none => some (s.win (src d)) | some v => some v) else s.search c) = some v
        split
        · rename_i hd
          rw [← hd, h]
        · exact h
    refine C108_false_lasts (as := as) (s := s.act src a) (fun b hb => hn b (List.mem_cons_of_mem _ hb)) ?_
    cases a with
    | resize k w => exact absurd rfl (hn _ (List.mem_cons_self ..) k w)
    | setConfig d => exact hc d
    | enter d => exact hc d
    | leave =>
      show (match s.backup with | none => s | some c => { s.setConfig src c with backup := none }).search c = some v
      split
      · exact h
      · exact hc _

/-- **C108.**  The next change of the width repairs it: all three parts know the new width. -/
theorem C108_recovers (s : St) (w : Int) : (s.act src (.resize (src s.first) w)).buf = w ∧
    (s.act src (.resize (src s.first) w)).comp = w ∧ (s.act src (.resize (src s.first) w)).searchWidth = some w := by
  have e : s.act src (.resize (src s.first) w) =
      St.notify src { s with win := fun k => if k = src s.first then w else s.win k } := if_pos rfl
  rw [e]
  refine ⟨if_pos rfl, if_pos rfl, ?_⟩
  show (if s.cur = s.cur then some (if src s.first = src s.first then w else _) else _) = _
  rw [if_pos rfl, if_pos rfl]

/-- **C108 is false for a configuration with a window of its own.**  The line goes on being drawn for the width of the old window,
and changes of the new one are never noticed: no part of the editor has its width. -/
theorem C108_false_window : let s := (new id (fun j => if j = 0 then 80 else 40) 0).acts id [.setConfig 1, .resize 1 30]
    s.win 1 = 30 ∧ s.buf = 80 ∧ s.comp = 40 ∧ s.searchWidth = some 40 := by decide

/-- **C108.**  What the width of the search is for: after every step of a search the cursor is put into column `x mod width`, where `x`
is the number of columns from the start of the prompt to the cursor. -/
theorem C108_column {U : UTables} {s s' : Search} {r r' : RB} {x : Int} (h : s.searchRefresh U r x = .ok (s', r')) :
    ∃ (cw p : Nat) (pre : List Tok) (n : Int), r.currentWidth U (if x < 0 then (r.idx : Int) else x).toNat = .ok cw ∧
      r.promptLen U = .ok p ∧ r'.out = pre ++ [.cr, .up n] ++
        (if (cw + p : Int).tmod s.width > 0 then [.right ((cw + p : Int).tmod s.width)] else []) := by
  unfold Search.searchRefresh at h
  obtain ⟨cw, h1, h⟩ := R.bind_inv h
  obtain ⟨p, h2, h⟩ := R.bind_inv h
  obtain ⟨y, h3, h⟩ := R.bind_inv h
  obtain ⟨r1, h4, h⟩ := R.bind_inv h
  obtain ⟨n, h5, h⟩ := R.bind_inv h
  obtain ⟨b, h6, h⟩ := R.bind_inv h
  cases h
  unfold modR at h3
  split at h3
  · cases h3
  · cases h3
    unfold Search.banner at h6
    obtain ⟨nl, h7, h6⟩ := R.bind_inv h6
    cases h6
    refine ⟨cw, p, r1.out ++ (nl ++ [.eraseBelow] ++ (if (s.setState x).failing then Search.lit "failing " else []) ++
      (if (s.setState x).fwd then Search.lit "fwd" else Search.lit "bck") ++ Search.lit "-i-search: " ++ (s.setState x).data.map Tok.ch ++
      [.sgr (str "4"), .ch 32, .sgr (str "0")]), n, h1, h2, ?_⟩
    show r1.out ++ _ = _
    simp only [List.append_assoc, List.cons_append, List.nil_append]

/-- The last movement to the right written while the user types `keys` into a window of width 10; the search believes in `w`. -/
private def lastRight (w : Int) (keys : List Rune) : R (Option Tok) := do
  let o := Op.init [62, 32] true 10 (Hist.fresh []) keys
  let o := { o with search := { o.search with width := w } }
  let o ← o.refreshNil c0
  let o ← o.kickRead.iters c0 keys.length
  .ok o.rb.out.getLast?

/-- The situation of `C108_false_password` on the screen: a window of 80 columns has become one of 10.  The prompt and "abcdefghijk" are
13 columns, so the cursor belongs into column 3 of the second row; Ctrl-R sends it to column 13. -/
theorem C108_false_column : lastRight 80 [97, 98, 99, 100, 101, 102, 103, 104, 105, 106, 107, 18] = .ok (some (.right 13)) ∧
    lastRight 10 [97, 98, 99, 100, 101, 102, 103, 104, 105, 106, 107, 18] = .ok (some (.right 3)) := by decide +kernel

end RL
