import Verif.Proofs.Shared
import Verif.Proofs.Keys
/-! # Several sessions on one history file: C84

The claim in full: whatever several sessions on one history file do, every line any of them records is found by those that begin later, in the
order of recording, up to the limit; and the file consists of whole recorded lines at every moment.  False in three ways (`C84_false_*`); proved
for sessions that begin one at a time, for files that never grow too long, and, as far as whole lines are concerned, for every order of events in
which no two sessions replace the file at the same time. -/

namespace RL
open Spec Hist Share

/-- C84: a session alone in this model is a session of C23. -/
theorem C84_alone (cfg : HCfg) (hf : cfg.hasFile = true) (ho : cfg.openOK = true) (d : List Nat) (left : Option (List Nat)) (n : Nat)
    (hn : (Hist.start cfg d).disk.length ≤ n) :
    ∃ s, Share.run cfg [.open 0, .tmp 0, .write 0 n, .rename 0] (Share.start d left) = .ok s ∧ (s.sess 0).phase = .ready ∧
      (s.sess 0).h.entries = (Hist.start cfg d).entries ∧ s.file = (Hist.start cfg d).disk ∧ (s.sess 0).ino = s.cur := by
  obtain ⟨k1, k2, _⟩ := start_spec cfg d hf ho
  have w0 : ({ fresh [] with fd := Fd.opened } : Hist).WF := { fresh_WF [] with }
  obtain ⟨t1, _, t3, t4, _⟩ := loadLines_texts cfg (termLines [] d) { fresh [] with fd := Fd.opened } w0 (by simp [fresh])
  have hs : ({ fresh [] with fd := Fd.opened } : Hist).order = [] := rfl
  rw [hs, List.map_nil, List.nil_append] at t1
  have hL : Loaded cfg (load cfg d) (keepNewest cfg.limit (fileTexts d)) := ⟨loadLines_WF w0 cfg _, t4, t3, t1, keepNewest_length _ _⟩
  by_cases hlen : ((termLines [] d).length : Int) > cfg.limit
  · rw [if_pos hlen] at k2
    let s0 := Share.start d left
    let k := s0.tmp.getD s0.next
    let s1 : Sys := { s0 with sess := upd s0.sess 0 ⟨load cfg d, 0, .loaded⟩ }
    let s2 : Sys := { s1 with
      data := upd s1.data k []
      tmp := some k
      next := if s0.tmp = none then s0.next + 1 else s0.next
      sess := upd s1.sess 0 ⟨load cfg d, 0, .writing k (fileOf (keepNewest cfg.limit (fileTexts d)))⟩ }
    let s3 : Sys := { s2 with
      data := upd s2.data k (fileOf (keepNewest cfg.limit (fileTexts d)))
      sess := upd s2.sess 0 ⟨load cfg d, 0, .writing k []⟩ }
    let s4 : Sys := { s3 with cur := k, tmp := none, sess := upd s3.sess 0 ⟨finish (load cfg d), k, .ready⟩ }
    have e1 : step cfg (.open 0) s0 = .ok s1 := by
      simp only [step, s0, Share.start, if_true]
      rw [if_pos hlen]
      rfl
    have e2 : step cfg (.tmp 0) s1 = .ok s2 := by
      have : s1.sess 0 = ⟨load cfg d, 0, .loaded⟩ := rfl
      simp only [step, this, if_true]
      rw [hL.content]
    have e3 : step cfg (.write 0 n) s2 = .ok s3 := by
      have h4 : s2.sess 0 = ⟨load cfg d, 0, .writing k (fileOf (keepNewest cfg.limit (fileTexts d)))⟩ := rfl
      have h5 : s2.data k = [] := upd_same _ _ _
      rw [k2] at hn
      simp only [step, h4, h5, List.nil_append]
      rw [List.take_of_length_le (by omega), List.drop_of_length_le (by omega)]
    have e4 : step cfg (.rename 0) s3 = .ok s4 := by
      have h4 : s3.sess 0 = ⟨load cfg d, 0, .writing k []⟩ := rfl
      have h5 : s3.tmp = some k := rfl
      simp only [step, h4, h5]
      rfl
    have self : s4.sess 0 = ⟨finish (load cfg d), k, .ready⟩ := rfl
    refine ⟨s4, ?_, by rw [self], ?_, ?_, by rw [self]⟩
    · show Share.run cfg _ s0 = _
      simp only [Share.run, e1, e2, e3, e4, R.bind_ok]
    · rw [self, hL.finish.entries, k1]
    · rw [k2]; exact upd_same _ _ _
  · rw [if_neg hlen] at k2
    let s0 := Share.start d left
    let s1 : Sys := { s0 with sess := upd s0.sess 0 ⟨finish (load cfg d), 0, .ready⟩ }
    have e1 : step cfg (.open 0) s0 = .ok s1 := by
      simp only [step, s0, Share.start, if_true]
      rw [if_neg hlen]
      rfl
    have self : s1.sess 0 = ⟨finish (load cfg d), 0, .ready⟩ := rfl
    have e2 : step cfg (.tmp 0) s1 = .ok s1 := by simp [step, self]
    have e3 : step cfg (.write 0 n) s1 = .ok s1 := by simp [step, self]
    have e4 : step cfg (.rename 0) s1 = .ok s1 := by simp [step, self]
    refine ⟨s1, ?_, by rw [self], ?_, ?_, by rw [self]; rfl⟩
    · show Share.run cfg _ s0 = _
      simp only [Share.run, e1, e2, e3, e4, R.bind_ok]
    · rw [self, hL.finish.entries, k1]
    · rw [k2]; rfl

/-- C84: sessions begin, record lines and end in any order; beginning is not interrupted.  The file and the entries of every session are those
the specification says: who begins has the newest lines of the file; a line is added to the file unless another session has shortened the file
since its author began. -/
theorem C84_sessions_partial (cfg : HCfg) (hl : 1 ≤ cfg.limit) (lines : List (List Rune)) (hs : ∀ e ∈ lines, Storable e) (left : Option (List Nat))
    {as m log} (h : SharedRun cfg.limit as (Shared.start lines) m log) :
    ∃ s, Share.run cfg as (Share.start (fileOf lines) left) = .ok s ∧ s.file = fileOf m.lines ∧
      ∀ i es, m.mem i = some es → (s.sess i).phase = .ready ∧ (s.sess i).h.entries = es := by
  obtain ⟨s, e, r⟩ := rel_run hl (start_Rel cfg hs left) h
  refine ⟨s, e, r.file, fun i es hi => ?_⟩
  obtain ⟨q1, q2, _⟩ := r.ready i es hi
  exact ⟨q1, q2.entries⟩

/-- In a file that never grows too long nothing is lost. -/
theorem shared_kept {limit : Int} {as m m' log} (h : SharedRun limit as m m' log) (hb : ((m.lines.length + log.length : Nat) : Int) ≤ limit)
    (hon : ∀ i es, m.mem i = some es → m.on i = true) : m'.lines = m.lines ++ log.map (·.2) ∧ ∀ i es, m'.mem i = some es → m'.on i = true := by
  induction h with
  | nil => exact ⟨by simp, hon⟩
  | @cons a as s s' s'' l l' h1 h2 ih =>
    have key : s'.lines = s.lines ++ l.map (·.2) ∧ ∀ i es, s'.mem i = some es → s'.on i = true := by
      cases h1 with
      | @join i _ p1 p2 =>
        refine ⟨by simp, fun j es hj => ?_⟩
        dsimp only at hj ⊢
        by_cases hji : j = i
        · subst hji; rw [upd_same]
        · rw [upd_other _ _ hji] at hj ⊢; exact hon j es hj
      | @trim i n _ p1 p2 p3 =>
        have : (s.lines.length : Int) ≤ ((s.lines.length + ([] ++ l').length : Nat) : Int) := by omega
        omega
      | @say i t _ es p1 p2 =>
        refine ⟨?_, fun j es' hj => ?_⟩
        · dsimp only
          rw [if_pos (hon i es p1), List.map_map]
          have hid : ((fun x : Nat × List Rune => x.2) ∘ fun t => (i, t)) = id := rfl
          rw [hid, List.map_id]
        · dsimp only at hj ⊢
          by_cases hji : j = i
          · subst hji; exact hon j es p1
          · rw [upd_other _ _ hji] at hj; exact hon j es' hj
      | @leave i _ =>
        refine ⟨by simp, fun j es hj => ?_⟩
        dsimp only at hj ⊢
        by_cases hji : j = i
        · subst hji; rw [upd_same] at hj; cases hj
        · rw [upd_other _ _ hji] at hj ⊢; exact hon j es hj
    obtain ⟨k1, k2⟩ := key
    have hlen : s'.lines.length = s.lines.length + l.length := by rw [k1]; simp
    obtain ⟨i1, i2⟩ := ih (by rw [hlen]; simp only [List.length_append] at hb; omega) k2
    refine ⟨?_, i2⟩
    rw [i1, k1]; simp

/-- C84: as long as the file is not longer than the limit, it has exactly the lines that were there and those recorded since, by whomever, in the
order they were recorded; who begins then has them all. -/
theorem C84_kept_partial (cfg : HCfg) (hl : 1 ≤ cfg.limit) (lines : List (List Rune)) (hs : ∀ e ∈ lines, Storable e) (left : Option (List Nat))
    {as m log} (h : SharedRun cfg.limit as (Shared.start lines) m log) (hb : ((lines.length + log.length : Nat) : Int) ≤ cfg.limit)
    (i : Nat) (hi : m.mem i = none) :
    ∃ s s', Share.run cfg as (Share.start (fileOf lines) left) = .ok s ∧ s.file = fileOf (lines ++ log.map (·.2)) ∧
      Share.run cfg [.open i] s = .ok s' ∧ s'.file = s.file ∧ (s'.sess i).phase = .ready ∧ (s'.sess i).h.entries = lines ++ log.map (·.2) := by
  obtain ⟨k1, _⟩ := shared_kept h hb (by simp [Shared.start])
  have k1' : m.lines = lines ++ log.map (·.2) := k1
  obtain ⟨s, e, r⟩ := rel_run hl (start_Rel cfg hs left) h
  obtain ⟨s', e', r'⟩ := rel_step hl r (.join (i := i) hi (by rw [k1']; simpa using hb))
  have hm := r'.ready i m.lines (by simp [upd_same])
  refine ⟨s, s', e, by rw [← k1']; exact r.file, e', ?_, hm.1, by rw [← k1']; exact hm.2.1.entries⟩
  show s'.data s'.cur = s.data s.cur
  rw [r'.file, r.file]

/-- C84: whatever the sessions do and whenever they die, if no two of them replace the file at the same time then the file consists of whole lines
at the end (so at every moment), each of which was there at first or was recorded; and no session fails. -/
theorem C84_whole_partial (cfg : HCfg) (hl : 1 ≤ cfg.limit) (lines : List (List Rune)) (hs : ∀ e ∈ lines, Storable e) (left : Option (List Nat))
    (as : List Share.Step) (ha : ∀ i t, .save i t ∈ as → t = [] ∨ Storable t) (h : OneWriter cfg as (Share.start (fileOf lines) left)) :
    ∃ s, Share.run cfg as (Share.start (fileOf lines) left) = .ok s ∧ Whole (fun e => e ∈ lines ∨ ∃ i, Share.Step.save i e ∈ as) s.file := by
  obtain ⟨s, e, r⟩ := sound_run (P := fun e => e ∈ lines ∨ ∃ i, Share.Step.save i e ∈ as) hl
    (start_Sound cfg (fun e he => ⟨hs e he, .inl he⟩) left) (fun i t hi => (ha i t hi).imp id fun h => ⟨h, .inr ⟨i, hi⟩⟩) h
  exact ⟨s, e, r.file⟩

/-! ## Examples -/

private def c84 : HCfg := ⟨2, true, false, true⟩
private def a : List Rune := [97]
private def b : List Rune := [98]
private def c : List Rune := [99]
private def d : List Rune := [100]

private theorem storable1 (r : Rune) (h : isSpace r = false) (h1 : r ≠ 10) (h2 : Scalar r) : Storable [r] :=
  ⟨by simp, by simpa using Ne.symm h1, by simpa using h, by simpa using h, by simpa using h2⟩

private theorem sa : Storable a := storable1 _ (by decide) (by decide) (by unfold Scalar; omega)
private theorem sb : Storable b := storable1 _ (by decide) (by decide) (by unfold Scalar; omega)
private theorem sc : Storable c := storable1 _ (by decide) (by decide) (by unfold Scalar; omega)
private theorem sd : Storable d := storable1 _ (by decide) (by decide) (by unfold Scalar; omega)

/-- What a file and a session are, for examples. -/
def Share.view (i : Nat) : R Sys → Option (List Nat × List (List Rune))
  | .ok s => some (s.file, (s.sess i).h.entries)
  | .error _ => none

/-- Two sessions; the third finds the lines of both in the order of recording. -/
example : Share.view 2 (Share.run ⟨10, true, false, true⟩ [.open 0, .open 1, .save 0 a, .save 1 b, .save 0 c, .close 0, .open 2] (Share.start (fileOf [d]) none)) =
    some (fileOf [d, a, b, c], [d, a, b, c]) := by decide +kernel

example : ∃ m log, SharedRun 10 ([.open 0] ++ ([.open 1] ++ ([.save 0 a] ++ ([.save 1 b] ++ [])))) (Shared.start [d]) m log ∧ log = [(0, a), (1, b)] ∧
    m.mem 2 = none ∧ m.lines = [d, a, b] := by
  refine ⟨_, _, .cons (.join rfl (by decide)) (.cons (.join rfl (by decide)) (.cons (.say rfl (.inr sa)) (.cons (.say rfl (.inr sb)) .nil))), ?_, ?_, ?_⟩ <;>
    decide +kernel

/-- C84 is false: a session that began before another one shortened the file records a line that nobody finds. -/
theorem C84_false_detached :
    Share.view 2 (Share.run c84 [.open 0, .save 0 c, .open 1, .tmp 1, .write 1 99, .rename 1, .save 0 d, .close 0, .open 2] (Share.start (fileOf [a, b]) none)) =
      some (fileOf [b, c], [b, c]) ∧
    Share.view 0 (Share.run c84 [.open 0, .save 0 c, .open 1, .tmp 1, .write 1 99, .rename 1, .save 0 d] (Share.start (fileOf [a, b]) none)) =
      some (fileOf [b, c], [c, d]) := by decide +kernel

/-- The same run is one of the specification: the hypotheses of `C84_sessions_partial` are met. -/
example : ∃ m log, SharedRun 2 ([.open 0] ++ ([.save 0 c] ++ ([.open 1, .tmp 1, .write 1 99, .rename 1] ++ ([.save 0 d] ++ [])))) (Shared.start [a, b]) m log ∧
    log = [(0, c), (0, d)] ∧ m.lines = [b, c] ∧ m.mem 0 = some [c, d] ∧ m.mem 1 = some [b, c] ∧ m.on 0 = false := by
  refine ⟨_, _, .cons (.join rfl (by decide)) (.cons (.say rfl (.inr sc)) (.cons (.trim rfl (by decide +kernel) (by decide +kernel))
    (.cons (.say rfl (.inr sd)) .nil))), ?_, ?_, ?_, ?_, ?_⟩ <;> decide +kernel

/-- C84 is false: a line recorded while another session is replacing the file is lost. -/
theorem C84_false_window :
    Share.view 2 (Share.run c84 [.open 0, .save 0 c, .open 1, .tmp 1, .save 0 d, .write 1 99, .rename 1, .open 2] (Share.start (fileOf [a, b]) none)) =
      some (fileOf [b, c], [b, c]) := by decide +kernel

/-- C84 is false: two sessions that replace the file at the same time use the same temporary file.  One of them empties it before the other gives it
the name of the history file; if that one dies then, all lines are gone. -/
theorem C84_false_tmp :
    Share.view 2 (Share.run c84 [.open 0, .tmp 0, .write 0 99, .open 1, .tmp 1, .rename 0, .close 1, .open 2] (Share.start (fileOf [a, b, c]) none)) =
      some ([], []) := by decide +kernel

/-- C84 is false: or both write to it and every line is there twice; or a line is torn. -/
theorem C84_false_mixed :
    Share.view 2 (Share.run c84 [.open 0, .open 1, .tmp 0, .tmp 1, .write 0 99, .write 1 99, .rename 0, .rename 1] (Share.start (fileOf [a, b, c]) none)) =
      some (fileOf [b, c, b, c], []) ∧
    Share.view 2 (Share.run c84 [.open 0, .open 1, .tmp 0, .tmp 1, .write 0 1, .write 1 99, .write 0 99, .rename 0] (Share.start (fileOf [a, b, c]) none)) =
      some (fileOf [[98, 98], c, [], c], []) := by decide +kernel

/-- The session a step belongs to. -/
def Share.Step.who : Share.Step → Nat
  | .open i | .tmp i | .write i _ | .rename i | .save i _ | .close i => i

def Share.Phase.isWriting : Share.Phase → Bool
  | .writing _ _ => true
  | _ => false

/-- A check for `OneWriter` with sessions below `n` only. -/
def oneWriterB (cfg : HCfg) (n : Nat) : List Share.Step → Sys → Bool
  | [], _ => true
  | a :: as, s =>
    a.who < n &&
    (match a with | .tmp _ => (List.range n).all fun j => !(s.sess j).phase.isWriting | _ => true) &&
    match Share.step cfg a s with | .ok s' => oneWriterB cfg n as s' | .error _ => true

theorem Share.step_other {cfg : HCfg} {a : Share.Step} {s s' : Sys} (h : Share.step cfg a s = .ok s') {j : Nat} (hj : j ≠ a.who) : s'.sess j = s.sess j := by
  cases a <;> simp only [Share.step, Share.Step.who] at h hj
  case close i => cases h; exact upd_other _ _ hj
  case «open» i =>
    split at h
    · split at h <;> (cases h; exact upd_other _ _ hj)
    · cases h; rfl
  case tmp i =>
    split at h
    · cases h; exact upd_other _ _ hj
    · cases h; rfl
  case write i n =>
    split at h
    · cases h; exact upd_other _ _ hj
    · cases h; rfl
  case rename i =>
    split at h
    · split at h <;> (cases h; exact upd_other _ _ hj)
    · cases h; rfl
  case save i t =>
    split at h
    · obtain ⟨h', _, h2⟩ := R.bind_inv h
      cases h2; exact upd_other _ _ hj
    · cases h; rfl

theorem oneWriterB_sound {cfg : HCfg} {n : Nat} {as : List Share.Step} {s : Sys} (h0 : ∀ j, n ≤ j → (s.sess j).phase = .off)
    (h : oneWriterB cfg n as s = true) : OneWriter cfg as s := by
  induction as generalizing s with
  | nil => exact .nil
  | cons a as ih =>
    simp only [oneWriterB, Bool.and_eq_true, decide_eq_true_eq] at h
    obtain ⟨⟨h1, h2⟩, h3⟩ := h
    refine .cons ?_ ?_
    · intro i hi j k left hj
      subst hi
      simp only [List.all_eq_true, List.mem_range] at h2
      by_cases hjn : j < n
      · have := h2 j hjn
        rw [hj] at this; cases this
      · rw [h0 j (by omega)] at hj; cases hj
    · intro s' hs'
      rw [hs'] at h3
      refine ih (fun j hj => ?_) h3
      rw [Share.step_other hs' (by omega)]; exact h0 j hj

/-- A run with two deaths, one of them in the middle of replacing the file, a line recorded meanwhile, and a temporary file left over. -/
example : OneWriter c84 [.open 0, .open 1, .save 0 c, .close 1, .open 1, .tmp 1, .write 1 1, .save 0 d, .close 1, .open 2, .tmp 2, .write 2 99, .rename 2]
    (Share.start (fileOf [a, b]) (some [7, 7])) :=
  oneWriterB_sound (n := 3) (fun _ _ => rfl) (by decide +kernel)

end RL
