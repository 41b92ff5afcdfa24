import Verif.Proofs.HeapRun
/-!
# C55, C56, C65: texts share memory

Texts are slices of arrays here (`Verif.Model.Heap`); every theorem is for all ways `append` may choose capacities.
-/

namespace RL.Mem

/-- States reached by the steps of `Operation` other than search hits, with no command leaving the line (C07). -/
inductive Reach (grow : Nat → Nat → Nat) (limit : Int) : St → Prop
  | init : Reach grow limit .init
  | step {s s' : St} (a : Act) : Reach grow limit s → a.Safe s → a.run grow limit s = .ok s' → Reach grow limit s'

variable {grow : Nat → Nat → Nat} {limit : Int} {s s' : St}

theorem Reach.own (r : Reach grow limit s) : s.Own := by
  induction r with
  | init => exact init_own
  | @step s s' a r hs h ih =>
    have st := step_refines (grow := grow) (limit := limit) ih hs
    rw [h] at st
    cases hv : a.value limit ⟨s.b.abs, s.hist⟩ with
    | error => rw [hv] at st; cases st
    | ok v => rw [hv] at st; exact st.1

/-- An example of `append`: at least double the capacity. -/
def double (cap need : Nat) : Nat := max need (2 * cap)

/-! ### C55: editing the line does not change stored entries -/

/-- C55, without search hits: an editing command changes neither the text nor the pending edit of any entry. -/
theorem C55_entries_kept_partial (r : Reach grow limit s) (c : Cmd) (cap : Nat) (ht : ¬ s.b.abs.Trigger c)
    (h : s.cmd grow c cap = .ok s') :
    s'.order = s.order ∧ ∀ x, x < s.next → s'.get (s'.elems x).src = s.get (s.elems x).src ∧
      s'.get (s'.elems x).tmp = s.get (s.elems x).tmp ∧ (s'.elems x).version = (s.elems x).version := by
  have sp := cmd_spec (grow := grow) r.own c cap ht
  rw [h] at sp
  cases hv : c.core s.b.abs with
  | error => rw [hv] at sp; cases sp
  | ok e =>
    rw [hv] at sp
    obtain ⟨_, h2, _⟩ : s'.Own ∧ s'.hist = s.hist ∧ Sim s'.b e := sp
    refine ⟨congrArg Hist.order h2, fun x hx => ?_⟩
    have hn : s'.next = s.next := congrArg Hist.next h2
    have hit : s'.item x = s.item x := congrFun (congrArg Hist.elems h2) x
    rw [item_lt hx, item_lt (by omega)] at hit
    injection hit with e1 e2 e3
    exact ⟨e1, e3, e2⟩

/-- C55: recalling an entry puts a copy into the line. -/
theorem C55_recall_copies (r : Reach grow limit s) (up : Bool) (h : (if up then Act.up else Act.down).run grow limit s = .ok s') :
    ∀ x, x < s'.next → s'.get (s'.elems x).src = s.get (s.elems x).src ∧ (s'.elems x).src.arr ≠ s'.b.buf.arr ∧
      (s'.elems x).tmp.arr ≠ s'.b.buf.arr := by
  intro x hx
  have safe : (if up then Act.up else Act.down).Safe s := by cases up <;> trivial
  have o' := (Reach.step _ r safe h).own
  refine ⟨?_, o'.buf x hx⟩
  have st := step_refines (grow := grow) (limit := limit) r.own safe
  rw [h] at st
  obtain ⟨v, hv, hel⟩ : ∃ v, (if up then Act.up else Act.down).value limit ⟨s.b.abs, s.hist⟩ = .ok v ∧ v.h.elems = s.hist.elems ∧ v.h.next = s.next := by
    cases up
    · simp only [Act.value, Hist.nextLine, Bool.false_eq_true, if_false]
      cases s.hist.current with
      | none => exact ⟨_, rfl, rfl, rfl⟩
      | some c =>
        dsimp only
        cases s.hist.elemNext c <;> exact ⟨_, rfl, rfl, rfl⟩
    · simp only [Act.value, Hist.prev, if_true]
      cases s.hist.current with
      | none => exact ⟨_, rfl, rfl, rfl⟩
      | some c =>
        dsimp only
        cases s.hist.elemPrev c <;> exact ⟨_, rfl, rfl, rfl⟩
  rw [hv] at st
  obtain ⟨_, h2, _⟩ : Refines v s' := st
  have hn : s'.next = s.next := (congrArg Hist.next h2).trans hel.2
  have hit : s'.item x = s.item x := (congrFun (congrArg Hist.elems h2) x).trans (congrFun hel.1 x)
  rw [item_lt hx, item_lt (by omega)] at hit
  injection hit

/-- The hypotheses are met: "ab" is typed, noted and submitted, recalled, and its first rune deleted. -/
def recallEdit : List Act := [.cmd (.insert [97, 98]) 2, .note, .submit false true, .up, .cmd .home 0, .cmd .delete 0, .cmd .yank 0]

example : ∃ s, Reach double 500 s ∧ s.b.text = [97, 98] ∧ s.get (s.elems 0).src = [97, 98] ∧ ¬ s.b.abs.Trigger .delete ∧
    ∃ s', s.cmd double .delete 0 = .ok s' ∧ s'.b.text = [98] := by
  refine ⟨_, .step (.cmd .home 0) (.step .up (.step (.submit false true) (.step .note (.step (.cmd (.insert [97, 98]) 2) .init
    (fun h => h) rfl) trivial rfl) trivial rfl) trivial rfl) (fun h => h) rfl, rfl, rfl, fun h => h, _, rfl, rfl⟩

/-- The entry "hello" is stored, a search finds it, and the line is then edited. -/
def editHit : List Act := [.cmd (.insert [104, 101, 108, 108, 111]) 5, .submit false true, .found 0 2, .cmd .home 0, .cmd .delete 0]

/-- C55 is false: deleting a rune of an entry found by searching changes the entry ("hello" becomes "elloo"). -/
theorem C55_false_edit : (do let s ← runActs double 500 (editHit.take 2) St.init; .ok (s.get (s.elems 0).src)) = .ok [104, 101, 108, 108, 111] ∧
    (do let s ← runActs double 500 editHit St.init; .ok (s.get (s.elems 0).src)) = .ok [101, 108, 108, 111, 111] := by
  constructor <;> rfl

/-- With `UniqueEditLine`: the entry is found, Enter, and the next line is typed. -/
def submitHit : List Act := [.cmd (.insert [104, 101, 108, 108, 111]) 5, .submit true true, .found 0 2, .submit true false,
  .cmd (.insert [120]) 1, .cmd (.insert [121]) 1]

/-- C55 is false: typing after an entry found by searching has been submitted overwrites the entry ("xyllo"). -/
theorem C55_false_submit : (do let s ← runActs double 500 submitHit St.init; .ok (s.get (s.elems 0).src)) = .ok [120, 121, 108, 108, 111] := rfl

/-! ### C65: editing in place has the effect of editing values -/

/-- C65: a sequence of edits, recalls, notes, submissions and so on does the same to slices in memory as to values: it fails in the same
way, or ends with the same text, cursor, killed text and history. -/
theorem C65_runs_as_values (as : List Act) (hf : Follows limit as V.init) :
    Agree (fun v s => s.b.text = v.e.buf ∧ s.b.idx = v.e.idx ∧ s.b.heap.get s.b.kill = v.e.lastKill ∧ s.order = v.h.order ∧
        s.current = v.h.current ∧ s.ver = v.h.ver ∧
        ∀ x, x < s.next → s.get (s.elems x).src = (v.h.elems x).source ∧ s.get (s.elems x).tmp = (v.h.elems x).tmp)
      (runValues limit as V.init) (runActs grow limit as St.init) := by
  have st := refines_run (grow := grow) as init_refines hf
  cases hv : runValues limit as V.init with
  | error =>
    rw [hv] at st
    cases hr : runActs grow limit as St.init with
    | error => rw [hr] at st; exact st
    | ok => rw [hr] at st; cases st
  | ok v =>
    rw [hv] at st
    obtain ⟨s, h1, _, h3, h4⟩ := agree_ok st rfl
    rw [h1]
    refine ⟨h4.text, h4.idx, h4.kill, congrArg Hist.order h3, congrArg Hist.current h3, congrArg Hist.ver h3, fun x hx => ?_⟩
    have hit : s.item x = v.h.elems x := congrFun (congrArg Hist.elems h3) x
    rw [item_lt hx] at hit
    rw [← hit]
    exact ⟨rfl, rfl⟩

/-- The hypothesis is met by editing a recalled entry. -/
example : Follows 500 recallEdit V.init := by
  refine ⟨⟨by decide, by decide, fun h => h⟩, fun v h => ?_⟩; cases h
  refine ⟨trivial, fun v h => ?_⟩; cases h
  refine ⟨trivial, fun v h => ?_⟩; cases h
  refine ⟨trivial, fun v h => ?_⟩; cases h
  refine ⟨⟨by decide, by decide, fun h => h⟩, fun v h => ?_⟩; cases h
  refine ⟨⟨by decide, by decide, fun h => h⟩, fun v h => ?_⟩; cases h
  refine ⟨⟨by decide, by decide, fun h => h⟩, fun v h => ?_⟩; cases h
  trivial

/-- It ends with the entry intact and the recalled text in the line. -/
example : (do let v ← runValues 500 recallEdit V.init; .ok (v.e.buf, v.e.idx, (v.h.elems 0).source)) = .ok ([97, 98], 1, [97, 98]) := rfl

/-- C65: one command, whatever memory line, killed text and argument use, as long as they use different arrays. -/
theorem C65_command {b : Buf} {u : Slice} {c : Cmd} (w : b.WF) (hi : b.idx ≤ b.buf.len) (hs : Apart u b) (hc : Carries (b.heap.get u) c) :
    Agree (fun e' b' => b'.text = e'.buf ∧ b'.idx = e'.idx ∧ b'.heap.get b'.kill = e'.lastKill ∧
        ∀ t : Slice, t.Ok b.heap → t.arr ≠ b.buf.arr → t.arr ≠ u.arr → b'.heap.get t = b.heap.get t)
      (c.core b.abs) (b.apply grow u c) := by
  have h := apply_sim (grow := grow) w hi hs hc
  cases hv : c.core b.abs with
  | error =>
    rw [hv] at h
    cases hr : b.apply grow u c with
    | error => rw [hr] at h; exact h
    | ok => rw [hr] at h; cases h
  | ok e =>
    rw [hv] at h
    obtain ⟨b', h1, h2, h3⟩ := agree_ok h rfl
    rw [h1]
    exact ⟨h2.text, h2.idx, h2.kill, fun t ot n1 n2 => h3.keeps.get ot (fun h => h.elim n1 n2)⟩

/-! ### C56: `Backup` and `Restore` -/

/-- C56, if no command in between changes the line before the end of the saved text in place: `Restore` brings back text and cursor. -/
theorem C56_restore_partial (r : Reach grow limit s) (cs : List (Cmd × Nat)) (hg : Gentle s.b.text.length False (cs.map (·.1)) s.b.abs)
    (k k' : Nat) :
    ∃ s', runActs grow limit (.cmd .backup k :: (cs.map (fun p => Act.cmd p.1 p.2) ++ [.cmd .restore k'])) s = .ok s' ∧
      s'.b.text = s.b.text ∧ s'.b.idx = s.b.idx := by
  have o := r.own
  obtain ⟨o1, hi1, ab1, f1, g1, l1, _⟩ := alloc_spec o [] k
  have J : Saved s.b.text.length False s.b.text s.b.idx s.b.abs
      { (s.alloc [] k).1 with b := { (s.alloc [] k).1.b with bck := some (s.b.buf, s.b.idx) } } := by
    have sp := cmd_spec (grow := grow) o .backup k (fun h => h)
    refine ⟨sp.1, ⟨congrArg Ed.buf ab1, rfl, congrArg Ed.lastKill ab1⟩, s.b.buf, rfl, congrArg Ed.buf ab1, o.wf.text.symm, fun _ => rfl, fun h => h.elim⟩
  obtain ⟨m, e, s2, h1, J2⟩ := saved_run (grow := grow) (limit := limit) cs J hg
  obtain ⟨t, b1, b2, _⟩ := J2.slot
  have ot : t.Ok s2.b.heap := J2.own.wf.bck _ b1
  refine ⟨{ (s2.alloc [] k').1 with b := { (s2.alloc [] k').1.b with buf := t, idx := s.b.idx } }, ?_, ?_, rfl⟩
  · show (runActs grow limit (cs.map (fun p => Act.cmd p.1 p.2) ++ [.cmd .restore k']) _) = _
    rw [runActs_append]
    refine (congrArg (· >>= runActs grow limit [.cmd .restore k']) h1).trans ?_
    simp only [R.bind_ok]
    simp only [runActs, Act.run, St.cmd, St.argRunes, Buf.apply]
    rw [show (s2.alloc [] k').1.b.bck = some (t, s.b.idx) from b1]
    rfl
  · exact (get_alloc ot _ _).trans b2

/-- The hypotheses are met: typing at the end, deleting what was typed, killing everything and yanking it back twice. -/
example : ∃ s, Reach double 500 s ∧ s.b.text = [97, 98, 99] ∧
    Gentle s.b.text.length False [.insert [120], .backspace, .home, .kill, .yank, .backspace, .delete, .transpose] s.b.abs := by
  refine ⟨_, .step (.cmd (.insert [97, 98, 99]) 3) .init (fun h => h) rfl, rfl, ?_⟩
  refine ⟨by decide, by decide, fun h => h, .inr (Nat.le_refl 3), fun v h => ?_⟩; cases h
  refine ⟨by decide, by decide, fun h => h, .inr (.inr (Nat.lt_succ_self 3)), fun v h => ?_⟩; cases h
  refine ⟨by decide, by decide, fun h => h, .inr trivial, fun v h => ?_⟩; cases h
  refine ⟨by decide, by decide, fun h => h, .inr trivial, fun v h => ?_⟩; cases h
  refine ⟨by decide, by decide, fun h => h, .inr trivial, fun v h => ?_⟩; cases h
  have hm : (((((False ∨ False) ∨ False) ∨ False) ∨ False) ∨ ([97, 98, 99] : List Rune) ≠ []) := .inr (by decide)
  refine ⟨by decide, by decide, fun h => h, .inl hm, fun v h => ?_⟩; cases h
  refine ⟨by decide, by decide, fun h => h, .inl (.inl hm), fun v h => ?_⟩; cases h
  refine ⟨by decide, by decide, ?_, .inl (.inl (.inl hm)), fun v h => ?_⟩
  · rintro ⟨h, _⟩; cases h
  · trivial

/-- "abc" is saved, a rune is deleted and another one typed, then restored: "abx" instead of "abc". -/
def overwrite : List Act := [.cmd (.insert [97, 98, 99]) 3, .cmd .backup 0, .cmd .backspace 0, .cmd (.insert [120]) 1, .cmd .restore 0]

/-- C56 is false: what is typed over a deleted rune shows up in the restored text. -/
theorem C56_false : (do let s ← runActs double 500 overwrite St.init; .ok s.b.text) = .ok [97, 98, 120] := rfl

end RL.Mem
